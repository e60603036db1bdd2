import Verif.Front.Literal
import Mathlib.Data.Rat.Floor
import Mathlib.Algebra.Order.Field.Power
import Mathlib.Tactic.Ring
import Mathlib.Tactic.Linarith
import Mathlib.Tactic.NormNum
import Mathlib.Tactic.FieldSimp
import Mathlib.Tactic.Positivity

/-!
# C50: floating-point literals

Literals are not negative: the sign is an operator.  So a floating-point value is a rational number that is not
negative, infinity, or not a number.
-/

namespace Ispc.Literal

/-! ## IEEE 754 arithmetic on values that are not negative -/

/-- A binary format: the number of bits of the significand, the exponent of the smallest positive number, and the exponent
of the smallest power of two that is too large. -/
structure Fmt where
  p : Nat
  emin : Int
  emax : Int

def dbl : Fmt := ⟨53, -1074, 1024⟩
def flt : Fmt := ⟨24, -149, 128⟩

inductive Fp
  | fin (q : ℚ)
  | inf
  | nan
  deriving DecidableEq

/-- Specification: the numbers of the format. -/
def Fmt.Rep (f : Fmt) (x : ℚ) : Prop := ∃ (m : Nat) (e : Int), m < 2 ^ f.p ∧ f.emin ≤ e ∧ x = m * (2 : ℚ) ^ e ∧ x < (2 : ℚ) ^ f.emax

/-- The exponent of the largest power of two that is not greater than a positive number. -/
def ilog (x : ℚ) : Int :=
  let k : Int := (Nat.log2 x.num.toNat : Int) - (Nat.log2 x.den : Int)
  if (2 : ℚ) ^ k ≤ x then k else k - 1

/-- The nearest integer, the even one of two. -/
def rne (q : ℚ) : Int :=
  let r := q - ⌊q⌋
  if r < 1 / 2 then ⌊q⌋ else if 1 / 2 < r then ⌊q⌋ + 1 else if ⌊q⌋ % 2 = 0 then ⌊q⌋ else ⌊q⌋ + 1

/-- The exponent of the last bit of the significand of a number of the size of `x`. -/
def Fmt.unit (f : Fmt) (x : ℚ) : Int := max (ilog x - (f.p - 1)) f.emin

/-- Rounding to nearest, ties to even. -/
def Fmt.rnd (f : Fmt) (x : ℚ) : Fp :=
  if x = 0 then .fin 0
  else
    let y := (rne (x / (2 : ℚ) ^ f.unit x) : ℚ) * (2 : ℚ) ^ f.unit x
    if y < (2 : ℚ) ^ f.emax then .fin y else .inf

def Fp.add : Fp → Fp → Fp
  | .fin a, .fin b => dbl.rnd (a + b)
  | .nan, _ => .nan
  | _, .nan => .nan
  | _, _ => .inf

def Fp.mul : Fp → Fp → Fp
  | .fin a, .fin b => dbl.rnd (a * b)
  | .nan, _ => .nan
  | _, .nan => .nan
  | .inf, .fin b => if b = 0 then .nan else .inf
  | .fin a, .inf => if a = 0 then .nan else .inf
  | .inf, .inf => .inf

def Fp.div : Fp → Fp → Fp
  | .fin a, .fin b => if b = 0 then (if a = 0 then .nan else .inf) else dbl.rnd (a / b)
  | .nan, _ => .nan
  | _, .nan => .nan
  | .fin _, .inf => .fin 0
  | .inf, .fin _ => .inf
  | .inf, .inf => .nan

/-- The conversion from `double` to `float`. -/
def Fp.toFloat : Fp → Fp
  | .fin a => flt.rnd a
  | x => x

/-! ## The model -/

/-- The second loop of `ipow2` (src/lex.ll:1058-1059). -/
def ipow2Small : Nat → Fp → Fp
  | 0, r => r
  | n + 1, r => ipow2Small n (r.mul (.fin 2))

/-- The first loop of `ipow2` (src/lex.ll:1054-1057); `fuel` bounds the number of its rounds. -/
def ipow2Big : Nat → Nat → Fp → Fp
  | 0, n, r => ipow2Small n r
  | fuel + 1, n, r => if n > 16 then ipow2Big fuel (n - 16) (r.mul (.fin 65536)) else ipow2Small n r

/-- `ipow2` (src/lex.ll:1048-1061): `none` is undefined behaviour, the negation of the smallest `int`. -/
def ipow2 (e : BitVec 32) : Option Fp :=
  if e.toInt < 0 then
    if e = BitVec.intMin 32 then none
    else some ((Fp.fin 1).div (ipow2Big (-e.toInt).toNat (-e.toInt).toNat (.fin 1)))
  else some (ipow2Big e.toInt.toNat e.toInt.toNat (.fin 1))

/-- The loop over the digits after the dot (src/lex.ll:1084-1103). -/
def mantissaLoop : List Nat → Fp → Fp → Fp
  | [], m, _ => m
  | d :: ds, m, scale => mantissaLoop ds (m.add (scale.mul (.fin d))) (scale.div (.fin 16))

/-- `(int)strtol(ptr, &endptr, 10)`: a number that does not fit in a `long` becomes the nearest that does; the conversion
to `int` keeps the low 32 bits. -/
def toIntExp (e : Int) : BitVec 32 := BitVec.ofInt 32 (max (-2 ^ 63) (min e (2 ^ 63 - 1)))

/-- `lParseHexFloat` (src/lex.ll:1067-1121), on the parts of the text: whether the digit before the dot is a 1, the
digits after the dot, and the exponent. -/
def parseHexFloat (lead : Bool) (ds : List Nat) (e : Int) : Option Fp :=
  let m := mantissaLoop ds (if lead then .fin 1 else .fin 0) ((Fp.fin 1).div (.fin 16))
  (ipow2 (toIntExp e)).map fun p => m.mul p

/-- The type of a literal. -/
inductive FpKind | half | single | double
  deriving DecidableEq

def endsWith (s t : List Char) : Bool := s.isSuffixOf t

/-- The comparisons with the end of the text in `lParseFP` (src/lex.ll:697-715) and in the rule for hexadecimal literals
(src/lex.ll:486-506). -/
def fpKind (text : List Char) : FpKind :=
  if endsWith ['f', '1', '6'] text || endsWith ['F', '1', '6'] text then .half
  else if endsWith ['d'] text || endsWith ['D'] text then .double
  else .single

/-- The value of a hexadecimal literal of the two wider types (src/lex.ll:496-505). -/
def hexLiteral (k : FpKind) (lead : Bool) (ds : List Nat) (e : Int) : Option Fp :=
  match k with
  | .double => parseHexFloat lead ds e
  | _ => (parseHexFloat lead ds e).map Fp.toFloat

/-- The value of a decimal literal of the two wider types that is worth `v` (src/lex.ll:710, 713): `atof` rounds to
nearest, as the C library of the usual systems does. -/
def decLiteral (k : FpKind) (v : ℚ) : Fp :=
  match k with
  | .double => dbl.rnd v
  | _ => (dbl.rnd v).toFloat

end Ispc.Literal
