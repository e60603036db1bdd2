import Verif.Front.FoldFloat

/-!
# Functions of the standard library that work on the bits of floating-point numbers

`isnan`, `isinf`, `isfinite`, `abs`, `signbits`, `ldexp`, `frexp` and `fmod` of
stdlib/stdlib.ispc, for `float16`, `float` and `double`.  The `uniform` and the
`varying` versions of a function have the same body, so a definition stands for
the uniform version and for one program instance of the varying one; `fmod`,
which keeps a `uniform` variable in its varying version, is given twice.

The meaning of a bit pattern is `val`, the table of IEEE 754 (section 3.4).
Arithmetic on values is exact and then rounded by `Fold.round`.
-/

namespace Ispc.FloatBits

open Ispc.Fold (Fmt FV Rel signed round)

/-- Width of the type, stdlib/stdlib.ispc:2234, 2247 and 2260: the
type of `intbits(a)`. -/
def width : Fmt → Nat
  | .f16 => 16 | .f32 => 32 | .f64 => 64

/-- Bits of the fraction: the shifts of stdlib/stdlib.ispc:5920, 3334 and 6222. -/
def mant : Fmt → Nat
  | .f16 => 10 | .f32 => 23 | .f64 => 52

/-- The bits of the sign and the exponent together. -/
def high (f : Fmt) : Nat := width f - mant f

abbrev Bits (f : Fmt) := BitVec (width f)

/-! ## What the bits stand for -/

/-- The sign bit. -/
def sgn (f : Fmt) (b : Bits f) : Bool := decide (2 ^ (width f - 1) ≤ b.toNat)

/-- The biased exponent. -/
def expo (f : Fmt) (b : Bits f) : Nat := b.toNat / 2 ^ mant f % 2 ^ (high f - 1)

/-- The fraction. -/
def frac (f : Fmt) (b : Bits f) : Nat := b.toNat % 2 ^ mant f

/-- The value of a bit pattern, IEEE 754 section 3.4. -/
def val (f : Fmt) (b : Bits f) : FV :=
  if expo f b = 2 ^ (high f - 1) - 1 then
    if frac f b = 0 then .inf (sgn f b) else .nan
  else if expo f b = 0 then .fin (sgn f b) (frac f b * 2 ^ f.emin)
  else .fin (sgn f b) ((2 ^ mant f + frac f b : Nat) * 2 ^ ((expo f b : Int) - 1 + f.emin))

/-! ## Classification -/

/-- The mask of the exponent, stdlib/stdlib.ispc:2197, 2203 and 2209, and in
`ldexp` and `frexp`, stdlib/stdlib.ispc:5917, 3331 and 6219. -/
def expMask : (f : Fmt) → Bits f
  | .f16 => 0x7C00#16 | .f32 => 0x7F800000#32 | .f64 => 0x7FF0000000000000#64

/-- The bits of infinity, stdlib/stdlib.ispc:2182, 2186 and 2191. -/
def infBits : (f : Fmt) → Bits f
  | .f16 => 0x7C00#16 | .f32 => 0x7F800000#32 | .f64 => 0x7FF0000000000000#64

/-- All bits but the sign, stdlib/stdlib.ispc:2235, 2248 and 2261. -/
def absMask : (f : Fmt) → Bits f
  | .f16 => 0x7fff#16 | .f32 => 0x7fffffff#32 | .f64 => 0x7fffffffffffffff#64

/-- The sign bit, stdlib/stdlib.ispc:2273, 2283 and 2293. -/
def signMask : (f : Fmt) → Bits f
  | .f16 => 0x8000#16 | .f32 => 0x80000000#32 | .f64 => 0x8000000000000000#64

/-- `v != w`: `fcmp une`, src/expr.cpp:1957-1958. -/
def ne (v w : FV) : Bool := decide (v.rel w ≠ .equal)

/-- `v == w`: `fcmp oeq`, src/expr.cpp:1955-1956. -/
def eq (v w : FV) : Bool := decide (v.rel w = .equal)

/-- `isnan`, stdlib/stdlib.ispc:2170-2180. -/
def isnan (f : Fmt) (v : Bits f) : Bool := ne (val f v) (val f v)

/-- `abs` of floating-point numbers, stdlib/stdlib.ispc:2232-2269. -/
def abs (f : Fmt) (a : Bits f) : Bits f := a &&& absMask f

/-- `isinf`, stdlib/stdlib.ispc:2182-2194. -/
def isinf (f : Fmt) (v : Bits f) : Bool := abs f v == infBits f

/-- `isfinite`, stdlib/stdlib.ispc:2196-2214. -/
def isfinite (f : Fmt) (v : Bits f) : Bool := v &&& expMask f != expMask f

/-- `signbits`, stdlib/stdlib.ispc:2271-2299. -/
def signbits (f : Fmt) (x : Bits f) : Bits f := x &&& signMask f

/-- `abs` of integers, stdlib/stdlib.ispc:2216-2230: `a > 0 ? a : -a`.  The
negation is marked `nsw` (src/expr.cpp:1275-1291 with 1323, src/ctx.cpp:1808),
so that of the least integer is poison, `none`.  The standard library is
compiled when ispc itself is built (cmake/Stdlib.cmake:105), so
`--wrap-signed-int` does not change this. -/
def iabs {w : Nat} (a : BitVec w) : Option (BitVec w) :=
  if BitVec.slt 0 a then some a
  else if a = BitVec.intMin w then none else some (-a)

/-! ## `ldexp` and `frexp` -/

/-- `n` as the operand of the shift: `(int16)n`, stdlib/stdlib.ispc:5920; `n`,
stdlib/stdlib.ispc:3334; `(int64)n`, stdlib/stdlib.ispc:6222. -/
def count : (f : Fmt) → BitVec 32 → Bits f
  | .f16, n => n.setWidth 16 | .f32, n => n | .f64, n => n.signExtend 64

/-- `ldexp`, stdlib/stdlib.ispc:3330-3354, 5916-5940 and 6218-6242; `fast` is
`__math_lib == __math_lib_ispc_fast`. -/
def ldexp (f : Fmt) (fast : Bool) (x : Bits f) (n : BitVec 32) : Bits f :=
  let ex := expMask f &&& x
  let res := (x &&& ~~~ expMask f) ||| ((count f n <<< mant f) + ex)
  if fast then res else if eq (val f x) (.fin false 0) then x else res

/-- What is subtracted from the exponent, stdlib/stdlib.ispc:5947, 3361 and 6249. -/
def unbias : Fmt → BitVec 32
  | .f16 => 14 | .f32 => 126 | .f64 => 1022

/-- The exponent of numbers from a half to one, stdlib/stdlib.ispc:5948, 3362
and 6250. -/
def halfExp : (f : Fmt) → Bits f
  | .f16 => 0x3800#16 | .f32 => 0x3F000000#32 | .f64 => 0x3fe0000000000000#64

/-- `frexp`, stdlib/stdlib.ispc:3356-3374, 5942-5960 and 6244-6262: the result
and the integer stored through `pw2`. -/
def frexp (f : Fmt) (x : Bits f) : Bits f × BitVec 32 :=
  let ex := expMask f &&& x
  ((x &&& ~~~ expMask f) ||| halfExp f, (ex >>> mant f).setWidth 32 - unbias f)

/-! ## Arithmetic, as the instructions of LLVM do it -/

/-- A number as a value: rounded, zero with the sign given. -/
def ofQ (f : Fmt) (zero : Bool) (q : ℚ) : FV :=
  if q = 0 then .fin zero 0 else round f (decide (q < 0)) |q|

/-- `fmul`, IEEE 754 section 5.4.1. -/
def mul (f : Fmt) : FV → FV → FV
  | .nan, _ => .nan
  | _, .nan => .nan
  | .inf a, .inf b => .inf (a ^^ b)
  | .inf a, .fin b q => if q = 0 then .nan else .inf (a ^^ b)
  | .fin a q, .inf b => if q = 0 then .nan else .inf (a ^^ b)
  | .fin a p, .fin b q => round f (a ^^ b) (p * q)

/-- `fsub`, IEEE 754 section 5.4.1. -/
def sub (f : Fmt) : FV → FV → FV
  | .nan, _ => .nan
  | _, .nan => .nan
  | .inf a, .inf b => if a = b then .nan else .inf a
  | .inf a, .fin _ _ => .inf a
  | .fin _ _, .inf b => .inf (!b)
  | .fin a p, .fin b q => ofQ f (a && !b) (signed a p - signed b q)

/-- `x - t * y`: two roundings, or one where the code generator fuses the
multiplication with the subtraction (`fused`), which is allowed unless
`--opt=disable-fma` is given, src/ispc.cpp:2439-2441. -/
def mulSub (f : Fmt) (fused : Bool) (x t y : FV) : FV :=
  if fused then
    match x, t, y with
    | .fin a p, .fin b q, .fin c r =>
        ofQ f (a && !(b ^^ c)) (signed a p - signed b q * signed c r)
    | _, _, _ => sub f x (mul f t y)
  else sub f x (mul f t y)

/-- `trunc`: `llvm.trunc`, builtins/generic.ispc:474-477 and 750-751. -/
def trunc : FV → FV
  | .fin a q => .fin a ⌊q⌋
  | v => v

/-- `1 / x`: `fdiv`. -/
def recip (f : Fmt) : FV → FV
  | .nan => .nan
  | .inf a => .fin a 0
  | .fin a q => if q = 0 then .inf a else round f a (1 / q)

/-! ## `fmod` -/

/-- The quiet NaN of `fmod`, stdlib/stdlib.ispc:2424, 2498 and 2572. -/
def quiet (f : Fmt) (neg : Bool) : Bits f :=
  let b : Bits f := match f with
    | .f16 => 0x7E00#16 | .f32 => 0x7FC00000#32 | .f64 => 0x7FF8000000000000#64
  if neg then b ||| signMask f else b

/-- What `fmod` returns: bits taken as they are, or the value of the arithmetic. -/
inductive Ret (f : Fmt)
  | bits (b : Bits f)
  | value (v : FV)
  deriving DecidableEq

/-- The value returned. -/
def Ret.val {f : Fmt} : Ret f → FV
  | .bits b => FloatBits.val f b
  | .value v => v

/-- The body of `fmod`, stdlib/stdlib.ispc:2420-2455, 2494-2529 and 2568-2603.
`rcp` is the reciprocal of the target, `neg₁` and `neg₂` say whether the two
uniform variables `nan_bits` got the sign bit. -/
def fmodBody (f : Fmt) (fused : Bool) (rcp : FV → FV) (neg₁ neg₂ : Bool) (x y : Bits f) : Ret f :=
  if isnan f x || isnan f y || eq (val f y) (.fin false 0) then .bits (quiet f neg₁)
  else if y &&& absMask f = infBits f then .bits x
  else if x &&& absMask f = infBits f then .bits (quiet f neg₂)
  else if eq (val f x) (.fin false 0) then .bits x
  else .value (mulSub f fused (val f x) (trunc (mul f (val f x) (rcp (val f y)))) (val f y))

/-- `fmod` of uniform numbers, stdlib/stdlib.ispc:2457-2492, 2531-2566 and
2605-2640. -/
def fmod (f : Fmt) (fused : Bool) (rcp : FV → FV) (x y : Bits f) : Ret f :=
  fmodBody f fused rcp (signbits f x ≠ 0) (signbits f x ≠ 0) x y

/-- The program instances in the first block of `fmod`. -/
def inFirst (f : Fmt) (x y : Bits f) : Bool :=
  isnan f x || isnan f y || eq (val f y) (.fin false 0)

/-- The program instances in the third block of `fmod`. -/
def inThird (f : Fmt) (x y : Bits f) : Bool :=
  !inFirst f x y && decide (y &&& absMask f ≠ infBits f) && decide (x &&& absMask f = infBits f)

/-- `fmod` of varying numbers, stdlib/stdlib.ispc:2420-2455, 2494-2529 and
2568-2603, in program instance `l`.  `nan_bits` is `uniform`, so the assignment
under `if (signbits(x))` is done for the whole gang as soon as one program
instance takes it; `eager` is the case where the body of that `if`, which is
cheap, is run without a test that any does (src/stmt.cpp:692-729). -/
def fmodGang (f : Fmt) (fused eager : Bool) (rcp : FV → FV) (W : Nat) (mask : Nat → Bool)
    (x y : Nat → Bits f) (l : Nat) : Ret f :=
  let any (p : Nat → Bool) := (List.range W).any (fun i => mask i && p i && signbits f (x i) ≠ 0)
  fmodBody f fused rcp (eager || any (fun i => inFirst f (x i) (y i)))
    (eager || any (fun i => inThird f (x i) (y i))) (x l) (y l)

end Ispc.FloatBits
