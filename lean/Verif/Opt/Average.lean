import Verif.Builtins.Saturating

/-!
# Averages

`avg_up()` and `avg_down()` have several definitions: those of `builtins/generic.ispc` are in `Verif.Builtins.Saturating`,
the x86 targets have those of `builtins/util.m4` and the SSE4 targets with 8-bit and 16-bit masks the instruction
`pavg`.  `src/opt/PeepholePass.cpp` recognises averages that are written out in a program and replaces them by calls of
these functions, if the function is one that is an instruction.
-/

namespace Ispc.Average

open Ispc.Sat (avgUpU avgDownU avgUpS avgDownS)

/-! ## The definitions of `util.m4` -/

variable {n : Nat}

/-- `__avg_up_uint8` and `__avg_up_uint16` (builtins/util.m4:7622-7631 and 7644-7653); `n + 1` is the number of bits. -/
def upU (a b : BitVec (n + 1)) : BitVec (n + 1) :=
  ((a.setWidth (2 * (n + 1)) + b.setWidth (2 * (n + 1)) + 1) >>> 1).setWidth (n + 1)

/-- `__avg_up_int8` and `__avg_up_int16` (builtins/util.m4:7633-7642 and 7655-7664): a signed division. -/
def upS (a b : BitVec (n + 1)) : BitVec (n + 1) :=
  ((a.signExtend (2 * (n + 1)) + b.signExtend (2 * (n + 1)) + 1).sdiv 2).setWidth (n + 1)

/-- `__avg_down_uint8` and `__avg_down_uint16` (builtins/util.m4:7666-7674 and 7686-7694). -/
def downU (a b : BitVec (n + 1)) : BitVec (n + 1) :=
  ((a.setWidth (2 * (n + 1)) + b.setWidth (2 * (n + 1))) >>> 1).setWidth (n + 1)

/-- `__avg_down_int8` and `__avg_down_int16` (builtins/util.m4:7676-7684 and 7696-7704). -/
def downS (a b : BitVec (n + 1)) : BitVec (n + 1) :=
  ((a.signExtend (2 * (n + 1)) + b.signExtend (2 * (n + 1))).sdiv 2).setWidth (n + 1)

/-- `llvm.x86.sse2.pavg.b` and `llvm.x86.sse2.pavg.w` on one element, by Intel's manual: `(a + b + 1) >> 1` with one more
bit for the sum (builtins/target-sse4-i8x16.ll:399-413, builtins/target-sse4-i16x8.ll:393-413). -/
def pavg (a b : BitVec n) : BitVec n :=
  ((a.setWidth (n + 1) + b.setWidth (n + 1) + 1) >>> 1).setWidth n

/-! ## Recognising averages -/

/-- One lane of the vector expressions that the pass looks at.  The constants of the patterns are the same in all
lanes. -/
inductive E : Nat → Type
  | arg (n i : Nat) : E n
  | const {n : Nat} (c : BitVec n) : E n
  | zext {n : Nat} (m : Nat) (h : n < m) : E n → E m
  | sext {n : Nat} (m : Nat) (h : n < m) : E n → E m
  | trunc {n : Nat} (m : Nat) (h : m < n) : E n → E m
  | add {n : Nat} : E n → E n → E n
  | udiv {n : Nat} : E n → E n → E n
  | sdiv {n : Nat} : E n → E n → E n
  | lshr {n : Nat} : E n → E n → E n
  | ashr {n : Nat} : E n → E n → E n

/-- Its value; `none` is undefined behaviour (a division by zero, an overflow of `sdiv`) or poison (a shift by too
much).  `nsw` and `nuw`, which make more values poison, are not modelled. -/
def E.eval (ρ : ∀ n, Nat → BitVec n) : {n : Nat} → E n → Option (BitVec n)
  | n, .arg _ i => some (ρ n i)
  | _, .const c => some c
  | _, .zext m _ e => (e.eval ρ).map (·.setWidth m)
  | _, .sext m _ e => (e.eval ρ).map (·.signExtend m)
  | _, .trunc m _ e => (e.eval ρ).map (·.setWidth m)
  | _, .add a b => (a.eval ρ).bind fun x => (b.eval ρ).map fun y => x + y
  | _, .udiv a b => (a.eval ρ).bind fun x => (b.eval ρ).bind fun y => if y = 0 then none else some (x / y)
  | n, .sdiv a b => (a.eval ρ).bind fun x => (b.eval ρ).bind fun y =>
    if y = 0 ∨ (x = BitVec.intMin n ∧ y = -1) then none else some (x.sdiv y)
  | n, .lshr a b => (a.eval ρ).bind fun x => (b.eval ρ).bind fun y =>
    if y.toNat < n then some (x >>> y.toNat) else none
  | n, .ashr a b => (a.eval ρ).bind fun x => (b.eval ρ).bind fun y =>
    if y.toNat < n then some (x.sshiftRight y.toNat) else none

/-- `m_Trunc16To8` and `m_Trunc32To16` (src/opt/PeepholePass.cpp:45-48 and 60-63). -/
def matchTrunc {n : Nat} (k : Nat) : E n → Option (E k)
  | .trunc (n := j) _ _ e => if h : j = k then some (h ▸ e) else none
  | _ => none

/-- `m_ZExt8To16` and `m_ZExt16To32` (src/opt/PeepholePass.cpp:40-43 and 55-58). -/
def matchZExt {n : Nat} (k : Nat) : E n → Option (E k)
  | .zext (n := j) _ _ e => if h : j = k then some (h ▸ e) else none
  | _ => none

/-- `m_SExt8To16` and `m_SExt16To32` (src/opt/PeepholePass.cpp:35-38 and 50-53). -/
def matchSExt {n : Nat} (k : Nat) : E n → Option (E k)
  | .sext (n := j) _ _ e => if h : j = k then some (h ▸ e) else none
  | _ => none

def matchExt {n : Nat} (signed : Bool) (k : Nat) (e : E n) : Option (E k) :=
  if signed then matchSExt k e else matchZExt k e

/-- `APInt::isIntN`: no bit above the lowest `bits` is set. -/
def isIntN {n : Nat} (bits : Nat) (c : BitVec n) : Bool := decide (c.toNat < 2 ^ bits)

/-- `m_UDiv2` (src/opt/PeepholePass.cpp:65-92) and `m_SDiv2` (src/opt/PeepholePass.cpp:94-121). -/
def matchDiv2 {n : Nat} (signed : Bool) : E n → Option (E n)
  | .udiv e (.const c) => if !signed && isIntN 2 c then some e else none
  | .lshr e (.const c) => if !signed && isIntN 1 c then some e else none
  | .sdiv e (.const c) => if signed && isIntN 2 c then some e else none
  | .ashr e (.const c) => if signed && isIntN 1 c then some e else none
  | _ => none

/-- `m_APInt`. -/
def matchConst {n : Nat} : E n → Option (BitVec n)
  | .const c => some c
  | _ => none

/-- `m_Add`, which tries no other order of the operands. -/
def matchAdd {n : Nat} : E n → Option (E n × E n)
  | .add a b => some (a, b)
  | _ => none

/-- The three orders of the sum of `lMatchAvgUpUInt8` (src/opt/PeepholePass.cpp:161-164) and its sisters
(src/opt/PeepholePass.cpp:187-191, 214-217, 240-244). -/
def matchSum1 {m : Nat} (signed : Bool) (k : Nat) (e : E m) : Option (E k × E k × BitVec m) := do
  let (a, r) ← matchAdd e
  let a ← matchExt signed k a
  let (b, d) ← matchAdd r
  let b ← matchExt signed k b
  let d ← matchConst d
  some (a, b, d)

@[inherit_doc matchSum1]
def matchSum2 {m : Nat} (signed : Bool) (k : Nat) (e : E m) : Option (E k × E k × BitVec m) := do
  let (l, b) ← matchAdd e
  let (a, d) ← matchAdd l
  let a ← matchExt signed k a
  let d ← matchConst d
  let b ← matchExt signed k b
  some (a, b, d)

@[inherit_doc matchSum1]
def matchSum3 {m : Nat} (signed : Bool) (k : Nat) (e : E m) : Option (E k × E k × BitVec m) := do
  let (l, d) ← matchAdd e
  let (a, b) ← matchAdd l
  let a ← matchExt signed k a
  let b ← matchExt signed k b
  let d ← matchConst d
  some (a, b, d)

/-- `lMatchAvgUpUInt8`, `lMatchAvgUpUInt16`, `lMatchAvgUpInt8` and `lMatchAvgUpInt16` (src/opt/PeepholePass.cpp:157-172,
183-199, 210-225, 236-252), `k` being 8 or 16: the two arguments of the call. -/
def matchUp {n : Nat} (signed : Bool) (k : Nat) (e : E n) : Option (E k × E k) := do
  let e ← matchTrunc (2 * k) e
  let e ← matchDiv2 signed e
  let (a, b, d) ← (matchSum1 signed k e).orElse fun _ => (matchSum2 signed k e).orElse fun _ => matchSum3 signed k e
  if isIntN 1 d then some (a, b) else none

/-- `lMatchAvgDownUInt8`, `lMatchAvgDownUInt16`, `lMatchAvgDownInt8` and `lMatchAvgDownInt16`
(src/opt/PeepholePass.cpp:174-181, 201-208, 227-234, 254-261). -/
def matchDown {n : Nat} (signed : Bool) (k : Nat) (e : E n) : Option (E k × E k) := do
  let e ← matchTrunc (2 * k) e
  let e ← matchDiv2 signed e
  let (a, b) ← matchAdd e
  let a ← matchExt signed k a
  let b ← matchExt signed k b
  some (a, b)

/-- The eight functions. -/
structure Fn where
  up : Bool
  signed : Bool
  wide : Bool
deriving DecidableEq

/-- The functions that are made of intrinsics (`lHasIntrinsicInDefinition`, src/opt/PeepholePass.cpp:125-153): those of
the two SSE4 targets; `define_avg_up_int8` and so on have none. -/
def hasIntrinsic (sse4Small : Bool) (f : Fn) : Bool := sse4Small && f.up && !f.signed

/-- The order in which the functions are tried (src/opt/PeepholePass.cpp:273-294). -/
def order : List Fn :=
  [⟨true, false, false⟩, ⟨true, false, true⟩, ⟨false, false, false⟩, ⟨false, false, true⟩,
   ⟨true, true, false⟩, ⟨true, true, true⟩, ⟨false, true, false⟩, ⟨false, true, true⟩]

def matchFn (f : Fn) (k : Nat) {n : Nat} (e : E n) : Option (E k × E k) :=
  if f.up then matchUp f.signed k e else matchDown f.signed k e

/-- What `matchAndReplace` (src/opt/PeepholePass.cpp:263-304) does with an instruction of 8 or 16 bits: the function that
is called instead, and its arguments. -/
def replace (has : Fn → Bool) (w : Bool) (e : E (if w then 16 else 8)) :
    Option (Fn × E (if w then 16 else 8) × E (if w then 16 else 8)) :=
  order.findSome? fun f =>
    if f.wide = w ∧ has f then (matchFn f _ e).map fun r => (f, r) else none

end Ispc.Average
