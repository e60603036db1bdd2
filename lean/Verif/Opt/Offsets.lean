import Verif.Builtins.Gather

/-!
# Splitting the address of a gather or scatter

`src/opt/ImproveMemoryOps.cpp` turns a gather or scatter through a vector of pointers into one with a common base, a
vector of variable offsets, a scale and a vector of constant offsets.  Here are the functions that take the vector
expression of the pointers apart, and the LLVM semantics of the expressions, in which a value may be poison (`none`).
-/

namespace Ispc.Offsets

open Ispc.Gather (Addr addr32 addr64)

/-! ## Vector expressions -/

/-- The `nsw` and `nuw` flags of an LLVM instruction. -/
structure Flags where
  nsw : Bool
  nuw : Bool
  deriving DecidableEq

/-- An instruction made with `llvm::BinaryOperator::Create` has no flags. -/
def plain : Flags := ⟨false, false⟩

/-- The casts between integer vectors; the LLVM verifier rejects the others. -/
inductive CastOp : Nat → Nat → Type
  | sext {n m : Nat} (h : n ≤ m) : CastOp n m
  | zext {n m : Nat} (h : n ≤ m) : CastOp n m
  | trunc {n m : Nat} (h : m ≤ n) : CastOp n m

/-- The vector expressions that the functions of this file tell apart.  `leaf` is a value of any other kind, `splat` a
broadcast of a scalar pointer that `lGetBasePointer` (src/opt/ImproveMemoryOps.cpp:63-77) recognises, `const` a constant
vector (one whose elements are all defined: constants with undefined elements are not modelled), and `disj` an `or` for
which `IsOrEquivalentToAdd` (src/llvmutil.cpp:1189-1214) holds. -/
inductive Expr (W : Nat) : Nat → Type
  | leaf (n id : Nat) : Expr W n
  | splat (n id : Nat) : Expr W n
  | const {n : Nat} (v : Fin W → BitVec n) : Expr W n
  | add {n : Nat} (f : Flags) (a b : Expr W n) : Expr W n
  | disj {n : Nat} (a b : Expr W n) : Expr W n
  | shl {n : Nat} (f : Flags) (a b : Expr W n) : Expr W n
  | mul {n : Nat} (f : Flags) (a b : Expr W n) : Expr W n
  | cast {n m : Nat} (op : CastOp n m) (e : Expr W n) : Expr W m

/-- The values of the leaves and of the scalars that are broadcast. -/
structure Env (W : Nat) where
  leaf : (n : Nat) → Nat → Fin W → BitVec n
  scalar : (n : Nat) → Nat → BitVec n

/-- The value of an LLVM `add`. -/
def addOf {n : Nat} (f : Flags) (x y : BitVec n) : Option (BitVec n) :=
  if (f.nsw && x.saddOverflow y) || (f.nuw && x.uaddOverflow y) then none else some (x + y)

/-- The value of an LLVM `or disjoint`; an `or` without the keyword whose operands LLVM knows to have no bit in common has
the same value. -/
def disjOf {n : Nat} (x y : BitVec n) : Option (BitVec n) := if x &&& y = 0 then some (x ||| y) else none

/-- The value of an LLVM `shl`. -/
def shlOf {n : Nat} (f : Flags) (x y : BitVec n) : Option (BitVec n) :=
  if n ≤ y.toNat then none
  else if (f.nsw && (x <<< y.toNat).sshiftRight y.toNat != x) || (f.nuw && (x <<< y.toNat) >>> y.toNat != x) then none
  else some (x <<< y.toNat)

/-- The value of an LLVM `mul`. -/
def mulOf {n : Nat} (f : Flags) (x y : BitVec n) : Option (BitVec n) :=
  if (f.nsw && x.smulOverflow y) || (f.nuw && x.umulOverflow y) then none else some (x * y)

/-- The value of an LLVM cast. -/
def castOf {n m : Nat} : CastOp n m → BitVec n → BitVec m
  | .sext _, x => x.signExtend m
  | .zext _, x => x.setWidth m
  | .trunc _, x => x.setWidth m

variable {W : Nat}

/-- The value of an expression in one lane (`none`: poison). -/
def eval (ρ : Env W) (l : Fin W) : {n : Nat} → Expr W n → Option (BitVec n)
  | _, .leaf n i => some (ρ.leaf n i l)
  | _, .splat n i => some (ρ.scalar n i)
  | _, .const v => some (v l)
  | _, .add f a b => (eval ρ l a).bind fun x => (eval ρ l b).bind fun y => addOf f x y
  | _, .disj a b => (eval ρ l a).bind fun x => (eval ρ l b).bind fun y => disjOf x y
  | _, .shl f a b => (eval ρ l a).bind fun x => (eval ρ l b).bind fun y => shlOf f x y
  | _, .mul f a b => (eval ρ l a).bind fun x => (eval ρ l b).bind fun y => mulOf f x y
  | _, .cast op e => (eval ρ l e).map (castOf op)

/-- `llvm::isa<llvm::ConstantAggregateZero>`. -/
def isZero {n : Nat} : Expr W n → Bool
  | .const v => decide (∀ l, v l = 0)
  | _ => false

/-! ## The constant part of an expression -/

/-- A constant and a variable part; `none` is the null pointer. -/
abbrev Parts (W n : Nat) := Option (Expr W n) × Option (Expr W n)

/-- One of the two sums of the case of `Add` (src/opt/ImproveMemoryOps.cpp:361-369, and again 371-379). -/
def addPart {n : Nat} : Option (Expr W n) → Option (Expr W n) → Option (Expr W n)
  | none, b => b
  | some a, b => if isZero a then b else match b with
    | none => some a
    | some b => if isZero b then some a else some (.add plain a b)

/-- A product of two parts, null if one of them is (src/opt/ImproveMemoryOps.cpp:421-444). -/
def mulPart {n : Nat} : Option (Expr W n) → Option (Expr W n) → Option (Expr W n)
  | some a, some b => some (.mul plain a b)
  | _, _ => none

/-- A sum of two products, one of which may be null (src/opt/ImproveMemoryOps.cpp:446-465). -/
def sumPart {n : Nat} : Option (Expr W n) → Option (Expr W n) → Option (Expr W n)
  | some a, some b => some (.add plain a b)
  | some a, none => some a
  | none, b => b

/-- The case of `Shl` (src/opt/ImproveMemoryOps.cpp:388-412); `wrap` is `g->wrapSignedInt` and `vec` the whole
expression. -/
def shlParts {n : Nat} (wrap : Bool) (f : Flags) (vec : Expr W n) : Parts W n → Parts W n → Parts W n
  | (some c0, v0), (some c1, none) => match v0 with
    | none => (some vec, none)
    | some v0 => (some (.shl plain c0 c1), some (.shl (if wrap then plain else f) v0 c1))
  | _, _ => (none, some vec)

/-- `lExtractConstantOffset` (src/opt/ImproveMemoryOps.cpp:318-474). -/
def extract (wrap : Bool) : {n : Nat} → Expr W n → Parts W n
  | _, .const v => (some (.const v), none)
  | _, .cast op e => ((extract wrap e).1.map (.cast op), (extract wrap e).2.map (.cast op))
  | _, .add _ a b => (addPart (extract wrap a).1 (extract wrap b).1, addPart (extract wrap a).2 (extract wrap b).2)
  | _, .disj a b => (addPart (extract wrap a).1 (extract wrap b).1, addPart (extract wrap a).2 (extract wrap b).2)
  | _, .shl f a b => shlParts wrap f (.shl f a b) (extract wrap a) (extract wrap b)
  | _, .mul _ a b =>
    (mulPart (extract wrap a).1 (extract wrap b).1,
     sumPart (sumPart (mulPart (extract wrap a).2 (extract wrap b).1) (mulPart (extract wrap a).1 (extract wrap b).2))
       (mulPart (extract wrap a).2 (extract wrap b).2))
  | _, .leaf n i => (none, some (.leaf n i))
  | _, .splat n i => (none, some (.splat n i))

/-! ## The scale of an expression -/

/-- `lIsIntegerSplat` (src/opt/ImproveMemoryOps.cpp:479-498): a vector of zeros is no `ConstantDataVector`, and the value
is converted to `int`. -/
def intSplat [NeZero W] {n : Nat} : Expr W n → Option (BitVec n × Int)
  | .const v => if (∀ l, v l = v 0) ∧ v 0 ≠ 0 then some (v 0, (BitVec.ofInt 32 (v 0).toInt).toInt) else none
  | _ => none

/-- `lExtract248Scale` (src/opt/ImproveMemoryOps.cpp:500-526): the scale and the expression that is scaled by it.  The
`sdiv` of the two constant vectors is evaluated here; the vector of scales has 32-bit or 64-bit elements in the code, so
that the instruction is ill-typed for other widths. -/
def extract248 {n : Nat} (c : BitVec n) (splat : Int) (other vec : Expr W n) : Nat × Expr W n :=
  if splat = 2 ∨ splat = 4 ∨ splat = 8 then (splat.toNat, other)
  else if splat.tmod 8 = 0 then (8, .mul plain (.const fun _ => c.sdiv 8) other)
  else if splat.tmod 4 = 0 then (4, .mul plain (.const fun _ => c.sdiv 4) other)
  else if splat.tmod 2 = 0 then (2, .mul plain (.const fun _ => c.sdiv 2) other)
  else (1, vec)

/-- The case of `Add` (src/opt/ImproveMemoryOps.cpp:575-583). -/
def addScale {n : Nat} (vec : Expr W n) (r s : Nat × Expr W n) : Nat × Expr W n :=
  if r.1 = s.1 then (r.1, .add plain r.2 s.2) else (1, vec)

/-- `lExtractOffsetVector248Scale` (src/opt/ImproveMemoryOps.cpp:543-598); it never returns the null pointer. -/
def scale [NeZero W] : {n : Nat} → Expr W n → Nat × Expr W n
  | _, .cast op e => ((scale e).1, .cast op (scale e).2)
  | _, .add f a b => if isZero a then scale b else if isZero b then scale a
    else addScale (.add f a b) (scale a) (scale b)
  | _, .disj a b => if isZero a then scale b else if isZero b then scale a
    else addScale (.disj a b) (scale a) (scale b)
  | _, .mul f a b => match intSplat a with
    | some c => extract248 c.1 c.2 b (.mul f a b)
    | none => match intSplat b with
      | some c => extract248 c.1 c.2 a (.mul f a b)
      | none => (1, .mul f a b)
  | _, e => (1, e)

/-! ## Base pointer and offsets -/

/-- `lGetBasePointer` (src/opt/ImproveMemoryOps.cpp:63-99) on the expressions modelled here: the scalar, given by its
value. -/
def basePointer (ρ : Env W) : {n : Nat} → Expr W n → Option (BitVec n)
  | _, .splat n i => some (ρ.scalar n i)
  | _, .cast op e => (basePointer ρ e).map (castOf op)
  | _, _ => none

/-- `lGetBasePtrAndOffsets` (src/opt/ImproveMemoryOps.cpp:140-304) without the patterns of a shuffle, of a vector of
constant expressions and of an extracted member of a structure. -/
def baseAndOffsets (ρ : Env W) : {n : Nat} → Expr W n → Option (BitVec n × Expr W n)
  | _, .splat n i => some (ρ.scalar n i, .const fun _ => 0)
  | _, .cast op e => (basePointer ρ (.cast op e)).map fun b => (b, .const fun _ => 0)
  | _, .add _ a b => match baseAndOffsets ρ a with
    | some r => some (r.1, .add plain r.2 b)
    | none => (baseAndOffsets ρ b).map fun r => (r.1, .add plain r.2 a)
  | _, .disj a b => match baseAndOffsets ρ a with
    | some r => some (r.1, .add plain r.2 b)
    | none => (baseAndOffsets ρ b).map fun r => (r.1, .add plain r.2 a)
  | _, _ => none

/-! ## The new call -/

/-- What the new call is given besides the base: offsets of `k` bits, a scale and constant offsets.  A target with gather
instructions gets no constant offsets (zero here). -/
structure Call (W k : Nat) where
  variable_ : Expr W k
  scale : Nat
  constant : Expr W k

/-- The zero of the type of `e`, when a part is null (src/opt/ImproveMemoryOps.cpp:945-950). -/
def orZero {n : Nat} : Option (Expr W n) → Expr W n
  | some e => e
  | none => .const fun _ => 0

/-- The call for a target without gather instructions (src/opt/ImproveMemoryOps.cpp:942-956). -/
def factored [NeZero W] {n : Nat} (wrap : Bool) (offsets : Expr W n) : Call W n :=
  ⟨(scale (orZero (extract wrap offsets).2)).2, (scale (orZero (extract wrap offsets).2)).1, orZero (extract wrap offsets).1⟩

/-- The call for a target with gather instructions (src/opt/ImproveMemoryOps.cpp:903). -/
def unfactored [NeZero W] {n : Nat} (offsets : Expr W n) : Call W n :=
  ⟨(scale offsets).2, (scale offsets).1, .const fun _ => 0⟩

/-- `lVectorIs32BitInts` (src/opt/ImproveMemoryOps.cpp:600-614): `LLVMExtractVectorInts` extends the elements with zeros,
which makes no difference for 64-bit elements. -/
def is32BitInts : Expr W 64 → Bool
  | .const v => decide (∀ l, ((v l).setWidth 32).signExtend 64 = v l)
  | _ => false

/-- The 32-bit variable offsets that `lOffsets32BitSafe` finds (src/opt/ImproveMemoryOps.cpp:624-645). -/
def narrow : Expr W 64 → Option (Expr W 32)
  | .cast (n := n) (.sext _) e => if h : n = 32 then some (h ▸ e) else none
  | .cast (n := n) (.zext _) e => if h : n = 32 then some (h ▸ e) else none
  | .const v => if is32BitInts (.const v) then some (.cast (.trunc (by decide)) (.const v)) else none
  | _ => none

/-- `lOffsets32BitSafe` with constant offsets (src/opt/ImproveMemoryOps.cpp:619-671), for 64-bit offsets: the constant
offsets are truncated whether they fit or not. -/
def factored32 (c : Call W 64) : Option (Call W 32) :=
  (narrow c.variable_).map fun v => ⟨v, c.scale, .cast (.trunc (by decide)) c.constant⟩

/-- `lIs32BitSafeHelper` (src/opt/ImproveMemoryOps.cpp:679-691). -/
def safe32 : {n : Nat} → Expr W n → Bool
  | _, .add _ a b => safe32 a && safe32 b
  | _, .disj a b => safe32 a && safe32 b
  | _, .cast (n := n) (.sext _) _ => n = 32
  | 64, .const v => is32BitInts (.const v)
  | _, _ => false

/-- `lOffsets32BitSafe` without constant offsets (src/opt/ImproveMemoryOps.cpp:696-721), for 64-bit offsets. -/
def unfactored32 (c : Call W 64) : Option (Call W 32) :=
  match c.variable_ with
  | .cast (n := n) (.sext _) e =>
    if h : n = 32 then some ⟨h ▸ e, c.scale, .const fun _ => 0⟩ else none
  | e => if safe32 e then some ⟨.cast (.trunc (by decide)) e, c.scale, .const fun _ => 0⟩ else none

/-- `lGSBaseOffsetsGetMoreConst` (src/opt/ImproveMemoryOps.cpp:1085-1134), for a call with constant offsets. -/
def moreConst {k : Nat} (wrap : Bool) (c : Call W k) : Option (Call W k) :=
  if isZero c.variable_ then none
  else (extract wrap c.variable_).1.map fun d =>
    ⟨orZero (extract wrap c.variable_).2, c.scale,
     .add plain (.mul plain d (.const fun _ => BitVec.ofNat k c.scale)) c.constant⟩

/-- The address at which a lane of the 64-bit factored call accesses memory (`none`: poison). -/
def address64 (ρ : Env W) (l : Fin W) (base : Addr) (c : Call W 64) : Option Addr :=
  (eval ρ l c.variable_).bind fun v => (eval ρ l c.constant).map fun d => addr64 base v (BitVec.ofNat 32 c.scale) d

/-- The address at which a lane of the 32-bit factored call accesses memory (`none`: poison). -/
def address32 (ρ : Env W) (l : Fin W) (base : Addr) (c : Call W 32) : Option Addr :=
  (eval ρ l c.variable_).bind fun v => (eval ρ l c.constant).map fun d => addr32 base v (BitVec.ofNat 32 c.scale) d

/-! ## The offsets of an index -/

/-- `lExtendIntTo64` (src/ctx.cpp:2128-2137) for a vector. -/
def extendTo64 (unsigned : Bool) (e : Expr W 32) : Expr W 64 :=
  if unsigned then .cast (.zext (by decide)) e else .cast (.sext (by decide)) e

/-- The offsets that `FunctionEmitContext::applyVaryingGEP` (src/ctx.cpp:2145-2205) computes for a varying 32-bit index on
a 64-bit target; `f32` is `g->opt.force32BitAddressing` and `size` the size of the type that is pointed to. -/
def gepOffsets (wrap f32 unsigned : Bool) (size : Nat) (index : Expr W 32) : Expr W 64 :=
  if f32 then extendTo64 unsigned (.mul ⟨!wrap, false⟩ (.const fun _ => BitVec.ofNat 32 size) index)
  else .mul ⟨!wrap, false⟩ (.const fun _ => BitVec.ofNat 64 size) (extendTo64 unsigned index)

/-- The same for a varying 64-bit index. -/
def gepOffsets64 (wrap f32 unsigned : Bool) (size : Nat) (index : Expr W 64) : Expr W 64 :=
  if f32 then extendTo64 unsigned (.mul ⟨!wrap, false⟩ (.const fun _ => BitVec.ofNat 32 size)
    (.cast (.trunc (by decide)) index))
  else .mul ⟨!wrap, false⟩ (.const fun _ => BitVec.ofNat 64 size) index

end Ispc.Offsets
