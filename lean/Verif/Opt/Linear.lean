import Mathlib.Data.Int.ModEq
import Mathlib.Data.Nat.ModEq
import Mathlib.Tactic.Ring
import Mathlib.Tactic.Linarith
import Mathlib.Tactic.NormNum

/-!
# When is a vector of offsets uniform or linear?

The optimiser replaces a gather by one scalar load when it believes that all
offsets are equal, and a gather or scatter by one vector load or store when it
believes that consecutive offsets differ by exactly the element size.  Both
beliefs come from `LLVMVectorValuesAllEqual` and `LLVMVectorIsLinear`
(`src/llvmutil.cpp`), which walk the definitions of the offset vector.

A program is a graph of definitions; `Run` says which values the definitions
take while the program executes, phi nodes included.
-/

namespace Ispc.Linear

/-- The binary operators the analysis distinguishes.  `add` also stands for an
`or` that `IsOrEquivalentToAdd` has accepted (`src/llvmutil.cpp:1188-1214`);
`other` is any other lane-wise operator (xor, division, ...). -/
inductive Op where
  | add | sub | mul | shl | lshr | ashr | and
  | other (f : Nat → Nat → Nat)

/-- Integer casts. -/
inductive Cast where
  | trunc | zext | sext
  deriving DecidableEq

/-- One definition of the program.  `const`, `bin`, `cast`, `phi`, `other` are
vectors, `splat s` is the broadcast of the scalar `s`; the `s…` constructors are
scalars.  Vector constants hold one value per lane.  Simplified: insert-element
chains and undefined values are not represented, on those the analysis answers
no or compares the inserted scalars. -/
inductive Node where
  | const (c : Nat → Nat)
  | bin (op : Op) (a b : Nat)
  | cast (k : Cast) (a : Nat)
  | phi (ins : List Nat)
  | splat (s : Nat)
  | other
  | sconst (c : Nat)
  | sadd (a b : Nat)
  | sphi (ins : List Nat)
  | sother

/-- A program: the gang size, its definitions, and the width in bits of (the
elements of) each. -/
structure Graph where
  lanes : Nat
  node : Nat → Node
  ty : Nat → Nat

/-- The value of a vector definition: one unsigned number per lane.  A scalar
holds the same number in every lane. -/
abbrev Val := Nat → Nat

/-- The number as C++ reads it after storing `getElementAsInteger` (zero
extended) in an `int64_t`: `LLVMExtractVectorInts`, `src/llvmutil.cpp:776-800`. -/
def int64Of (x : Nat) : Int := if x < 2 ^ 63 then x else (x : Int) - 2 ^ 64

/-- `ConstantInt::getSExtValue` of a `w`-bit number, as used by
`lVectorIsLinearConstantInts`, `src/llvmutil.cpp:1237,1245`. -/
def sextValue (w x : Nat) : Int := if x < 2 ^ (w - 1) then x else (x : Int) - 2 ^ w

/-! ## What the definitions compute -/

/-- LLVM's lane-wise integer operators on `w`-bit numbers. -/
def Op.eval (w : Nat) : Op → Nat → Nat → Nat
  | .add, x, y => (x + y) % 2 ^ w
  | .sub, x, y => (x + (2 ^ w - y)) % 2 ^ w
  | .mul, x, y => (x * y) % 2 ^ w
  | .shl, x, k => (x * 2 ^ k) % 2 ^ w
  | .lshr, x, k => x / 2 ^ k
  | .ashr, x, k => if 2 ^ (w - 1) ≤ x then x / 2 ^ k + (2 ^ w - 2 ^ (w - k)) else x / 2 ^ k
  | .and, x, y => x &&& y
  | .other f, x, y => f x y % 2 ^ w

/-- Shifting by the width or more is poison; such executions are not considered. -/
def Op.defined (w : Nat) : Op → Nat → Bool
  | .shl, k | .lshr, k | .ashr, k => decide (k < w)
  | _, _ => true

/-- LLVM's integer casts from `v` to `w` bits. -/
def Cast.eval (v w : Nat) : Cast → Nat → Nat
  | .trunc, x => x % 2 ^ w
  | .zext, x => x
  | .sext, x => if x < 2 ^ (v - 1) then x else x + 2 ^ w - 2 ^ v

/-- The values definitions have taken so far, newest first. -/
abbrev History := List (Nat × Val)

/-- The value a definition has now. -/
def latest (h : History) (n : Nat) : Option Val :=
  match h with
  | [] => none
  | (m, v) :: h => if m = n then some v else latest h n

/-- One step of an execution: a definition is evaluated from the present values
of its operands, a phi node from one of its incoming values. -/
inductive Step (g : Graph) (h : History) : Nat → Val → Prop
  | const (n c) : g.node n = .const c → Step g h n fun l => c l % 2 ^ g.ty n
  | bin (n op a b x y) : g.node n = .bin op a b → latest h a = some x → latest h b = some y →
      (∀ l < g.lanes, op.defined (g.ty n) (y l) = true) →
      Step g h n fun l => op.eval (g.ty n) (x l) (y l)
  | cast (n k a x) : g.node n = .cast k a → latest h a = some x →
      Step g h n fun l => k.eval (g.ty a) (g.ty n) (x l)
  | phi (n ins m x) : g.node n = .phi ins → m ∈ ins → latest h m = some x → Step g h n x
  | splat (n s x) : g.node n = .splat s → latest h s = some x → Step g h n fun _ => x 0
  | other (n v) : g.node n = .other → (∀ l, v l < 2 ^ g.ty n) → Step g h n v
  | sconst (n c) : g.node n = .sconst c → Step g h n fun _ => c % 2 ^ g.ty n
  | sadd (n a b x y) : g.node n = .sadd a b → latest h a = some x → latest h b = some y →
      Step g h n fun _ => (x 0 + y 0) % 2 ^ g.ty n
  | sphi (n ins m x) : g.node n = .sphi ins → m ∈ ins → latest h m = some x → Step g h n x
  | sother (n v) : g.node n = .sother → v < 2 ^ g.ty n → Step g h n fun _ => v

/-- The executions of a program. -/
inductive Run (g : Graph) : History → Prop
  | nil : Run g []
  | cons (h n v) : Run g h → Step g h n v → Run g ((n, v) :: h)

/-! ## The analysis -/

/-- `v |= v >> 1, …, v |= v >> 16` of `lRoundUpPow2`, `src/llvmutil.cpp:873-878`. -/
def smear (v : Nat) : Nat :=
  let v := v ||| v >>> 1
  let v := v ||| v >>> 2
  let v := v ||| v >>> 4
  let v := v ||| v >>> 8
  v ||| v >>> 16

/-- `lRoundUpPow2`, `src/llvmutil.cpp:872-880`, on a non-negative argument; for
0 the decrement gives -1, whose bits are all set, and the final increment gives 0. -/
def roundUpPow2 (v : Nat) : Nat := if v = 0 then 0 else smear (v - 1) + 1

/-- `std::max` over `int(c[i] % base)`, `src/llvmutil.cpp:998-1001`.  C++'s `%` is
`Int.tmod`.  Simplified: no truncation to 32 bits. -/
def maxMod (N : Nat) (c : Nat → Int) (B : Nat) : Int :=
  (List.range N).foldl (fun m i => max m (Int.tmod (c i) B)) (Int.tmod (c 0) B)

/-- Does every element up to `N` satisfy the test? -/
def forall' (N : Nat) (p : Nat → Bool) : Bool := (List.range N).all p

/-- The questions the mutually recursive functions ask; the list is `seenPhis`. -/
inductive Query where
  | allEq (seen : List Nat) (n : Nat)
  | allDiv (seen : List Nat) (base n : Nat)
  | exact (seen : List Nat) (base n : Nat)
  | linear (seen : List Nat) (stride : Int) (n : Nat)

/-- All of a list of questions, in order, stopping at the first no. -/
def allM (f : Nat → Option Bool) : List Nat → Option Bool
  | [] => some true
  | m :: ms => match f m with
    | some true => allM f ms
    | r => r

/-- Short-circuit conjunction of answers. -/
def andThen (a b : Option Bool) : Option Bool :=
  match a with
  | some true => b
  | r => r

/-- Short-circuit disjunction of answers. -/
def orElse (a b : Option Bool) : Option Bool :=
  match a with
  | some false => b
  | r => r

/-- Both answers are always computed; `none` if either is. -/
def both (a b : Option Bool) : Option Bool :=
  match a, b with
  | some x, some y => some (x && y)
  | _, _ => none

/-- The element type's constant, per lane, as the program computes it. -/
def Graph.lane (g : Graph) (n : Nat) (c : Nat → Nat) (l : Nat) : Nat := c l % 2 ^ g.ty n

/-- `cv->getSplatValue() != nullptr`: are the constant's elements equal?
`src/llvmutil.cpp:1050-1075`. -/
def constEq (g : Graph) (n : Nat) (c : Nat → Nat) : Bool :=
  forall' g.lanes fun l => g.lane n c l == g.lane n c 0

/-- Do the constants give the same value when divided by `base` (C++ division)?
`src/llvmutil.cpp:905-912` and `src/llvmutil.cpp:963-968`. -/
def sameDiv (g : Graph) (n : Nat) (c : Nat → Nat) (B : Nat) : Bool :=
  forall' g.lanes fun l => Int.tdiv (int64Of (g.lane n c l)) B == Int.tdiv (int64Of (g.lane n c 0)) B

/-- `lVectorIsLinearConstantInts`, `src/llvmutil.cpp:1223-1256`. -/
def constLinear (g : Graph) (n : Nat) (c : Nat → Nat) (s : Int) : Bool :=
  forall' (g.lanes - 1) fun l =>
    sextValue (g.ty n) (g.lane n c l) + s == sextValue (g.ty n) (g.lane n c (l + 1))

/-- The analysis.  The first argument bounds the recursion depth; `none` is a
failed assertion, a division by zero, or running out of depth.

* `allEq` is `lVectorValuesAllEqual`, `src/llvmutil.cpp:1045-1166`, with
  `lVectorShiftRightAllEqual`, `src/llvmutil.cpp:1019-1043`, inlined.
* `allDiv` is `lAllDivBaseEqual`, `src/llvmutil.cpp:889-1012`.  Its `canAdd`
  parameter is left out: it is cleared only just before the final answer and
  each phi operand gets its own copy, so it is always true when tested.
* `exact` is `lIsExactMultiple`, `src/llvmutil.cpp:811-868`.
* `linear` is `lVectorIsLinear`, `src/llvmutil.cpp:1377-1488`, with
  `lCheckMulForLinear`, `lCheckShlForLinear` and `lCheckAndForLinear`,
  `src/llvmutil.cpp:1261-1375`, inlined. -/
def check (g : Graph) : Nat → Query → Option Bool
  | 0, _ => none
  | f + 1, .allEq seen n =>
    if g.lanes = 1 then some true else
    match g.node n with
    | .const c => some (constEq g n c)
    | .bin op a b =>
      orElse (andThen (check g f (.allEq seen a)) (check g f (.allEq seen b))) <|
        match op, g.node b with
        | .lshr, .const c | .ashr, .const c =>
          if constEq g b c then
            -- `int pow2 = 1 << shiftAmount[0]` must be positive
            if g.lane b c 0 < 31 then check g f (.allDiv [] (2 ^ g.lane b c 0) a) else none
          else some false
        | _, _ => some false
    | .cast _ a => check g f (.allEq seen a)
    | .phi ins =>
      if n ∈ seen then some true
      else allM (fun m => check g f (.allEq (n :: seen) m)) ins
    | .splat _ => some true
    | _ => some false
  | f + 1, .allDiv seen B n =>
    orElse (check g f (.allEq seen n)) <|
      match g.node n with
      | .const c => some (sameDiv g n c B)
      | .phi ins =>
        if n ∈ seen then some true
        else allM (fun m => check g f (.allDiv (n :: seen) B m)) ins
      | .bin .add a b =>
        match g.node b with
        | .const c =>
          if sameDiv g b c B then
            andThen (check g f (.allEq seen a))
              (check g f
                (.exact [] (roundUpPow2 (maxMod g.lanes (fun l => int64Of (g.lane b c l)) B).toNat) a))
          else some false
        | _ => some false
      | _ => some false
  | f + 1, .exact seen B n =>
    match g.node n with
    | .sconst c => if B = 0 then none else some (g.lane n (fun _ => c) 0 % B == 0)
    | .sphi ins =>
      if n ∈ seen then some true
      else allM (fun m => check g f (.exact (n :: seen) B m)) ins
    | .sadd a b => both (check g f (.exact seen B a)) (check g f (.exact seen B b))
    | .sother => some false
    | vec =>
      -- `Assert(LLVMVectorValuesAllEqual(val))`
      match check g f (.allEq [] n) with
      | some true =>
        match vec with
        | .splat s => check g f (.exact seen B s)
        | .phi ins =>
          if n ∈ seen then some true
          else allM (fun m => check g f (.exact (n :: seen) B m)) ins
        | .bin .add a b => both (check g f (.exact seen B a)) (check g f (.exact seen B b))
        | _ => some false
      | _ => none
  | f + 1, .linear seen s n =>
    match g.node n with
    | .const c => some (constLinear g n c s)
    | .bin .add a b =>
      orElse (both (check g f (.linear seen s a)) (check g f (.allEq seen b)))
        (both (check g f (.allEq seen a)) (check g f (.linear seen s b)))
    | .bin .sub a b =>
      orElse (andThen (check g f (.linear seen s a)) (check g f (.allEq seen b)))
        (andThen (check g f (.allEq seen a)) (check g f (.linear seen (-s) b)))
    | .bin .mul a b =>
      orElse
        (match g.node a with
          | .const c =>
            let m := sextValue (g.ty a) (g.lane a c 0)
            if constEq g a c && !(m == 0 || decide (m > |s|) || (Int.tmod |s| m != 0)) then
              check g f (.linear seen (Int.tdiv s m) b)
            else some false
          | _ => some false)
        (match g.node b with
          | .const c =>
            let m := sextValue (g.ty b) (g.lane b c 0)
            if constEq g b c && !(m == 0 || decide (m > |s|) || (Int.tmod |s| m != 0)) then
              check g f (.linear seen (Int.tdiv s m) a)
            else some false
          | _ => some false)
    | .bin .shl a b =>
      match g.node b with
      | .const c =>
        let k := sextValue (g.ty b) (g.lane b c 0)
        if constEq g b c && !(decide (k < 0) || decide (k ≥ 63)) &&
            !(decide ((2 : Int) ^ k.toNat > |s|) || (Int.tmod |s| (2 ^ k.toNat) != 0)) then
          check g f (.linear seen (Int.tdiv s (2 ^ k.toNat)) a)
        else some false
      | _ => some false
    | .bin .and a b =>
      match g.node b with
      | .const c =>
        let m := int64Of (g.lane b c 0) + 1
        if constEq g b c && (m == 0 || (decide (0 < m) && (m.toNat &&& (m.toNat - 1) == 0))) then
          andThen (check g f (.linear seen s a))
            -- `Assert(baseValue > 0 …)` in the callee
            (if 0 < m then check g f (.allDiv seen m.toNat a) else none)
        else some false
      | _ => some false
    | .cast _ a => check g f (.linear seen s a)
    | .phi ins =>
      if n ∈ seen then some true
      else allM (fun m => check g f (.linear (n :: seen) s m)) ins
    | _ => some false

/-- `LLVMVectorValuesAllEqual` answers yes, `src/llvmutil.cpp:1172-1186`. -/
def saysAllEqual (g : Graph) (n : Nat) : Prop := ∃ f, check g f (.allEq [] n) = some true

/-- `LLVMVectorIsLinear` answers yes, `src/llvmutil.cpp:1495-1508`. -/
def saysLinear (g : Graph) (n : Nat) (s : Int) : Prop :=
  ∃ f, check g f (.linear [] s n) = some true

/-! ## What the answers should mean -/

/-- Every lane of the gang holds the same value. -/
def AllEqual (N : Nat) (v : Val) : Prop := ∀ l < N, v l = v 0

/-- In `w`-bit arithmetic lane `l` holds lane 0's value plus `l` strides. -/
def IsLinear (N w : Nat) (s : Int) (v : Val) : Prop :=
  ∀ l < N, (v l : Int) ≡ v 0 + l * s [ZMOD 2 ^ w]

end Ispc.Linear
