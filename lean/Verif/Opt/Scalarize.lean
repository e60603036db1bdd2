import Mathlib.Tactic.Common

/-!
# C89: vector arithmetic on one element becomes scalar arithmetic

A model of `src/opt/ScalarizePass.cpp`: a shuffle that copies the first element of `insertelement(undef, x, 0) op c`,
with a constant `c` whose other elements are undefined, is replaced by the copies of the scalar `x op c[0]`. A function
is one block of instructions. What is not an operation, insertion or shuffle is opaque, may have effects, and is given
by an arbitrary meaning. Flags that make results of operations poison are left out: the pass drops them, which can only
define more.
-/

namespace Ispc.Scalarize

variable {α : Type}

/-! ## LLVM values and instructions -/

/-- A scalar of LLVM, or an element of a vector (LLVM LangRef: poison and undefined values). Models no lines of ispc. -/
inductive Lane (α : Type) where
  | poison
  | undef
  | val (a : α)
  deriving DecidableEq, Repr

/-- A value. Models no lines of ispc. -/
inductive V (α : Type) where
  | scalar (l : Lane α)
  | vec (ls : List (Lane α))
  deriving DecidableEq, Repr

/-- An operand: the result of an instruction of the block, something from outside, or a constant. LLVM has two kinds of
    constant vectors: `ConstantDataVector` holds numbers only, `ConstantVector` may have undefined elements
    (LLVM LangRef and `llvm/IR/Constants.h`). -/
inductive Operand (α : Type) where
  | inst (i : Nat)
  | arg (k : Nat)
  | scalar (l : Lane α)
  | dataVec (as : List α)
  | constVec (ls : List (Lane α))
  deriving DecidableEq, Repr

/-- An instruction. `splat` stands for the three that the pass creates (src/opt/ScalarizePass.cpp:56-58), whose results
    are used nowhere else; `gone` for one that was deleted. An element of a mask is `none` if it is undefined. -/
inductive Instr (α : Type) where
  | binop (op : Nat) (a b : Operand α)
  | insert (base x : Operand α) (idx : Nat)
  | shuffle (a b : Operand α) (mask : List (Option Nat))
  | splat (op : Nat) (a b : Operand α) (width : Nat) (mask : List (Option Nat))
  | other (code : Nat) (ops : List (Operand α))
  | gone
  deriving DecidableEq, Repr

/-- What operations mean on elements (`none` is undefined behaviour), what opaque instructions mean, and the values from
    outside. Models no lines of ispc. -/
structure Sem (α : Type) where
  op : Nat → Lane α → Lane α → Option (Lane α)
  other : Nat → List (V α) → Option (V α)
  args : List (V α)

/-- The value of an operand after the instructions with results `env`. Models no lines of ispc. -/
def Operand.eval (s : Sem α) (env : List (V α)) : Operand α → Option (V α)
  | .inst i => env[i]?
  | .arg k => s.args[k]?
  | .scalar l => some (.scalar l)
  | .dataVec as => some (.vec (as.map .val))
  | .constVec ls => some (.vec ls)

/-- An operation on all elements (LLVM LangRef): undefined behaviour in one of them is undefined behaviour. -/
def zipOp (f : Lane α → Lane α → Option (Lane α)) : List (Lane α) → List (Lane α) → Option (List (Lane α))
  | [], [] => some []
  | a :: as, b :: bs => do
    let c ← f a b
    let cs ← zipOp f as bs
    some (c :: cs)
  | _, _ => none

/-- `binop` (LLVM LangRef). -/
def binopV (f : Lane α → Lane α → Option (Lane α)) : V α → V α → Option (V α)
  | .scalar a, .scalar b => (f a b).map .scalar
  | .vec as, .vec bs => (zipOp f as bs).map .vec
  | _, _ => none

/-- `insertelement` with a constant index (LLVM LangRef). -/
def insertV : V α → V α → Nat → Option (V α)
  | .vec ls, .scalar x, i => some (.vec (if i < ls.length then ls.set i x else ls.map fun _ => .poison))
  | _, _, _ => none

/-- `shufflevector` (LLVM LangRef). -/
def shuffleV : V α → V α → List (Option Nat) → Option (V α)
  | .vec as, .vec bs, mask => some (.vec (mask.map fun
      | none => .poison
      | some i => (as ++ bs).getD i .poison))
  | _, _, _ => none

/-- The result of an instruction (LLVM LangRef). -/
def Instr.eval (s : Sem α) (env : List (V α)) : Instr α → Option (V α)
  | .binop op a b => do binopV (s.op op) (← a.eval s env) (← b.eval s env)
  | .insert base x i => do insertV (← base.eval s env) (← x.eval s env) i
  | .shuffle a b mask => do shuffleV (← a.eval s env) (← b.eval s env) mask
  | .splat op a b n mask => do
    let r ← binopV (s.op op) (← a.eval s env) (← b.eval s env)
    let v ← insertV (.vec (List.replicate n .poison)) r 0
    shuffleV v (.vec (List.replicate n .poison)) mask
  | .other code ops => do s.other code (← ops.mapM (·.eval s env))
  | .gone => some (.vec [])

/-- The results of a block, `none` if its behaviour is undefined. Models no lines of ispc. -/
def run (s : Sem α) : List (V α) → List (Instr α) → Option (List (V α))
  | env, [] => some env
  | env, i :: is => do
    let v ← i.eval s env
    run s (env ++ [v]) is

/-! ## The pass -/

/-- An undefined element (src/opt/ScalarizePass.cpp:40). -/
def Lane.isUndef : Lane α → Bool
  | .val _ => false
  | _ => true

/-- `m_Undef()` of LLVM, which also takes poison and vectors of both; it takes all that `m_Poison()` takes
    (src/opt/ScalarizePass.cpp:20-21, src/opt/ScalarizePass.cpp:30-31). -/
def Operand.isUndef : Operand α → Bool
  | .scalar l => l.isUndef
  | .constVec ls => ls.all Lane.isUndef
  | _ => false

/-- `m_InsertElt(m_Undef(), m_Value(x), m_ZeroInt())` (src/opt/ScalarizePass.cpp:30-31). -/
def matchInsert (blk : List (Instr α)) : Operand α → Option (Operand α)
  | .inst j =>
    match blk[j]? with
    | some (.insert base x 0) => if base.isUndef then some x else none
    | _ => none
  | _ => none

/-- A `ConstantVector` whose elements but the first are undefined, and its first element
    (src/opt/ScalarizePass.cpp:33-47). -/
def tailUndef : Operand α → Option (Lane α × Nat)
  | .constVec (c :: cs) => if cs.all Lane.isUndef then some (c, cs.length + 1) else none
  | _ => none

/-- `lMatchAndScalarize` (src/opt/ScalarizePass.cpp:17-63). -/
def matchAndScalarize (blk : List (Instr α)) : Instr α → Option (Instr α)
  | .shuffle (.inst i) b mask =>
    if b.isUndef && mask.all (fun e => e = none ∨ e = some 0) then
      match blk[i]? with
      | some (.binop op l r) =>
        match matchInsert blk l with
        | some x => (tailUndef r).map fun c => .splat op x (.scalar c.1) c.2 mask
        | none =>
          match matchInsert blk r with
          | some x => (tailUndef l).map fun c => .splat op (.scalar c.1) x c.2 mask
          | none => none
      | _ => none
    else none
  | _ => none

/-- The operands of an instruction. Models no lines of ispc. -/
def Instr.operands : Instr α → List (Operand α)
  | .binop _ a b => [a, b]
  | .insert base x _ => [base, x]
  | .shuffle a b _ => [a, b]
  | .splat _ a b _ _ => [a, b]
  | .other _ ops => ops
  | .gone => []

/-- The instructions whose results an instruction uses. Models no lines of ispc. -/
def Instr.uses (i : Instr α) : List Nat :=
  i.operands.filterMap fun
    | .inst j => some j
    | _ => none

/-- `RecursivelyDeleteTriviallyDeadInstructions` (src/opt/ScalarizePass.cpp:78) for the instructions in the list: those
    without uses and effects are deleted, then what they used is looked at. Opaque instructions always stay, which is a
    simplification. `fuel` bounds the recursion. -/
def deleteDead : Nat → List (Instr α) → List Nat → List (Instr α)
  | 0, blk, _ => blk
  | _, blk, [] => blk
  | fuel + 1, blk, i :: todo =>
    match blk[i]? with
    | none => deleteDead fuel blk todo
    | some (.other _ _) => deleteDead fuel blk todo
    | some ins =>
      if blk.any (fun x => x.uses.contains i) then deleteDead fuel blk todo
      else deleteDead fuel (blk.set i .gone) (ins.uses ++ todo)

/-- One step of `matchAndReplace` (src/opt/ScalarizePass.cpp:72-81): the new instruction takes the place of the old, and
    what the old one used is deleted if nothing else uses it. -/
def step (blk : List (Instr α)) (k : Nat) : List (Instr α) :=
  match blk[k]? with
  | none => blk
  | some ins =>
    match matchAndScalarize blk ins with
    | none => blk
    | some new => deleteDead (3 * blk.length) (blk.set k new) ins.uses

/-- `matchAndReplace` (src/opt/ScalarizePass.cpp:65-86). -/
def pass (blk : List (Instr α)) : List (Instr α) := (List.range blk.length).foldl step blk

end Ispc.Scalarize
