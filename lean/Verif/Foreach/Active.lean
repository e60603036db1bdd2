import Mathlib.Data.List.FinRange
import Mathlib.Data.List.Basic
import Mathlib.Data.List.Nodup

/-!
# Model of `foreach_active` and `foreach_unique` (src/stmt.cpp:2370-2511, 2588-2767)

The loop body is an arbitrary (possibly failing) state transformer that receives the value of the iteration variable
and the full execution mask; it may leave any internal mask behind (`continue` statements do).  It cannot touch the
loop's own `mask_bits` (an internal variable) and cannot leave the loop (`break` and `return` are compile errors there).
`none` stands for undefined behaviour, for a failing body, or for "did not finish within the fuel".
-/

namespace Ispc.ForeachActive

abbrev Mask (W : Nat) := Fin W → Bool

/-- `__movmsk` / `LaneMask` (src/ctx.cpp:1421-1429, builtins/generic.ispc:1620): bit `l` of the result is the mask of
instance `l`; gangs are at most 64 wide. -/
def movmsk {W : Nat} (m : Mask W) : BitVec 64 :=
  (List.finRange W).foldl (fun acc l => if m l then acc ||| (1#64 <<< l.val) else acc) 0#64

/-- `@llvm.cttz.i64(x, false)` (builtins/generic.ispc:938, builtins/util.m4:2674). -/
def cttz (x : BitVec 64) : Nat := ((List.range 64).find? fun i => x.getLsbD i).getD 64

/-- What the surrounding code can observe: the internal mask and everything else. -/
structure St (W : Nat) (S : Type) where
  im : Mask W
  data : S

variable {W : Nat} {S V : Type}

/-- The loop of `foreach_active` (stmt.cpp:2425-2506): find next, body, check for more.  `fm` is the function mask. -/
def activeLoop (fm : Mask W) (body : Nat → Mask W → St W S → Option (St W S)) :
    Nat → BitVec 64 → St W S → Option (St W S)
  | 0, _, _ => none
  | k + 1, rem, σ =>
    let first := cttz rem
    -- `shl i64 1, 64` is poison (stmt.cpp:2465), the later branch on it undefined
    if 64 ≤ first then none
    else do
      let iter : Mask W := fun l => decide (first = l.val)
      let rem' := rem &&& ~~~(1#64 <<< first)
      let σ' ← body first (fun l => iter l && fm l) { σ with im := iter }
      if rem' ≠ 0#64 then activeLoop fm body k rem' σ' else some σ'

/-- `ForeachActiveStmt::EmitCode` (stmt.cpp:2370-2511). -/
def foreachActive (fm : Mask W) (body : Nat → Mask W → St W S → Option (St W S)) (fuel : Nat) (σ : St W S) :
    Option (St W S) := do
  let oldInternalMask := σ.im
  let σ' ← activeLoop fm body fuel (movmsk fun l => σ.im l && fm l) σ
  some { σ' with im := oldInternalMask }

/-- The loop of `foreach_unique` (stmt.cpp:2667-2761).  `eq` is the comparison `ICMP_EQ` or `FCMP_OEQ`, `vals` the
varying value, evaluated once before the loop. -/
def uniqueLoop (oldMask fm : Mask W) (eq : V → V → Bool) (vals : Fin W → V)
    (body : V → Mask W → St W S → Option (St W S)) : Nat → BitVec 64 → St W S → Option (St W S)
  | 0, _, _ => none
  | k + 1, rem, σ =>
    let first := cttz rem
    -- `extractelement` out of range is poison (stmt.cpp:2684-2685)
    if h : first < W then do
      let v := vals ⟨first, h⟩
      let loopMask : Mask W := fun l => oldMask l && eq v (vals l)
      let rem' := rem &&& ~~~(movmsk loopMask)
      let σ' ← body v (fun l => loopMask l && fm l) { σ with im := loopMask }
      if rem' ≠ 0#64 then uniqueLoop oldMask fm eq vals body k rem' σ' else some σ'
    else none

/-- `ForeachUniqueStmt::EmitCode` (stmt.cpp:2588-2767). -/
def foreachUnique (fm : Mask W) (eq : V → V → Bool) (vals : Fin W → V)
    (body : V → Mask W → St W S → Option (St W S)) (fuel : Nat) (σ : St W S) : Option (St W S) := do
  let oldMask := σ.im
  let σ' ← uniqueLoop oldMask fm eq vals body fuel (movmsk fun l => σ.im l && fm l) σ
  some { σ' with im := oldMask }

end Ispc.ForeachActive
