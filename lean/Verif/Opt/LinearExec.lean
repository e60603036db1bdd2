import Verif.Opt.Linear

/-!
# Running the programs of `Verif.Opt.Linear`

Used to exhibit concrete executions.
-/

namespace Ispc.LinearExec

open Ispc.Linear

/-- One step of an execution.  The argument selects the incoming value of a phi
node and is the value of an unknown scalar. -/
def step (g : Graph) (h : History) (n arg : Nat) : Option History :=
  match g.node n with
  | .const c => some ((n, fun l => c l % 2 ^ g.ty n) :: h)
  | .bin op a b => match latest h a, latest h b with
    | some x, some y =>
      if (List.range g.lanes).all fun l => op.defined (g.ty n) (y l) then
        some ((n, fun l => op.eval (g.ty n) (x l) (y l)) :: h)
      else none
    | _, _ => none
  | .cast k a => (latest h a).map fun x => (n, fun l => k.eval (g.ty a) (g.ty n) (x l)) :: h
  | .phi ins | .sphi ins => if arg ∈ ins then (latest h arg).map fun x => (n, x) :: h else none
  | .splat s => (latest h s).map fun x => (n, fun _ => x 0) :: h
  | .other => none
  | .sconst c => some ((n, fun _ => c % 2 ^ g.ty n) :: h)
  | .sadd a b => match latest h a, latest h b with
    | some x, some y => some ((n, fun _ => (x 0 + y 0) % 2 ^ g.ty n) :: h)
    | _, _ => none
  | .sother => if arg < 2 ^ g.ty n then some ((n, fun _ => arg) :: h) else none

/-- Several steps. -/
def steps (g : Graph) : List (Nat × Nat) → History → Option History
  | [], h => some h
  | (n, arg) :: es, h => (step g h n arg).bind (steps g es)

theorem run_step {g : Graph} {h h' : History} {n arg : Nat} (hr : Run g h)
    (hs : step g h n arg = some h') : Run g h' := by
  unfold step at hs
  split at hs
  · cases hs; exact .cons _ _ _ hr (.const _ _ ‹_›)
  · split at hs
    · split at hs
      · cases hs
        rename_i _ _ _ _ _ _ _ h1 h2 h3
        refine .cons _ _ _ hr (.bin _ _ _ _ _ _ ‹_› h1 h2 ?_)
        intro l hl
        exact (List.all_eq_true.1 h3) l (List.mem_range.2 hl)
      · cases hs
    · cases hs
  · rename_i k a hn
    cases ha : latest h a with
    | none => simp [ha] at hs
    | some x =>
      simp only [ha, Option.map_some, Option.some.injEq] at hs
      subst hs
      exact .cons _ _ _ hr (.cast _ _ _ _ hn ha)
  · rename_i ins hn
    split at hs
    · cases ha : latest h arg with
      | none => simp [ha] at hs
      | some x =>
        simp only [ha, Option.map_some, Option.some.injEq] at hs
        subst hs
        exact .cons _ _ _ hr (.phi _ _ _ _ hn ‹_› ha)
    · cases hs
  · rename_i ins hn
    split at hs
    · cases ha : latest h arg with
      | none => simp [ha] at hs
      | some x =>
        simp only [ha, Option.map_some, Option.some.injEq] at hs
        subst hs
        exact .cons _ _ _ hr (.sphi _ _ _ _ hn ‹_› ha)
    · cases hs
  · rename_i s hn
    cases ha : latest h s with
    | none => simp [ha] at hs
    | some x =>
      simp only [ha, Option.map_some, Option.some.injEq] at hs
      subst hs
      exact .cons _ _ _ hr (.splat _ _ _ hn ha)
  · cases hs
  · cases hs; exact .cons _ _ _ hr (.sconst _ _ ‹_›)
  · split at hs
    · cases hs; exact .cons _ _ _ hr (.sadd _ _ _ _ _ ‹_› ‹_› ‹_›)
    · cases hs
  · split at hs
    · cases hs; exact .cons _ _ _ hr (.sother _ _ ‹_› ‹_›)
    · cases hs

theorem run_steps {g : Graph} (es : List (Nat × Nat)) :
    ∀ {h h' : History}, Run g h → steps g es h = some h' → Run g h' := by
  induction es with
  | nil => intro h h' hr hs; cases hs; exact hr
  | cons e es ih =>
    intro h h' hr hs
    obtain ⟨n, arg⟩ := e
    simp only [steps] at hs
    cases h1 : step g h n arg with
    | none => simp [h1] at hs
    | some h2 =>
      rw [h1] at hs
      exact ih (run_step hr h1) hs

/-- The lanes of a definition after the steps. -/
def lanesAfter (g : Graph) (es : List (Nat × Nat)) (n : Nat) : Option (List Nat) :=
  ((steps g es []).bind (latest · n)).map fun v => (List.range g.lanes).map v

theorem reaches {g : Graph} {es : List (Nat × Nat)} {n : Nat} {ls : List Nat}
    (h : lanesAfter g es n = some ls) :
    ∃ hist v, Run g hist ∧ latest hist n = some v ∧ (List.range g.lanes).map v = ls := by
  unfold lanesAfter at h
  cases h1 : steps g es [] with
  | none => simp [h1] at h
  | some hist =>
    cases h2 : latest hist n with
    | none => simp [h1, h2] at h
    | some v =>
      refine ⟨hist, v, run_steps es .nil h1, h2, ?_⟩
      simpa [h1, h2] using h

end Ispc.LinearExec
