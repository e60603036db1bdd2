import Mathlib.Data.List.FinRange
import Mathlib.Tactic.Ring

/-!
# Vectors of one value per program instance, and the loops of `builtins/generic.ispc`

A `varying T` is a function from instances to values.  Reading or writing a lane outside the gang is poison in LLVM
(`extractelement`, `insertelement`); the model makes it `none`.
-/

namespace Ispc.Vec

abbrev Vec (W : Nat) (α : Type) := Fin W → α

variable {W : Nat} {α σ : Type}

/-- `__extract(v, i)` (builtins/generic.ispc:71-82, `extractelement`). -/
def extract (v : Vec W α) (i : Nat) : Option α := if h : i < W then some (v ⟨i, h⟩) else none

/-- `__insert(v, i, x)` (builtins/generic.ispc:49-69, `insertelement`). -/
def insert (v : Vec W α) (i : Nat) (x : α) : Option (Vec W α) :=
  if i < W then some fun l => if l.val = i then x else v l else none

/-- `for (uniform int i = lo; i < lo + n; i++) body` with a body that cannot leave the loop. -/
def forLoop (body : Nat → σ → Option σ) : Nat → Nat → σ → Option σ
  | _, 0, s => some s
  | lo, n + 1, s => (body lo s).bind fun s' => forLoop body (lo + 1) n s'

theorem extract_lt (v : Vec W α) {i : Nat} (h : i < W) : extract v i = some (v ⟨i, h⟩) := dif_pos h

theorem insert_lt (v : Vec W α) {i : Nat} (h : i < W) (x : α) :
    insert v i x = some fun l => if l.val = i then x else v l := if_pos h

/-- The loop invariant rule. -/
theorem forLoop_inv {body : Nat → σ → Option σ} (I : Nat → σ → Prop) :
    ∀ (n lo : Nat) (s : σ), I lo s →
      (∀ i s, lo ≤ i → i < lo + n → I i s → ∃ s', body i s = some s' ∧ I (i + 1) s') →
      ∃ s', forLoop body lo n s = some s' ∧ I (lo + n) s' := by
  intro n
  induction n with
  | zero => intro lo s h _; exact ⟨s, rfl, h⟩
  | succ n ih =>
    intro lo s h hb
    obtain ⟨s1, e1, h1⟩ := hb lo s (by omega) (by omega) h
    obtain ⟨s2, e2, h2⟩ := ih (lo + 1) s1 h1 fun i s a b => hb i s (by omega) (by omega)
    refine ⟨s2, ?_, by rw [show lo + (n + 1) = lo + 1 + n by omega]; exact h2⟩
    rw [forLoop, e1, Option.bind_some, e2]

/-- Instances below a bound, in order. -/
def lanesBelow (W k : Nat) : List (Fin W) := (List.finRange W).filter fun l => decide (l.val < k)

theorem lanesBelow_succ {k : Nat} (h : k < W) : lanesBelow W (k + 1) = lanesBelow W k ++ [⟨k, h⟩] := by
  have hinj : Function.Injective (List.map (Fin.val (n := W))) := List.map_injective_iff.2 Fin.val_injective
  apply hinj
  have key : ∀ k, k ≤ W → (lanesBelow W k).map Fin.val = List.range k := by
    intro k hk
    unfold lanesBelow
    have e : (fun l : Fin W => decide (l.val < k)) = (fun i : Nat => decide (i < k)) ∘ Fin.val := rfl
    rw [e, ← List.filter_map, List.map_coe_finRange_eq_range]
    obtain ⟨j, rfl⟩ := Nat.exists_eq_add_of_le hk
    rw [List.range_add, List.filter_append]
    have h1 : (List.range k).filter (fun i => decide (i < k)) = List.range k := by
      rw [List.filter_eq_self]; intro a ha; simpa using ha
    have h2 : ((List.range j).map (k + ·)).filter (fun i => decide (i < k)) = [] := by
      rw [List.filter_eq_nil_iff]; intro a ha; simp at ha; obtain ⟨b, _, rfl⟩ := ha; simp
    rw [h1, h2, List.append_nil]
  rw [List.map_append, key k (by omega), key (k + 1) (by omega), List.range_succ]
  rfl

theorem lanesBelow_zero : lanesBelow W 0 = [] := by
  unfold lanesBelow; rw [List.filter_eq_nil_iff]; simp

theorem lanesBelow_all : lanesBelow W W = List.finRange W := by
  unfold lanesBelow; rw [List.filter_eq_self]; intro a _; simp

theorem mem_lanesBelow {k : Nat} {l : Fin W} : l ∈ lanesBelow W k ↔ l.val < k := by simp [lanesBelow]

end Ispc.Vec
