import Verif.Builtins.ScanProps

/-!
# The `per_lane` scalarisation idiom of builtins/util.m4

Used by the util.m4 gathers, scatters, masked stores and atomics: run a block of code once for each lane whose
mask is on.
-/

namespace Ispc.PerLane

open Ispc.Vec
open Ispc.Scan (allMask movmsk_eq_all activeBelow activeBelow_succ)
open Ispc.ForeachActive (Mask movmsk activeLanes movmsk_bit one_shl_bit)

variable {W : Nat} {S : Type}

/-- `pl_loop` (util.m4:7183-7205): `fuel` is the number of lanes left; the loop ends when the lane number reaches the
width. -/
def plLoop (plMask : BitVec 64) (code : Nat → S → Option S) : Nat → Nat → BitVec 64 → S → Option S
  | 0, _, _, s => some s
  | n + 1, lane, lanemask, s => do
    let s ← if plMask &&& lanemask = lanemask then code lane s else some s
    plLoop plMask code n (lane + 1) (lanemask * 2#64) s

/-- `per_lane(W, mask, code)` (util.m4:7153-7208); `known` tells whether the mask is a compile-time constant. -/
def perLane (known : Bool) (mask : Mask W) (code : Nat → S → Option S) (s : S) : Option S :=
  if known && movmsk mask == allMask W then forLoop code 0 W s
  else plLoop (movmsk mask) code W 0 1#64 s

theorem forLoop_foldlM (code : Nat → S → Option S) : ∀ (n lo : Nat) (s : S), lo + n ≤ W →
    forLoop code lo n s = (((List.finRange W).filter fun l => decide (lo ≤ l.val ∧ l.val < lo + n))).foldlM
      (fun s l => code l.val s) s := by
  intro n
  induction n with
  | zero =>
    intro lo s _
    rw [List.filter_eq_nil_iff.2 (by intro a _; simp)]
    rfl
  | succ n ih =>
    intro lo s h
    have hlo : lo < W := by omega
    have e : (List.finRange W).filter (fun l => decide (lo ≤ l.val ∧ l.val < lo + (n + 1))) =
        ⟨lo, hlo⟩ :: (List.finRange W).filter (fun l => decide (lo + 1 ≤ l.val ∧ l.val < lo + 1 + n)) := by
      have key : ∀ a b, a ≤ b → b ≤ W → ((List.finRange W).filter fun l => decide (a ≤ l.val ∧ l.val < b)).map Fin.val =
          List.range' a (b - a) := by
        intro a b hab hb
        have e : (fun l : Fin W => decide (a ≤ l.val ∧ l.val < b)) = (fun i : Nat => decide (a ≤ i ∧ i < b)) ∘ Fin.val := rfl
        rw [e, ← List.filter_map, List.map_coe_finRange_eq_range]
        have h1 : List.range W = List.range' 0 a ++ (List.range' a (b - a) ++ List.range' b (W - b)) := by
          rw [List.range_eq_range']
          have e1 := List.range'_append_1 (s := a) (m := b - a) (n := W - b)
          rw [show a + (b - a) = b by omega] at e1
          rw [e1]
          have e2 := List.range'_append_1 (s := 0) (m := a) (n := b - a + (W - b))
          rw [Nat.zero_add] at e2
          rw [e2]
          congr 1
          omega
        rw [h1, List.filter_append, List.filter_append]
        have f1 : (List.range' 0 a).filter (fun i => decide (a ≤ i ∧ i < b)) = [] := by
          rw [List.filter_eq_nil_iff]; intro x hx; rw [List.mem_range'_1] at hx; simp; omega
        have f2 : (List.range' b (W - b)).filter (fun i => decide (a ≤ i ∧ i < b)) = [] := by
          rw [List.filter_eq_nil_iff]; intro x hx; rw [List.mem_range'_1] at hx; simp; omega
        have f3 : (List.range' a (b - a)).filter (fun i => decide (a ≤ i ∧ i < b)) = List.range' a (b - a) := by
          rw [List.filter_eq_self]; intro x hx; rw [List.mem_range'_1] at hx; simp; omega
        rw [f1, f2, f3, List.nil_append, List.append_nil]
      have hinj : Function.Injective (List.map (Fin.val (n := W))) := List.map_injective_iff.2 Fin.val_injective
      apply hinj
      rw [List.map_cons, key _ _ (by omega) (by omega), key _ _ (by omega) (by omega)]
      rw [show lo + (n + 1) - lo = n + 1 by omega, show lo + 1 + n - (lo + 1) = n by omega, List.range'_succ]
    rw [e, List.foldlM_cons, forLoop]
    cases code lo s with
    | none => rfl
    | some s' => simp only [Option.bind_some, Option.bind_eq_bind]; exact ih (lo + 1) s' (by omega)

theorem foldlM_filter (p : Fin W → Bool) (f : S → Fin W → Option S) : ∀ (ls : List (Fin W)) (s : S),
    (ls.filter p).foldlM f s = ls.foldlM (fun s l => if p l then f s l else some s) s := by
  intro ls
  induction ls with
  | nil => intro s; rfl
  | cons l ls ih =>
    intro s
    by_cases h : p l = true
    · simp only [List.filter_cons_of_pos h, List.foldlM_cons, h, if_true]
      congr 1; funext s'; exact ih s'
    · simp only [List.filter_cons_of_neg h, List.foldlM_cons, h]
      exact ih s

theorem plLoop_forLoop (plMask : BitVec 64) (code : Nat → S → Option S) : ∀ (n lane : Nat) (s : S), lane + n ≤ 64 →
    plLoop plMask code n lane (1#64 <<< lane) s =
      forLoop (fun i s => if plMask.getLsbD i then code i s else some s) lane n s := by
  intro n
  induction n with
  | zero => intro lane s _; rfl
  | succ n ih =>
    intro lane s h
    have hsh : 1#64 <<< lane * 2#64 = 1#64 <<< (lane + 1) := by
      rw [BitVec.shiftLeft_add, show (2#64 : BitVec 64) = BitVec.twoPow 64 1 from rfl, BitVec.mul_twoPow_eq_shiftLeft]
    have hbit : plMask &&& (1#64 <<< lane) = 1#64 <<< lane ↔ plMask.getLsbD lane = true := by
      constructor
      · intro hb
        have := congrArg (fun x => BitVec.getLsbD x lane) hb
        simp only [BitVec.getLsbD_and, one_shl_bit] at this
        have hl : lane < 64 := by omega
        simpa [hl] using this
      · intro hb
        apply BitVec.eq_of_getLsbD_eq
        intro i hi
        rw [BitVec.getLsbD_and, one_shl_bit]
        by_cases hil : i = lane
        · subst hil; simp [hb]
        · simp [hil]
    rw [plLoop, forLoop, hsh]
    by_cases hb : plMask.getLsbD lane = true
    · rw [if_pos (hbit.2 hb), if_pos hb]
      cases code lane s with
      | none => rfl
      | some s' => simp only [Option.bind_some, Option.bind_eq_bind]; exact ih (lane + 1) s' (by omega)
    · rw [if_neg (fun e => hb (hbit.1 e)), if_neg hb]
      simp only [Option.bind_some, Option.bind_eq_bind]; exact ih (lane + 1) s (by omega)

/-- `per_lane` runs its code once for each active lane, in increasing order, and not at all for the others. -/
theorem perLane_eq (hW : W ≤ 64) (known : Bool) (mask : Mask W) (code : Nat → S → Option S) (s : S) :
    perLane known mask code s = (activeLanes mask).foldlM (fun s l => code l.val s) s := by
  have hfull : ((List.finRange W).filter fun l => decide (0 ≤ l.val ∧ l.val < 0 + W)) = List.finRange W := by
    rw [List.filter_eq_self]; intro a _; simp
  unfold perLane
  by_cases h : (known && movmsk mask == allMask W) = true
  · rw [if_pos h, forLoop_foldlM (W := W) code W 0 s (by omega), hfull]
    simp only [Bool.and_eq_true, beq_iff_eq] at h
    have hall := (movmsk_eq_all hW mask).1 h.2
    congr 1
    unfold activeLanes
    rw [List.filter_eq_self.2]
    intro a _; exact hall a
  · rw [if_neg h]
    have e := plLoop_forLoop (movmsk mask) code W 0 s (by omega)
    rw [BitVec.shiftLeft_zero] at e
    rw [e, forLoop_foldlM (W := W) _ W 0 s (by omega), hfull]
    unfold activeLanes
    rw [foldlM_filter]
    congr 1
    funext s l
    have : (movmsk mask).getLsbD l.val = mask l := by
      rw [Bool.eq_iff_iff, movmsk_bit mask hW]
      exact ⟨fun ⟨_, h⟩ => h, fun h => ⟨l.isLt, h⟩⟩
    rw [this]

example : perLane (W := 4) false (fun l => decide (l.val ≠ 2)) (fun i (s : List Nat) => some (s ++ [i])) [] =
    some [0, 1, 3] := by decide +kernel

end Ispc.PerLane
