import Verif.Builtins.Scan

/-!
# C15: scans, reductions and packed transfers have their sequential meaning
-/

namespace Ispc.Scan

open Ispc.Vec
open Ispc.ForeachActive (Mask movmsk cttz activeLanes movmsk_bit bits bits_movmsk activeLanes_spec cttz_head)

variable {W : Nat} {α : Type}

/-! ## Specification -/

/-- The active instances with a number smaller than `k`, in order. -/
def activeBelow (mask : Mask W) (k : Nat) : List (Fin W) := (lanesBelow W k).filter fun l => mask l

/-- The sequential meaning of an exclusive scan. -/
def scanSpec (op : α → α → α) (e : α) (v : Vec W α) (mask : Mask W) (l : Fin W) : α :=
  (activeBelow mask l.val).foldl (fun acc j => op acc (v j)) e

/-! ## Masks as words -/

theorem allMask_bit (hW : W ≤ 64) (i : Nat) : (allMask W).getLsbD i = decide (i < W) := by
  unfold allMask
  rw [BitVec.getLsbD_ushiftRight, BitVec.getLsbD_allOnes]
  rw [decide_eq_decide]; omega

theorem movmsk_eq_all (hW : W ≤ 64) (m : Mask W) : movmsk m = allMask W ↔ ∀ l, m l = true := by
  constructor
  · intro h l
    have := (movmsk_bit m hW l.val).1 (by rw [h, allMask_bit hW]; simp [l.isLt])
    exact this.2
  · intro h
    apply BitVec.eq_of_getLsbD_eq
    intro i hi
    rw [allMask_bit hW, Bool.eq_iff_iff, movmsk_bit m hW, decide_eq_true_eq]
    exact ⟨fun ⟨h, _⟩ => h, fun hi => ⟨hi, h _⟩⟩

theorem movmsk_eq_zero (hW : W ≤ 64) (m : Mask W) : movmsk m = 0#64 ↔ ∀ l, m l = false := by
  constructor
  · intro h l
    by_contra hl
    have := (movmsk_bit m hW l.val).2 ⟨l.isLt, by simpa using hl⟩
    rw [h] at this; simp at this
  · intro h
    apply BitVec.eq_of_getLsbD_eq
    intro i hi
    rw [BitVec.getLsbD_zero, ← Bool.not_eq_true, movmsk_bit m hW]
    rintro ⟨_, h'⟩
    rw [h] at h'; cases h'

/-- C15: `any`. -/
theorem any_iff (hW : W ≤ 64) (v mask : Mask W) : any v mask = true ↔ ∃ l, mask l = true ∧ v l = true := by
  unfold any
  rw [bne_iff_ne, ne_eq, movmsk_eq_zero hW]
  constructor
  · intro h
    by_contra hn
    refine h fun l => ?_
    by_contra hl
    simp only [Bool.not_eq_false, Bool.and_eq_true] at hl
    exact hn ⟨l, hl.2, hl.1⟩
  · rintro ⟨l, h1, h2⟩ h
    have := h l
    rw [h1, h2] at this; cases this

/-- C15: `all`. -/
theorem all_iff (hW : W ≤ 64) (v mask : Mask W) : all v mask = true ↔ ∀ l, mask l = true → v l = true := by
  unfold all
  rw [beq_iff_eq, movmsk_eq_all hW]
  refine forall_congr' fun l => ?_
  cases v l <;> cases mask l <;> simp

/-- C15: `none`. -/
theorem none_iff (hW : W ≤ 64) (v mask : Mask W) : none' v mask = true ↔ ∀ l, mask l = true → v l = false := by
  unfold none'
  rw [beq_iff_eq, movmsk_eq_zero hW]
  refine forall_congr' fun l => ?_
  cases v l <;> cases mask l <;> simp

theorem popcnt_movmsk (hW : W ≤ 64) (mask : Mask W) : (popcnt (movmsk mask)).toNat = (activeLanes mask).length := by
  have h : (bits (movmsk mask)).length = (activeLanes mask).length := by rw [bits_movmsk mask hW, List.length_map]
  have hle : (activeLanes mask).length ≤ W := by
    unfold activeLanes; exact (List.length_filter_le _ _).trans (by simp)
  unfold popcnt
  rw [BitVec.toNat_ofNat]
  change (bits (movmsk mask)).length % _ = _
  rw [h]
  exact Nat.mod_eq_of_lt (by omega)

theorem activeLanes_length (mask : Mask W) :
    (activeLanes mask).length = (Finset.univ.filter fun l => mask l = true).card := by
  rw [← List.toFinset_card_of_nodup]
  · congr 1; ext l; simp [activeLanes]
  · unfold activeLanes; exact (List.nodup_finRange W).filter _

/-- C15: `popcnt(bool)` counts the active instances where the value is true. -/
theorem popcntBool_eq (hW : W ≤ 64) (v mask : Mask W) :
    (popcntBool v mask).toNat = (Finset.univ.filter fun l => mask l = true ∧ v l = true).card := by
  unfold popcntBool
  rw [popcnt_movmsk hW, activeLanes_length]
  congr 1; ext l; simp [and_comm]

/-! ## Exclusive scans -/

theorem activeBelow_succ (mask : Mask W) {k : Nat} (h : k < W) :
    activeBelow mask (k + 1) = activeBelow mask k ++ if mask ⟨k, h⟩ then [⟨k, h⟩] else [] := by
  unfold activeBelow
  rw [lanesBelow_succ h, List.filter_append]
  congr 1
  by_cases hm : mask ⟨k, h⟩ = true <;> simp [hm]

theorem scanSpec_succ (op : α → α → α) (e : α) (hid : ∀ x, op x e = x) (v : Vec W α) (mask : Mask W) {k : Nat}
    (hk : k + 1 < W) :
    scanSpec op e v mask ⟨k + 1, hk⟩ =
      op (scanSpec op e v mask ⟨k, by omega⟩) (if mask ⟨k, by omega⟩ then v ⟨k, by omega⟩ else e) := by
  unfold scanSpec
  rw [activeBelow_succ mask (by omega : k < W), List.foldl_append]
  by_cases hm : mask ⟨k, by omega⟩ = true <;> simp [hm, hid]

theorem scanSpec_zero (op : α → α → α) (e : α) (v : Vec W α) (mask : Mask W) (h : 0 < W) :
    scanSpec op e v mask ⟨0, h⟩ = e := by
  simp [scanSpec, activeBelow, lanesBelow_zero]

/-- C15: the generic exclusive scan, for every commutative operation with the given identity. -/
theorem exclusiveScan_spec (op : α → α → α) (e : α) (hcomm : ∀ x y, op x y = op y x) (hid : ∀ x, op x e = x)
    (v : Vec W α) (mask : Mask W) : exclusiveScan op e v mask = some (scanSpec op e v mask) := by
  unfold exclusiveScan
  simp only []
  by_cases hW : W = 0
  · subst hW
    simp only [Nat.zero_sub, forLoop, Option.some.injEq]
    funext l; exact l.elim0
  obtain ⟨r, hr, hI⟩ := forLoop_inv (body := fun i res => do
      let a ← extract (fun l => if mask l then v l else e) (i - 1)
      let b ← extract res (i - 1)
      insert res i (op a b))
    (fun i (res : Vec W α) => (∀ l : Fin W, l.val < i → res l = scanSpec op e v mask l)) (W - 1) 1 (fun _ => e)
    (by
      rintro ⟨l, hl⟩ h0
      have : l = 0 := by simp at h0; omega
      subst this
      exact (scanSpec_zero op e v mask hl).symm)
    (by
      intro i res h1 h2 hI
      have hi : i < W := by omega
      obtain ⟨j, rfl⟩ : ∃ j, i = j + 1 := ⟨i - 1, by omega⟩
      simp only [Nat.add_sub_cancel]
      rw [extract_lt _ (show j < W by omega), extract_lt _ (show j < W by omega)]
      simp only [Option.bind_eq_bind, Option.bind_some]
      rw [insert_lt _ hi]
      refine ⟨_, rfl, ?_⟩
      rintro ⟨l, hl⟩ hlt
      simp only
      by_cases he : l = j + 1
      · subst he
        rw [if_pos rfl, hI ⟨j, by omega⟩ (by simp), scanSpec_succ op e hid v mask hl, hcomm]
      · rw [if_neg he]
        exact hI ⟨l, hl⟩ (by simp at hlt ⊢; omega))
  rw [hr]
  congr 1
  funext l
  exact hI l (by have := l.isLt; omega)

/-- C15: the util.m4 exclusive scan; the operation need not be commutative. -/
theorem exclusiveScanM4_spec (op : α → α → α) (e : α) (hid : ∀ x, op x e = x)
    (v : Vec W α) (mask : Mask W) : exclusiveScanM4 op e v mask = some (scanSpec op e v mask) := by
  unfold exclusiveScanM4
  simp only []
  by_cases hW : W = 0
  · subst hW
    simp only [Nat.zero_sub, forLoop, Option.map_some, Option.some.injEq]
    funext l; exact l.elim0
  obtain ⟨r, hr, hI⟩ := forLoop_inv (body := fun i (st : α × Vec W α) => do
      let x ← extract (fun l => if mask l then v l else e) (i - 1)
      let s := op st.1 x
      let r ← insert st.2 i s
      some (s, r))
    (fun i (st : α × Vec W α) => (∀ l : Fin W, l.val < i → st.2 l = scanSpec op e v mask l) ∧
      ∀ h : i - 1 < W, 1 ≤ i → st.1 = scanSpec op e v mask ⟨i - 1, h⟩) (W - 1) 1 (e, fun _ => e)
    (by
      refine ⟨?_, fun h _ => (scanSpec_zero op e v mask h).symm⟩
      rintro ⟨l, hl⟩ h0
      have : l = 0 := by simp at h0; omega
      subst this
      exact (scanSpec_zero op e v mask hl).symm)
    (by
      rintro i ⟨s, res⟩ h1 h2 ⟨hI, hS⟩
      have hi : i < W := by omega
      obtain ⟨j, rfl⟩ : ∃ j, i = j + 1 := ⟨i - 1, by omega⟩
      simp only [Nat.add_sub_cancel] at hS ⊢
      have hs := hS (by omega) (by omega)
      subst hs
      rw [extract_lt _ (show j < W by omega)]
      simp only [Option.bind_eq_bind, Option.bind_some]
      rw [insert_lt _ hi]
      refine ⟨_, rfl, ?_, ?_⟩
      · rintro ⟨l, hl⟩ hlt
        simp only
        by_cases he : l = j + 1
        · subst he
          rw [if_pos rfl, scanSpec_succ op e hid v mask hl]
        · rw [if_neg he]
          exact hI ⟨l, hl⟩ (by simp at hlt ⊢; omega)
      · intro h _
        rw [scanSpec_succ op e hid v mask hi])
  rw [hr, Option.map_some]
  congr 1
  funext l
  exact hI.1 l (by have := l.isLt; omega)

theorem foldl_add_sum {w : Nat} (v : Vec W (BitVec w)) (ls : List (Fin W)) (hn : ls.Nodup) (acc : BitVec w) :
    ls.foldl (fun acc j => acc + v j) acc = acc + ∑ j ∈ ls.toFinset, v j := by
  induction ls generalizing acc with
  | nil => simp
  | cons l ls ih =>
    rw [List.nodup_cons] at hn
    rw [List.foldl_cons, ih hn.2, List.toFinset_cons, Finset.sum_insert (by simpa using hn.1)]
    exact add_assoc _ _ _

/-- C15: `exclusive_scan_add` on integers of any width. -/
theorem exclusive_scan_add {w : Nat} (v : Vec W (BitVec w)) (mask : Mask W) :
    ∃ r, exclusiveScan (· + ·) 0#w v mask = some r ∧
      ∀ l, r l = ∑ j ∈ Finset.univ.filter (fun j : Fin W => j < l ∧ mask j = true), v j := by
  refine ⟨_, exclusiveScan_spec _ _ BitVec.add_comm BitVec.add_zero v mask, fun l => ?_⟩
  unfold scanSpec
  rw [foldl_add_sum]
  · rw [show (0#w : BitVec w) = 0 from rfl, zero_add]
    refine Finset.sum_congr ?_ fun _ _ => rfl
    ext j
    simp [activeBelow, lanesBelow, and_comm]
  · exact ((List.nodup_finRange W).filter _).filter _

/-- C15: `exclusive_scan_or`, bit by bit. -/
theorem exclusive_scan_or {w : Nat} (v : Vec W (BitVec w)) (mask : Mask W) :
    ∃ r, exclusiveScan (· ||| ·) 0#w v mask = some r ∧
      ∀ l i, (r l).getLsbD i = true ↔ ∃ j < l, mask j = true ∧ (v j).getLsbD i = true := by
  refine ⟨_, exclusiveScan_spec _ _ BitVec.or_comm (fun x => BitVec.or_zero) v mask, fun l i => ?_⟩
  unfold scanSpec
  have key : ∀ (ls : List (Fin W)) (acc : BitVec w),
      (ls.foldl (fun acc j => acc ||| v j) acc).getLsbD i = true ↔
        acc.getLsbD i = true ∨ ∃ j ∈ ls, (v j).getLsbD i = true := by
    intro ls
    induction ls with
    | nil => simp
    | cons j ls ih => intro acc; rw [List.foldl_cons, ih]; simp [or_assoc]
  rw [key]
  simp only [BitVec.getLsbD_zero, Bool.false_eq_true, false_or, activeBelow, List.mem_filter, mem_lanesBelow]
  constructor
  · rintro ⟨j, ⟨h1, h2⟩, h3⟩; exact ⟨j, h1, h2, h3⟩
  · rintro ⟨j, h1, h2, h3⟩; exact ⟨j, ⟨h1, h2⟩, h3⟩

/-- C15: `exclusive_scan_and`, bit by bit. -/
theorem exclusive_scan_and {w : Nat} (v : Vec W (BitVec w)) (mask : Mask W) :
    ∃ r, exclusiveScan (· &&& ·) (BitVec.allOnes w) v mask = some r ∧
      ∀ l, ∀ i < w, (r l).getLsbD i = true ↔ ∀ j < l, mask j = true → (v j).getLsbD i = true := by
  refine ⟨_, exclusiveScan_spec _ _ BitVec.and_comm (fun x => BitVec.and_allOnes) v mask, fun l i hi => ?_⟩
  unfold scanSpec
  have key : ∀ (ls : List (Fin W)) (acc : BitVec w),
      (ls.foldl (fun acc j => acc &&& v j) acc).getLsbD i = true ↔
        acc.getLsbD i = true ∧ ∀ j ∈ ls, (v j).getLsbD i = true := by
    intro ls
    induction ls with
    | nil => simp
    | cons j ls ih => intro acc; rw [List.foldl_cons, ih]; simp [and_assoc]
  rw [key]
  simp only [BitVec.getLsbD_allOnes, hi, decide_true, true_and, activeBelow, List.mem_filter, mem_lanesBelow]
  exact ⟨fun h j h1 h2 => h j ⟨h1, h2⟩, fun h j hj => h j hj.1 hj.2⟩

/-! ## Reductions -/

/-- C15: `reduce_add` on integers sums the active values. -/
theorem reduceAdd_eq {w : Nat} (v : Vec W (BitVec w)) (mask : Mask W) :
    reduceAdd v mask = ∑ l ∈ Finset.univ.filter (fun l => mask l = true), v l := by
  unfold reduceAdd vectorReduce
  rw [foldl_add_sum (fun l => if mask l then v l else 0#w) _ (List.nodup_finRange W)]
  rw [show (0#w : BitVec w) = 0 from rfl, zero_add, List.toFinset_finRange, Finset.sum_filter]

/-- Folding a selection by a total preorder picks a least element. -/
theorem fold_select (le : α → α → Bool) (htot : ∀ a b, le a b = true ∨ le b a = true)
    (htr : ∀ a b c, le a b = true → le b c = true → le a c = true) (f : Fin W → α) :
    ∀ (ls : List (Fin W)) (acc : α),
      let r := ls.foldl (fun acc l => if le acc (f l) then acc else f l) acc
      (r = acc ∨ ∃ l ∈ ls, r = f l) ∧ le r acc = true ∧ ∀ l ∈ ls, le r (f l) = true := by
  intro ls
  induction ls with
  | nil =>
    intro acc
    refine ⟨Or.inl rfl, ?_, by simp⟩
    rcases htot acc acc with h | h <;> exact h
  | cons l ls ih =>
    intro acc
    obtain ⟨h1, h2, h3⟩ := ih (if le acc (f l) then acc else f l)
    simp only [List.foldl_cons]
    by_cases h : le acc (f l) = true
    · rw [if_pos h] at h1 h2 h3 ⊢
      refine ⟨?_, h2, ?_⟩
      · rcases h1 with h1 | ⟨k, hk, h1⟩
        · exact Or.inl h1
        · exact Or.inr ⟨k, List.mem_cons_of_mem _ hk, h1⟩
      · intro k hk
        rcases List.mem_cons.1 hk with rfl | hk
        · exact htr _ _ _ h2 h
        · exact h3 k hk
    · rw [if_neg h] at h1 h2 h3 ⊢
      have h' : le (f l) acc = true := (htot acc (f l)).resolve_left h
      refine ⟨?_, htr _ _ _ h2 h', ?_⟩
      · rcases h1 with h1 | ⟨k, hk, h1⟩
        · exact Or.inr ⟨l, List.mem_cons_self, h1⟩
        · exact Or.inr ⟨k, List.mem_cons_of_mem _ hk, h1⟩
      · intro k hk
        rcases List.mem_cons.1 hk with rfl | hk
        · exact h2
        · exact h3 k hk

/-- A masked reduction whose identity is a greatest element returns a least active value. -/
theorem reduce_select (le : α → α → Bool) (htot : ∀ a b, le a b = true ∨ le b a = true)
    (htr : ∀ a b c, le a b = true → le b c = true → le a c = true)
    (hanti : ∀ a b, le a b = true → le b a = true → a = b) (e : α) (he : ∀ a, le a e = true)
    (v : Vec W α) (mask : Mask W) (hact : ∃ l, mask l = true) :
    let r := vectorReduce (fun a b => if le a b then a else b) e fun l => if mask l then v l else e
    (∃ l, mask l = true ∧ r = v l) ∧ ∀ l, mask l = true → le r (v l) = true := by
  intro r
  obtain ⟨h1, h2, h3⟩ := fold_select le htot htr (fun l => if mask l then v l else e) (List.finRange W) e
  change (r = e ∨ _) at h1
  change ∀ l ∈ List.finRange W, le r _ = true at h3
  have h4 : ∀ l, mask l = true → le r (v l) = true := by
    intro l hl
    have := h3 l (List.mem_finRange l)
    rwa [if_pos hl] at this
  refine ⟨?_, h4⟩
  have hre : r = e → ∃ l, mask l = true ∧ r = v l := by
    intro hr
    obtain ⟨l, hl⟩ := hact
    refine ⟨l, hl, hanti _ _ (h4 l hl) ?_⟩
    rw [hr]; exact he _
  rcases h1 with h1 | ⟨l, _, h1⟩
  · exact hre h1
  · by_cases hl : mask l = true
    · rw [if_pos hl] at h1; exact ⟨l, hl, h1⟩
    · rw [if_neg hl] at h1; exact hre h1

/-- C15: signed `reduce_min`. -/
theorem reduceMinS_spec {n : Nat} (v : Vec W (BitVec (n + 1))) (mask : Mask W) (hact : ∃ l, mask l = true) :
    (∃ l, mask l = true ∧ reduceMinS v mask = v l) ∧
      ∀ l, mask l = true → (reduceMinS v mask).toInt ≤ (v l).toInt := by
  have := reduce_select (fun a b : BitVec (n + 1) => a.sle b)
    (by intro a b; simp only [BitVec.sle_eq_decide, decide_eq_true_eq]; exact Int.le_total _ _)
    (by intro a b c; simp only [BitVec.sle_eq_decide, decide_eq_true_eq]; exact Int.le_trans)
    (by intro a b; simp only [BitVec.sle_eq_decide, decide_eq_true_eq]
        intro h1 h2; exact BitVec.eq_of_toInt_eq (Int.le_antisymm h1 h2))
    (BitVec.intMax (n + 1)) (by
      intro a; simp only [BitVec.sle_eq_decide, decide_eq_true_eq, BitVec.toInt_intMax]
      have := BitVec.toInt_lt (x := a); simp only [Nat.add_sub_cancel] at this
      have h2 : ((2 ^ (n + 1 - 1) : Nat) : Int) = 2 ^ n := by simp
      simp only [Nat.add_sub_cancel] at *; omega)
    v mask hact
  unfold reduceMinS
  simpa only [BitVec.sle_eq_decide, decide_eq_true_eq] using this

/-- C15: signed `reduce_max`. -/
theorem reduceMaxS_spec {n : Nat} (v : Vec W (BitVec (n + 1))) (mask : Mask W) (hact : ∃ l, mask l = true) :
    (∃ l, mask l = true ∧ reduceMaxS v mask = v l) ∧
      ∀ l, mask l = true → (v l).toInt ≤ (reduceMaxS v mask).toInt := by
  have := reduce_select (fun a b : BitVec (n + 1) => b.sle a)
    (by intro a b; simp only [BitVec.sle_eq_decide, decide_eq_true_eq]; exact Int.le_total _ _)
    (by intro a b c; simp only [BitVec.sle_eq_decide, decide_eq_true_eq]; exact fun h1 h2 => Int.le_trans h2 h1)
    (by intro a b; simp only [BitVec.sle_eq_decide, decide_eq_true_eq]
        intro h1 h2; exact BitVec.eq_of_toInt_eq (Int.le_antisymm h2 h1))
    (BitVec.intMin (n + 1)) (by
      intro a; simp only [BitVec.sle_eq_decide, decide_eq_true_eq]
      rw [BitVec.toInt_intMin_of_pos (by omega)]
      have := BitVec.le_toInt a
      simpa using this)
    v mask hact
  unfold reduceMaxS
  simpa only [BitVec.sle_eq_decide, decide_eq_true_eq] using this

/-- C15: unsigned `reduce_min`. -/
theorem reduceMinU_spec {w : Nat} (v : Vec W (BitVec w)) (mask : Mask W) (hact : ∃ l, mask l = true) :
    (∃ l, mask l = true ∧ reduceMinU v mask = v l) ∧ ∀ l, mask l = true → (reduceMinU v mask).toNat ≤ (v l).toNat := by
  have := reduce_select (fun a b : BitVec w => decide (a ≤ b))
    (by intro a b; simp only [decide_eq_true_eq, BitVec.le_def]; exact Nat.le_total _ _)
    (by intro a b c; simp only [decide_eq_true_eq, BitVec.le_def]; exact Nat.le_trans)
    (by intro a b; simp only [decide_eq_true_eq, BitVec.le_def]
        intro h1 h2; exact BitVec.eq_of_toNat_eq (Nat.le_antisymm h1 h2))
    (BitVec.allOnes w) (by
      intro a; simp only [decide_eq_true_eq, BitVec.le_def, BitVec.toNat_allOnes]; have := a.isLt; omega)
    v mask hact
  unfold reduceMinU
  simpa only [decide_eq_true_eq, BitVec.le_def] using this

/-- C15: unsigned `reduce_max`. -/
theorem reduceMaxU_spec {w : Nat} (v : Vec W (BitVec w)) (mask : Mask W) (hact : ∃ l, mask l = true) :
    (∃ l, mask l = true ∧ reduceMaxU v mask = v l) ∧ ∀ l, mask l = true → (v l).toNat ≤ (reduceMaxU v mask).toNat := by
  have := reduce_select (fun a b : BitVec w => decide (b ≤ a))
    (by intro a b; simp only [decide_eq_true_eq, BitVec.le_def]; exact Nat.le_total _ _)
    (by intro a b c; simp only [decide_eq_true_eq, BitVec.le_def]; exact fun h1 h2 => Nat.le_trans h2 h1)
    (by intro a b; simp only [decide_eq_true_eq, BitVec.le_def]
        intro h1 h2; exact BitVec.eq_of_toNat_eq (Nat.le_antisymm h2 h1))
    (0#w) (by intro a; simp [BitVec.le_def])
    v mask hact
  unfold reduceMaxU
  simpa only [decide_eq_true_eq, BitVec.le_def] using this

/-! ## reduce_equal -/

theorem first_active (hW : W ≤ 64) (mask : Mask W) (hact : ∃ l, mask l = true) :
    ∃ f : Fin W, cttz (movmsk mask) = f.val ∧ mask f = true ∧ ∀ l, mask l = true → f ≤ l := by
  have hb := bits_movmsk mask hW
  obtain ⟨hmem, hpw⟩ := activeLanes_spec mask
  cases hls : activeLanes mask with
  | nil =>
    obtain ⟨l, hl⟩ := hact
    have := (hmem l).2 hl
    rw [hls] at this; simp at this
  | cons f ls =>
    rw [hls] at hb hpw
    refine ⟨f, ?_, (hmem f).1 (by rw [hls]; simp), ?_⟩
    · rw [cttz_head, hb]; rfl
    · intro l hl
      have := (hmem l).2 hl
      rw [hls] at this
      rcases List.mem_cons.1 this with rfl | h
      · exact Nat.le_refl _
      · exact Nat.le_of_lt ((List.pairwise_cons.1 hpw).1 l h)

/-- What `reduce_equal` must return: whether all pairs of active instances compare equal, and if so a value equal to all
of them. -/
def ReduceEqualSpec (eq : α → α → Bool) (x : Vec W α) (mask : Mask W) (r : Option α) : Prop :=
  (r.isSome = true ↔ ∀ l l', mask l = true → mask l' = true → eq (x l) (x l') = true) ∧
  ∀ a, r = some a → ∀ l, mask l = true → eq (x l) a = true

/-- C15: generic `reduce_equal`, for integer equality and for IEEE equality (symmetric and transitive, not reflexive). -/
theorem reduce_equal_generic (hW : W ≤ 64) (eq : α → α → Bool) (hs : ∀ a b, eq a b = true → eq b a = true)
    (ht : ∀ a b c, eq a b = true → eq b c = true → eq a c = true) (x : Vec W α) (mask : Mask W)
    (hact : ∃ l, mask l = true) : ∃ r, reduceEqual eq x mask = some r ∧ ReduceEqualSpec eq x mask r := by
  obtain ⟨f, hf, hfm, _⟩ := first_active hW mask hact
  unfold reduceEqual
  rw [hf, extract_lt x f.isLt]
  refine ⟨_, rfl, ?_⟩
  have hall : (movmsk (fun l => eq (x l) (x ⟨f.val, f.isLt⟩) || !mask l) == allMask W) = true ↔
      ∀ l, mask l = true → eq (x l) (x f) = true := by
    rw [beq_iff_eq, movmsk_eq_all hW]
    refine forall_congr' fun l => ?_
    cases mask l <;> simp
  by_cases h : ∀ l, mask l = true → eq (x l) (x f) = true
  · rw [if_pos (hall.2 h)]
    refine ⟨⟨fun _ l l' h1 h2 => ht _ _ _ (h l h1) (hs _ _ (h l' h2)), fun _ => rfl⟩, ?_⟩
    intro a ha l hl
    cases ha
    exact h l hl
  · rw [if_neg (by rw [hall]; exact h)]
    refine ⟨⟨(fun h => by cases h), fun h' => absurd (fun l hl => h' l f hl hfm) h⟩, ?_⟩
    intro a ha; cases ha

theorem blend_spec (hW : W ≤ 64) (x : Vec W α) (mask : Mask W) (hact : ∃ l, mask l = true) :
    ∃ f : Fin W, mask f = true ∧
      blendFirst x mask = some (fun l => if mask l then x l else x f) := by
  obtain ⟨f, hf, hfm, _⟩ := first_active hW mask hact
  refine ⟨f, hfm, ?_⟩
  unfold blendFirst
  by_cases h : movmsk mask = allMask W
  · rw [if_pos h]
    rw [movmsk_eq_all hW] at h
    congr 1; funext l; simp [h l]
  · rw [if_neg h, hf, extract_lt x f.isLt]; rfl

theorem blend_pairs (eq : α → α → Bool) (x : Vec W α) (mask : Mask W) (f : Fin W) (hf : mask f = true)
    (v0 : α) (i0 : Fin W) (hv0 : v0 = if mask i0 then x i0 else x f) (ok : Bool)
    (hok : ok = true ↔ ∀ l l' : Fin W, eq (if mask l then x l else x f) (if mask l' then x l' else x f) = true) :
    ReduceEqualSpec eq x mask (if ok then some v0 else none) := by
  have hiff : ok = true ↔ ∀ l l', mask l = true → mask l' = true → eq (x l) (x l') = true := by
    rw [hok]
    constructor
    · intro h l l' h1 h2
      have := h l l'; rwa [if_pos h1, if_pos h2] at this
    · intro h l l'
      by_cases h1 : mask l = true <;> by_cases h2 : mask l' = true
      · rw [if_pos h1, if_pos h2]; exact h _ _ h1 h2
      · rw [if_pos h1, if_neg h2]; exact h _ _ h1 hf
      · rw [if_neg h1, if_pos h2]; exact h _ _ hf h2
      · rw [if_neg h1, if_neg h2]; exact h _ _ hf hf
  by_cases h : ok = true
  · rw [if_pos h]
    refine ⟨⟨fun _ => hiff.1 h, fun _ => rfl⟩, ?_⟩
    intro a ha l hl
    cases ha
    have := hok.1 h l i0
    rw [if_pos hl, ← hv0] at this
    exact this
  · rw [if_neg h]
    refine ⟨⟨(fun h => by cases h), fun h' => absurd (hiff.2 h') h⟩, ?_⟩
    intro a ha; cases ha

/-- Consecutive equality makes everything equal. -/
theorem chain_eq (eq : α → α → Bool)
    (ht : ∀ a b c, eq a b = true → eq b c = true → eq a c = true) (g : Nat → α) (n : Nat)
    (h : ∀ i, i + 1 < n → eq (g i) (g (i + 1)) = true) :
    ∀ i j, i < j → j < n → eq (g i) (g j) = true := by
  intro i j hij
  induction j with
  | zero => omega
  | succ j ih =>
    intro hj
    rcases Nat.lt_or_ge i j with h1 | h1
    · exact ht _ _ _ (ih h1 (by omega)) (h j hj)
    · have : i = j := by omega
      subst this; exact h i hj

/-- C15: `reduce_equal` of the util.m4 targets, 32-bit elements. -/
theorem reduce_equal_m4 (hW0 : 0 < W) (hW : W ≤ 64) (eq : α → α → Bool) (hs : ∀ a b, eq a b = true → eq b a = true)
    (ht : ∀ a b c, eq a b = true → eq b c = true → eq a c = true) (x : Vec W α) (mask : Mask W)
    (hact : ∃ l, mask l = true) : ∃ r, reduceEqualM4 eq x mask = some r ∧ ReduceEqualSpec eq x mask r := by
  obtain ⟨f, hf, hb⟩ := blend_spec hW x mask hact
  unfold reduceEqualM4
  rw [hb]
  simp only [Option.bind_eq_bind, Option.bind_some]
  rw [extract_lt _ hW0]
  simp only [Option.bind_some]
  refine ⟨_, rfl, ?_⟩
  have key := blend_pairs eq x mask f hf (if mask ⟨0, hW0⟩ then x ⟨0, hW0⟩ else x f) ⟨0, hW0⟩ rfl
    (decide (movmsk (fun l : Fin W => eq (if mask l then x l else x f)
      (if mask ⟨(l.val + 1) % W, Nat.mod_lt _ (Nat.zero_lt_of_lt l.isLt)⟩ then
        x ⟨(l.val + 1) % W, Nat.mod_lt _ (Nat.zero_lt_of_lt l.isLt)⟩ else x f)) = allMask W)) ?_
  · simpa only [decide_eq_true_eq] using key
  · rw [decide_eq_true_eq, movmsk_eq_all hW]
    constructor
    · intro h
      let g : Nat → α := fun i => if h : i < W then (if mask ⟨i, h⟩ then x ⟨i, h⟩ else x f) else x f
      have hg : ∀ l : Fin W, g l.val = if mask l then x l else x f := by
        intro l; simp only [g]; rw [dif_pos l.isLt]
      have hstep : ∀ i, i + 1 < W → eq (g i) (g (i + 1)) = true := by
        intro i hi
        have := h ⟨i, by omega⟩
        have e1 := hg ⟨i, by omega⟩
        have e2 := hg ⟨i + 1, hi⟩
        rw [e1, e2]
        simp only [Nat.mod_eq_of_lt hi] at this
        exact this
      have hlast : eq (g (W - 1)) (g 0) = true := by
        have := h ⟨W - 1, by omega⟩
        have e1 := hg ⟨W - 1, by omega⟩
        have e2 := hg ⟨0, hW0⟩
        rw [e1, e2]
        have e : (W - 1 + 1) % W = 0 := by rw [Nat.sub_add_cancel hW0, Nat.mod_self]
        simp only [e] at this
        exact this
      have hch := chain_eq eq ht g W hstep
      have hrefl : ∀ i, i < W → eq (g i) (g i) = true := by
        intro i hi
        by_cases h1 : i = 0
        · subst h1
          by_cases h2 : W = 1
          · subst h2; exact hlast
          · exact ht _ _ _ (hch 0 (W - 1) (by omega) (by omega)) hlast
        · exact ht _ _ _ (hs _ _ (hch 0 i (by omega) hi)) (hch 0 i (by omega) hi)
      intro l l'
      rw [← hg l, ← hg l']
      rcases Nat.lt_trichotomy l.val l'.val with h1 | h1 | h1
      · exact hch _ _ h1 l'.isLt
      · rw [h1]; exact hrefl _ l'.isLt
      · exact hs _ _ (hch _ _ h1 l.isLt)
    · intro h l; exact h _ _

/-- C15: `reduce_equal` of the util.m4 targets, the pairwise form (8-, 16- and 64-bit elements). -/
theorem reduce_equal_m4_pairs (hW1 : 2 ≤ W) (hW : W ≤ 64) (eq : α → α → Bool)
    (hs : ∀ a b, eq a b = true → eq b a = true)
    (ht : ∀ a b c, eq a b = true → eq b c = true → eq a c = true) (x : Vec W α) (mask : Mask W)
    (hact : ∃ l, mask l = true) : ∃ r, reduceEqualM4Pairs eq x mask = some r ∧ ReduceEqualSpec eq x mask r := by
  obtain ⟨f, hf, hb⟩ := blend_spec hW x mask hact
  unfold reduceEqualM4Pairs
  rw [hb]
  simp only [Option.bind_eq_bind, Option.bind_some]
  rw [extract_lt _ (show 0 < W by omega)]
  simp only [Option.bind_some]
  refine ⟨_, rfl, blend_pairs eq x mask f hf _ ⟨0, by omega⟩ rfl _ ?_⟩
  rw [List.all_eq_true]
  constructor
  · intro h
    let g : Nat → α := fun i => if h : i < W then (if mask ⟨i, h⟩ then x ⟨i, h⟩ else x f) else x f
    have hg : ∀ l : Fin W, g l.val = if mask l then x l else x f := by
      intro l; simp only [g]; rw [dif_pos l.isLt]
    have hstep : ∀ i, i + 1 < W → eq (g i) (g (i + 1)) = true := by
      intro i hi
      have := h i (by rw [List.mem_range]; omega)
      rw [extract_lt _ (show i < W by omega), extract_lt _ hi] at this
      have e1 := hg ⟨i, by omega⟩
      have e2 := hg ⟨i + 1, hi⟩
      rw [e1, e2]
      exact this
    have hch := chain_eq eq ht g W hstep
    have hrefl : ∀ i, i < W → eq (g i) (g i) = true := by
      intro i hi
      by_cases h1 : i = 0
      · subst h1
        exact ht _ _ _ (hch 0 1 (by omega) (by omega)) (hs _ _ (hch 0 1 (by omega) (by omega)))
      · exact ht _ _ _ (hs _ _ (hch 0 i (by omega) hi)) (hch 0 i (by omega) hi)
    intro l l'
    rw [← hg l, ← hg l']
    rcases Nat.lt_trichotomy l.val l'.val with h1 | h1 | h1
    · exact hch _ _ h1 l'.isLt
    · rw [h1]; exact hrefl _ l'.isLt
    · exact hs _ _ (hch _ _ h1 l.isLt)
  · intro h i hi
    rw [List.mem_range] at hi
    rw [extract_lt _ (show i < W by omega), extract_lt _ (show i + 1 < W by omega)]
    exact h _ _

/-- Finding: the documentation promises `false` when no instance is running; the generic version reads lane 64 instead
(poison). -/
theorem reduce_equal_empty_mask_poison (hW : W ≤ 64) (eq : α → α → Bool) (x : Vec W α) (mask : Mask W)
    (hoff : ∀ l, mask l = false) : reduceEqual eq x mask = none := by
  unfold reduceEqual
  have h0 : movmsk mask = 0#64 := (movmsk_eq_zero hW mask).2 hoff
  have : cttz 0#64 = 64 := by decide +kernel
  rw [h0, this]
  unfold extract
  rw [dif_neg (by omega)]
  rfl

/-! ## Packed transfers -/

theorem compress_fold (v : Vec W α) : ∀ (ls : List (Fin W)) (m : Mem α) (p : Int),
    let r := (ls.foldl (fun (st : Mem α × Int) l => (st.1.set st.2 (v l), st.2 + 1)) (m, p)).1
    (∀ q, q < p ∨ p + ls.length ≤ q → r q = m q) ∧ ∀ k (h : k < ls.length), r (p + k) = v ls[k] := by
  intro ls
  induction ls with
  | nil => intro m p; exact ⟨fun _ _ => rfl, fun k h => absurd h (by simp)⟩
  | cons l ls ih =>
    intro m p
    obtain ⟨h1, h2⟩ := ih (m.set p (v l)) (p + 1)
    simp only [List.foldl_cons, List.length_cons]
    refine ⟨?_, ?_⟩
    · intro q hq
      rw [h1 q (by push_cast at hq; omega)]
      unfold Mem.set
      rw [if_neg (by push_cast at hq; omega)]
    · intro k hk
      cases k with
      | zero =>
        rw [h1 _ (by left; simp)]
        simp [Mem.set]
      | succ k =>
        have := h2 k (by omega)
        rw [List.getElem_cons_succ, ← this]
        congr 1; push_cast; ring

theorem compressStore_eq (m : Mem α) (p : Int) (v : Vec W α) (mask : Mask W) :
    compressStore m p v mask =
      ((activeLanes mask).foldl (fun (st : Mem α × Int) l => (st.1.set st.2 (v l), st.2 + 1)) (m, p)).1 := by
  unfold compressStore activeLanes
  rw [List.foldl_filter]

/-- C15: `packed_store_active` writes the active values contiguously, in instance order, touches nothing else and returns
their number. -/
theorem packed_store_active (hW : W ≤ 64) (m : Mem α) (p : Int) (v : Vec W α) (mask : Mask W) :
    let r := packedStore m p v mask
    r.2.toNat = (activeLanes mask).length ∧
    (∀ k (h : k < (activeLanes mask).length), r.1 (p + k) = v (activeLanes mask)[k]) ∧
    (∀ q, q < p ∨ p + (activeLanes mask).length ≤ q → r.1 q = m q) := by
  obtain ⟨h1, h2⟩ := compress_fold v (activeLanes mask) m p
  rw [← compressStore_eq] at h1 h2
  exact ⟨popcnt_movmsk hW mask, h2, h1⟩

theorem expand_fold (m : Mem α) : ∀ (ls : List (Fin W)) (pt : Vec W α) (p : Int), ls.Nodup →
    let r := (ls.foldl (fun (st : Vec W α × Int) l => ((fun k => if k = l then m st.2 else st.1 k), st.2 + 1)) (pt, p)).1
    (∀ l, l ∉ ls → r l = pt l) ∧ ∀ k (h : k < ls.length), r ls[k] = m (p + k) := by
  intro ls
  induction ls with
  | nil => intro pt p _; exact ⟨fun _ _ => rfl, fun k h => absurd h (by simp)⟩
  | cons l ls ih =>
    intro pt p hn
    rw [List.nodup_cons] at hn
    obtain ⟨h1, h2⟩ := ih (fun k => if k = l then m p else pt k) (p + 1) hn.2
    simp only [List.foldl_cons, List.length_cons]
    refine ⟨?_, ?_⟩
    · intro q hq
      rw [List.mem_cons, not_or] at hq
      rw [h1 q hq.2, if_neg hq.1]
    · intro k hk
      cases k with
      | zero => simp only [List.getElem_cons_zero]; rw [h1 l hn.1]; simp
      | succ k =>
        have := h2 k (by omega)
        rw [List.getElem_cons_succ, this]
        congr 1; push_cast; ring

/-- C15: `packed_load_active` reads consecutive cells into the active instances, in instance order, and leaves the
inactive instances' values alone. -/
theorem packed_load_active (hW : W ≤ 64) (m : Mem α) (p : Int) (old : Vec W α) (mask : Mask W) :
    let r := packedLoad m p old mask
    r.2.toNat = (activeLanes mask).length ∧
    (∀ k (h : k < (activeLanes mask).length), r.1 (activeLanes mask)[k] = m (p + k)) ∧
    (∀ l, mask l = false → r.1 l = old l) := by
  have hn : (activeLanes mask).Nodup := by unfold activeLanes; exact (List.nodup_finRange W).filter _
  obtain ⟨h1, h2⟩ := expand_fold m (activeLanes mask) old p hn
  have e : expandLoad m p old mask = ((activeLanes mask).foldl (fun (st : Vec W α × Int) l =>
      ((fun k => if k = l then m st.2 else st.1 k), st.2 + 1)) (old, p)).1 := by
    unfold expandLoad activeLanes; rw [List.foldl_filter]
  rw [← e] at h1 h2
  exact ⟨popcnt_movmsk hW mask, h2, fun l hl => h1 l (by rw [(activeLanes_spec mask).1, hl]; simp)⟩

/-- C15: packed load undoes packed store. -/
theorem packed_load_store (hW : W ≤ 64) (m : Mem α) (p : Int) (v old : Vec W α) (mask : Mask W) :
    (packedLoad (packedStore m p v mask).1 p old mask).1 = fun l => if mask l then v l else old l := by
  obtain ⟨_, h2, _⟩ := packed_store_active hW m p v mask
  obtain ⟨_, h4, h5⟩ := packed_load_active hW (packedStore m p v mask).1 p old mask
  funext l
  by_cases hl : mask l = true
  · rw [if_pos hl]
    obtain ⟨k, hk, rfl⟩ := List.getElem_of_mem (((activeLanes_spec mask).1 l).2 hl)
    rw [h4 k hk, h2 k hk]
  · rw [if_neg hl]; exact h5 l (by simpa using hl)

/-- C15: the branch-free `packed_store_active2` of the util.m4 targets stores the active values contiguously, returns
their number, and touches nothing else but at most one further cell, inside the gang-wide window. -/
theorem packed_store_active2 {k : Nat} (hk : W < 2 ^ k) (m : Mem α) (p : Int) (v : Vec W α) (mask : Mask W) :
    ∃ r, packedStore2 k m p v mask = some r ∧
      r.2.toNat = (activeLanes mask).length ∧
      (∀ j (h : j < (activeLanes mask).length), r.1 (p + j) = v (activeLanes mask)[j]) ∧
      (∀ q, q < p ∨ p + (activeLanes mask).length < q ∨ p + W ≤ q → r.1 q = m q) := by
  have hall : activeBelow mask W = activeLanes mask := by
    unfold activeBelow activeLanes; rw [lanesBelow_all]
  have hlen : ∀ i ≤ W, (activeBelow mask i).length ≤ i := by
    intro i
    induction i with
    | zero => intro _; simp [activeBelow, lanesBelow_zero]
    | succ i ih =>
      intro hi
      rw [activeBelow_succ mask (by omega : i < W), List.length_append]
      have := ih (by omega)
      split <;> simp <;> omega
  unfold packedStore2
  obtain ⟨r, hr, h1, h2, h3⟩ := forLoop_inv (body := fun i (st : Mem α × BitVec k) => do
      let storeval ← extract v i
      let mk ← extract mask i
      let fullMask : BitVec k := if mk then BitVec.allOnes k else 0#k
      some (st.1.set (p + st.2.toNat) storeval, st.2 - fullMask))
    (fun i (st : Mem α × BitVec k) => st.2.toNat = (activeBelow mask i).length ∧
      (∀ j (h : j < (activeBelow mask i).length), st.1 (p + j) = v (activeBelow mask i)[j]) ∧
      (∀ q, q < p ∨ p + (activeBelow mask i).length < q ∨ p + i ≤ q → st.1 q = m q)) W 0 (m, 0#k)
    (by
      have : activeBelow mask 0 = [] := by simp [activeBelow, lanesBelow_zero]
      rw [this]
      exact ⟨by simp, fun j h => absurd h (by simp), fun _ _ => rfl⟩)
    (by
      rintro i ⟨mm, off⟩ _ hi ⟨h1, h2, h3⟩
      have hi : i < W := by omega
      simp only at h1 h2 h3
      rw [extract_lt _ hi, extract_lt _ hi]
      refine ⟨_, rfl, ?_⟩
      have hs := activeBelow_succ mask hi
      have hl := hlen i (by omega)
      by_cases hm : mask ⟨i, hi⟩ = true
      · rw [if_pos hm] at hs
        rw [hs]
        simp only [hm, if_true, List.length_append, List.length_singleton]
        refine ⟨?_, ?_, ?_⟩
        · have e : off - BitVec.allOnes k = off + 1#k := by
            rw [← BitVec.neg_one_eq_allOnes, BitVec.sub_neg]
          have h1' : (1#k).toNat = 1 := by
            rw [BitVec.toNat_ofNat]; exact Nat.mod_eq_of_lt (by omega)
          rw [e, BitVec.toNat_add, h1', h1]
          exact Nat.mod_eq_of_lt (by omega)
        · intro j hj
          by_cases hj' : j < (activeBelow mask i).length
          · rw [List.getElem_append_left hj', ← h2 j hj']
            unfold Mem.set
            rw [if_neg (by rw [h1]; omega)]
          · have : j = (activeBelow mask i).length := by omega
            subst this
            rw [List.getElem_append_right (by omega)]
            unfold Mem.set
            rw [h1]
            simp
        · intro q hq
          unfold Mem.set
          rw [if_neg (by rw [h1]; push_cast at hq; omega)]
          exact h3 q (by push_cast at hq ⊢; omega)
      · rw [if_neg hm] at hs
        rw [hs]
        simp only [hm, List.append_nil]
        refine ⟨?_, ?_, ?_⟩
        · simp [h1]
        · intro j hj
          rw [← h2 j hj]
          unfold Mem.set
          rw [if_neg (by rw [h1]; omega)]
        · intro q hq
          unfold Mem.set
          rw [if_neg (by rw [h1]; push_cast at hq; omega)]
          exact h3 q (by push_cast at hq ⊢; omega))
  rw [Nat.zero_add, hall] at h1 h2 h3
  exact ⟨r, hr, h1, h2, h3⟩

/-! ## Non-vacuity: concrete gangs with a hole in the mask -/

def m4 : Mask 4 := fun l => decide (l.val ≠ 1)
def v4 : Vec 4 (BitVec 8) := fun l => BitVec.ofNat 8 (l.val + 10)

example : ((exclusiveScan (· + ·) 0#8 v4 m4).map fun r => [r 0, r 1, r 2, r 3]) = some [0#8, 10#8, 10#8, 22#8] := by
  decide +kernel
example : reduceMinS v4 m4 = 10#8 ∧ reduceMaxU v4 m4 = 13#8 ∧ reduceAdd v4 m4 = 35#8 := by decide +kernel
example : (reduceEqual (· == ·) (fun l : Fin 4 => if l.val = 1 then 5 else 7) m4) = some (some 7) := by decide +kernel
example : (reduceEqualM4 (· == ·) (fun l : Fin 4 => if l.val = 1 then 5 else 7) m4) = some (some 7) := by decide +kernel
example : (reduceEqualM4Pairs (· == ·) (fun l : Fin 4 => l.val) m4) = some none := by decide +kernel
example : ((packedStore (fun _ => 0#8) 3 v4 m4).2, [2, 3, 4, 5, 6].map (packedStore (fun _ => 0#8) 3 v4 m4).1) =
    (3#32, [0#8, 10#8, 12#8, 13#8, 0#8]) := by decide +kernel

end Ispc.Scan
