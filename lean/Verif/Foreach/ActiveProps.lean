import Verif.Foreach.Active
import Mathlib.Data.List.Perm.Subperm

/-!
# `foreach_active` serialises the active instances (C08), `foreach_unique` groups them by value (C09)
-/

namespace Ispc.ForeachActive

variable {W : Nat} {S V : Type}

theorem one_shl_bit (k i : Nat) : (1#64 <<< k).getLsbD i = (decide (i < 64) && decide (i = k)) := by
  rw [BitVec.getLsbD_shiftLeft, BitVec.getLsbD_one]
  by_cases h1 : i < 64 <;> by_cases h2 : i < k <;> by_cases h3 : i = k <;> simp [h1, h2, h3] <;> omega

theorem movmsk_foldl (m : Mask W) (hW : W ≤ 64) (ls : List (Fin W)) (acc : BitVec 64) (i : Nat) :
    (ls.foldl (fun acc l => if m l then acc ||| (1#64 <<< l.val) else acc) acc).getLsbD i = true ↔
      acc.getLsbD i = true ∨ ∃ l ∈ ls, m l = true ∧ l.val = i := by
  induction ls generalizing acc with
  | nil => simp
  | cons l ls ih =>
    rw [List.foldl_cons, ih]
    by_cases hm : m l = true
    · simp only [hm, if_true, BitVec.getLsbD_or, one_shl_bit, Bool.or_eq_true, Bool.and_eq_true, decide_eq_true_eq,
        List.mem_cons, exists_eq_or_imp]
      have := l.isLt
      constructor
      · rintro ((h | ⟨_, h⟩) | h)
        · exact Or.inl h
        · exact Or.inr (Or.inl ⟨trivial, h.symm⟩)
        · exact Or.inr (Or.inr h)
      · rintro (h | ⟨_, h⟩ | h)
        · exact Or.inl (Or.inl h)
        · exact Or.inl (Or.inr ⟨by omega, h.symm⟩)
        · exact Or.inr h
    · simp [hm]

/-- Bit `i` of the mask word says whether instance `i` is on. -/
theorem movmsk_bit (m : Mask W) (hW : W ≤ 64) (i : Nat) :
    (movmsk m).getLsbD i = true ↔ ∃ h : i < W, m ⟨i, h⟩ = true := by
  unfold movmsk
  rw [movmsk_foldl m hW]
  simp only [BitVec.getLsbD_zero, Bool.false_eq_true, false_or, List.mem_finRange, true_and]
  constructor
  · rintro ⟨l, h1, rfl⟩; exact ⟨l.isLt, h1⟩
  · rintro ⟨h1, h2⟩; exact ⟨⟨i, h1⟩, h2, rfl⟩

/-- The set bits, in increasing order. -/
def bits (x : BitVec 64) : List Nat := (List.range 64).filter fun i => x.getLsbD i

theorem mem_bits (x : BitVec 64) (i : Nat) : i ∈ bits x ↔ x.getLsbD i = true := by
  simp only [bits, List.mem_filter, List.mem_range, and_iff_right_iff_imp]
  exact BitVec.lt_of_getLsbD

theorem nodup_bits (x : BitVec 64) : (bits x).Nodup := List.nodup_range.filter _

theorem bits_eq_nil (x : BitVec 64) : bits x = [] ↔ x = 0#64 := by
  constructor
  · intro h
    apply BitVec.eq_of_getLsbD_eq
    intro i hi
    cases hb : x.getLsbD i
    · simp
    · have := (mem_bits x i).2 hb; rw [h] at this; simp at this
  · rintro rfl; simp [bits]

theorem cttz_head (x : BitVec 64) : cttz x = (bits x).head?.getD 64 := by
  unfold cttz bits; rw [List.head?_filter]

theorem cttz_cons {x : BitVec 64} {i : Nat} {is} (h : bits x = i :: is) : cttz x = i ∧ x.getLsbD i = true ∧ i < 64 := by
  have h1 : cttz x = i := by rw [cttz_head, h]; rfl
  have h2 : x.getLsbD i = true := (mem_bits x i).1 (by rw [h]; simp)
  exact ⟨h1, h2, BitVec.lt_of_getLsbD h2⟩

/-- Clearing the lowest set bit drops the head of the list of set bits. -/
theorem bits_clear {x : BitVec 64} {i : Nat} {is} (h : bits x = i :: is) : bits (x &&& ~~~(1#64 <<< i)) = is := by
  have hn := nodup_bits x
  have e : bits (x &&& ~~~(1#64 <<< i)) = (bits x).filter fun j => decide (j ≠ i) := by
    unfold bits
    rw [List.filter_filter]
    refine List.filter_congr fun j hj => ?_
    rw [List.mem_range] at hj
    rw [BitVec.getLsbD_and, BitVec.getLsbD_not, one_shl_bit]
    cases x.getLsbD j <;> simp [hj]
  rw [e, h]
  rw [h, List.nodup_cons] at hn
  rw [List.filter_cons_of_neg (by simp), List.filter_eq_self.2]
  intro j hj
  simp only [decide_eq_true_eq]
  rintro rfl
  exact hn.1 hj

/-- The active instances in increasing order. -/
def activeLanes (m : Mask W) : List (Fin W) := (List.finRange W).filter m

theorem bits_movmsk (m : Mask W) (hW : W ≤ 64) : bits (movmsk m) = (activeLanes m).map Fin.val := by
  have h64 : (List.range 64) = (List.range W) ++ (List.range (64 - W)).map (W + ·) := by
    rw [← List.range_add]; congr 1; omega
  unfold bits activeLanes
  rw [h64, List.filter_append]
  have h2 : ((List.range (64 - W)).map (W + ·)).filter (fun i => (movmsk m).getLsbD i) = [] := by
    rw [List.filter_eq_nil_iff]
    intro a ha
    obtain ⟨j, -, rfl⟩ := List.mem_map.1 ha
    rw [movmsk_bit m hW]
    rintro ⟨h, -⟩; omega
  rw [h2, List.append_nil, ← List.map_coe_finRange_eq_range, List.filter_map]
  congr 1
  refine List.filter_congr fun l _ => ?_
  simp only [Function.comp]
  rw [Bool.eq_iff_iff, movmsk_bit m hW]
  constructor
  · rintro ⟨_, h⟩; exact h
  · intro h; exact ⟨l.isLt, h⟩

/-! ## C08 -/

/-- One execution of the body for instance `l` alone: iteration variable `l`, exactly `l` enabled. -/
def bodyFor (body : Nat → Mask W → St W S → Option (St W S)) (d : S) (l : Fin W) : Option S :=
  (body l.val (fun l' => decide (l' = l)) ⟨fun l' => decide (l' = l), d⟩).map St.data

theorem activeLoop_fold (fm : Mask W) (body : Nat → Mask W → St W S → Option (St W S)) :
    ∀ (ls : List (Fin W)) (k : Nat) (rem : BitVec 64) (σ : St W S), bits rem = ls.map Fin.val → ls ≠ [] →
      (∀ l ∈ ls, fm l = true) → ls.length ≤ k →
      (activeLoop fm body k rem σ).map St.data = ls.foldlM (bodyFor body) σ.data := by
  intro ls
  induction ls with
  | nil => intro _ _ _ _ h; exact absurd rfl h
  | cons l ls ih =>
    intro k rem σ hb _ hfm hk
    obtain ⟨k, rfl⟩ : ∃ j, k = j + 1 := ⟨k - 1, by simp at hk; omega⟩
    rw [List.map_cons] at hb
    obtain ⟨c1, c2, c3⟩ := cttz_cons hb
    have hclr := bits_clear hb
    have him : (fun l' : Fin W => decide (cttz rem = l'.val)) = fun l' => decide (l' = l) := by
      funext l'; rw [c1]; congr 1; rw [Fin.ext_iff]; exact propext ⟨Eq.symm, Eq.symm⟩
    have hfull : (fun l' : Fin W => decide (cttz rem = l'.val) && fm l') = fun l' => decide (l' = l) := by
      funext l'
      rw [congrFun him l']
      by_cases e : l' = l
      · subst e; simp [hfm l' (by simp)]
      · simp [e]
    unfold activeLoop
    simp only
    rw [if_neg (by omega), him, hfull, c1]
    rw [List.foldlM_cons]
    unfold bodyFor
    cases hbd : body l.val (fun l' => decide (l' = l)) ⟨fun l' => decide (l' = l), σ.data⟩ with
    | none => simp
    | some σ' =>
      simp only [Option.bind_eq_bind, Option.bind_some, Option.map_some]
      cases hls : ls with
      | nil =>
        have : rem &&& ~~~(1#64 <<< l.val) = 0#64 := by rw [← bits_eq_nil, hclr, hls]; rfl
        simp [this]
      | cons a as =>
        have : rem &&& ~~~(1#64 <<< l.val) ≠ 0#64 := by
          rw [ne_eq, ← bits_eq_nil, hclr, hls]; simp
        rw [if_pos this]
        have h := ih k _ σ' hclr (by simp [hls]) (fun l h => hfm l (by simp [h])) (by simp at hk; omega)
        rw [h, hls]
        rfl

/-- C08: with at least one active instance, `foreach_active` runs its body once per active instance, in increasing
order, with exactly that instance enabled and the iteration variable equal to its index, and afterwards the mask is
what it was before.  For every body. -/
theorem foreach_active_serialises (hW : W ≤ 64) (fm : Mask W) (body : Nat → Mask W → St W S → Option (St W S))
    (σ : St W S) (hact : ∃ l, σ.im l = true ∧ fm l = true) (fuel : Nat) (hf : W ≤ fuel) :
    foreachActive fm body fuel σ =
      ((activeLanes fun l => σ.im l && fm l).foldlM (bodyFor body) σ.data).map fun d => ⟨σ.im, d⟩ := by
  have hb := bits_movmsk (fun l => σ.im l && fm l) hW
  have hne : activeLanes (fun l => σ.im l && fm l) ≠ [] := by
    obtain ⟨l, h1, h2⟩ := hact
    exact List.ne_nil_of_mem (a := l) (by simp [activeLanes, h1, h2])
  have hlen : (activeLanes fun l => σ.im l && fm l).length ≤ fuel :=
    (List.length_filter_le _ _).trans (by simpa using hf)
  rw [← activeLoop_fold fm body _ fuel _ σ hb hne (fun l h => by simp [activeLanes] at h; exact h.2) hlen]
  unfold foreachActive
  cases activeLoop fm body fuel (movmsk fun l => σ.im l && fm l) σ <;> rfl

/-- The list of instances the body runs for has every active instance exactly once, in increasing order. -/
theorem activeLanes_spec (m : Mask W) :
    (∀ l, l ∈ activeLanes m ↔ m l = true) ∧ (activeLanes m).Pairwise (fun a b => a.val < b.val) := by
  refine ⟨fun l => by simp [activeLanes], List.Pairwise.filter _ ?_⟩
  have := @List.pairwise_lt_range W
  rw [← List.map_coe_finRange_eq_range, List.pairwise_map] at this
  exact this

/-- With no active instance the generated code has undefined behaviour. -/
theorem foreach_active_all_off (hW : W ≤ 64) (fm : Mask W) (body : Nat → Mask W → St W S → Option (St W S))
    (σ : St W S) (hoff : ∀ l, (σ.im l && fm l) = false) (fuel : Nat) : foreachActive fm body fuel σ = none := by
  have h0 : movmsk (fun l => σ.im l && fm l) = 0#64 := by
    rw [← bits_eq_nil, bits_movmsk _ hW]
    simp only [List.map_eq_nil_iff, activeLanes, List.filter_eq_nil_iff]
    intro l _; simp [hoff l]
  unfold foreachActive
  rw [h0]
  cases fuel with
  | zero => rfl
  | succ k =>
    have : activeLoop fm body (k + 1) 0#64 σ = none := by
      unfold activeLoop; rw [if_pos]; decide
    rw [this]; rfl

/-! ## C09 -/

/-- One execution of a `foreach_unique` body: value of the iteration variable and the enabled instances. -/
structure Group (W : Nat) (V : Type) where
  val : V
  mask : Mask W

/-- The effect of running the body on a group. -/
def groupStep (im : Mask W) (eq : V → V → Bool) (vals : Fin W → V)
    (body : V → Mask W → St W S → Option (St W S)) (d : S) (g : Group W V) : Option S :=
  (body g.val g.mask ⟨fun l => im l && eq g.val (vals l), d⟩).map St.data

theorem uniqueLoop_groups (hW : W ≤ 64) (im fm : Mask W) (eq : V → V → Bool) (vals : Fin W → V)
    (hrefl : ∀ l, im l = true → fm l = true → eq (vals l) (vals l) = true)
    (hsymm : ∀ x y, eq x y = true → eq y x = true)
    (htrans : ∀ x y z, eq x y = true → eq y z = true → eq x z = true) :
    ∀ (n : Nat) (rem : BitVec 64), (bits rem).length ≤ n → rem ≠ 0#64 →
      (∀ i, rem.getLsbD i = true → ∃ h : i < W, im ⟨i, h⟩ = true ∧ fm ⟨i, h⟩ = true) →
      (∀ l l' : Fin W, rem.getLsbD l = true → im l' = true → fm l' = true → eq (vals l) (vals l') = true →
        rem.getLsbD l' = true) →
      ∃ gs : List (Group W V),
        (∀ (body : V → Mask W → St W S → Option (St W S)) (σ : St W S) (k : Nat), n ≤ k →
          (uniqueLoop im fm eq vals body k rem σ).map St.data = gs.foldlM (groupStep im eq vals body) σ.data) ∧
        (∀ g ∈ gs, ∃ l : Fin W, rem.getLsbD l = true ∧ g.val = vals l ∧
          ∀ l', g.mask l' = true ↔ (im l' = true ∧ fm l' = true) ∧ eq (vals l) (vals l') = true) ∧
        gs.Pairwise (fun g g' => eq g.val g'.val = false) ∧
        (∀ l : Fin W, rem.getLsbD l = true → ∃ g ∈ gs, g.mask l = true) := by
  intro n
  induction n with
  | zero =>
    intro rem h h0
    have : bits rem = [] := List.eq_nil_of_length_eq_zero (by omega)
    exact absurd ((bits_eq_nil rem).1 this) h0
  | succ n ih =>
    intro rem hlen h0 hact hcl
    obtain ⟨i, is, hb⟩ : ∃ i is, bits rem = i :: is := by
      cases h : bits rem with
      | nil => exact absurd ((bits_eq_nil rem).1 h) h0
      | cons i is => exact ⟨i, is, rfl⟩
    obtain ⟨c1, c2, c3⟩ := cttz_cons hb
    obtain ⟨hiW, a1, a2⟩ := hact i c2
    have hrf := hrefl ⟨i, hiW⟩ a1 a2
    have hbit : ∀ j, (rem &&& ~~~(movmsk fun l => im l && eq (vals ⟨i, hiW⟩) (vals l))).getLsbD j = true ↔
        rem.getLsbD j = true ∧ ∀ h : j < W, (im ⟨j, h⟩ && eq (vals ⟨i, hiW⟩) (vals ⟨j, h⟩)) = false := by
      intro j
      have hm := movmsk_bit (fun l => im l && eq (vals ⟨i, hiW⟩) (vals l)) hW j
      rw [BitVec.getLsbD_and, BitVec.getLsbD_not, Bool.and_eq_true]
      refine and_congr_right fun hr => ?_
      have : j < 64 := BitVec.lt_of_getLsbD hr
      simp only [this, decide_true, Bool.true_and, Bool.not_eq_true']
      rw [← Bool.not_eq_true, hm]
      constructor
      · intro hn h
        rw [← Bool.not_eq_true]; exact fun hh => hn ⟨h, hh⟩
      · rintro hn ⟨h, hh⟩; rw [hn h] at hh; cases hh
    generalize hrem' : rem &&& ~~~(movmsk fun l => im l && eq (vals ⟨i, hiW⟩) (vals l)) = rem' at hbit
    have hlen' : (bits rem').length ≤ n := by
      have hsub : (bits rem').Subperm is := by
        refine List.subperm_of_subset (nodup_bits _) fun j hj => ?_
        rw [mem_bits, hbit] at hj
        have hj' := (mem_bits rem j).2 hj.1
        rw [hb] at hj'
        rcases List.mem_cons.1 hj' with rfl | h
        · have := hj.2 hiW; simp [a1, hrf] at this
        · exact h
      have := hsub.length_le
      rw [hb] at hlen; simp at hlen; omega
    let g₀ : Group W V := ⟨vals ⟨i, hiW⟩, fun l => (im l && eq (vals ⟨i, hiW⟩) (vals l)) && fm l⟩
    have hg₀ : ∀ l', g₀.mask l' = true ↔ (im l' = true ∧ fm l' = true) ∧ eq (vals ⟨i, hiW⟩) (vals l') = true := by
      intro l'; simp only [g₀, Bool.and_eq_true]; tauto
    have hstep : ∀ (body : V → Mask W → St W S → Option (St W S)) (σ : St W S) (k : Nat),
        uniqueLoop im fm eq vals body (k + 1) rem σ =
          (body g₀.val g₀.mask ⟨fun l => im l && eq g₀.val (vals l), σ.data⟩).bind fun σ' =>
            if rem' ≠ 0#64 then uniqueLoop im fm eq vals body k rem' σ' else some σ' := by
      intro body σ k
      rw [uniqueLoop]
      simp only [c1]
      rw [dif_pos hiW, hrem']
      rfl
    by_cases hz : rem' = 0#64
    · refine ⟨[g₀], ?_, ?_, List.pairwise_singleton _ _, ?_⟩
      · intro body σ k hk
        obtain ⟨k, rfl⟩ : ∃ j, k = j + 1 := ⟨k - 1, by omega⟩
        rw [hstep]
        simp only [hz, ne_eq, not_true_eq_false, if_false, List.foldlM_cons, List.foldlM_nil, groupStep]
        cases body g₀.val g₀.mask ⟨fun l => im l && eq g₀.val (vals l), σ.data⟩ <;> rfl
      · intro g hg
        rw [List.mem_singleton] at hg; subst hg
        exact ⟨⟨i, hiW⟩, c2, rfl, hg₀⟩
      · intro l hl
        refine ⟨g₀, by simp, (hg₀ l).2 ?_⟩
        obtain ⟨_, b1, b2⟩ := hact l hl
        refine ⟨⟨b1, b2⟩, ?_⟩
        have := (hbit l).not.1 (by rw [hz]; simp)
        by_contra hne
        apply this
        refine ⟨hl, fun _ => ?_⟩
        simp only [Bool.and_eq_false_iff]
        exact Or.inr (by simpa using hne)
    · obtain ⟨gs, g1, g2, g3, g4⟩ := ih rem' hlen' hz
        (fun j hj => hact j ((hbit j).1 hj).1)
        (by
          intro l l' h1 h2 h3 h4
          obtain ⟨r1, r2⟩ := (hbit l).1 h1
          refine (hbit l').2 ⟨hcl l l' r1 h2 h3 h4, fun _ => ?_⟩
          rw [← Bool.not_eq_true, Bool.and_eq_true]
          rintro ⟨-, h5⟩
          have h6 := htrans _ _ _ h5 (hsymm _ _ h4)
          have h7 := r2 l.isLt
          obtain ⟨_, b1, b2⟩ := hact l r1
          rw [Bool.and_eq_false_iff] at h7
          rcases h7 with h7 | h7
          · rw [b1] at h7; cases h7
          · rw [h6] at h7; cases h7)
      refine ⟨g₀ :: gs, ?_, ?_, ?_, ?_⟩
      · intro body σ k hk
        obtain ⟨k, rfl⟩ : ∃ j, k = j + 1 := ⟨k - 1, by omega⟩
        rw [hstep, List.foldlM_cons]
        simp only [hz, ne_eq, not_false_eq_true, if_true, groupStep]
        cases body g₀.val g₀.mask ⟨fun l => im l && eq g₀.val (vals l), σ.data⟩ with
        | none => rfl
        | some σ' => exact g1 body σ' k (by omega)
      · intro g hg
        rcases List.mem_cons.1 hg with rfl | hg
        · exact ⟨⟨i, hiW⟩, c2, rfl, hg₀⟩
        · obtain ⟨l, e1, e2, e3⟩ := g2 g hg
          exact ⟨l, ((hbit l).1 e1).1, e2, e3⟩
      · rw [List.pairwise_cons]
        refine ⟨fun g hg => ?_, g3⟩
        obtain ⟨l, e1, e2, -⟩ := g2 g hg
        obtain ⟨r1, r2⟩ := (hbit l).1 e1
        obtain ⟨_, b1, b2⟩ := hact l r1
        have := r2 l.isLt
        rw [b1, Bool.true_and] at this
        rw [e2]; exact this
      · intro l hl
        by_cases hl' : rem'.getLsbD l = true
        · obtain ⟨g, h1, h2⟩ := g4 l hl'
          exact ⟨g, List.mem_cons_of_mem _ h1, h2⟩
        · refine ⟨g₀, by simp, (hg₀ l).2 ?_⟩
          obtain ⟨_, b1, b2⟩ := hact l hl
          refine ⟨⟨b1, b2⟩, ?_⟩
          have := (hbit l).not.1 hl'
          by_contra hne
          apply this
          refine ⟨hl, fun _ => ?_⟩
          simp only [Bool.and_eq_false_iff]
          exact Or.inr (by simpa using hne)

/-- C09: if the comparison is an equivalence on the values held by the active instances, `foreach_unique` terminates
and runs its body on a list of groups: every group consists of exactly the active instances holding its value, the
values of different groups differ, every active instance is in a group, and the mask is restored.  The list of groups
does not depend on the body.  (`eq` is `==` of the element type; for integers it is always an equivalence.) -/
theorem foreach_unique_groups (hW : W ≤ 64) (fm im : Mask W) (eq : V → V → Bool) (vals : Fin W → V)
    (hrefl : ∀ l, im l = true → fm l = true → eq (vals l) (vals l) = true)
    (hsymm : ∀ x y, eq x y = true → eq y x = true)
    (htrans : ∀ x y z, eq x y = true → eq y z = true → eq x z = true)
    (hact : ∃ l, im l = true ∧ fm l = true) :
    ∃ gs : List (Group W V),
      (∀ (body : V → Mask W → St W S → Option (St W S)) (d : S) (fuel : Nat), 64 ≤ fuel →
        foreachUnique fm eq vals body fuel ⟨im, d⟩ = (gs.foldlM (groupStep im eq vals body) d).map fun d => ⟨im, d⟩) ∧
      (∀ g ∈ gs, (∃ l, g.mask l = true ∧ g.val = vals l) ∧
        ∀ l', g.mask l' = true ↔ (im l' = true ∧ fm l' = true) ∧ eq g.val (vals l') = true) ∧
      gs.Pairwise (fun g g' => eq g.val g'.val = false) ∧
      (∀ l, im l = true → fm l = true → ∃ g ∈ gs, g.mask l = true) := by
  have hb : ∀ i, (movmsk fun l => im l && fm l).getLsbD i = true ↔ ∃ h : i < W, im ⟨i, h⟩ = true ∧ fm ⟨i, h⟩ = true := by
    intro i; rw [movmsk_bit _ hW]; simp only [Bool.and_eq_true]
  have hne : (movmsk fun l => im l && fm l) ≠ 0#64 := by
    obtain ⟨l, h1, h2⟩ := hact
    intro h0
    have := (hb l).2 ⟨l.isLt, h1, h2⟩
    rw [h0] at this; simp at this
  have hlen : (bits (movmsk fun l => im l && fm l)).length ≤ 64 :=
    (List.length_filter_le _ _).trans (by simp)
  obtain ⟨gs, g1, g2, g3, g4⟩ := uniqueLoop_groups (S := S) hW im fm eq vals hrefl hsymm htrans 64 _ hlen hne
    (fun i h => (hb i).1 h) (fun l l' _ h2 h3 _ => (hb l').2 ⟨l'.isLt, h2, h3⟩)
  refine ⟨gs, ?_, ?_, g3, fun l h1 h2 => g4 l ((hb l).2 ⟨l.isLt, h1, h2⟩)⟩
  · intro body d fuel hf
    have := g1 body ⟨im, d⟩ fuel hf
    simp only at this
    rw [← this]
    unfold foreachUnique
    simp only
    cases uniqueLoop im fm eq vals body fuel (movmsk fun l => im l && fm l) ⟨im, d⟩ <;> rfl
  · intro g hg
    obtain ⟨l, h1, h2, h3⟩ := g2 g hg
    obtain ⟨_, b1, b2⟩ := (hb l).1 h1
    rw [h2]
    exact ⟨⟨l, (h3 l).2 ⟨⟨b1, b2⟩, hrefl l b1 b2⟩, rfl⟩, h3⟩

/-- Every active instance is enabled in exactly one of the groups. -/
theorem foreach_unique_group_unique (eq : V → V → Bool) (vals : Fin W → V) (im fm : Mask W)
    (hsymm : ∀ x y, eq x y = true → eq y x = true)
    (htrans : ∀ x y z, eq x y = true → eq y z = true → eq x z = true)
    (gs : List (Group W V))
    (hg : ∀ g ∈ gs, ∀ l', g.mask l' = true ↔ (im l' = true ∧ fm l' = true) ∧ eq g.val (vals l') = true)
    (hp : gs.Pairwise (fun g g' => eq g.val g'.val = false)) (l : Fin W) (i j : Nat) (hi : i < gs.length)
    (hj : j < gs.length) (h1 : gs[i].mask l = true) (h2 : gs[j].mask l = true) : i = j := by
  have e1 := ((hg _ (List.getElem_mem hi) l).1 h1).2
  have e2 := ((hg _ (List.getElem_mem hj) l).1 h2).2
  rw [List.pairwise_iff_getElem] at hp
  rcases Nat.lt_trichotomy i j with h | h | h
  · have := hp i j hi hj h
    rw [htrans _ _ _ e1 (hsymm _ _ e2)] at this; cases this
  · exact h
  · have := hp j i hj hi h
    rw [htrans _ _ _ e2 (hsymm _ _ e1)] at this; cases this

/-- Finding: if an active instance holds a value that equals nothing (a NaN), `foreach_unique` never terminates. -/
theorem foreach_unique_nan_diverges (hW : W ≤ 64) (fm im : Mask W) (eq : V → V → Bool) (vals : Fin W → V) (l : Fin W)
    (hi : im l = true) (hf : fm l = true) (hnan : ∀ x, eq x (vals l) = false)
    (body : V → Mask W → St W S → Option (St W S)) (d : S) (fuel : Nat) :
    foreachUnique fm eq vals body fuel ⟨im, d⟩ = none := by
  have key : ∀ k rem (σ : St W S), rem.getLsbD l = true → uniqueLoop im fm eq vals body k rem σ = none := by
    intro k
    induction k with
    | zero => intro rem σ _; rfl
    | succ k ih =>
      intro rem σ hr
      rw [uniqueLoop]
      simp only
      by_cases hc : cttz rem < W
      · rw [dif_pos hc]
        have hb : (rem &&& ~~~(movmsk fun l' => im l' && eq (vals ⟨cttz rem, hc⟩) (vals l'))).getLsbD l = true := by
          rw [BitVec.getLsbD_and, BitVec.getLsbD_not, hr]
          have : ¬ (movmsk fun l' => im l' && eq (vals ⟨cttz rem, hc⟩) (vals l')).getLsbD l = true := by
            rw [movmsk_bit _ hW]
            rintro ⟨_, h⟩
            simp [hnan] at h
          have := l.isLt
          simp_all
          omega
        cases body _ _ _ with
        | none => rfl
        | some σ' =>
          simp only [Option.bind_eq_bind, Option.bind_some]
          rw [ih _ _ hb]
          have : (rem &&& ~~~(movmsk fun l' => im l' && eq (vals ⟨cttz rem, hc⟩) (vals l'))) ≠ 0#64 := by
            intro h0; rw [h0] at hb; simp at hb
          rw [if_pos this]
      · rw [dif_neg hc]
  unfold foreachUnique
  simp only
  rw [key fuel _ _ ((movmsk_bit _ hW l).2 ⟨l.isLt, by simp [hi, hf]⟩)]
  rfl

/-! ## Non-vacuity -/

/-- A body that records what it sees. -/
def logBody (v : Nat) (m : Mask 4) (σ : St 4 (List (Nat × List Bool))) : Option (St 4 (List (Nat × List Bool))) :=
  some ⟨fun _ => false, σ.data ++ [(v, (List.finRange 4).map m)]⟩

example : ((foreachActive (W := 4) (fun _ => true) logBody 4 ⟨fun l => decide (l.val ≠ 1), []⟩).map St.data) =
    some [(0, [true, false, false, false]), (2, [false, false, true, false]), (3, [false, false, false, true])] := by
  decide +kernel

example : ((foreachUnique (W := 4) (fun _ => true) (fun a b => decide (a = b)) (fun l => [7, 5, 7, 5][l]) logBody 64
    ⟨fun l => decide (l.val ≠ 3), []⟩).map St.data) =
    some [(7, [true, false, true, false]), (5, [false, true, false, false])] := by
  decide +kernel

end Ispc.ForeachActive
