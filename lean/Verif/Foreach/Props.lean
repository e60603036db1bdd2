import Verif.Foreach.Lemmas

/-!
# `foreach` visits its iteration domain exactly once (C06, C07)
-/

namespace Ispc.Foreach

variable {W : Nat}

/-! ## Spans -/

/-- The spans of `foreach` are positive and multiply to the gang width. -/
theorem getSpans_spec (tiled : Bool) : ∀ (d items : Nat), 0 < items → (tiled = true → ∃ k, items = 2 ^ k) →
    (getSpans tiled d items).length = d + 1 ∧ (getSpans tiled d items).prod = items ∧
      ∀ s ∈ getSpans tiled d items, 0 < s ∧ s ≤ items := by
  intro d
  induction d with
  | zero => intro items h _; simp [getSpans]; omega
  | succ d ih =>
    intro items hi ht
    simp only [getSpans]
    generalize ha : (if tiled = false ∨ lLog2 items ≤ (d + 1 : Nat) then 1
      else if 16 ≤ items ∧ d + 1 = 1 then 4 else 2) = a
    have hdiv : 0 < a ∧ a ∣ items ∧ (tiled = true → ∃ k, items / a = 2 ^ k) := by
      by_cases h1 : tiled = false ∨ lLog2 items ≤ (d + 1 : Nat)
      · rw [if_pos h1] at ha; subst ha; simp; exact ht
      · rw [if_neg h1] at ha
        have htt : tiled = true := by
          cases tiled with
          | true => rfl
          | false => exact absurd (Or.inl rfl) h1
        obtain ⟨k, rfl⟩ := ht htt
        have hk : lLog2 (2 ^ k) = k := by
          unfold lLog2
          rw [if_neg (Nat.pos_iff_ne_zero.1 (Nat.two_pow_pos k)), Nat.log2_two_pow]
          push_cast; omega
        have hk' : d + 1 < k := by
          by_contra hn
          exact h1 (Or.inr (by rw [hk]; omega))
        by_cases h2 : 16 ≤ 2 ^ k ∧ d + 1 = 1
        · rw [if_pos h2] at ha; subst ha
          have : 2 ^ k = 4 * 2 ^ (k - 2) := by
            obtain ⟨j, rfl⟩ : ∃ j, k = j + 2 := ⟨k - 2, by omega⟩
            rw [Nat.pow_add]; simp; ring
          refine ⟨by omega, ⟨_, this⟩, fun _ => ⟨k - 2, ?_⟩⟩
          rw [this]; simp
        · rw [if_neg h2] at ha; subst ha
          have : 2 ^ k = 2 * 2 ^ (k - 1) := by
            obtain ⟨j, rfl⟩ : ∃ j, k = j + 1 := ⟨k - 1, by omega⟩
            rw [Nat.pow_succ]; simp; ring
          refine ⟨by omega, ⟨_, this⟩, fun _ => ⟨k - 1, ?_⟩⟩
          rw [this]; simp
    obtain ⟨h1, h2, h3⟩ := hdiv
    have hq : 0 < items / a := Nat.div_pos (Nat.le_of_dvd hi h2) h1
    obtain ⟨i1, i2, i3⟩ := ih (items / a) hq h3
    refine ⟨by simp [i1], ?_, ?_⟩
    · rw [List.prod_cons, i2]; exact Nat.mul_div_cancel' h2
    · intro s hs
      rcases List.mem_cons.1 hs with rfl | hs
      · exact ⟨h1, Nat.le_of_dvd hi h2⟩
      · exact ⟨(i3 s hs).1, (i3 s hs).2.trans (Nat.div_le_self _ _)⟩

/-! ## Lanes and digits -/

/-- `Cov` for a lane number. -/
def CovN : List SDim → Nat → List Int → Prop
  | [], _, [] => True
  | D :: Ds, l, x :: xs =>
    (D.start ≤ x ∧ x < D.stop ∧ (x - D.start) % D.span = delta D.span (Ds.map SDim.span) l) ∧ CovN Ds l xs
  | _, _, _ => False

theorem cov_iff : ∀ (Ds : List SDim) (l : Fin W) (t : List Int), Cov Ds l t ↔ CovN Ds l t
  | [], _, [] => Iff.rfl
  | [], _, _ :: _ => Iff.rfl
  | _ :: _, _, [] => Iff.rfl
  | D :: Ds, l, x :: xs => by unfold Cov CovN; rw [cov_iff Ds l xs]

def sprod (Ds : List SDim) : Nat := (Ds.map SDim.span).prod

theorem sprod_cons (D : SDim) (Ds : List SDim) : sprod (D :: Ds) = D.span * sprod Ds := by simp [sprod]

theorem sprod_pos : ∀ Ds : List SDim, (∀ D ∈ Ds, 0 < D.span) → 0 < sprod Ds
  | [], _ => by simp [sprod]
  | D :: Ds, h => by
    rw [sprod_cons]
    exact Nat.mul_pos (h D (by simp)) (sprod_pos Ds fun E hE => h E (List.mem_cons_of_mem _ hE))

/-- Only the lane number modulo the product of the spans matters. -/
theorem covN_mod : ∀ (Ds : List SDim) (n : Nat) (t : List Int), CovN Ds (n % sprod Ds) t ↔ CovN Ds n t
  | [], _, [] => Iff.rfl
  | [], _, _ :: _ => Iff.rfl
  | _ :: _, _, [] => Iff.rfl
  | D :: Ds, n, x :: xs => by
    unfold CovN
    have e1 : delta D.span (Ds.map SDim.span) (n % sprod (D :: Ds)) = delta D.span (Ds.map SDim.span) n := by
      unfold delta
      rw [sprod_cons, Nat.mul_comm]
      show n % (sprod Ds * D.span) / sprod Ds % D.span = n / sprod Ds % D.span
      rw [Nat.mod_mul_right_div_self, Nat.mod_mod]
    rw [e1, ← covN_mod Ds (n % sprod (D :: Ds)) xs, sprod_cons, Nat.mod_mod_of_dvd _ (Nat.dvd_mul_left _ _),
      covN_mod Ds n xs]

theorem CovN.inBox : ∀ {Ds : List SDim} {n t}, CovN Ds n t → InBox (Ds.map fun D => (D.start, D.stop)) t
  | [], _, [], _ => trivial
  | [], _, _ :: _, h => h.elim
  | _ :: _, _, [], h => h.elim
  | _ :: _, _, _ :: _, h => ⟨⟨h.1.1, h.1.2.1⟩, CovN.inBox h.2⟩

/-- Every tuple of the domain belongs to exactly one lane. -/
theorem covN_unique : ∀ {Ds : List SDim} {t}, (∀ D ∈ Ds, 0 < D.span) → InBox (Ds.map fun D => (D.start, D.stop)) t →
    ∃ n, n < sprod Ds ∧ CovN Ds n t ∧ ∀ n' < sprod Ds, CovN Ds n' t → n' = n
  | [], [], _, _ => ⟨0, by simp [sprod], trivial, fun n' h _ => by simp [sprod] at h; exact h⟩
  | [], _ :: _, _, h => h.elim
  | _ :: _, [], _, h => h.elim
  | D :: Ds, x :: xs, hs, h => by
    obtain ⟨⟨h1, h2⟩, h3⟩ := h
    obtain ⟨n, n1, n2, n3⟩ := covN_unique (fun E hE => hs E (List.mem_cons_of_mem _ hE)) h3
    have hsp := hs D (by simp)
    have hR := sprod_pos Ds fun E hE => hs E (List.mem_cons_of_mem _ hE)
    have hsp' : (0 : Int) < D.span := by omega
    have d0 := Int.emod_nonneg (x - D.start) (by omega : (D.span : Int) ≠ 0)
    have d1 := Int.emod_lt_of_pos (x - D.start) hsp'
    obtain ⟨d, hd⟩ : ∃ d : Nat, (x - D.start) % D.span = d := ⟨_, (Int.toNat_of_nonneg d0).symm⟩
    have hdl : d < D.span := by omega
    have hlt : sprod Ds * d + n < sprod (D :: Ds) := by
      rw [sprod_cons, Nat.mul_comm D.span]
      calc sprod Ds * d + n < sprod Ds * d + sprod Ds := by omega
        _ = sprod Ds * (d + 1) := by ring
        _ ≤ sprod Ds * D.span := Nat.mul_le_mul_left _ hdl
    have hmod : (sprod Ds * d + n) % sprod Ds = n := by
      rw [Nat.mul_add_mod]; exact Nat.mod_eq_of_lt n1
    have hdig : delta D.span (Ds.map SDim.span) (sprod Ds * d + n) = d := by
      unfold delta
      show (sprod Ds * d + n) / sprod Ds % D.span = d
      rw [Nat.mul_add_div hR, Nat.div_eq_of_lt n1, Nat.add_zero, Nat.mod_eq_of_lt hdl]
    refine ⟨sprod Ds * d + n, hlt, ⟨⟨h1, h2, by rw [hd, hdig]⟩, ?_⟩, ?_⟩
    · rw [← covN_mod, hmod]; exact n2
    · intro n' hn' hc
      have e1 : n' % sprod Ds = n := n3 _ (Nat.mod_lt _ hR) ((covN_mod _ _ _).2 hc.2)
      have e2 : n' / sprod Ds = d := by
        have := hc.1.2.2
        rw [hd] at this
        have h4 : delta D.span (Ds.map SDim.span) n' = d := by omega
        unfold delta at h4
        change n' / sprod Ds % D.span = d at h4
        rw [sprod_cons] at hn'
        have : n' / sprod Ds < D.span := (Nat.div_lt_iff_lt_mul hR).2 hn'
        rwa [Nat.mod_eq_of_lt this] at h4
      have := Nat.div_add_mod n' (sprod Ds)
      rw [e1, e2] at this
      exact this.symm

/-! ## More fuel does not change the result -/

theorem inner_mono {D : SDim} {inEx m} {pre : Fin W → List Int} : ∀ {k c vs}, innerLoop D inEx m pre k c = some vs →
    innerLoop D inEx m pre (k + 1) c = some vs := by
  intro k
  induction k with
  | zero => intro c vs h; simp [innerLoop] at h
  | succ k ih =>
    intro c vs h
    unfold innerLoop at h ⊢
    cases inEx with
    | true =>
      rw [if_pos rfl] at h ⊢
      split at h
      · rename_i hc
        rw [if_pos hc]
        cases hb : body D c m pre with
        | none => rw [hb] at h; simp at h
        | some v =>
          rw [hb] at h
          cases hk : chk (c + D.span) with
          | none => rw [hk] at h; simp at h
          | some c' =>
            rw [hk] at h
            cases hi : innerLoop D true m pre k c' with
            | none => simp [hi] at h
            | some ws => simp [hi] at h; simp [ih hi, h]
      · rename_i hc
        rw [if_neg hc]; exact h
    | false =>
      rw [if_neg (by simp)] at h ⊢
      split at h
      · rename_i hc
        rw [if_pos hc]
        cases hb : body D c (fun _ => true) pre with
        | none => rw [hb] at h; simp at h
        | some v =>
          rw [hb] at h
          cases hk : chk (c + D.span) with
          | none => rw [hk] at h; simp at h
          | some c' =>
            rw [hk] at h
            cases hi : innerLoop D false m pre k c' with
            | none => simp [hi] at h
            | some ws => simp [hi] at h; simp [ih hi, h]
      · rename_i hc
        rw [if_neg hc]; exact h

theorem outer_mono {D : SDim} {rest m} {pre : Fin W → List Int} {i₁ i₂} {inEx : Bool}
    (hi : ∀ a b p vs, i₁ a b p = some vs → i₂ a b p = some vs) : ∀ {k c vs},
    outerLoop D rest i₁ inEx m pre k c = some vs → outerLoop D rest i₂ inEx m pre (k + 1) c = some vs := by
  intro k
  induction k with
  | zero => intro c vs h; simp [outerLoop] at h
  | succ k ih =>
    intro c vs h
    unfold outerLoop at h ⊢
    split at h
    · rename_i hc
      rw [if_pos hc]
      split at h
      · rename_i hl
        rw [if_pos hl]
        simp only [Option.bind_eq_bind, Option.bind_eq_some_iff, Option.some.injEq] at h ⊢
        obtain ⟨as, h1, c', h2, ws, h3, h4⟩ := h
        exact ⟨as, hi _ _ _ _ h1, c', h2, ws, ih h3, h4⟩
      · simp at h
    · rename_i hc
      rw [if_neg hc]; exact h

theorem run_mono {fuel : Nat} : ∀ (Ds : List SDim) {inEx} {m : Fin W → Bool} {pre vs},
    runDims fuel Ds inEx m pre = some vs → runDims (fuel + 1) Ds inEx m pre = some vs
  | [], _, _, _, _, h => by simp [runDims] at h
  | [D], _, _, _, _, h => inner_mono h
  | D :: E :: Es, _, _, _, _, h => outer_mono (fun _ _ _ _ h => run_mono (E :: Es) h) h

theorem foreach_fuel_mono {tiled : Bool} {ranges vs} {f g : Nat} (hfg : f ≤ g)
    (h : foreach W tiled f ranges = some vs) : foreach W tiled g ranges = some vs := by
  induction g with
  | zero => obtain rfl : f = 0 := by omega
            exact h
  | succ g ih =>
    by_cases e : f = g + 1
    · subst e; exact h
    · have := ih (by omega)
      unfold foreach at this ⊢
      simp only [Option.bind_eq_bind, Option.bind_eq_some_iff] at this ⊢
      obtain ⟨Ds, h1, h2⟩ := this
      exact ⟨Ds, h1, run_mono Ds h2⟩

/-! ## Setup of all dimensions -/

theorem setupAll_good {W : Nat} : ∀ (ranges : List (Int × Int)) (ss : List Nat), ranges.length = ss.length →
    (∀ r ∈ ranges, NoOverflow W r) → (∀ s ∈ ss, 0 < s ∧ s ≤ W) →
    ∃ Ds, setupAll ranges ss = some Ds ∧ (∀ D ∈ Ds, Good D) ∧ Ds.map (fun D => (D.start, D.stop)) = ranges ∧
      Ds.map SDim.span = ss
  | [], [], _, _, _ => ⟨[], rfl, by simp, rfl, rfl⟩
  | [], _ :: _, h, _, _ => by simp at h
  | _ :: _, [], h, _, _ => by simp at h
  | (a, b) :: rs, s :: ss, hl, ho, hs => by
    obtain ⟨D, d1, d2, d3, d4, d5⟩ := setup_good (hs s (by simp)).1 (hs s (by simp)).2 (ho (a, b) (by simp))
    obtain ⟨Ds, e1, e2, e3, e4⟩ := setupAll_good rs ss (by simpa using hl)
      (fun r h => ho r (List.mem_cons_of_mem _ h)) (fun r h => hs r (List.mem_cons_of_mem _ h))
    refine ⟨D :: Ds, by simp [setupAll, d1, e1], ?_, by simp [d3, d4, e3], by simp [d5, e4]⟩
    intro E hE
    rcases List.mem_cons.1 hE with rfl | hE
    · exact d2
    · exact e2 E hE

/-- From the flat list of active index tuples back to (body execution, instance). -/
theorem visits_unique (vs : List (Visit W)) (hn : ((actives vs).map Prod.snd).Nodup) (i j : Nat) (hi : i < vs.length)
    (hj : j < vs.length) (l l' : Fin W) (h1 : vs[i].mask l = true) (h2 : vs[j].mask l' = true)
    (he : vs[i].idx l = vs[j].idx l') : i = j ∧ l = l' := by
  induction vs generalizing i j with
  | nil => simp at hi
  | cons v vs ih =>
    rw [actives_cons, List.map_append, List.nodup_append] at hn
    obtain ⟨n1, n2, n3⟩ := hn
    have mem : ∀ (k : Nat) (hk : k < vs.length) (l : Fin W), vs[k].mask l = true →
        vs[k].idx l ∈ (actives vs).map Prod.snd := by
      intro k hk l h
      refine List.mem_map.2 ⟨(l, vs[k].idx l), ?_, rfl⟩
      exact List.mem_flatMap.2 ⟨vs[k], List.getElem_mem hk, (mem_visit _ _ _).2 ⟨h, rfl⟩⟩
    have mem0 : ∀ l, v.mask l = true →
        v.idx l ∈ (((List.finRange W).filter v.mask).map (fun l => (l, v.idx l))).map Prod.snd := fun l h =>
      List.mem_map.2 ⟨(l, v.idx l), (mem_visit _ _ _).2 ⟨h, rfl⟩, rfl⟩
    cases i with
    | zero =>
      cases j with
      | zero =>
        refine ⟨rfl, ?_⟩
        simp only [List.getElem_cons_zero] at h1 h2 he
        rw [List.map_map] at n1
        exact List.inj_on_of_nodup_map n1 (by simp [h1]) (by simp [h2]) he
      | succ j =>
        simp only [List.getElem_cons_zero, List.getElem_cons_succ] at h1 h2 he
        exact absurd he (n3 _ (mem0 l h1) _ (mem j (by simpa using hj) l' h2))
    | succ i =>
      cases j with
      | zero =>
        simp only [List.getElem_cons_zero, List.getElem_cons_succ] at h1 h2 he
        exact absurd he.symm (n3 _ (mem0 l' h2) _ (mem i (by simpa using hi) l h1))
      | succ j =>
        simp only [List.getElem_cons_succ] at h1 h2 he
        have := ih n2 i j (by simpa using hi) (by simpa using hj) h1 h2 he
        exact ⟨by rw [this.1], this.2⟩

theorem le_sum_of_mem : ∀ (l : List Nat) (x : Nat), x ∈ l → x ≤ l.sum
  | [], _, h => by simp at h
  | y :: ys, x, h => by
    rw [List.sum_cons]
    rcases List.mem_cons.1 h with rfl | h
    · omega
    · have := le_sum_of_mem ys x h; omega

/-! ## C07 -/

/-- C07: a `foreach` or `foreach_tiled` loop over any number of dimensions terminates, and every tuple of the
Cartesian product of its ranges is active in exactly one program instance of exactly one execution of the body, and
no other tuple is ever active.  Any gang width (powers of two for `foreach_tiled`), any ranges, provided the 32-bit
arithmetic on the bounds does not overflow. -/
theorem foreach_covers_domain_once (tiled : Bool) (hW : 0 < W) (hT : tiled = true → ∃ k, W = 2 ^ k)
    (ranges : List (Int × Int)) (hne : ranges ≠ []) (hov : ∀ r ∈ ranges, NoOverflow W r) :
    ∃ vs : List (Visit W), (∃ N, ∀ fuel, N ≤ fuel → foreach W tiled fuel ranges = some vs) ∧
      (∀ v ∈ vs, ∀ l, v.mask l = true → InBox ranges (v.idx l)) ∧
      (∀ t, InBox ranges t →
        ∃! p : Fin vs.length × Fin W, (vs[p.1]).mask p.2 = true ∧ (vs[p.1]).idx p.2 = t) := by
  have hlen : 0 < ranges.length := List.length_pos_iff.2 hne
  obtain ⟨s1, s2, s3⟩ := getSpans_spec tiled (ranges.length - 1) W hW hT
  obtain ⟨Ds, d1, d2, d3, d4⟩ := setupAll_good (W := W) ranges _ (by omega) hov s3
  have hDne : Ds ≠ [] := by rintro rfl; exact hne (by simpa using d3.symm)
  obtain ⟨fuel, hf⟩ : ∃ fuel, ∀ D ∈ Ds, (D.stop - D.start).toNat < fuel := by
    refine ⟨(Ds.map fun D => (D.stop - D.start).toNat).sum + 1, fun D hD => ?_⟩
    have := le_sum_of_mem _ _ (List.mem_map_of_mem (f := fun D : SDim => (D.stop - D.start).toNat) hD)
    omega
  obtain ⟨vs, hv, hc1, hc2⟩ := run_char Ds hDne d2 hf false (fun _ : Fin W => true) (fun _ => []) (fun _ => rfl)
  have hrun : foreach W tiled fuel ranges = some vs := by simp [foreach, d1, hv]
  have hprod : sprod Ds = W := by unfold sprod; rw [d4, s2]
  have hmem : ∀ l t, (l, t) ∈ actives vs ↔ CovN Ds l.val t := by
    intro l t
    rw [hc2]
    simp only [List.nil_append, true_and]
    constructor
    · rintro ⟨t', rfl, h⟩; exact (cov_iff _ _ _).1 h
    · intro h; exact ⟨t, rfl, (cov_iff _ _ _).2 h⟩
  have hsp : ∀ D ∈ Ds, 0 < D.span := fun D hD => (d2 D hD).span
  have hnd : ((actives vs).map Prod.snd).Nodup := by
    refine List.Nodup.map_on ?_ hc1
    rintro ⟨l, t⟩ h ⟨l', t'⟩ h' (rfl : t = t')
    rw [hmem] at h h'
    obtain ⟨n, n1, n2, n3⟩ := covN_unique hsp h.inBox
    rw [hprod] at n3
    have e1 := n3 _ l.isLt h
    have e2 := n3 _ l'.isLt h'
    rw [Fin.ext (e1.trans e2.symm)]
  refine ⟨vs, ⟨fuel, fun g hg => foreach_fuel_mono hg hrun⟩, ?_, ?_⟩
  · intro v hv' l hl
    have : (l, v.idx l) ∈ actives vs := List.mem_flatMap.2 ⟨v, hv', (mem_visit _ _ _).2 ⟨hl, rfl⟩⟩
    rw [hmem] at this
    have := this.inBox
    rwa [d3] at this
  · intro t ht
    rw [← d3] at ht
    obtain ⟨n, n1, n2, n3⟩ := covN_unique hsp ht
    rw [hprod] at n1
    have := (hmem ⟨n, n1⟩ t).2 n2
    obtain ⟨v, hv1, hv2⟩ := List.mem_flatMap.1 this
    obtain ⟨hm, hi⟩ := (mem_visit _ _ _).1 hv2
    obtain ⟨i, hi', rfl⟩ := List.mem_iff_getElem.1 hv1
    refine ⟨(⟨i, hi'⟩, ⟨n, n1⟩), ⟨hm, hi.symm⟩, ?_⟩
    rintro ⟨⟨j, hj⟩, l⟩ ⟨q1, q2⟩
    obtain ⟨rfl, rfl⟩ := visits_unique vs hnd j i hj hi' l ⟨n, n1⟩ q1 hm (q2.trans hi)
    rfl

/-! ## C06 -/

/-- The body executions of a one-dimensional loop from counter value `c`. -/
def rows (c : Int) (stop : Int) (n : Nat) : List (Visit W) :=
  (List.range n).map fun j => ⟨fun l => decide (c + (j * W : Nat) + l.val < stop), fun l => [c + (j * W : Nat) + l.val]⟩

theorem inner_rows {D : SDim} (hg : Good D) (hspan : D.span = W) (hpos : D.start ≤ D.stop) :
    ∀ k c, (c - D.start) % D.span = 0 → D.start ≤ c → c ≤ D.aEnd → (D.aEnd - c).toNat < k →
      innerLoop D false (fun _ : Fin W => true) (fun _ => []) k c =
        some (rows c D.stop (((D.stop - c).toNat + W - 1) / W)) := by
  obtain ⟨p1, p2, p3, p4⟩ := hg.pos hpos
  have hsp : (0 : Int) < D.span := by have := hg.span; omega
  have hi' := hg.hi'
  have hlo := hg.lo
  have hlv : ∀ (c : Int) (l : Fin W), lv D [] c l = c + l.val := by
    intro c l
    simp only [lv, delta, List.prod_nil, Nat.div_one]
    rw [Nat.mod_eq_of_lt (by rw [hspan]; exact l.isLt)]
  intro k
  induction k with
  | zero => intro c _ _ _ h; omega
  | succ k ih =>
    intro c hc hs ha hk
    by_cases hlt : c < D.aEnd
    · have hgap := aligned_gap hc p1 hlt
      have hv := ih (c + D.span) (next_aligned hc) (by omega) hgap (by omega)
      have hb := body_some hg hs (by omega) (fun _ : Fin W => true) (fun _ => [])
      have hck : chk (c + D.span) = some (c + D.span) := chk_some (by omega) (by omega)
      unfold innerLoop
      simp only [Bool.false_eq_true, if_false, hlt, if_true, hb, hck, Option.bind_eq_bind, Option.bind_some, hv,
        Option.some.injEq]
      have hn : ((D.stop - c).toNat + W - 1) / W = ((D.stop - (c + D.span)).toNat + W - 1) / W + 1 := by
        have : (D.stop - c).toNat + W - 1 = ((D.stop - (c + D.span)).toNat + W - 1) + W := by omega
        rw [this, Nat.add_div_right _ (by omega)]
      rw [hn]
      unfold rows
      rw [List.range_succ_eq_map, List.map_cons, List.map_map, hspan]
      congr 1
      · congr 1
        · funext l; symm
          have := l.isLt
          exact decide_eq_true (by simp; omega)
        · funext l; simp [hlv]
      · refine List.map_congr_left fun j _ => ?_
        simp only [Function.comp]
        have : ∀ l : Fin W, c + (W : Int) + ((j * W : Nat) : Int) + (l.val : Int) = c + (((j + 1) * W : Nat) : Int) + l.val := by
          intro l; push_cast; ring
        congr 1
        · funext l; rw [this]
        · funext l; rw [this]
    · have hce : c = D.aEnd := by omega
      have hb := body_some hg hs (by omega) (fun l : Fin W => decide (lv D [] c l < D.stop)) (fun _ => [])
      unfold innerLoop
      rw [if_neg (by simp), if_neg hlt]
      by_cases hst : c < D.stop
      · rw [if_pos hst, hb]
        have hn : ((D.stop - c).toNat + W - 1) / W = 1 := by
          have : (D.stop - c).toNat + W - 1 = ((D.stop - c).toNat - 1) + W := by omega
          rw [this, Nat.add_div_right _ (by omega), Nat.div_eq_of_lt (by omega)]
        rw [hn]
        simp [rows, hlv]
      · rw [if_neg hst]
        have hn : ((D.stop - c).toNat + W - 1) / W = 0 := Nat.div_eq_of_lt (by omega)
        rw [hn]; rfl

/-- C06: `foreach (i = a ... b)` terminates; it runs the body `⌈(b-a)/W⌉` times; in the `j`-th execution instance `l`
has the index value `a + j*W + l` and is active exactly when that value is below `b`. -/
theorem foreach_one_dim_rows (tiled : Bool) (hW : 0 < W) (a b : Int) (hov : NoOverflow W (a, b)) :
    ∃ N, ∀ fuel, N ≤ fuel → ∃ vs : List (Visit W), foreach W tiled fuel [(a, b)] = some vs ∧
      vs.length = ((b - a).toNat + W - 1) / W ∧
      ∀ (j : Nat) (hj : j < vs.length) (l : Fin W), (vs[j]).idx l = [a + j * W + l.val] ∧
        ((vs[j]).mask l = true ↔ a + j * W + l.val < b) := by
  obtain ⟨D, d1, d2, rfl, rfl, d5⟩ := setup_good hW (le_refl W) hov
  have key : ∃ N, ∀ fuel, N ≤ fuel → foreach W tiled fuel [(D.start, D.stop)] =
      some (rows D.start D.stop (((D.stop - D.start).toNat + W - 1) / W)) := by
    by_cases hp : D.start ≤ D.stop
    · obtain ⟨p1, p2, p3, p4⟩ := d2.pos hp
      refine ⟨(D.aEnd - D.start).toNat + 1, fun fuel hf => ?_⟩
      have := inner_rows d2 d5 hp fuel D.start (by simp) (le_refl _) p2 (by omega)
      simp [foreach, getSpans, setupAll, d1, runDims, this]
    · obtain ⟨n1, n2⟩ := d2.neg (by omega)
      refine ⟨1, fun fuel hf => ?_⟩
      obtain ⟨k, rfl⟩ : ∃ k, fuel = k + 1 := ⟨fuel - 1, by omega⟩
      have hn : ((D.stop - D.start).toNat + W - 1) / W = 0 := Nat.div_eq_of_lt (by omega)
      have h1 : ¬ D.start < D.aEnd := by omega
      have h2 : ¬ D.start < D.stop := by omega
      rw [hn]
      simp [foreach, getSpans, setupAll, d1, runDims, innerLoop, h1, h2, rows]
  obtain ⟨N, hN⟩ := key
  refine ⟨N, fun fuel hf => ⟨_, hN fuel hf, by simp [rows], fun j hj l => ?_⟩⟩
  simp [rows]

/-- C06: `foreach (i = a ... b)` executes its body exactly once for every `a ≤ i < b`, and for no other value;
in particular not at all when `a ≥ b`. -/
theorem foreach_one_dim_once (tiled : Bool) (hW : 0 < W) (a b : Int) (hov : NoOverflow W (a, b)) :
    ∃ N, ∀ fuel, N ≤ fuel → ∃ vs : List (Visit W), foreach W tiled fuel [(a, b)] = some vs ∧
      (∀ i : Int, a ≤ i → i < b →
        ∃! p : Fin vs.length × Fin W, (vs[p.1]).mask p.2 = true ∧ (vs[p.1]).idx p.2 = [i]) ∧
      (∀ v ∈ vs, ∀ l, v.mask l = true → ∃ i, v.idx l = [i] ∧ a ≤ i ∧ i < b) ∧
      (b ≤ a → vs = []) ∧
      (∀ v ∈ vs, ∃ l, v.mask l = true) := by
  obtain ⟨N, hN⟩ := foreach_one_dim_rows tiled hW a b hov
  refine ⟨N, fun fuel hf => ?_⟩
  obtain ⟨vs, h1, h2, h3⟩ := hN fuel hf
  refine ⟨vs, h1, ?_, ?_, ?_, ?_⟩
  · intro i hia hib
    have hq : (i - a).toNat / W < vs.length := by
      rw [h2]
      have : (i - a).toNat + W ≤ (b - a).toNat + W - 1 := by omega
      calc (i - a).toNat / W < (i - a).toNat / W + 1 := by omega
        _ = ((i - a).toNat + W) / W := (Nat.add_div_right _ hW).symm
        _ ≤ _ := Nat.div_le_div_right this
    have hdm := Nat.div_add_mod (i - a).toNat W
    have hval : a + (((i - a).toNat / W : Nat) : Int) * W + (((i - a).toNat % W : Nat) : Int) = i := by
      have : (((W * ((i - a).toNat / W) + (i - a).toNat % W : Nat)) : Int) = i - a := by
        rw [hdm]; omega
      push_cast at this ⊢
      linarith
    refine ⟨(⟨_, hq⟩, ⟨(i - a).toNat % W, Nat.mod_lt _ hW⟩), ⟨?_, ?_⟩, ?_⟩
    · exact (h3 _ hq _).2.2 (by simp only; rw [hval]; exact hib)
    · simp only [Fin.getElem_fin]; rw [(h3 _ hq _).1]; simp only; rw [hval]
    · rintro ⟨⟨j, hj⟩, l⟩ ⟨-, q⟩
      simp only [Fin.getElem_fin] at q
      rw [(h3 j hj l).1] at q
      simp only [List.cons.injEq, and_true] at q
      have hn : (i - a).toNat = W * j + l.val := by
        have : ((W * j + l.val : Nat) : Int) = i - a := by push_cast; linarith
        omega
      have e1 : (i - a).toNat / W = j := by
        rw [hn, Nat.mul_add_div hW, Nat.div_eq_of_lt l.isLt, Nat.add_zero]
      have e2 : (i - a).toNat % W = l.val := by
        rw [hn, Nat.mul_add_mod, Nat.mod_eq_of_lt l.isLt]
      simp [e1, e2]
  · intro v hv l hl
    obtain ⟨j, hj, rfl⟩ := List.mem_iff_getElem.1 hv
    obtain ⟨i1, i2⟩ := h3 j hj l
    refine ⟨_, i1, ?_, i2.1 hl⟩
    have : (0 : Int) ≤ (j : Int) * W := Int.mul_nonneg (by omega) (by omega)
    omega
  · intro hba
    apply List.eq_nil_of_length_eq_zero
    rw [h2]; exact Nat.div_eq_of_lt (by omega)
  · intro v hv
    obtain ⟨j, hj, rfl⟩ := List.mem_iff_getElem.1 hv
    refine ⟨⟨0, hW⟩, (h3 j hj _).2.2 ?_⟩
    rw [h2] at hj
    have hj' : j + 1 ≤ ((b - a).toNat + W - 1) / W := hj
    rw [Nat.le_div_iff_mul_le hW] at hj'
    have e : (j + 1) * W = j * W + W := by ring
    have e' : ((j * W : Nat) : Int) = (j : Int) * W := by push_cast; ring
    rw [e] at hj'
    simp only [Nat.cast_zero, Int.add_zero]
    omega

/-! ## Non-vacuity and boundary behaviour -/

example : NoOverflow 8 (-3, 100) := by unfold NoOverflow; decide
example : (foreach 4 false 10 [(0, 6)]).map (fun vs => (actives vs).map Prod.snd) = some [[0], [1], [2], [3], [4], [5]] := by
  decide +kernel
example : (foreach 4 true 10 [(0, 3), (1, 4)]).map (fun vs => (actives vs).length) = some 9 := by decide +kernel

/-- Boundary: in a tiled loop whose inner range is inverted (`end < start`) the body can be executed with no instance
active: uniform code in the body then still runs once. -/
theorem inverted_inner_range_runs_body_all_off :
    ∃ vs, foreach 4 true 10 [(0, 1), (5, 0)] = some vs ∧ vs.length = 1 ∧ actives vs = [] :=
  ⟨_, rfl, rfl, by decide +kernel⟩

/-- Boundary: an upper bound at the top of the 32-bit range makes the loop's own counter overflow. -/
theorem foreach_near_int_max_overflows :
    ∀ fuel, foreach 4 false fuel [(2147483645, 2147483647)] = none := by
  intro fuel
  have h : setup 2147483645 2147483647 4 = some ⟨2147483645, 2147483647, 4, 2147483645⟩ := rfl
  have hb : ∀ m : Fin 4 → Bool, body (⟨2147483645, 2147483647, 4, 2147483645⟩ : SDim) 2147483645 m (fun _ => []) = none := by
    intro m
    unfold body
    rw [if_neg]
    decide +kernel
  cases fuel with
  | zero => simp [foreach, getSpans, setupAll, h, runDims, innerLoop]
  | succ k => simp [foreach, getSpans, setupAll, h, runDims, innerLoop, hb]

end Ispc.Foreach
