import Verif.Foreach.Model
import Mathlib.Tactic.Linarith
import Mathlib.Tactic.Ring
import Mathlib.Data.Int.Init

/-!
# Lemmas about the `foreach` loop nest (helpers for C06, C07)
-/

namespace Ispc.Foreach

variable {W : Nat}

theorem actives_nil : actives ([] : List (Visit W)) = [] := rfl

theorem actives_cons (v : Visit W) (vs : List (Visit W)) :
    actives (v :: vs) = ((List.finRange W).filter v.mask).map (fun l => (l, v.idx l)) ++ actives vs := rfl

theorem actives_append (vs ws : List (Visit W)) : actives (vs ++ ws) = actives vs ++ actives ws := by
  simp [actives]

theorem mem_visit (v : Visit W) (l : Fin W) (t : List Int) :
    (l, t) ∈ ((List.finRange W).filter v.mask).map (fun l => (l, v.idx l)) ↔ v.mask l = true ∧ t = v.idx l := by
  simp only [List.mem_map, List.mem_filter, List.mem_finRange, true_and, Prod.mk.injEq]
  constructor
  · rintro ⟨a, h1, rfl, h2⟩; exact ⟨h1, h2.symm⟩
  · rintro ⟨h1, rfl⟩; exact ⟨l, h1, rfl, rfl⟩

theorem nodup_visit (v : Visit W) :
    (((List.finRange W).filter v.mask).map (fun l => (l, v.idx l))).Nodup := by
  refine List.Nodup.map (fun a b h => (Prod.mk.inj h).1) ((List.nodup_finRange W).filter _)

/-- The residues covered by one step of a counter. -/
theorem step_iff {s c x : Int} {p d : Nat} (hp : 0 < p) (hc : (c - s) % p = 0) (hd : d < p) :
    x = c + d ↔ c ≤ x ∧ x < c + p ∧ (x - s) % p = d := by
  have hp' : (0 : Int) < p := by omega
  have e : x - s = (x - c) + (c - s) := by ring
  have key : (x - s) % p = (x - c) % p := by
    rw [e, Int.add_emod, hc]; simp
  constructor
  · rintro rfl
    refine ⟨by omega, by omega, ?_⟩
    rw [key]
    have : (c + (d : Int) - c) = d := by ring
    rw [this]
    exact Int.emod_eq_of_lt (by omega) (by omega)
  · rintro ⟨h1, h2, h3⟩
    rw [key, Int.emod_eq_of_lt (by omega) (by omega)] at h3
    omega

theorem delta_lt {span : Nat} (h : 0 < span) (rest : List Nat) (l : Nat) : delta span rest l < span :=
  Nat.mod_lt _ h

theorem chk_some {x : Int} (h1 : -2 ^ 31 ≤ x) (h2 : x < 2 ^ 31) : chk x = some x := by
  unfold chk i32
  rw [if_pos]
  exact decide_eq_true ⟨h1, h2⟩

/-- Facts about a dimension after setup. -/
structure Good (D : SDim) : Prop where
  span : 0 < D.span
  lo : -2 ^ 31 ≤ D.start
  lo' : -2 ^ 31 ≤ D.stop
  hi : D.start + D.span < 2 ^ 31
  hi' : D.stop + D.span < 2 ^ 31
  /-- not inverted: the aligned end is where it should be -/
  pos : D.start ≤ D.stop →
    (D.aEnd - D.start) % D.span = 0 ∧ D.start ≤ D.aEnd ∧ D.aEnd ≤ D.stop ∧ D.stop < D.aEnd + D.span
  /-- inverted: the aligned end is not after the start -/
  neg : D.stop < D.start → D.stop ≤ D.aEnd ∧ D.aEnd ≤ D.start

theorem setup_good {W : Nat} {a b : Int} {s : Nat} (hs : 0 < s) (hsW : s ≤ W) (h : NoOverflow W (a, b)) :
    ∃ D, setup a b s = some D ∧ Good D ∧ D.start = a ∧ D.stop = b ∧ D.span = s := by
  obtain ⟨h1, h2, h3, h4, h5, h6⟩ := h
  simp only at h1 h2 h3 h4 h5 h6
  have hs' : (0 : Int) < s := by omega
  have hsW' : (s : Int) ≤ W := by omega
  have c1 : chk (b - a) = some (b - a) := chk_some (by omega) (by omega)
  by_cases hab : a ≤ b
  · have ht : (b - a).tmod s = (b - a) % s := Int.tmod_eq_emod_of_nonneg (by omega)
    have r0 := Int.emod_nonneg (b - a) (by omega : (s : Int) ≠ 0)
    have r1 := Int.emod_lt_of_pos (b - a) hs'
    have rle : (b - a) % s ≤ b - a := by
      have h0 := Int.mul_ediv_add_emod (b - a) s
      have h1 : 0 ≤ (s : Int) * ((b - a) / s) := Int.mul_nonneg (by omega) (Int.ediv_nonneg (by omega) (by omega))
      omega
    have c2 : chk (b - (b - a).tmod s) = some (b - (b - a) % s) := by
      rw [ht]; exact chk_some (by omega) (by omega)
    refine ⟨⟨a, b, s, b - (b - a) % s⟩, by simp [setup, c1, c2], ⟨hs, h1, h2, ?_, ?_, ?_, ?_⟩, rfl, rfl, rfl⟩
    · show a + (s : Int) < 2 ^ 31; omega
    · show b + (s : Int) < 2 ^ 31; omega
    · intro _
      refine ⟨?_, by simp only; omega, by simp only; omega, by simp only; omega⟩
      have : b - (b - a) % s - a = (b - a) - (b - a) % s := by ring
      simp only [this]
      exact Int.emod_eq_zero_of_dvd (Int.dvd_self_sub_emod)
    · intro h; simp only at h; omega
  · have ht : (b - a).tmod s = -((a - b) % s) := by
      have : b - a = -(a - b) := by ring
      rw [this, Int.neg_tmod, Int.tmod_eq_emod_of_nonneg (by omega)]
    have r0 := Int.emod_nonneg (a - b) (by omega : (s : Int) ≠ 0)
    have rle : (a - b) % s ≤ a - b := by
      have h0 := Int.mul_ediv_add_emod (a - b) s
      have h1 : 0 ≤ (s : Int) * ((a - b) / s) := Int.mul_nonneg (by omega) (Int.ediv_nonneg (by omega) (by omega))
      omega
    have c2 : chk (b - (b - a).tmod s) = some (b + (a - b) % s) := by
      rw [ht, sub_neg_eq_add]; exact chk_some (by omega) (by omega)
    refine ⟨⟨a, b, s, b + (a - b) % s⟩, by simp [setup, c1, c2], ⟨hs, h1, h2, ?_, ?_, ?_, ?_⟩, rfl, rfl, rfl⟩
    · show a + (s : Int) < 2 ^ 31; omega
    · show b + (s : Int) < 2 ^ 31; omega
    · intro h; simp only at h; omega
    · intro _; simp only; omega

/-- Lane `l` is responsible for the index values `xs` of the dimensions `Ds`. -/
def Cov : List SDim → Fin W → List Int → Prop
  | [], _, [] => True
  | D :: Ds, l, x :: xs =>
    (D.start ≤ x ∧ x < D.stop ∧ (x - D.start) % D.span = delta D.span (Ds.map SDim.span) l) ∧ Cov Ds l xs
  | _, _, _ => False

/-- What a (part of a) loop nest must produce. -/
def Char (m : Fin W → Bool) (pre : Fin W → List Int) (ok : Fin W → List Int → Prop) (vs : List (Visit W)) : Prop :=
  (actives vs).Nodup ∧ ∀ l t, (l, t) ∈ actives vs ↔ m l = true ∧ ∃ t', t = pre l ++ t' ∧ ok l t'

theorem Char.empty {m : Fin W → Bool} {pre ok} (h : ∀ l t', m l = true → ¬ ok l t') : Char m pre ok [] := by
  refine ⟨by simp [actives_nil], fun l t => ?_⟩
  simp only [actives_nil, List.not_mem_nil, false_iff]
  rintro ⟨h1, t', -, h2⟩
  exact h l t' h1 h2

/-- A block of work followed by the rest. -/
theorem Char.append {m : Fin W → Bool} {pre} {ok₁ ok₂ ok : Fin W → List Int → Prop} {vs ws}
    (h₁ : Char m pre ok₁ vs) (h₂ : Char m pre ok₂ ws)
    (hor : ∀ l t, m l = true → (ok l t ↔ ok₁ l t ∨ ok₂ l t)) (hdis : ∀ l t, m l = true → ok₁ l t → ok₂ l t → False) :
    Char m pre ok (vs ++ ws) := by
  refine ⟨?_, fun l t => ?_⟩
  · rw [actives_append]
    refine List.Nodup.append h₁.1 h₂.1 ?_
    rintro ⟨l, t⟩ a b
    obtain ⟨m1, t1, e1, o1⟩ := (h₁.2 l t).1 a
    obtain ⟨m2, t2, e2, o2⟩ := (h₂.2 l t).1 b
    have : t1 = t2 := List.append_cancel_left (e1.symm.trans e2)
    subst this
    exact hdis l t1 m1 o1 o2
  · rw [actives_append, List.mem_append, h₁.2, h₂.2]
    constructor
    · rintro (⟨m1, t1, e1, o1⟩ | ⟨m1, t1, e1, o1⟩)
      · exact ⟨m1, t1, e1, (hor l t1 m1).2 (Or.inl o1)⟩
      · exact ⟨m1, t1, e1, (hor l t1 m1).2 (Or.inr o1)⟩
    · rintro ⟨m1, t1, e1, o1⟩
      rcases (hor l t1 m1).1 o1 with o | o
      · exact Or.inl ⟨m1, t1, e1, o⟩
      · exact Or.inr ⟨m1, t1, e1, o⟩

/-- One body execution. -/
theorem Char.single {m mask : Fin W → Bool} {pre : Fin W → List Int} {ok : Fin W → List Int → Prop} {x : Fin W → Int}
    (h1 : ∀ l, mask l = true → m l = true) (h2 : ∀ l t, m l = true → (ok l t ↔ mask l = true ∧ t = [x l])) :
    Char m pre ok [⟨mask, fun l => pre l ++ [x l]⟩] := by
  refine ⟨?_, fun l t => ?_⟩
  · rw [actives_cons, actives_nil, List.append_nil]; exact nodup_visit _
  · rw [actives_cons, actives_nil, List.append_nil, mem_visit]
    simp only
    constructor
    · rintro ⟨hm, rfl⟩; exact ⟨h1 l hm, [x l], rfl, (h2 l _ (h1 l hm)).2 ⟨hm, rfl⟩⟩
    · rintro ⟨hm, t', rfl, hk⟩
      obtain ⟨a, rfl⟩ := (h2 l t' hm).1 hk
      exact ⟨a, rfl⟩

/-- Index values of the innermost dimension from counter value `c` on. -/
def From (D : SDim) (c : Int) (l : Fin W) (t : List Int) : Prop :=
  ∃ x, t = [x] ∧ c ≤ x ∧ x < D.stop ∧ (x - D.start) % D.span = delta D.span [] l

theorem body_some {D : SDim} (hg : Good D) {c : Int} (h1 : D.start ≤ c) (h2 : c + D.span < 2 ^ 31)
    (mask : Fin W → Bool) (pre : Fin W → List Int) :
    body D c mask pre = some ⟨mask, fun l => pre l ++ [lv D [] c l]⟩ := by
  unfold body
  rw [if_pos]
  intro l
  have := delta_lt hg.span [] l
  have := hg.lo
  exact decide_eq_true ⟨by unfold lv; omega, by unfold lv; omega⟩

/-- A full step of the innermost loop covers exactly the index values in `[c, c+span)`. -/
theorem full_step {D : SDim} (hg : Good D) {c : Int} (hc : (c - D.start) % D.span = 0)
    (m : Fin W → Bool) (pre : Fin W → List Int) :
    Char m pre (fun l t => ∃ x, t = [x] ∧ c ≤ x ∧ x < c + D.span ∧ (x - D.start) % D.span = delta D.span [] l)
      [⟨m, fun l => pre l ++ [lv D [] c l]⟩] := by
  refine Char.single (fun _ h => h) fun l t hm => ?_
  simp only [hm, true_and]
  constructor
  · rintro ⟨x, rfl, h⟩
    rw [(step_iff hg.span hc (delta_lt hg.span _ _)).2 h]; rfl
  · rintro rfl
    exact ⟨_, rfl, (step_iff hg.span hc (delta_lt hg.span _ _)).1 rfl⟩

/-- The ragged end of the innermost loop. -/
theorem ragged_step {D : SDim} (hg : Good D) {c : Int} (hc : (c - D.start) % D.span = 0) (hle : D.stop ≤ c + D.span)
    (m : Fin W → Bool) (pre : Fin W → List Int) :
    Char m pre (From D c) [⟨fun l => m l && decide (lv D [] c l < D.stop), fun l => pre l ++ [lv D [] c l]⟩] := by
  refine Char.single (fun l h => by simp at h; exact h.1) fun l t hm => ?_
  simp only [hm, Bool.true_and, decide_eq_true_eq]
  constructor
  · rintro ⟨x, rfl, h1, h2, h3⟩
    have := (step_iff hg.span hc (delta_lt hg.span _ _)).2 ⟨h1, by omega, h3⟩
    subst this
    exact ⟨h2, rfl⟩
  · rintro ⟨h, rfl⟩
    obtain ⟨a, b, d⟩ := (step_iff (x := lv D [] c l) hg.span hc (delta_lt hg.span [] l)).1 rfl
    exact ⟨_, rfl, a, h, d⟩

theorem next_aligned {c s : Int} {p : Nat} (h : (c - s) % p = 0) : (c + p - s) % p = 0 := by
  have : c + p - s = (c - s) + p := by ring
  rw [this, Int.add_emod_right]; exact h

/-- Multiples of the span: a counter below the aligned end is at least one span below it. -/
theorem aligned_gap {c e s : Int} {p : Nat} (hc : (c - s) % p = 0) (he : (e - s) % p = 0) (h : c < e) :
    c + p ≤ e := by
  have hd : (p : Int) ∣ e - c := by
    have : e - c = (e - s) - (c - s) := by ring
    rw [this]
    exact Int.dvd_sub (Int.dvd_of_emod_eq_zero he) (Int.dvd_of_emod_eq_zero hc)
  have := Int.le_of_dvd (by omega) hd
  omega

theorem inner_char {D : SDim} (hg : Good D) (hpos : D.start ≤ D.stop) {inEx : Bool} {m : Fin W → Bool}
    {pre : Fin W → List Int} (hm : inEx = false → m = fun _ => true) :
    ∀ k c, (c - D.start) % D.span = 0 → D.start ≤ c → c ≤ D.aEnd → (D.aEnd - c).toNat < k →
      ∃ vs, innerLoop D inEx m pre k c = some vs ∧ Char m pre (From D c) vs := by
  obtain ⟨p1, p2, p3, p4⟩ := hg.pos hpos
  have hsp : (0 : Int) < D.span := by have := hg.span; omega
  have hi' := hg.hi'
  have hlo := hg.lo
  intro k
  induction k with
  | zero => intro c _ _ _ h; omega
  | succ k ih =>
    intro c hc hs ha hk
    by_cases hlt : c < D.aEnd
    · have hgap := aligned_gap hc p1 hlt
      obtain ⟨vs, hv, hch⟩ := ih (c + D.span) (next_aligned hc) (by omega) hgap (by omega)
      have hb : ∀ mask, body D c mask pre = some ⟨mask, fun l => pre l ++ [lv D [] c l]⟩ :=
        fun mask => body_some hg hs (by omega) mask pre
      have hck : chk (c + D.span) = some (c + D.span) := chk_some (by omega) (by omega)
      have hfull := full_step hg hc m pre
      refine ⟨⟨m, fun l => pre l ++ [lv D [] c l]⟩ :: vs, ?_, ?_⟩
      · unfold innerLoop
        cases inEx with
        | true => simp only [if_true, hlt, hb, hck, Option.bind_eq_bind, Option.bind_some, hv]
        | false =>
          rw [hm rfl]
          rw [hm rfl] at hv
          simp only [Bool.false_eq_true, if_false, hlt, if_true, hb, hck, Option.bind_eq_bind, Option.bind_some, hv]
      · refine Char.append hfull hch (fun l t _ => ?_) (fun l t _ => ?_)
        · constructor
          · rintro ⟨x, rfl, h1, h2, h3⟩
            by_cases hx : x < c + D.span
            · exact Or.inl ⟨x, rfl, h1, hx, h3⟩
            · exact Or.inr ⟨x, rfl, by omega, h2, h3⟩
          · rintro (⟨x, rfl, h1, h2, h3⟩ | ⟨x, rfl, h1, h2, h3⟩)
            · exact ⟨x, rfl, h1, by omega, h3⟩
            · exact ⟨x, rfl, by omega, h2, h3⟩
        · rintro ⟨x, rfl, h1, h2, h3⟩ ⟨y, hy, h4, h5, h6⟩
          simp only [List.cons.injEq, and_true] at hy
          omega
    · have hce : c = D.aEnd := by omega
      have hb : ∀ mask, body D c mask pre = some ⟨mask, fun l => pre l ++ [lv D [] c l]⟩ :=
        fun mask => body_some hg hs (by omega) mask pre
      have hrag := ragged_step hg hc (by omega) m pre
      by_cases hst : c = D.stop
      · refine ⟨[], ?_, Char.empty ?_⟩
        · unfold innerLoop
          cases inEx with
          | true => rw [if_pos rfl, if_neg hlt, if_neg (by simpa using hst)]
          | false => rw [if_neg (by simp), if_neg hlt, if_neg (by omega)]
        · rintro l t' _ ⟨x, -, h1, h2, -⟩; omega
      · refine ⟨_, ?_, hrag⟩
        unfold innerLoop
        cases inEx with
        | true => simp only [if_true, hlt, if_false, ne_eq, hst, not_false_eq_true, hb]; rfl
        | false =>
          have : c < D.stop := by omega
          rw [hm rfl]
          simp only [Bool.false_eq_true, if_false, hlt, this, if_true, hb, Bool.true_and]; rfl

theorem inner_char_neg {D : SDim} (hg : Good D) (hneg : D.stop < D.start) {inEx : Bool} {m : Fin W → Bool}
    {pre : Fin W → List Int} {k : Nat} (hk : 0 < k) :
    ∃ vs, innerLoop D inEx m pre k D.start = some vs ∧ Char m pre (From D D.start) vs := by
  obtain ⟨n1, n2⟩ := hg.neg hneg
  have hlt : ¬ D.start < D.aEnd := by omega
  obtain ⟨k, rfl⟩ : ∃ j, k = j + 1 := ⟨k - 1, by omega⟩
  have hb : ∀ mask, body D D.start mask pre = some ⟨mask, fun l => pre l ++ [lv D [] D.start l]⟩ :=
    fun mask => body_some hg (le_refl _) (by have := hg.hi; omega) mask pre
  have hrag := ragged_step hg (c := D.start) (by simp) (by have := hg.span; omega) m pre
  cases inEx with
  | true =>
    refine ⟨_, ?_, hrag⟩
    unfold innerLoop
    have : D.start ≠ D.stop := by omega
    simp only [if_true, hlt, if_false, ne_eq, this, not_false_eq_true, hb]; rfl
  | false =>
    refine ⟨[], ?_, Char.empty ?_⟩
    · unfold innerLoop
      rw [if_neg (by simp), if_neg hlt, if_neg (by omega)]
    · rintro l t' _ ⟨x, -, h1, h2, -⟩; omega

/-- Outer dimensions: index values of this dimension from `c` on, then the inner dimensions. -/
def FromO (D : SDim) (Ds : List SDim) (c : Int) (l : Fin W) (t : List Int) : Prop :=
  ∃ x xs, t = x :: xs ∧ (c ≤ x ∧ x < D.stop ∧ (x - D.start) % D.span = delta D.span (Ds.map SDim.span) l) ∧ Cov Ds l xs

theorem outer_char {D : SDim} {Ds : List SDim} (hg : Good D)
    {inner : Bool → (Fin W → Bool) → (Fin W → List Int) → Option (List (Visit W))}
    (hinner : ∀ inEx m pre, (inEx = false → m = fun _ => true) → ∃ vs, inner inEx m pre = some vs ∧ Char m pre (Cov Ds) vs)
    {inEx : Bool} {m : Fin W → Bool} {pre : Fin W → List Int} (hm : inEx = false → m = fun _ => true) :
    ∀ k c, (c - D.start) % D.span = 0 → D.start ≤ c → c < 2 ^ 31 → (D.stop - c).toNat < k →
      ∃ vs, outerLoop D (Ds.map SDim.span) inner inEx m pre k c = some vs ∧ Char m pre (FromO D Ds c) vs := by
  have hsp : (0 : Int) < D.span := by have := hg.span; omega
  have hi' := hg.hi'
  have hlo := hg.lo
  intro k
  induction k with
  | zero => intro c _ _ _ h; omega
  | succ k ih =>
    intro c hc hs hck hk
    by_cases hlt : c < D.stop
    · obtain ⟨p1, p2, p3, p4⟩ := hg.pos (by omega)
      obtain ⟨ws, hw, hch⟩ := ih (c + D.span) (next_aligned hc) (by omega) (by omega) (by omega)
      have hr : ∀ l : Fin W, i32 (lv D (Ds.map SDim.span) c l) = true := by
        intro l
        have := delta_lt hg.span (Ds.map SDim.span) l
        exact decide_eq_true ⟨by unfold lv; omega, by unfold lv; omega⟩
      have hck' : chk (c + D.span) = some (c + D.span) := chk_some (by omega) (by omega)
      have hex : ((decide (D.stop > D.aEnd) && decide (c = D.aEnd)) || inEx) = false →
          (fun l => m l && decide (lv D (Ds.map SDim.span) c l < D.stop)) = fun _ => true := by
        intro h
        simp only [Bool.or_eq_false_iff, Bool.and_eq_false_iff, decide_eq_false_iff_not] at h
        obtain ⟨h1, h2⟩ := h
        have hce : c < D.aEnd := by
          by_contra hn
          rcases h1 with h1 | h1
          · omega
          · have := aligned_gap p1 hc (by omega); omega
        have := aligned_gap hc p1 hce
        funext l
        have := delta_lt hg.span (Ds.map SDim.span) l
        rw [hm h2]
        rw [Bool.true_and]
        exact decide_eq_true (by unfold lv; omega)
      obtain ⟨vs, hv, hcv⟩ := hinner _ _ (fun l => pre l ++ [lv D (Ds.map SDim.span) c l]) hex
      refine ⟨vs ++ ws, ?_, ?_⟩
      · unfold outerLoop
        simp only [hlt, if_true, hr, implies_true]
        rw [hv]
        simp only [Option.bind_eq_bind, Option.bind_some, hck', hw]
      · have hcv' : Char m pre (fun l t => ∃ x xs, t = x :: xs ∧ (c ≤ x ∧ x < D.stop ∧ x < c + D.span ∧
            (x - D.start) % D.span = delta D.span (Ds.map SDim.span) l) ∧ Cov Ds l xs) vs := by
          refine ⟨hcv.1, fun l t => ?_⟩
          rw [hcv.2]
          simp only [Bool.and_eq_true, decide_eq_true_eq]
          constructor
          · rintro ⟨⟨h1, h2⟩, t', rfl, h3⟩
            obtain ⟨a, b, d⟩ := (step_iff (x := lv D (Ds.map SDim.span) c l) hg.span hc
              (delta_lt hg.span (Ds.map SDim.span) l)).1 rfl
            exact ⟨h1, _ :: t', by simp, _, t', rfl, ⟨a, h2, b, d⟩, h3⟩
          · rintro ⟨h1, t', rfl, x, xs, rfl, ⟨a, b, d, e⟩, f⟩
            have := (step_iff hg.span hc (delta_lt hg.span _ _)).2 ⟨a, d, e⟩
            subst this
            exact ⟨⟨h1, b⟩, xs, by simp [lv], f⟩
        refine Char.append hcv' hch (fun l t _ => ?_) (fun l t _ => ?_)
        · constructor
          · rintro ⟨x, xs, rfl, ⟨h1, h2, h3⟩, h4⟩
            by_cases hx : x < c + D.span
            · exact Or.inl ⟨x, xs, rfl, ⟨h1, h2, hx, h3⟩, h4⟩
            · exact Or.inr ⟨x, xs, rfl, ⟨by omega, h2, h3⟩, h4⟩
          · rintro (⟨x, xs, rfl, ⟨h1, h2, h3, h3'⟩, h4⟩ | ⟨x, xs, rfl, ⟨h1, h2, h3⟩, h4⟩)
            · exact ⟨x, xs, rfl, ⟨h1, h2, h3'⟩, h4⟩
            · exact ⟨x, xs, rfl, ⟨by omega, h2, h3⟩, h4⟩
        · rintro ⟨x, xs, rfl, ⟨h1, h2, h3, h3'⟩, h4⟩ ⟨y, ys, hy, ⟨h5, h6, h7⟩, h8⟩
          simp only [List.cons.injEq] at hy
          omega
    · refine ⟨[], ?_, Char.empty ?_⟩
      · unfold outerLoop; rw [if_neg hlt]
      · rintro l t' _ ⟨x, xs, -, ⟨h1, h2, -⟩, -⟩; omega

theorem run_char {fuel : Nat} : ∀ (Ds : List SDim), Ds ≠ [] → (∀ D ∈ Ds, Good D) →
    (∀ D ∈ Ds, (D.stop - D.start).toNat < fuel) →
    ∀ inEx (m : Fin W → Bool) pre, (inEx = false → m = fun _ => true) →
      ∃ vs, runDims fuel Ds inEx m pre = some vs ∧ Char m pre (Cov Ds) vs := by
  intro Ds
  induction Ds with
  | nil => intro h; exact absurd rfl h
  | cons D Ds ih =>
    intro _ hg hf inEx m pre hm
    have gD := hg D (by simp)
    have fD := hf D (by simp)
    cases Ds with
    | nil =>
      have conv : ∀ vs, Char m pre (From D D.start) vs → Char m pre (Cov [D]) vs := by
        rintro vs ⟨h1, h2⟩
        refine ⟨h1, fun l t => ?_⟩
        rw [h2]
        refine and_congr_right fun _ => exists_congr fun t' => and_congr_right fun _ => ?_
        constructor
        · rintro ⟨x, rfl, h⟩; exact ⟨h, trivial⟩
        · intro h
          match t', h with
          | [x], h => exact ⟨x, rfl, h.1⟩
          | [], h => exact h.elim
          | _ :: _ :: _, h => exact h.2.elim
      by_cases hp : D.start ≤ D.stop
      · obtain ⟨p1, p2, p3, p4⟩ := gD.pos hp
        obtain ⟨vs, hv, hc⟩ := inner_char gD hp (pre := pre) hm fuel D.start (by simp) (le_refl _) p2 (by omega)
        exact ⟨vs, hv, conv vs hc⟩
      · obtain ⟨vs, hv, hc⟩ := inner_char_neg gD (by omega) (inEx := inEx) (m := m) (pre := pre) (k := fuel) (by omega)
        exact ⟨vs, hv, conv vs hc⟩
    | cons E Es =>
      have hin := ih (by simp) (fun D h => hg D (List.mem_cons_of_mem _ h)) (fun D h => hf D (List.mem_cons_of_mem _ h))
      obtain ⟨vs, hv, hc⟩ := outer_char gD hin (pre := pre) hm fuel D.start (by simp) (le_refl _)
        (by have := gD.hi; omega) fD
      refine ⟨vs, hv, hc.1, fun l t => ?_⟩
      rw [hc.2]
      refine and_congr_right fun _ => exists_congr fun t' => and_congr_right fun _ => ?_
      constructor
      · rintro ⟨x, xs, rfl, h1, h2⟩; exact ⟨h1, h2⟩
      · intro h
        match t', h with
        | x :: xs, h => exact ⟨x, xs, rfl, h.1, h.2⟩
        | [], h => exact h.elim

end Ispc.Foreach
