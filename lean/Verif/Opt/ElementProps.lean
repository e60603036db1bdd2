import Verif.Opt.Element

/-!
# C78: executions of functions in SSA form, and values that are always equal
-/

namespace Ispc.Elt

/-! ### Dominance -/

theorem Dom.refl (P : Prog) (b : Nat) : Dom P b b := by
  intro π h
  cases h <;> simp

/-- The part of a path up to the last visit of a block on it. -/
theorem Path.upto {P : Prog} {b : Nat} {π : List Nat} (h : Path P b π) {e : Nat} (he : e ∈ π) :
    ∃ π', Path P e π' ∧ π' ⊆ π ∧ π'.length ≤ π.length ∧ (e ≠ b → π'.length < π.length) := by
  induction h with
  | start =>
    simp only [List.mem_singleton] at he
    subst he
    exact ⟨_, .start, fun _ h => h, Nat.le_refl _, fun h => absurd rfl h⟩
  | step b c π hp hbc ih =>
    by_cases hec : e = c
    · subst hec
      exact ⟨_, .step b e π hp hbc, fun _ h => h, Nat.le_refl _, fun h => absurd rfl h⟩
    · have he' : e ∈ π := by
        rcases List.mem_cons.mp he with h | h
        · exact absurd h hec
        · exact h
      obtain ⟨π', h1, h2, h3, _⟩ := ih he'
      exact ⟨π', h1, fun x hx => List.mem_cons_of_mem _ (h2 hx), by simp only [List.length_cons]; omega,
        fun _ => by simp only [List.length_cons]; omega⟩

theorem Dom.trans {P : Prog} {d e b : Nat} (h1 : Dom P d e) (h2 : Dom P e b) : Dom P d b := by
  intro π hπ
  obtain ⟨π', hp, hs, _⟩ := hπ.upto (h2 π hπ)
  exact hs (h1 π' hp)

/-- A block that dominates another one dominates its predecessors. -/
theorem Dom.pred {P : Prog} {d b c : Nat} (h : Dom P d c) (hd : d ≠ c) (hbc : b ∈ P.preds c) : Dom P d b := by
  intro π hπ
  rcases List.mem_cons.mp (h _ (.step b c π hπ hbc)) with h | h
  · exact absurd h hd
  · exact h

/-- Two blocks that are reached and dominate each other are the same. -/
theorem Dom.antisymm {P : Prog} {d b : Nat} (h1 : Dom P d b) (h2 : Dom P b d) {π : List Nat} (hπ : Path P b π) :
    d = b := by
  by_contra hne
  have key : ∀ (n : Nat) (π : List Nat), π.length = n → Path P b π → False := by
    intro n
    induction n using Nat.strongRecOn with
    | ind n ih =>
      intro π hn hπ
      obtain ⟨π1, hp1, _, _, hl1⟩ := hπ.upto (h1 π hπ)
      obtain ⟨π2, hp2, _, hl2, _⟩ := hp1.upto (h2 π1 hp1)
      have := hl1 hne
      exact ih π2.length (by omega) π2 rfl hp2
  exact key π.length π rfl hπ

/-- The part of a path before the first visit of a block on it. -/
theorem Path.before {P : Prog} {b : Nat} {π : List Nat} (h : Path P b π) {q : Nat} (hq : q ∈ π) (hne : q ≠ P.entry) :
    ∃ c π', Path P c π' ∧ c ∈ P.preds q ∧ q ∉ π' ∧ π' ⊆ π := by
  induction h with
  | start => exact absurd (by simpa using hq) hne
  | step b c π hp hbc ih =>
    by_cases hm : q ∈ π
    · obtain ⟨c', π', h1, h2, h3, h4⟩ := ih hm
      exact ⟨c', π', h1, h2, h3, fun x hx => List.mem_cons_of_mem _ (h4 hx)⟩
    · rcases List.mem_cons.mp hq with rfl | h
      · exact ⟨b, π, hp, hbc, hm, fun x hx => List.mem_cons_of_mem _ hx⟩
      · exact absurd h hm

/-- Two blocks that have the same predecessors and are both on all paths to a third block are the same. -/
theorem Dom.same_preds {P : Prog} {p q b : Nat} (hpe : p ≠ P.entry) (hqe : q ≠ P.entry)
    (hpre : ∀ c, c ∈ P.preds p ↔ c ∈ P.preds q) (hp : Dom P p b) (hq : Dom P q b) {π : List Nat} (hπ : Path P b π) :
    p = q := by
  by_contra hne
  have key : ∀ {b : Nat} {π : List Nat}, Path P b π → ∃ π', Path P b π' ∧ ¬(p ∈ π' ∧ q ∈ π') := by
    intro b π hπ
    induction hπ with
    | start => exact ⟨_, .start, fun h => hpe (by simpa using h.1)⟩
    | step b c π _ hbc ih =>
      obtain ⟨π', h1, h2⟩ := ih
      by_cases hcp : c = p
      · subst hcp
        by_cases hq' : q ∈ π'
        · obtain ⟨d, π'', k1, k2, k3, _⟩ := h1.before hq' hqe
          refine ⟨_, .step d c π'' k1 ((hpre d).mpr k2), fun h => ?_⟩
          rcases List.mem_cons.mp h.2 with h | h
          · exact hne h.symm
          · exact k3 h
        · refine ⟨_, .step b c π' h1 hbc, fun h => ?_⟩
          rcases List.mem_cons.mp h.2 with h | h
          · exact hne h.symm
          · exact hq' h
      · by_cases hcq : c = q
        · subst hcq
          by_cases hp' : p ∈ π'
          · obtain ⟨d, π'', k1, k2, k3, _⟩ := h1.before hp' hpe
            refine ⟨_, .step d c π'' k1 ((hpre d).mp k2), fun h => ?_⟩
            rcases List.mem_cons.mp h.1 with h | h
            · exact hne h
            · exact k3 h
          · refine ⟨_, .step b c π' h1 hbc, fun h => ?_⟩
            rcases List.mem_cons.mp h.1 with h | h
            · exact hne h
            · exact hp' h
        · refine ⟨_, .step b c π' h1 hbc, fun h => h2 ⟨?_, ?_⟩⟩
          · rcases List.mem_cons.mp h.1 with h | h
            · exact absurd h.symm hcp
            · exact h
          · rcases List.mem_cons.mp h.2 with h | h
            · exact absurd h.symm hcq
            · exact h
  obtain ⟨π', h1, h2⟩ := key hπ
  exact h2 ⟨hp π' h1, hq π' h1⟩

theorem Run.path {S : Sem} {P : Prog} {b : Nat} {env : Env} (h : Run S P b env) : ∃ π, Path P b π := by
  induction h with
  | start => exact ⟨_, .start⟩
  | step b c env env' _ hbc _ _ _ ih =>
    obtain ⟨π, hπ⟩ := ih
    exact ⟨_, .step b c π hπ hbc⟩

/-! ### Values are what their definitions say as long as they are in scope -/

/-- What the node of a value says depends only on the value and its operands. -/
theorem Holds.congr {S : Sem} {P : Prog} {env env' : Env} {v : Nat} (h : Holds S P env v)
    (hv : env' v = env v) (hu : ∀ a ∈ (P.node v).uses, env' a = env a) : Holds S P env' v := by
  unfold Holds at h ⊢
  cases hn : P.node v with
  | cvec ops =>
    simp only [hn, Node.uses] at h hu ⊢
    intro l o ho
    rw [hv, hu o (List.mem_of_getElem? ho)]
    exact h l o ho
  | insert base e idx =>
    cases idx with
    | none => simp
    | some i =>
      simp only [hn, Node.uses] at h hu ⊢
      rw [hv, hu base (by simp), hu e (by simp)]
      exact h
  | shuffle a z =>
    cases z with
    | false => simp
    | true =>
      simp only [hn, Node.uses] at h hu ⊢
      rw [hv, hu a (by simp)]
      exact h
  | bin op a b =>
    simp only [hn, Node.uses] at h hu ⊢
    rw [hv, hu a (by simp), hu b (by simp)]
    exact h
  | cast op a =>
    simp only [hn, Node.uses] at h hu ⊢
    rw [hv, hu a (by simp)]
    exact h
  | elt a =>
    simp only [hn, Node.uses] at h hu ⊢
    rw [hv, hu a (by simp)]
    exact h
  | _ => simp_all

/-- **C78.** In a valid function, at the end of every block, every value whose definition dominates the block is what
its definition says, in terms of the values its operands have then. -/
theorem holds_of_run {S : Sem} {P : Prog} {rank : Nat → Nat} (hP : Valid P rank) {b : Nat} {env : Env}
    (h : Run S P b env) : ∀ v, Dom P (P.blk v) b → (P.node v).isPhi = false → Holds S P env v := by
  induction h with
  | start env h0 =>
    intro v hv hphi
    have : P.blk v = P.entry := by
      have := hv _ Path.start
      simpa using this
    exact h0 v this hphi
  | step b c env env' hr hbc hph hkeep hcomp ih =>
    intro v hv hphi
    by_cases hvc : P.blk v = c
    · exact hcomp v hvc hphi
    · refine (ih v (hv.pred hvc hbc) hphi).congr (hkeep v hvc) ?_
      intro a ha
      apply hkeep a
      intro hac
      obtain ⟨π, hπ⟩ := hr.path
      have hd := hP.dom v a ha
      rw [hac] at hd
      exact hvc (Dom.antisymm hv hd (.step b c π hπ hbc))

/-! ### Relations between values that are kept by execution -/

/-- One step of comparing two values: they are the same value, or the same operator, cast or phi of values that are
related. -/
inductive Same (P : Prog) (R : Nat → Nat → Prop) : Nat → Nat → Prop
  | refl (x : Nat) : Same P R x x
  | bin {x y op a b a' b' : Nat} : P.node x = .bin op a b → P.node y = .bin op a' b' → R a a' → R b b' → Same P R x y
  | cast {x y op a a' : Nat} : P.node x = .cast op a → P.node y = .cast op a' → R a a' → Same P R x y
  | phi {x y : Nat} {ins ins' : List (Nat × Nat)} : P.node x = .phi ins → P.node y = .phi ins' →
      List.Forall₂ (fun p q => p.2 = q.2 ∧ R p.1 q.1) ins ins' → Same P R x y

theorem forall₂_imp {R T : Nat × Nat → Nat × Nat → Prop} (h : ∀ p q, R p q → T p q) {l l' : List (Nat × Nat)}
    (hl : List.Forall₂ R l l') : List.Forall₂ T l l' := by
  induction hl with
  | nil => exact .nil
  | cons hr _ ih => exact .cons (h _ _ hr) ih

theorem Same.mono {P : Prog} {R T : Nat → Nat → Prop} (hRT : ∀ x y, R x y → T x y) {x y : Nat} (h : Same P R x y) :
    Same P T x y := by
  cases h with
  | refl => exact .refl _
  | bin h1 h2 h3 h4 => exact .bin h1 h2 (hRT _ _ h3) (hRT _ _ h4)
  | cast h1 h2 h3 => exact .cast h1 h2 (hRT _ _ h3)
  | phi h1 h2 h3 => exact .phi h1 h2 (forall₂_imp (fun _ _ h => ⟨h.1, hRT _ _ h.2⟩) h3)

/-- Casts with the same opcode to the same type start from the same type. -/
def CastsAgree (P : Prog) : Prop :=
  ∀ x y op a a', P.node x = .cast op a → P.node y = .cast op a' → P.ty x = P.ty y → P.ty a = P.ty a'

theorem forall₂_left {R : Nat × Nat → Nat × Nat → Prop} {l l' : List (Nat × Nat)} (h : List.Forall₂ R l l')
    {p : Nat × Nat} (hp : p ∈ l) : ∃ q ∈ l', R p q := by
  induction h with
  | nil => simp at hp
  | cons hr _ ih =>
    rcases List.mem_cons.mp hp with rfl | hp
    · exact ⟨_, List.mem_cons_self, hr⟩
    · obtain ⟨q, hq, hr'⟩ := ih hp
      exact ⟨q, List.mem_cons_of_mem _ hq, hr'⟩

theorem forall₂_blocks {R : Nat → Nat → Prop} {l l' : List (Nat × Nat)}
    (h : List.Forall₂ (fun p q => p.2 = q.2 ∧ R p.1 q.1) l l') : l.map (·.2) = l'.map (·.2) := by
  induction h with
  | nil => rfl
  | cons hr _ ih => simp [hr.1, ih]

/-- If related phis are equal, all related values are. -/
theorem equal_at {S : Sem} {P : Prog} {rank : Nat → Nat} (hP : Valid P rank) (hC : CastsAgree P)
    {R : Nat → Nat → Prop} (hR : ∀ x y, R x y → P.ty x = P.ty y ∧ Same P R x y) {b : Nat} {env : Env}
    (hrun : Run S P b env)
    (hphi : ∀ x y ins ins', R x y → P.node x = .phi ins → P.node y = .phi ins' →
      List.Forall₂ (fun p q => p.2 = q.2 ∧ R p.1 q.1) ins ins' → Dom P (P.blk x) b → Dom P (P.blk y) b →
      env x = env y) :
    ∀ (k : Nat) (x y : Nat), rank x = k → R x y → Dom P (P.blk x) b → Dom P (P.blk y) b → env x = env y := by
  intro k
  induction k using Nat.strongRecOn with
  | ind k ih =>
    intro x y hk hxy hx hy
    obtain ⟨hty, hs⟩ := hR x y hxy
    cases hs with
    | refl => rfl
    | bin h1 h2 h3 h4 =>
      rename_i op a b a' b'
      have hx1 := holds_of_run hP hrun x hx (by simp [h1, Node.isPhi])
      have hy1 := holds_of_run hP hrun y hy (by simp [h2, Node.isPhi])
      simp only [Holds, h1] at hx1
      simp only [Holds, h2] at hy1
      have ha := ih (rank a) (by rw [← hk]; exact hP.order x a (by simp [h1, Node.uses])) a a' rfl h3
        ((hP.dom x a (by simp [h1, Node.uses])).trans hx) ((hP.dom y a' (by simp [h2, Node.uses])).trans hy)
      have hb := ih (rank b) (by rw [← hk]; exact hP.order x b (by simp [h1, Node.uses])) b b' rfl h4
        ((hP.dom x b (by simp [h1, Node.uses])).trans hx) ((hP.dom y b' (by simp [h2, Node.uses])).trans hy)
      funext l
      rw [hx1, hy1, ha, hb, hty]
    | cast h1 h2 h3 =>
      rename_i op a a'
      have hx1 := holds_of_run hP hrun x hx (by simp [h1, Node.isPhi])
      have hy1 := holds_of_run hP hrun y hy (by simp [h2, Node.isPhi])
      simp only [Holds, h1] at hx1
      simp only [Holds, h2] at hy1
      have ha := ih (rank a) (by rw [← hk]; exact hP.order x a (by simp [h1, Node.uses])) a a' rfl h3
        ((hP.dom x a (by simp [h1, Node.uses])).trans hx) ((hP.dom y a' (by simp [h2, Node.uses])).trans hy)
      funext l
      rw [hx1, hy1, ha, hty, hC x y op a a' h1 h2 hty]
    | phi h1 h2 h3 => exact hphi x y _ _ hxy h1 h2 h3 hx hy

/-- Values that are related by a relation that is kept by taking the values apart are equal whenever both are in
scope. -/
theorem equal_of_same {S : Sem} {P : Prog} {rank : Nat → Nat} (hP : Valid P rank) (hC : CastsAgree P)
    {R : Nat → Nat → Prop} (hR : ∀ x y, R x y → P.ty x = P.ty y ∧ Same P R x y) {b : Nat}
    {env : Env} (h : Run S P b env) :
    ∀ x y, R x y → Dom P (P.blk x) b → Dom P (P.blk y) b → env x = env y := by
  induction h with
  | start env h0 =>
    intro x y
    refine equal_at hP hC hR (.start env h0) ?_ (rank x) x y rfl
    intro x y ins ins' _ h1 _ _ hx _
    exact absurd (by simpa using hx _ Path.start) (hP.phi_blk x ins h1)
  | step b c env env' hr hbc hph hkeep hcomp ih =>
    intro x y
    refine equal_at hP hC hR (.step b c env env' hr hbc hph hkeep hcomp) ?_ (rank x) x y rfl
    intro x y ins ins' hxy h1 h2 h3 hx hy
    have hblk : P.blk x = P.blk y := by
      obtain ⟨π, hπ⟩ := hr.path
      refine Dom.same_preds (hP.phi_blk x ins h1) (hP.phi_blk y ins' h2) ?_ hx hy (.step b c π hπ hbc)
      intro d
      have hb := forall₂_blocks h3
      have m : ∀ (l : List (Nat × Nat)), d ∈ l.map (·.2) ↔ ∃ x, (x, d) ∈ l := by
        intro l
        simp [List.mem_map]
      constructor
      · intro hd
        obtain ⟨u, hu⟩ := (m ins').mp (hb ▸ (m ins).mpr (hP.phi_all x ins d h1 hd))
        exact hP.phi_pred y ins' u d h2 hu
      · intro hd
        obtain ⟨u, hu⟩ := (m ins).mp (hb ▸ (m ins').mpr (hP.phi_all y ins' d h2 hd))
        exact hP.phi_pred x ins u d h1 hu
    by_cases hc : P.blk x = c
    · obtain ⟨u, hu⟩ := hP.phi_all x ins b h1 (by rw [hc]; exact hbc)
      obtain ⟨⟨w, b'⟩, hw, hbw, huw⟩ := forall₂_left h3 hu
      simp only at hbw huw
      subst hbw
      rw [hph x ins hc h1 u hu, hph y ins' (by rw [← hblk]; exact hc) h2 w hw]
      exact ih u w huw (hP.phi_dom x ins u b h1 hu) (hP.phi_dom y ins' w b h2 hw)
    · have hc' : P.blk y ≠ c := by rw [← hblk]; exact hc
      rw [hkeep x hc, hkeep y hc']
      exact ih x y hxy (hx.pred hc hbc) (hy.pred hc' hbc)

/-! ### `lValuesAreEqual` -/

/-- The pairs that a successful comparison went through, together with those that were being compared. -/
theorem eqIns_yes {eq : Nat → Nat → Ans} : ∀ {ins ins' : List (Nat × Nat)}, ins.length = ins'.length →
    eqIns eq ins ins' = .yes → List.Forall₂ (fun p q => p.2 = q.2 ∧ eq p.1 q.1 = .yes) ins ins'
  | [], [], _, _ => .nil
  | (x, b) :: xs, (y, b') :: ys, hl, h => by
    simp only [eqIns] at h
    split at h
    · simp at h
    · rename_i hb
      split at h
      · rename_i he
        exact .cons ⟨by simpa using hb, he⟩ (eqIns_yes (by simpa using hl) h)
      · rename_i r hr
        simp only [h] at hr
        exact (hr trivial).elim

/-- Related by `U`, or waiting to be compared. -/
abbrev Or (U : Nat → Nat → Prop) (seen : List (Nat × Nat)) (x y : Nat) : Prop := U x y ∨ (x, y) ∈ seen

theorem valuesEq_same (P : Prog) : ∀ (fuel x y : Nat) (seen : List (Nat × Nat)),
    valuesEq P fuel x y seen = .yes → ∃ U : Nat → Nat → Prop, Or U seen x y ∧
      ∀ a b, U a b → Same P (Or U seen) a b
  | 0, x, y, seen, h => by simp [valuesEq] at h
  | fuel + 1, x, y, seen, h => by
    have ih := valuesEq_same P fuel
    simp only [valuesEq] at h
    split at h
    · rename_i he
      subst he
      exact ⟨fun a b => a = x ∧ b = x, .inl ⟨rfl, rfl⟩, fun a b ⟨ha, hb⟩ => by subst ha; subst hb; exact .refl _⟩
    · split at h
      · rename_i hs
        exact ⟨fun _ _ => False, .inr hs, fun _ _ h => h.elim⟩
      · split at h
        · rename_i op a b op' a' b' hx hy
          split at h
          · simp at h
          · rename_i hop
            have hop : op = op' := by simpa using hop
            subst hop
            split at h
            · rename_i ha
              obtain ⟨U, hU, hU'⟩ := ih a a' seen ha
              obtain ⟨V, hV, hV'⟩ := ih b b' seen h
              refine ⟨fun p q => (p = x ∧ q = y) ∨ U p q ∨ V p q, .inl (.inl ⟨rfl, rfl⟩), ?_⟩
              intro p q hpq
              rcases hpq with ⟨rfl, rfl⟩ | hpq | hpq
              · refine .bin hx hy ?_ ?_
                · exact hU.elim (fun h => .inl (.inr (.inl h))) .inr
                · exact hV.elim (fun h => .inl (.inr (.inr h))) .inr
              · exact (hU' p q hpq).mono fun s t h => h.elim (fun h => .inl (.inr (.inl h))) .inr
              · exact (hV' p q hpq).mono fun s t h => h.elim (fun h => .inl (.inr (.inr h))) .inr
            · rename_i r hr
              simp only [h] at hr
              exact (hr trivial).elim
        · rename_i op a op' a' hx hy
          split at h
          · simp at h
          · rename_i hop
            have hop : op = op' := by simpa using hop
            subst hop
            obtain ⟨U, hU, hU'⟩ := ih a a' seen h
            refine ⟨fun p q => (p = x ∧ q = y) ∨ U p q, .inl (.inl ⟨rfl, rfl⟩), ?_⟩
            intro p q hpq
            rcases hpq with ⟨rfl, rfl⟩ | hpq
            · exact .cast hx hy (hU.elim (fun h => .inl (.inr h)) .inr)
            · exact (hU' p q hpq).mono fun s t h => h.elim (fun h => .inl (.inr h)) .inr
        · rename_i ins ins' hx hy
          split at h
          · simp at h
          · rename_i hl
            have h2 := eqIns_yes (by simpa using hl) h
            -- all pairs that some comparison of two incoming values went through
            refine ⟨fun p q => (p = x ∧ q = y) ∨ ∃ U : Nat → Nat → Prop, U p q ∧
              ∀ a b, U a b → Same P (Or U ((x, y) :: seen)) a b, .inl (.inl ⟨rfl, rfl⟩), ?_⟩
            have lift : ∀ (U : Nat → Nat → Prop), (∀ a b, U a b → Same P (Or U ((x, y) :: seen)) a b) →
                ∀ s t, Or U ((x, y) :: seen) s t → Or (fun p q => (p = x ∧ q = y) ∨ ∃ U : Nat → Nat → Prop, U p q ∧
                  ∀ a b, U a b → Same P (Or U ((x, y) :: seen)) a b) seen s t := by
              intro U hU s t hst
              rcases hst with h | h
              · exact .inl (.inr ⟨U, h, hU⟩)
              · rcases List.mem_cons.mp h with h | h
                · simp only [Prod.mk.injEq] at h
                  exact .inl (.inl h)
                · exact .inr h
            intro p q hpq
            rcases hpq with ⟨rfl, rfl⟩ | ⟨U, hpq, hU⟩
            · refine .phi hx hy (forall₂_imp ?_ h2)
              intro s t hst
              refine ⟨hst.1, ?_⟩
              obtain ⟨U, hU, hU'⟩ := ih _ _ _ hst.2
              exact lift U hU' _ _ hU
            · exact (hU p q hpq).mono (lift U hU)
        · simp at h

/-- Types are the same along a comparison. -/
theorem same_ty {P : Prog} {rank : Nat → Nat} (hP : Valid P rank) (hC : CastsAgree P) {R : Nat → Nat → Prop} {x y : Nat}
    (hty : P.ty x = P.ty y) (h : Same P R x y) : Same P (fun a b => R a b ∧ P.ty a = P.ty b) x y := by
  cases h with
  | refl => exact .refl _
  | bin h1 h2 h3 h4 =>
    have k1 := hP.bin_ty _ _ _ _ h1
    have k2 := hP.bin_ty _ _ _ _ h2
    exact .bin h1 h2 ⟨h3, by rw [k1.1, k2.1, hty]⟩ ⟨h4, by rw [k1.2, k2.2, hty]⟩
  | cast h1 h2 h3 => exact .cast h1 h2 ⟨h3, hC _ _ _ _ _ h1 h2 hty⟩
  | phi h1 h2 h3 =>
    refine .phi h1 h2 ?_
    have k1 := fun x b => hP.phi_ty _ _ x b h1
    have k2 := fun x b => hP.phi_ty _ _ x b h2
    clear h1 h2
    induction h3 with
    | nil => exact .nil
    | @cons p q _ _ hr _ ih =>
      refine .cons ⟨hr.1, hr.2, ?_⟩ (ih (fun x b hb => k1 x b (List.mem_cons_of_mem _ hb))
        (fun x b hb => k2 x b (List.mem_cons_of_mem _ hb)))
      rw [k1 p.1 p.2 List.mem_cons_self, k2 q.1 q.2 List.mem_cons_self, hty]

/-- **C78.** If the compiler decides that two values of the same type are equal, then in every execution, at the end of
every block that both definitions dominate, they are (also for phis of different blocks, which are then never both in
scope), provided that the function does not cast to the same type from different types with the same kind of cast.
Missing: the proviso, without which it is false (`equal_wrong`). -/
theorem equal_partial {S : Sem} {P : Prog} {rank : Nat → Nat} (hP : Valid P rank) (hC : CastsAgree P)
    {fuel x y : Nat} (hty : P.ty x = P.ty y) (h : valuesEq P fuel x y [] = .yes) {b : Nat}
    {env : Env} (hrun : Run S P b env) (hx : Dom P (P.blk x) b) (hy : Dom P (P.blk y) b) : env x = env y := by
  obtain ⟨U, hU, hU'⟩ := valuesEq_same P fuel x y [] h
  have hU : U x y := hU.elim id (by simp)
  refine equal_of_same hP hC (R := fun a b => U a b ∧ P.ty a = P.ty b) ?_ hrun x y ⟨hU, hty⟩ hx hy
  intro a b ⟨hab, ht⟩
  refine ⟨ht, same_ty hP hC ht ((hU' a b hab).mono ?_)⟩
  intro p q hpq
  exact hpq.elim id (by simp)

/-! ### `LLVMFlattenInsertChain` -/

/-- Element `l` of `v` is undefined: `v` is built by inserting other elements into an undefined vector. -/
inductive UndefLane (P : Prog) : Nat → Nat → Prop
  | undef {v l : Nat} : P.node v = .undef → UndefLane P v l
  | insert {v base e i l : Nat} : P.node v = .insert base e (some i) → i ≠ l → UndefLane P base l → UndefLane P v l

/-- The elements found are those of the vector, and are in scope. -/
def Good (P : Prog) (env : Env) (b v0 : Nat) (els : Nat → Option Nat) : Prop :=
  ∀ l e, els l = some e → env v0 l = env e 0 ∧ Dom P (P.blk e) b ∧ P.ty e = ⟨(P.ty v0).w, 0⟩

/-- The values in scope are what their definitions say (`holds_of_run`). -/
def InScope (S : Sem) (P : Prog) (b : Nat) (env : Env) : Prop :=
  ∀ v, Dom P (P.blk v) b → (P.node v).isPhi = false → Holds S P env v

/-- What the walk says about its vector. -/
def ChainOk (P : Prog) (env : Env) (b v0 W : Nat) : Chain → Prop
  | .null | .abort => True
  | .full els => Good P env b v0 els ∧ ∀ l, l < W → els l = none → UndefLane P v0 l
  | .other els => Good P env b v0 els

theorem record_good {P : Prog} {env : Env} {b v0 : Nat} {els : Nat → Option Nat} (hg : Good P env b v0 els) {i e : Nat}
    (h : els i = none → env v0 i = env e 0 ∧ Dom P (P.blk e) b ∧ P.ty e = ⟨(P.ty v0).w, 0⟩) :
    Good P env b v0 (record els i e) := by
  intro l x hx
  simp only [record] at hx
  split at hx
  · rename_i hc
    obtain ⟨rfl, hn⟩ := hc
    simp only [Option.some.injEq] at hx
    subst hx
    exact h hn
  · exact hg l x hx

theorem record_none {els : Nat → Option Nat} {i e l : Nat} (h : record els i e l = none) : els l = none ∧ l ≠ i := by
  simp only [record] at h
  split at h
  · simp at h
  · rename_i hc
    refine ⟨h, ?_⟩
    rintro rfl
    exact hc ⟨rfl, h⟩

theorem walk_ok {S : Sem} {P : Prog} {rank : Nat → Nat} (hP : Valid P rank) {b : Nat} {env : Env}
    (hs : InScope S P b env) (v0 W : Nat) : ∀ (fuel v : Nat) (els : Nat → Option Nat), Dom P (P.blk v) b →
    (P.ty v) = P.ty v0 → Good P env b v0 els →
    (∀ l, els l = none → env v0 l = env v l ∧ (UndefLane P v l → UndefLane P v0 l)) →
    ChainOk P env b v0 W (walk P W fuel v els)
  | 0, v, els, _, _, _, _ => by simp [walk, ChainOk]
  | fuel + 1, v, els, hv, ht, hg, hn => by
    simp only [walk]
    split
    · rename_i base e idx hnode
      cases idx with
      | none => simp [ChainOk]
      | some i =>
        simp only
        split
        · simp [ChainOk]
        · have hh := hs v hv (by simp [hnode, Node.isPhi])
          simp only [Holds, hnode] at hh
          have hty := hP.ins_ty v base e (some i) hnode
          have hbase : Dom P (P.blk base) b := (hP.dom v base (by simp [hnode, Node.uses])).trans hv
          have he : Dom P (P.blk e) b := (hP.dom v e (by simp [hnode, Node.uses])).trans hv
          have hg' : Good P env b v0 (record els i e) := record_good hg fun h0 => by
            refine ⟨?_, he, by rw [hty.2, ht]⟩
            rw [(hn i h0).1, hh i, if_pos rfl]
          have hn' : ∀ l, record els i e l = none →
              env v0 l = env base l ∧ (UndefLane P base l → UndefLane P v0 l) := by
            intro l hl
            obtain ⟨h1, h2⟩ := record_none hl
            refine ⟨by rw [(hn l h1).1, hh l, if_neg h2], fun hu => (hn l h1).2 (.insert hnode (Ne.symm h2) hu)⟩
          split
          · exact walk_ok hP hs v0 W fuel base _ hbase (by rw [hty.1, ht]) hg' hn'
          · rename_i hu
            exact ⟨hg', fun l _ hl => (hn' l hl).2 (.undef hu)⟩
          · rename_i ops hc
            split
            · rename_i hlen
              have hb1 := hs base hbase (by simp [hc, Node.isPhi])
              simp only [Holds, hc] at hb1
              constructor
              · intro l x hx
                simp only [fill] at hx
                split at hx
                · rename_i y hy
                  simp only [Option.some.injEq] at hx
                  subst hx
                  exact hg' l y hy
                · rename_i hy
                  refine ⟨by rw [(hn' l hy).1, hb1 l x hx], ?_, ?_⟩
                  · exact (hP.dom base x (by simp [hc, Node.uses, List.mem_of_getElem? hx])).trans hbase
                  · rw [(hP.cvec_ty base ops hc).2 x (List.mem_of_getElem? hx), hty.1, ht]
              · intro l hlW hl
                simp only [fill] at hl
                split at hl
                · simp at hl
                · simp only [List.getElem?_eq_none_iff] at hl
                  omega
            · simp [ChainOk]
          · split
            · exact ⟨hg', fun l hl => by omega⟩
            · simp [ChainOk]
          · exact hg'
    · simp [ChainOk]

theorem lastSome_some {els : Nat → Option Nat} : ∀ {W s : Nat}, lastSome els W = some s → ∃ l, l < W ∧ els l = some s
  | 0, _, h => by simp [lastSome] at h
  | W + 1, s, h => by
    simp only [lastSome] at h
    split at h
    · rename_i e he
      simp only [Option.some.injEq] at h
      subst h
      exact ⟨W, Nat.lt_succ_self _, he⟩
    · obtain ⟨l, h1, h2⟩ := lastSome_some h
      exact ⟨l, by omega, h2⟩

theorem compareAll_val {P : Prog} {fuel : Nat} {els : Nat → Option Nat} {s : Nat} : ∀ {is : List Nat} {r : Nat},
    compareAll P fuel els s is = .val r → r = s ∧ ∀ i ∈ is, ∀ e, els i = some e → valuesEq P fuel s e [] = .yes
  | [], r, h => by
    simp only [compareAll, Res.val.injEq] at h
    exact ⟨h.symm, by simp⟩
  | i :: is, r, h => by
    simp only [compareAll] at h
    split at h
    · rename_i hn
      obtain ⟨h1, h2⟩ := compareAll_val h
      refine ⟨h1, ?_⟩
      intro j hj e he
      rcases List.mem_cons.mp hj with rfl | hj
      · rw [hn] at he
        simp at he
      · exact h2 j hj e he
    · rename_i e he
      split at h
      · rename_i hy
        obtain ⟨h1, h2⟩ := compareAll_val h
        refine ⟨h1, ?_⟩
        intro j hj e' he'
        rcases List.mem_cons.mp hj with rfl | hj
        · rw [he] at he'
          simp only [Option.some.injEq] at he'
          subst he'
          exact hy
        · exact h2 j hj e' he'
      · simp at h
      · simp at h

/-- The scalar found, as `LLVMFlattenInsertChain` finds it in a vector that insertelement instructions put together. -/
theorem insert_case {S : Sem} {P : Prog} {rank : Nat → Nat} (hP : Valid P rank) (add : Nat → Bool) {b : Nat} {env : Env}
    (hs : InScope S P b env) {fuel v W s base e : Nat} {idx : Option Nat} {compare undef search : Bool}
    (hv : Dom P (P.blk v) b) (hnode : P.node v = .insert base e idx)
    (h : flatten P add fuel v W compare undef search = .val s) :
    ∃ els, Good P env b v els ∧
      (compare = false → els 0 = some s) ∧
      (compare = true → (∀ l, l < W → els l = none → UndefLane P v l) ∧ (∃ l, l < W ∧ els l = some s) ∧
        (undef = false → ∀ l, l < W → els l ≠ none) ∧
        ∀ l e, l < W → els l = some e → valuesEq P fuel s e [] = .yes) := by
  have hw := walk_ok hP hs v W fuel v (fun _ => none) hv rfl (by intro l e h; simp at h) (fun l _ => ⟨rfl, id⟩)
  simp only [flatten, hnode] at h
  split at h
  · simp at h
  · simp at h
  · rename_i els hels
    rw [hels] at hw
    cases compare with
    | true => simp at h
    | false =>
      simp only [Bool.false_eq_true, if_false] at h
      split at h
      · rename_i s' hs0
        simp only [Res.val.injEq] at h
        subst h
        exact ⟨els, hw, fun _ => hs0, by simp⟩
      · simp at h
  · rename_i els hels
    rw [hels] at hw
    cases compare with
    | false =>
      simp only [finish, if_true] at h
      split at h
      · rename_i s' hs0
        simp only [Res.val.injEq] at h
        subst h
        exact ⟨els, hw.1, fun _ => hs0, by simp⟩
      · simp at h
    | true =>
      simp only [finish, Bool.true_eq_false, if_false] at h
      split at h
      · simp at h
      · rename_i s' hs0
        split at h
        · simp at h
        · rename_i hu
          obtain ⟨h1, h2⟩ := compareAll_val h
          subst h1
          refine ⟨els, hw.1, by simp, fun _ => ⟨hw.2, lastSome_some hs0, ?_, ?_⟩⟩
          · intro hu0 l hl hn
            apply hu
            refine ⟨hu0, ?_⟩
            rw [List.any_eq_true]
            exact ⟨l, List.mem_range.mpr hl, by simp [hn]⟩
          · intro l e hl he
            exact h2 l (List.mem_range.mpr hl) e he

/-- **C78.** If the compiler finds a common scalar of all elements of a vector that insertelement instructions put
together, then in every execution, where the vector is in scope, each of its elements is equal to the scalar, or is
undefined; if no undefined elements are asked for, each of them is equal.  Missing: the proviso of
`equal_partial`. -/
theorem common_partial {S : Sem} {P : Prog} {rank : Nat → Nat} (hP : Valid P rank) (hC : CastsAgree P)
    (add : Nat → Bool) {fuel v W s base e : Nat} {idx : Option Nat} {undef search : Bool}
    (hnode : P.node v = .insert base e idx) (h : flatten P add fuel v W true undef search = .val s) {b : Nat}
    {env : Env} (hrun : Run S P b env) (hv : Dom P (P.blk v) b) :
    ∀ l, l < W → env v l = env s 0 ∨ undef = true ∧ UndefLane P v l := by
  obtain ⟨els, hg, _, h2⟩ := insert_case hP add (holds_of_run hP hrun) hv hnode h
  obtain ⟨hun, ⟨k, _, hks⟩, hall, heq⟩ := h2 rfl
  intro l hl
  cases hel : els l with
  | none =>
    refine .inr ⟨?_, hun l hl hel⟩
    cases undef with
    | true => rfl
    | false => exact absurd hel (hall rfl l hl)
  | some x =>
    obtain ⟨g1, g2, g3⟩ := hg l x hel
    obtain ⟨_, g5, g6⟩ := hg k s hks
    have := equal_partial (S := S) hP hC (by rw [g6, g3]) (heq l x hl hel) hrun g5 g2
    exact .inl (by rw [g1, this])

/-- **C78.** The first element of a vector that insertelement instructions put together, if the compiler finds it, is
the first element in every execution. -/
theorem first_insert {S : Sem} {P : Prog} {rank : Nat → Nat} (hP : Valid P rank) (add : Nat → Bool)
    {fuel v W s base e : Nat} {idx : Option Nat} {undef search : Bool} (hnode : P.node v = .insert base e idx)
    (h : flatten P add fuel v W false undef search = .val s) {b : Nat} {env : Env} (hrun : Run S P b env)
    (hv : Dom P (P.blk v) b) : env v 0 = env s 0 ∧ Dom P (P.blk s) b ∧ P.ty s = ⟨(P.ty v).w, 0⟩ := by
  obtain ⟨els, hg, h1, _⟩ := insert_case hP add (holds_of_run hP hrun) hv hnode h
  exact hg 0 s (h1 rfl)

/-- The element of a broadcast: the insertion it starts from, and where that stands. -/
theorem broadcastElt_val {P : Prog} {add : Nat → Bool} {search : Bool} {op s : Nat}
    (h : broadcastElt P add search op = .val s) :
    ∃ ie base, P.node ie = .insert base s (some 0) ∧ P.node base = .undef ∧
      (ie = op ∨ search = true ∧ add op = true ∧ ∃ o a b, P.node op = .bin o a b ∧
        (firstConst P b = true ∧ ie = a ∨ firstConst P b = false ∧ ie = b)) := by
  simp only [broadcastElt] at h
  split at h
  · simp at h
  · rename_i ie hie
    split at h
    · rename_i base e idx hn
      split at h
      · rename_i hb
        split at h
        · simp at h
        · rename_i i
          split at h
          · rename_i hi
            subst hi
            simp only [Res.val.injEq] at h
            subst h
            refine ⟨ie, base, hn, hb, ?_⟩
            simp only [startOf] at hie
            split at hie
            · simp only [Option.some.injEq] at hie
              exact .inl hie.symm
            · rename_i o a c hop
              split at hie
              · rename_i hs
                simp only [Bool.and_eq_true] at hs
                refine .inr ⟨hs.1, hs.2, o, a, c, hop, ?_⟩
                split at hie
                · rename_i hf
                  split at hie
                  · simp only [Option.some.injEq] at hie
                    exact .inl ⟨hf, hie.symm⟩
                  · simp at hie
                · rename_i hf
                  split at hie
                  · simp only [Option.some.injEq] at hie
                    exact .inr ⟨by simpa using hf, hie.symm⟩
                  · simp at hie
              · simp at hie
            · simp at hie
          · simp at h
      · simp at h
    · simp at h

/-- **C78.** A scalar that is broadcast to all elements of a vector, as the compiler finds it: every element is equal to
it. -/
theorem broadcast {S : Sem} {P : Prog} {rank : Nat → Nat} (hP : Valid P rank) (add : Nat → Bool)
    {fuel v W s a : Nat} {z compare undef : Bool} (hnode : P.node v = .shuffle a z)
    (h : flatten P add fuel v W compare undef false = .val s) {b : Nat} {env : Env} (hrun : Run S P b env)
    (hv : Dom P (P.blk v) b) : ∀ l, env v l = env s 0 := by
  cases z with
  | false => simp [flatten, hnode] at h
  | true =>
  simp only [flatten, hnode] at h
  obtain ⟨ie, base, hie, _, hwh⟩ := broadcastElt_val h
  rcases hwh with rfl | ⟨h, _⟩
  · have h1 := holds_of_run hP hrun v hv (by simp [hnode, Node.isPhi])
    simp only [Holds, hnode] at h1
    have h2 := holds_of_run hP hrun ie ((hP.dom v ie (by simp [hnode, Node.uses])).trans hv)
      (by simp [hie, Node.isPhi])
    simp only [Holds, hie] at h2
    intro l
    rw [h1 l, h2 0, if_pos rfl]
  · simp at h

/-- **C78.** The base pointer and the offset that the compiler finds for a vector of pointers that is a broadcast: their
sum is the pointer, in every lane and every execution, for every meaning of additions in which zero is neutral and the
order does not matter. -/
theorem broadcast_base {S : Sem} {P : Prog} {rank : Nat → Nat} (hP : Valid P rank) {add ptr : Nat → Bool}
    {fuel v W s : Nat} {o : Offs} (h : broadcastBase P add ptr fuel v W = some (s, o)) {b : Nat} {env : Env}
    (hrun : Run S P b env) (hv : Dom P (P.blk v) b) (plus : Nat → Nat → Nat) (h0 : ∀ x, plus x 0 = x)
    (hcomm : ∀ x y, plus x y = plus y x)
    (hadd : ∀ u op a c, add u = true → P.node u = .bin op a c → ∀ l, S.bin op (P.ty u).w (env a l) (env c l) =
      plus (env a l) (env c l)) :
    ∀ l, env v l = plus (env s 0) (o.lane env l) := by
  simp only [broadcastBase] at h
  split at h
  · rename_i op hnode
    have h1 := holds_of_run hP hrun v hv (by simp [hnode, Node.isPhi])
    simp only [Holds, hnode] at h1
    have hopd : Dom P (P.blk op) b := (hP.dom v op (by simp [hnode, Node.uses])).trans hv
    split at h
    · rename_i s' hf
      split at h
      · simp only [flatten, hnode] at hf
        obtain ⟨ie, base, hie, _, hwh⟩ := broadcastElt_val hf
        rcases hwh with rfl | ⟨_, hao, oo, a, c, hop, hwh⟩
        · -- the insertion itself is broadcast
          simp only [hie, Option.some.injEq, Prod.mk.injEq] at h
          obtain ⟨rfl, rfl⟩ := h
          have h2 := holds_of_run hP hrun ie hopd (by simp [hie, Node.isPhi])
          simp only [Holds, hie] at h2
          intro l
          simp only [Offs.lane, h0]
          rw [h1 l, h2 0, if_pos rfl]
        · have h2 := holds_of_run hP hrun op hopd (by simp [hop, Node.isPhi])
          simp only [Holds, hop] at h2
          have had : Dom P (P.blk a) b := (hP.dom op a (by simp [hop, Node.uses])).trans hopd
          have hcd : Dom P (P.blk c) b := (hP.dom op c (by simp [hop, Node.uses])).trans hopd
          simp only [hop, hao, if_true] at h
          intro l
          rw [h1 l, h2 0, hadd op oo a c hao hop 0]
          rcases hwh with ⟨hf, rfl⟩ | ⟨_, rfl⟩
          · -- the insertion plus a constant
            simp only [firstConst] at hf
            split at hf
            · rename_i x ops hc
              simp only [hc, Option.some.injEq, Prod.mk.injEq] at h
              obtain ⟨rfl, rfl⟩ := h
              have h3 := holds_of_run hP hrun ie had (by simp [hie, Node.isPhi])
              simp only [Holds, hie] at h3
              simp only [Offs.lane]
              rw [h3 0, if_pos rfl]
            · simp at hf
          · -- something plus the insertion
            simp only [hie] at h
            split at h
            · simp only [Option.some.injEq, Prod.mk.injEq] at h
              obtain ⟨rfl, rfl⟩ := h
              have h3 := holds_of_run hP hrun ie hcd (by simp [hie, Node.isPhi])
              simp only [Holds, hie] at h3
              simp only [Offs.lane]
              rw [h3 0, if_pos rfl, hcomm]
            · simp at h
      · simp at h
    · simp at h
  · simp at h

end Ispc.Elt
