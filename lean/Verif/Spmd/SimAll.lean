import Verif.Spmd.SimProof

/-!
# Simulation for loops, switches, calls and whole programs (helper lemmas for C01, C10, C11)
-/

namespace Ispc.Spmd

variable {n : Nat}

/-! ### Which statements can leave a loop how -/

theorem inSwitch_loop {cf : List CF} {u} (h : nearest cf = some ⟨.loopK, u⟩) : inSwitch cf = false := by
  cases hs : inSwitch cf
  · rfl
  · obtain ⟨v, hv⟩ := inSwitch_iff.1 hs; rw [h] at hv; cases hv

/-- Without a `continue` under a varying `if`, no instance gets flagged as continued. -/
theorem cont_unch {P : Prog} : ∀ k s (c : Ctx n) u σ o σ', nearest c.cf = some ⟨.loopK, u⟩ →
    varCont (vifs c.cf) s = false → run P k s c σ = some (o, σ') → σ'.cont = σ.cont := by
  intro k
  induction k with
  | zero => intro s c u σ o σ' _ _ h; simp [run] at h
  | succ k ih =>
    intro s c u σ o σ' hn hv h
    cases s with
    | skip => simp [run] at h; rw [← h.2]
    | uassign => simp [run] at h; rw [← h.2]
    | vassign b a i e =>
      simp only [run, Option.some.injEq, Prod.mk.injEq] at h
      rw [← h.2]
      cases b <;> simp [doVassign]
    | seq s₁ s₂ =>
      simp only [run] at h
      simp only [varCont, Bool.or_eq_false_iff] at hv
      rcases andThen_some h with ⟨h1, _⟩ | ⟨σ₁, h1, h2⟩
      · exact ih _ _ _ _ _ _ hn hv.1 h1
      · rw [ih _ _ _ _ _ _ hn hv.2 h2, ih _ _ _ _ _ _ hn hv.1 h1]
    | ite e coh pred s₁ s₂ =>
      simp only [run] at h
      split at h
      · rename_i he
        simp only [varCont, he, if_true, Bool.or_eq_false_iff] at hv
        have e0 : vifs (c.pushIf true).cf = vifs c.cf := by simp [Ctx.pushIf, vifs]
        have e1 : nearest (c.pushIf true).cf = some ⟨.loopK, u⟩ := hn
        split at h
        · exact ih _ _ _ _ _ _ e1 (by rw [e0]; exact hv.1) h
        · exact ih _ _ _ _ _ _ e1 (by rw [e0]; exact hv.2) h
      · rename_i he
        have he : e.isUniform = false := by simpa using he
        simp only [varCont, he] at hv
        have hv : varCont (vifs c.cf + 1) s₁ = false ∧ varCont (vifs c.cf + 1) s₂ = false := by simpa using hv
        have e0 : vifs (c.pushIf false).cf = vifs c.cf + 1 := by simp [Ctx.pushIf, vifs, Nat.add_comm]
        have e1 : nearest (c.pushIf false).cf = some ⟨.loopK, u⟩ := hn
        have br : ∀ {m s σ o σ'}, varCont (vifs c.cf + 1) s = false →
            Branch (c.pushIf false) m (run P k s) σ o σ' → σ'.cont = σ.cont := by
          intro m s σ o σ' hs b
          cases b with
          | ran hr => have := ih _ _ _ _ _ _ e1 (by rw [e0]; exact hs) hr; exact this
          | skipped m' _ => rfl
        rcases varyingIf_cases h with ⟨_, b1⟩ | ⟨σ₁, b1, ⟨_, b2⟩ | ⟨_, σ₂, b2, rfl⟩⟩
        · exact br hv.1 b1
        · rw [br hv.2 b2, br hv.1 b1]
        · rw [(endIf_rest c σ.im σ₂).2.2.2.2.2.1, br hv.2 b2, br hv.1 b1]
    | loop e coh step body =>
      simp only [run] at h
      split at h
      · cases h
      split at h <;>
      · obtain ⟨o', σ₁, h1, rfl, rfl⟩ := wrapLoop_some h
        split <;> simp [restoreMask]
    | doloop body e coh =>
      simp only [run] at h
      split at h <;>
      · obtain ⟨o', σ₁, h1, rfl, rfl⟩ := wrapLoop_some h
        split <;> simp [restoreMask]
    | brk =>
      simp only [run, doBreak] at h
      repeat' split at h
      all_goals simp at h
      all_goals rw [← h.2]
    | cont =>
      simp only [varCont, decide_eq_false_iff_not] at hv
      have hv : vifs c.cf = 0 := by omega
      simp only [run, doContinue, ifsUnif_loop hn, hv, decide_true, if_true] at h
      split at h
      · cases h
      · simp at h; rw [← h.2]
    | ret e =>
      simp only [run, doReturn] at h
      repeat' split at h
      all_goals simp at h
      all_goals rw [← h.2]
    | switch e body =>
      simp only [run] at h
      split at h
      · obtain ⟨r, hr, h⟩ := doSwitch_some h
        rcases h with ⟨_, _, rfl⟩ | ⟨_, _, _, rfl⟩
        · rfl
        · split <;> simp [restoreMask]
      · cases h
    | seg => simp [run] at h
    | call dst f us vs =>
      simp only [run] at h
      split at h
      · simp at h; rw [← h.2]
      · simp at h; rw [← h.2]
      · cases h

/-- Only a `break` under uniform `if`s jumps to the end of a loop. -/
theorem brk_jump {P : Prog} : ∀ k s (c : Ctx n) u σ σ', CtxOk c → nearest c.cf = some ⟨.loopK, u⟩ →
    run P k s c σ = some (.brk, σ') → vifs c.cf = 0 ∧ jumpBrk s = true := by
  intro k
  induction k with
  | zero => intro s c u σ σ' _ _ h; simp [run] at h
  | succ k ih =>
    intro s c u σ σ' hk hn h
    cases s with
    | skip => simp [run] at h
    | uassign => simp [run] at h
    | vassign b a i e => simp [run] at h
    | seq s₁ s₂ =>
      simp only [run] at h
      rcases andThen_some h with ⟨h1, _⟩ | ⟨σ₁, h1, h2⟩
      · have := ih _ _ _ _ _ hk hn h1; simp [jumpBrk, this]
      · have := ih _ _ _ _ _ hk hn h2; simp [jumpBrk, this]
    | ite e coh pred s₁ s₂ =>
      simp only [run] at h
      split at h
      · rename_i he
        have e0 : vifs (c.pushIf true).cf = vifs c.cf := by simp [Ctx.pushIf, vifs]
        have e1 : nearest (c.pushIf true).cf = some ⟨.loopK, u⟩ := hn
        split at h
        · have := ih _ _ _ _ _ (hk.pushIf true) e1 h; rw [e0] at this; simp [jumpBrk, he, this]
        · have := ih _ _ _ _ _ (hk.pushIf true) e1 h; rw [e0] at this; simp [jumpBrk, he, this]
      · have e1 : nearest (c.pushIf false).cf = some ⟨.loopK, u⟩ := hn
        have br : ∀ {m s σ σ'}, Branch (c.pushIf false) m (run P k s) σ .brk σ' → False := by
          intro m s σ σ' b
          cases b with
          | ran hr => have := (ih _ _ _ _ _ (hk.pushIf false) e1 hr).1; simp [Ctx.pushIf, vifs] at this
        rcases varyingIf_cases h with ⟨_, b1⟩ | ⟨σ₁, b1, ⟨_, b2⟩ | ⟨ho, _⟩⟩
        · exact (br b1).elim
        · exact (br b2).elim
        · cases ho
    | loop e coh step body =>
      simp only [run] at h
      split at h
      · cases h
      split at h
      · obtain ⟨o', σ₁, h1, rfl, rfl⟩ := wrapLoop_some h
        rcases forU_out h1 with h | h <;> cases h
      · obtain ⟨o', σ₁, h1, rfl, rfl⟩ := wrapLoop_some h
        rcases forV_out h1 with h | h <;> cases h
    | doloop body e coh =>
      simp only [run] at h
      split at h
      · obtain ⟨o', σ₁, h1, rfl, rfl⟩ := wrapLoop_some h
        rcases doU_out h1 with h | h <;> cases h
      · obtain ⟨o', σ₁, h1, rfl, rfl⟩ := wrapLoop_some h
        rcases doV_out h1 with h | h <;> cases h
    | brk =>
      simp only [run, doBreak, inSwitch_loop hn, ifsUnif_loop hn, (hk.loop_ u hn).2.2] at h
      repeat' split at h
      all_goals first | (simp at h; done) | skip
      all_goals simp_all [jumpBrk]
    | cont =>
      simp only [run, doContinue] at h
      repeat' split at h
      all_goals simp at h
    | ret e =>
      simp only [run, doReturn] at h
      repeat' split at h
      all_goals simp at h
    | switch e body =>
      simp only [run] at h
      split at h
      · obtain ⟨r, hr, h⟩ := doSwitch_some h
        rcases h with ⟨_, hz, _⟩ | ⟨_, _, hz, _⟩ <;> cases hz
      · cases h
    | seg => simp [run] at h
    | call dst f us vs =>
      simp only [run] at h
      split at h
      · simp at h
      · simp at h
      · cases h

/-! ### Loops -/

/-- Outcome of a loop or switch for one instance, before the mask is restored. -/
inductive LStatus (D' : Set Nat) (rv0 : Int) (o : Out) (σ' : St n) (l : Fin n) : SOut → SSt → Prop where
  | ret {ss'} : (σ'.ret l = true ∨ o = .ret) → LStatus D' rv0 o σ' l (.ret (σ'.rv l)) ss'
  | norm {ss'} : o ≠ .ret → σ'.ret l = false → σ'.rv l = rv0 → AgU D' ss' σ' → LStatus D' rv0 o σ' l .normal ss'

def LFollows (P : Prog) (s : Stmt) (D' : Set Nat) (l : Fin n) (ss : SSt) (rv0 : Int) (o : Out) (σ' : St n) : Prop :=
  ∃ so ss', Exec P l s ss so ss' ∧ AgM ss' σ' l ∧ LStatus D' rv0 o σ' l so ss'

/-- An instance that is off when (the rest of) a loop runs keeps its outcome. -/
theorem LStatus.stable {u A D' rv0} {c : Ctx n} {σ₁ o σ₂ l so ss'} (h : LP u A c σ₁ o σ₂) (hf : c.fm l = true)
    (hoff : σ₁.im l = false) (hd : u = false → Disjoint D' A) (hu : u = true → so ≠ .normal)
    (hs : LStatus D' rv0 .normal σ₁ l so ss') : LStatus D' rv0 o σ₂ l so ss' := by
  obtain ⟨a, b, _⟩ := h.offm l hoff
  cases hs with
  | ret hr => rw [← b]; exact .ret (Or.inl (a.trans (by simpa using hr)))
  | norm _ r v g =>
    refine .norm ?_ (a.trans r) (b.trans v) ?_
    · intro ho
      rcases h.retn ho l hf with h' | h'
      · rw [h.imoff hoff] at h'; cases h'
      · rw [a, r] at h'; cases h'
    · cases u
      · exact g.frame h.frame (hd rfl)
      · exact absurd rfl (hu rfl)

theorem AgM.stable {u A} {c : Ctx n} {σ₁ o σ₂ l ss} (h : LP u A c σ₁ o σ₂) (hoff : σ₁.im l = false)
    (hm : AgM ss σ₁ l) : AgM ss σ₂ l :=
  ⟨by rw [(h.offm l hoff).2.2]; exact hm.1, by rw [(h.offf l (Or.inl hoff)).1]; exact hm.2⟩

theorem sim_forU {P : Prog} {c : Ctx n} {e coh stp b step body D' I J A}
    (he : e.isUniform = true) (heI : e.uvars ⊆ I) (hD : D' ⊆ I)
    (gb : ∀ m, Good A (c.pushLoop true m) body) (gs : ∀ m, Good A (c.pushLoop true m) step)
    (hb : ∀ m, Sim P b body (c.pushLoop true m) D' J I J) (hs : ∀ m, Sim P stp step (c.pushLoop true m) ∅ ∅ J I)
    (hq : ∀ c σ o σ', step c σ = some (o, σ') → o = .normal ∧ σ'.im = σ.im ∧ σ'.ret = σ.ret ∧ σ'.brk = σ.brk ∧
      σ'.cont = σ.cont ∧ σ'.rv = σ.rv) :
    ∀ k σ o σ', Head true c σ → forU c e step body k σ = some (o, σ') → ∀ l ss, σ.im l = true → c.fm l = true →
      AgU I ss σ → AgM ss σ l → LFollows P (.loop e coh stp b) D' l ss (σ.rv l) o σ' := by
  intro k
  induction k with
  | zero => intro σ o σ' _ h; simp [forU] at h
  | succ k ih =>
    intro σ o σ' hh h l ss him hfm hu hm
    have hv := evalU_ag (l := l) hu he heI
    simp only [forU] at h
    split at h
    · rename_i ht
      have ht : ss.eval l e ≠ 0 := by rw [hv]; exact ht
      split at h
      · cases h
      · rename_i σ₁ h1
        simp only [Option.some.injEq, Prod.mk.injEq] at h
        obtain ⟨rfl, rfl⟩ := h
        obtain ⟨so, ss', hx, hm', hst⟩ := hb _ _ _ _ hh.inv h1 l ss him hfm hu hm
        cases hst with
        | ret h => exact ⟨_, _, .loopRet ht hx, hm', .ret h⟩
        | brk a => exact absurd rfl a
        | cont a => exact absurd rfl a
        | act a => cases a
        | actB a => cases a
        | actC a => cases a
      · rename_i σ₁ h1
        simp only [Option.some.injEq, Prod.mk.injEq] at h
        obtain ⟨rfl, rfl⟩ := h
        have p1 := gb _ _ _ _ hh.inv h1
        have hn := p1.nu (fun x hx => by simp [Ctx.pushLoop, nearest] at hx; subst hx; rfl) l
        obtain ⟨so, ss', hx, hm', hst⟩ := hb _ _ _ _ hh.inv h1 l ss him hfm hu hm
        cases hst with
        | ret h => exact ⟨_, _, .loopRet ht hx, hm', .ret (by simpa using h)⟩
        | brk a b' => rw [hn.1] at b'; cases b'
        | cont a b' => rw [hn.2] at b'; cases b'
        | act a => cases a
        | actB a b' d f => exact ⟨_, _, .loopBrk ht hx, hm', .norm (by simp) (p1.act l b' hfm).1 d f⟩
        | actC a => cases a
      · rename_i o₁ σ₁ hr hbk h1
        have ho : o₁ ≠ .ret := fun h => hr (by rw [h])
        have ho' : o₁ ≠ .brk := fun h => hbk (by rw [h])
        have p1 := gb _ _ _ _ hh.inv h1
        have hn := p1.nu (fun x hx => by simp [Ctx.pushLoop, nearest] at hx; subst hx; rfl) l
        have i1 := hh.inv.of_post p1 ho
        split at h
        · rename_i σ₂ h2
          obtain ⟨_, q1, q2, q3, q4, q5⟩ := hq _ _ _ _ h2
          have p2 := gs _ _ _ _ i1 h2
          have hh2 := Head.nextU p2 i1 (by simp)
          have lp := (LP.of_bodyU p2 i1 (by simp)).seq (forU_post gb gs k _ _ _ hh2 h)
          obtain ⟨so, ss', hx, hm', hst⟩ := hb _ _ _ _ hh.inv h1 l ss him hfm hu hm
          -- the instance goes on to the next iteration
          have go : (so = .normal ∨ so = .cont) → σ₁.im l = true → σ₁.rv l = σ.rv l → AgU J ss' σ₁ →
              LFollows P (.loop e coh stp b) D' l ss (σ.rv l) o σ' := by
            intro hso him1 hrv hJ
            obtain ⟨so2, ss2, hx2, hm2, hst2⟩ := hs _ _ _ _ i1 h2 l ss' him1 hfm hJ hm'
            have a1 := (p1.act l him1 hfm)
            cases hst2 with
            | ret h => simp [q2, a1] at h
            | brk a b' => rw [q3, a1.2.1] at b'; cases b'
            | cont a b' => rw [q4, a1.2.2] at b'; cases b'
            | act a b' d f =>
              obtain ⟨so3, ss3, hx3, hm3, hst3⟩ := ih _ _ _ hh2 h l ss2 b' hfm f hm2
              refine ⟨so3, ss3, .loopStep ht hx hso hx2 hx3, hm3, ?_⟩
              rw [d, hrv] at hst3
              exact hst3
            | actB a => cases a
            | actC a => cases a
          cases hst with
          | ret h =>
            have hr1 : σ₁.ret l = true := by simpa [ho] using h
            have off : σ₁.im l = false := by
              cases hx : σ₁.im l
              · rfl
              · rw [(p1.act l hx hfm).1] at hr1; cases hr1
            exact ⟨_, _, .loopRet ht hx, hm'.stable lp off,
              LStatus.stable (rv0 := σ.rv l) (D' := D') lp hfm off (by simp) (by simp) (.ret (Or.inl hr1))⟩
          | brk a b' => rw [hn.1] at b'; cases b'
          | cont a b' => rw [hn.2] at b'; cases b'
          | act a b' d f => exact go (Or.inl rfl) b' d f
          | actB a => exact absurd a ho'
          | actC a b' d f => exact go (Or.inr rfl) b' d f
        · cases h
    · rename_i ht
      simp only [Option.some.injEq, Prod.mk.injEq] at h
      obtain ⟨rfl, rfl⟩ := h
      have ht : ss.eval l e = 0 := by rw [hv]; simpa using ht
      exact ⟨_, _, .loopDone ht, hm, .norm (by simp) (hh.act l him hfm) rfl (hu.mono hD)⟩

theorem sim_doU {P : Prog} {c : Ctx n} {e coh b body D' I J A}
    (he : e.isUniform = true) (heJ : e.uvars ⊆ J) (hI : I ⊆ J) (hD : D' ⊆ J)
    (gb : ∀ m, Good A (c.pushLoop true m) body)
    (hb : ∀ m, Sim P b body (c.pushLoop true m) D' J I J) :
    ∀ k σ o σ', Head true c σ → doU c e body k σ = some (o, σ') → ∀ l ss, σ.im l = true → c.fm l = true →
      AgU I ss σ → AgM ss σ l → LFollows P (.doloop b e coh) D' l ss (σ.rv l) o σ' := by
  intro k
  induction k with
  | zero => intro σ o σ' _ h; simp [doU] at h
  | succ k ih =>
    intro σ o σ' hh h l ss him hfm hu hm
    simp only [doU] at h
    split at h
    · cases h
    · rename_i σ₁ h1
      simp only [Option.some.injEq, Prod.mk.injEq] at h
      obtain ⟨rfl, rfl⟩ := h
      obtain ⟨so, ss', hx, hm', hst⟩ := hb _ _ _ _ hh.inv h1 l ss him hfm hu hm
      cases hst with
      | ret h => exact ⟨_, _, .doRet hx, hm', .ret h⟩
      | brk a => exact absurd rfl a
      | cont a => exact absurd rfl a
      | act a => cases a
      | actB a => cases a
      | actC a => cases a
    · rename_i σ₁ h1
      simp only [Option.some.injEq, Prod.mk.injEq] at h
      obtain ⟨rfl, rfl⟩ := h
      have p1 := gb _ _ _ _ hh.inv h1
      have hn := p1.nu (fun x hx => by simp [Ctx.pushLoop, nearest] at hx; subst hx; rfl) l
      obtain ⟨so, ss', hx, hm', hst⟩ := hb _ _ _ _ hh.inv h1 l ss him hfm hu hm
      cases hst with
      | ret h => exact ⟨_, _, .doRet hx, hm', .ret (by simpa using h)⟩
      | brk a b' => rw [hn.1] at b'; cases b'
      | cont a b' => rw [hn.2] at b'; cases b'
      | act a => cases a
      | actB a b' d f => exact ⟨_, _, .doBrk hx, hm', .norm (by simp) (p1.act l b' hfm).1 d f⟩
      | actC a => cases a
    · rename_i o₁ σ₁ hr hbk h1
      have ho : o₁ ≠ .ret := fun h => hr (by rw [h])
      have ho' : o₁ ≠ .brk := fun h => hbk (by rw [h])
      have p1 := gb _ _ _ _ hh.inv h1
      have hn := p1.nu (fun x hx => by simp [Ctx.pushLoop, nearest] at hx; subst hx; rfl) l
      have hh1 := Head.nextU p1 hh.inv ho
      obtain ⟨so, ss', hx, hm', hst⟩ := hb _ _ _ _ hh.inv h1 l ss him hfm hu hm
      have go : (so = .normal ∨ so = .cont) → σ₁.im l = true → σ₁.rv l = σ.rv l → AgU J ss' σ₁ →
          LFollows P (.doloop b e coh) D' l ss (σ.rv l) o σ' := by
        intro hso him1 hrv hJ
        have hv := evalU_ag (l := l) hJ he heJ
        split at h
        · rename_i ht
          obtain ⟨so3, ss3, hx3, hm3, hst3⟩ := ih _ _ _ hh1 h l ss' him1 hfm (hJ.mono hI) hm'
          rw [hrv] at hst3
          exact ⟨so3, ss3, .doStep hx hso (by rw [hv]; exact ht) hx3, hm3, hst3⟩
        · rename_i ht
          simp only [Option.some.injEq, Prod.mk.injEq] at h
          obtain ⟨rfl, rfl⟩ := h
          exact ⟨_, _, .doDone hx hso (by rw [hv]; simpa using ht), hm',
            .norm (by simp) (hh1.act l him1 hfm) hrv (hJ.mono hD)⟩
      cases hst with
      | ret h' =>
        have hr1 : σ₁.ret l = true := by simpa [ho] using h'
        have off : σ₁.im l = false := by
          cases hx : σ₁.im l
          · rfl
          · rw [(p1.act l hx hfm).1] at hr1; cases hr1
        refine ⟨_, _, .doRet hx, ?_⟩
        split at h
        · have lp := doU_post gb k _ _ _ hh1 h
          exact ⟨hm'.stable lp off,
            LStatus.stable (rv0 := σ.rv l) (D' := D') lp hfm off (by simp) (by simp) (.ret (Or.inl hr1))⟩
        · simp only [Option.some.injEq, Prod.mk.injEq] at h
          obtain ⟨rfl, rfl⟩ := h
          exact ⟨hm', .ret (Or.inl hr1)⟩
      | brk a b' => rw [hn.1] at b'; cases b'
      | cont a b' => rw [hn.2] at b'; cases b'
      | act a b' d f => exact go (Or.inl rfl) b' d f
      | actB a => exact absurd a ho'
      | actC a b' d f => exact go (Or.inr rfl) b' d f

theorem sim_forV {P : Prog} {c : Ctx n} {e coh coh' stp b step body D' I J A}
    (heI : e.uvars ⊆ I) (hD : D' ⊆ I) (hdj : Disjoint D' A)
    (gb : ∀ m, Good A (c.pushLoop false m) body) (gs : ∀ m, Good A (c.pushLoop false m) step)
    (hb : ∀ m, Sim P b body (c.pushLoop false m) D' J I J) (hs : ∀ m, Sim P stp step (c.pushLoop false m) ∅ ∅ J I)
    (hq : ∀ c σ o σ', step c σ = some (o, σ') → o = .normal ∧ σ'.im = σ.im ∧ σ'.ret = σ.ret ∧ σ'.brk = σ.brk ∧
      σ'.cont = σ.cont ∧ σ'.rv = σ.rv)
    (hj : ∀ m σ σ', body (c.pushLoop false m) σ = some (.brk, σ') → σ'.cont = σ.cont) :
    ∀ k σ o σ', Head false c σ → forV c e coh step body k σ = some (o, σ') → ∀ l ss, σ.im l = true → c.fm l = true →
      AgU I ss σ → AgM ss σ l → LFollows P (.loop e coh' stp b) D' l ss (σ.rv l) o σ' := by
  intro k
  induction k with
  | zero => intro σ o σ' _ h; simp [forV] at h
  | succ k ih =>
    intro σ o σ' hh0 h l ss him0 hfm hu hm
    have hv := eval_ag hu hm heI
    have hcopy := h
    simp only [forV, coherentBody_eq] at h
    have ht0 := hh0.narrow (σ.test e)
    have lpn : LP false A c { σ with im := σ.im.and (σ.test e) } o σ' := by
      -- what happens after the test, seen as a whole
      have hq' : ∀ c σ o σ', step c σ = some (o, σ') → σ'.brk = σ.brk ∧ σ'.cont = σ.cont := fun c σ o σ' h =>
        ⟨(hq c σ o σ' h).2.2.2.1, (hq c σ o σ' h).2.2.2.2.1⟩
      have := forV_post (e := e) (coh := coh) gb gs hq' (k + 1) { σ with im := σ.im.and (σ.test e) } o σ' ht0 (by
        simp only [forV, coherentBody_eq]
        have e1 : (σ.im.and (σ.test e)).and (({ σ with im := σ.im.and (σ.test e) } : St n).test e)
            = σ.im.and (σ.test e) := by
          funext l
          have : (({ σ with im := σ.im.and (σ.test e) } : St n).test e) l = σ.test e l := rfl
          simp only [Mask.and_apply, this]
          cases σ.im l <;> cases σ.test e l <;> rfl
        simp only [e1]
        exact h)
      exact this
    by_cases htz : ss.eval l e = 0
    · have off : (({ σ with im := σ.im.and (σ.test e) } : St n)).im l = false := by
        simp [St.test, ← hv, htz]
      refine ⟨_, _, .loopDone htz, AgM.stable lpn off hm, ?_⟩
      exact LStatus.stable lpn hfm off (fun _ => hdj) (by simp)
        (.norm (by simp) (hh0.act l him0 hfm) rfl (hu.mono hD))
    · have him : (({ σ with im := σ.im.and (σ.test e) } : St n)).im l = true := by
        simp [St.test, ← hv, htz, him0]
      have hu : AgU I ss ({ σ with im := σ.im.and (σ.test e) } : St n) := hu
      have hm : AgM ss ({ σ with im := σ.im.and (σ.test e) } : St n) l := hm
      show LFollows P (.loop e coh' stp b) D' l ss (({ σ with im := σ.im.and (σ.test e) } : St n).rv l) o σ'
      generalize ({ σ with im := σ.im.and (σ.test e) } : St n) = τ at *
      clear lpn hcopy
      have ht := htz
      split at h
      · split at h
        · cases h
        · rename_i σ₁ h1
          simp only [Option.some.injEq, Prod.mk.injEq] at h
          obtain ⟨rfl, rfl⟩ := h
          obtain ⟨so, ss', hx, hm', hst⟩ := hb _ _ _ _ ht0.inv h1 l ss him hfm hu hm
          cases hst with
          | ret h => exact ⟨_, _, .loopRet ht hx, hm', .ret h⟩
          | brk a => exact absurd rfl a
          | cont a => exact absurd rfl a
          | act a => cases a
          | actB a => cases a
          | actC a => cases a
        · rename_i σ₁ h1
          simp only [Option.some.injEq, Prod.mk.injEq] at h
          obtain ⟨rfl, rfl⟩ := h
          have p1 := gb _ _ _ _ ht0.inv h1
          have hc := congrFun (hj _ _ _ h1) l
          rw [(ht0.bc l).2] at hc
          obtain ⟨so, ss', hx, hm', hst⟩ := hb _ _ _ _ ht0.inv h1 l ss him hfm hu hm
          cases hst with
          | ret h => exact ⟨_, _, .loopRet ht hx, hm', .ret (by simpa using h)⟩
          | brk a b' d f =>
            refine ⟨_, _, .loopBrk ht hx, hm', .norm (by simp) ?_ d f⟩
            cases hr : σ₁.ret l
            · rfl
            · rw [((p1.excl l hfm).1 hr).1] at b'; cases b'
          | cont a b' => rw [hc] at b'; cases b'
          | act a => cases a
          | actB a b' d f => exact ⟨_, _, .loopBrk ht hx, hm', .norm (by simp) (p1.act l b' hfm).1 d f⟩
          | actC a => cases a
        · rename_i o₁ σ₁ hr hbk h1
          have ho : o₁ ≠ .ret := fun h => hr (by rw [h])
          have ho' : o₁ ≠ .brk := fun h => hbk (by rw [h])
          have p1 := gb _ _ _ _ ht0.inv h1
          have hn := Head.next p1
          split at h
          · rename_i σ₂ h2
            obtain ⟨_, q1, q2, q3, q4, q5⟩ := hq _ _ _ _ h2
            have p2 := gs _ _ _ _ hn.inv h2
            have hq' : ∀ c σ o σ', step c σ = some (o, σ') → σ'.brk = σ.brk ∧ σ'.cont = σ.cont := fun c σ o σ' h =>
              ⟨(hq c σ o σ' h).2.2.2.1, (hq c σ o σ' h).2.2.2.2.1⟩
            have hh2 : Head false c σ₂ :=
              ⟨fun l h1 h2 => (p2.act l h1 h2).1, fun l => by rw [q3, q4]; exact hn.bc l, fun h => by cases h⟩
            have lp := (LP.of_bodyV p2).seq (forV_post gb gs hq' k _ _ _ hh2 h)
            obtain ⟨so, ss', hx, hm', hst⟩ := hb _ _ _ _ ht0.inv h1 l ss him hfm hu hm
            have hm'' : AgM ss' (nextIter σ₁) l := hm'
            -- the instance goes on to the next iteration
            have go : (so = .normal ∨ so = .cont) → (nextIter σ₁).im l = true → σ₁.rv l = τ.rv l → AgU J ss' σ₁ →
                LFollows P (.loop e coh' stp b) D' l ss (τ.rv l) o σ' := by
              intro hso him1 hrv hJ
              obtain ⟨so2, ss2, hx2, hm2, hst2⟩ := hs _ _ _ _ hn.inv h2 l ss' him1 hfm hJ hm''
              have a1 := hn.act l him1 hfm
              cases hst2 with
              | ret h => simp [q2, a1] at h
              | brk a b' => rw [q3, (hn.bc l).1] at b'; cases b'
              | cont a b' => rw [q4, (hn.bc l).2] at b'; cases b'
              | act a b' d f =>
                obtain ⟨so3, ss3, hx3, hm3, hst3⟩ := ih _ _ _ hh2 h l ss2 b' hfm f hm2
                refine ⟨so3, ss3, .loopStep ht hx hso hx2 hx3, hm3, ?_⟩
                rw [d, show (nextIter σ₁).rv l = σ₁.rv l from rfl, hrv] at hst3
                exact hst3
              | actB a => cases a
              | actC a => cases a
            have offr : σ₁.im l = false → σ₁.cont l = false → (nextIter σ₁).im l = false := by
              intro a b; simp [nextIter, a, b]
            cases hst with
            | ret h =>
              have hr1 : σ₁.ret l = true := by simpa [ho] using h
              have off : σ₁.im l = false := by
                cases hx : σ₁.im l
                · rfl
                · rw [(p1.act l hx hfm).1] at hr1; cases hr1
              have off := offr off ((p1.excl l hfm).1 hr1).2
              exact ⟨_, _, .loopRet ht hx, hm''.stable lp off,
                LStatus.stable (σ₁ := nextIter σ₁) (rv0 := τ.rv l) (D' := D') lp hfm off (fun _ => hdj) (by simp)
                  (.ret (Or.inl hr1))⟩
            | brk a b' d f =>
              have off : σ₁.im l = false := by
                cases hx : σ₁.im l
                · rfl
                · rw [(p1.act l hx hfm).2.1] at b'; cases b'
              have hr0 : σ₁.ret l = false := by
                cases hr : σ₁.ret l
                · rfl
                · rw [((p1.excl l hfm).1 hr).1] at b'; cases b'
              have off := offr off ((p1.excl l hfm).2 b')
              exact ⟨_, _, .loopBrk ht hx, hm''.stable lp off,
                LStatus.stable (σ₁ := nextIter σ₁) (rv0 := τ.rv l) (D' := D') lp hfm off (fun _ => hdj) (by simp)
                  (.norm (by simp) hr0 d f)⟩
            | cont a b' d f => exact go (Or.inr rfl) (by simp [nextIter, b']) d f
            | act a b' d f => exact go (Or.inl rfl) (by simp [nextIter, b']) d f
            | actB a => exact absurd a ho'
            | actC a b' d f => exact go (Or.inr rfl) (by simp [nextIter, b']) d f
          · cases h
      · rename_i hany
        have := Mask.any_false (by simpa using hany) l
        simp [him, hfm] at this

theorem sim_doV {P : Prog} {c : Ctx n} {e coh coh' b body D' I J A}
    (heJ : e.uvars ⊆ J) (hI : I ⊆ J) (hD : D' ⊆ J) (hdj : Disjoint D' A)
    (gb : ∀ m, Good A (c.pushLoop false m) body)
    (hb : ∀ m, Sim P b body (c.pushLoop false m) D' J I J)
    (hj : ∀ m σ σ', body (c.pushLoop false m) σ = some (.brk, σ') → σ'.cont = σ.cont) :
    ∀ k σ o σ', Head false c σ → doV c e coh body k σ = some (o, σ') → ∀ l ss, σ.im l = true → c.fm l = true →
      AgU I ss σ → AgM ss σ l → LFollows P (.doloop b e coh') D' l ss (σ.rv l) o σ' := by
  intro k
  induction k with
  | zero => intro σ o σ' _ h; simp [doV] at h
  | succ k ih =>
    intro σ o σ' hh h l ss him hfm hu hm
    simp only [doV, coherentBody_eq] at h
    split at h
    · cases h
    · rename_i σ₁ h1
      simp only [Option.some.injEq, Prod.mk.injEq] at h
      obtain ⟨rfl, rfl⟩ := h
      obtain ⟨so, ss', hx, hm', hst⟩ := hb _ _ _ _ hh.inv h1 l ss him hfm hu hm
      cases hst with
      | ret h => exact ⟨_, _, .doRet hx, hm', .ret h⟩
      | brk a => exact absurd rfl a
      | cont a => exact absurd rfl a
      | act a => cases a
      | actB a => cases a
      | actC a => cases a
    · rename_i σ₁ h1
      simp only [Option.some.injEq, Prod.mk.injEq] at h
      obtain ⟨rfl, rfl⟩ := h
      have p1 := gb _ _ _ _ hh.inv h1
      have hc := congrFun (hj _ _ _ h1) l
      rw [(hh.bc l).2] at hc
      obtain ⟨so, ss', hx, hm', hst⟩ := hb _ _ _ _ hh.inv h1 l ss him hfm hu hm
      cases hst with
      | ret h => exact ⟨_, _, .doRet hx, hm', .ret (by simpa using h)⟩
      | brk a b' d f =>
        refine ⟨_, _, .doBrk hx, hm', .norm (by simp) ?_ d f⟩
        cases hr : σ₁.ret l
        · rfl
        · rw [((p1.excl l hfm).1 hr).1] at b'; cases b'
      | cont a b' => rw [hc] at b'; cases b'
      | act a => cases a
      | actB a b' d f => exact ⟨_, _, .doBrk hx, hm', .norm (by simp) (p1.act l b' hfm).1 d f⟩
      | actC a => cases a
    · rename_i o₁ σ₁ hr hbk h1
      have ho : o₁ ≠ .ret := fun h => hr (by rw [h])
      have ho' : o₁ ≠ .brk := fun h => hbk (by rw [h])
      have p1 := gb _ _ _ _ hh.inv h1
      have hn := Head.next p1
      obtain ⟨so, ss', hx, hm', hst⟩ := hb _ _ _ _ hh.inv h1 l ss him hfm hu hm
      have hm'' : AgM ss' (nextIter σ₁) l := hm'
      have hnn := hn.narrow ((nextIter σ₁).test e)
      have lp2 : LP false A c { nextIter σ₁ with im := (nextIter σ₁).im.and ((nextIter σ₁).test e) } o σ' := by
        split at h
        · exact doV_post gb k _ _ _ hnn h
        · simp only [Option.some.injEq, Prod.mk.injEq] at h
          obtain ⟨rfl, rfl⟩ := h
          exact .refl hnn
      have lp : LP false A c (nextIter σ₁) o σ' := (LP.narrow ((nextIter σ₁).test e)).seq lp2
      have go : (so = .normal ∨ so = .cont) → (nextIter σ₁).im l = true → σ₁.rv l = σ.rv l → AgU J ss' σ₁ →
          LFollows P (.doloop b e coh') D' l ss (σ.rv l) o σ' := by
        intro hso him1 hrv hJ
        have hJ' : AgU J ss' (nextIter σ₁) := hJ
        have hv := eval_ag hJ' hm'' heJ
        by_cases htz : ss'.eval l e = 0
        · have off : (({ nextIter σ₁ with im := (nextIter σ₁).im.and ((nextIter σ₁).test e) } : St n)).im l
              = false := by
            simp [St.test, ← hv, htz]
          have hm3 : AgM ss' ({ nextIter σ₁ with im := (nextIter σ₁).im.and ((nextIter σ₁).test e) } : St n) l := hm'
          refine ⟨_, _, .doDone hx hso htz, hm3.stable lp2 off, ?_⟩
          exact LStatus.stable lp2 hfm off (fun _ => hdj) (by simp)
            (.norm (by simp) (hn.act l him1 hfm) hrv (hJ'.mono hD))
        · have on : (({ nextIter σ₁ with im := (nextIter σ₁).im.and ((nextIter σ₁).test e) } : St n)).im l = true := by
            simp [St.test, ← hv, htz, him1]
          split at h
          · obtain ⟨so3, ss3, hx3, hm3, hst3⟩ := ih _ _ _ hnn h l ss' on hfm (hJ'.mono hI) hm'
            rw [show (({ nextIter σ₁ with im := (nextIter σ₁).im.and ((nextIter σ₁).test e) } : St n)).rv l
              = σ.rv l from hrv] at hst3
            exact ⟨so3, ss3, .doStep hx hso htz hx3, hm3, hst3⟩
          · rename_i hany
            have := Mask.any_false (by simpa using hany) l
            simp only [full_apply] at this on
            rw [on, hfm] at this; cases this
      have offr : σ₁.im l = false → σ₁.cont l = false → (nextIter σ₁).im l = false := by
        intro a b; simp [nextIter, a, b]
      cases hst with
      | ret h' =>
        have hr1 : σ₁.ret l = true := by simpa [ho] using h'
        have off : σ₁.im l = false := by
          cases hx : σ₁.im l
          · rfl
          · rw [(p1.act l hx hfm).1] at hr1; cases hr1
        have off := offr off ((p1.excl l hfm).1 hr1).2
        exact ⟨_, _, .doRet hx, hm''.stable lp off,
          LStatus.stable (σ₁ := nextIter σ₁) (rv0 := σ.rv l) (D' := D') lp hfm off (fun _ => hdj) (by simp)
            (.ret (Or.inl hr1))⟩
      | brk a b' d f =>
        have off : σ₁.im l = false := by
          cases hx : σ₁.im l
          · rfl
          · rw [(p1.act l hx hfm).2.1] at b'; cases b'
        have hr0 : σ₁.ret l = false := by
          cases hr : σ₁.ret l
          · rfl
          · rw [((p1.excl l hfm).1 hr).1] at b'; cases b'
        have off := offr off ((p1.excl l hfm).2 b')
        exact ⟨_, _, .doBrk hx, hm''.stable lp off,
          LStatus.stable (σ₁ := nextIter σ₁) (rv0 := σ.rv l) (D' := D') lp hfm off (fun _ => hdj) (by simp)
            (.norm (by simp) hr0 d f)⟩
      | cont a b' d f => exact go (Or.inr rfl) (by simp [nextIter, b']) d f
      | act a b' d f => exact go (Or.inl rfl) (by simp [nextIter, b']) d f
      | actB a => exact absurd a ho'
      | actC a b' d f => exact go (Or.inr rfl) (by simp [nextIter, b']) d f

/-- Leaving a loop or switch. -/
theorem LFollows.wrap {P s u A D' B C} {c : Ctx n} {σ σ' : St n} {o l ss} (ho : o = .normal ∨ o = .ret)
    (lp : LP u A c { σ with brk := allOff, cont := allOff } o σ') (him : σ.im l = true) (hfm : c.fm l = true)
    (h : LFollows P s D' l ss (σ.rv l) o σ') :
    Follows P s B C D' l ss (σ.rv l) o (if u || o = .ret then { σ' with brk := σ.brk, cont := σ.cont }
      else restoreMask σ.im { σ' with brk := σ.brk, cont := σ.cont }) := by
  obtain ⟨so, ss', hx, hm, hst⟩ := h
  refine ⟨so, ss', hx, by split <;> exact hm, ?_⟩
  cases hst with
  | ret h =>
    split
    · exact Status.ret (σ' := { σ' with brk := σ.brk, cont := σ.cont }) h
    · exact Status.ret (σ' := restoreMask σ.im { σ' with brk := σ.brk, cont := σ.cont }) h
  | norm a b d f =>
    have hn : o = .normal := by rcases ho with h | h; exact h; exact absurd h a
    split
    · rename_i hc
      have hc : u = true := by simpa [a] using hc
      refine .act hn ?_ d f
      rcases lp.conv hc hn l him hfm with h | h
      · exact h
      · rw [b] at h; cases h
    · exact .act hn (by simp [restoreMask, him, b]) d f

/-! ### Sequencing -/

theorem Follows.seq {P s s₁ s₂ A₁ A₂ B C D₁ D'} {c : Ctx n} {σ σ₁ σ₂ o l ss rv0}
    (mkN : ∀ {l : Nat} {a b d o}, Exec P l s₁ a .normal b → Exec P l s₂ b o d → Exec P l s a o d)
    (mkJ : ∀ {l : Nat} {a b o}, Exec P l s₁ a o b → o ≠ .normal → Exec P l s a o b)
    (hfm : c.fm l = true) (p1 : Post A₁ c σ .normal σ₁) (p2 : Post A₂ c σ₁ o σ₂)
    (hd : ¬ nearestU c.cf → Disjoint B A₂ ∧ Disjoint C A₂)
    (h1 : Follows P s₁ B C D₁ l ss rv0 .normal σ₁)
    (h2 : ∀ ss', σ₁.im l = true → AgU D₁ ss' σ₁ → AgM ss' σ₁ l → Follows P s₂ B C D' l ss' (σ₁.rv l) o σ₂) :
    Follows P s B C D' l ss rv0 o σ₂ := by
  obtain ⟨so, ss', hx, hm, hst⟩ := h1
  by_cases hne : so = .normal
  · subst hne
    cases hst with
    | act a b d f =>
      obtain ⟨so2, ss2, hx2, hm2, hst2⟩ := h2 ss' b f hm
      rw [d] at hst2
      exact ⟨so2, ss2, mkN hx hx2, hm2, hst2⟩
  · have off := hst.off hne (fun h => p1.act l h hfm)
    have sd : Side A₂ c σ₁.im σ₁ o σ₂ := .of_post p2
    exact ⟨so, ss', mkJ hx hne, ⟨by rw [(sd.offm l off).2.2.2.2]; exact hm.1,
      by rw [(sd.offf l (Or.inl off)).1]; exact hm.2⟩,
      hst.stable sd off hfm (p1.excl l hfm) p1.nu hd hne⟩

/-! ### Switch -/

theorem sim_segsU {P : Prog} {A B C F} {c : Ctx n} {exec} {u : Bool}
    (hgood : ∀ s, (u = true → hasVBC 0 s = false) → s.assigned ⊆ A → Good A c (fun _ σ => exec s σ))
    (hsim : ∀ s, (u = true → hasVBC 0 s = false) → s.assigned ⊆ A → Wf s B C F F →
      Sim P s (fun _ σ => exec s σ) c B C F F)
    (hd : ¬ nearestU c.cf → Disjoint B A ∧ Disjoint C A) :
    ∀ rest σ o σ', rest.assigned ⊆ A → (u = true → hasVBC 0 rest = false) → Wf rest B C F F → Inv c σ →
    segsU exec rest σ = some (o, σ') → ∀ l ss, σ.im l = true → c.fm l = true → AgU F ss σ → AgM ss σ l →
    Follows P rest B C F l ss (σ.rv l) o σ' := by
  intro rest
  induction rest with
  | skip =>
    intro σ o σ' _ _ hw hi h l ss him hfm hu hm
    simp only [segsU, Option.some.injEq, Prod.mk.injEq] at h
    obtain ⟨rfl, rfl⟩ := h
    exact ⟨_, _, .skip, hm, .act rfl him rfl hu⟩
  | seg lab chk s r _ ihr =>
    intro σ o σ' hA hl hw hi h l ss him hfm hu hm
    have hA1 : s.assigned ⊆ A := fun x hx => hA (Or.inl hx)
    have hA2 : r.assigned ⊆ A := fun x hx => hA (Or.inr hx)
    have hl1 : u = true → hasVBC 0 s = false := fun hu => by have := hl hu; simp [hasVBC] at this; exact this.1
    have hl2 : u = true → hasVBC 0 r = false := fun hu => by have := hl hu; simp [hasVBC] at this; exact this.2
    simp only [segsU] at h
    rcases andThen_some h with ⟨h1, ho⟩ | ⟨σ₁, h1, h2⟩
    · obtain ⟨so, ss', hx, hm', hst⟩ := hsim s hl1 hA1 hw.1 _ _ _ hi h1 l ss him hfm hu hm
      refine ⟨so, ss', .segJ hx ?_, hm', hst⟩
      rintro rfl
      cases hst with
      | act a => exact ho a
    · have p1 := hgood s hl1 hA1 _ _ _ hi h1
      have i1 := hi.of_post p1 (by simp)
      have p2 := segsU_post hgood r _ _ _ hA2 hl2 i1 h2
      exact Follows.seq (s := .seg lab chk s r) .segN .segJ hfm p1 p2 hd
        (hsim s hl1 hA1 hw.1 _ _ _ hi h1 l ss him hfm hu hm)
        (fun ss' a b d => ihr _ _ _ hA2 hl2 hw.2 i1 h2 l ss' a hfm b d)
  | _ => intro σ o σ' _ _ _ _ h; simp [segsU] at h

/-- The chain from the first label that selects `v`. -/
def firstHit (cases : List Int) (v : Int) : Stmt → Option Stmt
  | .seg lab chk s r => if sel cases v lab then some (.seg lab chk s r) else firstHit cases v r
  | _ => none

theorem firstHit_none {cases v} : ∀ {s}, hit cases v s = false → firstHit cases v s = none := by
  intro s
  induction s with
  | seg lab chk s r _ ihr =>
    intro h
    simp only [hit, Bool.or_eq_false_iff] at h
    simp [firstHit, h.1, ihr h.2]
  | _ => intro _; rfl

theorem firstHit_case {cases v} (hv : v ∈ cases) : ∀ {s}, firstHit cases v s = findCase v s := by
  intro s
  induction s with
  | seg lab chk s r _ ihr =>
    cases lab with
    | none =>
      have : sel cases v none = false := by
        simp only [sel, List.all_eq_false]
        exact ⟨v, hv, by simp⟩
      simp [firstHit, findCase, this, ihr]
    | some w =>
      simp only [firstHit, sel, findCase, ihr, decide_eq_true_eq]
      by_cases h : v = w
      · simp [h]
      · have h' : ¬ w = v := fun e => h e.symm
        simp [h, h']
  | _ => rfl

theorem firstHit_default {cases v} (hv : v ∉ cases) : ∀ {s}, (∀ w ∈ caseVals s, w ∈ cases) →
    firstHit cases v s = findDefault s ∧ findCase v s = none := by
  intro s
  induction s with
  | seg lab chk s r _ ihr =>
    intro hs
    cases lab with
    | none =>
      have h0 : sel cases v none = true := by
        simp only [sel, List.all_eq_true]
        intro w hw
        simpa using fun e => hv (by rw [e]; exact hw)
      have := ihr hs
      simp [firstHit, h0, findDefault, findCase, this.2]
    | some w =>
      simp only [caseVals, List.mem_cons, forall_eq_or_imp] at hs
      have h' : ¬ w = v := fun e => hv (e ▸ hs.1)
      have h : ¬ v = w := fun e => h' e.symm
      have := ihr hs.2
      simp [firstHit, sel, findDefault, findCase, h, h', this]
  | _ => intro _; exact ⟨rfl, rfl⟩

theorem firstHit_eq (v s) : firstHit (caseVals s) v s = switchEntry v s := by
  unfold switchEntry
  by_cases hv : v ∈ caseVals s
  · rw [firstHit_case hv]
    have : (findCase v s).isSome = true := by
      induction s with
      | seg lab chk s r _ ihr =>
        cases lab with
        | none => exact ihr hv
        | some w =>
          simp only [caseVals, List.mem_cons] at hv
          simp only [findCase]
          split
          · rfl
          · rename_i hw
            rcases hv with h | h
            · exact absurd h.symm hw
            · exact ihr h
      | _ => simp [caseVals] at hv
    cases h : findCase v s
    · rw [h] at this; cases this
    · rfl
  · obtain ⟨a, b⟩ := firstHit_default hv (fun _ h => h)
    rw [a, b]

/-- Outcome of the body of a switch for one instance. -/
inductive SwSt (D' : Set Nat) (rv0 : Int) (o : Out) (σ' : St n) (l : Fin n) : SOut → SSt → Prop where
  | ret {ss'} : (σ'.ret l = true ∨ o = .ret) → SwSt D' rv0 o σ' l (.ret (σ'.rv l)) ss'
  | norm {so ss'} : (so = .normal ∨ so = .brk) → o ≠ .ret → σ'.ret l = false → σ'.rv l = rv0 → AgU D' ss' σ' →
      SwSt D' rv0 o σ' l so ss'

/-- An instance that is off and not selected by a later label is not touched. -/
theorem segsV_off {A} {entry : Mask n} {vals cases} {c : Ctx n} {exec} (hv : VSw entry c)
    (hgood : ∀ s, s.assigned ⊆ A → Good A c (fun _ σ => exec s σ)) {l : Fin n} :
    ∀ rest σ o σ', rest.assigned ⊆ A → ChainOk cases rest → SegInv entry vals cases c rest σ →
    segsV entry vals cases exec rest σ = some (o, σ') → σ.im l = false → hit cases (vals l) rest = false →
    σ'.im l = false ∧ σ'.ret l = σ.ret l ∧ σ'.rv l = σ.rv l ∧ σ'.loc l = σ.loc l ∧ σ'.ext l = σ.ext l := by
  intro rest
  induction rest with
  | skip =>
    intro σ o σ' _ _ hi h hoff _
    simp only [segsV, Option.some.injEq, Prod.mk.injEq] at h
    obtain ⟨rfl, rfl⟩ := h
    exact ⟨hoff, rfl, rfl, rfl, rfl⟩
  | seg lab chk s r _ ihr =>
    intro σ o σ' hA hok hi h hoff hh
    have hA1 : s.assigned ⊆ A := fun x hx => hA (Or.inl hx)
    have hA2 : r.assigned ⊆ A := fun x hx => hA (Or.inr hx)
    simp only [hit, Bool.or_eq_false_iff] at hh
    have hl := hi.label hv hok
    have hoffL : ({ σ with im := σ.im.or (labelMask entry vals cases lab) } : St n).im l = false := by
      simp [hoff, labelMask_eq, hh.1]
    simp only [segsV] at h
    split at h
    · exact ihr { σ with im := σ.im.or (labelMask entry vals cases lab) } _ _ hA2 hok.tail hl h hoffL hh.2
    · rcases andThen_some h with ⟨h1, ho⟩ | ⟨σ₁, h1, h2⟩
      · have p1 := hgood s hA1 _ _ _ hl.inv h1
        have q := p1.offm l hoffL
        exact ⟨p1.imoff hoffL, q.1, q.2.2.2.1, q.2.2.2.2, (p1.offf l (Or.inl hoffL)).1⟩
      · have p1 := hgood s hA1 _ _ _ hl.inv h1
        have q := p1.offm l hoffL
        have t := ihr _ _ _ hA2 hok.tail (hl.step p1) h2 (p1.imoff hoffL) hh.2
        exact ⟨t.1, t.2.1.trans q.1, t.2.2.1.trans q.2.2.2.1, t.2.2.2.1.trans q.2.2.2.2,
          t.2.2.2.2.trans (p1.offf l (Or.inl hoffL)).1⟩
  | _ => intro σ o σ' _ _ _ h; simp [segsV] at h

theorem sim_segsV {P : Prog} {A D' F} {entry : Mask n} {vals cases} {c₀ c : Ctx n} {exec} (hv : VSw entry c)
    (hfm0 : c.fm = c₀.fm)
    (hgood : ∀ s, s.assigned ⊆ A → Good A c (fun _ σ => exec s σ))
    (hsim : ∀ s, s.assigned ⊆ A → Wf s D' ∅ F F → Sim P s (fun _ σ => exec s σ) c D' ∅ F F)
    (hDF : D' ⊆ F) (hdj : Disjoint F A) {l : Fin n} (hent : entry l = true) (hfm : c.fm l = true) :
    ∀ rest σ o σ', rest.assigned ⊆ A → ChainOk cases rest → SegInv entry vals cases c rest σ →
    Wf rest D' ∅ F F → segsV entry vals cases exec rest σ = some (o, σ') → o ≠ .cont →
    ∀ ss, AgU F ss σ → AgM ss σ l →
      (σ.im l = true → ∃ so ss', Exec P l rest ss so ss' ∧ AgM ss' σ' l ∧ SwSt D' (σ.rv l) o σ' l so ss') ∧
      (hit cases (vals l) rest = true → ∃ ch so ss', firstHit cases (vals l) rest = some ch ∧
        Exec P l ch ss so ss' ∧ AgM ss' σ' l ∧ SwSt D' (σ.rv l) o σ' l so ss') := by
  intro rest
  induction rest with
  | skip =>
    intro σ o σ' _ _ hi _ h _ ss hu hm
    simp only [segsV, Option.some.injEq, Prod.mk.injEq] at h
    obtain ⟨rfl, rfl⟩ := h
    refine ⟨fun him => ?_, fun hh => by simp [hit] at hh⟩
    exact ⟨_, _, .skip, hm, .norm (Or.inl rfl) (by simp) (hi.inv.act l him hfm).1 rfl (hu.mono hDF)⟩
  | seg lab chk s r _ ihr =>
    intro σ o σ' hA hok hi hw h hoc ss hu hm
    have hA1 : s.assigned ⊆ A := fun x hx => hA (Or.inl hx)
    have hA2 : r.assigned ⊆ A := fun x hx => hA (Or.inr hx)
    have hl := hi.label hv hok
    -- the instance executes this segment
    have on : (σ.im.or (labelMask entry vals cases lab)) l = true →
        ∃ so ss', Exec P l (.seg lab chk s r) ss so ss' ∧ AgM ss' σ' l ∧ SwSt D' (σ.rv l) o σ' l so ss' := by
      intro him
      have hnh : hit cases (vals l) r = false := by
        cases hx : hit cases (vals l) r
        · rfl
        · have : (σ.im.or (labelMask entry vals cases lab)) l = false := (hl.fresh l hx hent hfm).1
          rw [him] at this; cases this
      simp only [segsV] at h
      split at h
      · rename_i hc
        simp only [Bool.and_eq_true, Bool.not_eq_true'] at hc
        have := Mask.any_false hc.2 l
        rw [him] at this; cases this
      · rcases andThen_some h with ⟨h1, ho⟩ | ⟨σ₁, h1, h2⟩
        · have p1 := hgood s hA1 _ _ _ hl.inv h1
          have hco := p1.hc hv.hc l
          obtain ⟨so, ss', hx, hm', hst⟩ := hsim s hA1 hw.1 _ _ _ hl.inv h1 l ss him hfm hu hm
          refine ⟨so, ss', .segJ hx ?_, hm', ?_⟩
          · rintro rfl
            cases hst with
            | act a => exact ho a
          · cases hst with
            | ret h => exact .ret h
            | brk a b d f =>
              refine .norm (Or.inr rfl) a ?_ d f
              cases hr : σ'.ret l
              · rfl
              · rw [((p1.excl l hfm).1 hr).1] at b; cases b
            | cont a b => rw [hco] at b; cases b
            | act a => exact absurd a ho
            | actB a b d f => exact .norm (Or.inr rfl) (by simp [a]) (p1.act l b hfm).1 d f
            | actC a => exact absurd a hoc
        · have p1 := hgood s hA1 _ _ _ hl.inv h1
          have hco := p1.hc hv.hc l
          obtain ⟨so, ss', hx, hm', hst⟩ := hsim s hA1 hw.1 _ _ _ hl.inv h1 l ss him hfm hu hm
          have post := segsV_post (c₀ := c₀) hv hfm0 hgood r _ _ _ hA2 hok.tail (hl.step p1) h2
          by_cases hne : so = .normal
          · subst hne
            cases hst with
            | act a b d f =>
              obtain ⟨so2, ss2, hx2, hm2, hst2⟩ := (ihr _ _ _ hA2 hok.tail (hl.step p1) hw.2 h2 hoc ss' f hm').1 b
              rw [d] at hst2
              exact ⟨so2, ss2, .segN hx hx2, hm2, hst2⟩
          · have off := hst.off hne (fun h => p1.act l h hfm)
            obtain ⟨t1, t2, t3, t4, t5⟩ := segsV_off hv hgood r _ _ _ hA2 hok.tail (hl.step p1) h2 off hnh
            refine ⟨so, ss', .segJ hx hne, ⟨by rw [t4]; exact hm'.1, by rw [t5]; exact hm'.2⟩, ?_⟩
            cases hst with
            | ret h => rw [← t3]; exact .ret (Or.inl (by rw [t2]; simpa using h))
            | brk a b d f =>
              have hr : σ₁.ret l = false := by
                cases hr : σ₁.ret l
                · rfl
                · rw [((p1.excl l hfm).1 hr).1] at b; cases b
              refine .norm (Or.inr rfl) ?_ (t2.trans hr) (t3.trans d) ?_
              · rintro rfl
                rcases post.retn rfl l (by rw [← hfm0]; exact hfm) with h | h
                · rw [t1] at h; cases h
                · rw [t2, hr] at h; cases h
              · exact f.frame post.frame (hdj.mono_left hDF)
            | cont a b => rw [hco] at b; cases b
            | act => exact absurd rfl hne
            | actB a => cases a
            | actC a => cases a
    refine ⟨fun him => on (by simp [him]), fun hh => ?_⟩
    cases hs : sel cases (vals l) lab with
    | true =>
      obtain ⟨so, ss', r1, r2, r3⟩ := on (by simp [labelMask_eq, hent, hs])
      exact ⟨_, so, ss', by simp [firstHit, hs], r1, r2, r3⟩
    | false =>
      -- not this label: wait for a later one
      have hr : hit cases (vals l) r = true := by simpa [hit, hs] using hh
      have hfh : firstHit cases (vals l) (.seg lab chk s r) = firstHit cases (vals l) r := by simp [firstHit, hs]
      rw [hfh]
      obtain ⟨f1, f2, f3⟩ := hl.fresh l hr hent hfm
      simp only [segsV] at h
      split at h
      · exact (ihr { σ with im := σ.im.or (labelMask entry vals cases lab) } _ _ hA2 hok.tail hl hw.2 h hoc ss hu hm).2 hr
      · rcases andThen_some h with ⟨h1, ho⟩ | ⟨σ₁, h1, h2⟩
        · exfalso
          have p1 := hgood s hA1 _ _ _ hl.inv h1
          obtain ⟨q1, q2, q3, q4, q5⟩ := p1.offm l f1
          have him' := p1.imoff f1
          have hco := p1.hc hv.hc l
          have hbem : c.bem l = true := by rw [hv.bem]; simp [hent, hfm]
          have hr' : σ'.ret l = false := q1.trans f2
          have hb' : σ'.brk l = false := q2.trans f3
          cases o with
          | normal => exact ho rfl
          | brk =>
            rcases p1.jump (Or.inl rfl) l hbem with h | h
            · rw [him'] at h; cases h
            · simp [St.flag, hr', hb', hco] at h
          | cont => exact hoc rfl
          | ret =>
            rcases p1.retn rfl l hfm with h | h
            · rw [him'] at h; cases h
            · rw [hr'] at h; cases h
        · have p1 := hgood s hA1 _ _ _ hl.inv h1
          obtain ⟨q1, q2, q3, q4, q5⟩ := p1.offm l f1
          have hu1 : AgU F ss σ₁ := AgU.frame (σ := σ) hu p1.frame hdj
          have hm1 : AgM ss σ₁ l := ⟨by rw [q5]; exact hm.1, by rw [(p1.offf l (Or.inl f1)).1]; exact hm.2⟩
          have := (ihr _ _ _ hA2 hok.tail (hl.step p1) hw.2 h2 hoc ss hu1 hm1).2 hr
          rw [q4] at this
          exact this
  | _ => intro σ o σ' _ _ _ _ h; simp [segsV] at h

theorem Wf.findCase {B C D D' v} : ∀ {s t}, findCase v s = some t → Wf s B C D D' → Wf t B C D D' := by
  intro s
  induction s with
  | seg lab chk s r _ ihr =>
    intro t h hw
    cases lab with
    | none => exact ihr h hw.2
    | some w =>
      simp only [Ispc.Spmd.findCase] at h
      split at h
      · simp only [Option.some.injEq] at h; subst h; exact hw
      · exact ihr h hw.2
  | _ => intro t h; simp [Ispc.Spmd.findCase] at h

theorem Wf.findDefault {B C D D'} : ∀ {s t}, findDefault s = some t → Wf s B C D D' → Wf t B C D D' := by
  intro s
  induction s with
  | seg lab chk s r _ ihr =>
    intro t h hw
    cases lab with
    | none => simp only [Ispc.Spmd.findDefault, Option.some.injEq] at h; subst h; exact hw
    | some w => exact ihr h hw.2
  | _ => intro t h; simp [Ispc.Spmd.findDefault] at h

theorem Wf.switchEntry {B C D D' v s t} (h : switchEntry v s = some t) (hw : Wf s B C D D') : Wf t B C D D' := by
  unfold Ispc.Spmd.switchEntry at h
  split at h
  · simp only [Option.some.injEq] at h; subst h; rename_i h; exact hw.findCase h
  · exact hw.findDefault h

/-! ### All statements -/

theorem sim_all {P : Prog} (hP : WfProg P) : ∀ k s (c : Ctx n) B C D D', CtxOk c → Legal c.cf s → Wf s B C D D' →
    (¬ nearestU c.cf → Disjoint B s.assigned ∧ Disjoint C s.assigned) → Sim P s (run P k s) c B C D D' := by
  intro k
  induction k with
  | zero => intro s c B C D D' _ _ _ _ σ o σ' _ h; simp [run] at h
  | succ k ih =>
    intro s c B C D D' hk hl hw hd σ o σ' hi h l ss him hfm hu hm
    have hgood : ∀ s (c : Ctx n), CtxOk c → Legal c.cf s → Good s.assigned c (run P k s) := post_all k
    cases s with
    | skip =>
      simp only [run, Option.some.injEq, Prod.mk.injEq] at h
      obtain ⟨rfl, rfl⟩ := h
      exact ⟨_, _, .skip, hm, .act rfl him rfl (hu.mono hw)⟩
    | uassign x e =>
      simp only [run, Option.some.injEq, Prod.mk.injEq] at h
      obtain ⟨rfl, rfl⟩ := h
      obtain ⟨w1, w2, w3⟩ := hw
      refine ⟨_, _, .uassign, hm, .act rfl him rfl ?_⟩
      intro y hy
      simp only [upd1]
      split
      · exact evalU_ag hu w1 w2
      · rename_i hne
        rcases w3 hy with h | h
        · exact absurd h hne
        · exact hu y h
    | vassign b a i e => exact sim_vassign hw.1 hw.2.1 hw.2.2 σ o σ' hi h l ss him hfm hu hm
    | seq s₁ s₂ =>
      obtain ⟨D₁, w1, w2⟩ := hw
      have hd1 : ¬ nearestU c.cf → Disjoint B s₁.assigned ∧ Disjoint C s₁.assigned := fun hn =>
        ⟨(hd hn).1.mono_right (fun x hx => Or.inl hx), (hd hn).2.mono_right (fun x hx => Or.inl hx)⟩
      have hd2 : ¬ nearestU c.cf → Disjoint B s₂.assigned ∧ Disjoint C s₂.assigned := fun hn =>
        ⟨(hd hn).1.mono_right (fun x hx => Or.inr hx), (hd hn).2.mono_right (fun x hx => Or.inr hx)⟩
      simp only [run] at h
      rcases andThen_some h with ⟨h1, ho⟩ | ⟨σ₁, h1, h2⟩
      · obtain ⟨so, ss', hx, hm', hst⟩ := ih s₁ c B C D D₁ hk hl.left w1 hd1 _ _ _ hi h1 l ss him hfm hu hm
        refine ⟨so, ss', .seqJ hx ?_, hm', ?_⟩
        · rintro rfl
          cases hst with
          | act a => exact ho a
        · cases hst with
          | ret h => exact .ret h
          | brk a b d f => exact .brk a b d f
          | cont a b d f => exact .cont a b d f
          | act a => exact absurd a ho
          | actB a b d f => exact .actB a b d f
          | actC a b d f => exact .actC a b d f
      · have p1 := hgood s₁ c hk hl.left _ _ _ hi h1
        have i1 := hi.of_post p1 (by simp)
        have p2 := hgood s₂ c hk hl.right _ _ _ i1 h2
        exact Follows.seq (s := .seq s₁ s₂) .seqN .seqJ hfm p1 p2 hd2
          (ih s₁ c B C D D₁ hk hl.left w1 hd1 _ _ _ hi h1 l ss him hfm hu hm)
          (fun ss' a b d => ih s₂ c B C D₁ D' hk hl.right w2 hd2 _ _ _ i1 h2 l ss' a hfm b d)
    | ite e coh pred s₁ s₂ =>
      obtain ⟨we, hw⟩ := hw
      have hd1 : ¬ nearestU c.cf → Disjoint B s₁.assigned ∧ Disjoint C s₁.assigned := fun hn =>
        ⟨(hd hn).1.mono_right (fun x hx => Or.inl hx), (hd hn).2.mono_right (fun x hx => Or.inl hx)⟩
      have hd2 : ¬ nearestU c.cf → Disjoint B s₂.assigned ∧ Disjoint C s₂.assigned := fun hn =>
        ⟨(hd hn).1.mono_right (fun x hx => Or.inr hx), (hd hn).2.mono_right (fun x hx => Or.inr hx)⟩
      simp only [run] at h
      rcases hw with ⟨he, w1, w2⟩ | ⟨he, D₁, D₂, w1, w2, w3, w4, w5⟩
      · rw [if_pos he] at h
        have hv := evalU_ag (l := l) hu he we
        have hi' : Inv (c.pushIf true) σ :=
          ⟨hi.bemfm, hi.act, fun hp => hi.pos ⟨by simpa [Ctx.pushIf, vifs] using hp.1, hp.2⟩,
            fun hd => hi.d0 (by simpa [Ctx.pushIf, vdepth] using hd), hi.nu, hi.hc, hi.hb, hi.excl⟩
        split at h
        · rename_i ht
          obtain ⟨so, ss', hx, hm', hst⟩ := ih s₁ (c.pushIf true) B C D D' (hk.pushIf true) (hl.ifU he).1 w1 hd1
            _ _ _ hi' h l ss him hfm hu hm
          exact ⟨so, ss', .iteT (by rw [hv]; exact ht) hx, hm', hst⟩
        · rename_i ht
          obtain ⟨so, ss', hx, hm', hst⟩ := ih s₂ (c.pushIf true) B C D D' (hk.pushIf true) (hl.ifU he).2 w2 hd2
            _ _ _ hi' h l ss him hfm hu hm
          exact ⟨so, ss', .iteF (by rw [hv]; simpa using ht) hx, hm', hst⟩
      · rw [if_neg (by simp [he])] at h
        exact sim_varyingIf we (hgood s₁ _ (hk.pushIf false) (hl.ifV he).1) (hgood s₂ _ (hk.pushIf false) (hl.ifV he).2)
          (ih s₁ (c.pushIf false) B C D D₁ (hk.pushIf false) (hl.ifV he).1 w1 hd1)
          (ih s₂ (c.pushIf false) B C _ D₂ (hk.pushIf false) (hl.ifV he).2 w2 hd2) w3 w4 w5 hd
          σ o σ' hi h l ss him hfm hu hm
    | loop e coh step body =>
      obtain ⟨I, J, w1, w2, w3, w4, w5, w6⟩ := hw
      simp only [run] at h
      split at h
      · cases h
      rename_i hsim
      have hsim : isSimple step = true := by simpa using hsim
      have gb : ∀ u m, (u = true → hasVBC 0 body = false) →
          Good (step.assigned ∪ body.assigned) (c.pushLoop u m) (run P k body) := fun u m hu σ o σ' hi h =>
        (hgood body _ (.pushLoop c u m) (.loop c hu) σ o σ' hi h).weaken (fun x hx => Or.inr hx)
      have gs : ∀ u m, Good (step.assigned ∪ body.assigned) (c.pushLoop u m) (run P k step) := fun u m σ o σ' hi h =>
        (hgood step _ (.pushLoop c u m) (.loop c (fun _ => simple_hasVBC hsim)) σ o σ' hi h).weaken
          (fun x hx => Or.inl hx)
      have ss_ : ∀ u m, Sim P step (run P k step) (c.pushLoop u m) ∅ ∅ J I := fun u m =>
        ih step _ ∅ ∅ J I (.pushLoop c u m) (.loop c (fun _ => simple_hasVBC hsim)) w4
          (fun _ => ⟨Set.empty_disjoint _, Set.empty_disjoint _⟩)
      have hq : ∀ (c : Ctx n) σ o σ', run P k step c σ = some (o, σ') → o = .normal ∧ σ'.im = σ.im ∧ σ'.ret = σ.ret ∧
          σ'.brk = σ.brk ∧ σ'.cont = σ.cont ∧ σ'.rv = σ.rv := fun c σ o σ' h => simple_run k step c σ o σ' hsim h
      split at h
      · rename_i hun
        have hun : e.isUniform = true ∧ hasVBC 0 body = false := by simpa [loopUnif] using hun
        obtain ⟨o', σ₁, h1, rfl, rfl⟩ := wrapLoop_some h
        have sb : ∀ m, Sim P body (run P k body) (c.pushLoop true m) D' J I J := fun m =>
          ih body _ D' J I J (.pushLoop c true m) (.loop c (fun _ => hun.2)) w3
            (fun hn => absurd (fun x hx => by simp [Ctx.pushLoop, nearest] at hx; subst hx; rfl) hn)
        have lp := forU_post (fun m => gb true m (fun _ => hun.2)) (gs true) k _ _ _ (Head.of_inv true hi) h1
        exact LFollows.wrap (forU_out h1) lp him hfm
          (sim_forU hun.1 w2 w5 (fun m => gb true m (fun _ => hun.2)) (gs true) sb (ss_ true) hq k _ _ _
            (Head.of_inv true hi) h1 l ss him hfm (hu.mono w1) hm)
      · rename_i hun
        have hun : loopUnif e body = false := by simpa using hun
        obtain ⟨d1, d2, d3, d4⟩ := w6 hun
        obtain ⟨o', σ₁, h1, rfl, rfl⟩ := wrapLoop_some h
        have sb : ∀ m, Sim P body (run P k body) (c.pushLoop false m) D' J I J := fun m =>
          ih body _ D' J I J (.pushLoop c false m) (.loop c (fun h => by cases h)) w3 (fun _ => ⟨d1, d3⟩)
        have hj : ∀ m (σ σ' : St n), run P k body (c.pushLoop false m) σ = some (.brk, σ') → σ'.cont = σ.cont := by
          intro m σ σ' h
          have hjb := (brk_jump k body _ false σ σ' (.pushLoop c false m) rfl h).2
          exact cont_unch k body _ false σ _ σ' rfl (by
            cases hx : varCont 0 body
            · exact hx
            · exact absurd ⟨hjb, hx⟩ d4) h
        have lp := forV_post (fun m => gb false m (fun h => by cases h)) (gs false)
          (fun c σ o σ' h => ⟨(hq c σ o σ' h).2.2.2.1, (hq c σ o σ' h).2.2.2.2.1⟩)
          k _ _ _ (Head.of_inv false hi) h1
        exact LFollows.wrap (forV_out h1) lp him hfm
          (sim_forV w2 w5 (Set.disjoint_union_right.2 ⟨d2, d1⟩) (fun m => gb false m (fun h => by cases h)) (gs false) sb
            (ss_ false) hq hj k _ _ _ (Head.of_inv false hi) h1 l ss him hfm (hu.mono w1) hm)
    | doloop body e coh =>
      obtain ⟨I, J, w1, w2, w3, w4, w5, w6⟩ := hw
      simp only [run] at h
      have gb : ∀ u m, (u = true → hasVBC 0 body = false) →
          Good body.assigned (c.pushLoop u m) (run P k body) := fun u m hu σ o σ' hi h =>
        (hgood body _ (.pushLoop c u m) (.loop c hu) σ o σ' hi h)
      split at h
      · rename_i hun
        have hun : e.isUniform = true ∧ hasVBC 0 body = false := by simpa [loopUnif] using hun
        obtain ⟨o', σ₁, h1, rfl, rfl⟩ := wrapLoop_some h
        have sb : ∀ m, Sim P body (run P k body) (c.pushLoop true m) D' J I J := fun m =>
          ih body _ D' J I J (.pushLoop c true m) (.loop c (fun _ => hun.2)) w3
            (fun hn => absurd (fun x hx => by simp [Ctx.pushLoop, nearest] at hx; subst hx; rfl) hn)
        have lp := doU_post (fun m => gb true m (fun _ => hun.2)) k _ _ _ (Head.of_inv true hi) h1
        exact LFollows.wrap (doU_out h1) lp him hfm
          (sim_doU hun.1 w2 w4 w5 (fun m => gb true m (fun _ => hun.2)) sb k _ _ _
            (Head.of_inv true hi) h1 l ss him hfm (hu.mono w1) hm)
      · rename_i hun
        have hun : loopUnif e body = false := by simpa using hun
        obtain ⟨d1, d3, d4⟩ := w6 hun
        obtain ⟨o', σ₁, h1, rfl, rfl⟩ := wrapLoop_some h
        have sb : ∀ m, Sim P body (run P k body) (c.pushLoop false m) D' J I J := fun m =>
          ih body _ D' J I J (.pushLoop c false m) (.loop c (fun h => by cases h)) w3 (fun _ => ⟨d1, d3⟩)
        have hj : ∀ m (σ σ' : St n), run P k body (c.pushLoop false m) σ = some (.brk, σ') → σ'.cont = σ.cont := by
          intro m σ σ' h
          have hjb := (brk_jump k body _ false σ σ' (.pushLoop c false m) rfl h).2
          exact cont_unch k body _ false σ _ σ' rfl (by
            cases hx : varCont 0 body
            · exact hx
            · exact absurd ⟨hjb, hx⟩ d4) h
        have lp := doV_post (fun m => gb false m (fun h => by cases h)) k _ _ _ (Head.of_inv false hi) h1
        exact LFollows.wrap (doV_out h1) lp him hfm
          (sim_doV w2 w4 w5 d1 (fun m => gb false m (fun h => by cases h)) sb hj k _ _ _
            (Head.of_inv false hi) h1 l ss him hfm (hu.mono w1) hm)
    | brk => exact sim_break hw σ o σ' hi h l ss him hfm hu hm
    | cont => exact sim_continue hw σ o σ' hi h l ss him hfm hu hm
    | ret e => exact sim_return hw σ o σ' hi h l ss him hfm hu hm
    | switch e body =>
      obtain ⟨we, F, w1, w2, w3, w4⟩ := hw
      simp only [run] at h
      split at h
      · rename_i hok
        simp only [switchOk, Bool.and_eq_true, decide_eq_true_eq] at hok
        obtain ⟨r, hr, h⟩ := doSwitch_some h
        have hr0 := hr
        have hrc : r.1 ≠ .cont := by
          rcases h with ⟨h1, _⟩ | ⟨_, h1, _⟩
          · rw [h1]; simp
          · exact h1
        have key : LP (e.isUniform && !hasVBC 0 body) body.assigned c { σ with brk := allOff, cont := allOff }
            (swOut r.1) r.2 ∧ LFollows P (.switch e body) D' l ss (σ.rv l) (swOut r.1) r.2 := by
          split at hr
          · rename_i he
            simp only [he, Bool.true_and] at hr ⊢
            have hv := evalU_ag (l := l) hu he we
            have ii := hi.pushSwitchU (!hasVBC 0 body)
            split at hr
            · rename_i hse
              simp only [Option.some.injEq] at hr
              subst hr
              refine ⟨LP.of_switchU (.refl ii) ii, _, _, .switchNone (by rw [hv]; exact hse), hm, ?_⟩
              exact .norm (by simp [swOut]) (hi.act l him hfm).1 rfl (hu.mono (w2.trans w1))
            · rename_i ch hch
              have hsub := switchEntry_sub hch
              have hg : ∀ s, ((!hasVBC 0 body) = true → hasVBC 0 s = false) → s.assigned ⊆ body.assigned →
                  Good body.assigned (c.pushSwitch (!hasVBC 0 body) true (full c σ))
                    (fun _ σ' => run P k s (c.pushSwitch (!hasVBC 0 body) true (full c σ)) σ') :=
                fun s hu hA σ o σ' hi h =>
                  (hgood s _ (.pushSwitch c _ _ _ (fun _ => rfl)) (.switch c hu) _ _ _ hi h).weaken hA
              have p := segsU_post (u := !hasVBC 0 body) hg ch _ _ _ hsub.1
                (fun hu => hsub.2.1 (by simpa using hu)) ii hr
              have lp := LP.of_switchU p ii
              refine ⟨lp, ?_⟩
              have hdF : ¬ nearestU (c.pushSwitch (!hasVBC 0 body) true (full c σ)).cf → Disjoint F body.assigned := by
                intro hn
                apply w4
                cases hx : hasVBC 0 body
                · refine absurd (fun x hx' => ?_) hn
                  simp only [Ctx.pushSwitch, nearest, Option.some.injEq] at hx'
                  subst hx'; simp [hx]
                · simp
              obtain ⟨so, ss', hx, hm', hst⟩ := sim_segsU (P := P) (B := D') (C := ∅) (F := F) hg
                (fun s hu hA hw => ih s _ D' ∅ F F (.pushSwitch c _ _ _ (fun _ => rfl)) (.switch c hu) hw
                  (fun hn => ⟨((hdF hn).mono_left w2).mono_right hA, Set.empty_disjoint _⟩))
                (fun hn => ⟨(hdF hn).mono_left w2, Set.empty_disjoint _⟩)
                ch _ _ _ hsub.1 (fun hu => hsub.2.1 (by simpa using hu)) (w3.switchEntry hch) ii hr l ss him hfm
                (hu.mono w1) hm
              have hse : switchEntry (ss.eval l e) body = some ch := by rw [hv]; exact hch
              have hcd := p.hc rfl l
              have hsw : ∀ {o : Out}, o ≠ .ret → swOut o ≠ .ret := by intro o; cases o <;> simp [swOut]
              have hex := p.excl l hfm
              have hact := fun h => p.act l h hfm
              generalize r.1 = ro at *
              generalize r.2 = rs at *
              cases hst with
              | ret h =>
                refine ⟨_, _, .switchOther hse hx (by simp), hm', .ret ?_⟩
                rcases h with h | h
                · exact Or.inl h
                · right; rw [h]; rfl
              | brk a b d f =>
                refine ⟨_, _, .switchBrk hse hx, hm', .norm (hsw a) ?_ d f⟩
                cases hr : rs.ret l
                · rfl
                · rw [(hex.1 hr).1] at b; cases b
              | cont a b => rw [hcd] at b; cases b
              | act a b d f =>
                exact ⟨_, _, .switchOther hse hx (by simp), hm', .norm (hsw (by simp [a])) (hact b).1 d (f.mono w2)⟩
              | actB a b d f => exact ⟨_, _, .switchBrk hse hx, hm', .norm (hsw (by simp [a])) (hact b).1 d f⟩
              | actC a => exact absurd a hrc
          · rename_i he
            have he : e.isUniform = false := by simpa using he
            simp only [he, Bool.false_and] at hr ⊢
            have hv := eval_ag hu hm we
            have hg : ∀ s, s.assigned ⊆ body.assigned → Good body.assigned (c.pushSwitch false false (full c σ))
                (fun _ σ' => run P k s (c.pushSwitch false false (full c σ)) σ') :=
              fun s hA σ o σ' hi h =>
                (hgood s _ (.pushSwitch c _ _ _ (fun h => by cases h)) (.switch c (fun h => by cases h))
                  _ _ _ hi h).weaken hA
            have hco : ChainOk (caseVals body) body := ⟨hok.1.2, fun _ h => h, hok.2⟩
            have si := SegInv.init hi (fun l => σ.eval e l) (caseVals body) body
            have lp := segsV_post (c₀ := c) (VSw.push c σ) rfl hg body _ _ _ (fun _ h => h) hco si hr
            refine ⟨lp, ?_⟩
            have hdF : Disjoint F body.assigned := w4 (by simp [he])
            have hsims : ∀ s, s.assigned ⊆ body.assigned → Wf s D' ∅ F F →
                Sim P s (fun _ σ' => run P k s (c.pushSwitch false false (full c σ)) σ')
                  (c.pushSwitch false false (full c σ)) D' ∅ F F := fun s hA hw =>
              ih s _ D' ∅ F F (.pushSwitch c _ _ _ (fun h => by cases h)) (.switch c (fun h => by cases h)) hw
                (fun _ => ⟨(hdF.mono_left w2).mono_right hA, Set.empty_disjoint _⟩)
            cases hh : hit (caseVals body) (σ.eval e l) body with
            | false =>
              have hse : switchEntry (ss.eval l e) body = none := by
                rw [hv, ← firstHit_eq, firstHit_none hh]
              obtain ⟨t1, t2, t3, t4, t5⟩ := segsV_off (VSw.push c σ) hg body _ _ _ (fun _ h => h) hco si hr
                (l := l) rfl hh
              refine ⟨_, _, .switchNone hse, ⟨by rw [t4]; exact hm.1, by rw [t5]; exact hm.2⟩, ?_⟩
              have hr2 : r.2.ret l = false := t2.trans (hi.act l him hfm).1
              refine .norm ?_ hr2 t3 ((hu.mono (w2.trans w1)).frame lp.frame (hdF.mono_left w2))
              intro ho
              rcases lp.retn ho l hfm with h | h
              · rw [t1] at h; cases h
              · rw [hr2] at h; cases h
            | true =>
              obtain ⟨ch, so, ss', hfh, hx, hm', hst⟩ := (sim_segsV (c₀ := c) (VSw.push c σ) rfl hg hsims w2 hdF (l := l)
                him hfm body _ _ _ (fun _ h => h) hco si w3 hr hrc ss (hu.mono w1) hm).2 hh
              have hse : switchEntry (ss.eval l e) body = some ch := by rw [hv, ← firstHit_eq]; exact hfh
              have hsw : ∀ {o : Out}, o ≠ .ret → swOut o ≠ .ret := by intro o; cases o <;> simp [swOut]
              generalize r.1 = ro at *
              generalize r.2 = rs at *
              cases hst with
              | ret h =>
                refine ⟨_, _, .switchOther hse hx (by simp), hm', .ret ?_⟩
                rcases h with h | h
                · exact Or.inl h
                · right; rw [h]; rfl
              | norm a b d f g =>
                rcases a with rfl | rfl
                · exact ⟨_, _, .switchOther hse hx (by simp), hm', .norm (hsw b) d f g⟩
                · exact ⟨_, _, .switchBrk hse hx, hm', .norm (hsw b) d f g⟩
        have hwp := LFollows.wrap (B := B) (C := C) (by cases r.1 <;> simp [swOut]) key.1 him hfm key.2
        rcases h with ⟨h1, rfl, rfl⟩ | ⟨h1, h2, rfl, rfl⟩
        · rw [h1] at hwp
          simpa [swOut] using hwp
        · have e1 : swOut r.1 = .normal := by cases hx : r.1 <;> simp_all [swOut]
          rw [e1] at hwp
          simpa using hwp
      · cases h
    | seg lab chk s r => simp [run] at h
    | call dst f us vs =>
      obtain ⟨w1, w2, w3⟩ := hw
      simp only [run, funcBody_eq] at h
      have ice : Inv (enterCtx (full c σ)) (enterSt σ us vs) :=
        ⟨fun _ h => h, fun l _ h2 => ⟨rfl, rfl, rfl, h2⟩, fun _ _ _ => Or.inl rfl, fun _ _ _ => Or.inl rfl,
          fun _ _ => ⟨rfl, rfl⟩, fun _ _ => rfl, fun _ _ => rfl, fun _ _ => by simp [enterSt]⟩
      have hen : nearestU (enterCtx (full c σ)).cf := fun x hx => by simp [enterCtx, nearest] at hx
      have fin : ∀ {o' σ'}, run P k (P f).body (enterCtx (full c σ)) (enterSt σ us vs) = some (o', σ') →
          (o' = .normal ∨ o' = .ret) →
          Follows P (.call dst f us vs) B C D' l ss (σ.rv l) .normal { σ with
            ext := σ'.ext
            loc := fun l => if σ.im l then upd2 (σ.loc l) dst 0 (σ'.rv l) else σ.loc l } := by
        intro o' σ' h1 ho
        have eu : us.map (fun e => ss.eval l e) = us.map (fun e => σ.evalU e) :=
          List.map_congr_left fun e he => evalU_ag hu (w1 e he).1 (w1 e he).2
        have ev : vs.map (fun e => ss.eval l e) = vs.map (fun e => σ.eval e l) :=
          List.map_congr_left fun e he => eval_ag hu hm (w2 e he)
        have p := hgood (P f).body _ (.enter _) (.none rfl) _ _ _ ice h1
        have hnu := p.nu hen l
        obtain ⟨so, ss', hx, hm', hst⟩ := ih (P f).body _ ∅ ∅ Set.univ ∅ (.enter _) (.none rfl) (hP f)
          (fun h => absurd hen h) _ _ _ ice h1 l (ss.enter l us vs) rfl (by simp [enterCtx, him, hfm])
          (fun x _ => by simp only [SSt.enter, enterSt, eu])
          ⟨by simp only [SSt.enter, enterSt, ev], hm.2⟩
        have res : so.result = some (σ'.rv l) := by
          cases hst with
          | ret h => rfl
          | brk a b => rw [hnu.1] at b; cases b
          | cont a b => rw [hnu.2] at b; cases b
          | act a b d => rw [d]; rfl
          | actB a => subst a; simp at ho
          | actC a => subst a; simp at ho
        refine ⟨_, _, .call hx res, ⟨by simp [him, hm.1], hm'.2⟩, .act rfl him rfl (hu.mono w3)⟩
      split at h
      · simp only [Option.some.injEq, Prod.mk.injEq] at h
        obtain ⟨rfl, rfl⟩ := h
        rename_i h1
        exact fin h1 (Or.inl rfl)
      · simp only [Option.some.injEq, Prod.mk.injEq] at h
        obtain ⟨rfl, rfl⟩ := h
        rename_i h1
        exact fin h1 (Or.inr rfl)
      · cases h

end Ispc.Spmd
