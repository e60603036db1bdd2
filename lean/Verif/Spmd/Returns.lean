import Verif.Spmd.Terminate

/-!
# The gang returns when its instances do  (helper lemmas for C01)
-/

namespace Ispc.Spmd

variable {n : Nat}

/-- Every running instance ends `s` when it runs alone, by an execution of height at most `N`. -/
def Lanes (P : Prog) (N : Nat) (s : Stmt) (D : Set Nat) (c : Ctx n) (σ : St n) : Prop :=
  ∀ l, σ.im l = true → c.fm l = true → ∃ ss o ss', AgU D ss σ ∧ AgM ss σ l ∧ ExecN P l N s ss o ss'

theorem Lanes.mono {P : Prog} {N N' s D D'} {c : Ctx n} {σ} (h : Lanes P N s D c σ) (hN : N ≤ N') (hD : D' ⊆ D) :
    Lanes P N' s D' c σ := fun l a b => by
  obtain ⟨ss, o, ss', x, y, z⟩ := h l a b
  exact ⟨ss, o, ss', x.mono hD, y, z.mono hN⟩

theorem Awake.unret {c : Ctx n} {σ} (hi : Inv c σ) (h : Awake c σ) : Unret c σ := by
  obtain ⟨l, a, b⟩ := h
  exact ⟨l, b, (hi.act l a b).1⟩

theorem awake_of_unret {c : Ctx n} {σ} (hi : Inv c σ) (hd : vdepth c.cf = 0) (h : Unret c σ) : Awake c σ := by
  obtain ⟨l, a, b⟩ := h
  rcases hi.d0 hd l a with h | h
  · exact ⟨l, h, a⟩
  · rw [b] at h; cases h

/-- Some instance is still running after a statement that is not left by a jump. -/
theorem awake_after {P : Prog} {k s} {c : Ctx n} {σ σ₁} {top : Bool} (hk : CtxOk c) (hl : Legal c.cf s) (hi : Inv c σ)
    (hr : RetIn c σ) (hw : Awake c σ) (ht : top = true → vdepth c.cf = 0) (hs : top = true ∨ stops s = false)
    (h : run P k s c σ = some (.normal, σ₁)) : Awake c σ₁ := by
  have p := post_all k s c hk hl _ _ _ hi h
  rcases hs with hs | hs
  · exact awake_of_unret (hi.of_post p (by simp)) (ht hs) ((run_fl _ _ _ _ _ _ h).unr hr (hw.unret hi) (by simp))
  · obtain ⟨l, a, b⟩ := hw
    simp only [stops, Bool.or_eq_false_iff] at hs
    have h1 := ((run_fl _ _ _ _ _ _ h).ret hs.1).1
    have h2 := (run_jl _ _ _ _ _ _ h).2.2 hs.2
    refine ⟨l, ?_, b⟩
    rcases p.conv rfl l a b with h | h
    · exact h
    · obtain ⟨a1, a2, a3, _⟩ := hi.act l a b
      simp only [St.flag, h1, h2.1, h2.2.1, a1, a2, a3] at h
      simp at h

/-- The same for the body of a uniform loop. -/
theorem awake_body {P : Prog} {A k b o} {c : Ctx n} {σ σ₁} {top : Bool} (hh : Head true c σ)
    (p : Post A (c.pushLoop true (full c σ)) σ o σ₁)
    (hr : RetIn c σ) (hw : Awake c σ) (ht : top = true → vdepth c.cf = 0) (hs : top = true ∨ hasRet b = false)
    (ho : o ≠ .ret) (h : run P k b (c.pushLoop true (full c σ)) σ = some (o, σ₁)) : Awake c σ₁ := by
  have hi := hh.inv
  rcases hs with hs | hs
  · have hw' : Awake (c.pushLoop true (full c σ)) σ := hw
    exact awake_of_unret (c := c.pushLoop true (full c σ)) (hi.of_post p ho)
      (by simpa [Ctx.pushLoop, vdepth] using ht hs) ((run_fl _ _ _ _ _ _ h).unr hr (hw'.unret hi) ho)
  · obtain ⟨l, a, b'⟩ := hw
    have h1 := ((run_fl _ _ _ _ _ _ h).ret hs).1
    have hn := p.nu (fun x hx => by simp [Ctx.pushLoop, nearest] at hx; subst hx; rfl) l
    refine ⟨l, ?_, b'⟩
    have hf : σ₁.im l = true ∨ σ₁.flag l = true := by
      cases o with
      | normal => exact p.conv rfl l a b'
      | brk => exact p.jump (Or.inl rfl) l (by simp [Ctx.pushLoop, a, b'])
      | cont => exact p.jump (Or.inr rfl) l (by simp [Ctx.pushLoop, a, b'])
      | ret => exact absurd rfl ho
    rcases hf with h | h
    · exact h
    · simp only [St.flag, h1, hn.1, hn.2, hh.act l a b'] at h
      simp at h

/-- An instance that is running after a statement ended it normally. -/
theorem follows_act {P : Prog} {A s B C D' l ss rv} {c : Ctx n} {σ σ'} (p : Post A c σ .normal σ')
    (h : Follows P s B C D' l ss rv .normal σ') (him : σ'.im l = true) (hf : c.fm l = true) :
    ∃ ss', Exec P l s ss .normal ss' ∧ AgM ss' σ' l ∧ AgU D' ss' σ' := by
  obtain ⟨so, ss', hx, hm, hst⟩ := h
  have := p.act l him hf
  cases hst with
  | ret h => simp [this.1] at h
  | brk _ b => rw [this.2.1] at b; cases b
  | cont _ b => rw [this.2.2] at b; cases b
  | act _ _ _ d => exact ⟨ss', hx, hm, d⟩
  | actB a => cases a
  | actC a => cases a

theorem ExecN.inv_seg {P : Prog} {l N lab chk s r a o b} (h : ExecN P l N (.seg lab chk s r) a o b) :
    (∃ s', ExecN P l N s a .normal s' ∧ ExecN P l N r s' o b) ∨ (ExecN P l N s a o b ∧ o ≠ .normal) := by
  cases h with
  | segN h1 h2 => exact Or.inl ⟨_, h1.succ, h2.succ⟩
  | segJ h1 h2 => exact Or.inr ⟨h1.succ, h2⟩

theorem ExecN.pos {P : Prog} {l N s a o b} (h : ExecN P l N s a o b) : ∃ M, N = M + 1 := by
  cases h <;> exact ⟨_, rfl⟩

/-! ### Loops -/

theorem forU_tm {P : Prog} {c : Ctx n} {e coh st b I J D' A N} {top : Bool}
    (he : e.isUniform = true) (heI : e.uvars ⊆ I)
    (gb : ∀ k m, Good A (c.pushLoop true m) (run P k b)) (gs : ∀ k m, Good A (c.pushLoop true m) (run P k st))
    (sb : ∀ k m, Sim P b (run P k b) (c.pushLoop true m) D' J I J)
    (ss_ : ∀ k m, Sim P st (run P k st) (c.pushLoop true m) ∅ ∅ J I)
    (hq : ∀ k (c : Ctx n) σ o σ', run P k st c σ = some (o, σ') → o = .normal ∧ σ'.im = σ.im ∧ σ'.ret = σ.ret ∧
      σ'.brk = σ.brk ∧ σ'.cont = σ.cont ∧ σ'.rv = σ.rv)
    (tb : ∀ m σ, Inv (c.pushLoop true m) σ → RetIn c σ → Awake c σ → Lanes P N b I c σ → Tm P b (c.pushLoop true m) σ)
    (ts : ∀ m σ, Inv (c.pushLoop true m) σ → RetIn c σ → Awake c σ → Lanes P N st J c σ → Tm P st (c.pushLoop true m) σ)
    (ht : top = true → vdepth c.cf = 0) (hs : top = true ∨ hasRet b = false) :
    ∀ M, M ≤ N + 1 → ∀ σ, Head true c σ → RetIn c σ → Awake c σ → Lanes P M (.loop e coh st b) I c σ →
      ∃ k r, forU c e (run P k st) (run P k b) k σ = some r := by
  intro M
  induction M with
  | zero =>
    intro _ σ _ _ ⟨l, a, b⟩ hl
    obtain ⟨_, _, _, _, _, h⟩ := hl l a b
    cases h
  | succ M ih =>
    intro hM σ hh hr hw hl
    by_cases htz : σ.evalU e ≠ 0
    · have hv : ∀ {l : Nat} {ss : SSt}, AgU I ss σ → ss.eval l e ≠ 0 := fun hu => by rw [evalU_ag hu he heI]; exact htz
      have lb : Lanes P N b I c σ := fun l a b' => by
        obtain ⟨ss, o, ss', hu, hm, hx⟩ := hl l a b'
        have h0 := hv (l := l) hu
        cases hx with
        | loopDone h => exact absurd h h0
        | loopStep _ h => exact ⟨_, _, _, hu, hm, h.mono (by omega)⟩
        | loopBrk _ h => exact ⟨_, _, _, hu, hm, h.mono (by omega)⟩
        | loopRet _ h => exact ⟨_, _, _, hu, hm, h.mono (by omega)⟩
      obtain ⟨k1, ⟨o₁, σ₁⟩, h1⟩ := tb _ σ hh.inv hr hw lb
      have p1 := gb k1 _ _ _ _ hh.inv h1
      by_cases ho : o₁ = .ret
      · subst ho
        exact ⟨k1 + 1, (.ret, σ₁), by simp only [forU, if_pos htz, run_mono (Nat.le_succ k1) h1]⟩
      by_cases ho' : o₁ = .brk
      · subst ho'
        exact ⟨k1 + 1, (.normal, σ₁), by simp only [forU, if_pos htz, run_mono (Nat.le_succ k1) h1]⟩
      have i1 := hh.inv.of_post p1 ho
      have r1 : RetIn c σ₁ := (run_fl _ _ _ _ _ _ h1).inn hr
      have w1 : Awake c σ₁ := awake_body hh p1 hr hw ht hs ho h1
      -- the instances that go on
      have go : ∀ l, σ₁.im l = true → c.fm l = true → ∃ ss', AgU J ss' σ₁ ∧ AgM ss' σ₁ l ∧ ∃ s₂ o s',
          ExecN P l M st ss' .normal s₂ ∧ ExecN P l M (.loop e coh st b) s₂ o s' := by
        intro l a b'
        obtain ⟨ss, o, ss', hu, hm, hx⟩ := hl l (p1.mono l a) b'
        obtain ⟨so, s1, hx1, hm1, hst⟩ := sb k1 _ _ _ _ hh.inv h1 l ss (p1.mono l a) b' hu hm
        have pa := p1.act l a b'
        have hso : (so = .normal ∨ so = .cont) ∧ AgU J s1 σ₁ := by
          cases hst with
          | ret h => simp [pa.1, ho] at h
          | brk _ h => rw [pa.2.1] at h; cases h
          | cont _ h => rw [pa.2.2] at h; cases h
          | act _ _ _ h => exact ⟨Or.inl rfl, h⟩
          | actB h => exact absurd h ho'
          | actC _ _ _ h => exact ⟨Or.inr rfl, h⟩
        have h0 := hv (l := l) hu
        cases hx with
        | loopDone h => exact absurd h h0
        | loopStep _ h hn h2 h3 =>
          obtain ⟨rfl, rfl⟩ := hx1.det h.exec
          exact ⟨_, hso.2, hm1, _, _, _, h2, h3⟩
        | loopBrk _ h => obtain ⟨rfl, rfl⟩ := hx1.det h.exec; simp at hso
        | loopRet _ h => obtain ⟨rfl, rfl⟩ := hx1.det h.exec; simp at hso
      obtain ⟨k2, ⟨o₂, σ₂⟩, h2⟩ := ts (full c σ) σ₁ i1 r1 w1 (fun l a b' => by
        obtain ⟨ss', hu, hm, s₂, o, s', hx, _⟩ := go l a b'
        exact ⟨_, _, _, hu, hm, hx.mono (by omega)⟩)
      have p2 := gs k2 _ _ _ _ i1 h2
      obtain ⟨rfl, q1, q2, q3, q4, q5⟩ := hq _ _ _ _ _ h2
      obtain ⟨k3, r, h3⟩ := ih (by omega) σ₂ (Head.nextU p2 i1 (by simp)) ((run_fl _ _ _ _ _ _ h2).inn r1)
        (by obtain ⟨l, a, b⟩ := w1; exact ⟨l, by rw [q1]; exact a, b⟩)
        (fun l a b' => by
          obtain ⟨ss', hu, hm, s₂, o, s', hx, hx'⟩ := go l (by rw [← q1]; exact a) b'
          obtain ⟨s2', hy, hm2, hu2⟩ := follows_act p2
            (ss_ k2 _ _ _ _ i1 h2 l ss' (by rw [← q1]; exact a) b' hu hm) a b'
          obtain ⟨_, rfl⟩ := hy.det hx.exec
          exact ⟨_, _, _, hu2, hm2, hx'⟩)
      let K := max k1 (max k2 k3)
      have e1 := run_mono (k' := K + 1) (by omega) h1
      have e2 := run_mono (k' := K + 1) (by omega) h2
      have e3 := forU_le (run_le (k' := K + 1) (by omega) st) (run_le (k' := K + 1) (by omega) b) (k' := K) (by omega) h3
      refine ⟨K + 1, r, ?_⟩
      simp only [forU, if_pos htz, e1]
      cases o₁ with
      | ret => exact absurd rfl ho
      | brk => exact absurd rfl ho'
      | normal => simp only [e2]; exact e3
      | cont => simp only [e2]; exact e3
    · exact ⟨1, (.normal, σ), by simp only [forU, if_neg htz]⟩

theorem doU_tm {P : Prog} {c : Ctx n} {e coh b I J D' A N} {top : Bool}
    (he : e.isUniform = true) (heJ : e.uvars ⊆ J) (hI : I ⊆ J)
    (gb : ∀ k m, Good A (c.pushLoop true m) (run P k b))
    (sb : ∀ k m, Sim P b (run P k b) (c.pushLoop true m) D' J I J)
    (tb : ∀ m σ, Inv (c.pushLoop true m) σ → RetIn c σ → Awake c σ → Lanes P N b I c σ → Tm P b (c.pushLoop true m) σ)
    (ht : top = true → vdepth c.cf = 0) (hs : top = true ∨ hasRet b = false) :
    ∀ M, M ≤ N + 1 → ∀ σ, Head true c σ → RetIn c σ → Awake c σ → Lanes P M (.doloop b e coh) I c σ →
      ∃ k r, doU c e (run P k b) k σ = some r := by
  intro M
  induction M with
  | zero =>
    intro _ σ _ _ ⟨l, a, b⟩ hl
    obtain ⟨_, _, _, _, _, h⟩ := hl l a b
    cases h
  | succ M ih =>
    intro hM σ hh hr hw hl
    have lb : Lanes P N b I c σ := fun l a b' => by
      obtain ⟨ss, o, ss', hu, hm, hx⟩ := hl l a b'
      cases hx with
      | doStep h => exact ⟨_, _, _, hu, hm, h.mono (by omega)⟩
      | doDone h => exact ⟨_, _, _, hu, hm, h.mono (by omega)⟩
      | doBrk h => exact ⟨_, _, _, hu, hm, h.mono (by omega)⟩
      | doRet h => exact ⟨_, _, _, hu, hm, h.mono (by omega)⟩
    obtain ⟨k1, ⟨o₁, σ₁⟩, h1⟩ := tb _ σ hh.inv hr hw lb
    have p1 := gb k1 _ _ _ _ hh.inv h1
    by_cases ho : o₁ = .ret
    · subst ho
      exact ⟨k1 + 1, (.ret, σ₁), by simp only [doU, run_mono (Nat.le_succ k1) h1]⟩
    by_cases ho' : o₁ = .brk
    · subst ho'
      exact ⟨k1 + 1, (.normal, σ₁), by simp only [doU, run_mono (Nat.le_succ k1) h1]⟩
    by_cases htz : σ₁.evalU e ≠ 0
    · obtain ⟨k3, r, h3⟩ := ih (by omega) σ₁ (Head.nextU p1 hh.inv ho) ((run_fl _ _ _ _ _ _ h1).inn hr)
        (awake_body hh p1 hr hw ht hs ho h1)
        (fun l a b' => by
          obtain ⟨ss, o, ss', hu, hm, hx⟩ := hl l (p1.mono l a) b'
          obtain ⟨so, s1, hx1, hm1, hst⟩ := sb k1 _ _ _ _ hh.inv h1 l ss (p1.mono l a) b' hu hm
          have pa := p1.act l a b'
          have hso : (so = .normal ∨ so = .cont) ∧ AgU J s1 σ₁ := by
            cases hst with
            | ret h => simp [pa.1, ho] at h
            | brk _ h => rw [pa.2.1] at h; cases h
            | cont _ h => rw [pa.2.2] at h; cases h
            | act _ _ _ h => exact ⟨Or.inl rfl, h⟩
            | actB h => exact absurd h ho'
            | actC _ _ _ h => exact ⟨Or.inr rfl, h⟩
          have h0 : s1.eval l e ≠ 0 := by rw [evalU_ag hso.2 he heJ]; exact htz
          cases hx with
          | doStep h _ _ h3 =>
            obtain ⟨rfl, rfl⟩ := hx1.det h.exec
            exact ⟨_, _, _, hso.2.mono hI, hm1, h3⟩
          | doDone h _ hz => obtain ⟨rfl, rfl⟩ := hx1.det h.exec; exact absurd hz h0
          | doBrk h => obtain ⟨rfl, rfl⟩ := hx1.det h.exec; simp at hso
          | doRet h => obtain ⟨rfl, rfl⟩ := hx1.det h.exec; simp at hso)
      let K := max k1 k3
      have e1 := run_mono (k' := K + 1) (by omega) h1
      have e3 := doU_le (run_le (k' := K + 1) (by omega) b) (k' := K) (by omega) h3
      refine ⟨K + 1, r, ?_⟩
      simp only [doU, e1]
      cases o₁ with
      | ret => exact absurd rfl ho
      | brk => exact absurd rfl ho'
      | normal => simp only [if_pos htz]; exact e3
      | cont => simp only [if_pos htz]; exact e3
    · refine ⟨k1 + 1, (.normal, σ₁), ?_⟩
      simp only [doU, run_mono (Nat.le_succ k1) h1]
      cases o₁ with
      | ret => exact absurd rfl ho
      | brk => exact absurd rfl ho'
      | normal => simp only [if_neg htz]
      | cont => simp only [if_neg htz]

/-- What the body of a varying loop leaves for an instance that goes on. -/
theorem status_next {A B J rv0 o so s1} {c : Ctx n} {m} {σ σ₁} {l}
    (p : Post A (c.pushLoop false m) σ o σ₁) (ho : o ≠ .ret) (ho' : o ≠ .brk) (hf : c.fm l = true)
    (ha : (nextIter σ₁).im l = true) (hst : Status (n := n) B J J rv0 o σ₁ l so s1) :
    (so = .normal ∨ so = .cont) ∧ AgU J s1 σ₁ := by
  simp [nextIter] at ha
  have ex := p.excl l hf
  have pa := fun h => p.act l h hf
  cases hst with
  | ret h =>
    exfalso
    simp only [ho, or_false] at h
    rcases ha with ha | ha
    · rw [(pa ha).1] at h; cases h
    · rw [(ex.1 h).2] at ha; cases ha
  | brk _ h =>
    exfalso
    rcases ha with ha | ha
    · rw [(pa ha).2.1] at h; cases h
    · rw [ex.2 h] at ha; cases ha
  | cont _ _ _ h => exact ⟨Or.inr rfl, h⟩
  | act _ _ _ h => exact ⟨Or.inl rfl, h⟩
  | actB h => exact absurd h ho'
  | actC _ _ _ h => exact ⟨Or.inr rfl, h⟩

theorem on_before {A o} {c : Ctx n} {m} {σ σ₁} {l} (hh : Head false c σ)
    (p : Post A (c.pushLoop false m) σ o σ₁) (ha : (nextIter σ₁).im l = true) : σ.im l = true := by
  simp [nextIter] at ha
  rcases ha with ha | ha
  · exact p.mono l ha
  · cases hx : σ.im l with
    | true => rfl
    | false => rw [(p.offm l hx).2.2.1, (hh.bc l).2] at ha; cases ha

theorem forV_tm {P : Prog} {c : Ctx n} {e coh coh' st b I J D' A N}
    (heI : e.uvars ⊆ I)
    (gb : ∀ k m, Good A (c.pushLoop false m) (run P k b)) (gs : ∀ k m, Good A (c.pushLoop false m) (run P k st))
    (sb : ∀ k m, Sim P b (run P k b) (c.pushLoop false m) D' J I J)
    (ss_ : ∀ k m, Sim P st (run P k st) (c.pushLoop false m) ∅ ∅ J I)
    (hq : ∀ k (c : Ctx n) σ o σ', run P k st c σ = some (o, σ') → o = .normal ∧ σ'.im = σ.im ∧ σ'.ret = σ.ret ∧
      σ'.brk = σ.brk ∧ σ'.cont = σ.cont ∧ σ'.rv = σ.rv)
    (tb : ∀ m σ, Inv (c.pushLoop false m) σ → RetIn c σ → Awake c σ → Lanes P N b I c σ → Tm P b (c.pushLoop false m) σ)
    (ts : ∀ m σ, Inv (c.pushLoop false m) σ → RetIn c σ → (Awake c σ → Lanes P N st J c σ) →
      Tm P st (c.pushLoop false m) σ) :
    ∀ M, M ≤ N + 1 → ∀ σ, Head false c σ → RetIn c σ → Lanes P M (.loop e coh' st b) I c σ →
      ∃ k r, forV c e coh (run P k st) (run P k b) k σ = some r := by
  intro M
  induction M with
  | zero =>
    intro _ σ hh hr hl
    refine ⟨1, (.normal, { σ with im := σ.im.and (σ.test e) }), ?_⟩
    simp only [forV]
    rw [if_neg]
    intro ha
    obtain ⟨l, a, b⟩ := awake_iff.2 ha
    simp at a
    obtain ⟨_, _, _, _, _, h⟩ := hl l a.1 b
    cases h
  | succ M ih =>
    intro hM σ hh hr hl
    by_cases ha : (full c { σ with im := σ.im.and (σ.test e) }).any = true
    · have hw := awake_iff.2 ha
      have ht := hh.narrow (σ.test e)
      have hv : ∀ {l : Fin n} {ss : SSt}, (σ.im.and (σ.test e)) l = true → AgU I ss σ → AgM ss σ l → ss.eval l e ≠ 0 := by
        intro l ss h hu hm
        rw [eval_ag hu hm heI]
        simp [St.test] at h
        exact h.2
      have hsub : ∀ l, (σ.im.and (σ.test e)) l = true → σ.im l = true := fun l h => by simp at h; exact h.1
      have lb : Lanes P N b I c { σ with im := σ.im.and (σ.test e) } := fun l a b' => by
        obtain ⟨ss, o, ss', hu, hm, hx⟩ := hl l (hsub l a) b'
        have h0 := hv a hu hm
        cases hx with
        | loopDone h => exact absurd h h0
        | loopStep _ h => exact ⟨_, _, _, hu, hm, h.mono (by omega)⟩
        | loopBrk _ h => exact ⟨_, _, _, hu, hm, h.mono (by omega)⟩
        | loopRet _ h => exact ⟨_, _, _, hu, hm, h.mono (by omega)⟩
      obtain ⟨k1, ⟨o₁, σ₁⟩, h1⟩ := tb _ { σ with im := σ.im.and (σ.test e) } ht.inv hr hw lb
      have p1 := gb k1 _ _ _ _ ht.inv h1
      by_cases ho : o₁ = .ret
      · subst ho
        exact ⟨k1 + 1, (.ret, σ₁), by simp only [forV, if_pos ha, coherentBody_eq, run_mono (Nat.le_succ k1) h1]⟩
      by_cases ho' : o₁ = .brk
      · subst ho'
        exact ⟨k1 + 1, (.normal, σ₁), by simp only [forV, if_pos ha, coherentBody_eq, run_mono (Nat.le_succ k1) h1]⟩
      have hn := Head.next p1
      have r1 : RetIn c (nextIter σ₁) := fun l h => (run_fl _ _ _ _ _ _ h1).inn hr l h
      have go : ∀ l, (nextIter σ₁).im l = true → c.fm l = true → ∃ ss', AgU J ss' (nextIter σ₁) ∧
          AgM ss' (nextIter σ₁) l ∧ ∃ s₂ o s',
          ExecN P l M st ss' .normal s₂ ∧ ExecN P l M (.loop e coh' st b) s₂ o s' := by
        intro l a b'
        have on := on_before ht p1 a
        obtain ⟨ss, o, ss', hu, hm, hx⟩ := hl l (hsub l on) b'
        obtain ⟨so, s1, hx1, hm1, hst⟩ := sb k1 _ _ _ _ ht.inv h1 l ss on b' hu hm
        have hso := status_next p1 ho ho' b' a hst
        have h0 := hv on hu hm
        cases hx with
        | loopDone h => exact absurd h h0
        | loopStep _ h hn h2 h3 =>
          obtain ⟨rfl, rfl⟩ := hx1.det h.exec
          exact ⟨_, hso.2, hm1, _, _, _, h2, h3⟩
        | loopBrk _ h => obtain ⟨rfl, rfl⟩ := hx1.det h.exec; simp at hso
        | loopRet _ h => obtain ⟨rfl, rfl⟩ := hx1.det h.exec; simp at hso
      obtain ⟨k2, ⟨o₂, σ₂⟩, h2⟩ := ts (full c (nextIter σ₁)) (nextIter σ₁) hn.inv r1 (fun _ l a b' => by
        obtain ⟨ss', hu, hm, s₂, o, s', hx, _⟩ := go l a b'
        exact ⟨_, _, _, hu, hm, hx.mono (by omega)⟩)
      have p2 := gs k2 _ _ _ _ hn.inv h2
      obtain ⟨rfl, q1, q2, q3, q4, q5⟩ := hq _ _ _ _ _ h2
      have hh2 : Head false c σ₂ :=
        ⟨fun l h1 h2 => (p2.act l h1 h2).1, fun l => by rw [q3, q4]; exact hn.bc l, fun h => by cases h⟩
      obtain ⟨k3, r, h3⟩ := ih (by omega) σ₂ hh2 ((run_fl _ _ _ _ _ _ h2).inn r1)
        (fun l a b' => by
          obtain ⟨ss', hu, hm, s₂, o, s', hx, hx'⟩ := go l (by rw [← q1]; exact a) b'
          obtain ⟨s2', hy, hm2, hu2⟩ := follows_act p2
            (ss_ k2 _ _ _ _ hn.inv h2 l ss' (by rw [← q1]; exact a) b' hu hm) a b'
          obtain ⟨_, rfl⟩ := hy.det hx.exec
          exact ⟨_, _, _, hu2, hm2, hx'⟩)
      let K := max k1 (max k2 k3)
      have e1 := run_mono (k' := K + 1) (by omega) h1
      have e2 := run_mono (k' := K + 1) (by omega) h2
      have e3 := forV_le (run_le (k' := K + 1) (by omega) st) (run_le (k' := K + 1) (by omega) b) (k' := K) (by omega) h3
      refine ⟨K + 1, r, ?_⟩
      simp only [forV, if_pos ha, coherentBody_eq, e1]
      cases o₁ with
      | ret => exact absurd rfl ho
      | brk => exact absurd rfl ho'
      | normal => simp only [e2]; exact e3
      | cont => simp only [e2]; exact e3
    · exact ⟨1, _, by simp only [forV, if_neg ha]; rfl⟩

theorem doV_tm {P : Prog} {c : Ctx n} {e coh coh' b I J D' A N}
    (heJ : e.uvars ⊆ J) (hI : I ⊆ J)
    (gb : ∀ k m, Good A (c.pushLoop false m) (run P k b))
    (sb : ∀ k m, Sim P b (run P k b) (c.pushLoop false m) D' J I J)
    (tb : ∀ m σ, Inv (c.pushLoop false m) σ → RetIn c σ → Awake c σ → Lanes P N b I c σ → Tm P b (c.pushLoop false m) σ) :
    ∀ M, M ≤ N + 1 → ∀ σ, Head false c σ → RetIn c σ → Awake c σ → Lanes P M (.doloop b e coh') I c σ →
      ∃ k r, doV c e coh (run P k b) k σ = some r := by
  intro M
  induction M with
  | zero =>
    intro _ σ _ _ ⟨l, a, b⟩ hl
    obtain ⟨_, _, _, _, _, h⟩ := hl l a b
    cases h
  | succ M ih =>
    intro hM σ hh hr hw hl
    have lb : Lanes P N b I c σ := fun l a b' => by
      obtain ⟨ss, o, ss', hu, hm, hx⟩ := hl l a b'
      cases hx with
      | doStep h => exact ⟨_, _, _, hu, hm, h.mono (by omega)⟩
      | doDone h => exact ⟨_, _, _, hu, hm, h.mono (by omega)⟩
      | doBrk h => exact ⟨_, _, _, hu, hm, h.mono (by omega)⟩
      | doRet h => exact ⟨_, _, _, hu, hm, h.mono (by omega)⟩
    obtain ⟨k1, ⟨o₁, σ₁⟩, h1⟩ := tb _ σ hh.inv hr hw lb
    have p1 := gb k1 _ _ _ _ hh.inv h1
    by_cases ho : o₁ = .ret
    · subst ho
      exact ⟨k1 + 1, (.ret, σ₁), by simp only [doV, coherentBody_eq, run_mono (Nat.le_succ k1) h1]⟩
    by_cases ho' : o₁ = .brk
    · subst ho'
      exact ⟨k1 + 1, (.normal, σ₁), by simp only [doV, coherentBody_eq, run_mono (Nat.le_succ k1) h1]⟩
    have hn := Head.next p1
    have r1 : RetIn c (nextIter σ₁) := fun l h => (run_fl _ _ _ _ _ _ h1).inn hr l h
    by_cases ha : (full c { nextIter σ₁ with im := (nextIter σ₁).im.and ((nextIter σ₁).test e) }).any = true
    · obtain ⟨k3, r, h3⟩ := ih (by omega) { nextIter σ₁ with im := (nextIter σ₁).im.and ((nextIter σ₁).test e) }
        (hn.narrow _) r1 (awake_iff.2 ha)
        (fun l a b' => by
          simp only [Mask.and_apply, Bool.and_eq_true] at a
          have on := on_before hh p1 a.1
          obtain ⟨ss, o, ss', hu, hm, hx⟩ := hl l on b'
          obtain ⟨so, s1, hx1, hm1, hst⟩ := sb k1 _ _ _ _ hh.inv h1 l ss on b' hu hm
          have hso := status_next p1 ho ho' b' a.1 hst
          have hJ : AgU J s1 (nextIter σ₁) := hso.2
          have hm1' : AgM s1 (nextIter σ₁) l := hm1
          have h0 : s1.eval l e ≠ 0 := by
            rw [eval_ag hJ hm1' heJ]
            simpa [St.test] using a.2
          cases hx with
          | doStep h _ _ h3 =>
            obtain ⟨rfl, rfl⟩ := hx1.det h.exec
            exact ⟨_, _, _, hJ.mono hI, hm1, h3⟩
          | doDone h _ hz => obtain ⟨rfl, rfl⟩ := hx1.det h.exec; exact absurd hz h0
          | doBrk h => obtain ⟨rfl, rfl⟩ := hx1.det h.exec; simp at hso
          | doRet h => obtain ⟨rfl, rfl⟩ := hx1.det h.exec; simp at hso)
      let K := max k1 k3
      have e1 := run_mono (k' := K + 1) (by omega) h1
      have e3 := doV_le (run_le (k' := K + 1) (by omega) b) (k' := K) (by omega) h3
      refine ⟨K + 1, r, ?_⟩
      simp only [doV, coherentBody_eq, e1]
      cases o₁ with
      | ret => exact absurd rfl ho
      | brk => exact absurd rfl ho'
      | normal => simp only [if_pos ha]; exact e3
      | cont => simp only [if_pos ha]; exact e3
    · refine ⟨k1 + 1, (.normal, { nextIter σ₁ with im := (nextIter σ₁).im.and ((nextIter σ₁).test e) }), ?_⟩
      simp only [doV, coherentBody_eq, run_mono (Nat.le_succ k1) h1]
      cases o₁ with
      | ret => exact absurd rfl ho
      | brk => exact absurd rfl ho'
      | normal => simp only [if_neg ha]
      | cont => simp only [if_neg ha]

/-! ### Switches -/

/-- A property of chains that the tail inherits holds for the part of a switch that is selected. -/
theorem suffix_closed {Q : Stmt → Prop} (hQ : ∀ lab chk s r, Q (.seg lab chk s r) → Q r) {v s t}
    (h : switchEntry v s = some t) (hs : Q s) : Q t := by
  have fc : ∀ {s t}, findCase v s = some t → Q s → Q t := by
    intro s
    induction s with
    | seg lab chk s r _ ihr =>
      intro t h hw
      cases lab with
      | none => exact ihr h (hQ _ _ _ _ hw)
      | some w =>
        simp only [findCase] at h
        split at h
        · simp only [Option.some.injEq] at h; subst h; exact hw
        · exact ihr h (hQ _ _ _ _ hw)
    | _ => intro t h; simp [findCase] at h
  have fd : ∀ {s t}, findDefault s = some t → Q s → Q t := by
    intro s
    induction s with
    | seg lab chk s r _ ihr =>
      intro t h hw
      cases lab with
      | none => simp only [findDefault, Option.some.injEq] at h; subst h; exact hw
      | some w => exact ihr h (hQ _ _ _ _ hw)
    | _ => intro t h; simp [findDefault] at h
  unfold switchEntry at h
  split at h
  · simp only [Option.some.injEq] at h; subst h; rename_i h; exact fc h hs
  · exact fd h hs

/-- What is known about the segments of a switch. -/
structure SegT (P : Prog) (d N : Nat) (A D' F : Set Nat) (c : Ctx n) (t : Stmt) : Prop where
  legal : Legal c.cf t
  good : ∀ k, Good A c (run P k t)
  sim : ∀ k, Sim P t (run P k t) c D' ∅ F F
  tm : ∀ σ, Inv c σ → RetIn c σ → Awake c σ → Lanes P N t F c σ → Tm P t c σ
  quiet : calm P d t = true → ∀ σ, Inv c σ → ¬ Awake c σ → Tm P t c σ

theorem segsU_tm {P : Prog} {N A D' F d} {c : Ctx n} {top : Bool} (hk : CtxOk c)
    (ht : top = true → vdepth c.cf = 0) : ∀ s σ, Members (SegT P d N A D' F c) s → live P d top s = true →
    Inv c σ → RetIn c σ → Awake c σ → Lanes P N s F c σ →
    ∃ k r, segsU (fun s σ => run P k s c σ) s σ = some r := by
  intro s
  induction s with
  | skip => intro σ _ _ _ _ _ _; exact ⟨0, _, rfl⟩
  | seg lab chk s r _ ihr =>
    intro σ hm hlv hi hr hw hl
    obtain ⟨q, hm⟩ := hm
    simp only [live, Bool.and_eq_true] at hlv
    obtain ⟨⟨hl1, hl2⟩, hl3⟩ := hlv
    have l1 : Lanes P N s F c σ := fun l a b => by
      obtain ⟨ss, o, ss', hu, hm, hx⟩ := hl l a b
      rcases hx.inv_seg with ⟨_, h, _⟩ | ⟨h, _⟩
      · exact ⟨_, _, _, hu, hm, h⟩
      · exact ⟨_, _, _, hu, hm, h⟩
    obtain ⟨k, ⟨o, σ₁⟩, h⟩ := q.tm σ hi hr hw l1
    by_cases ho : o = .normal
    · subst ho
      have p := q.good k _ _ _ hi h
      have i1 := hi.of_post p (by simp)
      have rest : ∃ k r', segsU (fun s σ => run P k s c σ) r σ₁ = some r' := by
        by_cases hw1 : Awake c σ₁
        · refine ihr σ₁ hm hl2 i1 ((run_fl _ _ _ _ _ _ h).inn hr) hw1 ?_
          intro l a b
          obtain ⟨ss, o, ss', hu, hm, hx⟩ := hl l (p.mono l a) b
          obtain ⟨s1, hy, hm1, hu1⟩ := follows_act p (q.sim k _ _ _ hi h l ss (p.mono l a) b hu hm) a b
          rcases hx.inv_seg with ⟨s', h1, h2⟩ | ⟨h1, hne⟩
          · obtain ⟨_, rfl⟩ := hy.det h1.exec
            exact ⟨_, _, _, hu1, hm1, h2⟩
          · exact absurd (hy.det h1.exec).1.symm hne
        · have hc : calm P d r = true := by
            cases htop : top with
            | true => exact absurd (awake_after (top := top) hk q.legal hi hr hw ht (Or.inl htop) h) hw1
            | false =>
              cases hst : stops s with
              | false => exact absurd (awake_after (top := top) hk q.legal hi hr hw ht (Or.inr hst) h) hw1
              | true => simpa [htop, hst] using hl3
          have mc : Members (fun t => calm P d t = true) r := by
            have : ∀ {r}, Members (SegT P d N A D' F c) r → calm P d r = true → Members (fun t => calm P d t = true) r := by
              intro r
              induction r with
              | skip => intro _ _; trivial
              | seg lab chk s r _ ihr =>
                intro hm hc
                have hc' : calm P d s = true ∧ calm P d r = true := by
                  cases d <;> simpa [calm, calmS] using hc
                exact ⟨hc'.1, ihr hm.2 hc'.2⟩
              | _ => intro h; exact absurd h (by simp [Members])
            exact this hm hc
          exact segsU_calm (A := A) ((hm.and mc).imp fun t h => ⟨h.1.good, h.1.quiet h.2⟩) i1 hw1
      obtain ⟨k', r', h'⟩ := rest
      refine ⟨max k k', ?_⟩
      simp only [segsU]
      refine andThen_tm (run_mono (by omega) h) fun _ => ⟨r', ?_⟩
      exact segsU_le (fun s σ r h => run_mono (by omega) h) h'
    · refine ⟨k, ?_⟩
      simp only [segsU]
      exact andThen_tm h fun h => absurd h ho
  | _ => intro σ hm; exact absurd hm (by simp [Members])

theorem segsV_tm {P : Prog} {N A D' F d} {entry : Mask n} {vals cases} {c : Ctx n} (hv : VSw entry c)
    (hdF : Disjoint F A) : ∀ s σ,
    Members (fun t => SegT P d N A D' F c t ∧ calm P d t = true) s → ChainOk cases s → SegInv entry vals cases c s σ →
    RetIn c σ → Lanes P N s F c σ →
    (∀ l, hit cases (vals l) s = true → entry l = true → c.fm l = true → ∃ ch ss o ss', AgU F ss σ ∧ AgM ss σ l ∧
      firstHit cases (vals l) s = some ch ∧ ExecN P l N ch ss o ss') →
    ∃ k r, segsV entry vals cases (fun s σ => run P k s c σ) s σ = some r := by
  intro s
  induction s with
  | skip => intro σ _ _ _ _ _ _; exact ⟨0, _, rfl⟩
  | seg lab chk s r _ ihr =>
    intro σ hm hok si hr hl hfr
    obtain ⟨⟨q, hc⟩, hm⟩ := hm
    have sl := si.label hv hok
    -- running instances, including those that start here
    have lt : Lanes P N (.seg lab chk s r) F c { σ with im := σ.im.or (labelMask entry vals cases lab) } := by
      intro l a b
      simp only [Mask.or_apply, Bool.or_eq_true, labelMask_eq, Bool.and_eq_true] at a
      rcases a with a | ⟨a1, a2⟩
      · exact hl l a b
      · obtain ⟨ch, ss, o, ss', hu, hm, hf, hx⟩ := hfr l (by simp [hit, a2]) a1 b
        simp only [firstHit, a2, if_true, Option.some.injEq] at hf
        subst hf
        exact ⟨ss, o, ss', hu, hm, hx⟩
    -- instances that start later
    have lf : ∀ l, hit cases (vals l) r = true → entry l = true → c.fm l = true → ∃ ch ss o ss', AgU F ss σ ∧
        AgM ss σ l ∧ firstHit cases (vals l) r = some ch ∧ ExecN P l N ch ss o ss' := by
      intro l h1 h2 h3
      obtain ⟨ch, ss, o, ss', hu, hm, hf, hx⟩ := hfr l (by simp [hit, h1]) h2 h3
      have hs : sel cases (vals l) lab = false := by
        cases hs : sel cases (vals l) lab
        · rfl
        · rw [hok.hit_tail hs] at h1; cases h1
      simp only [firstHit, hs, Bool.false_eq_true, if_false] at hf
      exact ⟨ch, ss, o, ss', hu, hm, hf, hx⟩
    cases hx : (chk && !({ σ with im := σ.im.or (labelMask entry vals cases lab) } : St n).im.any) with
    | true =>
      simp only [Bool.and_eq_true, Bool.not_eq_true'] at hx
      obtain ⟨k, r', h⟩ := ihr { σ with im := σ.im.or (labelMask entry vals cases lab) } hm hok.tail sl hr
        (fun l a _ => absurd ((Mask.any_false hx.2 l).symm.trans a) (by simp)) lf
      refine ⟨k, r', ?_⟩
      simp only [segsV]
      rw [if_pos (by simp [hx.1, hx.2])]
      exact h
    | false =>
      have l1 : Lanes P N s F c { σ with im := σ.im.or (labelMask entry vals cases lab) } := fun l a b => by
        obtain ⟨ss, o, ss', hu, hm, hx⟩ := lt l a b
        rcases hx.inv_seg with ⟨_, h, _⟩ | ⟨h, _⟩
        · exact ⟨_, _, _, hu, hm, h⟩
        · exact ⟨_, _, _, hu, hm, h⟩
      have first : Tm P s c { σ with im := σ.im.or (labelMask entry vals cases lab) } := by
        by_cases hw : Awake c { σ with im := σ.im.or (labelMask entry vals cases lab) }
        · exact q.tm _ sl.inv hr hw l1
        · exact q.quiet hc _ sl.inv hw
      obtain ⟨k, ⟨o, σ₁⟩, h⟩ := first
      by_cases ho : o = .normal
      · subst ho
        have p := q.good k _ _ _ sl.inv h
        obtain ⟨k', r', h'⟩ := ihr σ₁ hm hok.tail (sl.step p) ((run_fl _ _ _ _ _ _ h).inn hr)
          (fun l a b => by
            obtain ⟨ss, o, ss', hu, hm, hx⟩ := lt l (p.mono l a) b
            obtain ⟨s1, hy, hm1, hu1⟩ := follows_act p (q.sim k _ _ _ sl.inv h l ss (p.mono l a) b hu hm) a b
            rcases hx.inv_seg with ⟨s', h1, h2⟩ | ⟨h1, hne⟩
            · obtain ⟨_, rfl⟩ := hy.det h1.exec
              exact ⟨_, _, _, hu1, hm1, h2⟩
            · exact absurd (hy.det h1.exec).1.symm hne)
          (fun l h1 h2 h3 => by
            obtain ⟨ch, ss, o, ss', hu, hm, hf, hx⟩ := lf l h1 h2 h3
            have off := (sl.fresh l h1 h2 h3).1
            have hu' : AgU F ss ({ σ with im := σ.im.or (labelMask entry vals cases lab) } : St n) := hu
            refine ⟨ch, ss, o, ss', hu'.frame p.frame hdF, ⟨?_, ?_⟩, hf, hx⟩
            · rw [(p.offm l off).2.2.2.2]; exact hm.1
            · rw [(p.offf l (Or.inl off)).1]; exact hm.2)
        refine ⟨max k k', ?_⟩
        simp only [segsV]
        rw [if_neg (by rw [hx]; simp)]
        refine andThen_tm (run_mono (by omega) h) fun _ => ⟨r', ?_⟩
        exact segsV_le (fun s σ r h => run_mono (by omega) h) h'
      · refine ⟨k, ?_⟩
        simp only [segsV]
        rw [if_neg (by rw [hx]; simp)]
        exact andThen_tm h fun h => absurd h ho
  | _ => intro σ hm; exact absurd hm (by simp [Members])

/-! ### All statements -/

theorem firstHit_some {cases v} : ∀ {s}, hit cases v s = true → ∃ ch, firstHit cases v s = some ch := by
  intro s
  induction s with
  | seg lab chk s r _ ihr =>
    intro h
    simp only [hit, Bool.or_eq_true] at h
    simp only [firstHit]
    split
    · exact ⟨_, rfl⟩
    · rename_i hn
      exact ihr (h.resolve_left hn)
  | _ => intro h; simp [hit] at h

theorem live_suffix {P : Prog} {d top lab chk s r} (h : live P d top (.seg lab chk s r) = true) :
    live P d top r = true := by
  simp only [live, Bool.and_eq_true] at h
  exact h.1.2

theorem members_live {P : Prog} {d top bt ct} : ∀ {s}, accepted true bt ct s = true → live P d top s = true →
    Members (fun t => live P d top t = true) s := by
  intro s
  induction s with
  | skip => intro _ _; trivial
  | seg lab chk s r _ ihr =>
    intro h hc
    simp only [accepted, Bool.and_eq_true] at h
    simp only [live, Bool.and_eq_true] at hc
    exact ⟨hc.1.1, ihr h.2 hc.1.2⟩
  | _ => intro h; simp [accepted] at h

theorem members_wf {bt ct B C D} : ∀ {s}, accepted true bt ct s = true → Wf s B C D D →
    Members (fun t => Wf t B C D D) s := by
  intro s
  induction s with
  | skip => intro _ _; trivial
  | seg lab chk s r _ ihr =>
    intro h hc
    simp only [accepted, Bool.and_eq_true] at h
    exact ⟨hc.1, ihr h.2 hc.2⟩
  | _ => intro h; simp [accepted] at h

theorem members_calm' {P : Prog} {d bt ct} : ∀ {s}, accepted true bt ct s = true → calm P d s = true →
    Members (fun t => calm P d t = true) s := by
  intro s ha hc
  cases d with
  | zero => exact members_calm ha hc
  | succ d => exact members_calm ha hc

theorem term {P : Prog} {d : Nat} (hP : WfProg P) (hA : ∀ f, accepted false false false (P f).body = true)
    (hL : ∀ f, live P d true (P f).body = true) (l0 : Fin n) :
    ∀ N s (c : Ctx n) (top : Bool) B C D D' σ, CtxOk c → Legal c.cf s → Wf s B C D D' →
      (¬ nearestU c.cf → Disjoint B s.assigned ∧ Disjoint C s.assigned) →
      accepted false c.brkTgt c.contTgt s = true → live P d top s = true → (top = true → vdepth c.cf = 0) →
      Inv c σ → RetIn c σ → Awake c σ → Lanes P N s D c σ → Tm P s c σ := by
  intro N
  induction N with
  | zero =>
    intro s c top B C D D' σ _ _ _ _ _ _ _ _ _ ⟨l, a, b⟩ hl
    obtain ⟨_, _, _, _, _, h⟩ := hl l a b
    obtain ⟨M, h⟩ := h.pos
    cases h
  | succ N ih =>
    intro s c top B C D D' σ hk hl hw hd ha hlv ht hi hr haw hla
    have hgood : ∀ k s (c : Ctx n), CtxOk c → Legal c.cf s → Good s.assigned c (run P k s) := fun k => post_all k
    cases s with
    | skip => exact ⟨1, _, rfl⟩
    | uassign => exact ⟨1, _, rfl⟩
    | vassign => exact ⟨1, _, rfl⟩
    | brk =>
      obtain ⟨r, h⟩ := doBreak_tm (σ := σ) hk hl (by simpa [accepted] using ha)
      exact ⟨1, r, h⟩
    | cont =>
      obtain ⟨r, h⟩ := doContinue_tm (σ := σ) hk hl (by simpa [accepted] using ha)
      exact ⟨1, r, h⟩
    | ret e =>
      obtain ⟨r, h⟩ := doReturn_tm (c := c) (σ := σ) (e := e)
      exact ⟨1, r, h⟩
    | seg lab chk s r => simp [accepted] at ha
    | seq s₁ s₂ =>
      obtain ⟨D₁, w1, w2⟩ := hw
      simp only [accepted, Bool.and_eq_true] at ha
      simp only [live, Bool.and_eq_true] at hlv
      obtain ⟨⟨lv1, lv2⟩, lv3⟩ := hlv
      have hd1 : ¬ nearestU c.cf → Disjoint B s₁.assigned ∧ Disjoint C s₁.assigned := fun hn =>
        ⟨(hd hn).1.mono_right (fun x hx => Or.inl hx), (hd hn).2.mono_right (fun x hx => Or.inl hx)⟩
      have hd2 : ¬ nearestU c.cf → Disjoint B s₂.assigned ∧ Disjoint C s₂.assigned := fun hn =>
        ⟨(hd hn).1.mono_right (fun x hx => Or.inr hx), (hd hn).2.mono_right (fun x hx => Or.inr hx)⟩
      have l1 : Lanes P N s₁ D c σ := fun l a b => by
        obtain ⟨ss, o, ss', hu, hm, hx⟩ := hla l a b
        cases hx with
        | seqN h1 h2 => exact ⟨_, _, _, hu, hm, h1⟩
        | seqJ h1 h2 => exact ⟨_, _, _, hu, hm, h1⟩
      refine (ih s₁ c top B C D D₁ σ hk hl.left w1 hd1 ha.1 lv1 ht hi hr haw l1).seq fun k σ₁ h1 => ?_
      have p := hgood k s₁ c hk hl.left _ _ _ hi h1
      have i1 := hi.of_post p (by simp)
      by_cases haw1 : Awake c σ₁
      · refine ih s₂ c top B C D₁ D' σ₁ hk hl.right w2 hd2 ha.2 lv2 ht i1 ((run_fl _ _ _ _ _ _ h1).inn hr) haw1 ?_
        intro l a b
        obtain ⟨ss, o, ss', hu, hm, hx⟩ := hla l (p.mono l a) b
        obtain ⟨s1, hy, hm1, hu1⟩ := follows_act p
          (sim_all hP k s₁ c B C D D₁ hk hl.left w1 hd1 _ _ _ hi h1 l ss (p.mono l a) b hu hm) a b
        cases hx with
        | seqN h1 h2 =>
          obtain ⟨_, rfl⟩ := hy.det h1.exec
          exact ⟨_, _, _, hu1, hm1, h2⟩
        | seqJ h1 hne => exact absurd (hy.det h1.exec).1.symm hne
      · have hc : calm P d s₂ = true := by
          cases htop : top with
          | true => exact absurd (awake_after (top := top) hk hl.left hi hr haw ht (Or.inl htop) h1) haw1
          | false =>
            cases hst : stops s₁ with
            | false => exact absurd (awake_after (top := top) hk hl.left hi hr haw ht (Or.inr hst) h1) haw1
            | true => simpa [htop, hst] using lv3
        exact calm_tm hA l0 d s₂ c σ₁ hc ha.2 hk hl.right i1 haw1
    | ite e coh pred s₁ s₂ =>
      obtain ⟨we, hw⟩ := hw
      simp only [accepted, Bool.and_eq_true] at ha
      have hd1 : ¬ nearestU c.cf → Disjoint B s₁.assigned ∧ Disjoint C s₁.assigned := fun hn =>
        ⟨(hd hn).1.mono_right (fun x hx => Or.inl hx), (hd hn).2.mono_right (fun x hx => Or.inl hx)⟩
      have hd2 : ¬ nearestU c.cf → Disjoint B s₂.assigned ∧ Disjoint C s₂.assigned := fun hn =>
        ⟨(hd hn).1.mono_right (fun x hx => Or.inr hx), (hd hn).2.mono_right (fun x hx => Or.inr hx)⟩
      rcases hw with ⟨he, w1, w2⟩ | ⟨he, D₁, D₂, w1, w2, w3, w4, w5⟩
      · simp only [live, he, if_true, Bool.and_eq_true] at hlv
        have ht' : top = true → vdepth (c.pushIf true).cf = 0 := fun h => by simpa [Ctx.pushIf, vdepth] using ht h
        by_cases htz : σ.evalU e ≠ 0
        · obtain ⟨k, r, h⟩ := ih s₁ (c.pushIf true) top B C D D' σ (hk.pushIf true) (hl.ifU he).1 w1 hd1 ha.1 hlv.1 ht'
            hi.pushIfU hr haw (fun l a b => by
              obtain ⟨ss, o, ss', hu, hm, hx⟩ := hla l a b
              have hv := evalU_ag (l := l) hu he we
              cases hx with
              | iteT _ h => exact ⟨_, _, _, hu, hm, h⟩
              | iteF h _ => rw [hv] at h; exact absurd h htz)
          exact ⟨k + 1, r, by simp only [run, he, if_true]; rw [if_pos htz]; exact h⟩
        · obtain ⟨k, r, h⟩ := ih s₂ (c.pushIf true) top B C D D' σ (hk.pushIf true) (hl.ifU he).2 w2 hd2 ha.2 hlv.2 ht'
            hi.pushIfU hr haw (fun l a b => by
              obtain ⟨ss, o, ss', hu, hm, hx⟩ := hla l a b
              have hv := evalU_ag (l := l) hu he we
              cases hx with
              | iteT h _ => rw [hv] at h; exact absurd h htz
              | iteF _ h => exact ⟨_, _, _, hu, hm, h⟩)
          exact ⟨k + 1, r, by simp only [run, he, if_true]; rw [if_neg htz]; exact h⟩
      · simp only [live, he, Bool.false_eq_true, if_false, Bool.and_eq_true] at hlv
        obtain ⟨⟨lv1, lv2⟩, lv3⟩ := hlv
        have pc : coh = false ∧ pred = true → calm P d s₁ = true ∧ calm P d s₂ = true := by
          rintro ⟨rfl, rfl⟩
          simpa using lv3
        have i1 : Inv (c.pushIf false) { σ with im := σ.im.and (σ.test e) } :=
          hi.sub (fun l h => by simp at h; exact h.1)
        have hv := varyingIf_tm (P := P) (c := c) (coh := coh) (pred := pred) (t := σ.test e) (s₁ := s₁) (s₂ := s₂)
          (σ := σ) l0
          (fun h => by
            by_cases hw1 : Awake (c.pushIf false) { σ with im := σ.im.and (σ.test e) }
            · refine ih s₁ (c.pushIf false) false B C D D₁ _ (hk.pushIf false) (hl.ifV he).1 w1 hd1 ha.1 lv1
                (by simp) i1 hr hw1 (fun l a b => ?_)
              simp only [Mask.and_apply, Bool.and_eq_true] at a
              obtain ⟨ss, o, ss', hu, hm, hx⟩ := hla l a.1 b
              have hv := eval_ag hu hm we
              cases hx with
              | iteT _ h => exact ⟨_, _, _, hu, hm, h⟩
              | iteF h _ => rw [hv] at h; simp [St.test, h] at a
            · rcases h with h | h
              · exact absurd h hw1
              · exact calm_tm hA l0 d s₁ _ _ (pc h).1 ha.1 (hk.pushIf false) (hl.ifV he).1 i1 hw1)
          (fun k σ₁ hb h => by
            have sd := hb.side i1 (post_all k s₁ _ (hk.pushIf false) (hl.ifV he).1)
            have i2 : Inv (c.pushIf false) { σ₁ with im := σ.im.andNot (σ.test e) } :=
              sd.inv hi (fun l h => by simp at h; simp [h])
            have r2 : RetIn (c.pushIf false) { σ₁ with im := σ.im.andNot (σ.test e) } := by
              cases hb with
              | ran h => exact fun l hl => (run_fl _ _ _ _ _ _ h).inn hr l hl
              | skipped m' _ => exact hr
            by_cases hw1 : Awake (c.pushIf false) { σ₁ with im := σ.im.andNot (σ.test e) }
            · refine ih s₂ (c.pushIf false) false B C (D \ s₁.assigned) D₂ _ (hk.pushIf false) (hl.ifV he).2 w2 hd2 ha.2 lv2
                (by simp) i2 r2 hw1 (fun l a b => ?_)
              simp only [Mask.andNot_apply, Bool.and_eq_true, Bool.not_eq_true'] at a
              have off : (σ.im.and (σ.test e)) l = false := by simp [a.2]
              obtain ⟨ss, o, ss', hu, hm, hx⟩ := hla l a.1 b
              have hv := eval_ag hu hm we
              have hu2 : AgU (D \ s₁.assigned) ss ({ σ₁ with im := σ.im.andNot (σ.test e) } : St n) := by
                intro x hx
                show ss.u x = σ₁.u x
                rw [sd.frame x hx.2]
                exact hu x hx.1
              have hm2 : AgM ss ({ σ₁ with im := σ.im.andNot (σ.test e) } : St n) l :=
                ⟨by show ss.loc = σ₁.loc l; rw [(sd.offm l off).2.2.2.2]; exact hm.1,
                 by show ss.ext = σ₁.ext l; rw [(sd.offf l (Or.inl off)).1]; exact hm.2⟩
              cases hx with
              | iteT h _ => rw [hv] at h; simp [St.test] at a; exact absurd a.2 h
              | iteF _ h => exact ⟨_, _, _, hu2, hm2, h⟩
            · rcases h with h | h
              · exact absurd h hw1
              · exact calm_tm hA l0 d s₂ _ _ (pc h).2 ha.2 (hk.pushIf false) (hl.ifV he).2 i2 hw1)
        obtain ⟨k, r, h⟩ := hv
        exact ⟨k + 1, r, by simp only [run, he, Bool.false_eq_true, if_false]; exact h⟩
    | loop e coh step body =>
      obtain ⟨I, J, w1, w2, w3, w4, w5, w6⟩ := hw
      simp only [accepted, Bool.and_eq_true] at ha
      obtain ⟨⟨hsim, has⟩, hab⟩ := ha
      have hla : Lanes P (N + 1) (.loop e coh step body) I c { σ with brk := allOff, cont := allOff } := fun l a b => by
        obtain ⟨ss, o, ss', hu, hm, hx⟩ := hla l a b
        exact ⟨ss, o, ss', hu.mono w1, hm, hx⟩
      have gb : ∀ u, (u = true → hasVBC 0 body = false) → ∀ k m,
          Good (step.assigned ∪ body.assigned) (c.pushLoop u m) (run P k body) := fun u hu k m σ o σ' hi h =>
        (hgood k body _ (.pushLoop c u m) (.loop c hu) σ o σ' hi h).weaken (fun x hx => Or.inr hx)
      have gs : ∀ u k m, Good (step.assigned ∪ body.assigned) (c.pushLoop u m) (run P k step) := fun u k m σ o σ' hi h =>
        (hgood k step _ (.pushLoop c u m) (.loop c (fun _ => simple_hasVBC hsim)) σ o σ' hi h).weaken
          (fun x hx => Or.inl hx)
      have ss_ : ∀ u k m, Sim P step (run P k step) (c.pushLoop u m) ∅ ∅ J I := fun u k m =>
        sim_all hP k step _ ∅ ∅ J I (.pushLoop c u m) (.loop c (fun _ => simple_hasVBC hsim)) w4
          (fun _ => ⟨Set.empty_disjoint _, Set.empty_disjoint _⟩)
      have hq : ∀ k (c : Ctx n) σ o σ', run P k step c σ = some (o, σ') → o = .normal ∧ σ'.im = σ.im ∧ σ'.ret = σ.ret ∧
          σ'.brk = σ.brk ∧ σ'.cont = σ.cont ∧ σ'.rv = σ.rv := fun k c σ o σ' h => simple_run k step c σ o σ' hsim h
      cases hun : loopUnif e body with
      | true =>
        have hun' : e.isUniform = true ∧ hasVBC 0 body = false := by simpa [loopUnif] using hun
        simp only [live, hun, if_true, Bool.and_eq_true, Bool.or_eq_true, Bool.not_eq_true'] at hlv
        obtain ⟨⟨lv1, lv2⟩, lv3⟩ := hlv
        have ht' : ∀ m, top = true → vdepth (c.pushLoop true m).cf = 0 := fun m h => by
          simpa [Ctx.pushLoop, vdepth] using ht h
        obtain ⟨k, r, h⟩ := forU_tm (P := P) (c := c) (coh := coh) (D' := D') (N := N) hun'.1 w2 (gb true (fun _ => hun'.2)) (gs true)
          (fun k m => sim_all hP k body _ D' J I J (.pushLoop c true m) (.loop c (fun _ => hun'.2)) w3
            (fun hn => absurd (fun x hx => by simp [Ctx.pushLoop, nearest] at hx; subst hx; rfl) hn))
          (ss_ true) hq
          (fun m σ hi hr hw hl => ih body (c.pushLoop true m) top D' J I J σ (.pushLoop c true m) (.loop c (fun _ => hun'.2))
            w3 (fun hn => absurd (fun x hx => by simp [Ctx.pushLoop, nearest] at hx; subst hx; rfl) hn) hab lv1 (ht' m)
            hi hr hw hl)
          (fun m σ hi hr hw hl => ih step (c.pushLoop true m) top ∅ ∅ J I σ (.pushLoop c true m)
            (.loop c (fun _ => simple_hasVBC hsim)) w4 (fun _ => ⟨Set.empty_disjoint _, Set.empty_disjoint _⟩) has lv2 (ht' m)
            hi hr hw hl)
          ht lv3 (N + 1) (Nat.le_refl _) _ (Head.of_inv true hi) hr haw hla
        obtain ⟨r', h'⟩ := wrapLoop_tm (u := true) h
        exact ⟨k + 1, r', by simp only [run, hsim, hun, Bool.not_true, Bool.false_eq_true, if_false, if_true]; exact h'⟩
      | false =>
        obtain ⟨d1, d2, d3, d4⟩ := w6 hun
        simp only [live, hun, Bool.false_eq_true, if_false, Bool.and_eq_true] at hlv
        obtain ⟨⟨lv1, lv2⟩, lv3⟩ := hlv
        obtain ⟨k, r, h⟩ := forV_tm (P := P) (c := c) (coh := coh) (coh' := coh) (D' := D') (N := N) w2 (gb false (fun h => by cases h)) (gs false)
          (fun k m => sim_all hP k body _ D' J I J (.pushLoop c false m) (.loop c (fun h => by cases h)) w3
            (fun _ => ⟨d1, d3⟩))
          (ss_ false) hq
          (fun m σ hi hr hw hl => ih body (c.pushLoop false m) false D' J I J σ (.pushLoop c false m)
            (.loop c (fun h => by cases h)) w3 (fun _ => ⟨d1, d3⟩) hab lv1 (by simp) hi hr hw hl)
          (fun m σ hi hr hl => by
            by_cases hw : Awake c σ
            · exact ih step (c.pushLoop false m) false ∅ ∅ J I σ (.pushLoop c false m)
                (.loop c (fun _ => simple_hasVBC hsim)) w4 (fun _ => ⟨Set.empty_disjoint _, Set.empty_disjoint _⟩) has lv2
                (by simp) hi hr hw (hl hw)
            · exact calm_tm hA l0 d step _ _ lv3 has (.pushLoop c false m) (.loop c (fun _ => simple_hasVBC hsim)) hi hw)
          (N + 1) (Nat.le_refl _) _ (Head.of_inv false hi) hr hla
        obtain ⟨r', h'⟩ := wrapLoop_tm (u := false) h
        exact ⟨k + 1, r', by simp only [run, hsim, hun, Bool.not_true, Bool.false_eq_true, if_false]; exact h'⟩
    | doloop body e coh =>
      obtain ⟨I, J, w1, w2, w3, w4, w5, w6⟩ := hw
      simp only [accepted] at ha
      have hla : Lanes P (N + 1) (.doloop body e coh) I c { σ with brk := allOff, cont := allOff } := fun l a b => by
        obtain ⟨ss, o, ss', hu, hm, hx⟩ := hla l a b
        exact ⟨ss, o, ss', hu.mono w1, hm, hx⟩
      have gb : ∀ u, (u = true → hasVBC 0 body = false) → ∀ k m,
          Good body.assigned (c.pushLoop u m) (run P k body) := fun u hu k m σ o σ' hi h =>
        (hgood k body _ (.pushLoop c u m) (.loop c hu) σ o σ' hi h)
      cases hun : loopUnif e body with
      | true =>
        have hun' : e.isUniform = true ∧ hasVBC 0 body = false := by simpa [loopUnif] using hun
        simp only [live, hun, if_true, Bool.and_eq_true, Bool.or_eq_true, Bool.not_eq_true'] at hlv
        obtain ⟨lv1, lv3⟩ := hlv
        obtain ⟨k, r, h⟩ := doU_tm (P := P) (c := c) (coh := coh) (D' := D') (N := N) hun'.1 w2 w4 (gb true (fun _ => hun'.2))
          (fun k m => sim_all hP k body _ D' J I J (.pushLoop c true m) (.loop c (fun _ => hun'.2)) w3
            (fun hn => absurd (fun x hx => by simp [Ctx.pushLoop, nearest] at hx; subst hx; rfl) hn))
          (fun m σ hi hr hw hl => ih body (c.pushLoop true m) top D' J I J σ (.pushLoop c true m) (.loop c (fun _ => hun'.2))
            w3 (fun hn => absurd (fun x hx => by simp [Ctx.pushLoop, nearest] at hx; subst hx; rfl) hn) ha lv1
            (fun h => by simpa [Ctx.pushLoop, vdepth] using ht h) hi hr hw hl)
          ht lv3 (N + 1) (Nat.le_refl _) _ (Head.of_inv true hi) hr haw hla
        obtain ⟨r', h'⟩ := wrapLoop_tm (u := true) h
        exact ⟨k + 1, r', by simp only [run, hun, if_true]; exact h'⟩
      | false =>
        obtain ⟨d1, d3, d4⟩ := w6 hun
        simp only [live, hun, Bool.false_eq_true, if_false] at hlv
        obtain ⟨k, r, h⟩ := doV_tm (P := P) (c := c) (coh := coh) (coh' := coh) (D' := D') (N := N) w2 w4 (gb false (fun h => by cases h))
          (fun k m => sim_all hP k body _ D' J I J (.pushLoop c false m) (.loop c (fun h => by cases h)) w3
            (fun _ => ⟨d1, d3⟩))
          (fun m σ hi hr hw hl => ih body (c.pushLoop false m) false D' J I J σ (.pushLoop c false m)
            (.loop c (fun h => by cases h)) w3 (fun _ => ⟨d1, d3⟩) ha hlv (by simp) hi hr hw hl)
          (N + 1) (Nat.le_refl _) _ (Head.of_inv false hi) hr haw hla
        obtain ⟨r', h'⟩ := wrapLoop_tm (u := false) h
        exact ⟨k + 1, r', by simp only [run, hun, Bool.false_eq_true, if_false]; exact h'⟩
    | switch e b =>
      obtain ⟨we, F, w1, w2, w3, w4⟩ := hw
      simp only [accepted, Bool.and_eq_true] at ha
      obtain ⟨hok', hab⟩ := ha
      have hok := hok'
      simp only [switchOk, Bool.and_eq_true, decide_eq_true_eq] at hok
      have mem := (((members_accepted hab).and (members_sub (A := b.assigned) hab (fun _ h => h))).and
        (members_wf hab w3)).and (members_vbc (u := !hasVBC 0 b) hab (fun h => by simpa using h))
      cases he : e.isUniform with
      | true =>
        simp only [live, he, if_true] at hlv
        cases hse : switchEntry (σ.evalU e) b with
        | none =>
          obtain ⟨r, h⟩ := doSwitch_none (c := c) (x := fun c s σ => run P 1 s c σ) he hse
          exact ⟨2, r, by simp only [run, hok', if_true]; exact h⟩
        | some ch =>
          have hdF : ¬ nearestU (c.pushSwitch (!hasVBC 0 b) true (full c σ)).cf → Disjoint F b.assigned := by
            intro hn
            apply w4
            cases hx : hasVBC 0 b
            · refine absurd (fun x hx' => ?_) hn
              simp only [Ctx.pushSwitch, nearest, Option.some.injEq] at hx'
              subst hx'; simp [hx]
            · simp
          have htv : (top && !hasVBC 0 b) = true → vdepth (c.pushSwitch (!hasVBC 0 b) true (full c σ)).cf = 0 := by
            intro h
            simp only [Bool.and_eq_true] at h
            simpa [Ctx.pushSwitch, vdepth, h.2] using ht h.1
          have mm := ((mem.and (members_live hab hlv)).imp
            (R := SegT P d N b.assigned D' F (c.pushSwitch (!hasVBC 0 b) true (full c σ))) (by
              rintro t ⟨⟨⟨⟨q1, q2⟩, q3⟩, q4⟩, q5⟩
              have hck : CtxOk (c.pushSwitch (!hasVBC 0 b) true (full c σ)) := .pushSwitch c _ _ _ (fun _ => rfl)
              have hlg : Legal (c.pushSwitch (!hasVBC 0 b) true (full c σ)).cf t := .switch c q4
              have hdj : ¬ nearestU (c.pushSwitch (!hasVBC 0 b) true (full c σ)).cf →
                  Disjoint D' t.assigned ∧ Disjoint ∅ t.assigned :=
                fun hn => ⟨((hdF hn).mono_left w2).mono_right q2, Set.empty_disjoint _⟩
              refine ⟨hlg, fun k σ o σ' hi h => ?_, fun k => sim_all hP k t _ D' ∅ F F hck hlg q3 hdj,
                fun σ' hi hr hw hl => ih t _ (top && !hasVBC 0 b) D' ∅ F F σ' hck hlg q3 hdj q1 q5 htv hi hr hw hl,
                fun hc σ' hi hw => calm_tm hA l0 d t _ σ' hc q1 hck hlg hi hw⟩
              exact (hgood k t _ hck hlg _ _ _ hi h).weaken q2)).switchEntry hse
          obtain ⟨k, ⟨o, σ'⟩, h⟩ := segsU_tm (P := P) (d := d) (.pushSwitch c _ _ _ (fun _ => rfl)) htv ch
            { σ with brk := allOff, cont := allOff } mm
            (suffix_closed (Q := fun s => live P d (top && !hasVBC 0 b) s = true) (fun _ _ _ _ h => live_suffix h) hse hlv)
            (hi.pushSwitchU (!hasVBC 0 b)) hr haw (fun l a b' => by
              obtain ⟨ss, o, ss', hu, hm, hx⟩ := hla l a b'
              have hv := evalU_ag (l := l) hu he we
              cases hx with
              | switchNone h => rw [hv, hse] at h; cases h
              | switchBrk h1 h2 =>
                rw [hv, hse] at h1
                cases h1
                exact ⟨_, _, _, hu.mono w1, hm, h2⟩
              | switchOther h1 h2 _ =>
                rw [hv, hse] at h1
                cases h1
                exact ⟨_, _, _, hu.mono w1, hm, h2⟩)
          obtain ⟨r, h'⟩ := doSwitch_tmU (x := fun c s σ => run P k s c σ) he hse h (segsU_jl rfl h)
          exact ⟨k + 1, r, by simp only [run, hok', if_true]; exact h'⟩
      | false =>
        simp only [live, he, Bool.false_eq_true, if_false, Bool.and_eq_true] at hlv
        have hdF : Disjoint F b.assigned := w4 (by simp [he])
        have mm := ((mem.and (members_live hab hlv.1)).and (members_calm' hab hlv.2)).imp
          (R := fun t => SegT P d N b.assigned D' F (c.pushSwitch false false (full c σ)) t ∧ calm P d t = true) (by
            rintro t ⟨⟨⟨⟨⟨q1, q2⟩, q3⟩, q4⟩, q5⟩, q6⟩
            have hck : CtxOk (c.pushSwitch false false (full c σ)) := .pushSwitch c _ _ _ (fun h => by cases h)
            have hlg : Legal (c.pushSwitch false false (full c σ)).cf t := .switch c (fun h => by cases h)
            have hdj : ¬ nearestU (c.pushSwitch false false (full c σ)).cf →
                Disjoint D' t.assigned ∧ Disjoint ∅ t.assigned :=
              fun hn => ⟨(hdF.mono_left w2).mono_right q2, Set.empty_disjoint _⟩
            refine ⟨⟨hlg, fun k σ o σ' hi h => ?_, fun k => sim_all hP k t _ D' ∅ F F hck hlg q3 hdj,
              fun σ' hi hr hw hl => ih t _ false D' ∅ F F σ' hck hlg q3 hdj q1 q5 (by simp) hi hr hw hl,
              fun hc σ' hi hw => calm_tm hA l0 d t _ σ' hc q1 hck hlg hi hw⟩, q6⟩
            exact (hgood k t _ hck hlg _ _ _ hi h).weaken q2)
        obtain ⟨k, ⟨o, σ'⟩, h⟩ := segsV_tm (P := P) (d := d) (VSw.push c σ) hdF b
          { σ with brk := allOff, cont := allOff, im := allOff } mm ⟨hok.1.2, fun _ h => h, hok.2⟩
          (SegInv.init hi (fun l => σ.eval e l) (caseVals b) b) hr (fun l a => by simp at a)
          (fun l h1 h2 h3 => by
            obtain ⟨ss, o, ss', hu, hm, hx⟩ := hla l h2 h3
            have hv := eval_ag hu hm we
            cases hx with
            | switchNone h =>
              exfalso
              rw [hv, ← firstHit_eq] at h
              obtain ⟨ch, hch⟩ := firstHit_some h1
              rw [h] at hch; cases hch
            | switchBrk hx1 hx2 =>
              rw [hv, ← firstHit_eq] at hx1
              exact ⟨_, ss, _, _, hu.mono w1, hm, hx1, hx2⟩
            | switchOther hx1 hx2 _ =>
              rw [hv, ← firstHit_eq] at hx1
              exact ⟨_, ss, _, _, hu.mono w1, hm, hx1, hx2⟩)
        obtain ⟨r, h'⟩ := doSwitch_tmV (x := fun c s σ => run P k s c σ) he h (segsV_jl rfl h)
        exact ⟨k + 1, r, by simp only [run, hok', if_true]; exact h'⟩
    | call dst f us vs =>
      obtain ⟨w1, w2, w3⟩ := hw
      have hen : nearestU (enterCtx (full c σ)).cf := fun x hx => by simp [enterCtx, nearest] at hx
      refine Tm.call (ih (P f).body _ true ∅ ∅ Set.univ ∅ _ (.enter _) (.none rfl) (hP f) (fun h => absurd hen h) (hA f) (hL f)
        (fun _ => rfl) enter_inv (fun l h => by simp [enterSt] at h) ?_ ?_)
      · obtain ⟨l, a, b⟩ := haw
        exact ⟨l, rfl, by simp [enterCtx, a, b]⟩
      · intro l _ b
        simp only [enterCtx, full_apply, Bool.and_eq_true] at b
        obtain ⟨ss, o, ss', hu, hm, hx⟩ := hla l b.1 b.2
        have eu : us.map (fun e => ss.eval l e) = us.map (fun e => σ.evalU e) :=
          List.map_congr_left fun e he => evalU_ag hu (w1 e he).1 (w1 e he).2
        have ev : vs.map (fun e => ss.eval l e) = vs.map (fun e => σ.eval e l) :=
          List.map_congr_left fun e he => eval_ag hu hm (w2 e he)
        cases hx with
        | call h _ =>
          exact ⟨ss.enter l us vs, _, _, fun x _ => by simp only [SSt.enter, enterSt, eu],
            ⟨by simp only [SSt.enter, enterSt, ev], hm.2⟩, h⟩

end Ispc.Spmd
