import Verif.Spmd.PostProof
import Mathlib.Order.BooleanAlgebra.Set

/-!
# Simulation: each active instance follows its serial execution (helper lemmas for C01, C10, C11)
-/

namespace Ispc.Spmd

variable {n : Nat}

/-- The serial state agrees with the gang state on the uniform variables in `D`. -/
def AgU (D : Set Nat) (ss : SSt) (σ : St n) : Prop := ∀ x ∈ D, ss.u x = σ.u x

/-- The serial state agrees with the gang state on the data of instance `l`. -/
def AgM (ss : SSt) (σ : St n) (l : Fin n) : Prop := ss.loc = σ.loc l ∧ ss.ext = σ.ext l

theorem AgM.mem {ss : SSt} {σ : St n} {l} (h : AgM ss σ l) : ss.mem = σ.mem l := by
  funext b; simp [SSt.mem, St.mem, h.1, h.2]

theorem eval_ag {D} {ss : SSt} {σ : St n} {l} (hu : AgU D ss σ) (hm : AgM ss σ l) : ∀ {e : Expr}, e.uvars ⊆ D →
    ss.eval l e = σ.eval e l := by
  intro e
  unfold SSt.eval St.eval
  rw [hm.mem]
  induction e with
  | const => intro _; rfl
  | uvar x => intro h; exact hu x (h rfl)
  | lane => intro _; rfl
  | vload b a i ih => intro h; simp only [Expr.eval]; rw [ih h]
  | un f e ih => intro h; simp only [Expr.eval]; rw [ih h]
  | bin f e₁ e₂ ih1 ih2 =>
    intro h
    simp only [Expr.eval]
    rw [ih1 (fun x hx => h (Or.inl hx)), ih2 (fun x hx => h (Or.inr hx))]

theorem evalU_ag {D} {ss : SSt} {σ : St n} {l : Nat} (hu : AgU D ss σ) : ∀ {e : Expr}, e.isUniform = true → e.uvars ⊆ D →
    ss.eval l e = σ.evalU e := by
  intro e
  unfold SSt.eval St.evalU
  induction e with
  | const => intro _ _; rfl
  | uvar x => intro _ h; exact hu x (h rfl)
  | lane => intro h; simp [Expr.isUniform] at h
  | vload b a i ih => intro h; simp [Expr.isUniform] at h
  | un f e ih => intro h h2; simp only [Expr.eval]; rw [ih h h2]
  | bin f e₁ e₂ ih1 ih2 =>
    intro h h2
    simp only [Expr.isUniform, Bool.and_eq_true] at h
    simp only [Expr.eval]
    rw [ih1 h.1 (fun x hx => h2 (Or.inl hx)), ih2 h.2 (fun x hx => h2 (Or.inr hx))]

theorem AgU.mono {D D'} {ss : SSt} {σ : St n} (h : AgU D ss σ) (hs : D' ⊆ D) : AgU D' ss σ :=
  fun x hx => h x (hs hx)

theorem AgU.frame {D A} {ss : SSt} {σ σ' : St n} (h : AgU D ss σ) (hf : ∀ x, x ∉ A → σ'.u x = σ.u x)
    (hd : Disjoint D A) : AgU D ss σ' :=
  fun x hx => by rw [hf x (Set.disjoint_left.1 hd hx)]; exact h x hx

/-- How the serial outcome of an instance shows in the gang state. -/
inductive Status (B C D' : Set Nat) (rv0 : Int) (o : Out) (σ' : St n) (l : Fin n) : SOut → SSt → Prop where
  | ret {ss'} : (σ'.ret l = true ∨ o = .ret) → Status B C D' rv0 o σ' l (.ret (σ'.rv l)) ss'
  | brk {ss'} : o ≠ .ret → σ'.brk l = true → σ'.rv l = rv0 → AgU B ss' σ' → Status B C D' rv0 o σ' l .brk ss'
  | cont {ss'} : o ≠ .ret → σ'.cont l = true → σ'.rv l = rv0 → AgU C ss' σ' → Status B C D' rv0 o σ' l .cont ss'
  | act {ss'} : o = .normal → σ'.im l = true → σ'.rv l = rv0 → AgU D' ss' σ' → Status B C D' rv0 o σ' l .normal ss'
  | actB {ss'} : o = .brk → σ'.im l = true → σ'.rv l = rv0 → AgU B ss' σ' → Status B C D' rv0 o σ' l .brk ss'
  | actC {ss'} : o = .cont → σ'.im l = true → σ'.rv l = rv0 → AgU C ss' σ' → Status B C D' rv0 o σ' l .cont ss'

theorem Status.mono {B C D D' rv0 o} {σ' : St n} {l so ss'} (h : Status B C D rv0 o σ' l so ss') (hd : D' ⊆ D) :
    Status B C D' rv0 o σ' l so ss' := by
  cases h with
  | ret h => exact .ret h
  | brk a b c d => exact .brk a b c d
  | cont a b c d => exact .cont a b c d
  | act a b c d => exact .act a b c (d.mono hd)
  | actB a b c d => exact .actB a b c d
  | actC a b c d => exact .actC a b c d

/-- The instance's serial execution of `s` exists and its outcome shows in the gang state. -/
def Follows (P : Prog) (s : Stmt) (B C D' : Set Nat) (l : Fin n) (ss : SSt) (rv0 : Int) (o : Out) (σ' : St n) : Prop :=
  ∃ so ss', Exec P l s ss so ss' ∧ AgM ss' σ' l ∧ Status B C D' rv0 o σ' l so ss'

/-- Code `code` simulates `s`. -/
def Sim (P : Prog) (s : Stmt) (code : Code n) (c : Ctx n) (B C D D' : Set Nat) : Prop :=
  ∀ σ o σ', Inv c σ → code c σ = some (o, σ') → ∀ l ss, σ.im l = true → c.fm l = true →
    AgU D ss σ → AgM ss σ l → Follows P s B C D' l ss (σ.rv l) o σ'

theorem Side.of_post {A} {c : Ctx n} {m σ o σ'} (h : Post A c { σ with im := m } o σ') : Side A c m σ o σ' :=
  ⟨h.offm, h.offf, fun _ => h.mono, fun _ => h.act, h.jump, h.retn, h.nu, h.hc, h.hb, h.excl, h.frame⟩

/-- The outcome of an instance that is off is not affected by what follows. -/
theorem Status.stable {A B C D' D'' rv0} {c : Ctx n} {m σ₁ o σ₂ l so ss'} (s : Side A c m σ₁ o σ₂)
    (hm : m l = false) (hf : c.fm l = true)
    (hex : (σ₁.ret l = true → σ₁.brk l = false ∧ σ₁.cont l = false) ∧ (σ₁.brk l = true → σ₁.cont l = false))
    (hnu : nearestU c.cf → ∀ l, σ₁.brk l = false ∧ σ₁.cont l = false)
    (hd : ¬ nearestU c.cf → Disjoint B A ∧ Disjoint C A)
    (h : Status B C D' rv0 .normal σ₁ l so ss') (hne : so ≠ .normal) : Status B C D'' rv0 o σ₂ l so ss' := by
  obtain ⟨o1, o2, o3, o4, o5⟩ := s.offm l hm
  have nret : σ₁.ret l = false → o ≠ .ret := by
    intro h1 ho
    rcases s.retn ho l hf with h | h
    · have := s.imoff (by rw [ho]; simp) l h; rw [hm] at this; cases this
    · rw [o1, h1] at h; cases h
  cases h with
  | ret h =>
    have hr : σ₁.ret l = true := by simpa using h
    rw [← o4]
    exact .ret (Or.inl (o1.trans hr))
  | brk a b d e =>
    have hr : σ₁.ret l = false := by
      cases hr : σ₁.ret l
      · rfl
      · rw [(hex.1 hr).1] at b; cases b
    have hn : ¬ nearestU c.cf := fun hn => by rw [(hnu hn l).1] at b; cases b
    exact .brk (nret hr) (o2.trans b) (o4.trans d) (e.frame s.frame (hd hn).1)
  | cont a b d e =>
    have hr : σ₁.ret l = false := by
      cases hr : σ₁.ret l
      · rfl
      · rw [(hex.1 hr).2] at b; cases b
    have hn : ¬ nearestU c.cf := fun hn => by rw [(hnu hn l).2] at b; cases b
    exact .cont (nret hr) (o3.trans b) (o4.trans d) (e.frame s.frame (hd hn).2)
  | act => exact absurd rfl hne
  | actB h => cases h
  | actC h => cases h

/-- A stopped instance is off. -/
theorem Status.off {B C D' rv0} {σ₁ : St n} {l so ss'} (h : Status B C D' rv0 .normal σ₁ l so ss') (hne : so ≠ .normal)
    (hact : σ₁.im l = true → σ₁.ret l = false ∧ σ₁.brk l = false ∧ σ₁.cont l = false) : σ₁.im l = false := by
  cases him : σ₁.im l
  · rfl
  · have := hact him
    cases h with
    | ret h => simp [this.1] at h
    | brk a b => rw [this.2.1] at b; cases b
    | cont a b => rw [this.2.2] at b; cases b
    | act => exact absurd rfl hne
    | actB h => cases h
    | actC h => cases h

/-! ### Leaf statements -/

theorem sim_break {P : Prog} {c : Ctx n} {B C D D'} (hB : B ⊆ D) : Sim P .brk (fun c σ => doBreak c σ) c B C D D' := by
  intro σ o σ' hi h l ss him hfm hu hm
  refine ⟨.brk, ss, .brk, ?_⟩
  simp only [doBreak] at h
  split at h
  · cases h
  split at h
  · simp only [Option.some.injEq, Prod.mk.injEq] at h
    obtain ⟨rfl, rfl⟩ := h
    exact ⟨hm, .actB rfl him rfl (hu.mono hB)⟩
  split at h
  · simp only [Option.some.injEq, Prod.mk.injEq] at h
    obtain ⟨rfl, rfl⟩ := h
    exact ⟨hm, .actB rfl him rfl (hu.mono hB)⟩
  split at h
  · cases h
  split at h
  · simp only [Option.some.injEq, Prod.mk.injEq] at h
    obtain ⟨rfl, rfl⟩ := h
    exact ⟨hm, .brk (by split <;> simp) (by simp [him]) rfl (hu.mono hB)⟩
  · simp only [Option.some.injEq, Prod.mk.injEq] at h
    obtain ⟨rfl, rfl⟩ := h
    exact ⟨hm, .brk (by simp) (by simp [him]) rfl (hu.mono hB)⟩

theorem sim_continue {P : Prog} {c : Ctx n} {B C D D'} (hC : C ⊆ D) :
    Sim P .cont (fun c σ => doContinue c σ) c B C D D' := by
  intro σ o σ' hi h l ss him hfm hu hm
  refine ⟨.cont, ss, .cont, ?_⟩
  simp only [doContinue] at h
  split at h
  · cases h
  split at h
  · simp only [Option.some.injEq, Prod.mk.injEq] at h
    obtain ⟨rfl, rfl⟩ := h
    exact ⟨hm, .actC rfl him rfl (hu.mono hC)⟩
  split at h
  · cases h
  split at h
  · simp only [Option.some.injEq, Prod.mk.injEq] at h
    obtain ⟨rfl, rfl⟩ := h
    exact ⟨hm, .cont (by simp) (by simp [him]) rfl (hu.mono hC)⟩
  · simp only [Option.some.injEq, Prod.mk.injEq] at h
    obtain ⟨rfl, rfl⟩ := h
    exact ⟨hm, .cont (by simp) (by simp [him]) rfl (hu.mono hC)⟩

theorem sim_return {P : Prog} {c : Ctx n} {e B C D D'} (he : e.uvars ⊆ D) :
    Sim P (.ret e) (fun c σ => doReturn c e σ) c B C D D' := by
  intro σ o σ' hi h l ss him hfm hu hm
  refine ⟨_, ss, .ret, ?_⟩
  have hv := eval_ag hu hm he
  simp only [doReturn] at h
  split at h
  · simp only [Option.some.injEq, Prod.mk.injEq] at h
    obtain ⟨rfl, rfl⟩ := h
    refine ⟨hm, ?_⟩
    have := Status.ret (B := B) (C := C) (D' := D') (rv0 := σ.rv l) (o := .ret) (l := l) (ss' := ss)
      (σ' := { σ with rv := fun l => if σ.im l then σ.eval e l else σ.rv l }) (Or.inr rfl)
    simpa [him, hv] using this
  · have key : ∀ o, Status B C D' (σ.rv l) o { σ with
        rv := fun l => if σ.im l then σ.eval e l else σ.rv l
        ret := σ.ret.or (full c σ), im := allOff } l (.ret (ss.eval l e)) ss := by
      intro o
      have := Status.ret (B := B) (C := C) (D' := D') (rv0 := σ.rv l) (o := o) (l := l) (ss' := ss)
        (σ' := { σ with rv := fun l => if σ.im l then σ.eval e l else σ.rv l
                        ret := σ.ret.or (full c σ), im := allOff }) (Or.inl (by simp [him, hfm]))
      simpa [him, hv] using this
    split at h
    · simp only [Option.some.injEq, Prod.mk.injEq] at h
      obtain ⟨rfl, rfl⟩ := h
      exact ⟨hm, key _⟩
    · simp only [Option.some.injEq, Prod.mk.injEq] at h
      obtain ⟨rfl, rfl⟩ := h
      exact ⟨hm, key _⟩

theorem sim_vassign {P : Prog} {c : Ctx n} {b a i e B C D D'} (hi' : i.uvars ⊆ D) (he : e.uvars ⊆ D) (hD : D' ⊆ D) :
    Sim P (.vassign b a i e) (fun c σ => some (.normal, doVassign c b a i e σ)) c B C D D' := by
  intro σ o σ' hi h l ss him hfm hu hm
  simp only [Option.some.injEq, Prod.mk.injEq] at h
  obtain ⟨rfl, rfl⟩ := h
  refine ⟨.normal, _, .vassign, ?_, ?_⟩
  · rw [eval_ag hu hm hi', eval_ag hu hm he]
    cases b
    · simp [AgM, SSt.store, doVassign, him, hm.1, hm.2]
    · simp [AgM, SSt.store, doVassign, him, hfm, hm.1, hm.2]
  · refine .act rfl ?_ ?_ ?_
    · cases b <;> simp [doVassign, him]
    · cases b <;> simp [doVassign]
    · intro x hx
      have := hu x (hD hx)
      cases b <;> simpa [SSt.store, doVassign] using this

/-! ### Varying `if` -/

theorem sim_varyingIf {P : Prog} {c : Ctx n} {e coh pred s₁ s₂ st sf B C D D' D₁ D₂}
    (he : e.uvars ⊆ D)
    (g₁ : Good s₁.assigned (c.pushIf false) st) (g₂ : Good s₂.assigned (c.pushIf false) sf)
    (h₁ : Sim P s₁ st (c.pushIf false) B C D D₁) (h₂ : Sim P s₂ sf (c.pushIf false) B C (D \ s₁.assigned) D₂)
    (hD₁ : D' ⊆ D₁) (hD₂ : D' ⊆ D₂) (hdj : Disjoint D' s₂.assigned)
    (hd : ¬ nearestU c.cf → Disjoint B (s₁.assigned ∪ s₂.assigned) ∧ Disjoint C (s₁.assigned ∪ s₂.assigned)) :
    Sim P (.ite e coh pred s₁ s₂) (fun c σ => varyingIf c coh pred (σ.test e) st sf σ) c B C D D' := by
  intro σ o σ' hi h l ss him hfm hu hm
  have hv := eval_ag hu hm he
  have i1 : Inv (c.pushIf false) { σ with im := σ.im.and (σ.test e) } :=
    hi.sub (fun l h => by simp at h; exact h.1)
  have hact := hi.act l him hfm
  have hd2 : ¬ nearestU c.cf → Disjoint B s₂.assigned ∧ Disjoint C s₂.assigned := fun hn =>
    ⟨(hd hn).1.mono_right (fun x hx => Or.inr hx), (hd hn).2.mono_right (fun x hx => Or.inr hx)⟩
  -- a branch that jumps cannot leave behind an instance that is off and not flagged
  have nojump : ∀ {A m σ₁ o σ₂}, Side A (c.pushIf false) m σ₁ o σ₂ → m l = false →
      σ₁.ret l = false → σ₁.brk l = false → σ₁.cont l = false → o = .normal := by
    intro A m σ₁ o σ₂ s hml r b k
    obtain ⟨o1, o2, o3, _⟩ := s.offm l hml
    have fl : σ₂.flag l = false := by simp [St.flag, o1, o2, o3, r, b, k]
    have jj : ¬ (o = .brk ∨ o = .cont) := by
      intro ho
      rcases s.jump ho l hact.2.2.2 with h | h
      · have := s.imoff (by rcases ho with h | h <;> simp [h]) l h
        rw [hml] at this; cases this
      · rw [fl] at h; cases h
    have rr : o ≠ .ret := by
      intro ho
      rcases s.retn ho l hfm with h | h
      · have := s.imoff (by simp [ho]) l h
        rw [hml] at this; cases this
      · rw [o1, r] at h; cases h
    cases o <;> simp_all
  by_cases ht : ss.eval l e = 0
  · -- the instance wants the false side
    have htl : σ.test e l = false := by simp [St.test, ← hv, ht]
    have hm1 : (σ.im.and (σ.test e)) l = false := by simp [htl]
    have hm2 : (σ.im.andNot (σ.test e)) l = true := by simp [htl, him]
    have second : ∀ {σ₁ o₂ σ₂}, Side s₁.assigned (c.pushIf false) (σ.im.and (σ.test e)) σ .normal σ₁ →
        Branch (c.pushIf false) (σ.im.andNot (σ.test e)) sf σ₁ o₂ σ₂ →
        Follows P s₂ B C D₂ l ss (σ.rv l) o₂ σ₂ := by
      intro σ₁ o₂ σ₂ sd b2
      obtain ⟨q1, q2, q3, q4, q5⟩ := sd.offm l hm1
      cases b2 with
      | skipped m' hs =>
        have := hs l hm2
        rw [show (c.pushIf false).fm l = c.fm l from rfl, hfm] at this; cases this
      | ran hr =>
        have i2 : Inv (c.pushIf false) { σ₁ with im := σ.im.andNot (σ.test e) } :=
          sd.inv hi (fun l h => by simp at h; simp [h])
        have := h₂ _ _ _ i2 hr l ss hm2 hfm
          ((hu.mono Set.sdiff_subset).frame sd.frame Set.disjoint_sdiff_left)
          ⟨by simp [q5, hm.1], by simp [(sd.offf l (Or.inl hm1)).1, hm.2]⟩
        rw [← q4]; exact this
    rcases varyingIf_cases h with ⟨ho, b1⟩ | ⟨σ₁, b1, h⟩
    · exact absurd (nojump (b1.side i1 g₁) hm1 hact.1 hact.2.1 hact.2.2.1) ho
    · have s1 := b1.side i1 g₁
      rcases h with ⟨ho, b2⟩ | ⟨rfl, σ₂, b2, rfl⟩
      · obtain ⟨so, ss', he', hm', hst⟩ := second s1 b2
        exact ⟨so, ss', .iteF ht he', hm', hst.mono hD₂⟩
      · obtain ⟨so, ss', he', hm', hst⟩ := second s1 b2
        have i2 : Inv (c.pushIf false) { σ₁ with im := σ.im.andNot (σ.test e) } :=
          s1.inv hi (fun l h => by simp at h; simp [h])
        have s2 := b2.side i2 g₂
        obtain ⟨e1, e2, e3, e4, e5, e6, e7⟩ := endIf_rest c σ.im σ₂
        refine ⟨so, ss', .iteF ht he', ⟨by rw [e2]; exact hm'.1, by rw [e3]; exact hm'.2⟩, ?_⟩
        have agu : ∀ {X}, AgU X ss' σ₂ → AgU X ss' (endIf c σ.im σ₂) := fun h x hx => by rw [e1]; exact h x hx
        cases hst with
        | ret h => rw [← e7]; exact .ret (by rw [e4]; exact h)
        | brk a b d f => exact .brk a (by rw [e5]; exact b) (by rw [e7]; exact d) (agu f)
        | cont a b d f => exact .cont a (by rw [e6]; exact b) (by rw [e7]; exact d) (agu f)
        | act a b d f =>
          refine .act rfl ?_ (by rw [e7]; exact d) (agu (f.mono hD₂))
          rw [endIf_im (c := c) s2.hc s2.hb, him]
          cases b2 with
          | skipped m' hs =>
            have := hs l hm2
            rw [show (c.pushIf false).fm l = c.fm l from rfl, hfm] at this; cases this
          | ran hr =>
            have := (g₂ _ _ _ i2 hr).act l b hfm
            simp [St.flag, this]
        | actB a => cases a
        | actC a => cases a
  · -- the instance wants the true side
    have htl : σ.test e l = true := by simp [St.test, ← hv, ht]
    have hm1 : (σ.im.and (σ.test e)) l = true := by simp [htl, him]
    have hm2 : (σ.im.andNot (σ.test e)) l = false := by simp [htl]
    have first : ∀ {o₁ σ₁}, Branch (c.pushIf false) (σ.im.and (σ.test e)) st σ o₁ σ₁ →
        Follows P s₁ B C D₁ l ss (σ.rv l) o₁ σ₁ ∧
        (σ₁.im l = true → σ₁.ret l = false ∧ σ₁.brk l = false ∧ σ₁.cont l = false) := by
      intro o₁ σ₁ b1
      cases b1 with
      | skipped m' hs =>
        have := hs l hm1
        rw [show (c.pushIf false).fm l = c.fm l from rfl, hfm] at this; cases this
      | ran hr => exact ⟨h₁ _ _ _ i1 hr l ss hm1 hfm hu hm, fun h => (g₁ _ _ _ i1 hr).act l h hfm⟩
    rcases varyingIf_cases h with ⟨ho, b1⟩ | ⟨σ₁, b1, h⟩
    · obtain ⟨so, ss', he', hm', hst⟩ := (first b1).1
      exact ⟨so, ss', .iteT ht he', hm', hst.mono hD₁⟩
    · obtain ⟨⟨so, ss', he', hm', hst⟩, hact1⟩ := first b1
      have s1 := b1.side i1 g₁
      have i2 : Inv (c.pushIf false) { σ₁ with im := σ.im.andNot (σ.test e) } :=
        s1.inv hi (fun l h => by simp at h; simp [h])
      rcases h with ⟨ho, b2⟩ | ⟨rfl, σ₂, b2, rfl⟩
      · have s2 := b2.side i2 g₂
        obtain ⟨q1, q2, q3, q4, q5⟩ := s2.offm l hm2
        have hne : so ≠ .normal := by
          intro hso
          subst hso
          cases hst with
          | act a b d f =>
            obtain ⟨x, y, z⟩ := hact1 b
            exact ho (nojump s2 hm2 x y z)
        refine ⟨so, ss', .iteT ht he', ⟨by rw [q5]; exact hm'.1, by rw [(s2.offf l (Or.inl hm2)).1]; exact hm'.2⟩, ?_⟩
        exact hst.stable s2 hm2 hfm (s1.excl l hfm) s1.nu hd2 hne
      · have s2 := b2.side i2 g₂
        obtain ⟨q1, q2, q3, q4, q5⟩ := s2.offm l hm2
        obtain ⟨e1, e2, e3, e4, e5, e6, e7⟩ := endIf_rest c σ.im σ₂
        have agu : ∀ {X}, AgU X ss' σ₂ → AgU X ss' (endIf c σ.im σ₂) := fun h x hx => by rw [e1]; exact h x hx
        refine ⟨so, ss', .iteT ht he', ⟨by rw [e2, q5]; exact hm'.1,
          by rw [e3, (s2.offf l (Or.inl hm2)).1]; exact hm'.2⟩, ?_⟩
        by_cases hne : so = .normal
        · subst hne
          cases hst with
          | act a b d f =>
            obtain ⟨x, y, z⟩ := hact1 b
            refine .act rfl ?_ (by rw [e7, q4]; exact d) (agu ((f.mono hD₁).frame s2.frame hdj))
            rw [endIf_im (c := c) s2.hc s2.hb, him]
            simp [St.flag, q1, q2, q3, x, y, z]
        · have hst := hst.stable (D'' := D') s2 hm2 hfm (s1.excl l hfm) s1.nu hd2 hne
          cases hst with
          | ret h => rw [← e7]; exact .ret (by rw [e4]; exact h)
          | brk a b d f => exact .brk a (by rw [e5]; exact b) (by rw [e7]; exact d) (agu f)
          | cont a b d f => exact .cont a (by rw [e6]; exact b) (by rw [e7]; exact d) (agu f)
          | act => exact absurd rfl hne
          | actB a => cases a
          | actC a => cases a

end Ispc.Spmd
