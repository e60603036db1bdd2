import Verif.Spmd.Wf
import Mathlib.Tactic.Cases
import Mathlib.Tactic.Tauto

/-!
# Mask invariants of the gang machine (helper lemmas for C01-C05, C10)
-/

namespace Ispc.Spmd

variable {n : Nat}

@[simp] theorem allOn_apply (l : Fin n) : (allOn : Mask n) l = true := rfl
@[simp] theorem allOff_apply (l : Fin n) : (allOff : Mask n) l = false := rfl
@[simp] theorem Mask.and_apply (a b : Mask n) (l : Fin n) : a.and b l = (a l && b l) := rfl
@[simp] theorem Mask.or_apply (a b : Mask n) (l : Fin n) : a.or b l = (a l || b l) := rfl
@[simp] theorem Mask.andNot_apply (a b : Mask n) (l : Fin n) : a.andNot b l = (a l && !b l) := rfl
@[simp] theorem full_apply (c : Ctx n) (σ : St n) (l : Fin n) : full c σ l = (σ.im l && c.fm l) := rfl

theorem Mask.any_false {a : Mask n} (h : a.any = false) (l : Fin n) : a l = false := by
  simp only [Mask.any, decide_eq_false_iff_not, not_exists] at h
  simpa using h l

theorem Mask.all_true {a : Mask n} (h : a.all = true) : a = allOn := by
  simp only [Mask.all, decide_eq_true_eq] at h
  funext l; exact h l

theorem Mask.equal_true {a b : Mask n} (h : a.equal b = true) (l : Fin n) : a l = b l := by
  simp only [Mask.equal, decide_eq_true_eq] at h
  exact h l

/-- First enclosing entry that is not an `if`. -/
def nearest : List CF → Option CF
  | [] => none
  | ⟨.ifK, _⟩ :: t => nearest t
  | x :: _ => some x

/-- Number of varying `if`s inside that entry. -/
def vifs : List CF → Nat
  | [] => 0
  | ⟨.ifK, u⟩ :: t => (if u then 0 else 1) + vifs t
  | _ :: _ => 0

/-- The nearest loop/switch, if any, is uniform. -/
def nearestU (cf : List CF) : Prop := ∀ x, nearest cf = some x → x.unif = true

/-- Position at which all running instances of the loop iteration are together. -/
def posU (c : Ctx n) : Prop := vifs c.cf = 0 ∧ (inSwitch c.cf = true → c.swU = true)

/-- Agreement between the control-flow stack and the other compile-time fields. -/
structure CtxOk (c : Ctx n) : Prop where
  none_ : nearest c.cf = none → c.brkTgt = false ∧ c.contTgt = false ∧ c.hasBrk = false ∧ c.hasCont = false
  loop_ : ∀ u, nearest c.cf = some ⟨.loopK, u⟩ → c.hasBrk = !u ∧ c.hasCont = !u ∧ c.contTgt = true
  switch_ : ∀ u, nearest c.cf = some ⟨.switchK, u⟩ →
    c.hasBrk = true ∧ c.hasCont = false ∧ c.contTgt = false ∧ (u = true → c.swU = true)

/-- If the nearest loop/switch is uniform, the statement has no varying break/continue for it. -/
def Legal (cf : List CF) (s : Stmt) : Prop := ∀ x, nearest cf = some x → x.unif = true → hasVBC (vifs cf) s = false

/-- Has the instance left the normal flow (returned, broken out or continued)? -/
def St.flag (σ : St n) (l : Fin n) : Bool := σ.ret l || σ.brk l || σ.cont l

/-- Invariant on entry to a statement. -/
structure Inv (c : Ctx n) (σ : St n) : Prop where
  bemfm : ∀ l, c.bem l = true → c.fm l = true
  act : ∀ l, σ.im l = true → c.fm l = true →
    σ.ret l = false ∧ σ.brk l = false ∧ σ.cont l = false ∧ c.bem l = true
  pos : posU c → ∀ l, c.bem l = true → σ.im l = true ∨ σ.flag l = true
  d0 : vdepth c.cf = 0 → ∀ l, c.fm l = true → σ.im l = true ∨ σ.ret l = true
  nu : nearestU c.cf → ∀ l, σ.brk l = false ∧ σ.cont l = false
  hc : c.hasCont = false → ∀ l, σ.cont l = false
  hb : c.hasBrk = false → ∀ l, σ.brk l = false
  excl : ∀ l, c.fm l = true →
    (σ.ret l = true → σ.brk l = false ∧ σ.cont l = false) ∧ (σ.brk l = true → σ.cont l = false)

/-- What a statement does to the mask machinery. `A` bounds the uniform variables assigned. -/
structure Post (A : Set Nat) (c : Ctx n) (σ : St n) (o : Out) (σ' : St n) : Prop where
  mono : ∀ l, σ'.im l = true → σ.im l = true
  offm : ∀ l, σ.im l = false →
    σ'.ret l = σ.ret l ∧ σ'.brk l = σ.brk l ∧ σ'.cont l = σ.cont l ∧ σ'.rv l = σ.rv l ∧ σ'.loc l = σ.loc l
  offf : ∀ l, σ.im l = false ∨ c.fm l = false → σ'.ext l = σ.ext l ∧ σ'.ret l = σ.ret l
  act : ∀ l, σ'.im l = true → c.fm l = true → σ'.ret l = false ∧ σ'.brk l = false ∧ σ'.cont l = false
  conv : o = .normal → ∀ l, σ.im l = true → c.fm l = true → σ'.im l = true ∨ σ'.flag l = true
  jump : o = .brk ∨ o = .cont → ∀ l, c.bem l = true → σ'.im l = true ∨ σ'.flag l = true
  retn : o = .ret → ∀ l, c.fm l = true → σ'.im l = true ∨ σ'.ret l = true
  nu : nearestU c.cf → ∀ l, σ'.brk l = false ∧ σ'.cont l = false
  hc : c.hasCont = false → ∀ l, σ'.cont l = false
  hb : c.hasBrk = false → ∀ l, σ'.brk l = false
  excl : ∀ l, c.fm l = true →
    (σ'.ret l = true → σ'.brk l = false ∧ σ'.cont l = false) ∧ (σ'.brk l = true → σ'.cont l = false)
  frame : ∀ x, x ∉ A → σ'.u x = σ.u x

theorem Post.offlag {A} {c : Ctx n} {σ o σ'} (h : Post A c σ o σ') {l} (hl : σ.im l = false) :
    σ'.flag l = σ.flag l := by
  obtain ⟨h1, h2, h3, _⟩ := h.offm l hl
  simp [St.flag, h1, h2, h3]

theorem Post.weaken {A A'} {c : Ctx n} {σ o σ'} (h : Post A c σ o σ') (hA : A ⊆ A') : Post A' c σ o σ' :=
  { h with frame := fun x hx => h.frame x (fun h' => hx (hA h')) }

theorem Post.imoff {A} {c : Ctx n} {σ o σ'} (h : Post A c σ o σ') {l} (hl : σ.im l = false) : σ'.im l = false := by
  cases h' : σ'.im l
  · rfl
  · rw [h.mono l h'] at hl; cases hl

theorem nearestU_of_vdepth {cf : List CF} (h : vdepth cf = 0) : nearestU cf := by
  induction cf with
  | nil => intro x hx; simp [nearest] at hx
  | cons a t ih =>
    obtain ⟨k, u⟩ := a
    have hu : u = true := by
      cases u
      · simp [vdepth] at h
      · rfl
    have ht : vdepth t = 0 := by
      subst hu; simpa [vdepth] using h
    cases k
    · intro x hx; exact ih ht x (by simpa [nearest] using hx)
    · intro x hx; simp [nearest] at hx; subst hx; exact hu
    · intro x hx; simp [nearest] at hx; subst hx; exact hu

/-- The lanes active before are active or flagged after, whatever the (non-return) outcome. -/
theorem Post.conv' {A} {c : Ctx n} {σ o σ'} (h : Post A c σ o σ') (hi : Inv c σ) (ho : o ≠ .ret) (l)
    (h1 : σ.im l = true) (h2 : c.fm l = true) : σ'.im l = true ∨ σ'.flag l = true := by
  cases o
  · exact h.conv rfl l h1 h2
  · exact h.jump (Or.inl rfl) l (hi.act l h1 h2).2.2.2
  · exact h.jump (Or.inr rfl) l (hi.act l h1 h2).2.2.2
  · exact absurd rfl ho

theorem Inv.of_post {A} {c : Ctx n} {σ o σ'} (hi : Inv c σ) (h : Post A c σ o σ') (ho : o ≠ .ret) : Inv c σ' where
  bemfm := hi.bemfm
  act := fun l h1 h2 => by
    obtain ⟨a, b, d⟩ := h.act l h1 h2
    exact ⟨a, b, d, (hi.act l (h.mono l h1) h2).2.2.2⟩
  pos := fun hp l hb => by
    cases him : σ.im l with
    | true => exact h.conv' hi ho l him (hi.bemfm l hb)
    | false =>
      rcases hi.pos hp l hb with h1 | h1
      · rw [him] at h1; cases h1
      · right; rw [h.offlag him]; exact h1
  d0 := fun hd l hf => by
    have hn := h.nu (nearestU_of_vdepth hd) l
    cases him : σ.im l with
    | true =>
      rcases h.conv' hi ho l him hf with h1 | h1
      · exact Or.inl h1
      · right; simpa [St.flag, hn.1, hn.2] using h1
    | false =>
      rcases hi.d0 hd l hf with h1 | h1
      · rw [him] at h1; cases h1
      · right; rw [(h.offm l him).1]; exact h1
  nu := h.nu
  hc := h.hc
  hb := h.hb
  excl := h.excl

/-- Sequential composition. -/
theorem Post.seq {A₁ A₂} {c : Ctx n} {σ σ₁ σ₂ o} (h₁ : Post A₁ c σ .normal σ₁) (h₂ : Post A₂ c σ₁ o σ₂) :
    Post (A₁ ∪ A₂) c σ o σ₂ where
  mono := fun l h => h₁.mono l (h₂.mono l h)
  offm := fun l h => by
    have a := h₁.offm l h
    have b := h₂.offm l (h₁.imoff h)
    exact ⟨b.1.trans a.1, b.2.1.trans a.2.1, b.2.2.1.trans a.2.2.1, b.2.2.2.1.trans a.2.2.2.1,
      b.2.2.2.2.trans a.2.2.2.2⟩
  offf := fun l h => by
    have a := h₁.offf l h
    have b := h₂.offf l (h.imp (fun h => h₁.imoff h) id)
    exact ⟨b.1.trans a.1, b.2.trans a.2⟩
  act := h₂.act
  conv := fun ho l h1 h2 => by
    cases him : σ₁.im l with
    | true => exact h₂.conv ho l him h2
    | false =>
      rcases h₁.conv rfl l h1 h2 with h | h
      · rw [him] at h; cases h
      · right; rw [h₂.offlag him]; exact h
  jump := h₂.jump
  retn := h₂.retn
  nu := h₂.nu
  hc := h₂.hc
  hb := h₂.hb
  excl := h₂.excl
  frame := fun x hx => by
    rw [h₂.frame x (fun h => hx (Or.inr h)), h₁.frame x (fun h => hx (Or.inl h))]

theorem Post.refl {A} {c : Ctx n} {σ : St n} (hi : Inv c σ) : Post A c σ .normal σ where
  mono := fun _ h => h
  offm := fun _ _ => ⟨rfl, rfl, rfl, rfl, rfl⟩
  offf := fun _ _ => ⟨rfl, rfl⟩
  act := fun l h1 h2 => ⟨(hi.act l h1 h2).1, (hi.act l h1 h2).2.1, (hi.act l h1 h2).2.2.1⟩
  conv := fun _ _ h _ => Or.inl h
  jump := fun h => by rcases h with h | h <;> cases h
  retn := fun h => by cases h
  nu := hi.nu
  hc := hi.hc
  hb := hi.hb
  excl := hi.excl
  frame := fun _ _ => rfl

/-! ### Coherent variants reduce to the plain ones -/

theorem coherentBody_eq (c : Ctx n) (coh : Bool) (body : Code n) (σ : St n) :
    coherentBody c coh body σ = body (c.pushLoop false (full c σ)) σ := by
  unfold coherentBody
  split
  · rename_i h
    simp only [Bool.and_eq_true] at h
    have hf := Mask.all_true h.2
    have h1 : σ.im = allOn := by
      funext l; have := congrFun hf l; simp at this; simpa using this.1
    have h2 : c.fm = allOn := by
      funext l; have := congrFun hf l; simp at this; simpa using this.2
    have e1 : ({ σ with im := allOn } : St n) = σ := by rw [← h1]
    have e2 : ({ c.pushLoop false (full c σ) with fm := allOn } : Ctx n) = c.pushLoop false (full c σ) := by
      simp [Ctx.pushLoop, h2]
    simp only [e1, e2]
  · rfl

theorem funcBody_eq (chk : Bool) (m : Mask n) (body : Code n) (σ : St n) :
    funcBody chk m body σ = body (enterCtx m) σ := by
  unfold funcBody
  split
  · rename_i h
    simp only [Bool.and_eq_true] at h
    rw [Mask.all_true h.2]
  · rfl

/-- One side of a varying `if`: it is run with mask `m`, or skipped when no active instance wants it. -/
inductive Branch (c : Ctx n) (m : Mask n) (code : Code n) (σ : St n) : Out → St n → Prop where
  | ran {o σ'} : code c { σ with im := m } = some (o, σ') → Branch c m code σ o σ'
  | skipped (m') : (∀ l, m l = true → c.fm l = false) → Branch c m code σ .normal { σ with im := m' }

theorem andThen_some {r : Option (Out × St n)} {b o σ'} (h : andThen r b = some (o, σ')) :
    (r = some (o, σ') ∧ o ≠ .normal) ∨ ∃ σ₁, r = some (.normal, σ₁) ∧ b σ₁ = some (o, σ') := by
  unfold andThen at h
  split at h
  · cases h
  · right; exact ⟨_, rfl, h⟩
  · rename_i r' hr
    left
    simp only [Option.some.injEq] at h
    subst h
    refine ⟨rfl, ?_⟩
    intro ho; subst ho
    exact hr _ rfl

/-- Every way of executing a varying `if` is: the true side, then the false side, then `endIf`; a jump out of a
side skips the rest. -/
theorem varyingIf_cases {c : Ctx n} {coh pred t st sf σ o σ'}
    (h : varyingIf c coh pred t st sf σ = some (o, σ')) :
    (o ≠ .normal ∧ Branch (c.pushIf false) (σ.im.and t) st σ o σ') ∨
    (∃ σ₁, Branch (c.pushIf false) (σ.im.and t) st σ .normal σ₁ ∧
      ((o ≠ .normal ∧ Branch (c.pushIf false) (σ.im.andNot t) sf σ₁ o σ') ∨
       (o = .normal ∧ ∃ σ₂, Branch (c.pushIf false) (σ.im.andNot t) sf σ₁ .normal σ₂ ∧ σ' = endIf c σ.im σ₂))) := by
  have mixed : ∀ {o σ'}, maskMixed c t st sf σ = some (o, σ') →
      (o ≠ .normal ∧ Branch (c.pushIf false) (σ.im.and t) st σ o σ') ∨
      (∃ σ₁, Branch (c.pushIf false) (σ.im.and t) st σ .normal σ₁ ∧
        ((o ≠ .normal ∧ Branch (c.pushIf false) (σ.im.andNot t) sf σ₁ o σ') ∨
         (o = .normal ∧ ∃ σ₂, Branch (c.pushIf false) (σ.im.andNot t) sf σ₁ .normal σ₂ ∧
            σ' = endIf c σ.im σ₂))) := by
    intro o σ' h
    have br : ∀ {m : Mask n} {code : Code n} {σ : St n} {o σ'},
        (if (full (c.pushIf false) { σ with im := m }).any then code (c.pushIf false) { σ with im := m }
          else some (.normal, { σ with im := m })) = some (o, σ') →
        Branch (c.pushIf false) m code σ o σ' := by
      intro m code σ o σ' h
      split at h
      · exact .ran h
      · rename_i hn
        simp only [Option.some.injEq, Prod.mk.injEq] at h
        obtain ⟨rfl, rfl⟩ := h
        refine .skipped _ fun l hl => ?_
        have := Mask.any_false (by simpa using hn) l
        simpa [hl] using this
    unfold maskMixed at h
    rcases andThen_some h with ⟨h1, ho⟩ | ⟨σ₁, h1, h⟩
    · exact Or.inl ⟨ho, br h1⟩
    · right
      refine ⟨σ₁, br h1, ?_⟩
      rcases andThen_some h with ⟨h2, ho⟩ | ⟨σ₂, h2, h⟩
      · exact Or.inl ⟨ho, br h2⟩
      · simp only [Option.some.injEq, Prod.mk.injEq] at h
        exact Or.inr ⟨h.1.symm, σ₂, br h2, h.2.symm⟩
  unfold varyingIf at h
  split at h
  · split at h
    · rename_i _ hall
      have hf := Mask.all_true hall
      have h1 : σ.im = allOn := by
        funext l; have := congrFun hf l; simp at this; simpa using this.1
      have h2 : c.fm = allOn := by
        funext l; have := congrFun hf l; simp at this; simpa using this.2
      have hc : ({ c.pushIf false with fm := allOn } : Ctx n) = c.pushIf false := by
        simp [Ctx.pushIf, h2]
      unfold maskAllOn at h
      simp only [hc] at h
      split at h
      · rename_i ht
        have ht := Mask.all_true ht
        have e1 : σ.im.and t = allOn := by funext l; simp [h1, ht]
        rcases andThen_some h with ⟨hr, ho⟩ | ⟨σ₁, hr, h⟩
        · left; exact ⟨ho, .ran (by rw [e1]; exact hr)⟩
        · right
          refine ⟨σ₁, .ran (by rw [e1]; exact hr), Or.inr ?_⟩
          simp only [Option.some.injEq, Prod.mk.injEq] at h
          refine ⟨h.1.symm, σ₁, ?_, ?_⟩
          · have := Branch.skipped (c := c.pushIf false) (m := σ.im.andNot t) (code := sf) (σ := σ₁) σ₁.im
              (fun l hl => by simp [ht] at hl)
            exact this
          · rw [h1]; exact h.2.symm
      · split at h
        · rcases andThen_some h with ⟨hr, ho⟩ | ⟨σ₂, hr, h⟩
          · unfold maskedBoth at hr
            rcases andThen_some hr with ⟨hr, _⟩ | ⟨σ₁, hr1, hr2⟩
            · left; exact ⟨ho, .ran (by rw [h1]; exact hr)⟩
            · right
              exact ⟨σ₁, .ran (by rw [h1]; exact hr1), Or.inl ⟨ho, .ran (by rw [h1]; exact hr2)⟩⟩
          · unfold maskedBoth at hr
            rcases andThen_some hr with ⟨_, ho⟩ | ⟨σ₁, hr1, hr2⟩
            · exact absurd rfl ho
            · right
              simp only [Option.some.injEq, Prod.mk.injEq] at h
              exact ⟨σ₁, .ran (by rw [h1]; exact hr1),
                Or.inr ⟨h.1.symm, σ₂, .ran (by rw [h1]; exact hr2), by rw [h1]; exact h.2.symm⟩⟩
        · rename_i hany
          have hno := Mask.any_false (by simpa using hany)
          have e1 : σ.im.andNot t = allOn := by funext l; simp [h1, hno l]
          have sk : Branch (c.pushIf false) (σ.im.and t) st σ .normal { σ with im := allOn } :=
            .skipped _ fun l hl => by simp [hno l] at hl
          right
          refine ⟨_, sk, ?_⟩
          rcases andThen_some h with ⟨hr, ho⟩ | ⟨σ₁, hr, h⟩
          · exact Or.inl ⟨ho, .ran (by rw [e1]; exact hr)⟩
          · simp only [Option.some.injEq, Prod.mk.injEq] at h
            exact Or.inr ⟨h.1.symm, σ₁, .ran (by rw [e1]; exact hr), by rw [h1]; exact h.2.symm⟩
    · exact mixed h
  · split at h
    · rcases andThen_some h with ⟨hr, ho⟩ | ⟨σ₂, hr, h⟩
      · unfold maskedBoth at hr
        rcases andThen_some hr with ⟨hr, _⟩ | ⟨σ₁, hr1, hr2⟩
        · left; exact ⟨ho, .ran hr⟩
        · right
          exact ⟨σ₁, .ran hr1, Or.inl ⟨ho, .ran hr2⟩⟩
      · unfold maskedBoth at hr
        rcases andThen_some hr with ⟨_, ho⟩ | ⟨σ₁, hr1, hr2⟩
        · exact absurd rfl ho
        · right
          simp only [Option.some.injEq, Prod.mk.injEq] at h
          exact ⟨σ₁, .ran hr1, Or.inr ⟨h.1.symm, σ₂, .ran hr2, h.2.symm⟩⟩
    · exact mixed h

/-! ### Contexts -/

theorem CtxOk.pushIf {c : Ctx n} (h : CtxOk c) (u : Bool) : CtxOk (c.pushIf u) :=
  ⟨fun hn => h.none_ hn, fun u hn => h.loop_ u hn, fun u hn => h.switch_ u hn⟩

theorem CtxOk.pushLoop (c : Ctx n) (u : Bool) (m : Mask n) : CtxOk (c.pushLoop u m) :=
  ⟨fun hn => by simp [Ctx.pushLoop, nearest] at hn,
   fun u' hn => by simp [Ctx.pushLoop, nearest] at hn; simp [Ctx.pushLoop, hn],
   fun u' hn => by simp [Ctx.pushLoop, nearest] at hn⟩

theorem CtxOk.pushSwitch (c : Ctx n) (u cu : Bool) (m : Mask n) (hu : u = true → cu = true) :
    CtxOk (c.pushSwitch u cu m) :=
  ⟨fun hn => by simp [Ctx.pushSwitch, nearest] at hn,
   fun u' hn => by simp [Ctx.pushSwitch, nearest] at hn,
   fun u' hn => by simp [Ctx.pushSwitch, nearest] at hn; simp [Ctx.pushSwitch, hn] at hu ⊢; exact hu⟩

theorem CtxOk.enter (m : Mask n) : CtxOk (enterCtx m) :=
  ⟨fun _ => ⟨rfl, rfl, rfl, rfl⟩, fun _ hn => by simp [enterCtx, nearest] at hn,
   fun _ hn => by simp [enterCtx, nearest] at hn⟩

theorem Legal.left {cf s₁ s₂} (h : Legal cf (.seq s₁ s₂)) : Legal cf s₁ := fun x h1 h2 => by
  have := h x h1 h2; simp [hasVBC] at this; exact this.1

theorem Legal.right {cf s₁ s₂} (h : Legal cf (.seq s₁ s₂)) : Legal cf s₂ := fun x h1 h2 => by
  have := h x h1 h2; simp [hasVBC] at this; exact this.2

theorem Legal.ifU {c : Ctx n} {e coh p s₁ s₂} (h : Legal c.cf (.ite e coh p s₁ s₂)) (he : e.isUniform = true) :
    Legal (c.pushIf true).cf s₁ ∧ Legal (c.pushIf true).cf s₂ := by
  constructor <;> intro x h1 h2 <;>
    · have := h x (by simpa [Ctx.pushIf, nearest] using h1) h2
      simp [hasVBC, he] at this
      simp [Ctx.pushIf, vifs, this]

theorem Legal.ifV {c : Ctx n} {e coh p s₁ s₂} (h : Legal c.cf (.ite e coh p s₁ s₂)) (he : e.isUniform = false) :
    Legal (c.pushIf false).cf s₁ ∧ Legal (c.pushIf false).cf s₂ := by
  constructor <;> intro x h1 h2 <;>
    · have := h x (by simpa [Ctx.pushIf, nearest] using h1) h2
      simp [hasVBC, he] at this
      rw [Nat.add_comm] at this
      simp [Ctx.pushIf, vifs, this]

theorem Legal.none {cf s} (h : nearest cf = none) : Legal cf s := fun x h1 _ => by rw [h] at h1; cases h1

theorem Legal.loop (c : Ctx n) {u m s} (h : u = true → hasVBC 0 s = false) : Legal (c.pushLoop u m).cf s :=
  fun x h1 h2 => by
    simp [Ctx.pushLoop, nearest] at h1
    subst h1
    simpa [Ctx.pushLoop, vifs] using h h2

theorem Legal.switch (c : Ctx n) {u cu m s} (h : u = true → hasVBC 0 s = false) :
    Legal (c.pushSwitch u cu m).cf s :=
  fun x h1 h2 => by
    simp [Ctx.pushSwitch, nearest] at h1
    subst h1
    simpa [Ctx.pushSwitch, vifs] using h h2

/-- In a loop (not switch) position, `ifsUnif .loopK` says there is no varying `if` inside the loop. -/
theorem ifsUnif_loop {cf : List CF} {u} (h : nearest cf = some ⟨.loopK, u⟩) :
    ifsUnif .loopK cf = decide (vifs cf = 0) := by
  induction cf with
  | nil => simp [nearest] at h
  | cons a t ih =>
    obtain ⟨k, v⟩ := a
    cases k
    · simp only [nearest] at h
      cases v <;> simp [ifsUnif, vifs, ih h]
    · simp [ifsUnif, vifs]
    · simp [nearest] at h

theorem ifsUnif_switch {cf : List CF} {u} (h : nearest cf = some ⟨.switchK, u⟩) :
    ifsUnif .switchK cf = decide (vifs cf = 0) := by
  induction cf with
  | nil => simp [nearest] at h
  | cons a t ih =>
    obtain ⟨k, v⟩ := a
    cases k
    · simp only [nearest] at h
      cases v <;> simp [ifsUnif, vifs, ih h]
    · simp [nearest] at h
    · simp [ifsUnif, vifs]

theorem inSwitch_iff {cf : List CF} : inSwitch cf = true ↔ ∃ u, nearest cf = some ⟨.switchK, u⟩ := by
  induction cf with
  | nil => simp [inSwitch, nearest]
  | cons a t ih =>
    obtain ⟨k, v⟩ := a
    cases k <;> simp [inSwitch, nearest, ih]

theorem nearest_kind {cf : List CF} {x} (h : nearest cf = some x) : x.kind = .loopK ∨ x.kind = .switchK := by
  induction cf with
  | nil => simp [nearest] at h
  | cons a t ih =>
    obtain ⟨k, v⟩ := a
    cases k
    · exact ih (by simpa [nearest] using h)
    · simp [nearest] at h; subst h; simp
    · simp [nearest] at h; subst h; simp

theorem vdepth_of_vifs {cf : List CF} (h : 0 < vifs cf) : vdepth cf ≠ 0 := by
  induction cf with
  | nil => simp [vifs] at h
  | cons a t ih =>
    obtain ⟨k, v⟩ := a
    cases k
    · cases v
      · simp [vdepth]
      · simp [vifs] at h; simpa [vdepth] using ih (by omega)
    · simp [vifs] at h
    · simp [vifs] at h

/-! ### Leaf statements -/

theorem post_break {A} {c : Ctx n} {σ o σ'} (hk : CtxOk c) (hi : Inv c σ) (hl : Legal c.cf .brk)
    (h : doBreak c σ = some (o, σ')) : Post A c σ o σ' := by
  unfold doBreak at h
  split at h
  · cases h
  rename_i hbt
  -- the direct jump
  have direct : posU c → Post A c σ .brk σ := fun hp =>
    { Post.refl (A := A) hi with
      conv := fun h => by cases h
      jump := fun _ l hb => hi.pos hp l hb
      retn := fun h => by cases h }
  split at h
  · rename_i hs
    simp only [Bool.and_eq_true] at hs
    obtain ⟨⟨hsw, hu⟩, hif⟩ := hs
    obtain ⟨u, hn⟩ := inSwitch_iff.1 hsw
    rw [ifsUnif_switch hn] at hif
    simp only [Option.some.injEq, Prod.mk.injEq] at h
    obtain ⟨rfl, rfl⟩ := h
    exact direct ⟨by simpa using hif, fun _ => hu⟩
  split at h
  · rename_i hns hs
    simp only [Bool.and_eq_true, Bool.not_eq_true'] at hs
    simp only [Option.some.injEq, Prod.mk.injEq] at h
    obtain ⟨rfl, rfl⟩ := h
    refine direct ⟨?_, fun h => by rw [hs.1] at h; cases h⟩
    cases hn : nearest c.cf with
    | none => exact absurd (hk.none_ hn).1 hbt
    | some x =>
      obtain ⟨k, u⟩ := x
      rcases nearest_kind hn with rfl | rfl
      · simpa [ifsUnif_loop hn] using hs.2
      · have := inSwitch_iff.2 ⟨u, hn⟩; rw [hs.1] at this; cases this
  split at h
  · cases h
  rename_i hnsw hnl hhb
  have hhb : c.hasBrk = true := by simpa using hhb
  -- a masked break is impossible if the nearest loop/switch is uniform
  have hnU : ¬ nearestU c.cf := by
    intro hnu
    cases hn : nearest c.cf with
    | none => exact absurd (hk.none_ hn).1 hbt
    | some x =>
      have hx := hnu x hn
      have hv := hl x hn hx
      simp [hasVBC] at hv
      obtain ⟨k, u⟩ := x
      rcases nearest_kind hn with rfl | rfl
      · have h1 := (hk.loop_ u hn).1
        simp at hx; rw [hx, hhb] at h1; cases h1
      · have h1 := inSwitch_iff.2 ⟨u, hn⟩
        have h2 := (hk.switch_ u hn).2.2.2 hx
        apply hnsw
        simp [h1, h2, ifsUnif_switch hn, hv]
  have core : Post A c σ .normal { σ with brk := σ.brk.or σ.im, im := allOff } :=
    { mono := fun l h => by simp at h
      offm := fun l h => by simp [h]
      offf := fun l h => by simp
      act := fun l h => by simp at h
      conv := fun _ l h1 h2 => by simp [St.flag, h1]
      jump := fun h => by rcases h with h | h <;> cases h
      retn := fun h => by cases h
      nu := fun h => absurd h hnU
      hc := hi.hc
      hb := fun h => by rw [hhb] at h; cases h
      excl := fun l hf => by
        have := hi.excl l hf
        have ha := hi.act l
        simp only [Mask.or_apply, Bool.or_eq_true, Bool.or_eq_false_iff]
        cases him : σ.im l
        · simp_all
        · have ha := ha him hf
          simp_all
      frame := fun _ _ => rfl }
  have done : allDone c { σ with brk := σ.brk.or σ.im, im := allOff } = true →
      ∀ o', (o' = .cont ∨ o' = .brk) → Post A c σ o' { σ with brk := σ.brk.or σ.im, im := allOff } := by
    intro hd o' ho'
    refine { core with conv := ?_, jump := ?_, retn := ?_ }
    · intro h; subst h; rcases ho' with h | h <;> cases h
    · intro _ l hb
      right
      simp only [allDone, hhb, if_true] at hd
      have := Mask.equal_true hd l
      rw [hb] at this
      split at this <;> simp_all [St.flag]
    · intro h; subst h; rcases ho' with h | h <;> cases h
  simp only at h
  split at h
  · rename_i hd
    simp only [Option.some.injEq, Prod.mk.injEq] at h
    obtain ⟨rfl, rfl⟩ := h
    refine done hd _ ?_
    split <;> simp
  · simp only [Option.some.injEq, Prod.mk.injEq] at h
    obtain ⟨rfl, rfl⟩ := h
    exact core

theorem post_continue {A} {c : Ctx n} {σ o σ'} (hk : CtxOk c) (hi : Inv c σ)
    (h : doContinue c σ = some (o, σ')) : Post A c σ o σ' := by
  unfold doContinue at h
  split at h
  · cases h
  rename_i hct
  have hct : c.contTgt = true := by simpa using hct
  obtain ⟨u, hn⟩ : ∃ u, nearest c.cf = some ⟨.loopK, u⟩ := by
    cases hn : nearest c.cf with
    | none => rw [(hk.none_ hn).2.1] at hct; cases hct
    | some x =>
      obtain ⟨k, u⟩ := x
      rcases nearest_kind hn with rfl | rfl
      · exact ⟨u, rfl⟩
      · rw [(hk.switch_ u hn).2.2.1] at hct; cases hct
  have hns : inSwitch c.cf = false := by
    cases hs : inSwitch c.cf
    · rfl
    · obtain ⟨v, hv⟩ := inSwitch_iff.1 hs; rw [hn] at hv; cases hv
  split at h
  · rename_i hif
    simp only [Option.some.injEq, Prod.mk.injEq] at h
    obtain ⟨rfl, rfl⟩ := h
    rw [ifsUnif_loop hn] at hif
    have hp : posU c := ⟨by simpa using hif, fun h => by rw [hns] at h; cases h⟩
    exact { Post.refl (A := A) hi with
      conv := fun h => by cases h
      jump := fun _ l hb => hi.pos hp l hb
      retn := fun h => by cases h }
  split at h
  · cases h
  rename_i hnl hhc
  have hhc : c.hasCont = true := by simpa using hhc
  have hu : u = false := by
    have := (hk.loop_ u hn).2.1; rw [hhc] at this; simpa using this.symm
  have hhb : c.hasBrk = true := by rw [(hk.loop_ u hn).1, hu]; rfl
  have hnU : ¬ nearestU c.cf := by
    intro hnu
    have := hnu _ hn
    rw [hu] at this; cases this
  have core : Post A c σ .normal { σ with cont := σ.cont.or σ.im, im := allOff } :=
    { mono := fun l h => by simp at h
      offm := fun l h => by simp [h]
      offf := fun l h => by simp
      act := fun l h => by simp at h
      conv := fun _ l h1 h2 => by simp [St.flag, h1]
      jump := fun h => by rcases h with h | h <;> cases h
      retn := fun h => by cases h
      nu := fun h => absurd h hnU
      hc := fun h => by rw [hhc] at h; cases h
      hb := hi.hb
      excl := fun l hf => by
        have := hi.excl l hf
        have ha := hi.act l
        simp only [Mask.or_apply, Bool.or_eq_false_iff]
        cases him : σ.im l
        · simp_all
        · have ha := ha him hf
          simp_all
      frame := fun _ _ => rfl }
  simp only at h
  split at h
  · rename_i hd
    simp only [Option.some.injEq, Prod.mk.injEq] at h
    obtain ⟨rfl, rfl⟩ := h
    refine { core with conv := fun h => by cases h
                       jump := fun _ l hb => ?_
                       retn := fun h => by cases h }
    right
    simp only [allDone, hhb, hhc, if_true] at hd
    have := Mask.equal_true hd l
    rw [hb] at this
    simp_all [St.flag]
  · simp only [Option.some.injEq, Prod.mk.injEq] at h
    obtain ⟨rfl, rfl⟩ := h
    exact core

theorem post_return {A} {c : Ctx n} {σ o σ' e} (hi : Inv c σ)
    (h : doReturn c e σ = some (o, σ')) : Post A c σ o σ' := by
  unfold doReturn at h
  simp only at h
  split at h
  · rename_i hd
    simp only [Option.some.injEq, Prod.mk.injEq] at h
    obtain ⟨rfl, rfl⟩ := h
    exact
      { mono := fun l h => h
        offm := fun l h => by simp [h]
        offf := fun l h => by simp
        act := fun l h1 h2 => ⟨(hi.act l h1 h2).1, (hi.act l h1 h2).2.1, (hi.act l h1 h2).2.2.1⟩
        conv := fun h => by cases h
        jump := fun h => by rcases h with h | h <;> cases h
        retn := fun _ l hf => hi.d0 hd l hf
        nu := hi.nu
        hc := hi.hc
        hb := hi.hb
        excl := hi.excl
        frame := fun _ _ => rfl }
  · rename_i hd
    have core : ∀ o, o = .normal ∨ (o = .ret ∧ ∀ l, c.fm l = (σ.ret l || (σ.im l && c.fm l))) →
        Post A c σ o { σ with rv := fun l => if σ.im l then σ.eval e l else σ.rv l
                              ret := σ.ret.or (full c σ), im := allOff } := by
      intro o ho
      exact
      { mono := fun l h => by simp at h
        offm := fun l h => by simp [h]
        offf := fun l h => by rcases h with h | h <;> simp [h]
        act := fun l h => by simp at h
        conv := fun _ l h1 h2 => by simp [St.flag, h1, h2]
        jump := fun h => by
          rcases ho with rfl | ⟨rfl, _⟩ <;> rcases h with h | h <;> cases h
        retn := fun h l hf => by
          subst h
          rcases ho with h | ⟨_, h⟩
          · cases h
          · right; have := h l; rw [hf] at this; simpa [hf] using this.symm
        nu := hi.nu
        hc := hi.hc
        hb := hi.hb
        excl := fun l hf => by
          have := hi.excl l hf
          have ha := hi.act l
          simp only [Mask.or_apply, full_apply, Bool.or_eq_true, Bool.and_eq_true]
          cases him : σ.im l
          · simp_all
          · have ha := ha him hf
            simp_all
        frame := fun _ _ => rfl }
    split at h
    · rename_i hq
      simp only [Option.some.injEq, Prod.mk.injEq] at h
      obtain ⟨rfl, rfl⟩ := h
      exact core _ (Or.inr ⟨rfl, fun l => by simpa using Mask.equal_true hq l⟩)
    · simp only [Option.some.injEq, Prod.mk.injEq] at h
      obtain ⟨rfl, rfl⟩ := h
      exact core _ (Or.inl rfl)

theorem post_vassign {A} {c : Ctx n} {σ : St n} (hi : Inv c σ) (b a i e) :
    Post A c σ .normal (doVassign c b a i e σ) := by
  have base := Post.refl (A := A) hi
  unfold doVassign
  split
  · exact { base with offm := fun l h => by simp
                      offf := fun l h => by rcases h with h | h <;> simp [h] }
  · exact { base with offm := fun l h => by simp [h]
                      offf := fun l h => by simp }

/-- Simple statements neither jump nor touch the mask machinery. -/
theorem simple_run {P : Prog} : ∀ k s (c : Ctx n) σ o σ', isSimple s = true → run P k s c σ = some (o, σ') →
    o = .normal ∧ σ'.im = σ.im ∧ σ'.ret = σ.ret ∧ σ'.brk = σ.brk ∧ σ'.cont = σ.cont ∧ σ'.rv = σ.rv := by
  intro k
  induction k with
  | zero => intro s c σ o σ' _ h; simp [run] at h
  | succ k ih =>
    intro s c σ o σ' hs h
    cases s <;> simp [isSimple] at hs
    case skip => simp [run] at h; obtain ⟨rfl, rfl⟩ := h; simp
    case uassign => simp [run] at h; obtain ⟨rfl, rfl⟩ := h; simp
    case vassign b a i e =>
      simp only [run, Option.some.injEq, Prod.mk.injEq] at h
      obtain ⟨rfl, rfl⟩ := h
      unfold doVassign
      split <;> simp
    case seq s₁ s₂ =>
      simp only [run] at h
      rcases andThen_some h with ⟨h1, ho⟩ | ⟨σ₁, h1, h2⟩
      · exact absurd (ih _ _ _ _ _ hs.1 h1).1 ho
      · have a := ih _ _ _ _ _ hs.1 h1
        have b := ih _ _ _ _ _ hs.2 h2
        exact ⟨b.1, b.2.1.trans a.2.1, b.2.2.1.trans a.2.2.1, b.2.2.2.1.trans a.2.2.2.1,
          b.2.2.2.2.1.trans a.2.2.2.2.1, b.2.2.2.2.2.trans a.2.2.2.2.2⟩
    case call dst f us vs =>
      simp only [run] at h
      split at h
      · simp at h; obtain ⟨rfl, rfl⟩ := h; simp
      · simp at h; obtain ⟨rfl, rfl⟩ := h; simp
      · cases h

/-! ### Branches of a varying `if` -/

theorem endIf_im {c : Ctx n} {saved : Mask n} {σ : St n} (hc : c.hasCont = false → ∀ l, σ.cont l = false)
    (hb : c.hasBrk = false → ∀ l, σ.brk l = false) (l : Fin n) :
    (endIf c saved σ).im l = (saved l && !σ.flag l) := by
  unfold endIf restoreMask
  cases h1 : c.hasCont <;> cases h2 : c.hasBrk <;> simp [St.flag, h1, h2] at *
  · simp [hc, hb]
  · simp [hc, Bool.and_assoc]
  · simp [hb, Bool.and_assoc]
  · cases saved l <;> cases σ.ret l <;> cases σ.brk l <;> cases σ.cont l <;> rfl

theorem endIf_rest (c : Ctx n) (saved : Mask n) (σ : St n) :
    (endIf c saved σ).u = σ.u ∧ (endIf c saved σ).loc = σ.loc ∧ (endIf c saved σ).ext = σ.ext ∧
    (endIf c saved σ).ret = σ.ret ∧ (endIf c saved σ).brk = σ.brk ∧ (endIf c saved σ).cont = σ.cont ∧
    (endIf c saved σ).rv = σ.rv := by
  unfold endIf restoreMask
  simp only
  split <;> simp

theorem nearestU_pushIf {c : Ctx n} {u} : nearestU (c.pushIf u).cf ↔ nearestU c.cf := Iff.rfl

/-- Entering a side of a varying `if` with a smaller mask. -/
theorem Inv.sub {c : Ctx n} {σ : St n} (hi : Inv c σ) {m : Mask n} (hm : ∀ l, m l = true → σ.im l = true) :
    Inv (c.pushIf false) { σ with im := m } where
  bemfm := hi.bemfm
  act := fun l h1 h2 => hi.act l (hm l h1) h2
  pos := fun hp => by have := hp.1; simp [Ctx.pushIf, vifs] at this
  d0 := fun hd => by simp [Ctx.pushIf, vdepth] at hd
  nu := hi.nu
  hc := hi.hc
  hb := hi.hb
  excl := hi.excl

/-- A side of a varying `if`, seen from the state before it (mask `m` then on). -/
theorem Branch.post {A} {c : Ctx n} {m : Mask n} {code σ o σ'} (hi : Inv c { σ with im := m })
    (hcode : ∀ σ o σ', Inv c σ → code c σ = some (o, σ') → Post A c σ o σ')
    (h : Branch c m code σ o σ') :
    (Post A c { σ with im := m } o σ') ∨
    (o = .normal ∧ (∃ m', σ' = { σ with im := m' }) ∧ ∀ l, m l = true → c.fm l = false) := by
  cases h with
  | ran h => exact Or.inl (hcode _ _ _ hi h)
  | skipped m' h => exact Or.inr ⟨rfl, ⟨m', rfl⟩, h⟩

/-- Facts about a side of a varying `if` in a form that does not distinguish whether it was skipped. -/
structure Side (A : Set Nat) (c : Ctx n) (m : Mask n) (σ : St n) (o : Out) (σ' : St n) : Prop where
  offm : ∀ l, m l = false →
    σ'.ret l = σ.ret l ∧ σ'.brk l = σ.brk l ∧ σ'.cont l = σ.cont l ∧ σ'.rv l = σ.rv l ∧ σ'.loc l = σ.loc l
  offf : ∀ l, m l = false ∨ c.fm l = false → σ'.ext l = σ.ext l ∧ σ'.ret l = σ.ret l
  imoff : o ≠ .normal → ∀ l, σ'.im l = true → m l = true
  act : o ≠ .normal → ∀ l, σ'.im l = true → c.fm l = true → σ'.ret l = false ∧ σ'.brk l = false ∧ σ'.cont l = false
  jump : o = .brk ∨ o = .cont → ∀ l, c.bem l = true → σ'.im l = true ∨ σ'.flag l = true
  retn : o = .ret → ∀ l, c.fm l = true → σ'.im l = true ∨ σ'.ret l = true
  nu : nearestU c.cf → ∀ l, σ'.brk l = false ∧ σ'.cont l = false
  hc : c.hasCont = false → ∀ l, σ'.cont l = false
  hb : c.hasBrk = false → ∀ l, σ'.brk l = false
  excl : ∀ l, c.fm l = true →
    (σ'.ret l = true → σ'.brk l = false ∧ σ'.cont l = false) ∧ (σ'.brk l = true → σ'.cont l = false)
  frame : ∀ x, x ∉ A → σ'.u x = σ.u x

theorem Branch.side {A} {c : Ctx n} {m : Mask n} {code σ o σ'} (hi : Inv c { σ with im := m })
    (hcode : ∀ σ o σ', Inv c σ → code c σ = some (o, σ') → Post A c σ o σ')
    (h : Branch c m code σ o σ') : Side A c m σ o σ' := by
  rcases h.post hi hcode with h | ⟨rfl, ⟨m', rfl⟩, _⟩
  · exact ⟨h.offm, h.offf, fun _ => h.mono, fun _ => h.act, h.jump, h.retn, h.nu, h.hc, h.hb, h.excl, h.frame⟩
  · exact ⟨fun _ _ => ⟨rfl, rfl, rfl, rfl, rfl⟩, fun _ _ => ⟨rfl, rfl⟩, (absurd rfl ·), (absurd rfl ·),
      (fun h => by simp at h), (fun h => by simp at h), hi.nu, hi.hc, hi.hb, hi.excl, fun _ _ => rfl⟩

/-- The state before the second side satisfies the invariant again. -/
theorem Side.inv {A} {c : Ctx n} {m m₂ : Mask n} {σ o σ₁} (h : Side A (c.pushIf false) m σ o σ₁) (hi : Inv c σ)
    (h₂ : ∀ l, m₂ l = true → m l = false ∧ σ.im l = true) : Inv (c.pushIf false) { σ₁ with im := m₂ } where
  bemfm := hi.bemfm
  act := fun l h1 h2 => by
    obtain ⟨a, b⟩ := h₂ l h1
    obtain ⟨r1, r2, r3, _⟩ := h.offm l a
    obtain ⟨q1, q2, q3, q4⟩ := hi.act l b h2
    exact ⟨r1.trans q1, r2.trans q2, r3.trans q3, q4⟩
  pos := fun hp => by have := hp.1; simp [Ctx.pushIf, vifs] at this
  d0 := fun hd => by simp [Ctx.pushIf, vdepth] at hd
  nu := h.nu
  hc := h.hc
  hb := h.hb
  excl := h.excl

theorem post_varyingIf {A₁ A₂} {c : Ctx n} {coh pred t st sf σ o σ'} (hi : Inv c σ)
    (h₁ : ∀ σ o σ', Inv (c.pushIf false) σ → st (c.pushIf false) σ = some (o, σ') → Post A₁ (c.pushIf false) σ o σ')
    (h₂ : ∀ σ o σ', Inv (c.pushIf false) σ → sf (c.pushIf false) σ = some (o, σ') → Post A₂ (c.pushIf false) σ o σ')
    (h : varyingIf c coh pred t st sf σ = some (o, σ')) : Post (A₁ ∪ A₂) c σ o σ' := by
  have i1 : Inv (c.pushIf false) { σ with im := σ.im.and t } := hi.sub (fun l h => by simp at h; exact h.1)
  rcases varyingIf_cases h with ⟨ho, b1⟩ | ⟨σ₁, b1, h⟩
  · have s1 := b1.side i1 h₁
    exact
    { mono := fun l h => by have := s1.imoff ho l h; simp at this; exact this.1
      offm := fun l h => s1.offm l (by simp [h])
      offf := fun l h => s1.offf l (by rcases h with h | h; (· left; simp [h]); (· right; exact h))
      act := s1.act ho
      conv := fun h => absurd h ho
      jump := s1.jump
      retn := s1.retn
      nu := s1.nu, hc := s1.hc, hb := s1.hb, excl := s1.excl
      frame := fun x hx => s1.frame x (fun h => hx (Or.inl h)) }
  · have s1 := b1.side i1 h₁
    have i2 : Inv (c.pushIf false) { σ₁ with im := σ.im.andNot t } :=
      s1.inv hi (fun l h => by simp at h; simp [h])
    have offm₁ : ∀ l, σ.im l = false → σ₁.ret l = σ.ret l ∧ σ₁.brk l = σ.brk l ∧ σ₁.cont l = σ.cont l ∧
        σ₁.rv l = σ.rv l ∧ σ₁.loc l = σ.loc l := fun l h => s1.offm l (by simp [h])
    have offf₁ : ∀ l, σ.im l = false ∨ c.fm l = false → σ₁.ext l = σ.ext l ∧ σ₁.ret l = σ.ret l :=
      fun l h => s1.offf l (by rcases h with h | h; (· left; simp [h]); (· right; exact h))
    have comb : ∀ {o σ₂}, Side A₂ (c.pushIf false) (σ.im.andNot t) σ₁ o σ₂ →
        (∀ l, σ.im l = false → σ₂.ret l = σ.ret l ∧ σ₂.brk l = σ.brk l ∧ σ₂.cont l = σ.cont l ∧
          σ₂.rv l = σ.rv l ∧ σ₂.loc l = σ.loc l) ∧
        (∀ l, σ.im l = false ∨ c.fm l = false → σ₂.ext l = σ.ext l ∧ σ₂.ret l = σ.ret l) ∧
        (∀ x, x ∉ A₁ ∪ A₂ → σ₂.u x = σ.u x) := by
      intro o σ₂ s2
      refine ⟨fun l h => ?_, fun l h => ?_, fun x hx => ?_⟩
      · have a := offm₁ l h
        have b := s2.offm l (by simp [h])
        exact ⟨b.1.trans a.1, b.2.1.trans a.2.1, b.2.2.1.trans a.2.2.1, b.2.2.2.1.trans a.2.2.2.1,
          b.2.2.2.2.trans a.2.2.2.2⟩
      · have a := offf₁ l h
        have b := s2.offf l (by rcases h with h | h; (· left; simp [h]); (· right; exact h))
        exact ⟨b.1.trans a.1, b.2.trans a.2⟩
      · rw [s2.frame x (fun h => hx (Or.inr h)), s1.frame x (fun h => hx (Or.inl h))]
    rcases h with ⟨ho, b2⟩ | ⟨rfl, σ₂, b2, rfl⟩
    · have s2 := b2.side i2 h₂
      obtain ⟨c1, c2, c3⟩ := comb s2
      exact
      { mono := fun l h => by have := s2.imoff ho l h; simp at this; exact this.1
        offm := c1, offf := c2
        act := s2.act ho
        conv := fun h => absurd h ho
        jump := s2.jump, retn := s2.retn, nu := s2.nu, hc := s2.hc, hb := s2.hb, excl := s2.excl
        frame := c3 }
    · have s2 := b2.side i2 h₂
      obtain ⟨c1, c2, c3⟩ := comb s2
      have hcd := s2.hc
      have hbd := s2.hb
      have him := fun l => endIf_im (c := c) (saved := σ.im) hcd hbd l
      obtain ⟨e1, e2, e3, e4, e5, e6, e7⟩ := endIf_rest c σ.im σ₂
      have hflag : ∀ l, (endIf c σ.im σ₂).flag l = σ₂.flag l := fun l => by simp [St.flag, e4, e5, e6]
      exact
      { mono := fun l h => by rw [him] at h; simp at h; exact h.1
        offm := fun l h => by rw [e2, e4, e5, e6, e7]; exact c1 l h
        offf := fun l h => by rw [e3, e4]; exact c2 l h
        act := fun l h _ => by
          rw [him] at h
          simp [St.flag] at h
          rw [e4, e5, e6]; exact ⟨h.2.1.1, h.2.1.2, h.2.2⟩
        conv := fun _ l h1 _ => by
          rw [him, hflag]; cases σ₂.flag l <;> simp [h1]
        jump := fun h => by rcases h with h | h <;> cases h
        retn := fun h => by cases h
        nu := fun h l => by rw [e5, e6]; exact s2.nu h l
        hc := fun h l => by rw [e6]; exact s2.hc h l
        hb := fun h l => by rw [e5]; exact s2.hb h l
        excl := fun l h => by rw [e4, e5, e6]; exact s2.excl l h
        frame := fun x hx => by rw [e1]; exact c3 x hx }

end Ispc.Spmd
