import Verif.Spmd.StoreMask

/-!
# The machine with unmasked stores runs in lockstep with the machine with masked stores (helper lemmas for C70)
-/

namespace Ispc.StoreMask

open Ispc.Spmd

variable {n : Nat}

/-- The variables agree, but for array `a` of the instances outside of `M`. -/
def Ag (a : Nat) (M : Mask n) (L₁ L₂ : Fin n → Nat → Int → Int) : Prop := ∀ l b, b ≠ a ∨ M l = true → L₂ l b = L₁ l b

theorem Ag.mono {a} {M M' : Mask n} {L₁ L₂} (h : Ag a M L₁ L₂) (hm : ∀ l, M' l = true → M l = true) : Ag a M' L₁ L₂ :=
  fun l b hb => h l b (hb.imp id (hm l))

theorem Ag.lane {a} {M : Mask n} {L₁ L₂} (h : Ag a M L₁ L₂) {l} (hl : M l = true) : L₂ l = L₁ l := by
  funext b; exact h l b (Or.inr hl)

/-- The same state with other local variables. -/
def St.setLoc (σ : St n) (L : Fin n → Nat → Int → Int) : St n := { σ with loc := L }

/-- Results of the two machines: `q` says whether the statement is at the depth of the declaration of `a`, `c₀` are
the lanes that had continued before. -/
inductive Res (a : Nat) (q : Prop) (M c₀ : Mask n) : Option (Out × St n) → Option (Out × St n) → Prop
  | none : Res a q M c₀ none none
  | some {o σ L} : Ag a (fun l => σ.im l) σ.loc L → (¬ q → Ag a M σ.loc L) → (∀ l, σ.im l = true → M l = true) →
      (∀ l, σ.cont l = true → c₀ l = true ∨ M l = true) → Res a q M c₀ (some (o, σ)) (some (o, St.setLoc σ L))

/-- The two pieces of code run in lockstep from states that agree but for `a` in the lanes that are off. -/
def Lock (d a : Nat) (f g : Code n) : Prop := ∀ (c : Ctx n) (M : Mask n) σ L, d ≤ vdepth c.cf →
  (∀ l, σ.im l = true → M l = true) → Ag a M σ.loc L →
  Res a (vdepth c.cf = d) M σ.cont (f c σ) (g c (St.setLoc σ L))

theorem eval_eq {a : Nat} {M : Mask n} {σ : St n} {L} (h : Ag a M σ.loc L) (e : Expr) {l} (hl : M l = true) :
    (St.setLoc σ L).eval e l = σ.eval e l := by
  have hm : (St.setLoc σ L).mem l = σ.mem l := by
    funext b; cases b
    · simp only [St.mem, St.setLoc]; exact h.lane hl
    · rfl
  simp only [St.eval, hm]; rfl

theorem eval_avoid {a : Nat} {M : Mask n} {σ : St n} {L} (h : Ag a M σ.loc L) (l : Fin n) :
    ∀ (e : Expr), reads a e = false → (St.setLoc σ L).eval e l = σ.eval e l := by
  intro e
  unfold St.eval
  induction e with
  | const => intro _; rfl
  | uvar => intro _; rfl
  | lane => intro _; rfl
  | vload b x i ih =>
    intro hr
    simp only [reads, Bool.or_eq_false_iff] at hr
    simp only [Expr.eval]
    rw [ih hr.2]
    cases b
    · have hx : x ≠ a := by intro hx; subst hx; simp at hr
      simp only [St.mem, St.setLoc, Bool.false_eq_true, if_false]
      rw [h l x (Or.inl hx)]
    · rfl
  | un f e ih => intro hr; simp only [Expr.eval]; rw [ih hr]
  | bin f e₁ e₂ ih₁ ih₂ =>
    intro hr
    simp only [reads, Bool.or_eq_false_iff] at hr
    simp only [Expr.eval]; rw [ih₁ hr.1, ih₂ hr.2]

/-- Masking a test by lanes on which the states agree gives the same mask. -/
theorem and_test {a : Nat} {M : Mask n} {σ : St n} {L} (h : Ag a M σ.loc L) (e : Expr) {m : Mask n}
    (hm : ∀ l, m l = true → M l = true) : m.and ((St.setLoc σ L).test e) = m.and (σ.test e) := by
  funext l
  simp only [Mask.and, St.test]
  cases hl : m l
  · rfl
  · rw [eval_eq h e (hm l hl)]

theorem andNot_test {a : Nat} {M : Mask n} {σ : St n} {L} (h : Ag a M σ.loc L) (e : Expr) {m : Mask n}
    (hm : ∀ l, m l = true → M l = true) : m.andNot ((St.setLoc σ L).test e) = m.andNot (σ.test e) := by
  funext l
  simp only [Mask.andNot, St.test]
  cases hl : m l
  · rfl
  · rw [eval_eq h e (hm l hl)]

theorem Res.weaken {a} {q q' : Prop} {M c₀ c₁ : Mask n} {r r'} (h : Res a q M c₀ r r') (hq : ¬ q' → ¬ q)
    (hc : ∀ l, c₀ l = true → c₁ l = true ∨ M l = true) : Res a q' M c₁ r r' := by
  cases h with
  | none => exact .none
  | some h₁ h₂ h₃ h₄ =>
    exact .some h₁ (fun x => h₂ (hq x)) h₃ (fun l hl => (h₄ l hl).elim (hc l) Or.inr)

/-- Sequencing. -/
theorem Res.andThen {a} {q : Prop} {M c₀ : Mask n} {r r' : Option (Out × St n)} {f g : St n → Option (Out × St n)}
    (h : Res a q M c₀ r r')
    (hk : ∀ (σ : St n) L, Ag a (fun l => σ.im l) σ.loc L → (¬ q → Ag a M σ.loc L) → (∀ l, σ.im l = true → M l = true) →
      (∀ l, σ.cont l = true → c₀ l = true ∨ M l = true) → Res a q M c₀ (f σ) (g (St.setLoc σ L))) :
    Res a q M c₀ (andThen r f) (andThen r' g) := by
  cases h with
  | none => exact .none
  | @some o σ L h₁ h₂ h₃ h₄ =>
    cases o with
    | normal => exact hk σ L h₁ h₂ h₃ h₄
    | brk => exact .some h₁ h₂ h₃ h₄
    | cont => exact .some h₁ h₂ h₃ h₄
    | ret => exact .some h₁ h₂ h₃ h₄

/-- The lanes on afterwards are a smaller set of agreement, which is all that is needed at the declaration's depth. -/
theorem Lock.next {d a} {f g : Code n} (h : Lock d a f g) {c : Ctx n} {M c₀ : Mask n} {σ : St n} {L}
    (hd : d ≤ vdepth c.cf) (h₁ : Ag a (fun l => σ.im l) σ.loc L) (h₂ : ¬ vdepth c.cf = d → Ag a M σ.loc L)
    (h₃ : ∀ l, σ.im l = true → M l = true) (h₄ : ∀ l, σ.cont l = true → c₀ l = true ∨ M l = true) :
    Res a (vdepth c.cf = d) M c₀ (f c σ) (g c (St.setLoc σ L)) := by
  by_cases hq : vdepth c.cf = d
  · have r := h c (fun l => σ.im l) σ L hd (fun _ h => h) h₁
    generalize f c σ = x at r
    generalize g c (St.setLoc σ L) = y at r
    cases r with
    | none => exact .none
    | some g₁ g₂ g₃ g₄ =>
      exact .some g₁ (fun x => absurd hq x) (fun l hl => h₃ l (g₃ l hl))
        (fun l hl => (g₄ l hl).elim (h₄ l) (fun x => Or.inr (h₃ l x)))
  · exact (h c M σ L hd h₃ (h₂ hq)).weaken id h₄

/-! ### `if` -/

theorem vdepth_pushIf_true (c : Ctx n) : vdepth (c.pushIf true).cf = vdepth c.cf := rfl
theorem vdepth_pushIf_false (c : Ctx n) : vdepth (c.pushIf false).cf = vdepth c.cf + 1 := by
  simp [vdepth, Ctx.pushIf]
theorem vdepth_pushLoop_true (c : Ctx n) (m) : vdepth (c.pushLoop true m).cf = vdepth c.cf := rfl
theorem vdepth_pushLoop_false (c : Ctx n) (m) : vdepth (c.pushLoop false m).cf = vdepth c.cf + 1 := by
  simp [vdepth, Ctx.pushLoop]

theorem endIf_setLoc (c : Ctx n) (m : Mask n) (σ : St n) (L) : endIf c m (St.setLoc σ L) = St.setLoc (endIf c m σ) L := by
  unfold endIf
  cases h1 : c.hasCont <;> cases h2 : c.hasBrk <;> rfl

theorem endIf_im (c : Ctx n) (m : Mask n) (σ : St n) (l : Fin n) (h : (endIf c m σ).im l = true) : m l = true := by
  unfold endIf restoreMask at h
  split at h <;> simp [Mask.andNot] at h
  · exact h.1.1
  · exact h.1

theorem endIf_cont (c : Ctx n) (m : Mask n) (σ : St n) : (endIf c m σ).cont = σ.cont := by
  unfold endIf restoreMask; split <;> rfl

theorem endIf_loc (c : Ctx n) (m : Mask n) (σ : St n) : (endIf c m σ).loc = σ.loc := by
  unfold endIf restoreMask; split <;> rfl

/-- Leaving an `if`: the lanes on before it are put back. -/
theorem res_endIf {a} {q : Prop} {M c₀ m : Mask n} {c : Ctx n} {r r'} (hm : ∀ l, m l = true → M l = true)
    (h : Res a False M c₀ r r') :
    Res a q M c₀ (andThen r fun σ => some (.normal, endIf c m σ)) (andThen r' fun σ => some (.normal, endIf c m σ)) := by
  cases h with
  | none => exact .none
  | @some o σ L h₁ h₂ h₃ h₄ =>
    have h₂ := h₂ id
    cases o with
    | normal =>
      show Res a q M c₀ (some (.normal, endIf c m σ)) (some (.normal, endIf c m (St.setLoc σ L)))
      rw [endIf_setLoc]
      have hs : ∀ l, (endIf c m σ).im l = true → M l = true := fun l hl => hm l (endIf_im c m σ l hl)
      have hA : Ag a M (endIf c m σ).loc L := by rw [endIf_loc]; exact h₂
      exact .some (hA.mono hs) (fun _ => hA) hs (by rw [endIf_cont]; exact h₄)
    | brk => exact .some h₁ (fun _ => h₂) h₃ h₄
    | cont => exact .some h₁ (fun _ => h₂) h₃ h₄
    | ret => exact .some h₁ (fun _ => h₂) h₃ h₄

/-- Code that runs deeper than the declaration. -/
theorem Lock.deep {d a} {f g : Code n} (h : Lock d a f g) {c : Ctx n} (M c₀ : Mask n) {σ : St n} {L}
    (hd : d < vdepth c.cf) (hA : Ag a M σ.loc L) (hs : ∀ l, σ.im l = true → M l = true)
    (h₄ : ∀ l, σ.cont l = true → c₀ l = true ∨ M l = true) :
    Res a False M c₀ (f c σ) (g c (St.setLoc σ L)) :=
  (h c M σ L (Nat.le_of_lt hd) hs hA).weaken (fun _ => Nat.ne_of_gt hd) h₄

theorem lock_maskedBoth {d a} {f₁ g₁ f₂ g₂ : Code n} (h₁ : Lock d a f₁ g₁) (h₂ : Lock d a f₂ g₂) {c : Ctx n}
    {M c₀ m t t' : Mask n} {σ : St n} {L} (hd : d < vdepth c.cf) (hA : Ag a M σ.loc L) (hm : ∀ l, m l = true → M l = true)
    (h₄ : ∀ l, σ.cont l = true → c₀ l = true ∨ M l = true) (ht : m.and t' = m.and t) (ht' : m.andNot t' = m.andNot t) :
    Res a False M c₀ (maskedBoth c m t f₁ f₂ σ) (maskedBoth c m t' g₁ g₂ (St.setLoc σ L)) := by
  unfold maskedBoth
  rw [ht, ht']
  have sub₁ : ∀ l, (m.and t) l = true → M l = true := by
    intro l hl; simp only [Mask.and, Bool.and_eq_true] at hl; exact hm l hl.1
  have sub₂ : ∀ l, (m.andNot t) l = true → M l = true := by
    intro l hl; simp only [Mask.andNot, Bool.and_eq_true] at hl; exact hm l hl.1
  refine Res.andThen ?_ ?_
  · exact h₁.deep (σ := { σ with im := m.and t }) M c₀ hd hA sub₁ h₄
  · intro τ L' _ k₂ _ k₄
    exact h₂.deep (σ := { τ with im := m.andNot t }) M c₀ hd (k₂ id) sub₂ k₄

theorem lock_maskMixed {d a} {f₁ g₁ f₂ g₂ : Code n} (h₁ : Lock d a f₁ g₁) (h₂ : Lock d a f₂ g₂) {c : Ctx n}
    {M c₀ t t' : Mask n} {σ : St n} {L} {q : Prop} (hd : d ≤ vdepth c.cf) (hA : Ag a M σ.loc L)
    (hs : ∀ l, σ.im l = true → M l = true)
    (h₄ : ∀ l, σ.cont l = true → c₀ l = true ∨ M l = true) (ht : σ.im.and t' = σ.im.and t)
    (ht' : σ.im.andNot t' = σ.im.andNot t) :
    Res a q M c₀ (maskMixed c t f₁ f₂ σ) (maskMixed c t' g₁ g₂ (St.setLoc σ L)) := by
  have hd' : d < vdepth (c.pushIf false).cf := by rw [vdepth_pushIf_false]; omega
  have sub₁ : ∀ l, (σ.im.and t) l = true → M l = true := by
    intro l hl; simp only [Mask.and, Bool.and_eq_true] at hl; exact hs l hl.1
  have sub₂ : ∀ l, (σ.im.andNot t) l = true → M l = true := by
    intro l hl; simp only [Mask.andNot, Bool.and_eq_true] at hl; exact hs l hl.1
  have key : ∀ (τ : St n) L', Ag a M τ.loc L' → (∀ l, τ.cont l = true → c₀ l = true ∨ M l = true) →
      Res a False M c₀ (if (full (c.pushIf false) { τ with im := σ.im.andNot t }).any
        then f₂ (c.pushIf false) { τ with im := σ.im.andNot t } else some (.normal, { τ with im := σ.im.andNot t }))
      (if (full (c.pushIf false) { τ with im := σ.im.andNot t }).any
        then g₂ (c.pushIf false) (St.setLoc { τ with im := σ.im.andNot t } L')
        else some (.normal, St.setLoc { τ with im := σ.im.andNot t } L')) := by
    intro τ L' hA' hc'
    by_cases hf : (full (c.pushIf false) { τ with im := σ.im.andNot t }).any = true
    · rw [if_pos hf, if_pos hf]
      exact h₂.deep (σ := { τ with im := σ.im.andNot t }) M c₀ hd' hA' sub₂ hc'
    · rw [if_neg hf, if_neg hf]
      exact .some (σ := { τ with im := σ.im.andNot t }) (Ag.mono hA' sub₂) (fun _ => hA') sub₂ hc'
  have first : Res a False M c₀ (if (full (c.pushIf false) { σ with im := σ.im.and t }).any
        then f₁ (c.pushIf false) { σ with im := σ.im.and t } else some (.normal, { σ with im := σ.im.and t }))
      (if (full (c.pushIf false) { σ with im := σ.im.and t }).any
        then g₁ (c.pushIf false) (St.setLoc { σ with im := σ.im.and t } L)
        else some (.normal, St.setLoc { σ with im := σ.im.and t } L)) := by
    by_cases hf : (full (c.pushIf false) { σ with im := σ.im.and t }).any = true
    · rw [if_pos hf, if_pos hf]
      exact h₁.deep (σ := { σ with im := σ.im.and t }) M c₀ hd' hA sub₁ h₄
    · rw [if_neg hf, if_neg hf]
      exact .some (σ := { σ with im := σ.im.and t }) (Ag.mono hA sub₁) (fun _ => hA) sub₁ h₄
  have whole := Res.andThen (f := fun τ => andThen (if (full (c.pushIf false) { τ with im := σ.im.andNot t }).any
        then f₂ (c.pushIf false) { τ with im := σ.im.andNot t } else some (.normal, { τ with im := σ.im.andNot t }))
        fun τ => some (.normal, endIf c σ.im τ))
      (g := fun τ => andThen (if (full (c.pushIf false) { τ with im := σ.im.andNot t }).any
        then g₂ (c.pushIf false) { τ with im := σ.im.andNot t } else some (.normal, { τ with im := σ.im.andNot t }))
        fun τ => some (.normal, endIf c σ.im τ)) first (by
      intro τ L' _ k₂ _ k₄
      exact res_endIf hs (key τ L' (k₂ id) k₄))
  have : maskMixed c t' g₁ g₂ (St.setLoc σ L) = maskMixed c t g₁ g₂ (St.setLoc σ L) := by
    have e₁ : (St.setLoc σ L).im.and t' = (St.setLoc σ L).im.and t := ht
    have e₂ : (St.setLoc σ L).im.andNot t' = (St.setLoc σ L).im.andNot t := ht'
    unfold maskMixed
    simp only [e₁, e₂]
  rw [this]
  exact whole.weaken (fun _ h => h) (fun _ h => Or.inl h)

theorem allOn_of_full {c : Ctx n} {σ : St n} (h : (full c σ).all = true) : σ.im = allOn := by
  simp only [Mask.all, full, Mask.and, decide_eq_true_eq, Bool.and_eq_true] at h
  funext l; exact (h l).1

theorem lock_maskAllOn {d a} {f₁ g₁ f₂ g₂ : Code n} (h₁ : Lock d a f₁ g₁) (h₂ : Lock d a f₂ g₂) {c : Ctx n}
    {M c₀ t t' : Mask n} {σ : St n} {L} {q : Prop} (hd : d ≤ vdepth c.cf) (hA : Ag a M σ.loc L)
    (hs : ∀ l, σ.im l = true → M l = true) (hf : (full c σ).all = true)
    (h₄ : ∀ l, σ.cont l = true → c₀ l = true ∨ M l = true) (ht : σ.im.and t' = σ.im.and t) :
    Res a q M c₀ (maskAllOn c t f₁ f₂ σ) (maskAllOn c t' g₁ g₂ (St.setLoc σ L)) := by
  have hi := allOn_of_full hf
  have htt : t' = t := by
    funext l
    have := congrFun ht l
    simpa [Mask.and, hi, allOn] using this
  subst htt
  have hM : ∀ l, (allOn : Mask n) l = true → M l = true := by rw [← hi]; exact hs
  have hd' : d < vdepth ({ c.pushIf false with fm := allOn } : Ctx n).cf := by
    show d < vdepth (c.pushIf false).cf
    rw [vdepth_pushIf_false]; omega
  unfold maskAllOn
  by_cases ha : t'.all = true
  · simp only [ha, if_true]
    exact res_endIf hM (h₁.deep (σ := { σ with im := allOn }) M c₀ hd' hA hM h₄)
  · by_cases hb : t'.any = true
    · simp only [ha, hb, if_true, if_false, Bool.false_eq_true]
      exact res_endIf hM (lock_maskedBoth h₁ h₂ (σ := { σ with im := allOn }) hd' hA hM h₄ rfl rfl)
    · simp only [ha, hb, if_false, Bool.false_eq_true]
      exact res_endIf hM (h₂.deep (σ := { σ with im := allOn }) M c₀ hd' hA hM h₄)

theorem lock_varyingIf {d a} {f₁ g₁ f₂ g₂ : Code n} (h₁ : Lock d a f₁ g₁) (h₂ : Lock d a f₂ g₂) {c : Ctx n}
    {M : Mask n} {σ : St n} {L} {q : Prop} (e : Expr) (coh pred : Bool) (hd : d ≤ vdepth c.cf) (hA : Ag a M σ.loc L)
    (hs : ∀ l, σ.im l = true → M l = true) :
    Res a q M σ.cont (varyingIf c coh pred (σ.test e) f₁ f₂ σ)
      (varyingIf c coh pred ((St.setLoc σ L).test e) g₁ g₂ (St.setLoc σ L)) := by
  have t₁ := and_test hA e hs
  have t₂ := andNot_test hA e hs
  have hd' : d < vdepth (c.pushIf false).cf := by rw [vdepth_pushIf_false]; omega
  have hfull : full c (St.setLoc σ L) = full c σ := rfl
  unfold varyingIf
  rw [hfull]
  cases coh
  · cases pred
    · simp only [Bool.false_eq_true, if_false]
      exact lock_maskMixed h₁ h₂ hd hA hs (fun _ h => Or.inl h) t₁ t₂
    · simp only [Bool.false_eq_true, if_false, if_true]
      exact res_endIf hs (lock_maskedBoth h₁ h₂ hd' hA hs (fun _ h => Or.inl h) t₁ t₂)
  · simp only [if_true]
    by_cases hf : (full c σ).all = true
    · rw [if_pos hf, if_pos hf]
      exact lock_maskAllOn h₁ h₂ hd hA hs hf (fun _ h => Or.inl h) t₁
    · rw [if_neg hf, if_neg hf]
      exact lock_maskMixed h₁ h₂ hd hA hs (fun _ h => Or.inl h) t₁ t₂

/-! ### Loops -/

theorem lock_forU {d a} {f₁ g₁ f₂ g₂ : Code n} (h₁ : Lock d a f₁ g₁) (h₂ : Lock d a f₂ g₂) {c : Ctx n} {e : Expr}
    {c₀ : Mask n} (hd : d ≤ vdepth c.cf) (M : Mask n) : ∀ k (σ : St n) L, Ag a (fun l => σ.im l) σ.loc L →
      (¬ vdepth c.cf = d → Ag a M σ.loc L) → (∀ l, σ.im l = true → M l = true) →
      (∀ l, σ.cont l = true → c₀ l = true ∨ M l = true) →
      Res a (vdepth c.cf = d) M c₀ (forU c e f₂ f₁ k σ) (forU c e g₂ g₁ k (St.setLoc σ L))
  | 0, _, _, _, _, _, _ => .none
  | k + 1, σ, L, hA, hB, hs, h₄ => by
    have he : (St.setLoc σ L).evalU e = σ.evalU e := rfl
    have hfull : full c (St.setLoc σ L) = full c σ := rfl
    unfold forU
    rw [he, hfull]
    by_cases ht : σ.evalU e ≠ 0
    · simp only [ht, ne_eq, not_false_eq_true, if_true]
      have hv := vdepth_pushLoop_true c (full c σ)
      have r := h₁.next (c := c.pushLoop true (full c σ)) (M := M) (c₀ := c₀) (by rw [hv]; exact hd) hA
        (by rw [hv]; exact hB) hs h₄
      rw [hv] at r
      generalize f₁ (c.pushLoop true (full c σ)) σ = x at r
      generalize g₁ (c.pushLoop true (full c σ)) (St.setLoc σ L) = y at r
      cases r with
      | none => exact .none
      | @some o τ L' k₁ k₂ k₃ k₄ =>
        have go : Res a (vdepth c.cf = d) M c₀
            (match f₂ (c.pushLoop true (full c σ)) τ with
              | some (.normal, σ) => forU c e f₂ f₁ k σ
              | _ => none)
            (match g₂ (c.pushLoop true (full c σ)) (St.setLoc τ L') with
              | some (.normal, σ) => forU c e g₂ g₁ k σ
              | _ => none) := by
          have r := h₂.next (c := c.pushLoop true (full c σ)) (M := M) (c₀ := c₀) (by rw [hv]; exact hd) k₁
            (by rw [hv]; exact k₂) k₃ k₄
          rw [hv] at r
          generalize f₂ (c.pushLoop true (full c σ)) τ = x at r
          generalize g₂ (c.pushLoop true (full c σ)) (St.setLoc τ L') = y at r
          cases r with
          | none => exact .none
          | @some o τ L' k₁ k₂ k₃ k₄ =>
            cases o with
            | normal => exact lock_forU h₁ h₂ hd M k τ L' k₁ k₂ k₃ k₄
            | brk => exact .none
            | cont => exact .none
            | ret => exact .none
        cases o with
        | normal => exact go
        | cont => exact go
        | brk => exact .some k₁ k₂ k₃ k₄
        | ret => exact .some k₁ k₂ k₃ k₄
    · simp only [ht, if_false]
      exact .some hA hB hs h₄

theorem lock_doU {d a} {f₁ g₁ : Code n} (h₁ : Lock d a f₁ g₁) {c : Ctx n} {e : Expr}
    {c₀ : Mask n} (hd : d ≤ vdepth c.cf) (M : Mask n) : ∀ k (σ : St n) L, Ag a (fun l => σ.im l) σ.loc L →
      (¬ vdepth c.cf = d → Ag a M σ.loc L) → (∀ l, σ.im l = true → M l = true) →
      (∀ l, σ.cont l = true → c₀ l = true ∨ M l = true) →
      Res a (vdepth c.cf = d) M c₀ (doU c e f₁ k σ) (doU c e g₁ k (St.setLoc σ L))
  | 0, _, _, _, _, _, _ => .none
  | k + 1, σ, L, hA, hB, hs, h₄ => by
    have hfull : full c (St.setLoc σ L) = full c σ := rfl
    unfold doU
    rw [hfull]
    have hv := vdepth_pushLoop_true c (full c σ)
    have r := h₁.next (c := c.pushLoop true (full c σ)) (M := M) (c₀ := c₀) (by rw [hv]; exact hd) hA
      (by rw [hv]; exact hB) hs h₄
    rw [hv] at r
    generalize f₁ (c.pushLoop true (full c σ)) σ = x at r
    generalize g₁ (c.pushLoop true (full c σ)) (St.setLoc σ L) = y at r
    cases r with
    | none => exact .none
    | @some o τ L' k₁ k₂ k₃ k₄ =>
      have he : (St.setLoc τ L').evalU e = τ.evalU e := rfl
      have go : Res a (vdepth c.cf = d) M c₀ (if τ.evalU e ≠ 0 then doU c e f₁ k τ else some (.normal, τ))
          (if (St.setLoc τ L').evalU e ≠ 0 then doU c e g₁ k (St.setLoc τ L') else some (.normal, St.setLoc τ L')) := by
        rw [he]
        by_cases ht : τ.evalU e ≠ 0
        · rw [if_pos ht, if_pos ht]; exact lock_doU h₁ hd M k τ L' k₁ k₂ k₃ k₄
        · rw [if_neg ht, if_neg ht]; exact .some k₁ k₂ k₃ k₄
      cases o with
      | normal => exact go
      | cont => exact go
      | brk => exact .some k₁ k₂ k₃ k₄
      | ret => exact .some k₁ k₂ k₃ k₄

theorem lock_coherent {d a} {f₁ g₁ : Code n} (h₁ : Lock d a f₁ g₁) {c : Ctx n} {coh : Bool} {M c₀ : Mask n} {σ : St n} {L}
    (hd : d ≤ vdepth c.cf) (hA : Ag a M σ.loc L) (hs : ∀ l, σ.im l = true → M l = true)
    (h₄ : ∀ l, σ.cont l = true → c₀ l = true ∨ M l = true) :
    Res a False M c₀ (coherentBody c coh f₁ σ) (coherentBody c coh g₁ (St.setLoc σ L)) := by
  have hfull : full c (St.setLoc σ L) = full c σ := rfl
  have hd' : d < vdepth (c.pushLoop false (full c σ)).cf := by rw [vdepth_pushLoop_false]; omega
  unfold coherentBody
  rw [hfull]
  by_cases hf : (coh && (full c σ).all) = true
  · simp only [hf, if_true]
    have hi : σ.im = allOn := allOn_of_full (by simp only [Bool.and_eq_true] at hf; exact hf.2)
    exact h₁.deep (c := { c.pushLoop false (full c σ) with fm := allOn }) (σ := { σ with im := allOn }) M c₀ hd' hA
      (by rw [← hi]; exact hs) h₄
  · simp only [hf, if_false, Bool.false_eq_true]
    exact h₁.deep M c₀ hd' hA hs h₄

theorem nextIter_im {M : Mask n} {σ : St n} (h₃ : ∀ l, σ.im l = true → M l = true)
    (h₄ : ∀ l, σ.cont l = true → M l = true) : ∀ l, (nextIter σ).im l = true → M l = true := by
  intro l hl
  simp only [nextIter, Mask.or, Bool.or_eq_true] at hl
  exact hl.elim (h₃ l) (h₄ l)

theorem and_sub {M m t : Mask n} (h : ∀ l, m l = true → M l = true) : ∀ l, (m.and t) l = true → M l = true := by
  intro l hl; simp only [Mask.and, Bool.and_eq_true] at hl; exact h l hl.1

theorem lock_forV {d a} {f₁ g₁ f₂ g₂ : Code n} (h₁ : Lock d a f₁ g₁) (h₂ : Lock d a f₂ g₂) {c : Ctx n} {e : Expr}
    {coh : Bool} (hd : d ≤ vdepth c.cf) (M : Mask n) : ∀ k (σ : St n) L, Ag a M σ.loc L →
      (∀ l, σ.im l = true → M l = true) → (∀ l, σ.cont l = true → M l = true) →
      Res a False M M (forV c e coh f₂ f₁ k σ) (forV c e coh g₂ g₁ k (St.setLoc σ L))
  | 0, _, _, _, _, _ => .none
  | k + 1, σ, L, hA, hs, hc => by
    unfold forV
    have ht : (St.setLoc σ L).im.and ((St.setLoc σ L).test e) = σ.im.and (σ.test e) := and_test hA e hs
    simp only [ht]
    have hs' := and_sub (t := σ.test e) hs
    have hstep : (({ (St.setLoc σ L) with im := σ.im.and (σ.test e) } : St n)) =
      St.setLoc { σ with im := σ.im.and (σ.test e) } L := rfl
    rw [hstep]
    have hfull : full c (St.setLoc { σ with im := σ.im.and (σ.test e) } L) = full c { σ with im := σ.im.and (σ.test e) } := rfl
    rw [hfull]
    have hA' : Ag a M ({ σ with im := σ.im.and (σ.test e) } : St n).loc L := hA
    have hs'' : ∀ l, ({ σ with im := σ.im.and (σ.test e) } : St n).im l = true → M l = true := hs'
    have hc' : ∀ l, ({ σ with im := σ.im.and (σ.test e) } : St n).cont l = true → M l = true := hc
    generalize ({ σ with im := σ.im.and (σ.test e) } : St n) = υ at hA' hs'' hc' ⊢
    by_cases hf : (full c υ).any = true
    · rw [if_pos hf, if_pos hf]
      have r := lock_coherent h₁ (coh := coh) (c₀ := M) hd hA' hs'' (fun l h => Or.inl (hc' l h))
      generalize coherentBody c coh f₁ υ = x at r
      generalize coherentBody c coh g₁ (St.setLoc υ L) = y at r
      cases r with
      | none => exact .none
      | @some o τ L' k₁ k₂ k₃ k₄ =>
        have k₄ : ∀ l, τ.cont l = true → M l = true := fun l hl => (k₄ l hl).elim id id
        have go : Res a False M M
            (match f₂ (c.pushLoop false (full c (nextIter τ))) (nextIter τ) with
              | some (.normal, σ) => forV c e coh f₂ f₁ k σ
              | _ => none)
            (match g₂ (c.pushLoop false (full c (nextIter τ))) (St.setLoc (nextIter τ) L') with
              | some (.normal, σ) => forV c e coh g₂ g₁ k σ
              | _ => none) := by
          have hd' : d < vdepth (c.pushLoop false (full c (nextIter τ))).cf := by rw [vdepth_pushLoop_false]; omega
          have r := h₂.deep (σ := nextIter τ) M M hd' (k₂ id) (nextIter_im k₃ k₄) (by intro l hl; simp [nextIter, allOff] at hl)
          generalize f₂ (c.pushLoop false (full c (nextIter τ))) (nextIter τ) = x at r
          generalize g₂ (c.pushLoop false (full c (nextIter τ))) (St.setLoc (nextIter τ) L') = y at r
          cases r with
          | none => exact .none
          | @some o τ L' k₁ k₂ k₃ k₄ =>
            cases o with
            | normal => exact lock_forV h₁ h₂ hd M k τ L' (k₂ id) k₃ (fun l hl => (k₄ l hl).elim id id)
            | brk => exact .none
            | cont => exact .none
            | ret => exact .none
        have k₄' : ∀ l, τ.cont l = true → M l = true ∨ M l = true := fun l h => Or.inl (k₄ l h)
        cases o with
        | normal => exact go
        | cont => exact go
        | brk => exact .some k₁ k₂ k₃ k₄'
        | ret => exact .some k₁ k₂ k₃ k₄'
    · rw [if_neg hf, if_neg hf]
      exact .some (hA'.mono hs'') (fun _ => hA') hs'' (fun l h => Or.inl (hc' l h))

theorem lock_doV {d a} {f₁ g₁ : Code n} (h₁ : Lock d a f₁ g₁) {c : Ctx n} {e : Expr}
    {coh : Bool} (hd : d ≤ vdepth c.cf) (M : Mask n) : ∀ k (σ : St n) L, Ag a M σ.loc L →
      (∀ l, σ.im l = true → M l = true) → (∀ l, σ.cont l = true → M l = true) →
      Res a False M M (doV c e coh f₁ k σ) (doV c e coh g₁ k (St.setLoc σ L))
  | 0, _, _, _, _, _ => .none
  | k + 1, σ, L, hA, hs, hc => by
    unfold doV
    have r := lock_coherent h₁ (coh := coh) (c₀ := M) hd hA hs (fun l h => Or.inl (hc l h))
    generalize coherentBody c coh f₁ σ = x at r
    generalize coherentBody c coh g₁ (St.setLoc σ L) = y at r
    cases r with
    | none => exact .none
    | @some o τ L' k₁ k₂ k₃ k₄ =>
      have k₄ : ∀ l, τ.cont l = true → M l = true := fun l hl => (k₄ l hl).elim id id
      have hn := nextIter_im k₃ k₄
      have hA' : Ag a M (nextIter τ).loc L' := k₂ id
      have ht : (nextIter (St.setLoc τ L')).im.and ((nextIter (St.setLoc τ L')).test e) =
        (nextIter τ).im.and ((nextIter τ).test e) := and_test (σ := nextIter τ) hA' e hn
      have hs' := and_sub (t := (nextIter τ).test e) hn
      have go : Res a False M M
          (if (full c { nextIter τ with im := (nextIter τ).im.and ((nextIter τ).test e) }).any
            then doV c e coh f₁ k { nextIter τ with im := (nextIter τ).im.and ((nextIter τ).test e) }
            else some (.normal, { nextIter τ with im := (nextIter τ).im.and ((nextIter τ).test e) }))
          (if (full c { nextIter τ with im := (nextIter τ).im.and ((nextIter τ).test e) }).any
            then doV c e coh g₁ k (St.setLoc { nextIter τ with im := (nextIter τ).im.and ((nextIter τ).test e) } L')
            else some (.normal, St.setLoc { nextIter τ with im := (nextIter τ).im.and ((nextIter τ).test e) } L')) := by
        have hc' : ∀ l, (nextIter τ).cont l = true → M l = true := by intro l hl; simp [nextIter, allOff] at hl
        by_cases hf : (full c { nextIter τ with im := (nextIter τ).im.and ((nextIter τ).test e) }).any = true
        · rw [if_pos hf, if_pos hf]
          exact lock_doV h₁ hd M k _ L' hA' hs' hc'
        · rw [if_neg hf, if_neg hf]
          exact .some (σ := { nextIter τ with im := (nextIter τ).im.and ((nextIter τ).test e) }) (Ag.mono hA' hs')
            (fun _ => hA') hs' (fun l h => Or.inl (hc' l h))
      have go' : Res a False M M
          (if (full c { nextIter τ with im := (nextIter τ).im.and ((nextIter τ).test e) }).any
            then doV c e coh f₁ k { nextIter τ with im := (nextIter τ).im.and ((nextIter τ).test e) }
            else some (.normal, { nextIter τ with im := (nextIter τ).im.and ((nextIter τ).test e) }))
          (if (full c { nextIter (St.setLoc τ L') with im := (nextIter (St.setLoc τ L')).im.and ((nextIter (St.setLoc τ L')).test e) }).any
            then doV c e coh g₁ k { nextIter (St.setLoc τ L') with im := (nextIter (St.setLoc τ L')).im.and ((nextIter (St.setLoc τ L')).test e) }
            else some (.normal, { nextIter (St.setLoc τ L') with im := (nextIter (St.setLoc τ L')).im.and ((nextIter (St.setLoc τ L')).test e) })) := by
        rw [ht]; exact go
      have k₄' : ∀ l, τ.cont l = true → M l = true ∨ M l = true := fun l h => Or.inl (k₄ l h)
      cases o with
      | normal => exact go'
      | cont => exact go'
      | brk => exact .some k₁ k₂ k₃ k₄'
      | ret => exact .some k₁ k₂ k₃ k₄'

theorem res_wrapU {a} {q : Prop} {M c₀ : Mask n} {σ : St n} {L} {f g : St n → Option (Out × St n)}
    (h : Res a q M c₀ (f { σ with brk := allOff, cont := allOff })
      (g (St.setLoc { σ with brk := allOff, cont := allOff } L))) :
    Res a q M σ.cont (wrapLoop true σ f) (wrapLoop true (St.setLoc σ L) g) := by
  have hg : g { (St.setLoc σ L) with brk := allOff, cont := allOff } = g (St.setLoc { σ with brk := allOff, cont := allOff } L) := rfl
  unfold wrapLoop
  rw [hg]
  generalize f { σ with brk := allOff, cont := allOff } = x at h
  generalize g (St.setLoc { σ with brk := allOff, cont := allOff } L) = y at h
  cases h with
  | none => exact .none
  | @some o τ L' k₁ k₂ k₃ k₄ =>
    simp only [Bool.true_or, if_true]
    exact .some (σ := { τ with brk := σ.brk, cont := σ.cont }) k₁ k₂ k₃ (fun l hl => Or.inl hl)

theorem restore_sub {M m : Mask n} {σ : St n} (hm : ∀ l, m l = true → M l = true) :
    ∀ l, (restoreMask m σ).im l = true → M l = true := by
  intro l hl
  simp only [restoreMask, Mask.andNot, Bool.and_eq_true] at hl
  exact hm l hl.1

theorem res_wrapV {a} {q : Prop} {M c₀ : Mask n} {σ : St n} {L} {f g : St n → Option (Out × St n)}
    (hs : ∀ l, σ.im l = true → M l = true)
    (h : Res a False M c₀ (f { σ with brk := allOff, cont := allOff })
      (g (St.setLoc { σ with brk := allOff, cont := allOff } L))) :
    Res a q M σ.cont (wrapLoop false σ f) (wrapLoop false (St.setLoc σ L) g) := by
  have hg : g { (St.setLoc σ L) with brk := allOff, cont := allOff } = g (St.setLoc { σ with brk := allOff, cont := allOff } L) := rfl
  unfold wrapLoop
  rw [hg]
  generalize f { σ with brk := allOff, cont := allOff } = x at h
  generalize g (St.setLoc { σ with brk := allOff, cont := allOff } L) = y at h
  cases h with
  | none => exact .none
  | @some o τ L' k₁ k₂ k₃ k₄ =>
    have kA : Ag a M τ.loc L' := k₂ id
    have hr : ∀ l, (restoreMask σ.im { τ with brk := σ.brk, cont := σ.cont }).im l = true → M l = true := restore_sub hs
    cases o with
    | ret =>
      exact .some (σ := { τ with brk := σ.brk, cont := σ.cont }) k₁ (fun _ => kA) k₃ (fun l hl => Or.inl hl)
    | normal =>
      exact .some (σ := restoreMask σ.im { τ with brk := σ.brk, cont := σ.cont }) (Ag.mono kA hr) (fun _ => kA) hr
        (fun l hl => Or.inl hl)
    | brk =>
      exact .some (σ := restoreMask σ.im { τ with brk := σ.brk, cont := σ.cont }) (Ag.mono kA hr) (fun _ => kA) hr
        (fun l hl => Or.inl hl)
    | cont =>
      exact .some (σ := restoreMask σ.im { τ with brk := σ.brk, cont := σ.cont }) (Ag.mono kA hr) (fun _ => kA) hr
        (fun l hl => Or.inl hl)

/-! ### `switch` -/

theorem vdepth_pushSwitch_true (c : Ctx n) (b m) : vdepth (c.pushSwitch true b m).cf = vdepth c.cf := rfl
theorem vdepth_pushSwitch_false (c : Ctx n) (b m) : vdepth (c.pushSwitch false b m).cf = vdepth c.cf + 1 := by
  simp [vdepth, Ctx.pushSwitch]

theorem label_eq {a : Nat} {M : Mask n} {σ : St n} {L} (h : Ag a M σ.loc L) (e : Expr) {m : Mask n}
    (hm : ∀ l, m l = true → M l = true) (cs : List Int) (lab : Option Int) :
    labelMask m (fun l => (St.setLoc σ L).eval e l) cs lab = labelMask m (fun l => σ.eval e l) cs lab := by
  funext l
  cases hl : m l
  · cases lab <;> simp [labelMask, hl]
  · cases lab <;> simp only [labelMask, eval_eq h e (hm l hl)]

theorem label_sub {M m : Mask n} {v : Fin n → Int} {cs lab} (hm : ∀ l, m l = true → M l = true) :
    ∀ l, labelMask m v cs lab l = true → M l = true := by
  intro l hl
  cases lab <;> simp only [labelMask, Bool.and_eq_true] at hl <;> exact hm l hl.1

/-- The segments in a varying switch. -/
theorem lock_segsV {d a} {F G : Stmt → Code n} (hF : ∀ s, argsAvoid a s = true → Lock d a (F s) (G s)) {c : Ctx n} {M c₀ m : Mask n}
    {v v' : Fin n → Int} {cs : List Int} (hd : d < vdepth c.cf) (hm : ∀ l, m l = true → M l = true)
    (hv : ∀ lab, labelMask m v' cs lab = labelMask m v cs lab) : ∀ (b : Stmt), argsAvoid a b = true → ∀ (σ : St n) L, Ag a M σ.loc L →
      (∀ l, σ.im l = true → M l = true) → (∀ l, σ.cont l = true → c₀ l = true ∨ M l = true) →
      Res a False M c₀ (segsV m v cs (fun s σ => F s c σ) b σ) (segsV m v' cs (fun s σ => G s c σ) b (St.setLoc σ L)) := by
  intro b
  induction b with
  | skip => intro _ σ L hA hs hc; exact .some (hA.mono hs) (fun _ => hA) hs hc
  | seg lab chk s r ihs ihr =>
    intro hav σ L hA hs hc
    simp only [argsAvoid, Bool.and_eq_true] at hav
    have hs' : ∀ l, (σ.im.or (labelMask m v cs lab)) l = true → M l = true := by
      intro l hl
      simp only [Mask.or, Bool.or_eq_true] at hl
      exact hl.elim (hs l) (label_sub hm l)
    simp only [segsV]
    rw [hv lab]
    have e₁ : ({ (St.setLoc σ L) with im := (St.setLoc σ L).im.or (labelMask m v cs lab) } : St n) =
      St.setLoc { σ with im := σ.im.or (labelMask m v cs lab) } L := rfl
    rw [e₁]
    have e₂ : (St.setLoc σ L).im = σ.im := rfl
    rw [e₂]
    have hA' : Ag a M ({ σ with im := σ.im.or (labelMask m v cs lab) } : St n).loc L := hA
    by_cases hk : (chk && !(σ.im.or (labelMask m v cs lab)).any) = true
    · rw [if_pos hk, if_pos hk]
      exact ihr hav.2 _ L hA' hs' hc
    · rw [if_neg hk, if_neg hk]
      refine Res.andThen ((hF s hav.1).deep (σ := { σ with im := σ.im.or (labelMask m v cs lab) }) M c₀ hd hA' hs' hc) ?_
      intro τ L' _ k₂ k₃ k₄
      exact ihr hav.2 τ L' (k₂ id) k₃ k₄
  | _ => intro _ σ L _ _ _; exact .none

/-- The segments of a switch with a uniform condition. -/
theorem lock_segsU {d a} {F G : Stmt → Code n} (hF : ∀ s, argsAvoid a s = true → Lock d a (F s) (G s)) {c : Ctx n} {M c₀ : Mask n}
    (hd : d ≤ vdepth c.cf) : ∀ (b : Stmt), argsAvoid a b = true → ∀ (σ : St n) L, Ag a (fun l => σ.im l) σ.loc L →
      (¬ vdepth c.cf = d → Ag a M σ.loc L) →
      (∀ l, σ.im l = true → M l = true) → (∀ l, σ.cont l = true → c₀ l = true ∨ M l = true) →
      Res a (vdepth c.cf = d) M c₀ (segsU (fun s σ => F s c σ) b σ) (segsU (fun s σ => G s c σ) b (St.setLoc σ L)) := by
  intro b
  induction b with
  | skip => intro _ σ L hA hB hs hc; exact .some hA hB hs hc
  | seg lab chk s r ihs ihr =>
    intro hav σ L hA hB hs hc
    simp only [argsAvoid, Bool.and_eq_true] at hav
    simp only [segsU]
    refine Res.andThen ((hF s hav.1).next hd hA hB hs hc) ?_
    intro τ L' k₁ k₂ k₃ k₄
    exact ihr hav.2 τ L' k₁ k₂ k₃ k₄
  | _ => intro _ σ L _ _ _ _; exact .none

theorem avoid_findCase {a : Nat} {v : Int} : ∀ {b b' : Stmt}, argsAvoid a b = true → findCase v b = some b' → argsAvoid a b' = true := by
  intro b
  induction b with
  | seg lab chk s r ihs ihr =>
    intro b' hav h
    have hav' := hav
    simp only [argsAvoid, Bool.and_eq_true] at hav'
    cases lab with
    | none => exact ihr hav'.2 h
    | some w =>
      simp only [findCase] at h
      split at h
      · cases h; exact hav
      · exact ihr hav'.2 h
  | _ => intro b' _ h; simp [findCase] at h

theorem avoid_findDefault {a : Nat} : ∀ {b b' : Stmt}, argsAvoid a b = true → findDefault b = some b' → argsAvoid a b' = true := by
  intro b
  induction b with
  | seg lab chk s r ihs ihr =>
    intro b' hav h
    have hav' := hav
    simp only [argsAvoid, Bool.and_eq_true] at hav'
    cases lab with
    | some w => exact ihr hav'.2 h
    | none => simp only [findDefault, Option.some.injEq] at h; subst h; exact hav
  | _ => intro b' _ h; simp [findDefault] at h

theorem avoid_entry {a : Nat} {v : Int} {b b' : Stmt} (hav : argsAvoid a b = true) (h : switchEntry v b = some b') :
    argsAvoid a b' = true := by
  unfold switchEntry at h
  split at h
  · rename_i hc; cases h; exact avoid_findCase hav hc
  · exact avoid_findDefault hav h

/-- What `doSwitch` does with the result of the segments. -/
def endSwitch (unif : Bool) (σ : St n) (r : Option (Out × St n)) : Option (Out × St n) :=
  match r with
  | none => none
  | some (.ret, σ') => some (.ret, { σ' with brk := σ.brk, cont := σ.cont })
  | some (.cont, _) => none
  | some (_, σ') =>
    some (.normal, if unif then { σ' with brk := σ.brk, cont := σ.cont }
      else restoreMask σ.im { σ' with brk := σ.brk, cont := σ.cont })

theorem doSwitch_eq (c : Ctx n) (e : Expr) (body : Stmt) (exec : Ctx n → Stmt → St n → Option (Out × St n)) (σ : St n) :
    doSwitch c e body exec σ = endSwitch (e.isUniform && !hasVBC 0 body) σ
      (if e.isUniform then
        match switchEntry (σ.evalU e) body with
        | none => some (.normal, { σ with brk := allOff, cont := allOff })
        | some ch => segsU (exec (c.pushSwitch (e.isUniform && !hasVBC 0 body) e.isUniform (full c σ))) ch
            { σ with brk := allOff, cont := allOff }
      else
        segsV σ.im (fun l => σ.eval e l) (caseVals body)
          (exec (c.pushSwitch (e.isUniform && !hasVBC 0 body) e.isUniform (full c σ))) body
          { σ with brk := allOff, cont := allOff, im := allOff }) := rfl

theorem res_endSwitchU {a} {q : Prop} {M c₀ : Mask n} {σ : St n} {L r r'} (h : Res a q M c₀ r r') :
    Res a q M σ.cont (endSwitch true σ r) (endSwitch true (St.setLoc σ L) r') := by
  cases h with
  | none => exact .none
  | @some o τ L' k₁ k₂ k₃ k₄ =>
    cases o with
    | cont => exact .none
    | ret => exact .some (σ := { τ with brk := σ.brk, cont := σ.cont }) k₁ k₂ k₃ (fun l hl => Or.inl hl)
    | normal => exact .some (σ := { τ with brk := σ.brk, cont := σ.cont }) k₁ k₂ k₃ (fun l hl => Or.inl hl)
    | brk => exact .some (σ := { τ with brk := σ.brk, cont := σ.cont }) k₁ k₂ k₃ (fun l hl => Or.inl hl)

theorem res_endSwitchV {a} {q : Prop} {M c₀ : Mask n} {σ : St n} {L r r'} (hs : ∀ l, σ.im l = true → M l = true)
    (h : Res a False M c₀ r r') : Res a q M σ.cont (endSwitch false σ r) (endSwitch false (St.setLoc σ L) r') := by
  cases h with
  | none => exact .none
  | @some o τ L' k₁ k₂ k₃ k₄ =>
    have kA : Ag a M τ.loc L' := k₂ id
    have hr : ∀ l, (restoreMask σ.im { τ with brk := σ.brk, cont := σ.cont }).im l = true → M l = true := restore_sub hs
    cases o with
    | cont => exact .none
    | ret => exact .some (σ := { τ with brk := σ.brk, cont := σ.cont }) k₁ (fun _ => kA) k₃ (fun l hl => Or.inl hl)
    | normal =>
      exact .some (σ := restoreMask σ.im { τ with brk := σ.brk, cont := σ.cont }) (Ag.mono kA hr) (fun _ => kA) hr
        (fun l hl => Or.inl hl)
    | brk =>
      exact .some (σ := restoreMask σ.im { τ with brk := σ.brk, cont := σ.cont }) (Ag.mono kA hr) (fun _ => kA) hr
        (fun l hl => Or.inl hl)

theorem lock_switch {d a} {F G : Stmt → Code n} (hF : ∀ s, argsAvoid a s = true → Lock d a (F s) (G s)) {c : Ctx n}
    {M : Mask n} {σ : St n} {L} {e : Expr} {body : Stmt} (hav : argsAvoid a body = true) (hd : d ≤ vdepth c.cf)
    (hs : ∀ l, σ.im l = true → M l = true) (hA : Ag a M σ.loc L) :
    Res a (vdepth c.cf = d) M σ.cont (doSwitch c e body (fun c s σ => F s c σ) σ)
      (doSwitch c e body (fun c s σ => G s c σ) (St.setLoc σ L)) := by
  have hfull : full c (St.setLoc σ L) = full c σ := rfl
  have hevalU : (St.setLoc σ L).evalU e = σ.evalU e := rfl
  have hoff : ∀ l, ({ σ with brk := allOff, cont := allOff } : St n).cont l = true → σ.cont l = true ∨ M l = true := by
    intro l hl; simp [allOff] at hl
  rw [doSwitch_eq, doSwitch_eq, hfull, hevalU]
  cases hu : e.isUniform
  · -- varying condition
    simp only [Bool.false_and, Bool.false_eq_true, if_false]
    refine res_endSwitchV (c₀ := σ.cont) hs ?_
    have hd' : d < vdepth (c.pushSwitch false false (full c σ)).cf := by rw [vdepth_pushSwitch_false]; omega
    exact lock_segsV hF hd' hs (fun lab => label_eq hA e hs _ lab) body hav
      { σ with brk := allOff, cont := allOff, im := allOff } L hA (by intro l hl; simp [allOff] at hl) hoff
  · simp only [Bool.true_and, if_true]
    cases hb : hasVBC 0 body
    · -- uniform switch
      simp only [Bool.not_false]
      refine res_endSwitchU (c₀ := σ.cont) ?_
      cases hent : switchEntry (σ.evalU e) body with
      | none => exact .some (σ := { σ with brk := allOff, cont := allOff }) (Ag.mono hA hs) (fun _ => hA) hs hoff
      | some ch =>
        have hv := vdepth_pushSwitch_true c true (full c σ)
        have r := lock_segsU hF (c := c.pushSwitch true true (full c σ)) (M := M) (c₀ := σ.cont) (by rw [hv]; exact hd) ch
          (avoid_entry hav hent) { σ with brk := allOff, cont := allOff } L (Ag.mono hA hs) (fun _ => hA) hs hoff
        rw [hv] at r
        exact r
    · -- uniform condition, varying breaks
      simp only [Bool.not_true]
      refine res_endSwitchV (c₀ := σ.cont) hs ?_
      cases hent : switchEntry (σ.evalU e) body with
      | none => exact .some (σ := { σ with brk := allOff, cont := allOff }) (Ag.mono hA hs) (fun _ => hA) hs hoff
      | some ch =>
        have hd' : d < vdepth (c.pushSwitch false true (full c σ)).cf := by rw [vdepth_pushSwitch_false]; omega
        have r := lock_segsU hF (c := c.pushSwitch false true (full c σ)) (M := M) (c₀ := σ.cont) (Nat.le_of_lt hd') ch
          (avoid_entry hav hent) { σ with brk := allOff, cont := allOff } L (Ag.mono hA hs) (fun _ => hA) hs hoff
        exact r.weaken (fun _ => Nat.ne_of_gt hd') (fun _ h => Or.inl h)

/-! ### Assignments, jumps and calls -/

theorem lock_break {d a} (c : Ctx n) (M : Mask n) {σ : St n} {L}
    (hs : ∀ l, σ.im l = true → M l = true) (hA : Ag a M σ.loc L) :
    Res a (vdepth c.cf = d) M σ.cont (doBreak c σ) (doBreak c (St.setLoc σ L)) := by
  have same : Res a (vdepth c.cf = d) M σ.cont (some (.brk, σ)) (some (.brk, St.setLoc σ L)) :=
    .some (hA.mono hs) (fun _ => hA) hs (fun _ h => Or.inl h)
  have moved : ∀ o, Res a (vdepth c.cf = d) M σ.cont (some (o, { σ with brk := σ.brk.or σ.im, im := allOff }))
      (some (o, St.setLoc { σ with brk := σ.brk.or σ.im, im := allOff } L)) := fun o =>
    .some (σ := { σ with brk := σ.brk.or σ.im, im := allOff }) (Ag.mono hA (by intro l hl; simp [allOff] at hl))
      (fun _ => hA) (by intro l hl; simp [allOff] at hl) (fun _ h => Or.inl h)
  unfold doBreak
  split
  · exact .none
  · split
    · exact same
    · split
      · exact same
      · split
        · exact .none
        · by_cases hf : allDone c { σ with brk := σ.brk.or σ.im, im := allOff } = true
          · have hf' : allDone c { (St.setLoc σ L) with brk := (St.setLoc σ L).brk.or (St.setLoc σ L).im, im := allOff } = true := hf
            simp only [hf, hf', if_true]
            exact moved _
          · have hf' : ¬ allDone c { (St.setLoc σ L) with brk := (St.setLoc σ L).brk.or (St.setLoc σ L).im, im := allOff } = true := hf
            simp only [hf, hf']
            exact moved _

theorem lock_continue {d a} (c : Ctx n) (M : Mask n) {σ : St n} {L}
    (hs : ∀ l, σ.im l = true → M l = true) (hA : Ag a M σ.loc L) :
    Res a (vdepth c.cf = d) M σ.cont (doContinue c σ) (doContinue c (St.setLoc σ L)) := by
  have moved : ∀ o, Res a (vdepth c.cf = d) M σ.cont (some (o, { σ with cont := σ.cont.or σ.im, im := allOff }))
      (some (o, St.setLoc { σ with cont := σ.cont.or σ.im, im := allOff } L)) := fun o =>
    .some (σ := { σ with cont := σ.cont.or σ.im, im := allOff }) (Ag.mono hA (by intro l hl; simp [allOff] at hl))
      (fun _ => hA) (by intro l hl; simp [allOff] at hl)
      (by intro l hl; simp only [Mask.or, Bool.or_eq_true] at hl; exact hl.imp id (hs l))
  unfold doContinue
  split
  · exact .none
  · split
    · exact .some (hA.mono hs) (fun _ => hA) hs (fun _ h => Or.inl h)
    · split
      · exact .none
      · by_cases hf : allDone c { σ with cont := σ.cont.or σ.im, im := allOff } = true
        · have hf' : allDone c { (St.setLoc σ L) with cont := (St.setLoc σ L).cont.or (St.setLoc σ L).im, im := allOff } = true := hf
          simp only [hf, hf', if_true]
          exact moved _
        · have hf' : ¬ allDone c { (St.setLoc σ L) with cont := (St.setLoc σ L).cont.or (St.setLoc σ L).im, im := allOff } = true := hf
          simp only [hf, hf']
          exact moved _

theorem lock_return {d a} (c : Ctx n) (e : Expr) (M : Mask n) {σ : St n} {L}
    (hs : ∀ l, σ.im l = true → M l = true) (hA : Ag a M σ.loc L) :
    Res a (vdepth c.cf = d) M σ.cont (doReturn c e σ) (doReturn c e (St.setLoc σ L)) := by
  have hrv : (fun l => if (St.setLoc σ L).im l then (St.setLoc σ L).eval e l else (St.setLoc σ L).rv l) =
      (fun l => if σ.im l then σ.eval e l else σ.rv l) := by
    funext l
    show (if σ.im l then (St.setLoc σ L).eval e l else σ.rv l) = _
    cases hl : σ.im l
    · rfl
    · rw [eval_eq hA e (hs l hl)]
  unfold doReturn
  rw [hrv]
  generalize (fun l => if σ.im l then σ.eval e l else σ.rv l) = rv
  have hfull : full c { (St.setLoc σ L) with rv := rv } = full c { σ with rv := rv } := rfl
  by_cases hd : vdepth c.cf = 0
  · simp only [hd, if_true]
    exact .some (σ := { σ with rv := rv }) (Ag.mono hA hs) (fun _ => hA) hs (fun _ h => Or.inl h)
  · simp only [hd, if_false, hfull]
    have moved : ∀ o, Res a (vdepth c.cf = d) M σ.cont
        (some (o, { σ with rv := rv, ret := σ.ret.or (full c { σ with rv := rv }), im := allOff }))
        (some (o, St.setLoc { σ with rv := rv, ret := σ.ret.or (full c { σ with rv := rv }), im := allOff } L)) := fun o =>
      .some (σ := { σ with rv := rv, ret := σ.ret.or (full c { σ with rv := rv }), im := allOff })
        (Ag.mono hA (by intro l hl; simp [allOff] at hl))
        (fun _ => hA) (by intro l hl; simp [allOff] at hl) (fun _ h => Or.inl h)
    by_cases hf : c.fm.equal (σ.ret.or (full c { σ with rv := rv })) = true
    · have hf' : c.fm.equal ((St.setLoc σ L).ret.or (full c { σ with rv := rv })) = true := hf
      simp only [hf, hf', if_true]
      exact moved _
    · have hf' : ¬ c.fm.equal ((St.setLoc σ L).ret.or (full c { σ with rv := rv })) = true := hf
      simp only [hf, hf']
      exact moved _

/-- The mask of a store to the variable `a` itself. -/
theorem storeMask_local (d : Nat) (c : Ctx n) (σ : St n) :
    storeMask (some ⟨.other, false, true, d⟩) c σ = if vdepth c.cf = d then allOn else σ.im := by
  unfold storeMask maskFor
  by_cases h : d = vdepth c.cf
  · simp [h]
  · have h' : ¬ vdepth c.cf = d := fun x => h x.symm
    simp [h, h']

/-- Storing to `b` in the lanes of `m` rather than in the lanes that are on, where `m` is the mask the compiler picks. -/
theorem store_agree {d a : Nat} {c : Ctx n} {M m : Mask n} {σ : St n} {L : Fin n → Nat → Int → Int} {b : Nat}
    (hs : ∀ l, σ.im l = true → M l = true) (hA : Ag a M σ.loc L)
    (hm : m = σ.im ∨ (b = a ∧ vdepth c.cf = d ∧ m = allOn)) {i i' v v' : Fin n → Int}
    (hv : ∀ l, σ.im l = true → i' l = i l ∧ v' l = v l) :
    Ag a (fun l => σ.im l) (fun l => if σ.im l then upd2 (σ.loc l) b (i l) (v l) else σ.loc l)
        (fun l => if m l then upd2 (L l) b (i' l) (v' l) else L l) ∧
    (¬ vdepth c.cf = d → Ag a M (fun l => if σ.im l then upd2 (σ.loc l) b (i l) (v l) else σ.loc l)
        (fun l => if m l then upd2 (L l) b (i' l) (v' l) else L l)) := by
  have on : ∀ l, σ.im l = true → m l = true := by
    intro l hl
    rcases hm with h | ⟨_, _, h⟩
    · rw [h]; exact hl
    · rw [h]; rfl
  have lanesOn : ∀ l, σ.im l = true → (if m l then upd2 (L l) b (i' l) (v' l) else L l) =
      (if σ.im l then upd2 (σ.loc l) b (i l) (v l) else σ.loc l) := by
    intro l hl
    rw [if_pos (on l hl), if_pos hl, (hv l hl).1, (hv l hl).2, hA.lane (hs l hl)]
  constructor
  · intro l x hx
    by_cases hl : σ.im l = true
    · exact congrFun (lanesOn l hl) x
    · have hxa : x ≠ a := hx.elim id (fun h => absurd h hl)
      simp only [hl, if_false, Bool.false_eq_true]
      rcases hm with h | ⟨h₁, h₂, h⟩
      · rw [h]; simp only [hl, if_false, Bool.false_eq_true]; exact hA l x (Or.inl hxa)
      · rw [h, if_pos (show (allOn : Mask n) l = true from rfl)]
        have : upd2 (L l) b (i' l) (v' l) x = L l x := by
          funext y; simp [upd2, h₁, hxa]
        rw [this]; exact hA l x (Or.inl hxa)
  · intro hne l x hx
    rcases hm with h | ⟨h₁, h₂, h⟩
    · by_cases hl : σ.im l = true
      · exact congrFun (lanesOn l hl) x
      · rw [h]; simp only [hl, if_false, Bool.false_eq_true]; exact hA l x hx
    · exact absurd h₂ hne

theorem lock_vassign {d a} (c : Ctx n) (b : Nat) (i e : Expr) (M : Mask n) {σ : St n} {L}
    (hs : ∀ l, σ.im l = true → M l = true) (hA : Ag a M σ.loc L) :
    Res a (vdepth c.cf = d) M σ.cont (some (.normal, doVassign c false b i e σ))
      (some (.normal, assignLocal d a c b i e (St.setLoc σ L))) := by
  have hm : (if b = a ∧ i.isUniform = true then storeMask (some ⟨.other, false, true, d⟩) c (St.setLoc σ L) else σ.im) = σ.im ∨
      (b = a ∧ vdepth c.cf = d ∧
        (if b = a ∧ i.isUniform = true then storeMask (some ⟨.other, false, true, d⟩) c (St.setLoc σ L) else σ.im) = allOn) := by
    rw [storeMask_local]
    by_cases h : b = a ∧ i.isUniform = true
    · rw [if_pos h]
      by_cases h' : vdepth c.cf = d
      · exact Or.inr ⟨h.1, h', by rw [if_pos h']⟩
      · exact Or.inl (by rw [if_neg h']; rfl)
    · exact Or.inl (by rw [if_neg h])
  have k := store_agree (c := c) hs hA hm (i := fun l => σ.eval i l) (v := fun l => σ.eval e l)
    (i' := fun l => (St.setLoc σ L).eval i l) (v' := fun l => (St.setLoc σ L).eval e l)
    (fun l hl => ⟨eval_eq hA i (hs l hl), eval_eq hA e (hs l hl)⟩)
  exact .some (σ := doVassign c false b i e σ) k.1 k.2 hs (fun _ h => Or.inl h)

theorem lock_vassignExt {d a} (c : Ctx n) (b : Nat) (i e : Expr) (M : Mask n) {σ : St n} {L}
    (hs : ∀ l, σ.im l = true → M l = true) (hA : Ag a M σ.loc L) :
    Res a (vdepth c.cf = d) M σ.cont (some (.normal, doVassign c true b i e σ))
      (some (.normal, doVassign c true b i e (St.setLoc σ L))) := by
  have he : doVassign c true b i e (St.setLoc σ L) = St.setLoc (doVassign c true b i e σ) L := by
    have : (fun l => if full c (St.setLoc σ L) l then upd2 (σ.ext l) b ((St.setLoc σ L).eval i l) ((St.setLoc σ L).eval e l) else σ.ext l) =
        (fun l => if full c σ l then upd2 (σ.ext l) b (σ.eval i l) (σ.eval e l) else σ.ext l) := by
      funext l
      show (if full c σ l then _ else _) = _
      cases hl : full c σ l
      · rfl
      · have hl' : σ.im l = true := by simp only [full, Mask.and, Bool.and_eq_true] at hl; exact hl.1
        simp only [if_true, eval_eq hA i (hs l hl'), eval_eq hA e (hs l hl')]
    show ({ (St.setLoc σ L) with ext := (fun l => if full c (St.setLoc σ L) l then upd2 (σ.ext l) b ((St.setLoc σ L).eval i l) ((St.setLoc σ L).eval e l) else σ.ext l) } : St n) = _
    rw [this]; rfl
  rw [he]
  exact .some (σ := doVassign c true b i e σ) (Ag.mono hA hs) (fun _ => hA) hs (fun _ h => Or.inl h)

theorem enter_eq {a : Nat} {M : Mask n} {σ : St n} {L} (hA : Ag a M σ.loc L) (us vs : List Expr)
    (hav : vs.all (fun e => !reads a e) = true) : enterSt (St.setLoc σ L) us vs = enterSt σ us vs := by
  have hv : ∀ l, vs.map (fun e => (St.setLoc σ L).eval e l) = vs.map (fun e => σ.eval e l) := by
    intro l
    refine List.map_congr_left ?_
    intro e he
    rw [List.all_eq_true] at hav
    exact eval_avoid hA l e (by simpa using hav e he)
  unfold enterSt
  simp only [hv]
  rfl

theorem lock_all (P : Prog) (d a : Nat) : ∀ k (s : Stmt), argsAvoid a s = true → Lock (n := n) d a (run P k s) (runOpt P d a k s) := by
  intro k
  induction k with
  | zero => intro s _ c M σ L _ _ _; exact .none
  | succ k ih =>
    intro s hav c M σ L hd hs hA
    cases s with
    | skip => exact .some (hA.mono hs) (fun _ => hA) hs (fun _ h => Or.inl h)
    | uassign x e =>
      exact .some (σ := { σ with u := upd1 σ.u x (σ.evalU e) }) (Ag.mono hA hs) (fun _ => hA) hs (fun _ h => Or.inl h)
    | vassign b x i e =>
      cases b
      · exact lock_vassign c x i e M hs hA
      · exact lock_vassignExt c x i e M hs hA
    | seq s₁ s₂ =>
      simp only [argsAvoid, Bool.and_eq_true] at hav
      refine Res.andThen ((ih s₁ hav.1) c M σ L hd hs hA) ?_
      intro τ L' k₁ k₂ k₃ k₄
      exact (ih s₂ hav.2).next hd k₁ k₂ k₃ k₄
    | ite e coh pred s₁ s₂ =>
      simp only [argsAvoid, Bool.and_eq_true] at hav
      simp only [run, runOpt]
      by_cases hu : e.isUniform = true
      · rw [if_pos hu, if_pos hu]
        have he : (St.setLoc σ L).evalU e = σ.evalU e := rfl
        rw [he]
        by_cases ht : σ.evalU e ≠ 0
        · rw [if_pos ht, if_pos ht]; exact ih s₁ hav.1 (c.pushIf true) M σ L hd hs hA
        · rw [if_neg ht, if_neg ht]; exact ih s₂ hav.2 (c.pushIf true) M σ L hd hs hA
      · rw [if_neg hu, if_neg hu]
        exact lock_varyingIf (ih s₁ hav.1) (ih s₂ hav.2) e coh pred hd hA hs
    | loop e coh st b =>
      simp only [argsAvoid, Bool.and_eq_true] at hav
      simp only [run, runOpt]
      by_cases h1 : (!isSimple st) = true
      · rw [if_pos h1, if_pos h1]; exact .none
      · rw [if_neg h1, if_neg h1]
        by_cases h2 : loopUnif e b = true
        · rw [if_pos h2, if_pos h2]
          exact res_wrapU (lock_forU (ih b hav.2) (ih st hav.1) (c₀ := σ.cont) hd M k { σ with brk := allOff, cont := allOff } L
            (Ag.mono hA hs) (fun _ => hA) hs (by intro l hl; simp [allOff] at hl))
        · rw [if_neg h2, if_neg h2]
          exact res_wrapV hs (lock_forV (ih b hav.2) (ih st hav.1) hd M k { σ with brk := allOff, cont := allOff } L
            hA hs (by intro l hl; simp [allOff] at hl))
    | doloop b e coh =>
      simp only [argsAvoid] at hav
      simp only [run, runOpt]
      by_cases h2 : loopUnif e b = true
      · rw [if_pos h2, if_pos h2]
        exact res_wrapU (lock_doU (ih b hav) (c₀ := σ.cont) hd M k { σ with brk := allOff, cont := allOff } L
          (Ag.mono hA hs) (fun _ => hA) hs (by intro l hl; simp [allOff] at hl))
      · rw [if_neg h2, if_neg h2]
        exact res_wrapV hs (lock_doV (ih b hav) hd M k { σ with brk := allOff, cont := allOff } L
          hA hs (by intro l hl; simp [allOff] at hl))
    | brk => exact lock_break c M hs hA
    | cont => exact lock_continue c M hs hA
    | ret e => exact lock_return c e M hs hA
    | switch e b =>
      simp only [argsAvoid] at hav
      simp only [run, runOpt]
      by_cases h : switchOk b = true
      · rw [if_pos h, if_pos h]
        exact lock_switch ih hav hd hs hA
      · rw [if_neg h, if_neg h]; exact .none
    | seg _ _ _ _ => exact .none
    | call dst f us vs =>
      simp only [argsAvoid] at hav
      simp only [run, runOpt]
      have hfull : full c (St.setLoc σ L) = full c σ := rfl
      rw [enter_eq hA us vs hav, hfull]
      have key : ∀ (τ : St n), Res a (vdepth c.cf = d) M σ.cont
          (some (.normal, { σ with ext := τ.ext, loc := fun l => if σ.im l then upd2 (σ.loc l) dst 0 (τ.rv l) else σ.loc l }))
          (some (.normal, { (St.setLoc σ L) with ext := τ.ext, loc := assignResult d a c dst τ.rv (St.setLoc σ L) })) := by
        intro τ
        have hm : (if dst = a then storeMask (some ⟨.other, false, true, d⟩) c (St.setLoc σ L) else σ.im) = σ.im ∨
            (dst = a ∧ vdepth c.cf = d ∧
              (if dst = a then storeMask (some ⟨.other, false, true, d⟩) c (St.setLoc σ L) else σ.im) = allOn) := by
          rw [storeMask_local]
          by_cases h : dst = a
          · rw [if_pos h]
            by_cases h' : vdepth c.cf = d
            · exact Or.inr ⟨h, h', by rw [if_pos h']⟩
            · exact Or.inl (by rw [if_neg h']; rfl)
          · exact Or.inl (by rw [if_neg h])
        have k := store_agree (c := c) hs hA hm (i := fun _ => 0) (v := τ.rv) (i' := fun _ => 0) (v' := τ.rv)
          (fun l hl => ⟨rfl, rfl⟩)
        exact .some (σ := { σ with ext := τ.ext, loc := fun l => if σ.im l then upd2 (σ.loc l) dst 0 (τ.rv l) else σ.loc l })
          k.1 k.2 hs (fun _ h => Or.inl h)
      generalize funcBody (P f).checkMask (full c σ) (run P k (P f).body) (enterSt σ us vs) = x
      match x with
      | none => exact .none
      | some (.normal, τ) => exact key τ
      | some (.ret, τ) => exact key τ
      | some (.brk, τ) => exact .none
      | some (.cont, τ) => exact .none

end Ispc.StoreMask
