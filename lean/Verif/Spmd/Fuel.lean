import Verif.Spmd.SimAll
import Verif.Spmd.Det

/-!
# More fuel does not change a result; which lanes a statement can stop (helper lemmas for C01)
-/

namespace Ispc.Spmd

variable {n : Nat}

/-! ### Fuel -/

/-- Every result of `f` is a result of `g`. -/
def Le (f g : Code n) : Prop := ∀ c σ r, f c σ = some r → g c σ = some r

theorem andThen_le {a a' : Option (Out × St n)} {b b' : St n → Option (Out × St n)} {r}
    (ha : ∀ r, a = some r → a' = some r) (hb : ∀ σ r, b σ = some r → b' σ = some r) (h : andThen a b = some r) :
    andThen a' b' = some r := by
  obtain ⟨o, σ'⟩ := r
  rcases andThen_some h with ⟨h1, ho⟩ | ⟨σ₁, h1, h2⟩
  · rw [ha _ h1]
    cases o <;> first | rfl | exact absurd rfl ho
  · rw [ha _ h1]
    exact hb _ _ h2

theorem maskedBoth_le {c : Ctx n} {sv t : Mask n} {st sf st' sf' : Code n} (h1 : Le st st') (h2 : Le sf sf') {σ r}
    (h : maskedBoth c sv t st sf σ = some r) : maskedBoth c sv t st' sf' σ = some r := by
  unfold maskedBoth at h ⊢
  exact andThen_le (fun r h => h1 _ _ _ h) (fun σ r h => h2 _ _ _ h) h

theorem maskMixed_le {c : Ctx n} {t : Mask n} {st sf st' sf' : Code n} (h1 : Le st st') (h2 : Le sf sf') {σ r}
    (h : maskMixed c t st sf σ = some r) : maskMixed c t st' sf' σ = some r := by
  unfold maskMixed at h ⊢
  refine andThen_le ?_ (fun σ r h => andThen_le ?_ (fun _ _ h => h) h) h
  · intro r h
    split at h
    · rename_i hx; rw [if_pos hx]; exact h1 _ _ _ h
    · rename_i hx; rw [if_neg hx]; exact h
  · intro r h
    split at h
    · rename_i hx; rw [if_pos hx]; exact h2 _ _ _ h
    · rename_i hx; rw [if_neg hx]; exact h

theorem maskAllOn_le {c : Ctx n} {t : Mask n} {st sf st' sf' : Code n} (h1 : Le st st') (h2 : Le sf sf') {σ r}
    (h : maskAllOn c t st sf σ = some r) : maskAllOn c t st' sf' σ = some r := by
  unfold maskAllOn at h ⊢
  split at h
  · rename_i hx; rw [if_pos hx]; exact andThen_le (fun r h => h1 _ _ _ h) (fun _ _ h => h) h
  · rename_i hx
    rw [if_neg hx]
    split at h
    · rename_i hy; rw [if_pos hy]; exact andThen_le (fun r h => maskedBoth_le h1 h2 h) (fun _ _ h => h) h
    · rename_i hy; rw [if_neg hy]; exact andThen_le (fun r h => h2 _ _ _ h) (fun _ _ h => h) h

theorem varyingIf_le {c : Ctx n} {coh pred : Bool} {t : Mask n} {st sf st' sf' : Code n} (h1 : Le st st')
    (h2 : Le sf sf') {σ r} (h : varyingIf c coh pred t st sf σ = some r) :
    varyingIf c coh pred t st' sf' σ = some r := by
  unfold varyingIf at h ⊢
  split at h
  · rename_i hx
    rw [if_pos hx]
    split at h
    · rename_i hy; rw [if_pos hy]; exact maskAllOn_le h1 h2 h
    · rename_i hy; rw [if_neg hy]; exact maskMixed_le h1 h2 h
  · rename_i hx
    rw [if_neg hx]
    split at h
    · rename_i hy; rw [if_pos hy]; exact andThen_le (fun r h => maskedBoth_le h1 h2 h) (fun _ _ h => h) h
    · rename_i hy; rw [if_neg hy]; exact maskMixed_le h1 h2 h

theorem coherentBody_le {c : Ctx n} {coh : Bool} {b b' : Code n} (hb : Le b b') {σ r}
    (h : coherentBody c coh b σ = some r) : coherentBody c coh b' σ = some r := by
  rw [coherentBody_eq] at h ⊢
  exact hb _ _ _ h

theorem forU_le {c : Ctx n} {e : Expr} {st st' b b' : Code n} (hs : Le st st') (hb : Le b b') :
    ∀ {k k' σ r}, k ≤ k' → forU c e st b k σ = some r → forU c e st' b' k' σ = some r := by
  intro k
  induction k with
  | zero => intro k' σ r _ h; simp [forU] at h
  | succ k ih =>
    intro k' σ r hk h
    obtain ⟨k', rfl⟩ : ∃ j, k' = j + 1 := ⟨k' - 1, by omega⟩
    simp only [forU] at h ⊢
    split at h
    · rename_i ht
      rw [if_pos ht]
      split at h
      · cases h
      · rename_i h1; rw [hb _ _ _ h1]; exact h
      · rename_i h1; rw [hb _ _ _ h1]; exact h
      · rename_i o σ₁ n1 n2 h1
        rw [hb _ _ _ h1]
        split at h
        · rename_i h2
          have := ih (k' := k') (by omega) h
          cases o <;> first | exact absurd rfl n1 | exact absurd rfl n2 | (simp only [hs _ _ _ h2]; exact this) | simp at n1 | simp at n2
        · cases h
    · rename_i ht; rw [if_neg ht]; exact h

theorem forV_le {c : Ctx n} {e : Expr} {coh : Bool} {st st' b b' : Code n} (hs : Le st st') (hb : Le b b') :
    ∀ {k k' σ r}, k ≤ k' → forV c e coh st b k σ = some r → forV c e coh st' b' k' σ = some r := by
  intro k
  induction k with
  | zero => intro k' σ r _ h; simp [forV] at h
  | succ k ih =>
    intro k' σ r hk h
    obtain ⟨k', rfl⟩ : ∃ j, k' = j + 1 := ⟨k' - 1, by omega⟩
    simp only [forV] at h ⊢
    split at h
    · rename_i ht
      rw [if_pos ht]
      split at h
      · cases h
      · rename_i h1; rw [coherentBody_le hb h1]; exact h
      · rename_i h1; rw [coherentBody_le hb h1]; exact h
      · rename_i o σ₁ n1 n2 h1
        rw [coherentBody_le hb h1]
        split at h
        · rename_i h2
          have := ih (k' := k') (by omega) h
          cases o <;> first | exact absurd rfl n1 | exact absurd rfl n2 | (simp only [hs _ _ _ h2]; exact this) | simp at n1 | simp at n2
        · cases h
    · rename_i ht; rw [if_neg ht]; exact h

theorem doU_le {c : Ctx n} {e : Expr} {b b' : Code n} (hb : Le b b') :
    ∀ {k k' σ r}, k ≤ k' → doU c e b k σ = some r → doU c e b' k' σ = some r := by
  intro k
  induction k with
  | zero => intro k' σ r _ h; simp [doU] at h
  | succ k ih =>
    intro k' σ r hk h
    obtain ⟨k', rfl⟩ : ∃ j, k' = j + 1 := ⟨k' - 1, by omega⟩
    simp only [doU] at h ⊢
    split at h
    · cases h
    · rename_i h1; rw [hb _ _ _ h1]; exact h
    · rename_i h1; rw [hb _ _ _ h1]; exact h
    · rename_i o σ₁ n1 n2 h1
      rw [hb _ _ _ h1]
      split at h
      · rename_i ht
        have := ih (k' := k') (by omega) h
        cases o <;> first | exact absurd rfl n1 | exact absurd rfl n2 | (simp only [if_pos ht]; exact this) | simp at n1 | simp at n2
      · rename_i ht
        cases o <;> first | exact absurd rfl n1 | exact absurd rfl n2 | (simp only [if_neg ht]; exact h) | simp at n1 | simp at n2

theorem doV_le {c : Ctx n} {e : Expr} {coh : Bool} {b b' : Code n} (hb : Le b b') :
    ∀ {k k' σ r}, k ≤ k' → doV c e coh b k σ = some r → doV c e coh b' k' σ = some r := by
  intro k
  induction k with
  | zero => intro k' σ r _ h; simp [doV] at h
  | succ k ih =>
    intro k' σ r hk h
    obtain ⟨k', rfl⟩ : ∃ j, k' = j + 1 := ⟨k' - 1, by omega⟩
    simp only [doV] at h ⊢
    split at h
    · cases h
    · rename_i h1; rw [coherentBody_le hb h1]; exact h
    · rename_i h1; rw [coherentBody_le hb h1]; exact h
    · rename_i o σ₁ n1 n2 h1
      rw [coherentBody_le hb h1]
      split at h
      · rename_i ht
        have := ih (k' := k') (by omega) h
        cases o <;> first | exact absurd rfl n1 | exact absurd rfl n2 | (simp only [if_pos ht]; exact this) | simp at n1 | simp at n2
      · rename_i ht
        cases o <;> first | exact absurd rfl n1 | exact absurd rfl n2 | (simp only [if_neg ht]; exact h) | simp at n1 | simp at n2

theorem wrapLoop_le {u : Bool} {σ : St n} {i i' : St n → Option (Out × St n)} (hi : ∀ σ r, i σ = some r → i' σ = some r)
    {r} (h : wrapLoop u σ i = some r) : wrapLoop u σ i' = some r := by
  unfold wrapLoop at h ⊢
  split at h
  · cases h
  · rename_i h1; rw [hi _ _ h1]; exact h

theorem segsV_le {entry : Mask n} {vals cases} {x x' : Stmt → St n → Option (Out × St n)}
    (hx : ∀ s σ r, x s σ = some r → x' s σ = some r) :
    ∀ {s σ r}, segsV entry vals cases x s σ = some r → segsV entry vals cases x' s σ = some r := by
  intro s
  induction s with
  | skip => intro σ r h; exact h
  | seg lab chk s r _ ih =>
    intro σ r h
    simp only [segsV] at h ⊢
    split at h
    · rename_i ht; rw [if_pos ht]; exact ih h
    · rename_i ht; rw [if_neg ht]; exact andThen_le (fun r h => hx _ _ _ h) (fun σ r h => ih h) h
  | _ => intro σ r h; simp [segsV] at h

theorem segsU_le {x x' : Stmt → St n → Option (Out × St n)} (hx : ∀ s σ r, x s σ = some r → x' s σ = some r) :
    ∀ {s σ r}, segsU x s σ = some r → segsU x' s σ = some r := by
  intro s
  induction s with
  | skip => intro σ r h; exact h
  | seg lab chk s r _ ih =>
    intro σ r h
    simp only [segsU] at h ⊢
    exact andThen_le (fun r h => hx _ _ _ h) (fun σ r h => ih h) h
  | _ => intro σ r h; simp [segsU] at h

theorem doSwitch_le {c : Ctx n} {e : Expr} {body : Stmt} {x x' : Ctx n → Stmt → St n → Option (Out × St n)}
    (hx : ∀ c s σ r, x c s σ = some r → x' c s σ = some r) {σ r} (h : doSwitch c e body x σ = some r) :
    doSwitch c e body x' σ = some r := by
  have key : ∀ r, (if e.isUniform = true then
          match switchEntry (σ.evalU e) body with
          | none => some (Out.normal, { σ with brk := allOff, cont := allOff })
          | some ch => segsU (x (c.pushSwitch (e.isUniform && !hasVBC 0 body) e.isUniform (full c σ))) ch
              { σ with brk := allOff, cont := allOff }
        else segsV σ.im (fun l => σ.eval e l) (caseVals body)
          (x (c.pushSwitch (e.isUniform && !hasVBC 0 body) e.isUniform (full c σ))) body
          { σ with brk := allOff, cont := allOff, im := allOff }) = some r →
      (if e.isUniform = true then
          match switchEntry (σ.evalU e) body with
          | none => some (Out.normal, { σ with brk := allOff, cont := allOff })
          | some ch => segsU (x' (c.pushSwitch (e.isUniform && !hasVBC 0 body) e.isUniform (full c σ))) ch
              { σ with brk := allOff, cont := allOff }
        else segsV σ.im (fun l => σ.eval e l) (caseVals body)
          (x' (c.pushSwitch (e.isUniform && !hasVBC 0 body) e.isUniform (full c σ))) body
          { σ with brk := allOff, cont := allOff, im := allOff }) = some r := by
    intro r h1
    split at h1
    · rename_i he
      rw [if_pos he]
      split at h1
      · rename_i hse; exact h1
      · rename_i hse; exact segsU_le (fun s σ r h => hx _ s σ r h) h1
    · rename_i he
      rw [if_neg he]
      exact segsV_le (fun s σ r h => hx _ s σ r h) h1
  unfold doSwitch at h ⊢
  simp only at h ⊢
  generalize (if e.isUniform = true then
          match switchEntry (σ.evalU e) body with
          | none => some (Out.normal, { σ with brk := allOff, cont := allOff })
          | some ch => segsU (x (c.pushSwitch (e.isUniform && !hasVBC 0 body) e.isUniform (full c σ))) ch
              { σ with brk := allOff, cont := allOff }
        else segsV σ.im (fun l => σ.eval e l) (caseVals body)
          (x (c.pushSwitch (e.isUniform && !hasVBC 0 body) e.isUniform (full c σ))) body
          { σ with brk := allOff, cont := allOff, im := allOff }) = A at *
  generalize (if e.isUniform = true then
          match switchEntry (σ.evalU e) body with
          | none => some (Out.normal, { σ with brk := allOff, cont := allOff })
          | some ch => segsU (x' (c.pushSwitch (e.isUniform && !hasVBC 0 body) e.isUniform (full c σ))) ch
              { σ with brk := allOff, cont := allOff }
        else segsV σ.im (fun l => σ.eval e l) (caseVals body)
          (x' (c.pushSwitch (e.isUniform && !hasVBC 0 body) e.isUniform (full c σ))) body
          { σ with brk := allOff, cont := allOff, im := allOff }) = B at *
  cases A with
  | none => cases h
  | some r => rw [key r rfl]; exact h

theorem run_succ {P : Prog} : ∀ k s (c : Ctx n) σ r, run P k s c σ = some r → run P (k + 1) s c σ = some r := by
  intro k
  induction k with
  | zero => intro s c σ r h; simp [run] at h
  | succ k ih =>
    intro s c σ r h
    have hle : ∀ s, Le (run P k s : Code n) (run P (k + 1) s) := fun s c σ r h => ih s c σ r h
    cases s with
    | skip => exact h
    | uassign x e => exact h
    | vassign b a i e => exact h
    | seq s₁ s₂ =>
      rw [run] at h
      rw [run]
      exact andThen_le (fun r h => hle _ _ _ _ h) (fun σ r h => hle _ _ _ _ h) h
    | ite e coh pred s₁ s₂ =>
      rw [run] at h
      rw [run]
      split at h
      · rename_i hx
        rw [if_pos hx]
        split at h
        · rename_i hy; rw [if_pos hy]; exact hle _ _ _ _ h
        · rename_i hy; rw [if_neg hy]; exact hle _ _ _ _ h
      · rename_i hx; rw [if_neg hx]; exact varyingIf_le (hle _) (hle _) h
    | loop e coh st b =>
      rw [run] at h
      rw [run]
      split at h
      · cases h
      · rename_i hx
        rw [if_neg hx]
        split at h
        · rename_i hy; rw [if_pos hy]
          exact wrapLoop_le (fun σ r h => forU_le (hle _) (hle _) (by omega) h) h
        · rename_i hy; rw [if_neg hy]
          exact wrapLoop_le (fun σ r h => forV_le (hle _) (hle _) (by omega) h) h
    | doloop b e coh =>
      rw [run] at h
      rw [run]
      split at h
      · rename_i hy; rw [if_pos hy]
        exact wrapLoop_le (fun σ r h => doU_le (hle _) (by omega) h) h
      · rename_i hy; rw [if_neg hy]
        exact wrapLoop_le (fun σ r h => doV_le (hle _) (by omega) h) h
    | brk => exact h
    | cont => exact h
    | ret e => exact h
    | switch e b =>
      rw [run] at h
      rw [run]
      split at h
      · rename_i hy; rw [if_pos hy]; exact doSwitch_le (fun c s σ r h => ih s c σ r h) h
      · cases h
    | seg lab chk s r => exact h
    | call dst f us vs =>
      rw [run] at h
      rw [run]
      rw [funcBody_eq] at h ⊢
      split at h
      · rename_i h1; rw [hle _ _ _ _ h1]; exact h
      · rename_i h1; rw [hle _ _ _ _ h1]; exact h
      · cases h

/-- More fuel does not change a result. -/
theorem run_mono {P : Prog} {k k' s} {c : Ctx n} {σ r} (hk : k ≤ k') (h : run P k s c σ = some r) :
    run P k' s c σ = some r := by
  obtain ⟨d, rfl⟩ := Nat.exists_eq_add_of_le hk
  clear hk
  induction d with
  | zero => exact h
  | succ d ih => exact run_succ _ _ _ _ _ ih

theorem run_le {P : Prog} {k k'} (hk : k ≤ k') (s) : Le (run P k s : Code n) (run P k' s) :=
  fun _ _ _ h => run_mono hk h

/-! ### Which lanes a statement can stop -/

/-- Is there a `return` in this statement? -/
def hasRet : Stmt → Bool
  | .ret _ => true
  | .seq a b => hasRet a || hasRet b
  | .ite _ _ _ a b => hasRet a || hasRet b
  | .loop _ _ st b => hasRet st || hasRet b
  | .doloop b _ _ => hasRet b
  | .switch _ b => hasRet b
  | .seg _ _ s r => hasRet s || hasRet r
  | _ => false

/-- Is there a `break` or `continue` in this statement that leaves it? -/
def jumps : Stmt → Bool
  | .brk => true
  | .cont => true
  | .seq a b => jumps a || jumps b
  | .ite _ _ _ a b => jumps a || jumps b
  | .seg _ _ s r => jumps s || jumps r
  | _ => false

/-- Lanes outside of the function's mask have not returned. -/
def RetIn (c : Ctx n) (σ : St n) : Prop := ∀ l, σ.ret l = true → c.fm l = true

/-- Some lane of the function's mask has not returned. -/
def Unret (c : Ctx n) (σ : St n) : Prop := ∃ l, c.fm l = true ∧ σ.ret l = false

/-- What a statement does to the returned lanes. -/
structure Fl (c : Ctx n) (hr : Bool) (σ : St n) (o : Out) (σ' : St n) : Prop where
  ret : hr = false → σ'.ret = σ.ret ∧ o ≠ .ret
  inn : RetIn c σ → RetIn c σ'
  unr : RetIn c σ → Unret c σ → o ≠ .ret → Unret c σ'

theorem Fl.same {c : Ctx n} {hr} {σ o σ'} (h : σ'.ret = σ.ret) (ho : o ≠ .ret) : Fl c hr σ o σ' :=
  ⟨fun _ => ⟨h, ho⟩, fun hi l hl => hi l (by rw [← h]; exact hl), fun _ ⟨l, h1, h2⟩ _ => ⟨l, h1, by rw [h]; exact h2⟩⟩

theorem Fl.weaken {c : Ctx n} {hr hr'} {σ o σ'} (h : Fl c hr σ o σ') (hw : hr' = false → hr = false) : Fl c hr' σ o σ' :=
  ⟨fun h1 => h.ret (hw h1), h.inn, h.unr⟩

theorem Fl.seq {c : Ctx n} {hr} {σ o₁ σ₁ o₂ σ₂} (h₁ : Fl c hr σ o₁ σ₁) (ho : o₁ ≠ .ret) (h₂ : Fl c hr σ₁ o₂ σ₂) :
    Fl c hr σ o₂ σ₂ :=
  ⟨fun h => ⟨(h₂.ret h).1.trans (h₁.ret h).1, (h₂.ret h).2⟩, fun h => h₂.inn (h₁.inn h),
    fun h1 h2 h3 => h₂.unr (h₁.inn h1) (h₁.unr h1 h2 ho) h3⟩

/-- `Fl` looks at `ret` and at the function's mask only. -/
theorem Fl.congr {c c' : Ctx n} {hr} {σ o σ' τ τ'} (h : Fl c hr σ o σ') (hc : c'.fm = c.fm) (h1 : τ.ret = σ.ret)
    (h2 : τ'.ret = σ'.ret) : Fl c' hr τ o τ' := by
  refine ⟨fun h3 => ⟨by rw [h1, h2]; exact (h.ret h3).1, (h.ret h3).2⟩, ?_, ?_⟩
  · intro hi l hl; rw [hc]; exact h.inn (fun l hl => by rw [← hc]; exact hi l (by rw [h1]; exact hl)) l (by rw [← h2]; exact hl)
  · rintro hi ⟨l, a, b⟩ ho
    obtain ⟨l', a', b'⟩ := h.unr (fun l hl => by rw [← hc]; exact hi l (by rw [h1]; exact hl))
      ⟨l, by rw [← hc]; exact a, by rw [← h1]; exact b⟩ ho
    exact ⟨l', by rw [hc]; exact a', by rw [h2]; exact b'⟩

theorem fl_return {c : Ctx n} {e σ o σ'} (h : doReturn c e σ = some (o, σ')) : Fl c true σ o σ' := by
  unfold doReturn at h
  simp only at h
  have inn : ∀ (σ' : St n), σ'.ret = σ.ret.or (full c σ) → RetIn c σ → RetIn c σ' := by
    intro σ' hr hi l hl
    rw [hr] at hl
    simp [Mask.or] at hl
    rcases hl with hl | hl
    · exact hi l hl
    · exact hl.2
  split at h
  · simp only [Option.some.injEq, Prod.mk.injEq] at h
    obtain ⟨rfl, rfl⟩ := h
    exact ⟨fun h => by (cases h), fun hi => hi, fun _ _ h => absurd rfl h⟩
  · split at h
    · simp only [Option.some.injEq, Prod.mk.injEq] at h
      obtain ⟨rfl, rfl⟩ := h
      exact ⟨fun h => by (cases h), inn _ rfl, fun _ _ h => absurd rfl h⟩
    · rename_i hne
      simp only [Option.some.injEq, Prod.mk.injEq] at h
      obtain ⟨rfl, rfl⟩ := h
      refine ⟨fun h => by (cases h), inn _ rfl, fun hi _ _ => ?_⟩
      by_contra hno
      apply hne
      simp only [Mask.equal, decide_eq_true_eq]
      intro l
      cases hf : c.fm l with
      | true =>
        cases hx : ((σ.ret.or (full c { σ with rv := fun l => if σ.im l = true then σ.eval e l else σ.rv l })) l) with
        | true => rfl
        | false => exact absurd ⟨l, hf, hx⟩ hno
      | false =>
        cases hx : ((σ.ret.or (full c { σ with rv := fun l => if σ.im l = true then σ.eval e l else σ.rv l })) l) with
        | false => rfl
        | true =>
          have := inn (σ' := { σ with ret := σ.ret.or (full c σ) }) rfl hi l hx
          rw [hf] at this; cases this

theorem fl_break {c : Ctx n} {σ o σ'} (h : doBreak c σ = some (o, σ')) : σ'.ret = σ.ret ∧ o ≠ .ret ∧
    (o = .cont → c.contTgt = true) ∧ (o = .brk → c.brkTgt = true) := by
  simp only [doBreak] at h
  split at h
  · cases h
  rename_i hb
  repeat' split at h
  all_goals first
    | (cases h; done)
    | (simp only [Option.some.injEq, Prod.mk.injEq] at h
       obtain ⟨rfl, rfl⟩ := h
       refine ⟨rfl, ?_⟩
       simp_all)

theorem fl_continue {c : Ctx n} {σ o σ'} (h : doContinue c σ = some (o, σ')) : σ'.ret = σ.ret ∧ o ≠ .ret ∧
    (o = .cont → c.contTgt = true) ∧ o ≠ .brk := by
  simp only [doContinue] at h
  split at h
  · cases h
  rename_i hb
  repeat' split at h
  all_goals first
    | (cases h; done)
    | (simp only [Option.some.injEq, Prod.mk.injEq] at h
       obtain ⟨rfl, rfl⟩ := h
       refine ⟨rfl, ?_⟩
       simp_all)

theorem fl_forU {c : Ctx n} {e hr} {st b : Code n} (hs : ∀ m σ o σ', st (c.pushLoop true m) σ = some (o, σ') → Fl c hr σ o σ')
    (hb : ∀ m σ o σ', b (c.pushLoop true m) σ = some (o, σ') → Fl c hr σ o σ') :
    ∀ {k σ o σ'}, forU c e st b k σ = some (o, σ') → Fl c hr σ o σ' := by
  intro k
  induction k with
  | zero => intro σ o σ' h; simp [forU] at h
  | succ k ih =>
    intro σ o σ' h
    simp only [forU] at h
    split at h
    · split at h
      · cases h
      · rename_i h1
        simp only [Option.some.injEq, Prod.mk.injEq] at h
        obtain ⟨rfl, rfl⟩ := h
        exact hb _ _ _ _ h1
      · rename_i h1
        simp only [Option.some.injEq, Prod.mk.injEq] at h
        obtain ⟨rfl, rfl⟩ := h
        exact (hb _ _ _ _ h1).seq (by simp) (.same rfl (by simp))
      · rename_i o₁ σ₁ n1 n2 h1
        split at h
        · rename_i h2
          exact ((hb _ _ _ _ h1).seq (fun h => n1 (by rw [h])) (hs _ _ _ _ h2)).seq (by simp) (ih h)
        · cases h
    · simp only [Option.some.injEq, Prod.mk.injEq] at h
      obtain ⟨rfl, rfl⟩ := h
      exact .same rfl (by simp)

theorem fl_forV {c : Ctx n} {e coh hr} {st b : Code n}
    (hs : ∀ m σ o σ', st (c.pushLoop false m) σ = some (o, σ') → Fl c hr σ o σ')
    (hb : ∀ m σ o σ', b (c.pushLoop false m) σ = some (o, σ') → Fl c hr σ o σ') :
    ∀ {k σ o σ'}, forV c e coh st b k σ = some (o, σ') → Fl c hr σ o σ' := by
  intro k
  induction k with
  | zero => intro σ o σ' h; simp [forV] at h
  | succ k ih =>
    intro σ o σ' h
    simp only [forV, coherentBody_eq] at h
    split at h
    · split at h
      · cases h
      · rename_i h1
        simp only [Option.some.injEq, Prod.mk.injEq] at h
        obtain ⟨rfl, rfl⟩ := h
        exact (hb _ _ _ _ h1).congr rfl rfl rfl
      · rename_i h1
        simp only [Option.some.injEq, Prod.mk.injEq] at h
        obtain ⟨rfl, rfl⟩ := h
        exact ((hb _ _ _ _ h1).seq (by simp) (.same rfl (by simp))).congr rfl rfl rfl
      · rename_i o₁ σ₁ n1 n2 h1
        split at h
        · rename_i h2
          exact ((((hb _ _ _ _ h1).congr (τ' := nextIter σ₁) rfl rfl rfl).seq (fun h => n1 (by rw [h]))
            (hs _ _ _ _ h2)).seq (by simp) (ih h)).congr rfl rfl rfl
        · cases h
    · simp only [Option.some.injEq, Prod.mk.injEq] at h
      obtain ⟨rfl, rfl⟩ := h
      exact .same rfl (by simp)

theorem fl_doU {c : Ctx n} {e hr} {b : Code n}
    (hb : ∀ m σ o σ', b (c.pushLoop true m) σ = some (o, σ') → Fl c hr σ o σ') :
    ∀ {k σ o σ'}, doU c e b k σ = some (o, σ') → Fl c hr σ o σ' := by
  intro k
  induction k with
  | zero => intro σ o σ' h; simp [doU] at h
  | succ k ih =>
    intro σ o σ' h
    simp only [doU] at h
    split at h
    · cases h
    · rename_i h1
      simp only [Option.some.injEq, Prod.mk.injEq] at h
      obtain ⟨rfl, rfl⟩ := h
      exact hb _ _ _ _ h1
    · rename_i h1
      simp only [Option.some.injEq, Prod.mk.injEq] at h
      obtain ⟨rfl, rfl⟩ := h
      exact (hb _ _ _ _ h1).seq (by simp) (.same rfl (by simp))
    · rename_i o₁ σ₁ n1 n2 h1
      split at h
      · exact (hb _ _ _ _ h1).seq (fun h => n1 (by rw [h])) (ih h)
      · simp only [Option.some.injEq, Prod.mk.injEq] at h
        obtain ⟨rfl, rfl⟩ := h
        exact (hb _ _ _ _ h1).seq (fun h => n1 (by rw [h])) (.same rfl (by simp))

theorem fl_doV {c : Ctx n} {e coh hr} {b : Code n}
    (hb : ∀ m σ o σ', b (c.pushLoop false m) σ = some (o, σ') → Fl c hr σ o σ') :
    ∀ {k σ o σ'}, doV c e coh b k σ = some (o, σ') → Fl c hr σ o σ' := by
  intro k
  induction k with
  | zero => intro σ o σ' h; simp [doV] at h
  | succ k ih =>
    intro σ o σ' h
    simp only [doV, coherentBody_eq] at h
    split at h
    · cases h
    · rename_i h1
      simp only [Option.some.injEq, Prod.mk.injEq] at h
      obtain ⟨rfl, rfl⟩ := h
      exact hb _ _ _ _ h1
    · rename_i h1
      simp only [Option.some.injEq, Prod.mk.injEq] at h
      obtain ⟨rfl, rfl⟩ := h
      exact (hb _ _ _ _ h1).seq (by simp) (.same rfl (by simp))
    · rename_i o₁ σ₁ n1 n2 h1
      split at h
      · exact (hb _ _ _ _ h1).seq (fun h => n1 (by rw [h])) ((ih h).congr rfl rfl rfl)
      · simp only [Option.some.injEq, Prod.mk.injEq] at h
        obtain ⟨rfl, rfl⟩ := h
        exact (hb _ _ _ _ h1).seq (fun h => n1 (by rw [h])) (.same rfl (by simp))

theorem fl_segsU {c : Ctx n} {x : Stmt → St n → Option (Out × St n)}
    (hx : ∀ s σ o σ', x s σ = some (o, σ') → Fl c (hasRet s) σ o σ') :
    ∀ {s σ o σ'}, segsU x s σ = some (o, σ') → Fl c (hasRet s) σ o σ' := by
  intro s
  induction s with
  | skip =>
    intro σ o σ' h
    simp only [segsU, Option.some.injEq, Prod.mk.injEq] at h
    obtain ⟨rfl, rfl⟩ := h
    exact .same rfl (by simp)
  | seg lab chk s r _ ih =>
    intro σ o σ' h
    simp only [segsU] at h
    rcases andThen_some h with ⟨h1, ho⟩ | ⟨σ₁, h1, h2⟩
    · exact (hx _ _ _ _ h1).weaken (by simp [hasRet]; intro h _; exact h)
    · exact ((hx _ _ _ _ h1).weaken (hr' := hasRet (.seg lab chk s r)) (by simp [hasRet]; intro h _; exact h)).seq (by simp)
        ((ih h2).weaken (by simp [hasRet]))
  | _ => intro σ o σ' h; simp [segsU] at h

theorem fl_segsV {c : Ctx n} {entry : Mask n} {vals cases} {x : Stmt → St n → Option (Out × St n)}
    (hx : ∀ s σ o σ', x s σ = some (o, σ') → Fl c (hasRet s) σ o σ') :
    ∀ {s σ o σ'}, segsV entry vals cases x s σ = some (o, σ') → Fl c (hasRet s) σ o σ' := by
  intro s
  induction s with
  | skip =>
    intro σ o σ' h
    simp only [segsV, Option.some.injEq, Prod.mk.injEq] at h
    obtain ⟨rfl, rfl⟩ := h
    exact .same rfl (by simp)
  | seg lab chk s r _ ih =>
    intro σ o σ' h
    simp only [segsV] at h
    split at h
    · exact ((ih h).weaken (by simp [hasRet])).congr rfl rfl rfl
    · rcases andThen_some h with ⟨h1, ho⟩ | ⟨σ₁, h1, h2⟩
      · exact ((hx _ _ _ _ h1).weaken (by simp [hasRet]; intro h _; exact h)).congr rfl rfl rfl
      · exact (((hx _ _ _ _ h1).weaken (hr' := hasRet (.seg lab chk s r)) (by simp [hasRet]; intro h _; exact h)).seq (by simp)
          ((ih h2).weaken (by simp [hasRet]))).congr rfl rfl rfl
  | _ => intro σ o σ' h; simp [segsV] at h

theorem findCase_hasRet {v} : ∀ {s t}, findCase v s = some t → hasRet s = false → hasRet t = false := by
  intro s
  induction s with
  | seg lab chk s r _ ih =>
    intro t h hr
    have h2 : hasRet r = false := by simp [hasRet] at hr; exact hr.2
    cases lab with
    | none => exact ih h h2
    | some w =>
      simp only [findCase] at h
      split at h
      · simp only [Option.some.injEq] at h; subst h; exact hr
      · exact ih h h2
  | _ => intro t h; simp [findCase] at h

theorem findDefault_hasRet : ∀ {s t}, findDefault s = some t → hasRet s = false → hasRet t = false := by
  intro s
  induction s with
  | seg lab chk s r _ ih =>
    intro t h hr
    have h2 : hasRet r = false := by simp [hasRet] at hr; exact hr.2
    cases lab with
    | some w => exact ih h h2
    | none =>
      simp only [findDefault, Option.some.injEq] at h
      subst h; exact hr
  | _ => intro t h; simp [findDefault] at h

theorem switchEntry_hasRet {v s t} (h : switchEntry v s = some t) (hr : hasRet s = false) : hasRet t = false := by
  unfold switchEntry at h
  split at h
  · rename_i h1
    simp only [Option.some.injEq] at h; subst h
    exact findCase_hasRet h1 hr
  · exact findDefault_hasRet h hr

theorem fl_wrap {c : Ctx n} {hr u} {σ o σ'} {i : St n → Option (Out × St n)}
    (hi : ∀ σ o σ', i σ = some (o, σ') → Fl c hr σ o σ') (h : wrapLoop u σ i = some (o, σ')) : Fl c hr σ o σ' := by
  obtain ⟨o₁, σ₁, h1, rfl, rfl⟩ := wrapLoop_some h
  refine (hi _ _ _ h1).congr rfl rfl ?_
  split <;> rfl

theorem run_fl {P : Prog} : ∀ k s (c : Ctx n) σ o σ', run P k s c σ = some (o, σ') → Fl c (hasRet s) σ o σ' := by
  intro k
  induction k with
  | zero => intro s c σ o σ' h; simp [run] at h
  | succ k ih =>
    intro s c σ o σ' h
    cases s with
    | skip =>
      simp only [run, Option.some.injEq, Prod.mk.injEq] at h
      obtain ⟨rfl, rfl⟩ := h
      exact .same rfl (by simp)
    | uassign x e =>
      simp only [run, Option.some.injEq, Prod.mk.injEq] at h
      obtain ⟨rfl, rfl⟩ := h
      exact .same rfl (by simp)
    | vassign b a i e =>
      simp only [run, Option.some.injEq, Prod.mk.injEq] at h
      obtain ⟨rfl, rfl⟩ := h
      refine .same ?_ (by simp)
      unfold doVassign
      split <;> rfl
    | seq s₁ s₂ =>
      simp only [run] at h
      rcases andThen_some h with ⟨h1, ho⟩ | ⟨σ₁, h1, h2⟩
      · exact (ih _ _ _ _ _ h1).weaken (by simp [hasRet]; intro h _; exact h)
      · exact ((ih _ _ _ _ _ h1).weaken (hr' := hasRet (.seq s₁ s₂)) (by simp [hasRet]; intro h _; exact h)).seq (by simp)
          ((ih _ _ _ _ _ h2).weaken (by simp [hasRet]))
    | ite e coh pred s₁ s₂ =>
      simp only [run] at h
      split at h
      · split at h
        · exact ((ih _ _ _ _ _ h).weaken (hr' := hasRet (.ite e coh pred s₁ s₂)) (by simp [hasRet]; intro h _; exact h)).congr rfl rfl rfl
        · exact ((ih _ _ _ _ _ h).weaken (hr' := hasRet (.ite e coh pred s₁ s₂)) (by simp [hasRet])).congr rfl rfl rfl
      · have hbr : ∀ {m s σ o σ'}, Branch (c.pushIf false) m (run P k s) σ o σ' → Fl c (hasRet s) σ o σ' := by
          intro m s σ o σ' hb
          cases hb with
          | ran h => exact (ih _ _ _ _ _ h).congr rfl rfl rfl
          | skipped m' h => exact .same rfl (by simp)
        have w1 : hasRet (.ite e coh pred s₁ s₂) = false → hasRet s₁ = false := by simp [hasRet]; intro h _; exact h
        have w2 : hasRet (.ite e coh pred s₁ s₂) = false → hasRet s₂ = false := by simp [hasRet]
        have hend : ∀ m (σ : St n), (endIf c m σ).ret = σ.ret := by intro m σ; unfold endIf restoreMask; simp only; split <;> rfl
        rcases varyingIf_cases h with ⟨ho, hb⟩ | ⟨σ₁, hb, ⟨ho, hb2⟩ | ⟨rfl, σ₂, hb2, rfl⟩⟩
        · exact (hbr hb).weaken w1
        · exact (((hbr hb).weaken w1).seq (by simp) ((hbr hb2).weaken w2))
        · exact (((hbr hb).weaken w1).seq (by simp) ((hbr hb2).weaken w2)).seq (by simp) (.same (hend _ _) (by simp))
    | loop e coh st b =>
      simp only [run] at h
      have w1 : hasRet (.loop e coh st b) = false → hasRet st = false := by simp [hasRet]; intro h _; exact h
      have w2 : hasRet (.loop e coh st b) = false → hasRet b = false := by simp [hasRet]
      split at h
      · cases h
      split at h
      · exact fl_wrap (fun σ o σ' h => fl_forU (fun m σ o σ' h => ((ih _ _ _ _ _ h).weaken w1).congr rfl rfl rfl)
          (fun m σ o σ' h => ((ih _ _ _ _ _ h).weaken w2).congr rfl rfl rfl) h) h
      · exact fl_wrap (fun σ o σ' h => fl_forV (fun m σ o σ' h => ((ih _ _ _ _ _ h).weaken w1).congr rfl rfl rfl)
          (fun m σ o σ' h => ((ih _ _ _ _ _ h).weaken w2).congr rfl rfl rfl) h) h
    | doloop b e coh =>
      simp only [run] at h
      split at h
      · exact fl_wrap (fun σ o σ' h => fl_doU (fun m σ o σ' h => (ih b _ _ _ _ h).congr rfl rfl rfl) h) h
      · exact fl_wrap (fun σ o σ' h => fl_doV (fun m σ o σ' h => (ih b _ _ _ _ h).congr rfl rfl rfl) h) h
    | brk =>
      have := fl_break h
      exact .same this.1 this.2.1
    | cont =>
      have := fl_continue h
      exact .same this.1 this.2.1
    | ret e => exact fl_return h
    | switch e b =>
      simp only [run] at h
      split at h
      · obtain ⟨r, hr, h⟩ := doSwitch_some h
        have key : Fl c (hasRet b) σ r.1 r.2 := by
          split at hr
          · split at hr
            · simp only [Option.some.injEq] at hr
              subst hr
              exact .same rfl (by simp)
            · rename_i hse
              exact ((fl_segsU (fun s σ o σ' h => ih s _ _ _ _ h) hr).weaken
                (switchEntry_hasRet hse)).congr rfl rfl rfl
          · exact (fl_segsV (fun s σ o σ' h => ih s _ _ _ _ h) hr).congr rfl rfl rfl
        rcases h with ⟨h1, rfl, rfl⟩ | ⟨h1, h2, rfl, rfl⟩
        · rw [h1] at key
          exact key.congr rfl rfl rfl
        · refine (key.seq h1 (Fl.same (σ := r.2) (σ' := r.2) (o := .normal) rfl (by simp))).congr rfl rfl ?_
          split <;> rfl
      · cases h
    | seg lab chk s r => simp [run] at h
    | call dst f us vs =>
      simp only [run] at h
      split at h
      · simp only [Option.some.injEq, Prod.mk.injEq] at h
        obtain ⟨rfl, rfl⟩ := h
        exact .same rfl (by simp)
      · simp only [Option.some.injEq, Prod.mk.injEq] at h
        obtain ⟨rfl, rfl⟩ := h
        exact .same rfl (by simp)
      · cases h

/-- Where a statement may jump, and which statements leave the break and continue lanes alone. -/
theorem run_jl {P : Prog} : ∀ k s (c : Ctx n) σ o σ', run P k s c σ = some (o, σ') →
    (o = .cont → c.contTgt = true) ∧ (o = .brk → c.brkTgt = true) ∧
    (jumps s = false → σ'.brk = σ.brk ∧ σ'.cont = σ.cont ∧ o ≠ .brk ∧ o ≠ .cont) := by
  intro k
  induction k with
  | zero => intro s c σ o σ' h; simp [run] at h
  | succ k ih =>
    intro s c σ o σ' h
    cases s with
    | skip =>
      simp only [run, Option.some.injEq, Prod.mk.injEq] at h
      obtain ⟨rfl, rfl⟩ := h
      simp
    | uassign x e =>
      simp only [run, Option.some.injEq, Prod.mk.injEq] at h
      obtain ⟨rfl, rfl⟩ := h
      simp
    | vassign b a i e =>
      simp only [run, Option.some.injEq, Prod.mk.injEq] at h
      obtain ⟨rfl, rfl⟩ := h
      unfold doVassign
      split <;> simp
    | seq s₁ s₂ =>
      simp only [run] at h
      rcases andThen_some h with ⟨h1, ho⟩ | ⟨σ₁, h1, h2⟩
      · obtain ⟨a, b, c'⟩ := ih _ _ _ _ _ h1
        exact ⟨a, b, fun hj => c' (by simp [jumps] at hj; exact hj.1)⟩
      · obtain ⟨_, _, c'⟩ := ih _ _ _ _ _ h1
        obtain ⟨a, b, d⟩ := ih _ _ _ _ _ h2
        refine ⟨a, b, fun hj => ?_⟩
        simp [jumps] at hj
        have c' := c' hj.1
        have d := d hj.2
        exact ⟨d.1.trans c'.1, d.2.1.trans c'.2.1, d.2.2⟩
    | ite e coh pred s₁ s₂ =>
      simp only [run] at h
      split at h
      · split at h
        · obtain ⟨a, b, d⟩ := ih _ _ _ _ _ h
          exact ⟨a, b, fun hj => d (by simp [jumps] at hj; exact hj.1)⟩
        · obtain ⟨a, b, d⟩ := ih _ _ _ _ _ h
          exact ⟨a, b, fun hj => d (by simp [jumps] at hj; exact hj.2)⟩
      · have hbr : ∀ {m s σ o σ'}, Branch (c.pushIf false) m (run P k s) σ o σ' →
            (o = .cont → c.contTgt = true) ∧ (o = .brk → c.brkTgt = true) ∧
            (jumps s = false → σ'.brk = σ.brk ∧ σ'.cont = σ.cont ∧ o ≠ .brk ∧ o ≠ .cont) := by
          intro m s σ o σ' hb
          cases hb with
          | ran h => exact ih s (c.pushIf false) { σ with im := m } _ _ h
          | skipped m' h => simp
        have hend : ∀ m (σ : St n), (endIf c m σ).brk = σ.brk ∧ (endIf c m σ).cont = σ.cont := by
          intro m σ; unfold endIf restoreMask; simp only; split <;> exact ⟨rfl, rfl⟩
        rcases varyingIf_cases h with ⟨ho, hb⟩ | ⟨σ₁, hb, ⟨ho, hb2⟩ | ⟨rfl, σ₂, hb2, rfl⟩⟩
        · obtain ⟨a, b, d⟩ := hbr hb
          exact ⟨a, b, fun hj => d (by simp [jumps] at hj; exact hj.1)⟩
        · obtain ⟨_, _, d'⟩ := hbr hb
          obtain ⟨a, b, d⟩ := hbr hb2
          refine ⟨a, b, fun hj => ?_⟩
          simp [jumps] at hj
          have c' := d' hj.1
          have d := d hj.2
          exact ⟨d.1.trans c'.1, d.2.1.trans c'.2.1, d.2.2⟩
        · obtain ⟨_, _, d'⟩ := hbr hb
          obtain ⟨a, b, d⟩ := hbr hb2
          refine ⟨by simp, by simp, fun hj => ?_⟩
          simp [jumps] at hj
          have c' := d' hj.1
          have d := d hj.2
          exact ⟨(hend _ _).1.trans (d.1.trans c'.1), (hend _ _).2.trans (d.2.1.trans c'.2.1), by simp, by simp⟩
    | loop e coh st b =>
      simp only [run] at h
      have fin : ∀ {u i}, (∀ {σ o σ'}, i σ = some (o, σ') → o = .normal ∨ o = .ret) → wrapLoop u σ i = some (o, σ') →
          o ≠ .brk ∧ o ≠ .cont ∧ σ'.brk = σ.brk ∧ σ'.cont = σ.cont := by
        intro u i hi h
        obtain ⟨o₁, σ₁, h1, rfl, rfl⟩ := wrapLoop_some h
        have := hi h1
        refine ⟨by rcases this with h | h <;> simp [h], by rcases this with h | h <;> simp [h], ?_, ?_⟩ <;> split <;> rfl
      split at h
      · cases h
      split at h
      · obtain ⟨a, b, d, f⟩ := fin (fun h => forU_out h) h
        exact ⟨fun h => absurd h b, fun h => absurd h a, fun _ => ⟨d, f, a, b⟩⟩
      · obtain ⟨a, b, d, f⟩ := fin (fun h => forV_out h) h
        exact ⟨fun h => absurd h b, fun h => absurd h a, fun _ => ⟨d, f, a, b⟩⟩
    | doloop b e coh =>
      simp only [run] at h
      have fin : ∀ {u i}, (∀ {σ o σ'}, i σ = some (o, σ') → o = .normal ∨ o = .ret) → wrapLoop u σ i = some (o, σ') →
          o ≠ .brk ∧ o ≠ .cont ∧ σ'.brk = σ.brk ∧ σ'.cont = σ.cont := by
        intro u i hi h
        obtain ⟨o₁, σ₁, h1, rfl, rfl⟩ := wrapLoop_some h
        have := hi h1
        refine ⟨by rcases this with h | h <;> simp [h], by rcases this with h | h <;> simp [h], ?_, ?_⟩ <;> split <;> rfl
      split at h
      · obtain ⟨a, b, d, f⟩ := fin (fun h => doU_out h) h
        exact ⟨fun h => absurd h b, fun h => absurd h a, fun _ => ⟨d, f, a, b⟩⟩
      · obtain ⟨a, b, d, f⟩ := fin (fun h => doV_out h) h
        exact ⟨fun h => absurd h b, fun h => absurd h a, fun _ => ⟨d, f, a, b⟩⟩
    | brk =>
      have := fl_break h
      exact ⟨this.2.2.1, this.2.2.2, fun h => by simp [jumps] at h⟩
    | cont =>
      have := fl_continue h
      exact ⟨this.2.2.1, fun h => absurd h this.2.2.2, fun h => by simp [jumps] at h⟩
    | ret e =>
      simp only [run, doReturn] at h
      repeat' split at h
      all_goals
        simp only [Option.some.injEq, Prod.mk.injEq] at h
        obtain ⟨rfl, rfl⟩ := h
        simp
    | switch e b =>
      simp only [run] at h
      split at h
      · obtain ⟨r, hr, h⟩ := doSwitch_some h
        rcases h with ⟨h1, rfl, rfl⟩ | ⟨h1, h2, rfl, rfl⟩
        · simp
        · refine ⟨by simp, by simp, fun _ => ⟨?_, ?_, by simp, by simp⟩⟩ <;> split <;> rfl
      · cases h
    | seg lab chk s r => simp [run] at h
    | call dst f us vs =>
      simp only [run] at h
      split at h
      · simp only [Option.some.injEq, Prod.mk.injEq] at h
        obtain ⟨rfl, rfl⟩ := h
        simp
      · simp only [Option.some.injEq, Prod.mk.injEq] at h
        obtain ⟨rfl, rfl⟩ := h
        simp
      · cases h

end Ispc.Spmd
