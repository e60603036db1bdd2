import Verif.Spmd.Invariant

/-!
# The coherent control-flow variants emit code with exactly the same effect (helper lemmas for C04)
-/

namespace Ispc.Spmd

variable {n : Nat}

/-- The same program with `cif`, `cfor`, `cwhile`, `cdo` replaced by `if`, `for`, `while`, `do`.  (A `cif` is
never predicated, so the predication flag is dropped with it.) -/
def decoh : Stmt → Stmt
  | .seq a b => .seq (decoh a) (decoh b)
  | .ite e coh p a b => .ite e false (p && !coh) (decoh a) (decoh b)
  | .loop e _ st b => .loop e false (decoh st) (decoh b)
  | .doloop b e _ => .doloop (decoh b) e false
  | .switch e b => .switch e (decoh b)
  | .seg lab chk s r => .seg lab chk (decoh s) (decoh r)
  | s => s

/-- `decoh` for all functions, also dropping the all-on specialisation on function entry. -/
def decohProg (P : Prog) : Prog := fun f => ⟨decoh (P f).body, false⟩

theorem hasVBC_decoh : ∀ s d, hasVBC d (decoh s) = hasVBC d s := by
  intro s
  induction s with
  | seq a b iha ihb => intro d; simp [decoh, hasVBC, iha, ihb]
  | ite e coh p a b iha ihb => intro d; simp [decoh, hasVBC, iha, ihb]
  | switch e b ih => intro d; simp [decoh, hasVBC, ih]
  | seg lab chk s r ihs ihr => intro d; simp [decoh, hasVBC, ihs, ihr]
  | _ => intro d; rfl

theorem isSimple_decoh : ∀ s, isSimple (decoh s) = isSimple s := by
  intro s
  induction s with
  | seq a b iha ihb => simp [decoh, isSimple, iha, ihb]
  | _ => rfl

theorem caseVals_decoh : ∀ s, caseVals (decoh s) = caseVals s := by
  intro s
  induction s with
  | seg lab chk s r _ ih => cases lab <;> simp [decoh, caseVals, ih]
  | _ => rfl

theorem numDefaults_decoh : ∀ s, numDefaults (decoh s) = numDefaults s := by
  intro s
  induction s with
  | seg lab chk s r _ ih => cases lab <;> simp [decoh, numDefaults, ih]
  | _ => rfl

theorem isChain_decoh : ∀ s, isChain (decoh s) = isChain s := by
  intro s
  induction s with
  | seg lab chk s r _ ih => simp [decoh, isChain, ih]
  | _ => rfl

theorem switchOk_decoh (s : Stmt) : switchOk (decoh s) = switchOk s := by
  simp [switchOk, isChain_decoh, caseVals_decoh, numDefaults_decoh]

theorem findCase_decoh (v : Int) : ∀ s, findCase v (decoh s) = (findCase v s).map decoh := by
  intro s
  induction s with
  | seg lab chk s r _ ih =>
    cases lab with
    | none => simpa [decoh, findCase] using ih
    | some w =>
      simp only [decoh, findCase]
      split
      · rfl
      · exact ih
  | _ => rfl

theorem findDefault_decoh : ∀ s, findDefault (decoh s) = (findDefault s).map decoh := by
  intro s
  induction s with
  | seg lab chk s r _ ih =>
    cases lab with
    | none => rfl
    | some w => simpa [decoh, findDefault] using ih
  | _ => rfl

theorem switchEntry_decoh (v : Int) (s : Stmt) : switchEntry v (decoh s) = (switchEntry v s).map decoh := by
  unfold switchEntry
  rw [findCase_decoh]
  cases findCase v s with
  | none => exact findDefault_decoh s
  | some c => rfl

theorem segsV_decoh {entry : Mask n} {vals cases} {e₁ e₂ : Stmt → St n → Option (Out × St n)}
    (h : ∀ s σ, e₂ (decoh s) σ = e₁ s σ) : ∀ s σ, segsV entry vals cases e₂ (decoh s) σ = segsV entry vals cases e₁ s σ := by
  intro s
  induction s with
  | seg lab chk s r _ ih => intro σ; simp [decoh, segsV, h, ih]
  | _ => intro σ; rfl

theorem segsU_decoh {e₁ e₂ : Stmt → St n → Option (Out × St n)}
    (h : ∀ s σ, e₂ (decoh s) σ = e₁ s σ) : ∀ s σ, segsU e₂ (decoh s) σ = segsU e₁ s σ := by
  intro s
  induction s with
  | seg lab chk s r _ ih => intro σ; simp [decoh, segsU, h, ih]
  | _ => intro σ; rfl

/-- Finishing an `if` overwrites the mask, so the mask before does not matter. -/
theorem endIf_im_irrel (c : Ctx n) (saved m : Mask n) (σ : St n) : endIf c saved { σ with im := m } = endIf c saved σ := rfl

/-- When the mask is all on, the all-on specialisation and the general code have the same effect. -/
theorem maskAllOn_eq {c : Ctx n} {t : Mask n} {st sf : Code n} {σ : St n} (hn : 0 < n) (h : (full c σ).all = true) :
    maskAllOn c t st sf σ = maskMixed c t st sf σ := by
  have hf := Mask.all_true h
  have him : σ.im = allOn := by
    funext l; have := congrFun hf l; simp at this; simpa using this.1
  have hfm : c.fm = allOn := by
    funext l; have := congrFun hf l; simp at this; simpa using this.2
  have ec : ({ c.pushIf false with fm := allOn } : Ctx n) = c.pushIf false := by
    obtain ⟨a, b, d, e, f, g, i, j⟩ := c
    simp only at hfm
    subst hfm; rfl
  have es : ({ σ with im := allOn } : St n) = σ := by
    obtain ⟨a, b, d, e, f, g, i, j⟩ := σ
    simp only at him
    subst him; rfl
  unfold maskAllOn maskMixed
  simp only [ec, es, him]
  have fa : ∀ σ' : St n, ∀ m : Mask n, full (c.pushIf false) { σ' with im := m } = m := by
    intro σ' m; funext l; simp [Ctx.pushIf, hfm]
  have on1 : ∀ m : Mask n, (allOn : Mask n).and m = m := by intro m; funext l; simp
  simp only [fa, on1]
  by_cases h1 : t.all = true
  · have ht := Mask.all_true h1
    subst ht
    have hno : (allOn : Mask n).andNot allOn = allOff := by funext l; simp
    have hoff : (allOff : Mask n).any = false := by simp [Mask.any]
    simp only [h1, if_true, hno, hoff, Bool.false_eq_true, if_false, es]
    have hany : (allOn : Mask n).any = true := by
      simp only [Mask.any, decide_eq_true_eq]; exact ⟨⟨0, hn⟩, rfl⟩
    simp only [hany, if_true]
    cases hst : st (c.pushIf false) σ with
    | none => rfl
    | some r =>
      obtain ⟨o, σ'⟩ := r
      cases o <;> simp [andThen, endIf_im_irrel]
  · have h1' : t.all = false := by simpa using h1
    by_cases h2 : t.any = true
    · have hna : ((allOn : Mask n).andNot t).any = true := by
        simp only [Mask.all, decide_eq_true_eq, not_forall] at h1
        obtain ⟨l, hl⟩ := h1
        simp only [Mask.any, decide_eq_true_eq]
        exact ⟨l, by simpa using hl⟩
      simp only [h1', h2, hna, Bool.false_eq_true, if_false, if_true, maskedBoth, on1]
      cases hst : st (c.pushIf false) { σ with im := t } with
      | none => rfl
      | some r =>
        obtain ⟨o, σ'⟩ := r
        cases o <;> simp [andThen]
    · have h2' : t.any = false := by simpa using h2
      have ht : t = allOff := by funext l; exact Mask.any_false h2' l
      have hno : (allOn : Mask n).andNot t = allOn := by funext l; simp [ht]
      have hany : (allOn : Mask n).any = true := by
        simp only [Mask.any, decide_eq_true_eq]; exact ⟨⟨0, hn⟩, rfl⟩
      simp only [h1', h2', hno, hany, Bool.false_eq_true, if_false, if_true, andThen, es]

/-- Coherent and plain `if`s have the same effect. -/
theorem varyingIf_decoh (hn : 0 < n) (c : Ctx n) (coh p : Bool) (t : Mask n) (st sf : Code n) (σ : St n) :
    varyingIf c false (p && !coh) t st sf σ = varyingIf c coh p t st sf σ := by
  unfold varyingIf
  cases coh
  · simp
  · simp only [Bool.false_eq_true, if_false, Bool.not_true, Bool.and_false, if_true]
    split
    · rename_i h; exact (maskAllOn_eq hn h).symm
    · rfl

theorem forV_coh (c : Ctx n) (e coh step body) : ∀ k σ,
    forV c e false step body k σ = forV c e coh step body k σ := by
  intro k
  induction k with
  | zero => intro σ; rfl
  | succ k ih => intro σ; simp only [forV, coherentBody_eq, ih]

theorem doV_coh (c : Ctx n) (e coh body) : ∀ k σ,
    doV c e false body k σ = doV c e coh body k σ := by
  intro k
  induction k with
  | zero => intro σ; rfl
  | succ k ih => intro σ; simp only [doV, coherentBody_eq, ih]

theorem loopUnif_decoh (e : Expr) (b : Stmt) : loopUnif e (decoh b) = loopUnif e b := by
  simp [loopUnif, hasVBC_decoh]

/-- Replacing every coherent statement by its plain version changes nothing, not even the final mask. -/
theorem run_decoh (hn : 0 < n) (P : Prog) : ∀ k s, (run (decohProg P) k (decoh s) : Code n) = run P k s := by
  intro k
  induction k with
  | zero => intro s; funext c σ; rfl
  | succ k ih =>
    intro s; funext c σ
    cases s with
    | skip => rfl
    | uassign => rfl
    | vassign => rfl
    | brk => rfl
    | cont => rfl
    | ret => rfl
    | seq a b => simp only [decoh, run, ih]
    | ite e coh p a b => simp only [decoh, run, ih, varyingIf_decoh hn]
    | loop e coh st b => 
      have := funext (forV_coh c e coh (run P k st) (run P k b) k)
      simp only [decoh, run, ih, isSimple_decoh, loopUnif_decoh, this]
    | doloop b e coh => 
      have := funext (doV_coh c e coh (run P k b) k)
      simp only [decoh, run, ih, loopUnif_decoh, this]
    | switch e b =>
      simp only [decoh, run, switchOk_decoh]
      split
      · have hx : ∀ c' : Ctx n, ∀ s σ, (fun s σ => run (decohProg P) k s c' σ) (decoh s) σ = (fun s σ => run P k s c' σ) s σ := by
          intro c' s σ; simp only [ih]
        unfold doSwitch
        simp only [hasVBC_decoh, switchEntry_decoh, caseVals_decoh]
        rw [segsV_decoh (hx _)]
        cases switchEntry (σ.evalU e) b with
        | none => rfl
        | some ch => simp only [Option.map_some]; rw [segsU_decoh (hx _)]
      · rfl
    | seg => rfl
    | call dst f us vs => simp only [decoh, run, funcBody_eq, decohProg, ih]

end Ispc.Spmd
