import Verif.Spmd.Fuel

/-!
# When does the gang return?  (helper lemmas for C01)

If every active instance returns when it runs alone, the gang returns too, provided that no code that could run
forever is reached with all instances off.  `live` is that proviso: a syntactic condition on the program.
-/

namespace Ispc.Spmd

variable {n : Nat}

/-! ### Serial executions with their height -/

/-- `Exec` with a bound on the height of the derivation. -/
inductive ExecN (P : Prog) (l : Nat) : Nat → Stmt → SSt → SOut → SSt → Prop where
  | skip {N s} : ExecN P l (N + 1) .skip s .normal s
  | uassign {N s x e} : ExecN P l (N + 1) (.uassign x e) s .normal { s with u := upd1 s.u x (s.eval l e) }
  | vassign {N s b a i e} : ExecN P l (N + 1) (.vassign b a i e) s .normal (s.store b a (s.eval l i) (s.eval l e))
  | seqN {N s₁ s₂ s s' s'' o} : ExecN P l N s₁ s .normal s' → ExecN P l N s₂ s' o s'' →
      ExecN P l (N + 1) (.seq s₁ s₂) s o s''
  | seqJ {N s₁ s₂ s s' o} : ExecN P l N s₁ s o s' → o ≠ .normal → ExecN P l (N + 1) (.seq s₁ s₂) s o s'
  | iteT {N e c p s₁ s₂ s o s'} : s.eval l e ≠ 0 → ExecN P l N s₁ s o s' → ExecN P l (N + 1) (.ite e c p s₁ s₂) s o s'
  | iteF {N e c p s₁ s₂ s o s'} : s.eval l e = 0 → ExecN P l N s₂ s o s' → ExecN P l (N + 1) (.ite e c p s₁ s₂) s o s'
  | loopDone {N e c st b s} : s.eval l e = 0 → ExecN P l (N + 1) (.loop e c st b) s .normal s
  | loopStep {N e c st b s o₁ s₁ s₂ o s'} : s.eval l e ≠ 0 → ExecN P l N b s o₁ s₁ → (o₁ = .normal ∨ o₁ = .cont) →
      ExecN P l N st s₁ .normal s₂ → ExecN P l N (.loop e c st b) s₂ o s' → ExecN P l (N + 1) (.loop e c st b) s o s'
  | loopBrk {N e c st b s s'} : s.eval l e ≠ 0 → ExecN P l N b s .brk s' → ExecN P l (N + 1) (.loop e c st b) s .normal s'
  | loopRet {N e c st b s v s'} : s.eval l e ≠ 0 → ExecN P l N b s (.ret v) s' →
      ExecN P l (N + 1) (.loop e c st b) s (.ret v) s'
  | doStep {N e c b s o₁ s₁ o s'} : ExecN P l N b s o₁ s₁ → (o₁ = .normal ∨ o₁ = .cont) → s₁.eval l e ≠ 0 →
      ExecN P l N (.doloop b e c) s₁ o s' → ExecN P l (N + 1) (.doloop b e c) s o s'
  | doDone {N e c b s o₁ s₁} : ExecN P l N b s o₁ s₁ → (o₁ = .normal ∨ o₁ = .cont) → s₁.eval l e = 0 →
      ExecN P l (N + 1) (.doloop b e c) s .normal s₁
  | doBrk {N e c b s s'} : ExecN P l N b s .brk s' → ExecN P l (N + 1) (.doloop b e c) s .normal s'
  | doRet {N e c b s v s'} : ExecN P l N b s (.ret v) s' → ExecN P l (N + 1) (.doloop b e c) s (.ret v) s'
  | brk {N s} : ExecN P l (N + 1) .brk s .brk s
  | cont {N s} : ExecN P l (N + 1) .cont s .cont s
  | ret {N e s} : ExecN P l (N + 1) (.ret e) s (.ret (s.eval l e)) s
  | switchNone {N e b s} : switchEntry (s.eval l e) b = none → ExecN P l (N + 1) (.switch e b) s .normal s
  | switchBrk {N e b c s s'} : switchEntry (s.eval l e) b = some c → ExecN P l N c s .brk s' →
      ExecN P l (N + 1) (.switch e b) s .normal s'
  | switchOther {N e b c s o s'} : switchEntry (s.eval l e) b = some c → ExecN P l N c s o s' → o ≠ .brk →
      ExecN P l (N + 1) (.switch e b) s o s'
  | segN {N lab chk s₁ r s s' o s''} : ExecN P l N s₁ s .normal s' → ExecN P l N r s' o s'' →
      ExecN P l (N + 1) (.seg lab chk s₁ r) s o s''
  | segJ {N lab chk s₁ r s o s'} : ExecN P l N s₁ s o s' → o ≠ .normal → ExecN P l (N + 1) (.seg lab chk s₁ r) s o s'
  | call {N dst f us vs s o s' v} : ExecN P l N (P f).body (s.enter l us vs) o s' → o.result = some v →
      ExecN P l (N + 1) (.call dst f us vs) s .normal { s with loc := upd2 s.loc dst 0 v, ext := s'.ext }

theorem ExecN.exec {P : Prog} {l N s a o b} (h : ExecN P l N s a o b) : Exec P l s a o b := by
  induction h with
  | skip => exact .skip
  | uassign => exact .uassign
  | vassign => exact .vassign
  | seqN _ _ i1 i2 => exact .seqN i1 i2
  | seqJ _ h i => exact .seqJ i h
  | iteT h _ i => exact .iteT h i
  | iteF h _ i => exact .iteF h i
  | loopDone h => exact .loopDone h
  | loopStep h _ h2 _ _ i1 i2 i3 => exact .loopStep h i1 h2 i2 i3
  | loopBrk h _ i => exact .loopBrk h i
  | loopRet h _ i => exact .loopRet h i
  | doStep _ h h2 _ i1 i2 => exact .doStep i1 h h2 i2
  | doDone _ h h2 i => exact .doDone i h h2
  | doBrk _ i => exact .doBrk i
  | doRet _ i => exact .doRet i
  | brk => exact .brk
  | cont => exact .cont
  | ret => exact .ret
  | switchNone h => exact .switchNone h
  | switchBrk h _ i => exact .switchBrk h i
  | switchOther h _ h2 i => exact .switchOther h i h2
  | segN _ _ i1 i2 => exact .segN i1 i2
  | segJ _ h i => exact .segJ i h
  | call _ h i => exact .call i h

theorem ExecN.succ {P : Prog} {l N s a o b} (h : ExecN P l N s a o b) : ExecN P l (N + 1) s a o b := by
  induction h with
  | skip => exact .skip
  | uassign => exact .uassign
  | vassign => exact .vassign
  | seqN _ _ i1 i2 => exact .seqN i1 i2
  | seqJ _ h i => exact .seqJ i h
  | iteT h _ i => exact .iteT h i
  | iteF h _ i => exact .iteF h i
  | loopDone h => exact .loopDone h
  | loopStep h _ h2 _ _ i1 i2 i3 => exact .loopStep h i1 h2 i2 i3
  | loopBrk h _ i => exact .loopBrk h i
  | loopRet h _ i => exact .loopRet h i
  | doStep _ h h2 _ i1 i2 => exact .doStep i1 h h2 i2
  | doDone _ h h2 i => exact .doDone i h h2
  | doBrk _ i => exact .doBrk i
  | doRet _ i => exact .doRet i
  | brk => exact .brk
  | cont => exact .cont
  | ret => exact .ret
  | switchNone h => exact .switchNone h
  | switchBrk h _ i => exact .switchBrk h i
  | switchOther h _ h2 i => exact .switchOther h i h2
  | segN _ _ i1 i2 => exact .segN i1 i2
  | segJ _ h i => exact .segJ i h
  | call _ h i => exact .call i h

theorem ExecN.mono {P : Prog} {l N N' s a o b} (hN : N ≤ N') (h : ExecN P l N s a o b) : ExecN P l N' s a o b := by
  obtain ⟨d, rfl⟩ := Nat.exists_eq_add_of_le hN
  clear hN
  induction d with
  | zero => exact h
  | succ d ih => exact ih.succ

theorem Exec.height {P : Prog} {l s a o b} (h : Exec P l s a o b) : ∃ N, ExecN P l N s a o b := by
  induction h with
  | skip => exact ⟨1, .skip⟩
  | uassign => exact ⟨1, .uassign⟩
  | vassign => exact ⟨1, .vassign⟩
  | seqN _ _ i1 i2 =>
    obtain ⟨a, i1⟩ := i1; obtain ⟨b, i2⟩ := i2
    exact ⟨max a b + 1, .seqN (i1.mono (by omega)) (i2.mono (by omega))⟩
  | seqJ _ h i => obtain ⟨a, i⟩ := i; exact ⟨a + 1, .seqJ i h⟩
  | iteT h _ i => obtain ⟨a, i⟩ := i; exact ⟨a + 1, .iteT h i⟩
  | iteF h _ i => obtain ⟨a, i⟩ := i; exact ⟨a + 1, .iteF h i⟩
  | loopDone h => exact ⟨1, .loopDone h⟩
  | loopStep h _ h2 _ _ i1 i2 i3 =>
    obtain ⟨a, i1⟩ := i1; obtain ⟨b, i2⟩ := i2; obtain ⟨c, i3⟩ := i3
    exact ⟨max a (max b c) + 1, .loopStep h (i1.mono (by omega)) h2 (i2.mono (by omega)) (i3.mono (by omega))⟩
  | loopBrk h _ i => obtain ⟨a, i⟩ := i; exact ⟨a + 1, .loopBrk h i⟩
  | loopRet h _ i => obtain ⟨a, i⟩ := i; exact ⟨a + 1, .loopRet h i⟩
  | doStep _ h h2 _ i1 i2 =>
    obtain ⟨a, i1⟩ := i1; obtain ⟨b, i2⟩ := i2
    exact ⟨max a b + 1, .doStep (i1.mono (by omega)) h h2 (i2.mono (by omega))⟩
  | doDone _ h h2 i => obtain ⟨a, i⟩ := i; exact ⟨a + 1, .doDone i h h2⟩
  | doBrk _ i => obtain ⟨a, i⟩ := i; exact ⟨a + 1, .doBrk i⟩
  | doRet _ i => obtain ⟨a, i⟩ := i; exact ⟨a + 1, .doRet i⟩
  | brk => exact ⟨1, .brk⟩
  | cont => exact ⟨1, .cont⟩
  | ret => exact ⟨1, .ret⟩
  | switchNone h => exact ⟨1, .switchNone h⟩
  | switchBrk h _ i => obtain ⟨a, i⟩ := i; exact ⟨a + 1, .switchBrk h i⟩
  | switchOther h _ h2 i => obtain ⟨a, i⟩ := i; exact ⟨a + 1, .switchOther h i h2⟩
  | segN _ _ i1 i2 =>
    obtain ⟨a, i1⟩ := i1; obtain ⟨b, i2⟩ := i2
    exact ⟨max a b + 1, .segN (i1.mono (by omega)) (i2.mono (by omega))⟩
  | segJ _ h i => obtain ⟨a, i⟩ := i; exact ⟨a + 1, .segJ i h⟩
  | call _ h i => obtain ⟨a, i⟩ := i; exact ⟨a + 1, .call i h⟩

/-! ### The conditions on the program -/

/-- The compiler accepts the statement: `break` and `continue` have a target (ctx.cpp:676-679, 750-753), the step
of a `for` is an expression statement, the labels of a switch are legal (stmt.cpp:3004-3024).  The first
argument says that a chain of labelled segments is meant; the others whether there is a target for `break` and
for `continue`. -/
def accepted : Bool → Bool → Bool → Stmt → Bool
  | true, _, _, .skip => true
  | true, bt, ct, .seg _ _ s r => accepted false bt ct s && accepted true bt ct r
  | true, _, _, _ => false
  | false, bt, _, .brk => bt
  | false, _, ct, .cont => ct
  | false, bt, ct, .seq a b => accepted false bt ct a && accepted false bt ct b
  | false, bt, ct, .ite _ _ _ a b => accepted false bt ct a && accepted false bt ct b
  | false, _, _, .loop _ _ st b => isSimple st && accepted false true true st && accepted false true true b
  | false, _, _, .doloop b _ _ => accepted false true true b
  | false, _, _, .switch _ b => switchOk b && accepted true true false b
  | false, _, _, .seg _ _ _ _ => false
  | false, _, _, _ => true

/-- The code ends even if it is reached with all instances off, given which functions do.  A loop whose condition
is varying tests the mask, and so does a varying `if` that is not predicated; a loop with a uniform condition
does not. -/
def calmS (callee : Nat → Bool) : Stmt → Bool
  | .seq a b => calmS callee a && calmS callee b
  | .ite e coh pred a b => (!e.isUniform && (coh || !pred)) || (calmS callee a && calmS callee b)
  | .loop e _ _ b => !loopUnif e b
  | .doloop b e _ => !loopUnif e b && calmS callee b
  | .switch _ b => calmS callee b
  | .seg _ _ s r => calmS callee s && calmS callee r
  | .call _ f _ _ => callee f
  | _ => true

/-- `calmS` with calls followed to depth `d`. -/
def calm (P : Prog) : Nat → Stmt → Bool
  | 0 => calmS (fun _ => false)
  | d + 1 => calmS (fun f => calm P d (P f).body)

/-- Can instances be off after the statement that were on before it? -/
def stops (s : Stmt) : Bool := hasRet s || jumps s

/-- Nothing that could run forever is reached with all instances off.  `top` says that only uniform control flow
is around: there a statement is left with all instances off only by leaving the function. -/
def live (P : Prog) (d : Nat) : Bool → Stmt → Bool
  | top, .seq a b => live P d top a && live P d top b && (top || !stops a || calm P d b)
  | top, .ite e coh pred a b =>
      if e.isUniform then live P d top a && live P d top b
      else live P d false a && live P d false b && (coh || !pred || (calm P d a && calm P d b))
  | top, .loop e _ st b =>
      if loopUnif e b then live P d top b && live P d top st && (top || !hasRet b)
      else live P d false b && live P d false st && calm P d st
  | top, .doloop b e _ => if loopUnif e b then live P d top b && (top || !hasRet b) else live P d false b
  | top, .switch e b => if e.isUniform then live P d (top && !hasVBC 0 b) b else live P d false b && calm P d b
  | top, .seg _ _ s r => live P d top s && live P d top r && (top || !stops s || calm P d r)
  | _, _ => true

/-! ### Results -/

/-- The code of the statement ends. -/
def Tm (P : Prog) (s : Stmt) (c : Ctx n) (σ : St n) : Prop := ∃ k r, run P k s c σ = some r

/-- Some instance is running. -/
def Awake (c : Ctx n) (σ : St n) : Prop := ∃ l, σ.im l = true ∧ c.fm l = true

theorem awake_iff {c : Ctx n} {σ : St n} : Awake c σ ↔ (full c σ).any = true := by
  simp [Awake, Mask.any]

theorem doBreak_tm {c : Ctx n} {σ : St n} (hk : CtxOk c) (hl : Legal c.cf .brk) (hb : c.brkTgt = true) :
    ∃ r, doBreak c σ = some r := by
  unfold doBreak
  rw [if_neg (by simp [hb])]
  split
  · exact ⟨_, rfl⟩
  split
  · exact ⟨_, rfl⟩
  rename_i h1 h2
  have hhb : c.hasBrk = true := by
    cases hn : nearest c.cf with
    | none => rw [(hk.none_ hn).1] at hb; cases hb
    | some x =>
      obtain ⟨k, u⟩ := x
      rcases nearest_kind hn with rfl | rfl
      · rw [(hk.loop_ u hn).1]
        cases u with
        | false => rfl
        | true =>
          exfalso
          apply h2
          have := hl _ hn rfl
          simp only [hasVBC, decide_eq_false_iff_not] at this
          rw [ifsUnif_loop hn, inSwitch_loop hn]
          simp; omega
      · exact (hk.switch_ u hn).1
  rw [if_neg (by simp [hhb])]
  simp only
  split <;> exact ⟨_, rfl⟩

theorem doContinue_tm {c : Ctx n} {σ : St n} (hk : CtxOk c) (hl : Legal c.cf .cont) (hb : c.contTgt = true) :
    ∃ r, doContinue c σ = some r := by
  unfold doContinue
  rw [if_neg (by simp [hb])]
  split
  · exact ⟨_, rfl⟩
  rename_i h2
  have hhb : c.hasCont = true := by
    cases hn : nearest c.cf with
    | none => rw [(hk.none_ hn).2.1] at hb; cases hb
    | some x =>
      obtain ⟨k, u⟩ := x
      rcases nearest_kind hn with rfl | rfl
      · rw [(hk.loop_ u hn).2.1]
        cases u with
        | false => rfl
        | true =>
          exfalso
          apply h2
          have := hl _ hn rfl
          simp only [hasVBC, decide_eq_false_iff_not] at this
          rw [ifsUnif_loop hn]
          simp; omega
      · rw [(hk.switch_ u hn).2.2.1] at hb; cases hb
  rw [if_neg (by simp [hhb])]
  simp only
  split <;> exact ⟨_, rfl⟩

theorem doReturn_tm {c : Ctx n} {σ : St n} {e} : ∃ r, doReturn c e σ = some r := by
  unfold doReturn
  simp only
  split
  · exact ⟨_, rfl⟩
  split <;> exact ⟨_, rfl⟩

theorem andThen_tm {a : Option (Out × St n)} {b : St n → Option (Out × St n)} {o σ'} (h : a = some (o, σ'))
    (hb : o = .normal → ∃ r, b σ' = some r) : ∃ r, andThen a b = some r := by
  subst h
  cases o with
  | normal => exact hb rfl
  | _ => exact ⟨_, rfl⟩

/-- A varying `if` ends if its sides do. -/
theorem varyingIf_tm {P : Prog} {c : Ctx n} {coh pred t s₁ s₂ σ} (l0 : Fin n)
    (h1 : Awake (c.pushIf false) { σ with im := σ.im.and t } ∨ (coh = false ∧ pred = true) →
      Tm P s₁ (c.pushIf false) { σ with im := σ.im.and t })
    (h2 : ∀ k σ₁, Branch (c.pushIf false) (σ.im.and t) (run P k s₁) σ .normal σ₁ →
      Awake (c.pushIf false) { σ₁ with im := σ.im.andNot t } ∨ (coh = false ∧ pred = true) →
      Tm P s₂ (c.pushIf false) { σ₁ with im := σ.im.andNot t }) :
    ∃ k r, varyingIf c coh pred t (run P k s₁) (run P k s₂) σ = some r := by
  -- the general case
  have mixed : ∃ k r, maskMixed c t (run P k s₁) (run P k s₂) σ = some r := by
    have first : ∃ k o σ₁, ∀ k' ≥ k, (if (full (c.pushIf false) { σ with im := σ.im.and t }).any = true then
        run P k' s₁ (c.pushIf false) { σ with im := σ.im.and t } else some (.normal, { σ with im := σ.im.and t }))
          = some (o, σ₁) := by
      split
      · rename_i ha
        obtain ⟨k, ⟨o, σ₁⟩, h⟩ := h1 (Or.inl (awake_iff.2 ha))
        exact ⟨k, o, σ₁, fun k' hk => run_mono hk h⟩
      · exact ⟨0, _, _, fun _ _ => rfl⟩
    obtain ⟨k1, o1, σ₁, hf⟩ := first
    by_cases ho : o1 = .normal
    · subst ho
      have hbr : Branch (c.pushIf false) (σ.im.and t) (run P k1 s₁) σ .normal σ₁ := by
        have := hf k1 (Nat.le_refl _)
        split at this
        · exact .ran this
        · rename_i ha
          simp only [Option.some.injEq, Prod.mk.injEq, true_and] at this
          subst this
          refine .skipped _ fun l hl => ?_
          have := Mask.any_false (by simpa using ha) l
          simp only [full_apply] at this
          rw [hl] at this
          simpa using this
      have second : ∃ k o σ₂, ∀ k' ≥ k, (if (full (c.pushIf false) { σ₁ with im := σ.im.andNot t }).any = true then
          run P k' s₂ (c.pushIf false) { σ₁ with im := σ.im.andNot t } else some (.normal, { σ₁ with im := σ.im.andNot t }))
            = some (o, σ₂) := by
        split
        · rename_i ha
          obtain ⟨k, ⟨o, σ₁⟩, h⟩ := h2 k1 σ₁ hbr (Or.inl (awake_iff.2 ha))
          exact ⟨k, o, σ₁, fun k' hk => run_mono hk h⟩
        · exact ⟨0, _, _, fun _ _ => rfl⟩
      obtain ⟨k2, o2, σ₂, hs⟩ := second
      refine ⟨max k1 k2, ?_⟩
      unfold maskMixed
      exact andThen_tm (hf _ (by omega)) fun _ => andThen_tm (hs _ (by omega)) fun _ => ⟨_, rfl⟩
    · refine ⟨k1, ?_⟩
      unfold maskMixed
      exact andThen_tm (hf _ (Nat.le_refl _)) fun h => absurd h ho
  cases coh with
  | true =>
    cases hall : (full c σ).all with
    | false =>
      obtain ⟨k, r, h⟩ := mixed
      exact ⟨k, r, by simp [varyingIf, hall, h]⟩
    | true =>
      have hf := Mask.all_true hall
      have e1 : σ.im = allOn := by
        funext l; have := congrFun hf l; simp at this; simpa using this.1
      have e2 : c.fm = allOn := by
        funext l; have := congrFun hf l; simp at this; simpa using this.2
      have e3 : ({ c.pushIf false with fm := allOn } : Ctx n) = c.pushIf false := by
        simp [Ctx.pushIf, e2]
      have red : ∀ k, varyingIf c true pred t (run P k s₁) (run P k s₂) σ
          = maskAllOn c t (run P k s₁) (run P k s₂) σ := fun k => by simp [varyingIf, hall]
      simp only [red, maskAllOn, e3]
      cases ht : t.all with
      | true =>
        have e4 : σ.im.and t = allOn := by rw [e1, Mask.all_true ht]; funext l; rfl
        rw [e4] at h1
        obtain ⟨k, ⟨o, σ₁⟩, h⟩ := h1 (Or.inl ⟨l0, rfl, by simp [Ctx.pushIf, e2, allOn]⟩)
        refine ⟨k, ?_⟩
        simp only [if_true]
        exact andThen_tm h fun _ => ⟨_, rfl⟩
      | false =>
        have hno : ∃ l, t l = false := by
          simp only [Mask.all, decide_eq_false_iff_not, not_forall] at ht
          obtain ⟨l, hl⟩ := ht; exact ⟨l, by simpa using hl⟩
        obtain ⟨l1, hl1⟩ := hno
        cases hy : t.any with
        | true =>
          have : ∃ l, t l = true := by simpa [Mask.any] using hy
          obtain ⟨l2, hl2⟩ := this
          obtain ⟨k, ⟨o, σ₁⟩, h⟩ := h1 (Or.inl ⟨l2, by simp [e1, allOn, hl2], by simp [Ctx.pushIf, e2, allOn]⟩)
          by_cases ho : o = .normal
          · subst ho
            obtain ⟨k', ⟨o', σ₂⟩, h'⟩ := h2 k σ₁ (.ran h)
              (Or.inl ⟨l1, by simp [e1, allOn, hl1], by simp [Ctx.pushIf, e2, allOn]⟩)
            refine ⟨max k k', ?_⟩
            simp only [if_true, Bool.false_eq_true, if_false, maskedBoth, ← e1]
            have a := andThen_tm (a := run P (max k k') s₁ (c.pushIf false) { σ with im := σ.im.and t })
              (b := fun σ_1 => run P (max k k') s₂ (c.pushIf false) { σ_1 with im := σ.im.andNot t })
              (run_mono (by omega) h) (fun _ => ⟨_, run_mono (by omega) h'⟩)
            obtain ⟨⟨o3, σ3⟩, a⟩ := a
            exact andThen_tm a fun _ => ⟨_, rfl⟩
          · refine ⟨k, ?_⟩
            simp only [if_true, Bool.false_eq_true, if_false, maskedBoth, ← e1]
            have a := andThen_tm (a := run P k s₁ (c.pushIf false) { σ with im := σ.im.and t })
              (b := fun σ_1 => run P k s₂ (c.pushIf false) { σ_1 with im := σ.im.andNot t })
              h (fun h => absurd h ho)
            obtain ⟨⟨o3, σ3⟩, a⟩ := a
            exact andThen_tm a fun _ => ⟨_, rfl⟩
        | false =>
          have hno : ∀ l, t l = false := Mask.any_false hy
          have e4 : σ.im.andNot t = allOn := by funext l; simp [e1, hno l, allOn]
          have hbr : Branch (c.pushIf false) (σ.im.and t) (run P 0 s₁) σ .normal { σ with im := allOn } :=
            .skipped _ fun l hl => by simp [hno l] at hl
          have h2' := h2 0 _ hbr (Or.inl ⟨l0, by show (σ.im.andNot t) l0 = true; rw [e4]; rfl, by simp [Ctx.pushIf, e2, allOn]⟩)
          rw [e4] at h2'
          obtain ⟨k, ⟨o, σ₁⟩, h⟩ := h2'
          refine ⟨k, ?_⟩
          simp only [Bool.false_eq_true, if_false]
          exact andThen_tm h fun _ => ⟨_, rfl⟩
  | false =>
    cases pred with
    | false =>
      obtain ⟨k, r, h⟩ := mixed
      exact ⟨k, r, by simp [varyingIf, h]⟩
    | true =>
      obtain ⟨k, ⟨o, σ₁⟩, h⟩ := h1 (Or.inr ⟨rfl, rfl⟩)
      by_cases ho : o = .normal
      · subst ho
        obtain ⟨k', ⟨o', σ₂⟩, h'⟩ := h2 k σ₁ (.ran h) (Or.inr ⟨rfl, rfl⟩)
        refine ⟨max k k', ?_⟩
        simp only [varyingIf, if_true, Bool.false_eq_true, if_false, maskedBoth]
        have a := andThen_tm (a := run P (max k k') s₁ (c.pushIf false) { σ with im := σ.im.and t })
          (b := fun σ_1 => run P (max k k') s₂ (c.pushIf false) { σ_1 with im := σ.im.andNot t })
          (run_mono (by omega) h) (fun _ => ⟨_, run_mono (by omega) h'⟩)
        obtain ⟨⟨o3, σ3⟩, a⟩ := a
        exact andThen_tm a fun _ => ⟨_, rfl⟩
      · refine ⟨k, ?_⟩
        simp only [varyingIf, if_true, Bool.false_eq_true, if_false, maskedBoth]
        have a := andThen_tm (a := run P k s₁ (c.pushIf false) { σ with im := σ.im.and t })
          (b := fun σ_1 => run P k s₂ (c.pushIf false) { σ_1 with im := σ.im.andNot t })
          h (fun h => absurd h ho)
        obtain ⟨⟨o3, σ3⟩, a⟩ := a
        exact andThen_tm a fun _ => ⟨_, rfl⟩

theorem Tm.seq {P : Prog} {s₁ s₂} {c : Ctx n} {σ} (h1 : Tm P s₁ c σ)
    (h2 : ∀ k σ₁, run P k s₁ c σ = some (.normal, σ₁) → Tm P s₂ c σ₁) : Tm P (.seq s₁ s₂) c σ := by
  obtain ⟨k, ⟨o, σ₁⟩, h⟩ := h1
  by_cases ho : o = .normal
  · subst ho
    obtain ⟨k', r, h'⟩ := h2 k σ₁ h
    refine ⟨max k k' + 1, ?_⟩
    simp only [run]
    exact andThen_tm (run_mono (by omega) h) fun _ => ⟨_, run_mono (by omega) h'⟩
  · refine ⟨k + 1, ?_⟩
    simp only [run]
    exact andThen_tm h fun h => absurd h ho

theorem wrapLoop_tm {u : Bool} {σ : St n} {i : St n → Option (Out × St n)} {r}
    (h : i { σ with brk := allOff, cont := allOff } = some r) : ∃ r, wrapLoop u σ i = some r := by
  unfold wrapLoop
  rw [h]
  exact ⟨_, rfl⟩

theorem enter_inv {c : Ctx n} {σ : St n} {us vs} : Inv (enterCtx (full c σ)) (enterSt σ us vs) :=
  ⟨fun _ h => h, fun l _ h2 => ⟨rfl, rfl, rfl, h2⟩, fun _ _ _ => Or.inl rfl, fun _ _ _ => Or.inl rfl,
    fun _ _ => ⟨rfl, rfl⟩, fun _ _ => rfl, fun _ _ => rfl, fun _ _ => by simp [enterSt]⟩

/-- A call ends if the body of the function does. -/
theorem Tm.call {P : Prog} {dst f us vs} {c : Ctx n} {σ} (h : Tm P (P f).body (enterCtx (full c σ)) (enterSt σ us vs)) :
    Tm P (.call dst f us vs) c σ := by
  obtain ⟨k, ⟨o, σ₁⟩, h⟩ := h
  have hj := run_jl _ _ _ _ _ _ h
  refine ⟨k + 1, ?_⟩
  simp only [run, funcBody_eq, h]
  cases o with
  | normal => exact ⟨_, rfl⟩
  | ret => exact ⟨_, rfl⟩
  | brk => have := hj.2.1 rfl; simp [enterCtx] at this
  | cont => have := hj.1 rfl; simp [enterCtx] at this

theorem Inv.pushIfU {c : Ctx n} {σ : St n} (hi : Inv c σ) : Inv (c.pushIf true) σ :=
  ⟨hi.bemfm, hi.act, fun hp => hi.pos ⟨by simpa [Ctx.pushIf, vifs] using hp.1, hp.2⟩,
    fun hd => hi.d0 (by simpa [Ctx.pushIf, vdepth] using hd), hi.nu, hi.hc, hi.hb, hi.excl⟩

/-- Every statement in a chain of labelled segments satisfies `Q`. -/
def Members (Q : Stmt → Prop) : Stmt → Prop
  | .skip => True
  | .seg _ _ s r => Q s ∧ Members Q r
  | _ => False

theorem Members.findCase {Q v} : ∀ {s t}, findCase v s = some t → Members Q s → Members Q t := by
  intro s
  induction s with
  | seg lab chk s r _ ihr =>
    intro t h hw
    cases lab with
    | none => exact ihr h hw.2
    | some w =>
      simp only [Ispc.Spmd.findCase] at h
      split at h
      · simp only [Option.some.injEq] at h; subst h; exact hw
      · exact ihr h hw.2
  | _ => intro t h; simp [Ispc.Spmd.findCase] at h

theorem Members.findDefault {Q} : ∀ {s t}, findDefault s = some t → Members Q s → Members Q t := by
  intro s
  induction s with
  | seg lab chk s r _ ihr =>
    intro t h hw
    cases lab with
    | none => simp only [Ispc.Spmd.findDefault, Option.some.injEq] at h; subst h; exact hw
    | some w => exact ihr h hw.2
  | _ => intro t h; simp [Ispc.Spmd.findDefault] at h

theorem Members.switchEntry {Q v s t} (h : switchEntry v s = some t) (hw : Members Q s) : Members Q t := by
  unfold Ispc.Spmd.switchEntry at h
  split at h
  · simp only [Option.some.injEq] at h; subst h; rename_i h; exact hw.findCase h
  · exact hw.findDefault h

theorem Members.imp {Q R : Stmt → Prop} : ∀ {s}, Members Q s → (∀ t, Q t → R t) → Members R s := by
  intro s
  induction s with
  | skip => intro _ _; trivial
  | seg lab chk s r _ ihr => intro h hi; exact ⟨hi _ h.1, ihr h.2 hi⟩
  | _ => intro h; exact absurd h (by simp [Members])

theorem Members.and {Q R : Stmt → Prop} : ∀ {s}, Members Q s → Members R s → Members (fun t => Q t ∧ R t) s := by
  intro s
  induction s with
  | skip => intro _ _; trivial
  | seg lab chk s r _ ihr => intro h hi; exact ⟨⟨h.1, hi.1⟩, ihr h.2 hi.2⟩
  | _ => intro h; exact absurd h (by simp [Members])

theorem members_accepted {bt ct} : ∀ {s}, accepted true bt ct s = true →
    Members (fun t => accepted false bt ct t = true) s := by
  intro s
  induction s with
  | skip => intro _; trivial
  | seg lab chk s r _ ihr =>
    intro h
    simp only [accepted, Bool.and_eq_true] at h
    exact ⟨h.1, ihr h.2⟩
  | _ => intro h; simp [accepted] at h

theorem members_calm {bt ct g} : ∀ {s}, accepted true bt ct s = true → calmS g s = true →
    Members (fun t => calmS g t = true) s := by
  intro s
  induction s with
  | skip => intro _ _; trivial
  | seg lab chk s r _ ihr =>
    intro h hc
    simp only [accepted, Bool.and_eq_true] at h
    simp only [calmS, Bool.and_eq_true] at hc
    exact ⟨hc.1, ihr h.2 hc.2⟩
  | _ => intro h; simp [accepted] at h

theorem members_sub {bt ct} {A : Set Nat} : ∀ {s}, accepted true bt ct s = true → s.assigned ⊆ A →
    Members (fun t => t.assigned ⊆ A) s := by
  intro s
  induction s with
  | skip => intro _ _; trivial
  | seg lab chk s r _ ihr =>
    intro h hc
    simp only [accepted, Bool.and_eq_true] at h
    exact ⟨fun x hx => hc (Or.inl hx), ihr h.2 fun x hx => hc (Or.inr hx)⟩
  | _ => intro h; simp [accepted] at h

theorem members_vbc {bt ct} {u : Bool} : ∀ {s}, accepted true bt ct s = true → (u = true → hasVBC 0 s = false) →
    Members (fun t => u = true → hasVBC 0 t = false) s := by
  intro s
  induction s with
  | skip => intro _ _; trivial
  | seg lab chk s r _ ihr =>
    intro h hc
    simp only [accepted, Bool.and_eq_true] at h
    simp only [hasVBC, Bool.or_eq_false_iff] at hc
    exact ⟨fun hu => (hc hu).1, ihr h.2 fun hu => (hc hu).2⟩
  | _ => intro h; simp [accepted] at h

theorem doSwitch_none {c : Ctx n} {e body} {x : Ctx n → Stmt → St n → Option (Out × St n)} {σ}
    (he : e.isUniform = true) (hs : switchEntry (σ.evalU e) body = none) : ∃ r', doSwitch c e body x σ = some r' := by
  unfold doSwitch
  simp only [he, if_true, hs]
  exact ⟨_, rfl⟩

theorem doSwitch_tmU {c : Ctx n} {e body ch} {x : Ctx n → Stmt → St n → Option (Out × St n)} {σ} {o σ'}
    (he : e.isUniform = true) (hs : switchEntry (σ.evalU e) body = some ch)
    (h : segsU (x (c.pushSwitch (!hasVBC 0 body) true (full c σ))) ch { σ with brk := allOff, cont := allOff }
      = some (o, σ'))
    (hr : o ≠ .cont) : ∃ r', doSwitch c e body x σ = some r' := by
  unfold doSwitch
  simp only [he, if_true, hs, Bool.true_and, h]
  cases o with
  | cont => exact absurd rfl hr
  | _ => exact ⟨_, rfl⟩

theorem doSwitch_tmV {c : Ctx n} {e body} {x : Ctx n → Stmt → St n → Option (Out × St n)} {σ} {o σ'}
    (he : e.isUniform = false)
    (h : segsV σ.im (fun l => σ.eval e l) (caseVals body) (x (c.pushSwitch false false (full c σ))) body
      { σ with brk := allOff, cont := allOff, im := allOff } = some (o, σ'))
    (hr : o ≠ .cont) : ∃ r', doSwitch c e body x σ = some r' := by
  unfold doSwitch
  simp only [he, Bool.false_eq_true, if_false, Bool.false_and, h]
  cases o with
  | cont => exact absurd rfl hr
  | _ => exact ⟨_, rfl⟩

/-- Segments run one after the other end if each does. -/
theorem segsU_calm {P : Prog} {A} {c : Ctx n} : ∀ {s σ}, Members (fun t => (∀ k, Good A c (run P k t)) ∧
      ∀ σ, Inv c σ → ¬ Awake c σ → Tm P t c σ) s →
    Inv c σ → ¬ Awake c σ → ∃ k r, segsU (fun s σ => run P k s c σ) s σ = some r := by
  intro s
  induction s with
  | skip => intro σ _ _ _; exact ⟨0, _, rfl⟩
  | seg lab chk s r _ ihr =>
    intro σ hm hi hw
    obtain ⟨⟨hg, ht⟩, hm⟩ := hm
    obtain ⟨k, ⟨o, σ₁⟩, h⟩ := ht σ hi hw
    by_cases ho : o = .normal
    · subst ho
      have p := hg k _ _ _ hi h
      obtain ⟨k', r', h'⟩ := ihr hm (hi.of_post p (by simp)) (fun ⟨l, a, b⟩ => hw ⟨l, p.mono l a, b⟩)
      refine ⟨max k k', ?_⟩
      simp only [segsU]
      refine andThen_tm (run_mono (by omega) h) fun _ => ⟨r', ?_⟩
      exact segsU_le (fun s σ r h => run_mono (by omega) h) h'
    · refine ⟨k, ?_⟩
      simp only [segsU]
      exact andThen_tm h fun h => absurd h ho
  | _ => intro σ hm; exact absurd hm (by simp [Members])

theorem segsV_calm {P : Prog} {A} {entry : Mask n} {vals cases} {c : Ctx n} (hv : VSw entry c)
    (he : ∀ l, entry l = true → c.fm l = false) : ∀ {s σ}, Members (fun t => (∀ k, Good A c (run P k t)) ∧
      ∀ σ, Inv c σ → ¬ Awake c σ → Tm P t c σ) s → ChainOk cases s →
    SegInv entry vals cases c s σ → ∃ k r, segsV entry vals cases (fun s σ => run P k s c σ) s σ = some r := by
  intro s
  induction s with
  | skip => intro σ _ _ _; exact ⟨0, _, rfl⟩
  | seg lab chk s r _ ihr =>
    intro σ hm hok si
    obtain ⟨⟨hg, ht⟩, hm⟩ := hm
    have sl := si.label hv hok
    cases hx : (chk && !({ σ with im := σ.im.or (labelMask entry vals cases lab) } : St n).im.any) with
    | true =>
      obtain ⟨k, r', h⟩ := ihr hm hok.tail sl
      refine ⟨k, r', ?_⟩
      simp only [segsV]
      rw [if_pos hx]
      exact h
    | false =>
      have hw : ¬ Awake c ({ σ with im := σ.im.or (labelMask entry vals cases lab) } : St n) := by
        rintro ⟨l, a, b⟩
        rw [he l (sl.sub l a)] at b; cases b
      obtain ⟨k, ⟨o, σ₁⟩, h⟩ := ht _ sl.inv hw
      by_cases ho : o = .normal
      · subst ho
        have p := hg k _ _ _ sl.inv h
        obtain ⟨k', r', h'⟩ := ihr hm hok.tail (sl.step p)
        refine ⟨max k k', ?_⟩
        simp only [segsV]
        rw [if_neg (by rw [hx]; simp)]
        refine andThen_tm (run_mono (by omega) h) fun _ => ⟨r', ?_⟩
        exact segsV_le (fun s σ r h => run_mono (by omega) h) h'
      · refine ⟨k, ?_⟩
        simp only [segsV]
        rw [if_neg (by rw [hx]; simp)]
        exact andThen_tm h fun h => absurd h ho
  | _ => intro σ hm; exact absurd hm (by simp [Members])

theorem segsU_jl {P : Prog} {k} {c : Ctx n} (hc : c.contTgt = false) : ∀ {s σ o σ'},
    segsU (fun s σ => run P k s c σ) s σ = some (o, σ') → o ≠ .cont := by
  intro s
  induction s with
  | skip => intro σ o σ' h; simp only [segsU, Option.some.injEq, Prod.mk.injEq] at h; rw [← h.1]; simp
  | seg lab chk s r _ ihr =>
    intro σ o σ' h
    simp only [segsU] at h
    rcases andThen_some h with ⟨h1, _⟩ | ⟨σ₁, _, h2⟩
    · intro ho
      have := (run_jl _ _ _ _ _ _ h1).1 ho
      rw [hc] at this; cases this
    · exact ihr h2
  | _ => intro σ o σ' h; simp [segsU] at h

theorem segsV_jl {P : Prog} {k} {entry : Mask n} {vals cases} {c : Ctx n} (hc : c.contTgt = false) : ∀ {s σ o σ'},
    segsV entry vals cases (fun s σ => run P k s c σ) s σ = some (o, σ') → o ≠ .cont := by
  intro s
  induction s with
  | skip => intro σ o σ' h; simp only [segsV, Option.some.injEq, Prod.mk.injEq] at h; rw [← h.1]; simp
  | seg lab chk s r _ ihr =>
    intro σ o σ' h
    simp only [segsV] at h
    split at h
    · exact ihr h
    rcases andThen_some h with ⟨h1, _⟩ | ⟨σ₁, _, h2⟩
    · intro ho
      have := (run_jl _ _ _ _ _ _ h1).1 ho
      rw [hc] at this; cases this
    · exact ihr h2
  | _ => intro σ o σ' h; simp [segsV] at h

/-- Calm code ends when no instance is running. -/
theorem calm_tm {P : Prog} (hA : ∀ f, accepted false false false (P f).body = true) (l0 : Fin n) :
    ∀ d s (c : Ctx n) σ, calm P d s = true → accepted false c.brkTgt c.contTgt s = true → CtxOk c → Legal c.cf s →
      Inv c σ → ¬ Awake c σ → Tm P s c σ := by
  intro d
  induction d using Nat.strongRecOn with
  | _ d ihd =>
  intro s
  have hcallee : ∃ g : Nat → Bool, calm P d = calmS g ∧ ∀ f, g f = true → ∃ d' < d, calm P d' (P f).body = true := by
    cases d with
    | zero => exact ⟨_, rfl, fun f h => by simp at h⟩
    | succ d => exact ⟨_, rfl, fun f h => ⟨d, by omega, h⟩⟩
  obtain ⟨g, hg, hgf⟩ := hcallee
  rw [hg]
  let Q : Stmt → Prop := fun s => ∀ (c : Ctx n) σ, calmS g s = true → accepted false c.brkTgt c.contTgt s = true →
    CtxOk c → Legal c.cf s → Inv c σ → ¬ Awake c σ → Tm P s c σ
  suffices key : Q s ∧ (∀ bt ct, accepted true bt ct s = true → Members Q s) from key.1
  induction s with
  | skip => exact ⟨fun c σ _ _ _ _ _ _ => ⟨1, _, rfl⟩, fun _ _ _ => trivial⟩
  | uassign =>
    refine ⟨?_, fun bt ct h => by simp [accepted] at h⟩
    exact fun c σ _ _ _ _ _ _ => ⟨1, _, rfl⟩
  | vassign =>
    refine ⟨?_, fun bt ct h => by simp [accepted] at h⟩
    exact fun c σ _ _ _ _ _ _ => ⟨1, _, rfl⟩
  | brk =>
    refine ⟨?_, fun bt ct h => by simp [accepted] at h⟩
    intro c σ _ ha hk hl _ _
    obtain ⟨r, h⟩ := doBreak_tm (σ := σ) hk hl (by simpa [accepted] using ha)
    exact ⟨1, r, h⟩
  | cont =>
    refine ⟨?_, fun bt ct h => by simp [accepted] at h⟩
    intro c σ _ ha hk hl _ _
    obtain ⟨r, h⟩ := doContinue_tm (σ := σ) hk hl (by simpa [accepted] using ha)
    exact ⟨1, r, h⟩
  | ret e =>
    refine ⟨?_, fun bt ct h => by simp [accepted] at h⟩
    intro c σ _ ha hk hl _ _
    obtain ⟨r, h⟩ := doReturn_tm (c := c) (σ := σ) (e := e)
    exact ⟨1, r, h⟩
  | seq s₁ s₂ i1 i2 =>
    refine ⟨?_, fun bt ct h => by simp [accepted] at h⟩
    intro c σ hc ha hk hl hi hw
    simp only [calmS, Bool.and_eq_true] at hc
    simp only [accepted, Bool.and_eq_true] at ha
    refine (i1.1 c σ hc.1 ha.1 hk hl.left hi hw).seq fun k σ₁ h1 => ?_
    have p := post_all k s₁ c hk hl.left _ _ _ hi h1
    refine i2.1 c σ₁ hc.2 ha.2 hk hl.right (hi.of_post p (by simp)) ?_
    rintro ⟨l, a, b⟩
    exact hw ⟨l, p.mono l a, b⟩
  | ite e coh pred s₁ s₂ i1 i2 =>
    refine ⟨?_, fun bt ct h => by simp [accepted] at h⟩
    intro c σ hc ha hk hl hi hw
    simp only [accepted, Bool.and_eq_true] at ha
    cases he : e.isUniform with
    | true =>
      simp only [calmS, he, Bool.not_true, Bool.false_and, Bool.false_or, Bool.and_eq_true] at hc
      by_cases ht : σ.evalU e ≠ 0
      · obtain ⟨k, r, h⟩ := i1.1 (c.pushIf true) σ hc.1 ha.1 (hk.pushIf true) (hl.ifU he).1 hi.pushIfU hw
        exact ⟨k + 1, r, by simp only [run, he, if_true]; rw [if_pos ht]; exact h⟩
      · obtain ⟨k, r, h⟩ := i2.1 (c.pushIf true) σ hc.2 ha.2 (hk.pushIf true) (hl.ifU he).2 hi.pushIfU hw
        exact ⟨k + 1, r, by simp only [run, he, if_true]; rw [if_neg ht]; exact h⟩
    | false =>
      have i1' : Inv (c.pushIf false) { σ with im := σ.im.and (σ.test e) } :=
        hi.sub (fun l h => by simp at h; exact h.1)
      have hno : ∀ (σ₁ : St n) m, (∀ l, m l = true → σ.im l = true) → ¬ Awake (c.pushIf false) { σ₁ with im := m } := by
        rintro σ₁ m hm ⟨l, a, b⟩
        exact hw ⟨l, hm l a, b⟩
      have hm1 : ∀ l, (σ.im.and (σ.test e)) l = true → σ.im l = true := fun l h => by simp at h; exact h.1
      have hm2 : ∀ l, (σ.im.andNot (σ.test e)) l = true → σ.im l = true := fun l h => by simp at h; exact h.1
      have pc : coh = false ∧ pred = true → calmS g s₁ = true ∧ calmS g s₂ = true := by
        rintro ⟨rfl, rfl⟩
        simpa [calmS, he] using hc
      have hv := varyingIf_tm (P := P) (c := c) (coh := coh) (pred := pred) (t := σ.test e) (s₁ := s₁) (s₂ := s₂)
        (σ := σ) l0
        (fun h => by
          rcases h with h | h
          · exact absurd h (hno σ _ hm1)
          · exact i1.1 _ _ (pc h).1 ha.1 (hk.pushIf false) (hl.ifV he).1 i1' (hno σ _ hm1))
        (fun k σ₁ hb h => by
          rcases h with h | h
          · exact absurd h (hno σ₁ _ hm2)
          · have sd := hb.side i1' (post_all k s₁ _ (hk.pushIf false) (hl.ifV he).1)
            exact i2.1 _ _ (pc h).2 ha.2 (hk.pushIf false) (hl.ifV he).2
              (sd.inv hi (fun l h => by simp at h; simp [h])) (hno σ₁ _ hm2))
      obtain ⟨k, r, h⟩ := hv
      exact ⟨k + 1, r, by simp only [run, he, Bool.false_eq_true, if_false]; exact h⟩
  | loop e coh st b _ _ =>
    refine ⟨?_, fun bt ct h => by simp [accepted] at h⟩
    intro c σ hc ha hk hl hi hw
    simp only [accepted, Bool.and_eq_true] at ha
    simp only [calmS, Bool.not_eq_true'] at hc
    have h1 : forV c e coh (run P 1 st) (run P 1 b) 1 { σ with brk := allOff, cont := allOff } = some (.normal,
        { σ with brk := allOff, cont := allOff, im := σ.im.and (σ.test e) }) := by
      have hn : (full c { σ with brk := allOff, cont := allOff, im := σ.im.and (σ.test e) }).any = false := by
        cases hx : (full c { σ with brk := allOff, cont := allOff, im := σ.im.and (σ.test e) }).any
        · rfl
        · obtain ⟨l, a, b⟩ := awake_iff.2 hx
          simp at a
          exact absurd ⟨l, a.1, b⟩ hw
      simp only [forV]
      rw [if_neg]
      · rfl
      · rw [show (σ.im.and ((({ σ with brk := allOff, cont := allOff } : St n)).test e)) = σ.im.and (σ.test e) from rfl]
        simp [hn]
    obtain ⟨r, hr⟩ := wrapLoop_tm (u := false) h1
    exact ⟨2, r, by simp only [run, ha.1.1, hc, Bool.not_true, Bool.false_eq_true, if_false]; exact hr⟩
  | doloop b e coh ib =>
    refine ⟨?_, fun bt ct h => by simp [accepted] at h⟩
    intro c σ hc ha hk hl hi hw
    simp only [accepted] at ha
    simp only [calmS, Bool.and_eq_true, Bool.not_eq_true'] at hc
    have hh := Head.of_inv false hi
    have hw' : ¬ Awake (c.pushLoop false (full c { σ with brk := allOff, cont := allOff })) { σ with brk := allOff, cont := allOff } := hw
    obtain ⟨k, ⟨o, σ₁⟩, h⟩ := ib.1 (c.pushLoop false (full c { σ with brk := allOff, cont := allOff }))
      { σ with brk := allOff, cont := allOff } hc.2 ha (.pushLoop c false _) (.loop c (fun h => by cases h)) hh.inv hw'
    have p := post_all k b _ (.pushLoop c false _) (.loop c (fun h => by cases h)) _ _ _ hh.inv h
    have hn : (full c { nextIter σ₁ with im := (nextIter σ₁).im.and ((nextIter σ₁).test e) }).any = false := by
      cases hx : (full c { nextIter σ₁ with im := (nextIter σ₁).im.and ((nextIter σ₁).test e) }).any
      · rfl
      · obtain ⟨l, a, b⟩ := awake_iff.2 hx
        simp [nextIter] at a
        exfalso
        rcases a.1 with a | a
        · exact hw ⟨l, p.mono l a, b⟩
        · cases him : σ.im l with
          | true => exact hw ⟨l, him, b⟩
          | false => rw [(p.offm l him).2.2.1] at a; cases a
    have h1 : ∃ r, doV c e coh (run P (k + 1) b) (k + 1) { σ with brk := allOff, cont := allOff } = some r := by
      simp only [doV, coherentBody_eq, run_mono (Nat.le_succ k) h]
      cases o <;> first | exact ⟨_, rfl⟩ | (simp only [hn, Bool.false_eq_true, if_false]; exact ⟨_, rfl⟩)
    obtain ⟨_, h1⟩ := h1
    obtain ⟨r, hr⟩ := wrapLoop_tm (u := false) h1
    exact ⟨k + 2, r, by simp only [run, hc.1, Bool.false_eq_true, if_false]; exact hr⟩
  | switch e b ib =>
    refine ⟨?_, fun bt ct h => by simp [accepted] at h⟩
    intro c σ hc ha hk hl hi hw
    simp only [accepted, Bool.and_eq_true] at ha
    simp only [calmS] at hc
    have hok := ha.1
    simp only [switchOk, Bool.and_eq_true, decide_eq_true_eq] at hok
    have mem := ((((ib.2 _ _ ha.2).and (members_accepted ha.2)).and (members_calm ha.2 hc)).and
      (members_sub (A := b.assigned) ha.2 (fun _ h => h)))
    cases he : e.isUniform with
    | true =>
      cases hse : switchEntry (σ.evalU e) b with
      | none =>
        obtain ⟨r, h⟩ := doSwitch_none (c := c) (x := fun c s σ => run P 1 s c σ) he hse
        exact ⟨2, r, by simp only [run, ha.1, if_true]; exact h⟩
      | some ch =>
        have mem := (mem.and (members_vbc (u := !hasVBC 0 b) ha.2 (fun h => by simpa using h))).switchEntry hse
        have mm := mem.imp (R := fun t => (∀ k, Good b.assigned (c.pushSwitch (!hasVBC 0 b) true (full c σ)) (run P k t)) ∧
            ∀ σ', Inv (c.pushSwitch (!hasVBC 0 b) true (full c σ)) σ' →
              ¬ Awake (c.pushSwitch (!hasVBC 0 b) true (full c σ)) σ' →
              Tm P t (c.pushSwitch (!hasVBC 0 b) true (full c σ)) σ') (by
          rintro t ⟨⟨⟨⟨q1, q2⟩, q3⟩, q4⟩, q5⟩
          refine ⟨fun k σ o σ' hi h => ?_, fun σ' hi' hw' => ?_⟩
          · exact (post_all k t _ (.pushSwitch c _ _ _ (fun _ => rfl)) (.switch c q5) _ _ _ hi h).weaken q4
          · exact q1 _ _ q3 q2 (.pushSwitch c _ _ _ (fun _ => rfl)) (.switch c q5) hi' hw')
        obtain ⟨k, ⟨o, σ'⟩, h⟩ := segsU_calm mm (hi.pushSwitchU (!hasVBC 0 b)) hw
        obtain ⟨r, h'⟩ := doSwitch_tmU (x := fun c s σ => run P k s c σ) he hse h (segsU_jl rfl h)
        exact ⟨k + 1, r, by simp only [run, ha.1, if_true]; exact h'⟩
    | false =>
      have mm := mem.imp (R := fun t => (∀ k, Good b.assigned (c.pushSwitch false false (full c σ)) (run P k t)) ∧
          ∀ σ', Inv (c.pushSwitch false false (full c σ)) σ' →
            ¬ Awake (c.pushSwitch false false (full c σ)) σ' →
            Tm P t (c.pushSwitch false false (full c σ)) σ') (by
        rintro t ⟨⟨⟨q1, q2⟩, q3⟩, q4⟩
        refine ⟨fun k σ o σ' hi h => ?_, fun σ' hi' hw' => ?_⟩
        · exact (post_all k t _ (.pushSwitch c _ _ _ (fun h => by cases h)) (.switch c (fun h => by cases h))
            _ _ _ hi h).weaken q4
        · exact q1 _ _ q3 q2 (.pushSwitch c _ _ _ (fun h => by cases h)) (.switch c (fun h => by cases h)) hi' hw')
      obtain ⟨k, ⟨o, σ'⟩, h⟩ := segsV_calm (VSw.push c σ)
        (fun l hl => by
          cases hf : c.fm l with
          | false => exact hf
          | true => exact absurd ⟨l, hl, hf⟩ hw) mm ⟨hok.1.2, fun _ h => h, hok.2⟩
        (SegInv.init hi (fun l => σ.eval e l) (caseVals b) b)
      obtain ⟨r, h'⟩ := doSwitch_tmV (x := fun c s σ => run P k s c σ) he h (segsV_jl rfl h)
      exact ⟨k + 1, r, by simp only [run, ha.1, if_true]; exact h'⟩
  | seg lab chk s r i1 i2 =>
    refine ⟨fun c σ _ ha => by simp [accepted] at ha, fun bt ct h => ?_⟩
    simp only [accepted, Bool.and_eq_true] at h
    exact ⟨i1.1, i2.2 bt ct h.2⟩
  | call dst f us vs =>
    refine ⟨?_, fun bt ct h => by simp [accepted] at h⟩
    intro c σ hc ha hk hl hi hw
    obtain ⟨d', hd', hb⟩ := hgf f hc
    refine Tm.call (ihd d' hd' (P f).body _ _ hb (hA f) (.enter _) (.none rfl) enter_inv ?_)
    rintro ⟨l, _, b⟩
    simp [enterCtx] at b
    exact hw ⟨l, b.1, b.2⟩

end Ispc.Spmd
