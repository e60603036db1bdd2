import Verif.Spmd.Props

/-!
# Theorems about the execution mask: C02, C03, C04, C05, C10, C11
-/

namespace Ispc.Spmd

variable {n : Nat}

/-- Configurations in which a statement `s` may be about to run.  It holds on entry to a function
(`entry_running`), and `Inv` is what every statement preserves (`running_preserved`). -/
structure Running (c : Ctx n) (σ : St n) (s : Stmt) : Prop where
  ctx : CtxOk c
  legal : Legal c.cf s
  inv : Inv c σ

/-- A function may be entered with any mask and any memory. -/
theorem entry_running (m : Mask n) (u : Nat → Int) (loc ext : Fin n → Nat → Int → Int) (s : Stmt) :
    Running (enterCtx m) (entrySt u loc ext) s := ⟨.enter m, .none rfl, entry_inv m u loc ext⟩

/-- After a statement finishes, its successor may run. -/
theorem running_preserved {P : Prog} {k : Nat} {c : Ctx n} {σ s σ'} (h : Running c σ s)
    (hr : run P k s c σ = some (.normal, σ')) {s'} (hl : Legal c.cf s') : Running c σ' s' :=
  ⟨h.ctx, hl, h.inv.of_post (post_all k s c h.ctx h.legal _ _ _ h.inv hr) (by simp)⟩

/-! ## C02 -/

/-- **C02**, calls: the memory of an instance that is not in the mask of the call is unmodified. No assumption
on the program. -/
theorem inactive_instance_unmodified {P : Prog} {k f : Nat} {m : Mask n} {u loc ext ext' rv}
    (h : gangCall P k f m u loc ext = some (ext', rv)) (l : Fin n) (hl : m l = false) :
    ext' l = ext l := by
  obtain ⟨o, σ', hr, -, rfl, rfl⟩ := gangCall_some h
  have p := post_all k (P f).body _ (.enter m) (.none rfl) _ _ _ (entry_inv m u loc ext) hr
  exact (p.offf l (Or.inr hl)).1

/-- **C02**, statements: a statement changes neither the variables, nor the memory, nor the return value, nor the
returned status of an instance whose mask bit is off. -/
theorem masked_off_instance_untouched {P : Prog} {k : Nat} {c : Ctx n} {σ s o σ'} (h : Running c σ s)
    (hr : run P k s c σ = some (o, σ')) (l : Fin n) (hl : σ.im l = false) :
    σ'.loc l = σ.loc l ∧ σ'.ext l = σ.ext l ∧ σ'.rv l = σ.rv l ∧ σ'.ret l = σ.ret l ∧ σ'.im l = false := by
  have p := post_all k s c h.ctx h.legal _ _ _ h.inv hr
  obtain ⟨a, b, d, e, f⟩ := p.offm l hl
  exact ⟨f, (p.offf l (Or.inl hl)).1, e, a, p.imoff hl⟩

/-- **C02**, `if`: whatever `if (e) s` does, the instances whose test is false keep everything, and stay active. -/
theorem false_test_instance_untouched {P : Prog} {k : Nat} {c : Ctx n} {σ e coh pred s o σ'}
    (h : Running c σ (.ite e coh pred s .skip)) (he : e.isUniform = false)
    (hr : run P k (.ite e coh pred s .skip) c σ = some (o, σ')) (l : Fin n) (hl : full c σ l = true)
    (ht : σ.eval e l = 0) :
    σ'.loc l = σ.loc l ∧ σ'.ext l = σ.ext l ∧ σ'.rv l = σ.rv l ∧ σ'.ret l = σ.ret l ∧
      (o = .normal → σ'.im l = true) := by
  have p := post_all k _ c h.ctx h.legal _ _ _ h.inv hr
  cases k with
  | zero => simp [run] at hr
  | succ k =>
    simp only [full_apply, Bool.and_eq_true] at hl
    have htt : σ.test e l = false := by simp [St.test, ht]
    have pst := post_all (P := P) k s (c.pushIf false) (h.ctx.pushIf false) (h.legal.ifV he).1
    have hi1 : Inv (c.pushIf false) { σ with im := σ.im.and (σ.test e) } :=
      (h.inv.sub (m := σ.im.and (σ.test e)) (fun l h => by simp at h; exact h.1))
    have hskip : ∀ {m : Mask n} {σ₁ : St n} {o σ'}, Branch (c.pushIf false) m (run P k .skip) σ₁ o σ' →
        o = .normal ∧ ∃ m', σ' = { σ₁ with im := m' } := by
      intro m σ₁ o σ' hb
      cases hb with
      | ran hx =>
        cases k with
        | zero => simp [run] at hx
        | succ k => simp only [run, Option.some.injEq, Prod.mk.injEq] at hx; exact ⟨hx.1.symm, m, hx.2.symm⟩
      | skipped m' _ => exact ⟨rfl, m', rfl⟩
    simp only [run, he, Bool.false_eq_true, if_false] at hr
    have off : (σ.im.and (σ.test e)) l = false := by simp [htt]
    rcases varyingIf_cases hr with ⟨ho, b1⟩ | ⟨σ₁, b1, ⟨ho, b2⟩ | ⟨ho, σ₂, b2, rfl⟩⟩
    · have s1 := b1.side hi1 pst
      obtain ⟨a, b, d, e', f⟩ := s1.offm l off
      exact ⟨f, (s1.offf l (Or.inl off)).1, e', a, fun h => absurd h ho⟩
    · exact absurd (hskip b2).1 ho
    · have s1 := b1.side hi1 pst
      obtain ⟨a, b, d, e', f⟩ := s1.offm l off
      obtain ⟨-, m', rfl⟩ := hskip b2
      obtain ⟨r0, r1, r2, -⟩ := h.inv.act l hl.1 hl.2
      subst ho
      have sg : (endIf c σ.im { σ₁ with im := m' }).loc = σ₁.loc ∧ (endIf c σ.im { σ₁ with im := m' }).ext = σ₁.ext ∧
          (endIf c σ.im { σ₁ with im := m' }).rv = σ₁.rv ∧ (endIf c σ.im { σ₁ with im := m' }).ret = σ₁.ret := by
        unfold endIf restoreMask; simp only; split <;> exact ⟨rfl, rfl, rfl, rfl⟩
      obtain ⟨g1, g2, g3, g4⟩ := sg
      refine ⟨by rw [g1]; exact f, by rw [g2]; exact (s1.offf l (Or.inl off)).1, by rw [g3]; exact e',
        by rw [g4]; exact a, fun _ => ?_⟩
      rcases p.conv rfl l hl.1 hl.2 with hx | hx
      · exact hx
      · exfalso
        have : (endIf c σ.im { σ₁ with im := m' }).flag l = σ₁.flag l := by
          unfold endIf restoreMask St.flag; simp only; split <;> rfl
        rw [this] at hx
        simp [St.flag, a, b, d, r0, r1, r2] at hx

/-! ## C03 -/

/-- **C03**: when a statement ends, exactly those instances are active that were active before and have not
returned, nor done `break` or `continue` for the enclosing loop or switch: the gang is maximally converged. -/
theorem mask_after_statement {P : Prog} {k : Nat} {c : Ctx n} {σ s σ'} (h : Running c σ s)
    (hr : run P k s c σ = some (.normal, σ')) (l : Fin n) (hf : c.fm l = true) :
    σ'.im l = true ↔ σ.im l = true ∧ σ'.ret l = false ∧ σ'.brk l = false ∧ σ'.cont l = false := by
  have p := post_all k s c h.ctx h.legal _ _ _ h.inv hr
  constructor
  · intro hm
    obtain ⟨a, b, d⟩ := p.act l hm hf
    exact ⟨p.mono l hm, a, b, d⟩
  · rintro ⟨a, b, d, e⟩
    rcases p.conv rfl l a hf with hx | hx
    · exact hx
    · simp [St.flag, b, d, e] at hx

/-- Statements that handle their own `break`/`continue`. -/
def isLoopOrSwitch : Stmt → Bool
  | .loop _ _ _ _ => true
  | .doloop _ _ _ => true
  | .switch _ _ => true
  | _ => false

/-- **C03**, loops and switches: after the loop or switch, the active instances are those active before it minus
those that returned; whatever `break` and `continue` did inside is over. -/
theorem mask_after_loop_or_switch {P : Prog} {k : Nat} {c : Ctx n} {σ s σ'} (h : Running c σ s)
    (hs : isLoopOrSwitch s = true) (hr : run P k s c σ = some (.normal, σ')) (l : Fin n) (hf : c.fm l = true) :
    σ'.im l = true ↔ σ.im l = true ∧ σ'.ret l = false := by
  have hbc : σ'.brk = σ.brk ∧ σ'.cont = σ.cont := by
    have wl : ∀ {u} {σ : St n} {iter o σ'}, wrapLoop u σ iter = some (o, σ') → σ'.brk = σ.brk ∧ σ'.cont = σ.cont := by
      intro u σ iter o σ' hw
      obtain ⟨o₁, σ₁, -, -, rfl⟩ := wrapLoop_some hw
      split <;> exact ⟨rfl, rfl⟩
    cases k with
    | zero => simp [run] at hr
    | succ k =>
      cases s with
      | loop e coh st b =>
        simp only [run] at hr
        repeat' split at hr
        · cases hr
        all_goals exact wl hr
      | doloop b e coh =>
        simp only [run] at hr
        split at hr <;> exact wl hr
      | switch e b =>
        simp only [run] at hr
        split at hr
        · obtain ⟨r, -, ⟨-, h2, -⟩ | ⟨-, -, -, rfl⟩⟩ := doSwitch_some hr
          · cases h2
          · split <;> exact ⟨rfl, rfl⟩
        · cases hr
      | _ => simp [isLoopOrSwitch] at hs
  rw [mask_after_statement h hr l hf, hbc.1, hbc.2]
  constructor
  · rintro ⟨a, b, -, -⟩; exact ⟨a, b⟩
  · rintro ⟨a, b⟩
    obtain ⟨-, r1, r2, -⟩ := h.inv.act l a hf
    exact ⟨a, b, r1, r2⟩

/-- **C03**, whole functions: at every point of the top level of a function (after any prefix `s`), an instance
of the calling mask is active exactly if it has not returned. -/
theorem mask_at_top_level {P : Prog} {k : Nat} {m : Mask n} {u loc ext s σ'}
    (hr : run P k s (enterCtx m) (entrySt u loc ext) = some (.normal, σ')) (l : Fin n) (hl : m l = true) :
    σ'.im l = true ↔ σ'.ret l = false := by
  have h := entry_running m u loc ext s
  have p := post_all k s _ h.ctx h.legal _ _ _ h.inv hr
  obtain ⟨hb, hc⟩ := p.nu (enter_nearestU m) l
  rw [mask_after_statement h hr l hl]
  simp [hb, hc, entrySt]

/-- **C03** and the serial meaning: an instance is active after `s` exactly if its own serial execution of `s`
ends normally. Partial as C01 is. -/
theorem active_iff_serial_normal_partial {P : Prog} (hP : WfProg P) {k : Nat} {m : Mask n} {u loc ext s σ' D'}
    (hw : Wf s ∅ ∅ Set.univ D')
    (hr : run P k s (enterCtx m) (entrySt u loc ext) = some (.normal, σ')) (l : Fin n) (hl : m l = true) :
    σ'.im l = true ↔ ∃ ss', Exec P l s ⟨u, loc l, ext l⟩ .normal ss' := by
  have h := entry_running m u loc ext s
  have p := post_all k s _ h.ctx h.legal _ _ _ h.inv hr
  obtain ⟨hb, hc⟩ := p.nu (enter_nearestU m) l
  obtain ⟨so, ss', hx, -, hst⟩ := sim_all hP k s _ ∅ ∅ Set.univ D' h.ctx h.legal hw
    (fun h => absurd (enter_nearestU m) h) _ _ _ h.inv hr l ⟨u, loc l, ext l⟩ rfl hl (fun _ _ => rfl) ⟨rfl, rfl⟩
  constructor
  · intro hm
    obtain ⟨a, -, -⟩ := p.act l hm hl
    cases hst with
    | ret h => rcases h with h | h <;> simp_all
    | brk a b => rw [hb] at b; cases b
    | cont a b => rw [hc] at b; cases b
    | act a b d => exact ⟨_, hx⟩
    | actB a => cases a
    | actC a => cases a
  · rintro ⟨s₂, h2⟩
    obtain ⟨rfl, rfl⟩ := hx.det h2
    cases hst with
    | act a b d => exact b

/-! ## C04 -/

/-- **C04**, coherent statements: replacing `cif`, `cfor`, `cwhile`, `cdo` by their plain versions, and dropping
the all-on specialisation of function entry, changes nothing at all: same termination, memory, return values. -/
theorem coherent_variants_equivalent (hn : 0 < n) (P : Prog) (k f : Nat) (m : Mask n) (u loc ext) :
    gangCall (decohProg P) k f m u loc ext = gangCall P k f m u loc ext := by
  unfold gangCall
  simp only [funcBody_eq]
  rw [show (decohProg P f).body = decoh (P f).body from rfl, run_decoh hn]

/-- **C04**, all hints: two compilations of the same source that differ in coherent variants, in the predication
decision of any `if`, in the mask check of any switch label and in the entry check of any function, leave the same
memory for every instance and return the same values to the active ones, if both return.  Partial: `Wf` as in
C01, and termination (`predicated_loop_hangs` shows that predication may add a hang). -/
theorem hints_do_not_change_results_partial {P₁ P₂ : Prog} (h₁ : WfProg P₁) (h₂ : WfProg P₂)
    (hsame : plainProg P₁ = plainProg P₂) {k₁ k₂ f : Nat} {m : Mask n} {u loc ext e₁ r₁ e₂ r₂}
    (g₁ : gangCall P₁ k₁ f m u loc ext = some (e₁, r₁)) (g₂ : gangCall P₂ k₂ f m u loc ext = some (e₂, r₂)) :
    e₁ = e₂ ∧ ∀ l, m l = true → r₁ l = r₂ l := by
  have key : ∀ l, m l = true → e₁ l = e₂ l ∧ r₁ l = r₂ l := by
    intro l hl
    obtain ⟨o₁, s₁, x₁, y₁, z₁⟩ := (gang_matches_serial_partial h₁ g₁ l hl _ _).2 ⟨rfl, rfl⟩
    obtain ⟨o₂, s₂, x₂, y₂, z₂⟩ := (gang_matches_serial_partial h₂ g₂ l hl _ _).2 ⟨rfl, rfl⟩
    have q₁ := x₁.plain
    have q₂ := x₂.plain
    have hb : plain (P₁ f).body = plain (P₂ f).body := congrArg Func.body (congrFun hsame f)
    rw [hsame, hb] at q₁
    obtain ⟨rfl, rfl⟩ := q₁.det q₂
    rw [z₁] at z₂
    exact ⟨y₁.symm.trans y₂, by simpa using z₂⟩
  refine ⟨?_, fun l hl => (key l hl).2⟩
  funext l
  cases hl : m l with
  | true => exact (key l hl).1
  | false => rw [inactive_instance_unmodified g₁ l hl, inactive_instance_unmodified g₂ l hl]

/-! ## C05 -/

/-- `SafeToRunWithMaskAllOff` (ast.cpp:457-618) on this statement language: no assignment to a uniform variable,
no call (functions are not `__declspec(safe)` by default), no array access with a non-constant index. -/
def safeExpr : Expr → Bool
  | .vload _ _ (.const _) => true
  | .vload _ _ _ => false
  | .un _ e => safeExpr e
  | .bin _ a b => safeExpr a && safeExpr b
  | _ => true

/-- See `safeExpr`. -/
def safeAllOff : Stmt → Bool
  | .skip => true
  | .uassign _ _ => false
  | .vassign _ _ (.const _) e => safeExpr e
  | .vassign _ _ _ _ => false
  | .seq a b => safeAllOff a && safeAllOff b
  | .ite e _ _ a b => safeExpr e && safeAllOff a && safeAllOff b
  | .loop e _ st b => safeExpr e && safeAllOff st && safeAllOff b
  | .doloop b e _ => safeExpr e && safeAllOff b
  | .brk => true
  | .cont => true
  | .ret e => safeExpr e
  | .switch e b => safeExpr e && safeAllOff b
  | .seg _ _ s r => safeAllOff s && safeAllOff r
  | .call _ _ _ _ => false

theorem safe_assigned : ∀ s, safeAllOff s = true → s.assigned = ∅ := by
  intro s
  induction s with
  | uassign => intro h; simp [safeAllOff] at h
  | seq a b iha ihb => intro h; simp [safeAllOff] at h; simp [Stmt.assigned, iha h.1, ihb h.2]
  | ite e _ _ a b iha ihb => intro h; simp [safeAllOff] at h; simp [Stmt.assigned, iha h.1.2, ihb h.2]
  | loop e _ a b iha ihb => intro h; simp [safeAllOff] at h; simp [Stmt.assigned, iha h.1.2, ihb h.2]
  | doloop b e _ ih => intro h; simp [safeAllOff] at h; simp [Stmt.assigned, ih h.2]
  | switch e b ih => intro h; simp [safeAllOff] at h; simp [Stmt.assigned, ih h.2]
  | seg _ _ a b iha ihb => intro h; simp [safeAllOff] at h; simp [Stmt.assigned, iha h.1, ihb h.2]
  | _ => intro _; rfl

/-- **C05**, predicated code: a statement judged safe and executed with no active instance changes nothing: no
uniform variable, no memory, and no instance of the gang. -/
theorem safe_code_with_mask_off_changes_nothing {P : Prog} {k : Nat} {c : Ctx n} {σ s o σ'} (h : Running c σ s)
    (hs : safeAllOff s = true) (hoff : ∀ l, full c σ l = false) (hr : run P k s c σ = some (o, σ')) :
    σ'.u = σ.u ∧ σ'.ext = σ.ext ∧ σ'.ret = σ.ret ∧
      ∀ l, c.fm l = true → σ'.loc l = σ.loc l ∧ σ'.rv l = σ.rv l := by
  have p := post_all k s c h.ctx h.legal _ _ _ h.inv hr
  have off : ∀ l, σ.im l = false ∨ c.fm l = false := fun l => by have := hoff l; cases h : σ.im l <;> simp_all
  refine ⟨?_, ?_, ?_, ?_⟩
  · funext x; exact p.frame x (by rw [safe_assigned s hs]; simp)
  · funext l; exact (p.offf l (off l)).1
  · funext l; exact (p.offf l (off l)).2
  · intro l hf
    have : σ.im l = false := by rcases off l with h | h; exact h; rw [hf] at h; cases h
    obtain ⟨a, b, d, e, f⟩ := p.offm l this
    exact ⟨f, e⟩

/-- **C05**, `if`s that are not predicated: when no active instance takes the true (resp. false) side, that side
is not executed at all: any other statement could stand there. -/
theorem untaken_side_not_executed (hn : 0 < n) {P : Prog} {k : Nat} {c : Ctx n} {σ : St n} {e coh s₁ s₂}
    (he : e.isUniform = false) :
    ((∀ l, full c σ l = true → σ.eval e l = 0) → ∀ s₁',
      run P (k + 1) (.ite e coh false s₁ s₂) c σ = run P (k + 1) (.ite e coh false s₁' s₂) c σ) ∧
    ((∀ l, full c σ l = true → σ.eval e l ≠ 0) → ∀ s₂',
      run P (k + 1) (.ite e coh false s₁ s₂) c σ = run P (k + 1) (.ite e coh false s₁ s₂') c σ) := by
  simp only [run, he, Bool.false_eq_true, if_false]
  have hm : ∀ st sf, varyingIf c coh false (σ.test e) st sf σ = maskMixed c (σ.test e) st sf σ := by
    intro st sf
    rw [← varyingIf_decoh hn]
    simp [varyingIf]
  simp only [hm]
  constructor
  · intro hno s₁'
    have h0 : (full (c.pushIf false) { σ with im := σ.im.and (σ.test e) }).any = false := by
      simp only [Mask.any, decide_eq_false_iff_not, not_exists]
      intro l hl
      have hl' : (σ.im l && σ.test e l && c.fm l) = true := hl
      simp only [Bool.and_eq_true] at hl'
      have := hno l (by simp [hl'.1.1, hl'.2])
      simp [St.test, this] at hl'
    simp only [maskMixed, h0, Bool.false_eq_true, if_false]
  · intro hno s₂'
    have h0 : ∀ σ₁ : St n, (full (c.pushIf false) { σ₁ with im := σ.im.andNot (σ.test e) }).any = false := by
      intro σ₁
      simp only [Mask.any, decide_eq_false_iff_not, not_exists]
      intro l hl
      have hl' : (σ.im l && !σ.test e l && c.fm l) = true := hl
      simp only [Bool.and_eq_true] at hl'
      have := hno l (by simp [hl'.1.1, hl'.2])
      simp [St.test, this] at hl'
    simp only [maskMixed, h0, Bool.false_eq_true, if_false]

/-- **C05**, every `if` (predicated only if judged safe): a uniform variable can only be changed by a side that
some active instance takes. -/
theorem untaken_side_has_no_uniform_effect (hn : 0 < n) {P : Prog} {k : Nat} {c : Ctx n} {σ e coh pred s₁ s₂ o σ'}
    (h : Running c σ (.ite e coh pred s₁ s₂)) (he : e.isUniform = false)
    (hpred : pred = true → safeAllOff s₁ = true ∧ safeAllOff s₂ = true)
    (hr : run P k (.ite e coh pred s₁ s₂) c σ = some (o, σ')) (x : Nat) (hx : σ'.u x ≠ σ.u x) :
    (x ∈ s₁.assigned ∧ ∃ l, full c σ l = true ∧ σ.eval e l ≠ 0) ∨
    (x ∈ s₂.assigned ∧ ∃ l, full c σ l = true ∧ σ.eval e l = 0) := by
  have lg := h.legal
  cases pred with
  | true =>
    exfalso
    have p := post_all k _ c h.ctx h.legal _ _ _ h.inv hr
    obtain ⟨a, b⟩ := hpred rfl
    exact hx (p.frame x (by simp [Stmt.assigned, safe_assigned _ a, safe_assigned _ b]))
  | false =>
    cases k with
    | zero => simp [run] at hr
    | succ k =>
      obtain ⟨l1, l2⟩ := lg.ifV he
      have mk : ∀ a b, Legal (c.pushIf false).cf a → Legal (c.pushIf false).cf b →
          Legal c.cf (.ite e coh false a b) := by
        intro a b ha hb y hy hu
        have h1 := ha y hy hu
        have h2 := hb y hy hu
        have hv : vifs (c.pushIf false).cf = vifs c.cf + 1 := by simp [Ctx.pushIf, vifs]; omega
        rw [hv] at h1 h2
        simp [hasVBC, he, h1, h2]
      have lsk : Legal (c.pushIf false).cf .skip := fun _ _ _ => rfl
      by_cases t1 : ∃ l, full c σ l = true ∧ σ.eval e l ≠ 0
      · by_cases t2 : ∃ l, full c σ l = true ∧ σ.eval e l = 0
        · have p := post_all (k + 1) _ c h.ctx h.legal _ _ _ h.inv hr
          have : x ∈ (Stmt.ite e coh false s₁ s₂).assigned := by
            by_contra hc; exact hx (p.frame x hc)
          rcases this with h | h
          · exact Or.inl ⟨h, t1⟩
          · exact Or.inr ⟨h, t2⟩
        · have e2 := (untaken_side_not_executed hn (P := P) (k := k) (s₁ := s₁) (s₂ := s₂) (coh := coh) he).2
            (fun l hl hz => t2 ⟨l, hl, hz⟩) .skip
          rw [e2] at hr
          have p := post_all (k + 1) _ c h.ctx (mk _ _ l1 lsk) _ _ _ h.inv hr
          refine Or.inl ⟨?_, t1⟩
          by_contra hc; exact hx (p.frame x (by simpa [Stmt.assigned] using hc))
      · have e1 := (untaken_side_not_executed hn (P := P) (k := k) (s₁ := s₁) (s₂ := s₂) (coh := coh) he).1
          (fun l hl => by by_contra hz; exact t1 ⟨l, hl, hz⟩) .skip
        by_cases t2 : ∃ l, full c σ l = true ∧ σ.eval e l = 0
        · rw [e1] at hr
          have p := post_all (k + 1) _ c h.ctx (mk _ _ lsk l2) _ _ _ h.inv hr
          refine Or.inr ⟨?_, t2⟩
          by_contra hc; exact hx (p.frame x (by simpa [Stmt.assigned] using hc))
        · exfalso
          have e2 := (untaken_side_not_executed hn (P := P) (k := k) (s₁ := .skip) (s₂ := s₂) (coh := coh) he).2
            (fun l hl hz => t2 ⟨l, hl, hz⟩) .skip
          rw [e1, e2] at hr
          have p := post_all (k + 1) _ c h.ctx (mk _ _ lsk lsk) _ _ _ h.inv hr
          exact hx (p.frame x (by simp [Stmt.assigned]))

/-- **C05**, loops: when no active instance passes the test of a loop with a varying test, neither its body nor
its step is executed. -/
theorem loop_not_entered {P : Prog} {k : Nat} {c : Ctx n} {σ e coh st b}
    (hu : loopUnif e b = false) (hst : isSimple st = true)
    (hno : ∀ l, full c σ l = true → σ.eval e l = 0) :
    ∃ im', run P (k + 2) (.loop e coh st b) c σ = some (.normal, { σ with im := im' }) := by
  have h0 : (full c { σ with brk := allOff, cont := allOff, im := σ.im.and (σ.test e) }).any = false := by
    simp only [Mask.any, decide_eq_false_iff_not, not_exists]
    intro l hl
    have hl' : (σ.im l && σ.test e l && c.fm l) = true := hl
    simp only [Bool.and_eq_true] at hl'
    have := hno l (by simp [hl'.1.1, hl'.2])
    simp [St.test, this] at hl'
  refine ⟨σ.im.andNot σ.ret, ?_⟩
  simp only [run, hst, hu, wrapLoop, forV]
  have et : ({ σ with brk := allOff, cont := allOff } : St n).test e = σ.test e := rfl
  simp [et, h0, restoreMask]

/-- `if (programIndex) u = 7;` at function entry, gang of 2. -/
example : ∃ σ', run demoProg 5 (.ite .lane false false (.uassign 3 (.const 7)) .skip) (enterCtx (allOn : Mask 2))
    (entrySt (fun _ => 0) (fun _ _ _ => 0) (fun _ _ _ => 0)) = some (.normal, σ') ∧ σ'.u 3 ≠ 0 := ⟨_, rfl, by decide⟩

/-- `u = 0; switch (x) { case 1: u = 5; } return u;` -/
def switchLeakBody : Stmt :=
  .seq (.switch (lv 0) (.seg (some 1) true (.uassign 0 (.const 5)) .skip)) (.ret (.uvar 0))

/-- Finding: the mask check at a `case` label tests the *internal* mask only (`addSwitchMaskCheck(newMask)`,
ctx.cpp:1153-1160), and the internal mask is all on when a function is entered with some instances off.  So an
instance that is not running can make a `case` run: here only instance 0 is active and its value matches no
label, yet the uniform assignment in `case 1` is executed because the inactive instance 1 holds the value 1. -/
theorem switch_case_runs_for_inactive_instance :
    let P : Prog := fun _ => ⟨switchLeakBody, false⟩
    let m : Mask 2 := fun l => decide (l = 0)
    let loc : Fin 2 → Nat → Int → Int := fun l _ _ => l.val
    ∃ ext' rv, gangCall P 20 0 m (fun _ => 0) loc (fun _ _ _ => 0) = some (ext', rv) ∧ rv 0 = 5 ∧
      ∃ e, SerialCall P 0 0 (fun _ => 0) (loc 0) (fun _ _ => 0) e 0 := by
  intro P m loc
  exact ⟨_, _, rfl, rfl, _, .ret 0, _, .seqN (.switchNone rfl) .ret, rfl, rfl⟩

/-- `if (programIndex > 100) while (true);` compiled to straight-line code, then `return 1`. -/
def predHangBody (pred : Bool) : Stmt :=
  .seq (.ite (.un (fun a => if a > 100 then 1 else 0) .lane) false pred (.loop (.const 1) false .skip .skip) .skip)
    (.ret (.const 1))

/-- Finding: the safety analysis lets an `if` whose body is a loop with a uniform condition be predicated
(nothing in `lCheckAllOffSafety` rejects loops), so the loop runs with no active instance and may never end, while
without predication the gang returns, as does every instance run serially. -/
theorem predicated_loop_hangs :
    (∀ k, gangCall (n := 2) (fun _ => ⟨predHangBody true, false⟩) k 0 allOn (fun _ => 0) (fun _ _ _ => 0)
      (fun _ _ _ => 0) = none) ∧
    (∃ r, gangCall (n := 2) (fun _ => ⟨predHangBody false, false⟩) 9 0 allOn (fun _ => 0) (fun _ _ _ => 0)
      (fun _ _ _ => 0) = some r) ∧
    safeAllOff (.loop (.const 1) false .skip .skip) = true := by
  refine ⟨?_, ⟨_, rfl⟩, rfl⟩
  intro k
  generalize hP : (fun _ => ⟨predHangBody true, false⟩ : Prog) = P
  have loop : ∀ k j (c : Ctx 2) (σ : St 2), forU c (.const 1) (run P k .skip) (run P k .skip) j σ = none := by
    intro k j
    induction j with
    | zero => intros; rfl
    | succ j ih =>
      intro c σ
      cases k with
      | zero => simp [forU, St.evalU, Expr.eval, run]
      | succ k =>
        have ht : σ.evalU (.const 1) ≠ 0 := by simp [St.evalU, Expr.eval]
        have hs : ∀ c' (σ : St 2), run P (k + 1) .skip c' σ = some (.normal, σ) := fun _ _ => rfl
        simp only [forU]
        rw [if_pos ht, hs]
        simp only
        rw [hs]
        exact ih c σ
  have hl : ∀ k (c : Ctx 2) σ, run P k (.loop (.const 1) false .skip .skip) c σ = none := by
    intro k c σ
    cases k with
    | zero => rfl
    | succ k =>
      have := loop k k c { σ with brk := allOff, cont := allOff }
      simp only [run, isSimple, loopUnif, Expr.isUniform, hasVBC, wrapLoop]
      simp [this]
  have hb : run P k (predHangBody true) (enterCtx allOn)
      (entrySt (n := 2) (fun _ => 0) (fun _ _ _ => 0) (fun _ _ _ => 0)) = none := by
    match k with
    | 0 => rfl
    | 1 => rfl
    | k + 2 =>
      show andThen (varyingIf (enterCtx allOn) false true _ (run P k _) (run P k .skip) _) _ = none
      simp only [varyingIf, maskedBoth, Bool.false_eq_true, if_false, if_true, hl]
      rfl
  unfold gangCall
  simp only [funcBody_eq]
  rw [show (P 0).body = predHangBody true by rw [← hP], hb]

end Ispc.Spmd
