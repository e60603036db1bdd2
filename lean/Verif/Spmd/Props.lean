import Verif.Spmd.SimAll
import Verif.Spmd.Coherent
import Verif.Spmd.Det

/-!
# Theorems about masked control flow: C01, C02, C03, C04, C05, C10, C11

The gang side is `gangCall`: call the compiled function with an execution mask and look at the memory and the
return values afterwards.  The specification side is `SerialCall`: one program instance executes the source as
ordinary serial code.
-/

namespace Ispc.Spmd

variable {n : Nat}

/-- State at the start of a function activation: parameters and locals given by `u` and `loc`, memory outside of
the function by `ext`; the internal mask is all on and no lane has returned (ctx.cpp:225-420). -/
def entrySt (u : Nat → Int) (loc ext : Fin n → Nat → Int → Int) : St n where
  u := u
  loc := loc
  ext := ext
  im := allOn
  ret := allOff
  brk := allOff
  cont := allOff
  rv := fun _ => 0

/-- Call compiled function `f` with execution mask `m`: final external memory and return values, or `none` if
it does not finish within the fuel `k` (or does not compile). -/
def gangCall (P : Prog) (k f : Nat) (m : Mask n) (u : Nat → Int) (loc ext : Fin n → Nat → Int → Int) :
    Option ((Fin n → Nat → Int → Int) × (Fin n → Int)) :=
  match funcBody (P f).checkMask m (run P k (P f).body) (entrySt u loc ext) with
  | some (.normal, σ') | some (.ret, σ') => some (σ'.ext, σ'.rv)
  | _ => none

/-- Program instance `l` alone calls `f` as serial C code: it leaves memory `ext'` and returns `v`. -/
def SerialCall (P : Prog) (l f : Nat) (u : Nat → Int) (loc ext ext' : Nat → Int → Int) (v : Int) : Prop :=
  ∃ o s', Exec P l (P f).body ⟨u, loc, ext⟩ o s' ∧ s'.ext = ext' ∧ o.result = some v

theorem entry_inv (m : Mask n) (u : Nat → Int) (loc ext : Fin n → Nat → Int → Int) :
    Inv (enterCtx m) (entrySt u loc ext) :=
  ⟨fun _ h => h, fun l _ h2 => ⟨rfl, rfl, rfl, h2⟩, fun _ _ _ => Or.inl rfl, fun _ _ _ => Or.inl rfl,
    fun _ _ => ⟨rfl, rfl⟩, fun _ _ => rfl, fun _ _ => rfl, fun _ _ => by simp [entrySt]⟩

theorem enter_nearestU (m : Mask n) : nearestU (enterCtx m).cf := fun x hx => by simp [enterCtx, nearest] at hx

theorem gangCall_some {P : Prog} {k f : Nat} {m : Mask n} {u loc ext ext' rv}
    (h : gangCall P k f m u loc ext = some (ext', rv)) :
    ∃ o σ', run P k (P f).body (enterCtx m) (entrySt u loc ext) = some (o, σ') ∧ (o = .normal ∨ o = .ret) ∧
      ext' = σ'.ext ∧ rv = σ'.rv := by
  unfold gangCall at h
  rw [funcBody_eq] at h
  split at h
  · rename_i σ' h1
    simp only [Option.some.injEq, Prod.mk.injEq] at h
    exact ⟨_, σ', h1, Or.inl rfl, h.1.symm, h.2.symm⟩
  · rename_i σ' h1
    simp only [Option.some.injEq, Prod.mk.injEq] at h
    exact ⟨_, σ', h1, Or.inr rfl, h.1.symm, h.2.symm⟩
  · cases h

/-! ## C01 -/

/-- **C01**: when the compiled function returns, every program instance that was active at the call has exactly
the memory and the return value that it gets by executing the function alone, as serial code; and there is no
other serial result.  Holds for every gang width, mask, input, nesting of control flow and recursion depth.
Partial: programs must follow the `Wf` discipline on uniform variables (needed: they are shared), which also
excludes the loops of `break_after_varying_continue_loses_lanes`; and the call must return
(`gang_hangs_where_serial_returns` shows that it need not). -/
theorem gang_matches_serial_partial {P : Prog} (hP : WfProg P) {k f : Nat} {m : Mask n} {u loc ext ext' rv}
    (h : gangCall P k f m u loc ext = some (ext', rv)) (l : Fin n) (hl : m l = true) (e : Nat → Int → Int) (v : Int) :
    SerialCall P l f u (loc l) (ext l) e v ↔ e = ext' l ∧ v = rv l := by
  obtain ⟨o, σ', hr, ho, rfl, rfl⟩ := gangCall_some h
  have hi := entry_inv m u loc ext
  have p := post_all k (P f).body _ (.enter m) (.none rfl) _ _ _ hi hr
  have hnu := p.nu (enter_nearestU m) l
  obtain ⟨so, ss', hx, hm', hst⟩ := sim_all hP k (P f).body _ ∅ ∅ Set.univ ∅ (.enter _) (.none rfl) (hP f)
    (fun h => absurd (enter_nearestU m) h) _ _ _ hi hr l ⟨u, loc l, ext l⟩ rfl hl (fun _ _ => rfl) ⟨rfl, rfl⟩
  have res : so.result = some (σ'.rv l) := by
    cases hst with
    | ret h => rfl
    | brk a b => rw [hnu.1] at b; cases b
    | cont a b => rw [hnu.2] at b; cases b
    | act a b d => rw [d]; rfl
    | actB a => subst a; simp at ho
    | actC a => subst a; simp at ho
  constructor
  · rintro ⟨o₂, s₂, hx₂, rfl, hr₂⟩
    obtain ⟨rfl, rfl⟩ := hx.det hx₂
    rw [res] at hr₂
    exact ⟨hm'.2, by simpa using hr₂.symm⟩
  · rintro ⟨rfl, rfl⟩
    exact ⟨so, ss', hx, hm'.2, res⟩

/-! A non-trivial instance of the hypotheses: a loop with a varying trip count, a varying `continue`, a varying
`return`, run by a gang of 3 with instance 1 off. -/

/-- local variable `a`, element 0 -/
abbrev lv (a : Nat) : Expr := .vload false a (.const 0)
/-- `if (i > 5) return 100; while (x < 3) { x++; if (x == 2) continue; g[0] = x + 10 * programIndex; } return x;` -/
def demoBody : Stmt :=
  .seq (.ite (.bin (fun a b => if a > b then 1 else 0) (lv 0) (.const 5)) true false (.ret (.const 100)) .skip)
  (.seq (.loop (.bin (fun a b => if a < b then 1 else 0) (lv 0) (.const 3)) true .skip
    (.seq (.vassign false 0 (.const 0) (.bin (· + ·) (lv 0) (.const 1)))
    (.seq (.ite (.bin (fun a b => if a = b then 1 else 0) (lv 0) (.const 2)) false true .cont .skip)
      (.vassign true 0 (.const 0) (.bin (fun x p => x + 10 * p) (lv 0) .lane)))))
  (.ret (lv 0)))

def demoProg : Prog := fun _ => ⟨demoBody, true⟩

theorem demo_wf : WfProg demoProg := by
  intro f
  refine ⟨Set.univ, ⟨by simp [Expr.uvars], Or.inr ⟨rfl, Set.univ, Set.univ, ?_, ?_, ?_, ?_, ?_⟩⟩, Set.univ, ?_, ?_⟩
  · simp [Wf, Expr.uvars]
  · simp [Wf]
    rfl
  · simp
  · simp
  · simp [Stmt.assigned]
  · refine ⟨Set.univ, Set.univ, by simp, by simp [Expr.uvars], ?_, by simp [Wf], by simp, ?_⟩
    · refine ⟨Set.univ, by simp [Wf, Expr.uvars], Set.univ, ⟨by simp [Expr.uvars], Or.inr ⟨rfl, Set.univ, Set.univ, ?_⟩⟩, ?_⟩
      · simp [Wf, Stmt.assigned]
      · simp [Wf, Expr.uvars]
    · intro _
      simp [Stmt.assigned, jumpBrk, varCont, Expr.isUniform]
  · simp [Wf, Expr.uvars]

example : WfProg demoProg ∧ ∃ ext' rv,
    gangCall demoProg 20 0 (fun l : Fin 3 => l.val != 1) (fun _ => 0) (fun l _ _ => if l.val = 0 then 0 else 7)
      (fun _ _ _ => 0) = some (ext', rv) ∧ ext' 0 0 0 = 3 ∧ rv 0 = 3 ∧ rv 2 = 100 :=
  ⟨demo_wf, _, _, rfl, rfl, rfl, rfl⟩

/-! ### Where the compiled code deviates from the serial meaning -/

/-- `while (n < 2) { n++; if (x) continue; break; } return n;` with `x` = local 0 and `n` = local 1. -/
def lostBody : Stmt :=
  .seq (.loop (.bin (fun a b => if a < b then 1 else 0) (lv 1) (.const 2)) false .skip
    (.seq (.vassign false 1 (.const 0) (.bin (· + ·) (lv 1) (.const 1)))
    (.seq (.ite (lv 0) false false .cont .skip) .brk)))
  (.ret (lv 1))

/-- Finding: a `break` that all running instances reach is compiled to a jump out of the loop even when other
instances did a `continue` in the same iteration (`FunctionEmitContext::Break`, ctx.cpp:695-701, does not look at
`continueLanesAddressInfo`); those instances leave the loop too.  Here instance 0 must return 2 but the gang
returns 1 for it. -/
theorem break_after_varying_continue_loses_lanes :
    let P : Prog := fun _ => ⟨lostBody, false⟩
    let loc : Fin 2 → Nat → Int → Int := fun l a _ => if a = 0 ∧ l.val = 0 then 1 else 0
    ∃ ext' rv, gangCall P 20 0 allOn (fun _ => 0) loc (fun _ _ _ => 0) = some (ext', rv) ∧ rv 0 = 1 ∧
      (∀ e v, SerialCall P 0 0 (fun _ => 0) (loc 0) (fun _ _ => 0) e v → v = 2) ∧
      (∃ e, SerialCall P 0 0 (fun _ => 0) (loc 0) (fun _ _ => 0) e 2) := by
  intro P loc
  have hx : ∃ s', Exec P 0 lostBody ⟨fun _ => 0, loc 0, fun _ _ => 0⟩ (.ret 2) s' := by
    refine ⟨_, .seqN (.loopStep (o₁ := .cont) ?_ (.seqN .vassign (.seqJ (.iteT ?_ .cont) (by simp))) (Or.inr rfl) .skip
      (.loopStep (o₁ := .cont) ?_ (.seqN .vassign (.seqJ (.iteT ?_ .cont) (by simp))) (Or.inr rfl) .skip
        (.loopDone ?_))) .ret⟩ <;>
    simp [SSt.eval, Expr.eval, SSt.mem, SSt.store, upd2, loc]
  obtain ⟨s', hx⟩ := hx
  refine ⟨_, _, rfl, rfl, ?_, s'.ext, _, s', hx, rfl, rfl⟩
  rintro e v ⟨o, s₂, h2, -, h3⟩
  obtain ⟨rfl, -⟩ := hx.det h2
  simpa [SOut.result] using h3.symm

/-- `if (programIndex == 0) { while (true) return 5; } return 7;` -/
def hangBody : Stmt :=
  .seq (.ite (.un (fun a => if a = 0 then 1 else 0) .lane) false false (.loop (.const 1) false .skip (.ret (.const 5))) .skip)
    (.ret (.const 7))

/-- Finding: a loop with a uniform condition that is left by `return` never ends when only some instances of the
gang entered it, because the returned instances are only masked off and the loop's condition is not varying
(ForStmt::EmitCode with `uniformTest`, stmt.cpp:1165-1324; CurrentLanesReturned, ctx.cpp:1284-1362).  No amount
of fuel makes the gang finish, although both program instances return when run serially. -/
theorem gang_hangs_where_serial_returns :
    let P : Prog := fun _ => ⟨hangBody, false⟩
    (∀ k, gangCall (n := 2) P k 0 allOn (fun _ => 0) (fun _ _ _ => 0) (fun _ _ _ => 0) = none) ∧
    (∃ e, SerialCall P 0 0 (fun _ => 0) (fun _ _ => 0) (fun _ _ => 0) e 5) ∧
    (∃ e, SerialCall P 1 0 (fun _ => 0) (fun _ _ => 0) (fun _ _ => 0) e 7) := by
  intro P
  refine ⟨?_, ?_, ?_⟩
  · intro k
    have key : ∀ k j (c : Ctx 2) (σ : St 2), c.fm = allOn → vdepth c.cf ≠ 0 → σ.ret 1 = false → σ.im 1 = false →
        forU c (.const 1) (run P k .skip) (run P k (.ret (.const 5))) j σ = none := by
      intro k j
      induction j with
      | zero => intros; rfl
      | succ j ih =>
        intro c σ hf hd hr hm
        cases k with
        | zero => simp [forU, St.evalU, Expr.eval, run]
        | succ k =>
          have hne : (allOn : Mask 2).equal (σ.ret.or (full (c.pushLoop true (full c σ)) σ)) = false := by
            simp only [Mask.equal, decide_eq_false_iff_not, not_forall]
            exact ⟨1, by simp [hr, hm]⟩
          have hd' : vdepth (c.pushLoop true (full c σ)).cf ≠ 0 := by simpa [Ctx.pushLoop, vdepth] using hd
          have hf' : (c.pushLoop true (full c σ)).fm = allOn := hf
          have hb : ∃ σ', run P (k + 1) (.ret (.const 5)) (c.pushLoop true (full c σ)) σ = some (.normal, σ') ∧
              σ'.ret 1 = false ∧ σ'.im 1 = false := by
            refine ⟨{ σ with
              rv := fun l => if σ.im l then σ.eval (.const 5) l else σ.rv l
              ret := σ.ret.or (full (c.pushLoop true (full c σ)) σ)
              im := allOff }, ?_, by simp [hr, hm], rfl⟩
            simp only [run, doReturn, hd', if_false, hf']
            split
            · rename_i h; exact absurd (h.symm.trans hne) (by simp)
            · rfl
          obtain ⟨σ', hb, h1, h2⟩ := hb
          have hs : run P (k + 1) .skip (c.pushLoop true (full c σ)) σ' = some (.normal, σ') := rfl
          have ht : σ.evalU (.const 1) ≠ 0 := by simp [St.evalU, Expr.eval]
          simp only [forU]
          rw [if_pos ht, hb]
          simp only
          rw [hs]
          exact ih c σ' hf hd h1 h2
    have run0 : run P k hangBody (enterCtx allOn) (entrySt (n := 2) (fun _ => 0) (fun _ _ _ => 0) (fun _ _ _ => 0)) = none := by
      match k with
      | 0 => rfl
      | 1 => rfl
      | 2 => rfl
      | k + 3 =>
        have e1 : ∀ c σ, σ.ret 1 = false → σ.im 1 = false → vdepth c.cf ≠ 0 → c.fm = (allOn : Mask 2) →
            run P (k + 1) (.loop (.const 1) false .skip (.ret (.const 5))) c σ = none := by
          intro c σ h1 h2 h3 h4
          have := key k k c { σ with brk := allOff, cont := allOff } h4 h3 h1 h2
          simp only [run, isSimple, loopUnif, Expr.isUniform, hasVBC, wrapLoop]
          simp [this]
        have hany : ∀ σ : St 2, σ.im = (fun l => decide (l = 0)) →
            (full ((enterCtx (allOn : Mask 2)).pushIf false) σ).any = true := by
          intro σ h; simp only [Mask.any, decide_eq_true_eq]; exact ⟨0, by simp [h, enterCtx, Ctx.pushIf]⟩
        show andThen (run P (k + 2) (.ite _ false false _ .skip) _ _) _ = none
        have : run P (k + 2) (.ite (.un (fun a => if a = 0 then 1 else 0) .lane) false false
            (.loop (.const 1) false .skip (.ret (.const 5))) .skip) (enterCtx allOn)
            (entrySt (n := 2) (fun _ => 0) (fun _ _ _ => 0) (fun _ _ _ => 0)) = none := by
          show varyingIf (enterCtx allOn) false false _ (run P (k + 1) _) (run P (k + 1) .skip) _ = none
          simp only [varyingIf, maskMixed, Bool.false_eq_true, if_false]
          rw [if_pos (hany _ (by funext l; match l with | 0 => rfl | 1 => rfl))]
          rw [e1]
          · rfl
          · rfl
          · simp [entrySt, St.test, St.eval, Expr.eval]
          · simp [vdepth, Ctx.pushIf, enterCtx]
          · rfl
        rw [this]; rfl
    simp only [gangCall, funcBody_eq, P] at *
    rw [run0]
  · refine ⟨_, .ret 5, _, .seqJ (.iteT ?_ (.loopRet ?_ .ret)) (by simp), rfl, rfl⟩ <;>
    simp [SSt.eval, Expr.eval]
  · refine ⟨_, .ret 7, _, .seqN (.iteF ?_ .skip) .ret, rfl, rfl⟩
    simp [SSt.eval, Expr.eval]

end Ispc.Spmd
