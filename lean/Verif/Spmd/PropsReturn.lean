import Verif.Spmd.Returns
import Verif.Spmd.Props

/-!
# C01: the gang returns, with the serial results

`gang_matches_serial_partial` (Props.lean) says that a call that returns has the results of serial execution.
Here: the call does return whenever every active program instance returns when run alone, for programs that pass
a syntactic check (`live`, Terminate.lean) that no loop with a uniform condition is reached with every instance
off.  `gang_hangs_where_serial_returns` (Props.lean) shows that without such a check the claim is false.
-/

namespace Ispc.Spmd

variable {n : Nat}

theorem gangCall_of_run {P : Prog} {k f} {m : Mask n} {u loc ext o σ'}
    (h : run P k (P f).body (enterCtx m) (entrySt u loc ext) = some (o, σ')) (ho : o = .normal ∨ o = .ret) :
    gangCall P k f m u loc ext = some (σ'.ext, σ'.rv) := by
  unfold gangCall
  have e : funcBody (P f).checkMask m (run P k (P f).body) (entrySt u loc ext)
      = run P k (P f).body (enterCtx m) (entrySt u loc ext) := funcBody_eq ..
  rw [e, h]
  rcases ho with rfl | rfl <;> rfl

/-- More fuel does not change a result: fuel only bounds how far the execution of the compiled code is followed. -/
theorem gangCall_mono {P : Prog} {k k' f} {m : Mask n} {u loc ext r} (hk : k ≤ k')
    (h : gangCall P k f m u loc ext = some r) : gangCall P k' f m u loc ext = some r := by
  obtain ⟨ext', rv⟩ := r
  obtain ⟨o, σ', hr, ho, rfl, rfl⟩ := gangCall_some h
  exact gangCall_of_run (run_mono hk hr) ho

/-- **C01**: if every program instance that is active at the call returns when it executes the function alone, as
serial code, then the compiled function returns, and each of these instances has exactly the memory and the return
value of its serial execution.  Holds for every gang width, non-empty mask, input, nesting of control flow and
recursion depth.
Partial: the program must follow the `Wf` discipline on uniform variables (Wf.lean) and pass the check `live`
(Terminate.lean) that excludes loops with a uniform condition that may be reached, or left running, with all
instances off. -/
theorem gang_returns_serial_results_partial {P : Prog} (hP : WfProg P)
    (hA : ∀ f, accepted false false false (P f).body = true) {d : Nat} (hL : ∀ f, live P d true (P f).body = true)
    {f : Nat} {m : Mask n} {u loc ext} (hm : ∃ l, m l = true)
    (hs : ∀ l, m l = true → ∃ e v, SerialCall P l f u (loc l) (ext l) e v) :
    ∃ ext' rv, (∃ K, ∀ k ≥ K, gangCall P k f m u loc ext = some (ext', rv)) ∧
      ∀ l, m l = true → SerialCall P l f u (loc l) (ext l) (ext' l) (rv l) := by
  obtain ⟨l0, hl0⟩ := hm
  -- a common bound for the heights of the serial executions
  have hN : ∃ N, ∀ l, m l = true → ∃ o s', ExecN P l N (P f).body ⟨u, loc l, ext l⟩ o s' := by
    have each : ∀ l : Fin n, ∃ N, m l = true → ∃ o s', ExecN P l N (P f).body ⟨u, loc l, ext l⟩ o s' := by
      intro l
      by_cases h : m l = true
      · obtain ⟨_, _, o, s', hx, _⟩ := hs l h
        obtain ⟨N, hx⟩ := hx.height
        exact ⟨N, fun _ => ⟨o, s', hx⟩⟩
      · exact ⟨0, fun h' => absurd h' h⟩
    have key : ∀ j, ∃ N, ∀ l : Fin n, l.val < j → m l = true → ∃ o s', ExecN P l N (P f).body ⟨u, loc l, ext l⟩ o s' := by
      intro j
      induction j with
      | zero => exact ⟨0, fun l h => absurd h (by omega)⟩
      | succ j ih =>
        obtain ⟨N, hN⟩ := ih
        by_cases hj : j < n
        · obtain ⟨N', hN'⟩ := each ⟨j, hj⟩
          refine ⟨max N N', fun l hl h => ?_⟩
          by_cases he : l.val = j
          · have : l = ⟨j, hj⟩ := Fin.ext he
            subst this
            obtain ⟨o, s', hx⟩ := hN' h
            exact ⟨o, s', hx.mono (by omega)⟩
          · obtain ⟨o, s', hx⟩ := hN l (by omega) h
            exact ⟨o, s', hx.mono (by omega)⟩
        · exact ⟨N, fun l hl h => hN l (by omega) h⟩
    obtain ⟨N, h⟩ := key n
    exact ⟨N, fun l => h l l.isLt⟩
  obtain ⟨N, hN⟩ := hN
  obtain ⟨k, ⟨o, σ'⟩, h⟩ := term hP hA hL l0 N (P f).body (enterCtx m) true ∅ ∅ Set.univ ∅ (entrySt u loc ext) (.enter m)
    (.none rfl) (hP f) (fun h => absurd (enter_nearestU m) h) (hA f) (hL f) (fun _ => rfl) (entry_inv m u loc ext)
    (fun l h => by simp [entrySt] at h) ⟨l0, rfl, hl0⟩
    (fun l _ hl => by
      obtain ⟨o, s', hx⟩ := hN l hl
      exact ⟨_, o, s', fun _ _ => rfl, ⟨rfl, rfl⟩, hx⟩)
  have hj := run_jl _ _ _ _ _ _ h
  have ho : o = .normal ∨ o = .ret := by
    cases o with
    | normal => exact Or.inl rfl
    | ret => exact Or.inr rfl
    | brk => have := hj.2.1 rfl; simp [enterCtx] at this
    | cont => have := hj.1 rfl; simp [enterCtx] at this
  have hg := gangCall_of_run h ho
  exact ⟨σ'.ext, σ'.rv, ⟨k, fun k' hk => gangCall_mono hk hg⟩,
    fun l hl => (gang_matches_serial_partial hP hg l hl _ _).2 ⟨rfl, rfl⟩⟩

/-! The hypotheses hold for the program of Props.lean: a varying `return`, then a loop with a varying trip count
and a varying `continue`. -/
example : WfProg demoProg ∧ (∀ f, accepted false false false (demoProg f).body = true) ∧
    (∀ f, live demoProg 0 true (demoProg f).body = true) ∧
    (∃ l, (fun l : Fin 3 => l.val != 1) l = true) ∧
    ∀ l : Fin 3, (l.val != 1) = true → ∃ e v, SerialCall demoProg l 0 (fun _ => 0)
      (fun _ _ => if l.val = 0 then 0 else 7) (fun _ _ => 0) e v := by
  refine ⟨demo_wf, fun _ => rfl, fun _ => rfl, ⟨0, rfl⟩, fun l hl => ?_⟩
  exact ⟨_, _, (gang_matches_serial_partial (n := 3) demo_wf (k := 20) (f := 0) (m := fun l => l.val != 1)
    (u := fun _ => 0) (loc := fun l _ _ => if l.val = 0 then 0 else 7) (ext := fun _ _ _ => 0) rfl l hl _ _).2 ⟨rfl, rfl⟩⟩

/-- `switch (x) { case 1: uniform loop without return; case 2: if (y) break; default: while (y) { y--; if (x) return 1; } }` -/
def switchBody : Stmt :=
  .switch (lv 0)
    (.seg (some 1) false (.doloop (.vassign false 1 (.const 0) (.const 3)) (lv 1) false)
    (.seg (some 2) true (.seq (.ite (lv 1) false true .brk .skip) (.vassign true 0 (.const 0) (.const 1)))
    (.seg none false (.loop (lv 1) false .skip
      (.seq (.vassign false 1 (.const 0) (.bin (· - ·) (lv 1) (.const 1))) (.ite (lv 0) false false (.ret (.const 1)) .skip)))
      .skip)))

/-- The check also accepts switches, loops and jumps inside them, and a uniform loop left by `return` at function level. -/
example : let P : Prog := fun f => ⟨if f = 0 then switchBody else
      .loop (.const 1) false .skip (.seq (.call 2 0 [] [lv 0]) (.ite (lv 0) false false (.ret (.const 1)) .skip)), false⟩
    (∀ f, accepted false false false (P f).body = true) ∧ ∀ f, live P 2 true (P f).body = true := by
  intro P
  constructor <;> intro f <;> by_cases h : f = 0 <;> simp only [P, h, if_true, if_false] <;> rfl

/-- The check rejects the program of `gang_hangs_where_serial_returns`, at every depth. -/
theorem hang_not_live (P : Prog) (d : Nat) : live P d true hangBody = false := rfl

theorem run_seq (P : Prog) (k a b) (c : Ctx n) (σ) :
    run P (k + 1) (.seq a b) c σ = andThen (run P k a c σ) (run P k b c) := by simp only [run]

theorem run_iteV (P : Prog) (k e a b) (c : Ctx n) (σ) (he : e.isUniform = false) :
    run P (k + 1) (.ite e false false a b) c σ = maskMixed c (σ.test e) (run P k a) (run P k b) σ := by
  simp [run, he, varyingIf]

/-- `programIndex == 0` -/
abbrev isFirst : Expr := .un (fun a => if a = 0 then 1 else 0) .lane
/-- All variables zero, at the call. -/
abbrev zeros : St 2 := entrySt (fun _ => 0) (fun _ _ _ => 0) (fun _ _ _ => 0)

/-- `if (programIndex == 0) { if (programIndex == 0) return 5; while (true) ; } return 7;` -/
def deadBody : Stmt :=
  .seq (.ite isFirst false false
      (.seq (.ite isFirst false false (.ret (.const 5)) .skip)
        (.loop (.const 1) false .skip .skip)) .skip)
    (.ret (.const 7))

/-- Finding: code after a statement that all instances left by `return` is run with every instance off when the
statement is inside a varying `if` (CurrentLanesReturned only jumps when the whole gang has returned,
ctx.cpp:1284-1362); a loop with a uniform condition there runs although no program instance reaches it.  Here
neither instance ever gets to the loop, and the gang never leaves it. -/
theorem gang_runs_dead_loop :
    let P : Prog := fun _ => ⟨deadBody, false⟩
    (∀ k, gangCall (n := 2) P k 0 allOn (fun _ => 0) (fun _ _ _ => 0) (fun _ _ _ => 0) = none) ∧
    (∃ e, SerialCall P 0 0 (fun _ => 0) (fun _ _ => 0) (fun _ _ => 0) e 5) ∧
    (∃ e, SerialCall P 1 0 (fun _ => 0) (fun _ _ => 0) (fun _ _ => 0) e 7) ∧
    ∀ d, live P d true deadBody = false := by
  intro P
  refine ⟨?_, ?_, ?_, fun d => ?_⟩
  · intro k
    have key : ∀ k j (c : Ctx 2) (σ : St 2), forU c (.const 1) (run P k .skip) (run P k .skip) j σ = none := by
      intro k j
      induction j with
      | zero => intros; rfl
      | succ j ih =>
        intro c σ
        cases k with
        | zero => rfl
        | succ k =>
          show forU c (.const 1) (run P (k + 1) .skip) (run P (k + 1) .skip) j σ = none
          exact ih c σ
    have loop0 : ∀ k (c : Ctx 2) (σ : St 2), run P k (.loop (.const 1) false .skip .skip) c σ = none := by
      intro k c σ
      cases k with
      | zero => rfl
      | succ k =>
        show wrapLoop true σ (forU c (.const 1) (run P k .skip) (run P k .skip) k) = none
        unfold wrapLoop
        rw [key]
    cases hg : gangCall (n := 2) P k 0 allOn (fun _ => 0) (fun _ _ _ => 0) (fun _ _ _ => 0) with
    | none => rfl
    | some r =>
      exfalso
      have h := gangCall_mono (k' := k + 6) (by omega) hg
      obtain ⟨o, σ', hr, _⟩ := gangCall_some h
      have hin : ∃ σ₁, run P (k + 3) (.ite isFirst false false (.ret (.const 5)) .skip)
          ((enterCtx allOn).pushIf false) { zeros with
            im := fun l => decide (l = 0) } = some (.normal, σ₁) := ⟨_, rfl⟩
      obtain ⟨σ₁, hin⟩ := hin
      have him : (fun l : Fin 2 => decide (l = 0)) = zeros.im.and (zeros.test isFirst) := by
        funext l; match l with | 0 => rfl | 1 => rfl
      rw [him] at hin
      have h4 : run P (k + 4) (.seq (.ite isFirst false false (.ret (.const 5)) .skip)
          (.loop (.const 1) false .skip .skip)) ((enterCtx allOn).pushIf false)
          { zeros with
            im := zeros.im.and (zeros.test isFirst) } = none := by
        rw [run_seq, hin]
        exact loop0 _ _ _
      have h5 : run P (k + 6) deadBody (enterCtx allOn) zeros = none := by
        unfold deadBody
        rw [run_seq, run_iteV _ _ _ _ _ _ _ rfl, maskMixed, if_pos, h4]
        · rfl
        · rw [← him]
          rfl
      have hr' : run P (k + 6) deadBody (enterCtx allOn) zeros
          = some (o, σ') := hr
      rw [h5] at hr'
      cases hr'
  · refine ⟨_, _, _, .seqJ (.iteT (by decide) (.seqJ (.iteT (by decide) .ret) (by simp))) (by simp), rfl, rfl⟩
  · refine ⟨_, _, _, .seqN (.iteF (by decide) .skip) .ret, rfl, rfl⟩
  · cases d <;> rfl

end Ispc.Spmd
