import Verif.Spmd.Props2

/-!
# Theorems about `switch` (C10) and about statements compiled with uniform control flow (C11)
-/

namespace Ispc.Spmd

variable {n : Nat}

/-! ## C10 -/

/-- **C10**: a `switch` on any expression behaves for every active instance as C's `switch` does for that
instance alone: it starts at the matching case, else at `default` wherever that stands, else does nothing; it
falls through labels and ends at `break`; afterwards the instance is active again unless it returned.
Partial: the body must follow `Wf` (F: uniform variables are not assigned under a varying switch). -/
theorem switch_matches_serial_partial {P : Prog} (hP : WfProg P) {k : Nat} {m : Mask n} {u loc ext e b o σ' D'}
    (hw : Wf (.switch e b) ∅ ∅ Set.univ D')
    (hr : run P k (.switch e b) (enterCtx m) (entrySt u loc ext) = some (o, σ')) (l : Fin n) (hl : m l = true) :
    ∃ so ss', Exec P l (.switch e b) ⟨u, loc l, ext l⟩ so ss' ∧ ss'.loc = σ'.loc l ∧ ss'.ext = σ'.ext l ∧
      ((so = .normal ∧ o = .normal ∧ σ'.im l = true) ∨
       (so = .ret (σ'.rv l) ∧ (o = .ret ∨ (σ'.ret l = true ∧ σ'.im l = false)))) := by
  have h := entry_running m u loc ext (.switch e b)
  have p := post_all k _ _ h.ctx h.legal _ _ _ h.inv hr
  obtain ⟨hb, hc⟩ := p.nu (enter_nearestU m) l
  obtain ⟨so, ss', hx, hm, hst⟩ := sim_all hP k (.switch e b) _ ∅ ∅ Set.univ D' h.ctx h.legal hw
    (fun h => absurd (enter_nearestU m) h) _ _ _ h.inv hr l ⟨u, loc l, ext l⟩ rfl hl (fun _ _ => rfl) ⟨rfl, rfl⟩
  refine ⟨so, ss', hx, hm.1, hm.2, ?_⟩
  have noB : o ≠ .brk ∧ o ≠ .cont := by
    cases k with
    | zero => simp [run] at hr
    | succ k =>
      simp only [run] at hr
      split at hr
      · obtain ⟨r, -, ⟨-, h2, -⟩ | ⟨-, -, h2, -⟩⟩ := doSwitch_some hr <;> simp [h2]
      · cases hr
  cases hst with
  | ret h =>
    refine Or.inr ⟨rfl, ?_⟩
    rcases h with h | h
    · right
      refine ⟨h, ?_⟩
      cases hi : σ'.im l with
      | false => rfl
      | true => rw [(p.act l hi hl).1] at h; cases h
    · exact Or.inl h
  | brk a b => rw [hb] at b; cases b
  | cont a b => rw [hc] at b; cases b
  | act a b d => exact Or.inl ⟨rfl, a, b⟩
  | actB a => exact absurd a noB.1
  | actC a => exact absurd a noB.2

/-- `switch (x) { case 1: y = 10; default: y = y + 1; break; case 2: y = 20; case 3: return 33; }` -/
def demoSwitch : Stmt :=
  .switch (lv 0)
    (.seg (some 1) false (.vassign false 1 (.const 0) (.const 10))
    (.seg none true (.seq (.vassign false 1 (.const 0) (.bin (· + ·) (lv 1) (.const 1))) .brk)
    (.seg (some 2) false (.vassign false 1 (.const 0) (.const 20))
    (.seg (some 3) true (.ret (.const 33)) .skip))))

example : Wf demoSwitch ∅ ∅ Set.univ Set.univ := by
  simp only [demoSwitch, Wf, Expr.uvars, Stmt.assigned]
  refine ⟨by simp, Set.univ, by simp, by simp, ⟨by simp, ⟨Set.univ, by simp, by simp⟩, by simp, by simp, by simp⟩, by simp⟩

/-- Instances with x = 1, 3, 9 and an inactive one: fall through into default, return, default. -/
example : ∃ σ', run demoProg 9 demoSwitch (enterCtx (fun l : Fin 4 => l.val != 3))
    (entrySt (fun _ => 0) (fun l a _ => if a = 0 then [1, 3, 9, 2].getD l.val 0 else 0) (fun _ _ _ => 0)) =
      some (.normal, σ') ∧ σ'.loc 0 1 0 = 11 ∧ σ'.rv 1 = 33 ∧ σ'.ret 1 = true ∧ σ'.loc 2 1 0 = 1 :=
  ⟨_, rfl, by decide, by decide, by decide, by decide⟩

/-! ## C11 -/

/-- The configuration at the top of an iteration of a loop that the compiler emits with uniform control flow. -/
def uniformIter (c : Ctx n) (σ : St n) : Ctx n := c.pushLoop true (full c σ)

/-- **C11**: in a loop compiled with uniform control flow (`loopUnif`: uniform test, no `break`/`continue` under a
varying `if`), no instance ever leaves an iteration on its own: the per-lane break and continue masks stay
empty, and when the code jumps to the loop's break or continue target, it does so for every instance that began
the iteration and has not returned. -/
theorem uniform_loop_leaves_together {P : Prog} {k : Nat} {c : Ctx n} {σ s e o σ'} {b : Stmt} (h : Running c σ s)
    (hu : loopUnif e b = true)
    (hr : run P k b (uniformIter c σ) { σ with brk := allOff, cont := allOff } = some (o, σ')) :
    (∀ l, σ'.brk l = false ∧ σ'.cont l = false) ∧
    (o = .brk ∨ o = .cont → ∀ l, full c σ l = true → σ'.im l = true ∨ σ'.ret l = true) := by
  have hv : hasVBC 0 b = false := by
    simp only [loopUnif, Bool.and_eq_true, Bool.not_eq_true'] at hu; exact hu.2
  have hi : Inv (uniformIter c σ) { σ with brk := allOff, cont := allOff } :=
    (Head.of_inv true h.inv).inv
  have p := post_all k b _ (.pushLoop c true (full c σ)) (.loop c (fun _ => hv)) _ _ _ hi hr
  have hn : nearestU (uniformIter c σ).cf := fun x hx => by
    simp [uniformIter, Ctx.pushLoop, nearest] at hx; rw [← hx]
  refine ⟨p.nu hn, fun ho l hl => ?_⟩
  have := p.jump ho l hl
  simpa [St.flag, p.nu hn l] using this

/-- **C11**, seen from the serial side: take a uniform loop at the start of a function.  If some active instance,
executing its iteration serially, ends it by `break` (or by `continue`), then every other active instance ends
that iteration the same way or returns. Partial: `Wf`. -/
theorem uniform_loop_serial_agreement_partial {P : Prog} (hP : WfProg P) {k : Nat} {m : Mask n} {u loc ext e b o σ' B C J}
    (hu : loopUnif e b = true) (hw : Wf b B C Set.univ J)
    (hr : run P k b (uniformIter (enterCtx m) (entrySt u loc ext)) (entrySt u loc ext) = some (o, σ'))
    (l₁ l₂ : Fin n) (h₁ : m l₁ = true) (h₂ : m l₂ = true) {s₁ : SSt}
    {so : SOut} (hso : so = .brk ∨ so = .cont) (hx : Exec P l₁ b ⟨u, loc l₁, ext l₁⟩ so s₁) :
    ∃ so₂ s₂, Exec P l₂ b ⟨u, loc l₂, ext l₂⟩ so₂ s₂ ∧ (so₂ = so ∨ ∃ v, so₂ = .ret v) := by
  have h := entry_running m u loc ext .skip
  have hv : hasVBC 0 b = false := by
    simp only [loopUnif, Bool.and_eq_true, Bool.not_eq_true'] at hu; exact hu.2
  have hi : Inv (uniformIter (enterCtx m) (entrySt u loc ext)) (entrySt u loc ext) := (Head.of_inv true h.inv).inv
  have hn : nearestU (uniformIter (enterCtx m) (entrySt u loc ext)).cf := fun x hx => by
    simp [uniformIter, Ctx.pushLoop, nearest] at hx; rw [← hx]
  have p := post_all k b _ (.pushLoop _ true _) (.loop _ (fun _ => hv)) _ _ _ hi hr
  have sim := sim_all hP k b _ B C Set.univ J (.pushLoop _ true _) (.loop _ (fun _ => hv)) hw
    (fun h => absurd hn h) _ _ _ hi hr
  obtain ⟨q₁, t₁, x₁, -, st₁⟩ := sim l₁ ⟨u, loc l₁, ext l₁⟩ rfl h₁ (fun _ _ => rfl) ⟨rfl, rfl⟩
  obtain ⟨q₂, t₂, x₂, -, st₂⟩ := sim l₂ ⟨u, loc l₂, ext l₂⟩ rfl h₂ (fun _ _ => rfl) ⟨rfl, rfl⟩
  obtain ⟨rfl, rfl⟩ := x₁.det hx
  refine ⟨q₂, t₂, x₂, ?_⟩
  obtain ⟨b1, c1⟩ := p.nu hn l₁
  obtain ⟨b2, c2⟩ := p.nu hn l₂
  cases st₁ with
  | ret => simp at hso
  | brk _ h => rw [b1] at h; cases h
  | cont _ h => rw [c1] at h; cases h
  | act => simp at hso
  | actB ho =>
    cases st₂ with
    | ret => exact Or.inr ⟨_, rfl⟩
    | brk _ h => exact Or.inl rfl
    | cont _ h => rw [c2] at h; cases h
    | act a => rw [ho] at a; cases a
    | actB => exact Or.inl rfl
    | actC a => rw [ho] at a; cases a
  | actC ho =>
    cases st₂ with
    | ret => exact Or.inr ⟨_, rfl⟩
    | brk _ h => rw [b2] at h; cases h
    | cont _ h => exact Or.inl rfl
    | act a => rw [ho] at a; cases a
    | actB a => rw [ho] at a; cases a
    | actC => exact Or.inl rfl

/-- **C11**, compile time: inside a loop compiled with uniform control flow the code generator never reaches the
"no break lanes" assertion: `break` and `continue` always compile to direct jumps. -/
theorem uniform_loop_jumps_compile {c : Ctx n} (hk : CtxOk c) (hn : nearest c.cf = some ⟨.loopK, true⟩)
    (ht : c.brkTgt = true) (σ : St n) :
    (Legal c.cf .brk → doBreak c σ = some (.brk, σ)) ∧ (Legal c.cf .cont → doContinue c σ = some (.cont, σ)) := by
  have key : ∀ s, (s = .brk ∨ s = .cont) → Legal c.cf s → vifs c.cf = 0 := by
    intro s hs hl
    have := hl _ hn rfl
    rcases hs with rfl | rfl <;> simpa [hasVBC] using this
  have hin : inSwitch c.cf = false := by
    cases h : inSwitch c.cf with
    | false => rfl
    | true => obtain ⟨u, h1⟩ := inSwitch_iff.1 h; rw [hn] at h1; cases h1
  have hct := (hk.loop_ true hn).2.2
  constructor
  · intro hl
    have hu : ifsUnif .loopK c.cf = true := by rw [ifsUnif_loop hn, key _ (Or.inl rfl) hl]; rfl
    simp [doBreak, ht, hin, hu]
  · intro hl
    have hu : ifsUnif .loopK c.cf = true := by rw [ifsUnif_loop hn, key _ (Or.inr rfl) hl]; rfl
    simp [doContinue, hct, hu]

/-- A uniform loop body with a uniform `break`, at function entry: `x = x + 1; if (u0) break;` -/
example : loopUnif (.uvar 1) (.seq (.vassign false 0 (.const 0) (.bin (· + ·) (lv 0) (.const 1)))
      (.ite (.uvar 0) false false .brk .skip)) = true ∧
    ∃ σ', run demoProg 9 (.seq (.vassign false 0 (.const 0) (.bin (· + ·) (lv 0) (.const 1)))
      (.ite (.uvar 0) false false .brk .skip))
      (uniformIter (enterCtx (fun l : Fin 3 => l.val != 1)) (entrySt (fun _ => 1) (fun _ _ _ => 0) (fun _ _ _ => 0)))
      (entrySt (fun _ => 1) (fun _ _ _ => 0) (fun _ _ _ => 0)) = some (.brk, σ') := ⟨rfl, _, rfl⟩

end Ispc.Spmd
