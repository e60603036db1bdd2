import Mathlib.Tactic.Common

/-!
# The implicit `sync` before a function returns

`FunctionEmitContext` decides whether a return instruction is preceded by a `sync` with one flag,
`launchedTasks`, which is set when the *code* of a `launch` is emitted.  Here the emission of a function body
is modelled as a pass over the statements that threads this flag, and the emitted code is given the obvious
semantics, with the number of tasks launched since the last wait as its state.

Tests are not evaluated: `ite` may take either side and `loop` may go round any number of times, so a
statement about all runs of the emitted code covers every way its tests can come out.
-/

namespace Ispc.ImplicitSync

/-- Statements, as far as launching and returning are concerned.

* `other`: a statement without any of the below;
* `launch`, `sync`: `launch f(...)` and `sync` as expression statements (src/stmt.cpp:56-65);
* `ret`, `brk`, `cont`: `return`, `break`, `continue` under uniform control flow
  (src/ctx.cpp:1325-1333, src/ctx.cpp:698-701);
* `seq`: src/stmt.cpp:3467-3476; `ite`: src/stmt.cpp:528-563; `loop`: src/stmt.cpp:934-1063 (`do`) and
  src/stmt.cpp:1165-1324 (`for`, `while`), whose step statement is part of the body here.

The remaining forms are combinations of these: a `return` under varying control flow branches on whether all
lanes have returned and otherwise goes on (src/ctx.cpp:1343-1353), which is `vret` below; likewise `break` and
`continue`; a `cif` emits its two sides once more for an all-on mask (src/stmt.cpp:737-806), which is an `ite`
between the copies.  `goto`, `switch` and, since `return` is not allowed inside (src/stmt.cpp:3260-3263),
`foreach` are not modelled. -/
inductive Stmt where
  | other | launch | sync | ret | brk | cont
  | seq (a b : Stmt)
  | ite (a b : Stmt)
  | loop (body : Stmt)

/-- `return` under varying control flow (src/ctx.cpp:1343-1353): return if all lanes have, else go on. -/
def Stmt.vret : Stmt := .ite .ret .other

/-- The emitted code.  `ret s` is a return instruction with (`s = true`) or without the call to the sync code
    in front of it; `none` is where nothing is emitted. -/
inductive Code where
  | none | other | launch | sync | brk | cont
  | ret (s : Bool)
  | seq (a b : Code)
  | ite (a b : Code)
  | loop (body : Code)
deriving DecidableEq

/-- `EmitCode` (src/stmt.cpp): given the flag `launchedTasks` and whether there is a current basic block
    (every `EmitCode` begins by returning if there is none: src/stmt.cpp:57-59, 496-498, 937-939, 1166-1168,
    3256-3258), the code emitted, the flag, and whether there is a current basic block afterwards.
    `launch` sets the flag (src/ctx.cpp:3979), a return instruction looks at it (src/ctx.cpp:3920-3923) and
    ends the basic block (src/ctx.cpp:3957); nothing ever clears it.  After an `if` or a loop the current
    block is the exit block (src/stmt.cpp:561, 1319). -/
def emit : Stmt → Bool → Bool → Code × Bool × Bool
  | _, f, false => (.none, f, false)
  | .other, f, true => (.other, f, true)
  | .launch, _, true => (.launch, true, true)
  | .sync, f, true => (.sync, f, true)
  | .ret, f, true => (.ret f, f, false)
  | .brk, f, true => (.brk, f, false)
  | .cont, f, true => (.cont, f, false)
  | .seq a b, f, true =>
      let (ca, f1, l1) := emit a f true
      let (cb, f2, l2) := emit b f1 l1
      (.seq ca cb, f2, l2)
  | .ite a b, f, true =>
      let (ca, f1, _) := emit a f true
      let (cb, f2, _) := emit b f1 true
      (.ite ca cb, f2, true)
  | .loop b, f, true =>
      let (cb, f1, _) := emit b f true
      (.loop cb, f1, true)

/-- `Function::emitCode` (src/func.cpp:510-584): emit the body; if the block is still open at the end, emit a
    return instruction there.  With `checkMask` the body is emitted twice, for an all-on and for a mixed
    mask, with a branch between the two and a return instruction at the end of each (src/func.cpp:511-551);
    the flag, `false` at first (src/ctx.cpp:271), is that of the same context throughout. -/
def compile (checkMask : Bool) (s : Stmt) : Code :=
  if checkMask then (emit (.ite (.seq s .ret) (.seq s .ret)) false true).1
  else (emit (.seq s .ret) false true).1

/-- How a piece of code ends. -/
inductive Out where
  | fall | brk | cont | ret
deriving DecidableEq

/-- Runs of the emitted code.  `Run c n o n'`: begun with `n` tasks launched by this activation and not yet
    waited for, `c` can end as `o` with `n'` of them.  `launch` is `ISPCLaunch` with the function's handle,
    `sync` the code of `SyncInst` (src/ctx.cpp:4048-4068), which waits for all tasks of the handle if there are any. -/
inductive Run : Code → Nat → Out → Nat → Prop
  | other (n) : Run .other n .fall n
  | launch (n) : Run .launch n .fall (n + 1)
  | sync (n) : Run .sync n .fall 0
  | brk (n) : Run .brk n .brk n
  | cont (n) : Run .cont n .cont n
  | retSync (n) : Run (.ret true) n .ret 0
  | retBare (n) : Run (.ret false) n .ret n
  | seqFall {a b n m o k} : Run a n .fall m → Run b m o k → Run (.seq a b) n o k
  | seqStop {a b n o m} : Run a n o m → o ≠ .fall → Run (.seq a b) n o m
  | iteTrue {a b n o m} : Run a n o m → Run (.ite a b) n o m
  | iteFalse {a b n o m} : Run b n o m → Run (.ite a b) n o m
  | loopExit (b n) : Run (.loop b) n .fall n
  | loopBrk {b n m} : Run b n .brk m → Run (.loop b) n .fall m
  | loopRet {b n m} : Run b n .ret m → Run (.loop b) n .ret m
  | loopNext {b n o m o' k} : Run b n o m → o = .fall ∨ o = .cont → Run (.loop b) m o' k →
      Run (.loop b) n o' k

/-- The property: however the function comes to return, no task it launched is left that has not been waited
    for. -/
def AlwaysSyncs (c : Code) : Prop := ∀ n, Run c 0 .ret n → n = 0

/-! ## Syntactic classes, over source statements -/

/-- A launch occurs in the statement. -/
def Stmt.launches : Stmt → Bool
  | .launch => true
  | .seq a b | .ite a b => a.launches || b.launches
  | .loop b => b.launches
  | _ => false

/-- A return occurs in the statement. -/
def Stmt.returns : Stmt → Bool
  | .ret => true
  | .seq a b | .ite a b => a.returns || b.returns
  | .loop b => b.returns
  | _ => false

/-- No loop of the statement has both a `launch` and a `return` in it. -/
def Stmt.apart : Stmt → Bool
  | .seq a b | .ite a b => a.apart && b.apart
  | .loop b => !(b.launches && b.returns) && b.apart
  | _ => true

/-! ## And over emitted code -/

def Code.launches : Code → Bool
  | .launch => true
  | .seq a b | .ite a b => a.launches || b.launches
  | .loop b => b.launches
  | _ => false

/-- A return instruction without a sync occurs. -/
def Code.bare : Code → Bool
  | .ret s => !s
  | .seq a b | .ite a b => a.bare || b.bare
  | .loop b => b.bare
  | _ => false

/-- No loop contains both a launch and a return instruction without sync. -/
def Code.ok : Code → Bool
  | .seq a b | .ite a b => a.ok && b.ok
  | .loop b => !(b.launches && b.bare) && b.ok
  | _ => true

/-- Without a bare return instruction, returning means having waited. -/
theorem ret_of_not_bare {c : Code} {n o m} (h : Run c n o m) (hb : c.bare = false) (ho : o = .ret) :
    m = 0 := by
  induction h <;> simp_all [Code.bare]

/-- Without a launch, no task appears. -/
theorem zero_of_not_launches {c : Code} {n o m} (h : Run c n o m) (hl : c.launches = false) (hn : n = 0) :
    m = 0 := by
  induction h <;> simp_all [Code.launches]

@[simp] theorem emit_dead (s : Stmt) (f : Bool) : emit s f false = (.none, f, false) := by
  cases s <;> rfl

/-- The flag after emission: set before, or some launch was emitted. -/
theorem flag_emit (s : Stmt) (f l : Bool) : (emit s f l).2.1 = (f || (emit s f l).1.launches) := by
  induction s generalizing f l <;> cases l <;> simp [emit, Code.launches, *] <;> (cases f <;> simp [*])

/-- Once the flag is set, no bare return instruction is emitted. -/
theorem bare_emit (s : Stmt) (l : Bool) : (emit s true l).1.bare = false := by
  have hf : ∀ s l, (emit s true l).2.1 = true := fun s l => by rw [flag_emit]; simp
  induction s generalizing l with
  | seq a b iha ihb => cases l <;> simp [emit, Code.bare, hf, iha, ihb]
  | ite a b iha ihb => cases l <;> simp [emit, Code.bare, hf, iha, ihb]
  | loop b ih => cases l <;> simp [emit, Code.bare, ih]
  | _ => cases l <;> simp [emit, Code.bare]

/-- A loop none of whose rounds can go wrong. -/
theorem loop_inv {b : Code} {f : Bool} (hf : f = true → b.bare = false)
    (hok : b.launches = true → b.bare = false) :
    ∀ {c n o m}, Run c n o m → c = .loop b → (n ≠ 0 → (f || b.launches) = true) →
      (o = .ret → m = 0) ∧ (m ≠ 0 → (f || b.launches) = true) := by
  intro c n o m h
  have step : ∀ {n o m}, Run b n o m → (n ≠ 0 → (f || b.launches) = true) →
      (o = .ret → m = 0) ∧ (m ≠ 0 → (f || b.launches) = true) := by
    intro n o m hr hn
    by_cases hlb : (f || b.launches) = true
    · refine ⟨fun ho => ret_of_not_bare hr ?_ ho, fun _ => hlb⟩
      rcases Bool.or_eq_true_iff.mp hlb with h1 | h1
      · exact hf h1
      · exact hok h1
    · have hn0 : n = 0 := by by_contra h0; exact hlb (hn h0)
      have hl : b.launches = false := by
        cases hb : b.launches with
        | true => simp [hb] at hlb
        | false => rfl
      have := zero_of_not_launches hr hl hn0
      exact ⟨fun _ => this, fun h0 => absurd this h0⟩
  induction h with
  | loopExit b' n => intro hc hn; exact ⟨by simp, hn⟩
  | loopBrk hr _ => intro hc hn; cases hc; exact ⟨by simp, (step hr hn).2⟩
  | loopRet hr _ => intro hc hn; cases hc; exact ⟨fun _ => (step hr hn).1 rfl, (step hr hn).2⟩
  | loopNext hr _ _ _ ih => intro hc hn; cases hc; exact ih rfl (step hr hn).2
  | _ => intro hc; cases hc

/-- The invariant: tasks are outstanding only where the flag is set. -/
theorem emit_run (s : Stmt) : ∀ (f l : Bool) (n o m), Run (emit s f l).1 n o m → (emit s f l).1.ok = true →
    (n ≠ 0 → f = true) → (o = .ret → m = 0) ∧ (m ≠ 0 → (emit s f l).2.1 = true) := by
  induction s with
  | other => intro f l n o m h _ hn; cases l <;> cases h <;> simp_all [emit]
  | launch => intro f l n o m h _ hn; cases l <;> cases h <;> simp_all [emit]
  | sync => intro f l n o m h _ hn; cases l <;> cases h <;> simp_all [emit]
  | brk => intro f l n o m h _ hn; cases l <;> cases h <;> simp_all [emit]
  | cont => intro f l n o m h _ hn; cases l <;> cases h <;> simp_all [emit]
  | ret =>
    intro f l n o m h _ hn
    cases l
    · cases h
    · cases f
      · have hn0 : n = 0 := by by_contra h0; simpa using hn h0
        subst hn0
        cases h; simp
      · cases h; simp
  | seq a b iha ihb =>
    intro f l n o m h hok hn
    cases l
    · cases h
    simp only [emit, Code.ok, Bool.and_eq_true] at h hok ⊢
    cases h with
    | seqFall h1 h2 => exact ihb _ _ _ _ _ h2 hok.2 (iha _ _ _ _ _ h1 hok.1 hn).2
    | seqStop h1 h2 =>
      have := iha _ _ _ _ _ h1 hok.1 hn
      exact ⟨this.1, fun h0 => by rw [flag_emit, this.2 h0]; rfl⟩
  | ite a b iha ihb =>
    intro f l n o m h hok hn
    cases l
    · cases h
    simp only [emit, Code.ok, Bool.and_eq_true] at h hok ⊢
    cases h with
    | iteTrue h1 =>
      have := iha _ _ _ _ _ h1 hok.1 hn
      exact ⟨this.1, fun h0 => by rw [flag_emit, this.2 h0]; rfl⟩
    | iteFalse h1 =>
      refine ihb _ _ _ _ _ h1 hok.2 (fun h0 => ?_)
      rw [flag_emit, hn h0]; rfl
  | loop b ih =>
    intro f l n o m h hok hn
    cases l
    · cases h
    simp only [emit, Code.ok, Bool.and_eq_true, Bool.not_eq_true'] at h hok ⊢
    have key := loop_inv (b := (emit b f true).1) (f := f) (fun hf => by subst hf; exact bare_emit b true)
      (fun hl => by simpa [hl] using hok.1) h rfl (fun h0 => by rw [hn h0]; rfl)
    rw [flag_emit]
    exact key

/-- Emitted code without a bad loop always waits. -/
theorem syncs_of_ok (s : Stmt) (h : (emit s false true).1.ok = true) : AlwaysSyncs (emit s false true).1 :=
  fun n hr => (emit_run s false true 0 .ret n hr h (by simp)).1 rfl

theorem launches_emit (s : Stmt) (f l : Bool) (h : (emit s f l).1.launches = true) : s.launches = true := by
  induction s generalizing f l with
  | seq a b iha ihb =>
    cases l <;> simp [emit, Code.launches] at h
    simp only [Stmt.launches, Bool.or_eq_true]
    exact h.imp (iha _ _) (ihb _ _)
  | ite a b iha ihb =>
    cases l <;> simp [emit, Code.launches] at h
    simp only [Stmt.launches, Bool.or_eq_true]
    exact h.imp (iha _ _) (ihb _ _)
  | loop b ih =>
    cases l <;> simp [emit, Code.launches] at h
    exact ih _ _ h
  | _ => cases l <;> simp_all [emit, Code.launches, Stmt.launches]

theorem returns_emit (s : Stmt) (f l : Bool) (h : (emit s f l).1.bare = true) : s.returns = true := by
  induction s generalizing f l with
  | seq a b iha ihb =>
    cases l <;> simp [emit, Code.bare] at h
    simp only [Stmt.returns, Bool.or_eq_true]
    exact h.imp (iha _ _) (ihb _ _)
  | ite a b iha ihb =>
    cases l <;> simp [emit, Code.bare] at h
    simp only [Stmt.returns, Bool.or_eq_true]
    exact h.imp (iha _ _) (ihb _ _)
  | loop b ih =>
    cases l <;> simp [emit, Code.bare] at h
    exact ih _ _ h
  | _ => cases l <;> simp_all [emit, Code.bare, Stmt.returns]

theorem ok_of_apart (s : Stmt) (f l : Bool) (h : s.apart = true) : (emit s f l).1.ok = true := by
  induction s generalizing f l with
  | seq a b iha ihb =>
    simp only [Stmt.apart, Bool.and_eq_true] at h
    cases l <;> simp [emit, Code.ok, iha _ _ h.1, ihb _ _ h.2]
  | ite a b iha ihb =>
    simp only [Stmt.apart, Bool.and_eq_true] at h
    cases l <;> simp [emit, Code.ok, iha _ _ h.1, ihb _ _ h.2]
  | loop b ih =>
    simp only [Stmt.apart, Bool.and_eq_true, Bool.not_eq_true'] at h
    cases l
    · simp [Code.ok]
    simp only [emit, Code.ok, Bool.and_eq_true, Bool.not_eq_true', ih _ _ h.2, and_true]
    cases hl : (emit b f true).1.launches with
    | false => simp
    | true =>
      cases hb : (emit b f true).1.bare with
      | false => simp
      | true =>
        have := launches_emit _ _ _ hl
        have := returns_emit _ _ _ hb
        simp_all
  | _ => cases l <;> simp [emit, Code.ok]

/-- **C42 (part).**  A function no loop of which contains both a `launch` and a `return` never returns with a
    launched task not waited for, whichever way its tests come out; with and without the extra copy of the
    body for an all-on mask.  Missing: functions that do have such a loop, see `missing_sync`. -/
theorem implicit_sync_partial (checkMask : Bool) (s : Stmt) (h : s.apart = true) :
    AlwaysSyncs (compile checkMask s) := by
  cases checkMask
  · exact syncs_of_ok _ (ok_of_apart _ _ _ (by simp [Stmt.apart, h]))
  · exact syncs_of_ok _ (ok_of_apart _ _ _ (by simp [Stmt.apart, h]))

/-- A second sufficient condition: the function begins with something that launches on every path
    as far as emission order goes, i.e. a `launch` precedes the first loop. -/
theorem implicit_sync_launch_first (checkMask : Bool) (s : Stmt) :
    AlwaysSyncs (compile checkMask (.seq .launch s)) := by
  have hb : ∀ s l, (emit s true l).1.ok = true := by
    intro s
    induction s with
    | seq a b iha ihb =>
      intro l
      cases l
      · simp [Code.ok]
      have hf : (emit a true true).2.1 = true := by rw [flag_emit]; rfl
      simp [emit, Code.ok, iha, ihb, hf]
    | ite a b iha ihb =>
      intro l
      cases l
      · simp [Code.ok]
      have hf : (emit a true true).2.1 = true := by rw [flag_emit]; rfl
      simp [emit, Code.ok, iha, ihb, hf]
    | loop b ih =>
      intro l
      cases l
      · simp [Code.ok]
      simp [emit, Code.ok, ih, bare_emit]
    | _ => intro l; cases l <;> simp [emit, Code.ok]
  have hf : (emit s true true).2.1 = true := by rw [flag_emit]; rfl
  cases checkMask
  · refine syncs_of_ok _ ?_
    have := hb (.seq s .ret) true
    simpa [emit, Code.ok] using this
  · refine syncs_of_ok _ ?_
    have h1 := hb (.seq s .ret) true
    simp only [emit, Code.ok, Bool.and_eq_true] at h1
    simp only [emit, Code.ok, hf, h1.1, h1.2, Bool.and_self, Bool.and_true, Bool.true_and]
    cases (emit s true true).2.2 <;> simp [emit, Code.ok]

/-- `while (...) { if (done) return; launch f(); }`. -/
def earlyReturn : Stmt := .loop (.seq (.ite .ret .other) .launch)

/-- **The full statement fails.**  The `return` at the top of the loop is emitted before the `launch` below
    it, when the flag is still unset, so it has no sync; taken in the second round, it leaves the task
    launched in the first one running. -/
theorem missing_sync : ¬ ∀ s, AlwaysSyncs (compile false s) := by
  intro h
  have hr : Run (compile false earlyReturn) 0 .ret 1 := by
    simp only [compile, earlyReturn, emit]
    refine .seqStop ?_ (by simp)
    refine .loopNext (o := .fall) (m := 1) ?_ (.inl rfl) (.loopRet ?_)
    · exact .seqFall (m := 0) (.iteFalse (.other 0)) (.launch 0)
    · exact .seqStop (.iteTrue (.retBare 1)) (by simp)
  exact absurd (h _ _ hr) (by simp)

/-- The same with a `return` under varying control flow, in the double emission. -/
example : ¬ AlwaysSyncs (compile true (.loop (.seq .vret .launch))) := by
  intro h
  have hr : Run (compile true (.loop (.seq .vret .launch))) 0 .ret 1 := by
    simp only [compile, Stmt.vret, emit]
    refine .iteTrue (.seqStop ?_ (by simp))
    refine .loopNext (o := .fall) (m := 1) ?_ (.inl rfl) (.loopRet ?_)
    · exact .seqFall (m := 0) (.iteFalse (.other 0)) (.launch 0)
    · exact .seqStop (.iteTrue (.retBare 1)) (by simp)
  exact absurd (h _ hr) (by simp)

/-- The condition of `implicit_sync_partial` is met by
    `if (a) return; for (...) { if (b) break; launch f(); } if (c) return; sync; launch g();`, which does
    return from a state with launched tasks. -/
def sample : Stmt :=
  .seq (.ite .ret .other) (.seq (.loop (.seq (.ite .brk .other) .launch)) (.seq .vret (.seq .sync .launch)))

example : sample.apart = true ∧ AlwaysSyncs (compile false sample) ∧
    ∃ c, Run c 0 .fall 2 ∧ ∃ d, compile false sample = .seq (.seq (.ite (.ret false) .other)
      (.seq c (.seq (.ite (.ret true) .other) d))) (.ret true) := by
  refine ⟨rfl, implicit_sync_partial _ _ rfl, .loop (.seq (.ite .brk .other) .launch), ?_, ?_⟩
  · have r : ∀ n, Run (.seq (.ite .brk .other) .launch) n .fall (n + 1) := fun n =>
      .seqFall (.iteFalse (.other n)) (.launch n)
    exact .loopNext (r 0) (.inl rfl) (.loopNext (r 1) (.inl rfl) (.loopExit _ 2))
  · exact ⟨.seq .sync .launch, rfl⟩

end Ispc.ImplicitSync
