import Verif.TaskSys.SchedProps

/-!
# `threadIndex` and `threadCount`

The values that the pthreads task system passes to a task for the thread that runs it, on top of the
transition system of `Verif/TaskSys/Sched.lean`.
-/

namespace Ispc.Sched

/-- Workers among the first `a` threads.  Worker threads are created with `threadIndex` 0, 1, … in order
(examples/common/tasksys.cpp:669-671). -/
def rank (w : Nat → Bool) : Nat → Nat
  | 0     => 0
  | a + 1 => rank w a + if w a then 1 else 0

/-- `threadIndex` and `threadCount` that `caller` passes to the task function: a worker its own index and the number of
workers (examples/common/tasksys.cpp:552-553 and 611), a thread that waits in `Sync` 0 and 1
(examples/common/tasksys.cpp:817). -/
def threadArgs (n : Nat) (w : Nat → Bool) (s : St) (caller : Nat) : Nat × Nat :=
  if s.worker caller then (rank w caller, rank w n) else (0, 1)

/-- What the task that activation `c` runs sees. -/
def seesThread (n : Nat) (w : Nat → Bool) (s : St) (c : Nat) : Option (Nat × Nat) :=
  match s.task c, s.parent c with
  | some _, some a => some (threadArgs n w s a)
  | _,      _      => none

/-! ## Specification -/

/-- Activation `c` is a task that has started and not returned. -/
def Running (s : St) (c : Nat) : Prop := s.task c ≠ none ∧ s.pc c ≠ .done

/-- Activation `c` executes on thread `r`, one of those the system started with. -/
inductive OnThread (s : St) : Nat → Nat → Prop where
  | self (r) : s.parent r = none → OnThread s r r
  | sub (c a r) : s.parent c = some a → OnThread s a r → OnThread s c r

/-! ## Proofs -/

theorem rank_mono (w : Nat → Bool) {a b : Nat} (h : a ≤ b) : rank w a ≤ rank w b := by
  induction h with
  | refl => exact Nat.le_refl _
  | step _ ih => rw [rank]; omega

theorem rank_lt (w : Nat → Bool) {a b : Nat} (h : a < b) (hw : w a = true) : rank w a < rank w b := by
  have := rank_mono w (Nat.succ_le_of_lt h)
  rw [Nat.succ_eq_add_one, rank, if_pos hw] at this
  omega

theorem rank_inj (w : Nat → Bool) {a b : Nat} (ha : w a = true) (hb : w b = true) (h : rank w a = rank w b) : a = b := by
  rcases Nat.lt_trichotomy a b with l | e | l
  · have := rank_lt w l ha; omega
  · exact e
  · have := rank_lt w l hb; omega

theorem worker_eq {ok : Nat → Prop} {n : Nat} {w : Nat → Bool} {s : St} (h : Reach ok n w s) (a : Nat) :
    s.worker a = (decide (a < n) && w a) := by
  induction h with
  | init => rfl
  | step s s' _ hs ih =>
    rw [← ih]
    cases hs <;> rfl

/-- **C63** (part): `threadIndex` is between zero and `threadCount - 1`. -/
theorem threadIndex_range {ok : Nat → Prop} {n : Nat} {w : Nat → Bool} {s : St} (h : Reach ok n w s) (c i k : Nat)
    (hc : seesThread n w s c = some (i, k)) : i < k := by
  unfold seesThread at hc
  split at hc
  · rename_i a _ _
    rw [Option.some.injEq, threadArgs] at hc
    split at hc
    · rename_i hw
      rw [worker_eq h, Bool.and_eq_true, decide_eq_true_eq] at hw
      cases hc
      exact rank_lt w hw.1 hw.2
    · cases hc
      exact Nat.one_pos
  · cases hc

theorem seesThread_worker {n : Nat} {w : Nat → Bool} {s : St} {c a : Nat} (ht : s.task c ≠ none)
    (hp : s.parent c = some a) : seesThread n w s c = some (threadArgs n w s a) := by
  unfold seesThread
  cases h : s.task c with
  | none => exact absurd h ht
  | some t => rw [hp]

/-- **C63** (part): of all tasks that run at the same time and were started by worker threads, no two have the same
`threadIndex`, and `threadCount` is the number of workers. -/
theorem workers_partial {ok : Nat → Prop} (hok : ∀ c, ok c → 0 < c) {n : Nat} {w : Nat → Bool} {s : St}
    (h : Reach ok n w s) (c c' a a' : Nat) (hr : Running s c) (hr' : Running s c')
    (hp : s.parent c = some a) (hp' : s.parent c' = some a') (hw : a < n ∧ w a = true) (hw' : a' < n ∧ w a' = true) :
    ∃ i i', seesThread n w s c = some (i, rank w n) ∧ seesThread n w s c' = some (i', rank w n) ∧ (i = i' → c = c') := by
  have e : threadArgs n w s a = (rank w a, rank w n) := by rw [threadArgs, worker_eq h]; simp [hw]
  have e' : threadArgs n w s a' = (rank w a', rank w n) := by rw [threadArgs, worker_eq h]; simp [hw']
  refine ⟨rank w a, rank w a', ?_, ?_, ?_⟩
  · rw [seesThread_worker hr.1 hp, e]
  · rw [seesThread_worker hr'.1 hp', e']
  · intro hi
    have ha := rank_inj w hw.2 hw'.2 hi
    subst ha
    obtain ⟨_, _, _, h4⟩ := inv_reach hok h
    have h1 := (h4.parB c a hp).resolve_left hr.2
    have h2 := (h4.parB c' a hp').resolve_left hr'.2
    rw [h1] at h2
    exact Option.some.inj h2

/-- **C63** fails: with any number of workers, at least one, and any application thread `b`, two tasks can run at the same
time on different threads and both have `threadIndex` 0, namely one on the first worker and one on `b` while it waits in
`sync`; and they do not agree about `threadCount`, unless there is one worker. -/
theorem threadIndex_wrong {ok : Nat → Prop} (h2 : ok 2) {n : Nat} {w : Nat → Bool} (a b : Nat) (ha : a < n) (hwa : w a = true)
    (hfirst : rank w a = 0) (hb : b < n) (hwb : w b = false) :
    ∃ s c c', Reach ok n w s ∧ Running s c ∧ Running s c' ∧ OnThread s c a ∧ OnThread s c' b ∧ a ≠ b ∧
      seesThread n w s c = some (0, rank w n) ∧ seesThread n w s c' = some (0, 1) := by
  have hab : a ≠ b := by rintro rfl; rw [hwa] at hwb; cases hwb
  have r0 : Reach ok n w (init n w) := .init
  have r1 := Reach.step _ _ r0 (Step.allocGroup _ b 0 (by simp [init, hb, hwb]) rfl (by intro b; simp [init]))
  have r2 := Reach.step _ _ r1 (Step.launch _ b 0 7 2 (by simp [init, hb, hwb]) (by simp) h2)
  have r3 := Reach.step _ _ r2 (Step.enqueue _ b 0 0 2 (by simp [St.launch, init]) (by simp [St.launch]))
  have r4 := Reach.step _ _ r3 (Step.add _ b 0 2 (by simp [St.launch, St.enqueue]) (by simp [St.launch, St.enqueue]))
  have r5 := Reach.step _ _ r4 (Step.post _ b 1 (by simp [St.goto]))
  have r6 := Reach.step _ _ r5 (Step.post _ b 0 (by simp [St.goto]))
  have r7 := Reach.step _ _ r6 (Step.postEnd _ b (by simp [St.goto]))
  have r8 := Reach.step _ _ r7 (Step.wake _ a (by simp [St.goto, St.launch, St.enqueue, hab, init, ha, hwa])
    (by simp [St.goto, St.launch, St.enqueue, init]))
  have r9 := Reach.step _ _ r8 (Step.wokenTake _ a 0 [] 1 [0] (by simp [St.goto])
    (by simp [St.goto, St.launch, St.enqueue, init]) (by simp [St.goto, St.launch, St.enqueue, init, List.range']))
  have r10 := Reach.step _ _ r9 (Step.start _ a 0 1 (by simp [St.take]))
  have r11 := Reach.step _ _ r10 (Step.syncStart _ b 0
    (by simp [St.startTask, St.spawn, St.take, St.goto, St.launch, St.enqueue, hab.symm, init, Nat.ne_of_lt hb])
    (by simp [St.startTask, St.spawn, St.take, St.goto, St.launch, St.enqueue]))
  have r12 := Reach.step _ _ r11 (Step.syncHelp _ b 0 (by simp [St.goto])
    (by simp [St.startTask, St.spawn, St.take, St.goto, St.launch, St.enqueue])
    (by simp [St.startTask, St.spawn, St.take, St.goto, St.launch, St.enqueue, init]))
  have r13 := Reach.step _ _ r12 (Step.lockOwn _ b 0 0 [] (by simp [St.goto])
    (by simp [St.startTask, St.spawn, St.take, St.goto, St.launch, St.enqueue])
    (by simp [St.startTask, St.spawn, St.take, St.goto, St.launch, St.enqueue]))
  have r14 := Reach.step _ _ r13 (Step.start _ b 0 0 (by simp [St.take]))
  have a1 : a ≠ n ∧ a ≠ n + 1 := by omega
  have b1 : b ≠ n ∧ b ≠ n + 1 := by omega
  refine ⟨_, n, n + 1, r14, ?_, ?_, ?_, ?_, hab, ?_, ?_⟩
  · constructor <;> simp [St.startTask, St.spawn, St.take, St.goto, St.launch, St.enqueue, init, Nat.ne_of_gt hb]
  · constructor <;> simp [St.startTask, St.spawn, St.take, St.goto, St.launch, St.enqueue, init]
  · refine .sub n a a ?_ (.self a ?_) <;>
      simp [St.startTask, St.spawn, St.take, St.goto, St.launch, St.enqueue, init, a1]
  · refine .sub (n + 1) b b ?_ (.self b ?_) <;>
      simp [St.startTask, St.spawn, St.take, St.goto, St.launch, St.enqueue, init, b1]
  · rw [seesThread_worker (a := a), threadArgs, worker_eq r14, hfirst]
    · simp [ha, hwa]
    · simp [St.startTask, St.spawn, St.take, St.goto, St.launch, St.enqueue, init]
    · simp [St.startTask, St.spawn, St.take, St.goto, St.launch, St.enqueue, init]
  · rw [seesThread_worker (a := b), threadArgs, worker_eq r14]
    · simp [hwb]
    · simp [St.startTask, St.spawn, St.take, St.goto, St.launch, St.enqueue, init]
    · simp [St.startTask, St.spawn, St.take, St.goto, St.launch, St.enqueue, init]

/-- The hypotheses are met: seven workers and an application thread. -/
example : ∃ s c c', Reach (fun c => 0 < c) 8 (fun a => decide (0 < a)) s ∧ Running s c ∧ Running s c' ∧ OnThread s c 1 ∧ OnThread s c' 0 ∧
    1 ≠ 0 ∧ seesThread 8 (fun a => decide (0 < a)) s c = some (0, 7) ∧ seesThread 8 (fun a => decide (0 < a)) s c' = some (0, 1) :=
  threadIndex_wrong (by decide) 1 0 (by decide) rfl rfl (by decide) rfl

/-- Two workers run the two tasks of a launch: the hypotheses of `workers_partial` are met. -/
example : ∃ s, Reach (fun c => decide (0 < c) = true) 3 (fun a => decide (0 < a)) s ∧ Running s 3 ∧ Running s 4 ∧
    s.parent 3 = some 1 ∧ s.parent 4 = some 2 ∧ seesThread 3 (fun a => decide (0 < a)) s 3 = some (0, 2) ∧
    seesThread 3 (fun a => decide (0 < a)) s 4 = some (1, 2) := by
  obtain ⟨s, hr, _, hv⟩ := run_reach (okb := fun c => decide (0 < c)) (n := 3) (w := fun a => decide (0 < a))
    [(0, .alloc 0), (0, .launch 7 2), (0, .go), (0, .go), (0, .go), (0, .go), (1, .go), (1, .go), (1, .go), (2, .go), (2, .go),
      (2, .go)]
    (fun s : St => decide (s.task 3 ≠ none ∧ s.pc 3 ≠ .done ∧ s.task 4 ≠ none ∧ s.pc 4 ≠ .done ∧ s.parent 3 = some 1 ∧
      s.parent 4 = some 2 ∧ seesThread 3 (fun a => decide (0 < a)) s 3 = some (0, 2) ∧
      seesThread 3 (fun a => decide (0 < a)) s 4 = some (1, 2))) true (by decide +kernel)
  obtain ⟨e1, e2, e3, e4, e5, e6, e7, e8⟩ := of_decide_eq_true hv
  exact ⟨s, hr, ⟨e1, e2⟩, ⟨e3, e4⟩, e5, e6, e7, e8⟩

end Ispc.Sched
