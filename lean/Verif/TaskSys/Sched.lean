import Mathlib.Data.List.Range
import Mathlib.Data.List.Count
import Mathlib.Tactic.Common

/-!
# The pthreads task system

`examples/common/tasksys.cpp` (built with `ISPC_USE_PTHREADS`, the default on Linux) as a transition system
over any number of threads.  What is sequential in the program is an *activation*: a worker thread's loop
(`lTaskEntry`), or one call of an ispc function together with the `ISPCLaunch`/`ISPCSync` calls made on its
behalf with its own task group handle.  An activation that calls another (a plain call, or running a task
from within `Sync` or the worker loop) waits until the callee is `done`; a thread is a chain of such
activations, so every interleaving of threads is an interleaving of activations.

Granularity: a section between `pthread_mutex_lock` and `pthread_mutex_unlock` is one step (all accesses to
`waitingTasks`, `inActiveList` and `activeTaskGroups` are inside such sections, all on the same mutex); each
access to `numUnfinishedTasks`, each `sem_post`/`sem_wait`, the writing of the `TaskInfo`s of a launch, the
read of a `TaskInfo` and the task function call are steps of their own.  Memory is sequentially consistent
(the code fences around its atomic updates).

Simplifications: integers are unbounded (the code stops the process once 2^21 tasks have been launched from
one function); failing system calls, which stop the process, are left out; memory obtained by `ISPCAlloc` is
the subject of `Verif/TaskSys/Alloc.lean`; `AllocTaskGroup` is assumed to hand out a group no activation
owns (see `Verif/TaskSys/FreeList.lean` for what the code does).
-/

namespace Ispc.Sched

/-- `f` with the value at `a` replaced. -/
def upd {β : Type} (f : Nat → β) (a : Nat) (v : β) : Nat → β := fun x => if x = a then v else f x

@[simp, grind =] theorem upd_apply {β : Type} (f : Nat → β) (a : Nat) (v : β) (x : Nat) :
    upd f a v x = if x = a then v else f x := rfl

/-- `f` with the value at `a`, `n` replaced. -/
def upd2 {β : Type} (f : Nat → Nat → β) (a n : Nat) (v : β) : Nat → Nat → β :=
  fun x m => if x = a ∧ m = n then v else f x m

@[simp, grind =] theorem upd2_apply {β : Type} (f : Nat → Nat → β) (a n : Nat) (v : β) (x m : Nat) :
    upd2 f a n v x m = if x = a ∧ m = n then v else f x m := rfl

/-- `struct TaskInfo` (examples/common/tasksys.cpp:144-160): the argument block (`func`, `data`, here one
    value `arg`), the task's index within its launch and the number of tasks of that launch.  `launch` is
    history only: which launch wrote this record. -/
structure TaskInfo where
  launch : Nat
  arg : Nat
  index : Nat
  count : Nat
deriving DecidableEq

/-- One more of `t`. -/
def bump (f : TaskInfo → Nat) (t : TaskInfo) : TaskInfo → Nat := fun x => if x = t then f x + 1 else f x

@[simp, grind =] theorem bump_apply (f : TaskInfo → Nat) (t x : TaskInfo) :
    bump f t x = if x = t then f x + 1 else f x := rfl

/-- Where an activation is. -/
inductive Pc where
  /-- a worker before `sem_wait` (examples/common/tasksys.cpp:561) -/
  | idle
  /-- a worker before `pthread_mutex_lock` (examples/common/tasksys.cpp:569) -/
  | woken
  /-- ispc code of the function -/
  | code
  /-- waiting for the called function's activation -/
  | calling (c : Nat)
  /-- in `TaskGroup::Launch` before the lock (examples/common/tasksys.cpp:690-695) -/
  | enq (base cnt : Nat)
  /-- in `TaskGroup::Launch` before `lAtomicAdd` (examples/common/tasksys.cpp:727) -/
  | add (cnt : Nat)
  /-- in `TaskGroup::Launch` with `k` posts left (examples/common/tasksys.cpp:733-737) -/
  | post (k : Nat)
  /-- in `TaskGroup::Sync` at the loop test (examples/common/tasksys.cpp:743) -/
  | sync
  /-- in `TaskGroup::Sync` before the lock (examples/common/tasksys.cpp:753) -/
  | lock
  /-- holding task number `n` of group `g`, not yet started (examples/common/tasksys.cpp:601-610, 770, 804) -/
  | fetched (g n : Nat)
  /-- inside the call of the task function, activation `c` (examples/common/tasksys.cpp:611-613, 817-819) -/
  | called (g n : Nat) (t : TaskInfo) (c : Nat)
  /-- task function returned, before `lAtomicAdd(.., -1)` (examples/common/tasksys.cpp:620, 825) -/
  | dec (g n : Nat)
  /-- the function has returned -/
  | done
  /-- not called yet -/
  | unborn
deriving DecidableEq

/-- History: what has become of a task number of a group. -/
inductive Loc where
  | pending
  | waiting
  | flight (a : Nat)
  | over
deriving DecidableEq

/-- The shared state, the activations, and what is recorded for the specification. -/
structure St where
  /-- `TaskGroup::waitingTasks` per group, last element first -/
  waiting : Nat → List Nat
  /-- `TaskGroup::inActiveList` -/
  inAct : Nat → Bool
  /-- `activeTaskGroups`, last element first (examples/common/tasksys.cpp:548) -/
  active : List Nat
  /-- `TaskGroup::numUnfinishedTasks` -/
  unfin : Nat → Int
  /-- `TaskGroupBase::nextTaskInfoIndex` (examples/common/tasksys.cpp:200) -/
  next : Nat → Nat
  /-- `GetTaskInfo(n)` of each group (examples/common/tasksys.cpp:256-274) -/
  info : Nat → Nat → TaskInfo
  /-- value of `workerSemaphore` -/
  sem : Nat
  /-- is this activation a worker thread's loop -/
  worker : Nat → Bool
  /-- the activation's task group handle, the variable whose address is passed to `ISPCLaunch` -/
  handle : Nat → Option Nat
  pc : Nat → Pc
  /-- number of activations so far; activations are numbered in order of creation -/
  na : Nat
  /-- a failed `assert(tg->waitingTasks.size() > 0)`, or `back()` of an empty vector
      (examples/common/tasksys.cpp:590-591, 794-796) -/
  crash : Bool
  /-- recorded: how often the task function was entered / has returned with this `TaskInfo` -/
  started : TaskInfo → Nat
  finished : TaskInfo → Nat
  /-- recorded: launches so far, and for each who launched it, with what argument, how many tasks -/
  nl : Nat
  launcher : Nat → Nat
  larg : Nat → Nat
  lsize : Nat → Nat
  /-- recorded: the activation that called this one, and the task this one runs, if any -/
  parent : Nat → Option Nat
  task : Nat → Option TaskInfo
  /-- history used in the proofs -/
  stat : Nat → Nat → Loc

/-- Initially: `n` threads, each a worker loop or an application thread running some function; no task
    groups in use (`TaskGroupBase::TaskGroupBase`, examples/common/tasksys.cpp:221-235). -/
def init (n : Nat) (w : Nat → Bool) : St where
  waiting _ := []
  inAct _ := false
  active := []
  unfin _ := 0
  next _ := 0
  info _ _ := ⟨0, 0, 0, 0⟩
  sem := 0
  worker a := decide (a < n) && w a
  handle _ := none
  pc a := if a < n then (if w a then .idle else .code) else .unborn
  na := n
  crash := false
  started _ := 0
  finished _ := 0
  nl := 0
  launcher _ := 0
  larg _ := 0
  lsize _ := 0
  parent _ := none
  task _ := none
  stat _ _ := .over

/-- Activation `a` goes to `p`. -/
def St.goto (s : St) (a : Nat) (p : Pc) : St := { s with pc := upd s.pc a p }

/-- Take task number `n` off group `g`, leaving `ns` waiting: the group leaves the active list (`act'` is the
    list without it) when nothing is left to start.
    Models examples/common/tasksys.cpp:591-599, 761-769 and 796-803. -/
def St.take (s : St) (a g n : Nat) (ns act' : List Nat) : St :=
  { s with
    waiting := upd s.waiting g ns
    active := if ns = [] then act' else s.active
    inAct := if ns = [] then upd s.inAct g false else s.inAct
    pc := upd s.pc a (.fetched g n)
    stat := upd2 s.stat g n (.flight a) }

/-- A new activation `s.na` begins executing, called from `a`, which waits at `p`. -/
def St.spawn (s : St) (a : Nat) (p : Pc) (t : Option TaskInfo) : St :=
  { s with
    pc := upd (upd s.pc a p) s.na .code
    na := s.na + 1
    parent := upd s.parent s.na (some a)
    task := upd s.task s.na t }

/-- Enter the task function: read the `TaskInfo` and call.
    Models examples/common/tasksys.cpp:610-613 and 770, 804, 817-819. -/
def St.startTask (s : St) (a g n : Nat) : St :=
  let t := s.info g n
  { s.spawn a (.called g n t s.na) (some t) with
    started := bump s.started t }

/-- `ISPCLaunch` up to the call of `TaskGroup::Launch`: reserve `cnt` numbers and write their `TaskInfo`s.
    Models examples/common/tasksys.cpp:985-995 and `AllocTaskInfo`, 250-254. -/
def St.launch (s : St) (a g arg cnt : Nat) : St :=
  let base := s.next g
  { s with
    next := upd s.next g (base + cnt)
    info := fun x n =>
      if x = g ∧ base ≤ n ∧ n < base + cnt then ⟨s.nl, arg, n - base, cnt⟩ else s.info x n
    pc := upd s.pc a (.enq base cnt)
    nl := s.nl + 1
    launcher := upd s.launcher s.nl a
    larg := upd s.larg s.nl arg
    lsize := upd s.lsize s.nl cnt
    stat := fun x n => if x = g ∧ base ≤ n then .pending else s.stat x n }

/-- The locked part of `TaskGroup::Launch`: append the new numbers and activate the group.
    Models examples/common/tasksys.cpp:707-715. -/
def St.enqueue (s : St) (a g base cnt : Nat) : St :=
  { s with
    waiting := upd s.waiting g ((List.range' base cnt).reverse ++ s.waiting g)
    active := if s.inAct g then s.active else g :: s.active
    inAct := upd s.inAct g true
    pc := upd s.pc a (.add cnt)
    stat := fun x n => if x = g ∧ base ≤ n ∧ n < base + cnt then .waiting else s.stat x n }

/-- One step of the system.  `ok` says which task counts may be launched. -/
inductive Step (ok : Nat → Prop) : St → St → Prop where
  /-- `sem_wait` returns (examples/common/tasksys.cpp:561) -/
  | wake (s a) : s.pc a = .idle → 0 < s.sem →
      Step ok s { s.goto a .woken with sem := s.sem - 1 }
  /-- no active group: back to the semaphore (examples/common/tasksys.cpp:574-583) -/
  | wokenNone (s a) : s.pc a = .woken → s.active = [] → Step ok s (s.goto a .idle)
  /-- take a task from the last active group (examples/common/tasksys.cpp:589-599) -/
  | wokenTake (s a g rest n ns) : s.pc a = .woken → s.active = g :: rest → s.waiting g = n :: ns →
      Step ok s (s.take a g n ns rest)
  /-- the last active group has no waiting task (examples/common/tasksys.cpp:590-591) -/
  | wokenCrash (s a g rest) : s.pc a = .woken → s.active = g :: rest → s.waiting g = [] →
      Step ok s { s with crash := true }
  /-- call the task function (examples/common/tasksys.cpp:610-613, 817-819) -/
  | start (s a g n) : s.pc a = .fetched g n → Step ok s (s.startTask a g n)
  /-- the task function returns -/
  | finish (s a g n t c) : s.pc a = .called g n t c → s.pc c = .done →
      Step ok s { s.goto a (.dec g n) with finished := bump s.finished t }
  /-- decrement the count of unfinished tasks, and loop (examples/common/tasksys.cpp:620, 825) -/
  | dec (s a g n) : s.pc a = .dec g n →
      Step ok s { s.goto a (if s.worker a then .idle else .sync) with
        unfin := upd s.unfin g (s.unfin g - 1)
        stat := upd2 s.stat g n .over }
  /-- first `ISPCAlloc` or `ISPCLaunch` of an activation: get a task group nobody owns
      (examples/common/tasksys.cpp:978-981, 1008-1011) -/
  | allocGroup (s a g) : s.pc a = .code → s.handle a = none → (∀ b, s.handle b ≠ some g) →
      Step ok s { s with handle := upd s.handle a (some g) }
  /-- `ISPCLaunch` (examples/common/tasksys.cpp:985-995) -/
  | launch (s a g arg cnt) : s.pc a = .code → s.handle a = some g → ok cnt →
      Step ok s (s.launch a g arg cnt)
  /-- `TaskGroup::Launch`, locked part (examples/common/tasksys.cpp:707-715) -/
  | enqueue (s a g base cnt) : s.pc a = .enq base cnt → s.handle a = some g →
      Step ok s (s.enqueue a g base cnt)
  /-- `lAtomicAdd(&numUnfinishedTasks, count)` (examples/common/tasksys.cpp:727) -/
  | add (s a g cnt) : s.pc a = .add cnt → s.handle a = some g →
      Step ok s { s.goto a (.post cnt) with unfin := upd s.unfin g (s.unfin g + cnt) }
  /-- `sem_post` (examples/common/tasksys.cpp:733-734) -/
  | post (s a k) : s.pc a = .post (k + 1) → Step ok s { s.goto a (.post k) with sem := s.sem + 1 }
  /-- `ISPCLaunch` returns -/
  | postEnd (s a) : s.pc a = .post 0 → Step ok s (s.goto a .code)
  /-- `ISPCSync`; generated code calls it when the handle is not null (src/ctx.cpp:4042-4069) -/
  | syncStart (s a g) : s.pc a = .code → s.handle a = some g → Step ok s (s.goto a .sync)
  /-- the loop in `Sync` ends, `FreeTaskGroup` resets and releases the group
      (examples/common/tasksys.cpp:743, 1001-1002, 959-971), the handle becomes null (src/ctx.cpp:4042-4069) -/
  | syncExit (s a g) : s.pc a = .sync → s.handle a = some g → s.unfin g ≤ 0 →
      Step ok s { s.goto a .code with
        handle := upd s.handle a none
        next := upd s.next g 0 }
  /-- tasks unfinished: try to help (examples/common/tasksys.cpp:743-753) -/
  | syncHelp (s a g) : s.pc a = .sync → s.handle a = some g → 0 < s.unfin g → Step ok s (s.goto a .lock)
  /-- take a task of the own group (examples/common/tasksys.cpp:760-770) -/
  | lockOwn (s a g n ns) : s.pc a = .lock → s.handle a = some g → s.waiting g = n :: ns →
      Step ok s (s.take a g n ns (s.active.erase g))
  /-- nothing active: sleep, test again (examples/common/tasksys.cpp:777-790) -/
  | lockNone (s a g) : s.pc a = .lock → s.handle a = some g → s.waiting g = [] → s.active = [] →
      Step ok s (s.goto a .sync)
  /-- take a task of the last active group (examples/common/tasksys.cpp:793-804) -/
  | lockOther (s a g g' rest n ns) : s.pc a = .lock → s.handle a = some g → s.waiting g = [] →
      s.active = g' :: rest → s.waiting g' = n :: ns → Step ok s (s.take a g' n ns rest)
  /-- the last active group has no waiting task (examples/common/tasksys.cpp:794-796) -/
  | lockCrash (s a g g' rest) : s.pc a = .lock → s.handle a = some g → s.waiting g = [] →
      s.active = g' :: rest → s.waiting g' = [] → Step ok s { s with crash := true }
  /-- an ispc function calls another -/
  | call (s a) : s.pc a = .code → Step ok s (s.spawn a (.calling s.na) none)
  /-- a call returns -/
  | back (s a c) : s.pc a = .calling c → s.pc c = .done → Step ok s (s.goto a .code)
  /-- a function returns: generated code has synchronised before (src/ctx.cpp:3919-3958), so the handle is
      null.  (When the compiler fails to emit that sync is the subject of
      `Verif/TaskSys/ImplicitSync.lean`.) -/
  | ret (s a) : s.pc a = .code → s.handle a = none → Step ok s (s.goto a .done)

/-- States the system can reach from `n` threads of which `w` are workers. -/
inductive Reach (ok : Nat → Prop) (n : Nat) (w : Nat → Bool) : St → Prop where
  | init : Reach ok n w (init n w)
  | step (s s') : Reach ok n w s → Step ok s s' → Reach ok n w s'

end Ispc.Sched
