import Mathlib.Tactic.Common

/-!
# C53: the task queue of a GPU device

`ispcrt/detail/gpu/GPUDevice.cpp`: `Event`, `EventPool`, `CommandList`, `CommandQueue`, `TaskQueue`.

Level Zero is not part of the repository.  What is used of it: a command of a list that has been given to a queue
starts at some time, when the events it waits for are signalled and, if a barrier stands between them in the list,
when the commands before the barrier have ended; it ends at some later time and then signals its event;
`zeCommandQueueSynchronize` returns when all commands given to that queue have ended; a list that is reset, and an
event that is destroyed, may not be in use.  Nothing else is assumed about the order of commands: not that those of
one list, or of two lists given to one queue, run one after the other.  Level Zero may refuse each command that is
appended to a list.

Events, commands and futures are numbered in the order in which they are made.
-/

namespace Ispc.GpuQueue

/-- The members `m_cl_compute`, `m_cl_mem_h2d`, `m_cl_mem_d2h` (`GPUDevice.cpp:1665-1667`). -/
inductive Role where
  | compute
  | h2d
  | d2h
deriving DecidableEq, Repr

/-- The three ways to set up a task queue (`GPUDevice.cpp:1435-1486`): one list for everything (the mock device, or
    `ISPCRT_DISABLE_MULTI_COMMAND_LISTS`); three lists and one queue (no copy engine, or
    `ISPCRT_DISABLE_COPY_ENGINE`); three lists and two queues. -/
inductive Mode where
  | oneList
  | lists
  | engine
deriving DecidableEq, Repr

/-- Which list a member is (`GPUDevice.cpp:1471-1478`). -/
def Mode.listOf : Mode → Role → Role
  | .oneList, _ => .compute
  | _, r => r

/-- The queue a list is given to (`GPUDevice.cpp:1480-1486`, `1685-1689`); `true` is a copy queue of its own. -/
def Mode.queueOf : Mode → Role → Bool
  | .engine, .h2d => true
  | .engine, .d2h => true
  | _, _ => false

/-- The setting: how the queue is set up, `ISPCRT_MAX_KERNEL_LAUNCHES`, the properties of the device's timer
    (`kernelTimestampValidBits`, `timerResolution`), and the ticks of a clock of unlimited width at which each command
    starts and ends. -/
structure Cfg where
  mode : Mode
  maxLaunches : Option Nat
  bits : Nat
  res : Nat
  ticks : Nat → Nat × Nat

/-- `POOL_SIZE_CAP` (`GPUDevice.cpp:496`). -/
def poolCap : Nat := 100000

/-- The size of the pool of events for kernels (`GPUDevice.cpp:514-526`). -/
def Cfg.launches (c : Cfg) : Nat := min (c.maxLaunches.getD poolCap) poolCap

/-- The commands of the application that reach a command list. -/
inductive Kind where
  | toDevice
  | toHost
  | copyView
  | launch
deriving DecidableEq, Repr

/-- Kernels and copies between views: the commands of the compute list. -/
def Kind.isCompute : Kind → Bool
  | .copyView => true
  | .launch => true
  | _ => false

/-- A command in Level Zero: the list it is in, the queue the list is for, the events it waits for, the event it
    signals, and the commands before the last barrier in its list.  `batch` is the number of calls of `sync` that had
    returned when it was made; no code looks at it. -/
structure Cmd where
  kind : Kind
  list : Role
  queue : Bool
  waits : List Nat
  signal : Option Nat
  after : List Nat
  batch : Nat

/-- Where a command is: in an open list, given to a queue, running, ended. -/
inductive St where
  | listed
  | queued
  | running
  | done
deriving DecidableEq, Repr

/-- `CommandList` (`GPUDevice.cpp:424-491`); `cmds` and `fence` are what Level Zero knows of it: the commands in it,
    and those before its last barrier. -/
structure CL where
  cmds : List Nat
  fence : List Nat
  count : Nat
  submitted : Bool
  events : List Nat

/-- A new command list. -/
def CL.empty : CL := { cmds := [], fence := [], count := 0, submitted := false, events := [] }

/-- `EventPool` (`GPUDevice.cpp:495-615`): `m_freeList` and `m_events_pool`. -/
structure EvPool where
  free : List Nat
  events : List Nat

/-- The task queue, and Level Zero behind it.  `index` is the index of an event in its pool; `stamp` is what
    `zeEventQueryKernelTimestamp` gives; `time` is `m_valid` and `m_time` of a future; `runs` counts how often a
    command has started; `wait` is the queue that a call of `sync` is waiting for (`some none`: for no queue);
    `futureOf` is the command a future was made for. -/
structure World where
  cmd : Nat → Cmd
  ncmd : Nat
  st : Nat → St
  runs : Nat → Nat
  signalled : Nat → Bool
  stamp : Nat → Nat × Nat
  index : Nat → Nat
  nev : Nat
  lists : Role → CL
  compute : EvPool
  copy : EvPool
  pend : List (Nat × Nat)
  time : Nat → Option Nat
  futureOf : Nat → Nat
  nfut : Nat
  batch : Nat
  bars : List Nat
  wait : Option (Option Bool)
  ub : Bool

/-- A map with one entry changed. -/
def upd {κ α : Type} [DecidableEq κ] (f : κ → α) (k : κ) (v : α) : κ → α := fun x => if x = k then v else f x

/-- What a call gives. -/
inductive Res where
  | ok
  | future (f : Nat)
  | threw
deriving DecidableEq, Repr

/-! ## Time -/

/-- `m_timestampMaxValue` (`GPUDevice.cpp:506-512`). -/
def maxStamp (bits : Nat) : Nat := if bits < 64 then 2 ^ bits - 1 else 2 ^ 64 - 1

/-- The time of a kernel (`GPUDevice.cpp:1638-1646`), with 64-bit unsigned arithmetic. -/
def elapsed (bits res : Nat) (s e : Nat) : Nat :=
  (if e ≥ s then e - s else maxStamp bits - s + e + 1) * res % 2 ^ 64

/-! ## Command lists and events -/

/-- `CommandList::clear` and `reset` (`GPUDevice.cpp:444-455`): Level Zero's list is emptied if commands have been counted. -/
def CL.reset (l : CL) : CL :=
  if l.count > 0 then CL.empty else { l with count := 0, submitted := false, events := [] }

/-- `EventPool::createEvent` (`GPUDevice.cpp:556-564`): the new event, with the first free index. -/
def World.create (w : World) (p : EvPool) : Option (World × EvPool × Nat) :=
  match p.free with
  | [] => none
  | i :: rest =>
    some ({ w with index := upd w.index w.nev i, signalled := upd w.signalled w.nev false, nev := w.nev + 1 },
      { p with free := rest }, w.nev)

/-- `EventPool::deleteEvent` (`GPUDevice.cpp:566-570`). -/
def World.delete (w : World) (p : EvPool) (e : Nat) : EvPool := { p with free := p.free ++ [w.index e] }

/-- `EventPool::getEvent` (`GPUDevice.cpp:572-594`): the first event that is signalled, which is reset, or a new
    one. -/
def World.getEvent (w : World) : Option (World × Nat) :=
  match w.copy.events.find? (fun e => w.signalled e) with
  | some e => some ({ w with signalled := upd w.signalled e false }, e)
  | none =>
    match w.create w.copy with
    | none => none
    | some (w, p, e) => some ({ w with copy := { p with events := p.events ++ [e] } }, e)

/-- Append a command to the list of a member and count it: `zeCommandListAppendMemoryCopy`,
    `zeCommandListAppendLaunchKernel`, `CommandList::inc` (`GPUDevice.cpp:465-468`). -/
def World.append (c : Cfg) (w : World) (k : Kind) (r : Role) (waits : List Nat) (signal : Option Nat) : World :=
  let n := c.mode.listOf r
  let l := w.lists n
  { w with
    cmd := upd w.cmd w.ncmd
      { kind := k, list := n, queue := c.mode.queueOf r, waits := waits, signal := signal, after := l.fence
        batch := w.batch }
    ncmd := w.ncmd + 1
    st := upd w.st w.ncmd .listed
    runs := upd w.runs w.ncmd 0
    lists := upd w.lists n { l with cmds := l.cmds ++ [w.ncmd], count := l.count + 1, submitted := false } }

/-! ## The calls -/

/-- `copyToDevice` (`GPUDevice.cpp:1520-1528`).  If the append fails the event stays in the pool, never signalled. -/
def copyToDevice (c : Cfg) (w : World) (ok : Bool) : World × Res :=
  match w.getEvent with
  | none => (w, .threw)
  | some (w, e) =>
    if ok then
      let w := w.append c .toDevice .h2d [] (some e)
      let n := c.mode.listOf .h2d
      let l := w.lists n
      ({ w with lists := upd w.lists n { l with events := l.events ++ [e] } }, .ok)
    else (w, .threw)

/-- `copyToHost` (`GPUDevice.cpp:1506-1518`). -/
def copyToHost (c : Cfg) (w : World) (ok : Bool) : World × Res :=
  if ok then (w.append c .toHost .d2h (w.pend.map (·.1)) none, .ok) else (w, .threw)

/-- What `copyMemoryView` and `launch` have in common (`GPUDevice.cpp:1534-1549`, `1579-1597`): an event from the
    pool, the command in the compute list, a new future. -/
def computeCmd (c : Cfg) (w : World) (k : Kind) (waits : List Nat) (ok : Bool) : World × Res :=
  match w.create w.compute with
  | none => (w, .threw)
  | some (w, p, e) =>
    if ok then
      let f := w.nfut
      let n := w.ncmd
      let w := ({ w with compute := p } : World).append c k .compute waits (some e)
      ({ w with pend := w.pend ++ [(e, f)], time := upd w.time f none, futureOf := upd w.futureOf f n, nfut := f + 1 },
        .future f)
    else ({ w with compute := w.delete p e }, .threw)

/-- `copyMemoryView` (`GPUDevice.cpp:1530-1550`): waits for nothing.  Its future is not given to the application. -/
def copyMemoryView (c : Cfg) (w : World) (ok : Bool) : World × Res :=
  match computeCmd c w .copyView [] ok with
  | (w, .future _) => (w, .ok)
  | r => r

/-- `launch` (`GPUDevice.cpp:1552-1598`): waits for the copies to the device in the list. -/
def launch (c : Cfg) (w : World) (ok : Bool) : World × Res :=
  computeCmd c w .launch (w.lists (c.mode.listOf .h2d)).events ok

/-- `barrier` (`GPUDevice.cpp:1504`): in the compute list only, and not counted. -/
def barrier (w : World) : World × Res :=
  ({ w with lists := upd w.lists .compute { w.lists .compute with fence := (w.lists .compute).cmds }
            bars := w.bars ++ [w.ncmd] }, .ok)

/-- `CommandList::submit` (`GPUDevice.cpp:457-463`).  To give a list to a queue again runs its commands again: that is
    marked as an error. -/
def World.submit (c : Cfg) (w : World) (r : Role) : World :=
  let n := c.mode.listOf r
  let l := w.lists n
  if !l.submitted && decide (l.count > 0) then
    { w with ub := w.ub || l.cmds.any fun i => w.st i != .listed
             st := fun i => if i ∈ l.cmds then .queued else w.st i
             lists := upd w.lists n { l with submitted := true } }
  else w

/-- `anyH2DCopyCommand`, `anyD2HCopyCommand` (`GPUDevice.cpp:1691-1692`). -/
def World.any (c : Cfg) (w : World) (r : Role) : Bool := decide ((w.lists (c.mode.listOf r)).count > 0)

/-- The queue to wait for (`GPUDevice.cpp:1605-1627`); `anyComputeCommand` (`1693`) is `pend` not being empty. -/
def World.waitFor (c : Cfg) (w : World) : Option Bool :=
  if c.mode = .engine then
    if w.any c .d2h then some true
    else if !w.pend.isEmpty then some false
    else if w.any c .h2d then some true
    else none
  else if w.any c .d2h || w.any c .h2d || !w.pend.isEmpty then some false
  else none

/-- The first part of `sync` (`GPUDevice.cpp:1600-1627`, `1685-1689`): the lists are submitted, and the host waits. -/
def syncBegin (c : Cfg) (w : World) : World :=
  let w := ((w.submit c .h2d).submit c .compute).submit c .d2h
  { w with wait := some (w.waitFor c) }

/-- The loop over the events of kernels (`GPUDevice.cpp:1633-1650`): the future gets the time, the event goes. -/
def World.finishAll (c : Cfg) (w : World) : List (Nat × Nat) → World
  | [] => w
  | (e, f) :: rest =>
    ({ w with
      time := upd w.time f (some (elapsed c.bits c.res (w.stamp e).1 (w.stamp e).2))
      compute := w.delete w.compute e } : World).finishAll c rest

/-- All commands in the three lists have ended. -/
def World.idle (w : World) : Bool :=
  [Role.compute, .h2d, .d2h].all fun r => (w.lists r).cmds.all fun i => w.st i == .done

/-- The rest of `sync` (`GPUDevice.cpp:1628-1653`).  Level Zero does not allow lists to be reset, or events to be
    destroyed, while commands use them. -/
def syncEnd (c : Cfg) (w : World) : World :=
  if !w.idle then { w with ub := true }
  else
    let w := { w with lists := fun r => (w.lists r).reset }
    let w := w.finishAll c w.pend
    { w with pend := [], batch := w.batch + 1, wait := none }

/-! ## Histories -/

/-- What happens: calls of the application (with Level Zero's answer to the command that is appended), the return of
    `sync`, and commands that start and end. -/
inductive Act where
  | toDevice (ok : Bool)
  | toHost (ok : Bool)
  | copyView (ok : Bool)
  | launch (ok : Bool)
  | barrier
  | sync
  | syncReturns
  | start (i : Nat)
  | finish (i : Nat)
deriving DecidableEq, Repr

/-- All commands given to a queue have ended. -/
def World.queueDone (w : World) (q : Bool) : Bool :=
  (List.range w.ncmd).all fun i =>
    decide ((w.cmd i).queue ≠ q) || decide (w.st i = .listed) || decide (w.st i = .done)

/-- A command can start. -/
def World.canStart (w : World) (i : Nat) : Bool :=
  decide (i < w.ncmd) && decide (w.st i = .queued) && (w.cmd i).waits.all (fun e => w.signalled e) &&
    (w.cmd i).after.all fun j => decide (w.st j = .done)

/-- Start a command. -/
def World.start (w : World) (i : Nat) : World :=
  { w with st := upd w.st i .running, runs := upd w.runs i (w.runs i + 1) }

/-- End a command: its event is signalled, and stamped with the ticks, of which the device has `bits` bits. -/
def World.finish (c : Cfg) (w : World) (i : Nat) : World :=
  match (w.cmd i).signal with
  | none => { w with st := upd w.st i .done }
  | some e =>
    { w with st := upd w.st i .done, signalled := upd w.signalled e true
             stamp := upd w.stamp e ((c.ticks i).1 % 2 ^ c.bits, (c.ticks i).2 % 2 ^ c.bits) }

/-- One event of a history; `none` if it cannot happen.  The application makes no call while `sync` waits. -/
def step (c : Cfg) (w : World) (a : Act) : Option (World × Res) :=
  if w.ub then none
  else
    match a with
    | .start i => if w.canStart i then some (w.start i, .ok) else none
    | .finish i => if i < w.ncmd ∧ w.st i = .running then some (w.finish c i, .ok) else none
    | .syncReturns =>
      match w.wait with
      | none => none
      | some none => some (syncEnd c w, .ok)
      | some (some q) => if w.queueDone q then some (syncEnd c w, .ok) else none
    | a =>
      if w.wait.isSome then none
      else
        match a with
        | .toDevice ok => some (copyToDevice c w ok)
        | .toHost ok => some (copyToHost c w ok)
        | .copyView ok => some (copyMemoryView c w ok)
        | .launch ok => some (launch c w ok)
        | .barrier => some (barrier w)
        | .sync => some (syncBegin c w, .ok)
        | _ => none

/-- A history. -/
def run (c : Cfg) (w : World) : List Act → Option World
  | [] => some w
  | a :: as =>
    match step c w a with
    | none => none
    | some (w, _) => run c w as

/-- A new task queue (`GPUDevice.cpp:1426-1487`, `538-541`). -/
def init (c : Cfg) : World :=
  { cmd := fun _ => { kind := .launch, list := .compute, queue := false, waits := [], signal := none, after := []
                      batch := 0 }
    ncmd := 0, st := fun _ => .listed, runs := fun _ => 0, signalled := fun _ => false, stamp := fun _ => (0, 0)
    index := fun _ => 0, nev := 0, lists := fun _ => CL.empty
    compute := { free := List.range' 0 c.launches, events := [] }
    copy := { free := List.range' 0 poolCap, events := [] }
    pend := [], time := fun _ => none, futureOf := fun _ => 0, nfut := 0, batch := 0, bars := [], wait := none
    ub := false }

/-! ## How many kernel instances a launch starts -/

/-- The number of groups in one dimension (`GPUDevice.cpp:1565-1578`): sizes are cut to 32 bits, and what Level Zero
    suggests is at least 1. -/
def groups (dim suggested : Nat) : Nat := dim % 2 ^ 32 / max (suggested % 2 ^ 32) 1

/-- The instances in one dimension: groups times the size of a group. -/
def instances (dim suggested : Nat) : Nat := groups dim suggested * max (suggested % 2 ^ 32) 1

end Ispc.GpuQueue
