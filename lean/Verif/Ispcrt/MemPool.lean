import Mathlib.Data.Nat.Size
import Mathlib.Tactic.Common

/-!
# C52: memory views and the memory pools behind them

`ispcrt/detail/gpu/GPUDevice.cpp`: `round_up_pow2`, `Bulk`, `ChunkedPool`, `MemoryView`, and the ways to make a
memory view from a device or a context.

Level Zero is not part of the repository.  It is a function that answers each request for memory, knowing what is
allocated and when the request is made; all that is asked of it is `Answers` in `MemPoolProps`.  Addresses and
sizes are natural numbers (a wrap-around of the address space is not modelled); a C++ object has a number instead
of an address.  `std::unordered_map` is a function to `Option`, and the keys of a map that is only looked up are
not enumerated.  Calls are taken one at a time: the classes use no locks and are not meant for several threads.
-/

namespace Ispc.MemPool


/-- What a call gives: a value; a C++ exception (`L0_THROW_IF`, `std::runtime_error`), which the C entry points
    turn into an error; or a failed `assert` or a null pointer dereference. -/
inductive Res where
  | ok (a : Nat)
  | done
  | threw
  | crash
deriving DecidableEq, Repr

/-- The memory allocated through Level Zero: size of the allocation that starts at an address. -/
abbrev Live := Nat → Option Nat

/-- Level Zero's answers to `zeMemAllocShared` and `zeMemAllocDevice`: the time of the request, what is
    allocated, how much is asked for; `none` is an error code. -/
abbrev Driver := Nat → Live → Nat → Option Nat

/-- A map with one entry changed. -/
def upd {α : Type} (f : Nat → α) (k : Nat) (v : α) : Nat → α := fun x => if x = k then v else f x

/-- `__builtin_clzl` of a non-zero 64-bit number (`GPUDevice.cpp:135-143`). -/
def clz (n : Nat) : Nat := 64 - n.size

/-- `round_up_pow2` (`GPUDevice.cpp:144-151`).  Sizes above 2^63, for which the shift is by 64, do not get here:
    the caller has compared with `maxChunkSize`. -/
def roundUpPow2 (x : Nat) : Nat :=
  if x < 2 then x else 2 ^ (64 - clz (x - 1))

/-! ## One hunk of memory, in chunks of one size -/

/-- `Bulk` (`GPUDevice.cpp:617-721`).  `mem` is `m_memPtr`, `init` is `m_initFreeChunks`. -/
structure Bulk where
  mem : Option Nat
  chunk : Nat
  size : Nat
  num : Nat
  init : Nat
  free : List Nat
  used : Nat → Option Nat

/-- The constructors (`GPUDevice.cpp:623-628`): no memory yet. -/
def Bulk.new (chunk size : Nat) : Bulk :=
  { mem := none, chunk := chunk, size := size, num := size / chunk, init := 0, free := [], used := fun _ => none }

/-- `Bulk::full` (`GPUDevice.cpp:675`). -/
def Bulk.full (b : Bulk) : Bool := !(decide (b.init < b.num)) && b.free.isEmpty

/-- `Bulk::chunkPtr` (`GPUDevice.cpp:700`). -/
def Bulk.chunkPtr (b : Bulk) (m : Nat) (i : Nat) : Nat := m + b.chunk * i

/-- `Bulk::allocate` on the first use (`GPUDevice.cpp:636-637`, `702-715`): the bulk and what is allocated
    afterwards, and whether the bulk has memory.  A failed request leaves `m_memPtr` null. -/
def Bulk.ensure (ask : Live → Nat → Option Nat) (l : Live) (b : Bulk) : Live × Bulk × Option Nat :=
  match b.mem with
  | some m => (l, b, some m)
  | none =>
    match ask l b.size with
    | none => (l, b, none)
    | some m => (upd l m (some b.size), { b with mem := some m }, some m)

/-- The choice of a chunk in `Bulk::allocChunk` (`GPUDevice.cpp:644-661`). -/
def Bulk.take (b : Bulk) (m : Nat) : Bulk × Res :=
  if b.free.isEmpty ∧ b.init < b.num then
    ({ b with used := upd b.used (b.chunkPtr m b.init) (some b.init), init := b.init + 1 },
      .ok (b.chunkPtr m b.init))
  else
    match b.free with
    | i :: rest => ({ b with free := rest, used := upd b.used (b.chunkPtr m i) (some i) }, .ok (b.chunkPtr m i))
    | [] => (b, .crash)

/-- `Bulk::allocChunk` (`GPUDevice.cpp:634-662`). -/
def Bulk.allocChunk (ask : Live → Nat → Option Nat) (l : Live) (b : Bulk) : Live × Bulk × Res :=
  match b.ensure ask l with
  | (l, b, none) => (l, b, .threw)
  | (l, b, some m) => (l, (b.take m).1, (b.take m).2)

/-- `Bulk::freeChunk` (`GPUDevice.cpp:665-672`). -/
def Bulk.freeChunk (b : Bulk) (p : Nat) : Option Bulk :=
  match b.used p with
  | none => none
  | some i => some { b with free := b.free ++ [i], used := upd b.used p none }

/-! ## The pool -/

/-- `ChunkedPool` (`GPUDevice.cpp:723-829`).  Bulks are numbered in the order in which they are made; `store` is
    the bulk with a number, `next` the number of the next one; `lists` is `m_bulks`, keyed by chunk size. -/
structure Pool where
  minPow : Nat
  maxPow : Nat
  store : Nat → Bulk
  next : Nat
  lists : Nat → List Nat
  allocated : Nat → Option Nat

/-- The chunk sizes and the first bulk of each (`GPUDevice.cpp:743-747`): bulk `i` has chunks of
    `2^(minPow+i)`. -/
def Pool.firstLists (minPow maxPow : Nat) (c : Nat) : List Nat :=
  if minPow ≤ c.log2 ∧ c.log2 ≤ maxPow ∧ c = 2 ^ c.log2 then [c.log2 - minPow] else []

/-- The constructor (`GPUDevice.cpp:727-747`), given the two numbers read from the environment (6 and 21 if the
    variables are not set); `none` is the exception for numbers out of range. -/
def Pool.new (minPow maxPow : Nat) : Option Pool :=
  if ¬ (1 ≤ minPow ∧ minPow ≤ 30) then none
  else if ¬ (minPow ≤ maxPow ∧ maxPow ≤ 30) then none
  else some
    { minPow := minPow, maxPow := maxPow
      store := fun i => Bulk.new (2 ^ (minPow + i)) (2 ^ maxPow)
      next := maxPow - minPow + 1
      lists := Pool.firstLists minPow maxPow
      allocated := fun _ => none }

/-- `m_minChunkSize` (`GPUDevice.cpp:739`). -/
def Pool.minChunk (p : Pool) : Nat := 2 ^ p.minPow

/-- `m_maxChunkSize` (`GPUDevice.cpp:740`). -/
def Pool.maxChunk (p : Pool) : Nat := 2 ^ p.maxPow

/-- The search for a bulk with room (`GPUDevice.cpp:762-773`): full bulks go from the front of the list to its
    back, at most as often as the list is long.  `true`: all are full. -/
def rotate (full : Nat → Bool) : Nat → List Nat → List Nat × Bool
  | 0, l => (l, true)
  | _ + 1, [] => ([], true)
  | n + 1, b :: l => if full b then rotate full n (l ++ [b]) else (b :: l, false)

/-- The bulk the chunk is taken from (`GPUDevice.cpp:774-777`): the front of the list, or a new one at its back. -/
def Pool.choose (p : Pool) (size : Nat) (r : List Nat × Bool) : Pool × Nat :=
  if r.2 then
    ({ p with store := upd p.store p.next (Bulk.new size p.maxChunk), next := p.next + 1,
              lists := upd p.lists size (r.1 ++ [p.next]) }, p.next)
  else ({ p with lists := upd p.lists size r.1 }, r.1.headD 0)

/-- `allocChunk` on a bulk of the pool, and the entry in `m_allocated` (`GPUDevice.cpp:779-781`). -/
def Pool.takeFrom (ask : Live → Nat → Option Nat) (l : Live) (p : Pool) (id : Nat) : Live × Pool × Res :=
  match (p.store id).allocChunk ask l with
  | (l, b, .ok a) =>
    (l, { p with store := upd p.store id b, allocated := upd p.allocated a (some id) }, .ok a)
  | (l, b, r) => (l, { p with store := upd p.store id b }, r)

/-- `ChunkedPool::allocate` (`GPUDevice.cpp:755-782`). -/
def Pool.allocate (ask : Live → Nat → Option Nat) (l : Live) (p : Pool) (size : Nat) : Live × Pool × Res :=
  if ¬ (size = roundUpPow2 size ∧ size ≤ p.maxChunk ∧ size ≥ p.minChunk) then (l, p, .crash)
  else
    let c := p.choose size (rotate (fun i => (p.store i).full) (p.lists size).length (p.lists size))
    c.1.takeFrom ask l c.2

/-- `ChunkedPool::deallocate` (`GPUDevice.cpp:784-790`). -/
def Pool.deallocate (p : Pool) (a : Nat) : Pool × Res :=
  match p.allocated a with
  | none => (p, .crash)
  | some id =>
    match (p.store id).freeChunk a with
    | none => (p, .crash)
    | some b => ({ p with store := upd p.store id b, allocated := upd p.allocated a none }, .done)

/-! ## Memory views -/

/-- `ISPCRTSharedMemoryAllocationHint` (`ispcrt/ispcrt.h:141-147`). -/
inductive Hint where
  | readWrite
  | hostWriteDeviceRead
  | hostReadDeviceWrite
  | appManaged
  | unknown
deriving DecidableEq, Repr

/-- What a memory view is made from: whether from a context or from a device, the kind of allocation, the hint,
    the size, the pointer of the application, and whether `ISPCRT_MEM_POOL` is 1 at that moment. -/
structure Params where
  ctx : Bool
  shared : Bool
  hint : Hint
  bytes : Nat
  appMem : Option Nat
  env : Bool
deriving DecidableEq

/-- `gpu::MemoryView` (`GPUDevice.cpp:831-956`).  `size` is `m_size`, `requested` is `m_requestedSize`, `usePool`
    is `m_useMemPool`, `dev` is `m_devicePtr`. -/
structure View where
  ctx : Bool
  shared : Bool
  hint : Hint
  size : Nat
  requested : Nat
  usePool : Bool
  dev : Option Nat
deriving DecidableEq

/-- The state: what Level Zero has allocated, the two pools of the context (`GPUContext::memPool`,
    `GPUDevice.cpp:2029-2040`: `false` for host-write, `true` for host-read), the memory views, and the number of
    calls made. -/
structure World where
  live : Live
  pool : Bool → Pool
  views : Nat → Option View
  nextView : Nat
  time : Nat

/-- The calls of the application.  `ispcrtHostPtr` on a shared view and `ispcrtSharedPtr` are `devicePtr`
    (`GPUDevice.cpp:876`, `ispcrt/ispcrt.cpp:768-772`). -/
inductive Op where
  | new (p : Params)
  | devicePtr (v : Nat)
  | destroy (v : Nat)
deriving DecidableEq

/-- Which pool a hint selects (`GPUDevice.cpp:2029-2040`); `none` is an exception. -/
def poolOf : Hint → Option Bool
  | .hostWriteDeviceRead => some false
  | .hostReadDeviceWrite => some true
  | _ => none

/-- `m_useMemPool` (`GPUDevice.cpp:848-849`). -/
def usesPool (p : Params) : Bool := p.env && decide (p.hint ≠ .readWrite) && decide (p.hint ≠ .appManaged)

/-- `ispcrtNewMemoryView`, `ispcrtNewMemoryViewForContext` and the constructor (`ispcrt/ispcrt.cpp:717-735`,
    `GPUDevice.cpp:832-855`).  `none` is an exception: no device memory for a context, or no pool for the hint. -/
def newView (p : Params) : Option View :=
  if p.ctx && !p.shared then none
  else if p.ctx && usesPool p && (poolOf p.hint).isNone then none
  else some
    { ctx := p.ctx, shared := p.shared, hint := p.hint, size := p.bytes, requested := p.bytes
      usePool := usesPool p
      dev := if p.hint = .appManaged then p.appMem else none }

/-- `m_memPool` (`GPUDevice.cpp:850-854`): a view made from a device has no context, and the pointer is null. -/
def View.memPool (v : View) : Option Bool := if v.ctx && v.usePool then poolOf v.hint else none

/-- `MemoryView::allocShared`, `allocDevice` (`GPUDevice.cpp:887-915`). -/
def allocDirect (ask : Live → Nat → Option Nat) (w : World) (id : Nat) (v : View) : World × Res :=
  match ask w.live v.size with
  | none => (w, .threw)
  | some a =>
    ({ w with live := upd w.live a (some v.size), views := upd w.views id (some { v with dev := some a }) }, .ok a)

/-- The size asked of the pool (`GPUDevice.cpp:921-924`). -/
def poolSize (p : Pool) (requested : Nat) : Nat :=
  if roundUpPow2 requested < p.minChunk then p.minChunk else roundUpPow2 requested

/-- The pool branch of `MemoryView::allocate` (`GPUDevice.cpp:920-931`). -/
def allocPooled (ask : Live → Nat → Option Nat) (w : World) (id : Nat) (v : View) (s : Bool) : World × Res :=
  let size := poolSize (w.pool s) v.requested
  match (w.pool s).allocate ask w.live size with
  | (l, p, .ok a) =>
    ({ w with live := l, pool := fun x => if x = s then p else w.pool x
              views := upd w.views id (some { v with size := size, dev := some a }) }, .ok a)
  | (l, p, r) =>
    ({ w with live := l, pool := fun x => if x = s then p else w.pool x
              views := upd w.views id (some { v with size := size }) }, r)

/-- `MemoryView::allocate` (`GPUDevice.cpp:917-939`).  `m_memPool->maxChunkSize()` through a null pointer is a
    crash. -/
def allocate (ask : Live → Nat → Option Nat) (w : World) (id : Nat) (v : View) : World × Res :=
  if v.shared then
    if v.usePool then
      match v.memPool with
      | none => (w, .crash)
      | some s => if v.size ≤ (w.pool s).maxChunk then allocPooled ask w id v s else allocDirect ask w id v
    else allocDirect ask w id v
  else allocDirect ask w id v

/-- `MemoryView::devicePtr` (`GPUDevice.cpp:878-882`). -/
def devicePtr (ask : Live → Nat → Option Nat) (w : World) (id : Nat) (v : View) : World × Res :=
  match v.dev with
  | some a => (w, .ok a)
  | none => allocate ask w id v

/-- `zeMemFree`. -/
def freeDirect (w : World) (id : Nat) (a : Nat) : World × Res :=
  ({ w with live := upd w.live a none, views := upd w.views id none }, .done)

/-- `MemoryView::~MemoryView` (`GPUDevice.cpp:857-872`). -/
def destroy (w : World) (id : Nat) (v : View) : World × Res :=
  match v.dev with
  | none => ({ w with views := upd w.views id none }, .done)
  | some a =>
    if v.hint = .appManaged then ({ w with views := upd w.views id none }, .done)
    else if v.shared && v.usePool then
      match v.memPool with
      | none => (w, .crash)
      | some s =>
        if v.size ≤ (w.pool s).maxChunk then
          let d := (w.pool s).deallocate a
          ({ w with pool := fun x => if x = s then d.1 else w.pool x, views := upd w.views id none }, d.2)
        else freeDirect w id a
    else freeDirect w id a

/-- One call.  A call on a view that does not exist, or no longer, changes nothing: applications may not make it. -/
def call (ask : Live → Nat → Option Nat) (w : World) : Op → World × Res
  | .new p =>
    match newView p with
    | none => (w, .threw)
    | some v => ({ w with views := upd w.views w.nextView (some v), nextView := w.nextView + 1 }, .done)
  | .devicePtr id =>
    match w.views id with
    | none => (w, .done)
    | some v => devicePtr ask w id v
  | .destroy id =>
    match w.views id with
    | none => (w, .done)
    | some v => destroy w id v

/-- One call at the present time. -/
def step (drv : Driver) (w : World) (op : Op) : World × Res :=
  let r := call (drv w.time) w op
  ({ r.1 with time := r.1.time + 1 }, r.2)

/-- A new context with its two pools (`GPUContext::GPUContext`, `GPUDevice.cpp:1978-2010`). -/
def init (minPow maxPow : Nat) : Option World :=
  (Pool.new minPow maxPow).map fun p =>
    { live := fun _ => none, pool := fun _ => p, views := fun _ => none, nextView := 0, time := 0 }

/-- A sequence of calls. -/
def run (drv : Driver) (w : World) : List Op → World
  | [] => w
  | op :: ops => run drv (step drv w op).1 ops

/-- `ispcrtSize` of a view (`GPUDevice.cpp:884`). -/
def View.numBytes (v : View) : Nat := v.size

/-- `ChunkedPool::~ChunkedPool` and `Bulk::~Bulk` (`GPUDevice.cpp:749-753`, `631`, `717-720`): the memory of every
    bulk in a list goes back.  The keys of `m_bulks` are powers of two up to `maxChunkSize`. -/
def Pool.release (p : Pool) (l : Live) : Live := fun a =>
  if (List.range (p.maxPow + 1)).any fun k => (p.lists (2 ^ k)).any fun i => (p.store i).mem == some a then none
  else l a

/-- `GPUContext::~GPUContext` (`GPUDevice.cpp:2012-2018`). -/
def endContext (w : World) : Live := (w.pool true).release ((w.pool false).release w.live)

end Ispc.MemPool
