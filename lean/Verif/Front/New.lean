import Verif.Front.Stride

/-!
# `new` and `delete`

`NewExpr` (src/expr.cpp:10194-10350) and `DeleteStmt` (src/stmt.cpp:4302-4358), with the functions they call:
`__new_*` and `__delete_*` of builtins/util.m4 (lines 5550-5826, the x86 targets) and of builtins/generic.ispc
(lines 1210-1331, the others).

Simplified: the allocator of the C library is a parameter, whose contract is in `Verif.Front.NewProps`; a failed
`posix_memalign` leaves its result alone; the program instances run one after the other, as in the code; a value
of an initialiser is not modelled, only where and how often it is evaluated and stored.  Where generic.ispc declares
`posix_memalign` with sizes of 32 bits, the upper half of the argument is taken to be zero.
-/

namespace Ispc.New

open Header (Ty Vb DL llay)
open Soa (Mode Fits)
open Stride (Tgt sizeOf)
open Fold (resize)

/-- A block of the heap.  A block of size zero still has an address of its own. -/
structure Block where
  addr : Nat
  size : Nat
deriving DecidableEq, Repr

/-- The heap.  `calls` counts the calls of the allocator; `ub` is set once the program has done something undefined:
freed what is not allocated, stored through a null pointer, or asked for a number of bytes that overflows.
`stores` are the addresses that initialisers were stored to, `evals` the number of times one was evaluated. -/
structure World where
  live   : List Block
  calls  : Nat
  ub     : Bool
  stores : List Nat
  evals  : Nat
deriving DecidableEq, Repr

/-- The allocator of the C library: from the blocks there are, the number of calls so far, a size and an alignment
to an address, or nothing. -/
abbrev Alloc := List Block → Nat → Nat → Nat → Option Nat

/-- Where the functions come from, and which system they are for. -/
inductive Lib where
  | utilUnix | utilWindows | genericUnix | genericWindows
deriving DecidableEq, Repr

/-- builtins/generic.ispc rather than builtins/util.m4. -/
def Lib.generic : Lib → Bool
  | .genericUnix | .genericWindows => true
  | _ => false

/-- A compilation: the target, the library and `--force-alignment`. -/
structure Cfg where
  T     : Tgt
  lib   : Lib
  force : Option Nat

/-- `ISPC_MEMORY_ALIGNMENT_VAL` (src/preprocessor.cpp:313-327). -/
def Cfg.align (C : Cfg) : Nat :=
  match C.force with
  | some a => a
  | none   => if C.T.D.W = 1 then 16 else C.T.D.W * 4

/-- A call of `posix_memalign` or `_aligned_malloc`. -/
def malloc (A : Alloc) (size align : Nat) (w : World) : Option Nat × World :=
  match A w.live w.calls size align with
  | some p => (some p, { w with live := w.live ++ [⟨p, size⟩], calls := w.calls + 1 })
  | none   => (none, { w with calls := w.calls + 1 })

/-- `free` and `_aligned_free`. -/
def free (p : Nat) (w : World) : World :=
  if p = 0 then w
  else if w.live.any (fun b => b.addr == p) then { w with live := w.live.filter (fun b => b.addr != p) }
  else { w with ub := true }

/-- `allocSize` (src/expr.cpp:10254-10264): the number of elements, an unsigned integer of the width of offsets
(src/expr.cpp:10412-10420), times the size of the type.  The product is `nsw`: `none` is poison. -/
def allocSize (T : Tgt) (v : Vb) (t : Ty) (count : BitVec T.m.A) : Option (BitVec T.m.A) :=
  if Fits T.m.A (count.toInt * sizeOf T v t) then some (BitVec.ofInt T.m.A (count.toInt * sizeOf T v t)) else none

/-- The number of bytes that `__new_varying32_32rt`, `__new_varying32_64rt` (zero extended) and
`__new_varying64_64rt` ask for (builtins/util.m4:5589-5603, 5644-5677, 5724-5739, 5778-5813).  In
generic.ispc the parameter of the allocator is an `int32` (builtins/generic.ispc:1214, 1219, 1230-1239, 1255-1274,
1286-1294, 1306-1323). -/
def laneRequest (C : Cfg) (s : BitVec C.T.m.A) : Nat :=
  if C.lib.generic then (s.setWidth 32).toNat else s.toNat

/-- The number of bytes that `__new_uniform_32rt` and `__new_uniform_64rt` ask for: the size is sign extended to
64 bits (src/expr.cpp:10279-10281), and truncated for a 32-bit target (builtins/util.m4:5580-5587,
5717-5722) and in generic.ispc (builtins/generic.ispc:1250-1254, 1305). -/
def uniformRequest (C : Cfg) (s : BitVec C.T.m.A) : Nat :=
  if C.lib.generic || decide (C.T.m = .p32) then ((s.signExtend 64).setWidth 32).toNat else (s.signExtend 64).toNat

/-- One program instance of a varying `new`: the result is null before the call, and stays it if the instance is not
running or the call fails.  A pointer has 32 bits on a 32-bit target (src/expr.cpp:10300-10304); addresses fit. -/
def newLane (A : Alloc) (C : Cfg) (v : Vb) (t : Ty) (count : Nat → BitVec C.T.m.A) (mask : Nat → Bool)
    (st : (Nat → Nat) × World) (l : Nat) : (Nat → Nat) × World :=
  if mask l then
    match allocSize C.T v t (count l) with
    | none   => (st.1, { st.2 with ub := true })
    | some s =>
      match malloc A (laneRequest C s) C.align st.2 with
      | (some p, w) => (fun i => if i = l then p else st.1 i, w)
      | (none, w)   => (st.1, w)
  else st

/-- `__new_varying*`: the loop `per_lane` (builtins/util.m4:7153-7208) or `foreach_active`. -/
def newVarying (A : Alloc) (C : Cfg) (v : Vb) (t : Ty) (count : Nat → BitVec C.T.m.A) (mask : Nat → Bool)
    (w : World) : (Nat → Nat) × World :=
  (List.range C.T.D.W).foldl (newLane A C v t count mask) (fun _ => 0, w)

/-- The initialiser of a varying `new` (src/expr.cpp:10305-10333): evaluated and stored for every program instance
whose pointer is not null. -/
def initVarying (W : Nat) (ptr : Nat → Nat) (w : World) : World :=
  (List.range W).foldl
    (fun w l => if ptr l ≠ 0 then { w with stores := w.stores ++ [ptr l], evals := w.evals + 1 } else w) w

/-- `__new_uniform*`: the result, `none` if it is undefined.  In util.m4 for Unix the variable that
`posix_memalign` writes to is not initialised (builtins/util.m4:5580-5587, 5635-5642); in generic.ispc it is
null (builtins/generic.ispc:1225-1229, 1250-1254), and `_aligned_malloc` returns null. -/
def newUniform (A : Alloc) (C : Cfg) (v : Vb) (t : Ty) (count : BitVec C.T.m.A) (w : World) : Option Nat × World :=
  match allocSize C.T v t count with
  | none   => (none, { w with ub := true })
  | some s =>
    match malloc A (uniformRequest C s) C.align w with
    | (some p, w) => (some p, w)
    | (none, w)   => (if C.lib = .utilUnix then none else some 0, w)

/-- The initialiser of a uniform `new` (src/expr.cpp:10336-10345): the pointer is not looked at. -/
def initUniform (p : Option Nat) (w : World) : World :=
  match p with
  | some a => { w with stores := w.stores ++ [a], evals := w.evals + 1, ub := w.ub || decide (a = 0) }
  | none   => { w with evals := w.evals + 1, ub := true }

/-- `__delete_varying*` (builtins/util.m4:5610-5617, 5684-5691; builtins/generic.ispc:1241-1246,
1276-1281): `free` for every program instance that is running. -/
def deleteVarying (W : Nat) (ptr : Nat → Nat) (mask : Nat → Bool) (w : World) : World :=
  (List.range W).foldl (fun w l => if mask l then free (ptr l) w else w) w

/-- `__delete_uniform*` (builtins/util.m4:5605-5608, 5679-5682). -/
def deleteUniform (p : Nat) (w : World) : World := free p w

/-- The type that is allocated: without a qualifier it is uniform, for both kinds of `new`
(src/expr.cpp:10217-10219). -/
def allocVb : Vb := .uniform

end Ispc.New
