import Verif.Front.Init
import Verif.TaskSys.Alloc
import Verif.TaskSys.Index

/-!
# The arguments of a task

`launch` copies the arguments of the call and the mask into a block of memory that
`ISPCAlloc` returns; the task copies them out of the block when it starts.  The block has
the layout of a struct of the types that values have in registers (`LLVMType`), while the
task reads each parameter as the type that variables have in memory
(`LLVMStorageType`).

Memory is little-endian and addressed by bits: bit `i` of the byte at address `a` is
`8 * a + i`.  Slice pointers and soa types are left out.
-/

namespace Ispc.TaskArgs

/-- Bits of memory. -/
abbrev Mem := Nat → Bool

/-! ## LLVM types in memory -/

mutual
/-- LLVM types: `int b` also stands for floating-point numbers and pointers of `b` bits. -/
inductive LTy where
  | int (b : Nat)
  | vec (n b : Nat)
  | arr (n : Nat) (t : LTy)
  | struct (ms : LMs)
inductive LMs where
  | nil
  | cons (t : LTy) (ms : LMs)
end

/-- LLVM's data layout: alignments in bytes, of an `int` by its bits and of a vector by its
bytes. -/
structure Layout where
  ialign : Nat → Nat
  valign : Nat → Nat

/-- Bytes that hold `b` bits, `getTypeStoreSize`. -/
def bytes (b : Nat) : Nat := (b + 7) / 8

/-- LLVM's `alignTo`. -/
def roundUp (x a : Nat) : Nat := (x + a - 1) / a * a

mutual
/-- ABI alignment. -/
def align (D : Layout) : LTy → Nat
  | .int b     => D.ialign b
  | .vec n b   => D.valign (bytes (n * b))
  | .arr _ t   => align D t
  | .struct ms => aligns D ms
def aligns (D : Layout) : LMs → Nat
  | .nil       => 1
  | .cons t ms => max (align D t) (aligns D ms)
end

mutual
/-- `getTypeAllocSize`. -/
def size (D : Layout) : LTy → Nat
  | .int b     => roundUp (bytes b) (D.ialign b)
  | .vec n b   => roundUp (bytes (n * b)) (D.valign (bytes (n * b)))
  | .arr n t   => n * size D t
  | .struct ms => roundUp (ends D ms 0) (aligns D ms)
/-- Where the last member ends if the members are laid out from `off` on. -/
def ends (D : Layout) : LMs → (off : Nat) → Nat
  | .nil,       off => off
  | .cons t ms, off => ends D ms (roundUp off (align D t) + size D t)
end

mutual
/-- The values of an LLVM type. -/
def LTy.Val : LTy → Type
  | .int b     => BitVec b
  | .vec n b   => Fin n → BitVec b
  | .arr n t   => Fin n → t.Val
  | .struct ms => ms.Vals
def LMs.Vals : LMs → Type
  | .nil       => Unit
  | .cons t ms => t.Val × ms.Vals
end

mutual
/-- What `store` writes to bit `i` of the memory of the value; `none` is padding.  A value
whose bits do not fill its bytes is extended with zeros (LLVM leaves these bits
unspecified; its backends extend). -/
def bitAt (D : Layout) : (t : LTy) → t.Val → (i : Nat) → Option Bool
  | .int b,     v, i => if i < 8 * bytes b then some (BitVec.getLsbD (w := b) v i) else none
  | .vec n b,   v, i =>
    if h : i / b < n ∧ i < n * b then some (BitVec.getLsbD (w := b) (v ⟨i / b, h.1⟩) (i % b))
    else if i < 8 * bytes (n * b) then some false else none
  | .arr n t,   v, i => if h : i / (8 * size D t) < n then bitAt D t (v ⟨i / (8 * size D t), h⟩) (i % (8 * size D t)) else none
  | .struct ms, v, i => bitsAt D ms v 0 i
def bitsAt (D : Layout) : (ms : LMs) → ms.Vals → (off i : Nat) → Option Bool
  | .nil,       _, _,   _ => none
  | .cons t ms, v, off, i =>
    let o := roundUp off (align D t)
    if 8 * o ≤ i ∧ i < 8 * (o + size D t) then bitAt D t v.1 (i - 8 * o) else bitsAt D ms v.2 (o + size D t) i
end

/-- LLVM's `store` to address `a`; `junk` is what padding becomes. -/
def store (D : Layout) (junk mem : Mem) (a : Nat) (t : LTy) (v : t.Val) : Mem := fun x =>
  if 8 * a ≤ x ∧ x < 8 * (a + size D t) then (bitAt D t v (x - 8 * a)).getD (junk x) else mem x

/-- A bit vector from its bits. -/
def ofBits (b : Nat) (f : Nat → Bool) : BitVec b := ((BitVec.iunfoldr fun (i : Fin b) (_ : Unit) => ((), f i)) ()).2

mutual
/-- LLVM's `load` from address `a`. -/
def load (D : Layout) (mem : Mem) : (t : LTy) → (a : Nat) → t.Val
  | .int b,     a => ofBits b fun i => mem (8 * a + i)
  | .vec _ b,   a => fun k => ofBits b fun i => mem (8 * a + (k * b + i))
  | .arr _ t,   a => fun k => load D mem t (a + k * size D t)
  | .struct ms, a => loads D mem ms a 0
def loads (D : Layout) (mem : Mem) : (ms : LMs) → (a off : Nat) → ms.Vals
  | .nil,       _, _   => ()
  | .cons t ms, a, off =>
    (load D mem t (a + roundUp off (align D t)), loads D mem ms a (roundUp off (align D t) + size D t))
end

/-! ## Types of parameters -/

/-- The elements of scalars and short vectors: `bool`, or anything else of some bits
(src/type.cpp:638-684). -/
inductive Kind where
  | bool
  | num (bits : Nat)
deriving DecidableEq, Repr

/-- Types of parameters of a task.  Arrays and references are uniform pointers
(src/decl.cpp:988-1005, src/type.cpp:2605-2611).  A struct is the same LLVM type in registers and in memory
(src/type.cpp:1947-1975). -/
inductive PTy where
  | scalar (k : Kind) (varying : Bool)
  | short (k : Kind) (n : Nat) (varying : Bool)
  | struct (ms : LMs)

/-- The target: width of the gang, bits of the mask per program instance, width of its data type and the
native vector width (src/ispc.cpp:1205-2235). -/
structure Tgt where
  D : Layout
  W : Nat
  M : Nat
  dtw : Nat
  native : Nat

/-- Bits of one element in registers: `i1` for a uniform `bool`, the mask type for a varying one
(src/type.cpp:649-654, src/llvmutil.cpp:86-110). -/
def Kind.reg (M : Nat) : Kind → (varying : Bool) → Nat
  | .bool,  false => 1
  | .bool,  true  => M
  | .num b, _     => b

/-- Bits of one element in memory: `i8` for `bool` (src/llvmutil.cpp:76 and 111). -/
def Kind.mem : Kind → Nat
  | .bool  => 8
  | .num b => b

/-- The LLVM type of scalars and short vectors with elements of `b` bits (src/type.cpp:638-684 and
1755-1799). -/
def PTy.shape (T : Tgt) (b : Kind → Bool → Nat) : PTy → LTy
  | .scalar k false  => .int (b k false)
  | .scalar k true   => .vec T.W (b k true)
  | .short k n false => .vec (Braces.vecMem T.dtw n) (b k false)
  | .short k n true  => .arr n (.vec T.W (b k true))
  | .struct ms       => .struct ms

/-- `LLVMType`. -/
def PTy.reg (T : Tgt) (p : PTy) : LTy := p.shape T (Kind.reg T.M)

/-- `LLVMStorageType`. -/
def PTy.stored (T : Tgt) (p : PTy) : LTy := p.shape T fun k _ => k.mem

/-- One element converted from memory to registers, `SwitchBoolToMaskType` (src/ctx.cpp:2560-2600): `icmp ne`
with zero and `sext`; other types are left alone (src/ctx.cpp:2654-2665). -/
def Kind.switch (M : Nat) : (k : Kind) → (varying : Bool) → BitVec k.mem → BitVec (k.reg M varying)
  | .bool,  _, x => if x ≠ 0 then BitVec.allOnes _ else 0
  | .num _, _, x => x

/-- A whole value converted from memory to registers (src/ctx.cpp:2602-2632). -/
def PTy.switch (T : Tgt) : (p : PTy) → (p.stored T).Val → (p.reg T).Val
  | .scalar k false,  v => k.switch T.M false v
  | .scalar k true,   v => fun l => k.switch T.M true (v l)
  | .short k _ false, v => fun l => k.switch T.M false (v l)
  | .short k _ true,  v => fun i l => k.switch T.M true (v i l)
  | .struct _,        v => v

/-! ## The launch and the start of the task -/

/-- The values of the arguments, converted to the types of the parameters. -/
def Args (T : Tgt) : List PTy → Type
  | []      => Unit
  | p :: ps => (p.reg T).Val × Args T ps

/-- `LLVMFunctionArgTypes` (src/type.cpp:2991-3041): the mask comes last, unless the task
is `unmasked`. -/
def argTypes (T : Tgt) (unmasked : Bool) : List PTy → LMs
  | []      => if unmasked then .nil else .cons (.vec T.W T.M) .nil
  | p :: ps => .cons (p.reg T) (argTypes T unmasked ps)

/-- What `LaunchInst` asks `ISPCAlloc` for (src/ctx.cpp:3992-4007): size and alignment. -/
def blockSize (T : Tgt) (unmasked : Bool) (ps : List PTy) : Nat := size T.D (.struct (argTypes T unmasked ps))

/-- `RoundUpPow2` (src/util.h:48-56). -/
def roundUpPow2 (v : Nat) : Nat := 2 ^ Nat.clog 2 v

/-- src/ctx.cpp:4001. -/
def blockAlign (T : Tgt) : Nat := 4 * roundUpPow2 T.native

/-- `LaunchInst` fills the block at `a` (src/ctx.cpp:4010-4025), from the parameter that comes after `off` bytes
on. -/
def fill (T : Tgt) (junk : Mem) (unmasked : Bool) (a : Nat) (mask : Fin T.W → BitVec T.M) :
    (ps : List PTy) → Args T ps → (off : Nat) → Mem → Mem
  | [],      _,  off, mem =>
    if unmasked then mem else store T.D junk mem (a + roundUp off (align T.D (.vec T.W T.M))) (.vec T.W T.M) mask
  | p :: ps, vs, off, mem =>
    fill T junk unmasked a mask ps vs.2 (roundUp off (align T.D (p.reg T)) + size T.D (p.reg T))
      (store T.D junk mem (a + roundUp off (align T.D (p.reg T))) (p.reg T) vs.1)

/-- The masks in a `FunctionEmitContext`.  `full` says that there is a variable for the full mask
(`fullMaskAddressInfo`). -/
structure Masks (T : Tgt) where
  internal : Fin T.W → BitVec T.M
  function : Option (Fin T.W → BitVec T.M)
  full : Bool

/-- At the beginning of a function that is not exported (src/ctx.cpp:243-257). -/
def Masks.init (T : Tgt) (isTask unmasked : Bool) : Masks T :=
  if unmasked || isTask then ⟨fun _ => BitVec.allOnes _, none, false⟩
  else ⟨fun _ => BitVec.allOnes _, some fun _ => BitVec.allOnes _, true⟩

/-- `SetFunctionMask` (src/ctx.cpp:446-453). -/
def Masks.setFunction {T : Tgt} (c : Masks T) (m : Fin T.W → BitVec T.M) : Masks T :=
  if c.full then { c with function := some m } else c

/-- `GetFullMask` (src/ctx.cpp:437-440). -/
def Masks.get {T : Tgt} (c : Masks T) : Fin T.W → BitVec T.M :=
  match c.full, c.function with
  | true, some f => fun l => c.internal l &&& f l
  | _,    _      => c.internal

/-- The start of the task copies the parameters out of the block (`lCopyInTaskParameter`, src/func.cpp:253-284;
src/func.cpp:346-352). -/
def start (T : Tgt) (a : Nat) (mem : Mem) : (ps : List PTy) → (off : Nat) → Args T ps
  | [],      _   => ()
  | p :: ps, off =>
    (p.switch T (load T.D mem (p.stored T) (a + roundUp off (align T.D (p.reg T)))),
      start T a mem ps (roundUp off (align T.D (p.reg T)) + size T.D (p.reg T)))

/-- Where the mask lies in the block. -/
def maskAt (T : Tgt) : (ps : List PTy) → (off : Nat) → Nat
  | [],      off => roundUp off (align T.D (.vec T.W T.M))
  | p :: ps, off => maskAt T ps (roundUp off (align T.D (p.reg T)) + size T.D (p.reg T))

/-- The mask that is read from the block (src/func.cpp:354-360). -/
def maskIn (T : Tgt) (a : Nat) (mem : Mem) (ps : List PTy) : Fin T.W → BitVec T.M :=
  load T.D mem (.vec T.W T.M) (a + maskAt T ps 0)

/-- The mask the code of the task begins with (src/func.cpp:354-361). -/
def startMask (T : Tgt) (unmasked : Bool) (a : Nat) (mem : Mem) (ps : List PTy) : Fin T.W → BitVec T.M :=
  let c := Masks.init T true unmasked
  (if unmasked then c else c.setFunction (maskIn T a mem ps)).get

/-- One launch. -/
structure Launch (T : Tgt) where
  ps : List PTy
  unmasked : Bool
  args : Args T ps
  mask : Fin T.W → BitVec T.M
  /-- What `ISPCAlloc` returned. -/
  addr : Nat

/-- The memory after a launch has filled its block. -/
def Launch.run {T : Tgt} (junk : Mem) (mem : Mem) (L : Launch T) : Mem :=
  fill T junk L.unmasked L.addr L.mask L.ps L.args 0 mem

/-! ## The other parameters of the task function -/

/-- The variables `taskIndex` and so on that a task can use (src/func.cpp:363-391). -/
structure Vars where
  threadIndex : Nat
  threadCount : Nat
  taskIndex : Nat
  taskCount : Nat
  taskIndex0 : Nat
  taskIndex1 : Nat
  taskIndex2 : Nat
  taskCount0 : Nat
  taskCount1 : Nat
  taskCount2 : Nat
deriving DecidableEq, Repr

/-- The call of the task function by the task system after the pointer to the block, examples/common/tasksys.cpp:611-613
and 817-819. -/
def callArgs (threadIndex threadCount : Nat) (c : TaskSys.Counts) (i : Nat) : List Nat :=
  [threadIndex, threadCount, i, c.total, TaskSys.index0 c i, TaskSys.index1 c i, TaskSys.index2 c i, c.c0, c.c1, c.c2]

/-- The start of the task gives the variables the values of its parameters, in their order
(src/func.cpp:333-344 and 363-391, src/type.cpp:3052-3069). -/
def bind : List Nat → Option Vars
  | [a, b, c, d, e, f, g, h, i, j] => some ⟨a, b, c, d, e, f, g, h, i, j⟩
  | _                              => none

end Ispc.TaskArgs
