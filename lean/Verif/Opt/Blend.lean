import Verif.Builtins.GatherProps

/-!
# Masked stores that become load, blend, store

`ReplacePseudoMemoryOps` chooses, for every masked store that is left after the other optimizations, between storing
the elements that are on one by one and loading the whole vector, blending and storing all of it.  The second is chosen
when the pointer is found to lead to a variable on the stack in which a vector lies.
-/

namespace Ispc.Blend

open Ispc.Gather Ispc.Vec
open Ispc.ForeachActive (Mask)

mutual

/-- Types of variables, as LLVM lays them out: `vec bytes alloc` is a vector of `bytes` bytes that takes `alloc` bytes
in an array (`getTypeAllocSize`), `struct fields size` has its fields at the offsets of `getStructLayout`.
Simplification: vectors of bits, of which the size is no whole number of bytes, are left out. -/
inductive Ty where
  | vec (bytes alloc : Nat)
  | scalar (bytes : Nat)
  | arr (count : Nat) (elt : Ty)
  | struct (fields : Fields) (size : Nat)

/-- The fields of a structure with their offsets, in the order of the offsets. -/
inductive Fields where
  | nil
  | cons (off : Nat) (t : Ty) (rest : Fields)

end

/-- `lExtractVectorType` (src/opt/ReplacePseudoMemoryOps.cpp:19-28): the size of the vector type that remains when the
arrays are taken away. -/
def extractVector : Ty → Option Nat
  | .vec bytes _ => some bytes
  | .arr _ elt => extractVector elt
  | _ => none

/-- Is there a field here whose offset is at most `o`?  The fields are in the order of the offsets. -/
def Fields.startsBy : Fields → Nat → Bool
  | .nil, _ => false
  | .cons off _ _, o => off ≤ o

mutual

/-- `lCheckStructFieldAtOffset` (src/opt/ReplacePseudoMemoryOps.cpp:33-60), which for a field that is no structure is
`lExtractVectorType`, whatever the offset in the field. -/
def fieldAt : Ty → Nat → Option Nat
  | .struct fields size, o => if size ≤ o then none else fieldsAt fields o
  | .vec bytes _, _ => some bytes
  | .arr _ elt, _ => extractVector elt
  | .scalar _, _ => none

/-- `getElementContainingOffset`, the last field whose offset is at most `o`, and what is found in it
(src/opt/ReplacePseudoMemoryOps.cpp:43-59). -/
def fieldsAt : Fields → Nat → Option Nat
  | .nil, _ => none
  | .cons off t rest, o => if rest.startsBy o then fieldsAt rest o else fieldAt t (o - off)

end

/-- Pointer values: a variable on the stack (`addr` is where it lies), a cast, a `getelementptr` whose indices are
constants or not and add `off` bytes, and any other value. -/
inductive Ptr where
  | alloca (t : Ty) (addr : Addr)
  | bitcast (p : Ptr)
  | gep (constant : Bool) (p : Ptr) (off : BitVec 64)
  | other (addr : Addr)

/-- The address that a pointer holds. -/
def Ptr.addr : Ptr → Addr
  | .alloca _ a => a
  | .bitcast p => p.addr
  | .gep _ p off => p.addr + off
  | .other a => a

/-- Is the pointer a variable that is a structure (src/opt/ReplacePseudoMemoryOps.cpp:96-106)? -/
def Ptr.structVar : Ptr → Option (Fields × Nat)
  | .alloca (.struct fields size) _ => some (fields, size)
  | _ => none

/-- `lGetUnderlyingVectorType` (src/opt/ReplacePseudoMemoryOps.cpp:69-120). -/
def underlying : Ptr → Option Nat
  | .bitcast p => underlying p
  | .alloca t _ => fieldAt t 0
  | .gep constant p off =>
    if constant then
      match p.structVar with
      | some (fields, size) => fieldAt (.struct fields size) off.toNat
      | none => underlying p
    else underlying p
  | .other _ => none

/-- The choice of `lReplacePseudoMaskedStore` (src/opt/ReplacePseudoMemoryOps.cpp:157-167): `disable` is
`disableBlendedMaskedStores`, `bytes` the size of the value to store. -/
def doBlend (disable : Bool) (p : Ptr) (bytes : Nat) : Bool :=
  !disable && match underlying p with
    | some b => decide (bytes ≤ b)
    | none => false

/-- The store that `lReplacePseudoMaskedStore` (src/opt/ReplacePseudoMemoryOps.cpp:169-178) emits. -/
def replaced {W n : Nat} (disable known : Bool) (p : Ptr) (m : Mem) (vals : Vec W (Elt n)) (mask : Mask W) :
    Option Mem :=
  if doBlend disable p (W * n) then maskedStoreBlend m p.addr vals mask else maskedStore known m p.addr vals mask

end Ispc.Blend
