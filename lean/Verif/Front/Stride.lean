import Verif.Front.Header
import Verif.Front.Soa

/-!
# The size of an object and the distance of the elements of an array

Every type has two LLVM types: `LLVMStorageType`, which is what lies in memory, and `LLVMType`, which is what
a value is in registers.  `Target::SizeOf` (src/ispc.cpp:3200-3207) is called with the second one for `sizeof`,
`new`, the difference of pointers and the addresses of varying lvalues; `getelementptr` is given the first one.

Simplified: one program instance at a time, and pointers that are not slices (those are in `Verif.Front.Soa`);
`--opt=disable-uniform-memory-optimizations` is off.
-/

namespace Ispc.Stride

open Header (Ty Ms Vb DL Scal Leaf llay lflat roundUp)
open Soa (Mode Ix gep addOff)
open Fold (resize)

/-- The target: data layout, bits of the elements of the mask (src/llvmutil.cpp:86-110), and how
addresses are computed. -/
structure Tgt where
  D : DL
  M : Nat
  m : Mode

/-- `DataLayout::getTypeStoreSize` of a type of `b` bits. -/
def bytes (b : Nat) : Nat := (b + 7) / 8

/-- Size of `LLVMType` of a scalar with a variability, `lGetAtomicLLVMType` (src/type.cpp:638-684): `i1` for
a uniform `bool`, the mask for a varying one. -/
def scalarSize (T : Tgt) (k : Scal) : Vb → Nat
  | .unbound => 0
  | .uniform => if k = .bool then bytes 1 else T.D.size k
  | .varying => if k = .bool then bytes (T.D.W * T.M) else T.D.W * T.D.size k
  | .soa w   => w * T.D.size k

/-- Size of `LLVMType` of a short vector, `lGetVectorLLVMType` (src/type.cpp:1755-1799): a vector of `i1` for a
uniform `bool<n>`, an array of masks for a varying one. -/
def vectorSize (T : Tgt) (k : Scal) (n : Nat) : Vb → Nat
  | .unbound => 0
  | .uniform =>
    if k = .bool then bytes (Braces.vecMem T.D.dtw n) else Braces.vecMem T.D.dtw n * T.D.size k
  | .varying => n * (if k = .bool then (T.D.vector (bytes (T.D.W * T.M))).1 else (T.D.scalar k .varying).1)
  | .soa w   => n * (w * T.D.size k)

/-- `Target::SizeOf` of `LLVMType` (src/ispc.cpp:3200-3207), which is also `sizeof` (src/expr.cpp:8909-8925).
Arrays (src/type.cpp:1468-1480) and structs (src/type.cpp:1947-1975) are made of storage types. -/
def sizeOf (T : Tgt) (v : Vb) : Ty → Nat
  | .atom k x  => scalarSize T k (v.resolve x)
  | .enum x    => scalarSize T .enum (v.resolve x)
  | .ptr _ x   => scalarSize T .pointer (v.resolve x)
  | .vec k n x => vectorSize T k n (v.resolve x)
  | t          => (llay T.D v t).1

/-- LLVM's `getelementptr` with one index: the index is sign extended or truncated to the width of a pointer,
and everything wraps. -/
def ugep (m : Mode) (sz : Nat) (p : BitVec m.P) (ix : Ix) : BitVec m.P :=
  p + resize true m.P ix.v * BitVec.ofNat m.P sz

/-- `GetElementPtrInst` (src/ctx.cpp:2335-2358; with two indices, the first one zero, src/ctx.cpp:2393-2422)
for one program instance: a `getelementptr` over the storage type (src/ctx.cpp:217-222) if the pointer and the
index are uniform, `applyVaryingGEP` (src/ctx.cpp:2145-2205) if one of them is varying.  `t` is the type of the
elements, `vp` says that the pointer is varying, `vi` that the index is. -/
def element (T : Tgt) (v : Vb) (t : Ty) (vp vi : Bool) (p : BitVec T.m.P) (ix : Ix) : Option (BitVec T.m.P) :=
  if vp || vi then gep T.m (sizeOf T v t) p ix else some (ugep T.m (llay T.D v t).1 p ix)

/-- An integer converted to `w` bits, by the signedness of its type. -/
def Ix.conv (w : Nat) (ix : Ix) : Ix := ⟨w, resize (!ix.uns) w ix.v, ix.uns⟩

/-- The conversion of the index of `a[i]` (src/expr.cpp:5368-5408). -/
def toIndex (m : Mode) (vi : Bool) (ix : Ix) : Ix :=
  if vi then
    if ix.n = 64 ∧ m = .p64 then ix else Ix.conv 32 ix
  else Ix.conv (if m = .p32 ∨ m = .force32 ∧ ix.n = 64 ∧ ix.uns = false then 32 else 64) ix

/-- The address of `a[i]`, where `a` is an array or a pointer (src/expr.cpp:5205-5254). -/
def index (T : Tgt) (v : Vb) (t : Ty) (vp vi : Bool) (p : BitVec T.m.P) (ix : Ix) : Option (BitVec T.m.P) :=
  element T v t vp vi p (toIndex T.m vi ix)

/-- `p + i` (src/expr.cpp:1773-1775): the integer is converted to the width of a pointer
(src/expr.cpp:2958-2971), and if one of the two is varying both become it. -/
def plus (T : Tgt) (v : Vb) (t : Ty) (vp vi : Bool) (p : BitVec T.m.P) (ix : Ix) : Option (BitVec T.m.P) :=
  element T v t (vp || vi) (vp || vi) p (Ix.conv T.m.P ix)

/-- The negated integer, taken as a signed one. -/
def Ix.neg (ix : Ix) : Ix := ⟨ix.n, -ix.v, false⟩

/-- `p - i` (src/expr.cpp:1837-1843). -/
def minus (T : Tgt) (v : Vb) (t : Ty) (vp vi : Bool) (p : BitVec T.m.P) (ix : Ix) : Option (BitVec T.m.P) :=
  element T v t (vp || vi) (vp || vi) p (Ix.neg (Ix.conv T.m.P ix))

/-- `p - q` (src/expr.cpp:1803-1835); the result has the width of the offsets. -/
def diff (T : Tgt) (v : Vb) (t : Ty) (p q : BitVec T.m.P) : BitVec T.m.A :=
  (resize true T.m.A (p - q)).sdiv (BitVec.ofNat T.m.A (sizeOf T v t))

/-- Element `j` of an array or a short vector with elements of type `t`, by its number
(`AddElementOffset`, src/ctx.cpp:2474-2521). -/
def component (T : Tgt) (v : Vb) (t : Ty) (vp : Bool) (j : Nat) (p : BitVec T.m.P) : BitVec T.m.P :=
  if vp then addOff T.m p (j * sizeOf T v t) else p + BitVec.ofNat T.m.P (j * (llay T.D v t).1)

/-- What program instance `l` reads and writes of a varying scalar at `p`
(`addVaryingOffsetsIfNeeded`, src/ctx.cpp:4073-4112). -/
def lane (T : Tgt) (k : Scal) (p : BitVec T.m.P) (l : Nat) : BitVec T.m.P :=
  p + resize true T.m.P (BitVec.ofNat T.m.A (scalarSize T k .uniform) * BitVec.ofNat T.m.A l)

end Ispc.Stride
