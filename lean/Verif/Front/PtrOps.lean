import Verif.Front.Stride

/-!
# Comparing and stepping pointers

The comparisons `<`, `<=`, `==` and so on of two pointers, and `p += i`,
`p -= i`, `++p` and `--p`, next to `p + i` and `p - i` of the module on strides.

Simplified as there: one program instance at a time, and pointers that are not
slices.
-/

namespace Ispc.PtrOps

open Header (Ty Vb)
open Soa (Mode Ix)
open Stride (Tgt element)

/-- `lEmitBinaryCmp` of two pointers, src/expr.cpp:1968-1987, with
`lBinaryExprCmpOpPred`, 1945-1964: pointer types do not override
`IsUnsignedType`, src/type.h:89, so the addresses are compared as signed
numbers. -/
def compare (m : Mode) (op : Fold.Cmp) (p q : BitVec m.P) : Bool := Fold.runCmp op true p q

/-- An integer taken as a signed one. -/
def Ix.signed (ix : Ix) : Ix := { ix with uns := false }

/-- `p += i`: the integer is converted to the signed integer type of the width
of a pointer, src/expr.cpp:3596-3610, which is also the type of the index,
src/expr.cpp:3409-3412 and 1773-1775. -/
def plusAssign (T : Tgt) (v : Vb) (t : Ty) (vp : Bool) (p : BitVec T.m.P) (ix : Ix) :
    Option (BitVec T.m.P) :=
  element T v t vp vp p (Ix.signed (Stride.Ix.conv T.m.P ix))

/-- `p -= i`, src/expr.cpp:3596-3610, 3409-3412 and 1836-1843. -/
def minusAssign (T : Tgt) (v : Vb) (t : Ty) (vp : Bool) (p : BitVec T.m.P) (ix : Ix) :
    Option (BitVec T.m.P) :=
  element T v t vp vp p (Stride.Ix.neg (Stride.Ix.conv T.m.P ix))

/-- What `++p` (`up`) and `--p` store, src/expr.cpp:1240-1252. -/
def step (T : Tgt) (v : Vb) (t : Ty) (vp up : Bool) (p : BitVec T.m.P) : Option (BitVec T.m.P) :=
  element T v t vp vp p ⟨32, if up then 1 else -1, false⟩

end Ispc.PtrOps
