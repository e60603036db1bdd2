import Verif.Front.Stride

/-!
# Copying structs, arrays and short vectors

`gather`, `scatter` and `maskedStore` (src/ctx.cpp) take a value that is not a scalar apart and do its scalars one
by one.  A varying pointer is one address per program instance; memory is a function from addresses to bytes.

Simplified: no slice pointers (those are in `Verif.Front.Soa`) and no `soa` members; the scalars are lists of
bytes, as they are in memory (see `repG` for the conversions of `bool`); the gather and the scatter of a scalar do
the active program instances one after the other, from the lowest on (see `Verif.Builtins.MemOps`).
-/

namespace Ispc.Agg

open Header (Ty Ms Vb DL Scal Leaf llay lflat roundUp)
open Soa (Mode addOff)
open Stride (Tgt sizeOf component lane)

abbrev Byte := BitVec 8

/-- Memory. -/
def Mem (P : Nat) := BitVec P → Byte

/-- The `n` bytes at `a`. -/
def rd {P : Nat} (mem : Mem P) (a : BitVec P) (n : Nat) : List Byte :=
  (List.range n).map fun i => mem (a + BitVec.ofNat P i)

/-- Memory with `bs` written at `a`. -/
def wr {P : Nat} (mem : Mem P) (a : BitVec P) (bs : List Byte) : Mem P :=
  fun x => (bs[(x - a).toNat]?).getD (mem x)

/-- Several writes, one after the other. -/
def wrs {P : Nat} (mem : Mem P) (ws : List (BitVec P × List Byte)) : Mem P :=
  ws.foldl (fun m w => wr m w.1 w.2) mem

/-- One gather or scatter of a scalar: which one it is, its address for every program instance, its type, and
whether it is a member that was declared `uniform` of a struct. -/
structure Acc (P : Nat) where
  path  : List Nat
  addr  : Nat → BitVec P
  k     : Scal
  bound : Bool

/-- A scalar, of a variability that is no longer unbound: `addVaryingOffsetsIfNeeded`
(src/ctx.cpp:4077-4112; for a scalar that is not in a struct or array its caller has done it,
src/expr.cpp:4908-4941). -/
def basic (T : Tgt) (k : Scal) (ps : Nat → BitVec T.m.P) (path : List Nat) (b : Bool) : Vb → List (Acc T.m.P)
  | .varying => [⟨path, fun l => lane T k (ps l) l, k, b⟩]
  | .uniform => [⟨path, ps, k, b⟩]
  | _        => []

/-- Declared `uniform`: still uniform in the varying version of the struct (src/ctx.cpp:2843-2850). -/
def Ty.boundUniform (t : Ty) : Bool := decide (t.vb .varying = .uniform)

mutual
/-- The scalars that a gather (src/ctx.cpp:2823-2860) or a scatter (src/ctx.cpp:3199-3252) of an object at
`ps` does, in their order.  `AddElementOffset` (src/ctx.cpp:2481-2515) takes the offset of a member of a struct
from the layout and multiplies the number of an element with the size of its type. -/
def walk (T : Tgt) (v : Vb) : Ty → (Nat → BitVec T.m.P) → List Nat → Bool → List (Acc T.m.P)
  | .atom k x, ps, path, b  => basic T k ps path b (v.resolve x)
  | .enum x, ps, path, b    => basic T .enum ps path b (v.resolve x)
  | .ptr _ x, ps, path, b   => basic T .pointer ps path b (v.resolve x)
  | .vec k n x, ps, path, b =>
    (List.range n).flatMap fun j =>
      basic T k (fun l => component T v (.atom k x) true j (ps l)) (path ++ [j]) b (v.resolve x)
  | .arr n t, ps, path, b   =>
    (List.range n).flatMap fun j => walk T v t (fun l => component T v t true j (ps l)) (path ++ [j]) b
  | .struct _ _ x ms, ps, path, _ => walks T (v.resolve x) ms ps path 0 0
/-- The members from number `j` on, after `off` bytes. -/
def walks (T : Tgt) (v : Vb) : Ms → (Nat → BitVec T.m.P) → List Nat → (off j : Nat) → List (Acc T.m.P)
  | .nil, _, _, _, _ => []
  | .cons _ t rest, ps, path, off, j =>
    walk T v t (fun l => addOff T.m (ps l) (roundUp off (llay T.D v t).2)) (path ++ [j]) (Ty.boundUniform t) ++
      walks T v rest ps path (roundUp off (llay T.D v t).2 + (llay T.D v t).1) (j + 1)
end

/-- The lowest active program instance below `W`: the trailing zeros of `__movmsk` (src/ctx.cpp:2806-2819). -/
def first (W : Nat) (mask : Nat → Bool) : Nat := ((List.range W).find? mask).getD W

/-- What program instance `l` has after the gather, nothing that is defined if it is not active: of a member declared
`uniform`, the value of the first active instance (src/ctx.cpp:2802-2820). -/
def gather (T : Tgt) (v : Vb) (t : Ty) (mask : Nat → Bool) (ps : Nat → BitVec T.m.P) (mem : Mem T.m.P) (l : Nat) :
    Option (List (List Nat × List Byte)) :=
  if mask l then
    some ((walk T v t ps [] false).map fun a =>
      (a.path, rd mem (a.addr (if a.bound then first T.D.W mask else l)) (T.D.size a.k)))
  else none

/-- The writes of a scatter: for every scalar, for every active program instance. -/
def scatterWrites (T : Tgt) (v : Vb) (t : Ty) (mask : Nat → Bool) (ps : Nat → BitVec T.m.P)
    (val : List Nat → Nat → List Byte) : List (BitVec T.m.P × List Byte) :=
  (walk T v t ps [] false).flatMap fun a =>
    ((List.range T.D.W).filter mask).map fun l => (a.addr l, val a.path l)

/-- `scatter` (src/ctx.cpp:3199-3311): `val p l` is the scalar at `p` of program instance `l`, of a uniform
scalar the same for all of them (src/ctx.cpp:3224-3230). -/
def scatter (T : Tgt) (v : Vb) (t : Ty) (mask : Nat → Bool) (ps : Nat → BitVec T.m.P)
    (val : List Nat → Nat → List Byte) (mem : Mem T.m.P) : Mem T.m.P :=
  wrs mem (scatterWrites T v t mask ps val)

/-- A store that does not look at the mask (src/ctx.cpp:3313-3341).  Simplified: the padding is left as it was. -/
def whole (T : Tgt) (v : Vb) (t : Ty) (p : BitVec T.m.P) (path : List Nat) (val : List Nat → Option Nat → List Byte) :
    List (BitVec T.m.P × List Byte) :=
  (lflat T.D v t 0 path).map fun f => (p + BitVec.ofNat T.m.P f.off, val f.path f.lane)

/-- A masked store of a varying scalar (src/ctx.cpp:3108-3191): the active program instances. -/
def maskedBasic (T : Tgt) (k : Scal) (mask : Nat → Bool) (p : BitVec T.m.P) (path : List Nat)
    (val : List Nat → Option Nat → List Byte) : List (BitVec T.m.P × List Byte) :=
  ((List.range T.D.W).filter mask).map fun l => (p + BitVec.ofNat T.m.P (l * T.D.size k), val path (some l))

mutual
/-- `StoreInst` with a mask through a uniform pointer (src/ctx.cpp:3361-3375): a plain store if the type is
uniform, else `maskedStore` (src/ctx.cpp:3079-3107), which calls it for every element. -/
def store (T : Tgt) (mask : Nat → Bool) (val : List Nat → Option Nat → List Byte) (v : Vb) :
    Ty → BitVec T.m.P → List Nat → List (BitVec T.m.P × List Byte)
  | .atom k x, p, path =>
    if v.resolve x = .uniform then whole T v (.atom k x) p path val else maskedBasic T k mask p path val
  | .enum x, p, path =>
    if v.resolve x = .uniform then whole T v (.enum x) p path val else maskedBasic T .enum mask p path val
  | .ptr b x, p, path =>
    if v.resolve x = .uniform then whole T v (.ptr b x) p path val else maskedBasic T .pointer mask p path val
  | .vec k n x, p, path =>
    if v.resolve x = .uniform then whole T v (.vec k n x) p path val
    else (List.range n).flatMap fun j =>
      maskedBasic T k mask (component T v (.atom k x) false j p) (path ++ [j]) val
  | .arr n t, p, path =>
    if t.vb v = .uniform then whole T v (.arr n t) p path val
    else (List.range n).flatMap fun j => store T mask val v t (component T v t false j p) (path ++ [j])
  | .struct nm a x ms, p, path =>
    if v.resolve x = .uniform then whole T v (.struct nm a x ms) p path val
    else stores T mask val (v.resolve x) ms p path 0 0
/-- The members, through `getelementptr` (src/ctx.cpp:2475-2480). -/
def stores (T : Tgt) (mask : Nat → Bool) (val : List Nat → Option Nat → List Byte) (v : Vb) :
    Ms → BitVec T.m.P → List Nat → (off j : Nat) → List (BitVec T.m.P × List Byte)
  | .nil, _, _, _, _ => []
  | .cons _ t rest, p, path, off, j =>
    store T mask val v t (p + BitVec.ofNat T.m.P (roundUp off (llay T.D v t).2)) (path ++ [j]) ++
      stores T mask val v rest p path (roundUp off (llay T.D v t).2 + (llay T.D v t).1) (j + 1)
end

/-- An assignment through a uniform pointer (src/ctx.cpp:3343-3375); `allOn` says that the mask is known to be on
(src/expr.cpp:1182-1200, src/ctx.cpp:3369-3372). -/
def assign (T : Tgt) (v : Vb) (t : Ty) (allOn : Bool) (mask : Nat → Bool) (p : BitVec T.m.P)
    (val : List Nat → Option Nat → List Byte) (mem : Mem T.m.P) : Mem T.m.P :=
  wrs mem (if allOn && t.vb v != .uniform then whole T v t p [] val else store T mask val v t p [])

/-! ## How a `bool` is represented in the result of a gather -/

/-- The elements of a `bool` in registers are those of the mask (all ones for true), in memory, structs and arrays
bytes (one for true). -/
inductive Rep where
  | mask
  | storage
deriving DecidableEq

/-- A `bool` or a short vector of them, `IsBoolType` (src/type.cpp:400, src/type.cpp:1724). -/
def Ty.isBool : Ty → Bool
  | .atom k _ | .vec k _ _ => decide (k = .bool)
  | _                      => false

/-- The `bool`s in a scalar type. -/
def repBasic (k : Scal) (r : Rep) : List Rep := if k = .bool then [r] else []

mutual
/-- The representation that `gather` gives the `bool`s of its result (src/ctx.cpp:2853-2860): a scalar has been
converted to the mask (src/ctx.cpp:2920-2923), and is converted back only as a member of a struct. -/
def repG : Ty → List Rep
  | .atom k _  => repBasic k .mask
  | .vec k n _ => (List.range n).flatMap fun _ => repBasic k .mask
  | .arr n t   => (List.range n).flatMap fun _ => repG t
  | .struct _ _ _ ms => repGs ms
  | _ => []
/-- The members. -/
def repGs : Ms → List Rep
  | .nil => []
  | .cons _ t rest => (if Ty.isBool t then (repG t).map fun _ => .storage else repG t) ++ repGs rest
end

mutual
/-- The representation in the LLVM type of the result: a value of the type itself if `r` is `.mask`, an element of
an array (src/type.cpp:1468-1480) or of a struct (src/type.cpp:1947-1975) if it is `.storage`. -/
def repT (r : Rep) : Ty → List Rep
  | .atom k _  => repBasic k r
  | .vec k n _ => (List.range n).flatMap fun _ => repBasic k r
  | .arr n t   => (List.range n).flatMap fun _ => repT .storage t
  | .struct _ _ _ ms => repTs ms
  | _ => []
/-- The members. -/
def repTs : Ms → List Rep
  | .nil => []
  | .cons _ t rest => repT .storage t ++ repTs rest
end

end Ispc.Agg
