import Verif.Builtins.Vec
import Verif.Foreach.ActiveProps
import Mathlib.Algebra.BigOperators.Group.Finset.Basic
import Mathlib.Data.Fintype.BigOperators
import Mathlib.Data.BitVec

/-!
# Cross-instance scans, reductions and packed transfers (C15)

`builtins/generic.ispc:762-829, 1016-1050, 1613-1623, 2447-2532`, their wrappers in `stdlib/stdlib.ispc:762-823, 1497-1977`
and the versions in `builtins/util.m4:6840-7118` that some targets instantiate.
-/

namespace Ispc.Scan

open Ispc.Vec
open Ispc.ForeachActive (Mask movmsk cttz activeLanes)

variable {W : Nat} {α : Type}

/-! ## Model -/

/-- `__exclusive_scan_{add,and,or}` (generic.ispc:1016-1050); `e` is the identity 0, -1 or 0. -/
def exclusiveScan (op : α → α → α) (e : α) (v : Vec W α) (mask : Mask W) : Option (Vec W α) :=
  let res : Vec W α := fun _ => e
  let val : Vec W α := fun l => if mask l then v l else e
  forLoop (fun i res => do
    let a ← extract val (i - 1)
    let b ← extract res (i - 1)
    insert res i (op a b)) 1 (W - 1) res

/-- The `exclusive_scan` macro of util.m4:7083-7118: `s1 = e op v0`, `s_i = s_{i-1} op v_{i-1}`, then the result vector
`<e, s1, ..., s_{W-1}>`. -/
def exclusiveScanM4 (op : α → α → α) (e : α) (v : Vec W α) (mask : Mask W) : Option (Vec W α) :=
  let vid : Vec W α := fun l => if mask l then v l else e
  (forLoop (fun i (st : α × Vec W α) => do
    let x ← extract vid (i - 1)
    let s := op st.1 x
    let r ← insert st.2 i s
    some (s, r)) 1 (W - 1) (e, fun _ => e)).map Prod.snd

/-- `@llvm.vector.reduce.*` (generic.ispc:762-814): fold over all lanes, in lane order. -/
def vectorReduce (op : α → α → α) (e : α) (v : Vec W α) : α := (List.finRange W).foldl (fun acc l => op acc (v l)) e

/-- `reduce_add` on integers (stdlib.ispc:1497-1529): inactive lanes contribute zero. -/
def reduceAdd {w : Nat} (v : Vec W (BitVec w)) (mask : Mask W) : BitVec w :=
  vectorReduce (· + ·) 0#w fun l => if mask l then v l else 0#w

/-- `reduce_min` on signed integers (stdlib.ispc:1568-1572, 1580-1584, 1592-1596, 1604-1608): inactive lanes contribute the type's maximum. -/
def reduceMinS {w : Nat} (v : Vec W (BitVec w)) (mask : Mask W) : BitVec w :=
  vectorReduce (fun a b => if a.sle b then a else b) (BitVec.intMax w) fun l => if mask l then v l else BitVec.intMax w

/-- `reduce_max` on signed integers (stdlib.ispc:1653-1657, 1665-1669, 1677-1681, 1689-1693): inactive lanes contribute the type's minimum. -/
def reduceMaxS {w : Nat} (v : Vec W (BitVec w)) (mask : Mask W) : BitVec w :=
  vectorReduce (fun a b => if b.sle a then a else b) (BitVec.intMin w) fun l => if mask l then v l else BitVec.intMin w

/-- `reduce_min` on unsigned integers (stdlib.ispc:1574-1578, 1586-1590, 1598-1602, 1610-1614): inactive lanes contribute `UINT_MAX`. -/
def reduceMinU {w : Nat} (v : Vec W (BitVec w)) (mask : Mask W) : BitVec w :=
  vectorReduce (fun a b => if a ≤ b then a else b) (BitVec.allOnes w) fun l => if mask l then v l else BitVec.allOnes w

/-- `reduce_max` on unsigned integers (stdlib.ispc:1659-1663, 1671-1675, 1683-1687, 1695-1699): inactive lanes contribute zero. -/
def reduceMaxU {w : Nat} (v : Vec W (BitVec w)) (mask : Mask W) : BitVec w :=
  vectorReduce (fun a b => if b ≤ a then a else b) 0#w fun l => if mask l then v l else 0#w

/-- `__any` (generic.ispc:1621) under `any(bool)` (stdlib.ispc:762-770). -/
def any (v mask : Mask W) : Bool := movmsk (fun l => v l && mask l) != 0#64

/-- `__all` (generic.ispc:1622) under `all(bool)` (stdlib.ispc:772-786): `~0ULL >> (64 - TARGET_WIDTH)`. -/
def allMask (W : Nat) : BitVec 64 := BitVec.allOnes 64 >>> (64 - W)

def all (v mask : Mask W) : Bool := movmsk (fun l => v l || !mask l) == allMask W

/-- `__none` (generic.ispc:1623) under `none(bool)` (stdlib.ispc:788-796). -/
def none' (v mask : Mask W) : Bool := movmsk (fun l => v l && mask l) == 0#64

/-- `@llvm.ctpop` (generic.ispc:960-961), returned as `int32`. -/
def popcnt (x : BitVec 64) : BitVec 32 := BitVec.ofNat 32 ((List.range 64).filter fun i => x.getLsbD i).length

/-- `popcnt(bool)` (stdlib.ispc:806-813). -/
def popcntBool (v mask : Mask W) : BitVec 32 := popcnt (movmsk fun l => v l && mask l)

/-- `__reduce_equal` (generic.ispc:817-829): `none` is poison or undefined behaviour, otherwise `none`/`some first`
tells the returned bool and what is stored through `ret`. -/
def reduceEqual (eq : α → α → Bool) (x : Vec W α) (mask : Mask W) : Option (Option α) := do
  let first ← extract x (cttz (movmsk mask))
  let ok := movmsk (fun l => eq (x l) first || !mask l) == allMask W
  some (if ok then some first else none)

/-- The first part of `reduce_equal_aux` (util.m4:6986-7010): unless the mask is all on, the first active value is blended
into the inactive lanes. -/
def blendFirst (x : Vec W α) (mask : Mask W) : Option (Vec W α) :=
  if movmsk mask = allMask W then some x
  else do
    let base ← extract x (cttz (movmsk mask))
    some fun l => if mask l then x l else base

/-- `reduce_equal_aux` of util.m4:6986-7061: blend the first active value into the inactive lanes unless the mask is all
on, then compare every lane with its right neighbour, cyclically. -/
def reduceEqualM4 (eq : α → α → Bool) (x : Vec W α) (mask : Mask W) : Option (Option α) := do
  let vec ← blendFirst x mask
  let neighbours := fun l : Fin W => eq (vec l) (vec ⟨(l.val + 1) % W, Nat.mod_lt _ (Nat.zero_lt_of_lt l.isLt)⟩)
  let v0 ← extract vec 0
  some (if movmsk neighbours = allMask W then some v0 else none)

/-- `reduce_equal_aux` of util.m4:7036-7050, the scalarised form for element sizes other than 32 bits: the conjunction of
the comparisons of lane `i` and lane `i+1`, `i < W-1`, without wrap-around. -/
def reduceEqualM4Pairs (eq : α → α → Bool) (x : Vec W α) (mask : Mask W) : Option (Option α) := do
  let vec ← blendFirst x mask
  let ok := (List.range (W - 1)).all fun i =>
    match extract vec i, extract vec (i + 1) with
    | some a, some b => eq a b
    | _, _ => false
  let v0 ← extract vec 0
  some (if ok then some v0 else none)

/-- Memory, one cell per element of the transferred type. -/
abbrev Mem (α : Type) := Int → α

/-- Write one cell. -/
def Mem.set (m : Mem α) (p : Int) (x : α) : Mem α := fun q => if q = p then x else m q

/-- `@llvm.masked.compressstore` (LLVM LangRef): active lanes in order, one consecutive cell each. -/
def compressStore (m : Mem α) (p : Int) (v : Vec W α) (mask : Mask W) : Mem α :=
  ((List.finRange W).foldl (fun (st : Mem α × Int) l =>
    if mask l then (st.1.set st.2 (v l), st.2 + 1) else st) (m, p)).1

/-- `@llvm.masked.expandload`: active lanes in order read consecutive cells, other lanes keep `passthru`. -/
def expandLoad (m : Mem α) (p : Int) (passthru : Vec W α) (mask : Mask W) : Vec W α :=
  ((List.finRange W).foldl (fun (st : Vec W α × Int) l =>
    if mask l then ((fun k => if k = l then m st.2 else st.1 k), st.2 + 1) else st) (passthru, p)).1

/-- `__packed_store_active*` (generic.ispc:2447-2502). -/
def packedStore (m : Mem α) (p : Int) (v : Vec W α) (mask : Mask W) : Mem α × BitVec 32 :=
  (compressStore m p v mask, popcnt (movmsk mask))

/-- `__packed_load_active` (generic.ispc:2504-2532); the destination vector is returned. -/
def packedLoad (m : Mem α) (p : Int) (old : Vec W α) (mask : Mask W) : Vec W α × BitVec 32 :=
  (expandLoad m p old mask, popcnt (movmsk mask))

/-- The loop of `__packed_store_active2*` of util.m4:6907-6934, for masks of `k` bits (all ones or zero per lane): every
lane stores at the current offset, the offset advances by minus the lane's mask value. -/
def packedStore2 (k : Nat) (m : Mem α) (p : Int) (v : Vec W α) (mask : Mask W) : Option (Mem α × BitVec k) :=
  forLoop (fun i (st : Mem α × BitVec k) => do
    let storeval ← extract v i
    let mk ← extract mask i
    let fullMask : BitVec k := if mk then BitVec.allOnes k else 0#k
    some (st.1.set (p + st.2.toNat) storeval, st.2 - fullMask)) 0 W (m, 0#k)

end Ispc.Scan
