import Verif.Builtins.GatherProps

/-!
# Coalescing of gathers

`src/opt/GatherCoalescePass.cpp` replaces up to four gathers that have the same base, the same uniform variable offset
and different constant offsets by a few scalar and vector loads, and puts the results together with shuffles.  The
compiler's side (which loads, which shuffles, which assertions) is separate from what the emitted code does to memory.
-/

namespace Ispc.Coalesce

open Ispc.Vec
open Ispc.Gather (Mem Addr Elt Res laneAddr addr32 addr64 Paged)

/-! ## Choosing the loads -/

/-- `lVectorLoadIsEfficient` (src/opt/GatherCoalescePass.cpp:44-131): `last` is `lastAccepted`, the list is what is left
of the set from `iter` on, and the result is the list from `*newIter` on. -/
def efficient (start : Int) (width : Nat) : Int → List Int → Option (List Int)
  | _, [] => none
  | last, x :: xs =>
    if x - last > 3 then none
    else if x - start + 1 = width then some xs
    else if x - start + 1 > width then
      if width ≠ 2 ∧ last - start > ((width / 2 : Nat) : Int) ∧ x - last < 4096 then some (x :: xs) else none
    else efficient start width x xs

/-- `std::set<int64_t>::insert` on the sorted list of the elements. -/
def insertSet (x : Int) : List Int → List Int
  | [] => [x]
  | y :: ys => if x < y then x :: y :: ys else if x = y then y :: ys else y :: insertSet x ys

/-- The set of offsets (src/opt/GatherCoalescePass.cpp:142-145). -/
def toSet (offsets : List Int) : List Int := offsets.foldl (fun s x => insertSet x s) []

/-- The widths tried at one offset, in order (src/opt/GatherCoalescePass.cpp:160-178), and the width of the load that is
chosen there with the rest of the set; 1 if none of them does (src/opt/GatherCoalescePass.cpp:180-185). -/
def chooseLoad (x : Int) (xs : List Int) : Nat × List Int :=
  match efficient x 8 x (x :: xs) with
  | some r => (8, r)
  | none => match efficient x 4 x (x :: xs) with
    | some r => (4, r)
    | none => match efficient x 2 x (x :: xs) with
      | some r => (2, r)
      | none => (1, xs)

/-- The loop of `lSelectLoads` (src/opt/GatherCoalescePass.cpp:156-186), a load being its start and its number of
elements; every round removes an element of the set, so that its length is enough fuel. -/
def selectFrom : Nat → List Int → List (Int × Nat)
  | 0, _ => []
  | _ + 1, [] => []
  | fuel + 1, x :: xs => (x, (chooseLoad x xs).1) :: selectFrom fuel (chooseLoad x xs).2

/-- `lSelectLoads` (src/opt/GatherCoalescePass.cpp:140-187). -/
def selectLoads (offsets : List Int) : List (Int × Nat) := selectFrom (toSet offsets).length (toSet offsets)

/-! ## Putting the results together -/

/-- An element of the value of one of the emitted loads: the number of the load and of the element. -/
abbrev Src := Nat × Nat

/-- `CoalescedLoadOp` (src/opt/GatherCoalescePass.cpp:15-36): the elements of the value `load`; outside of the vector
they are poison.  `element0` and `element1` of a 2-wide load are its elements 0 and 1: the 64-bit value is cut in two
with a truncation and a shift (src/opt/GatherCoalescePass.cpp:292-304), which gives the elements in order of their
addresses on a little-endian machine. -/
structure Op where
  start : Int
  count : Nat
  load : Nat → Option Src

/-- `lEmitLoads` (src/opt/GatherCoalescePass.cpp:276-329), the compiler's side: load number `i`. -/
def emitted (i : Nat) (l : Int × Nat) : Op := ⟨l.1, l.2, fun j => if j < l.2 then some (i, j) else none⟩

def emitFrom : Nat → List (Int × Nat) → List Op
  | _, [] => []
  | i, l :: ls => emitted i l :: emitFrom (i + 1) ls

/-- `lSplit8WideLoads` (src/opt/GatherCoalescePass.cpp:336-357). -/
def split8 : List Op → List Op
  | [] => []
  | op :: ops =>
    if op.count = 8 then
      ⟨op.start, 4, fun j => if j < 4 then op.load j else none⟩ ::
        ⟨op.start + 4, 4, fun j => if j < 4 then op.load (j + 4) else none⟩ :: split8 ops
    else op :: split8 ops

/-- The vector under construction and `set[]`. -/
structure St where
  result : Nat → Option Src
  set : Nat → Bool

/-- `offsets[elt] >= load.start && offsets[elt] < load.start + load.count`. -/
def Op.covers (op : Op) (x : Int) : Bool := decide (op.start ≤ x ∧ x < op.start + op.count)

def St.put (st : St) (elt : Nat) (v : Option Src) : St :=
  ⟨Function.update st.result elt v, Function.update st.set elt true⟩

/-- One round of `lApplyLoad1` (src/opt/GatherCoalescePass.cpp:364-377). -/
def apply1Step (op : Op) (offsets : Nat → Int) (st : St) (elt : Nat) : Option St :=
  if op.covers (offsets elt) then if st.set elt then none else some (st.put elt (op.load 0)) else some st

/-- `lApplyLoad1` (src/opt/GatherCoalescePass.cpp:362-380); `none` is a failed assertion. -/
def apply1 (op : Op) (offsets : Nat → Int) (st : St) : Option St := [0, 1, 2, 3].foldlM (apply1Step op offsets) st

/-- The insertion of a 64-bit value at the elements `elt` and `elt + 1` by way of a vector of two 64-bit integers
(src/opt/GatherCoalescePass.cpp:400-413).  On the machine the other half stays what it is.  In the LLVM reference
(`strict`) a 64-bit integer made of a poison half is poison as a whole, so that both of its elements are poison when the
vector is cast back. -/
def St.put2 (strict : Bool) (st : St) (elt : Nat) (v w : Option Src) : St :=
  let other := if elt = 0 then 2 else 0
  let st := if strict && ((st.result other).isNone || (st.result (other + 1)).isNone) then
      { st with result := Function.update (Function.update st.result other none) (other + 1) none }
    else st
  (st.put elt v).put (elt + 1) w

/-- `lApplyLoad2` (src/opt/GatherCoalescePass.cpp:384-439) from element `elt` on. -/
def apply2From (strict : Bool) (op : Op) (offsets : Nat → Int) : Nat → Nat → St → Option St
  | 0, _, st => some st
  | fuel + 1, elt, st =>
    if elt < 4 then
      if elt % 2 = 0 ∧ offsets elt + 1 = offsets (elt + 1) ∧ offsets elt = op.start then
        if st.set elt = false ∧ elt < 3 ∧ st.set (elt + 1) = false then
          apply2From strict op offsets fuel (elt + 2) (st.put2 strict elt (op.load 0) (op.load 1))
        else none
      else if op.covers (offsets elt) then
        if st.set elt then none
        else apply2From strict op offsets fuel (elt + 1)
          (st.put elt (if offsets elt = op.start then op.load 0 else op.load 1))
      else apply2From strict op offsets fuel (elt + 1) st
    else some st

/-- The loop of `lApplyLoad4` (src/opt/GatherCoalescePass.cpp:453-470): the indices of the shuffle, and `set[]`. -/
def apply4Step (op : Op) (offsets : Nat → Int) (s : (Nat → Nat) × (Nat → Bool)) (elt : Nat) :
    Option ((Nat → Nat) × (Nat → Bool)) :=
  if op.covers (offsets elt) then
    if s.2 elt then none
    else some (Function.update s.1 elt (offsets elt - op.start).toNat, Function.update s.2 elt true)
  else some s

/-- `lApplyLoad4` (src/opt/GatherCoalescePass.cpp:447-479). -/
def apply4 (op : Op) (offsets : Nat → Int) (st : St) : Option St := do
  let s ← [0, 1, 2, 3].foldlM (apply4Step op offsets) (fun j => j + 4, st.set)
  if s.1 0 ≠ 4 ∨ s.1 1 ≠ 5 ∨ s.1 2 ≠ 6 ∨ s.1 3 ≠ 7 then
    some ⟨fun j => if s.1 j < 4 then op.load (s.1 j) else st.result (s.1 j - 4), s.2⟩
  else some ⟨st.result, s.2⟩

/-- The cases of `lAssemble4Vector` (src/opt/GatherCoalescePass.cpp:504-516). -/
def applyOp (strict : Bool) (op : Op) (offsets : Nat → Int) (st : St) : Option St :=
  if op.count = 1 then apply1 op offsets st
  else if op.count = 2 then apply2From strict op offsets 4 0 st
  else if op.count = 4 then apply4 op offsets st
  else none

/-- `lAssemble4Vector` (src/opt/GatherCoalescePass.cpp:487-527). -/
def assemble4 (strict : Bool) (ops : List Op) (offsets : Nat → Int) : Option (Nat → Option Src) := do
  let st ← ops.foldlM (fun st op => applyOp strict op offsets st) ⟨fun _ => none, fun _ => false⟩
  if st.set 0 && st.set 1 && st.set 2 && st.set 3 then some st.result else none

/-- The 4-wide vectors (src/opt/GatherCoalescePass.cpp:652-655), vector `q` being at offset `4q`. -/
def vec4s (ops : List Op) (consts : List Int) : Option (List (Nat → Option Src)) :=
  (List.range (consts.length / 4)).mapM fun q => assemble4 false ops fun j => consts.getD (4 * q + j) 0

/-- Which of the 4-wide vectors make up the result of gather `i`, by the width of the gang
(src/opt/GatherCoalescePass.cpp:662-706); the widths 32 and 64 multiply `i` by 4. -/
def pieces (W i : Nat) : Option (List Nat) :=
  if W = 4 then some [i]
  else if W = 8 then some [2 * i, 2 * i + 1]
  else if W = 16 then some [4 * i, 4 * i + 1, 4 * i + 2, 4 * i + 3]
  else if W = 32 then some ((List.range 8).map (4 * i + ·))
  else if W = 64 then some ((List.range 16).map (4 * i + ·))
  else none

/-- The concatenation of 4-wide vectors. -/
def concat (vs : List (Nat → Option Src)) (l : Nat) : Option Src := (vs.getD (l / 4) fun _ => none) (l % 4)

/-- `lAssembleResultVectors` (src/opt/GatherCoalescePass.cpp:645-710). -/
def assembleResults (W : Nat) (ops : List Op) (consts : List Int) : Option (List (Nat → Option Src)) :=
  if consts.length % 4 = 0 then do
    let vs ← vec4s ops consts
    (List.range (consts.length / W)).mapM fun i => do
      let ps ← pieces W i
      some (concat (ps.map fun p => vs.getD p fun _ => none))
  else none

/-- The value that `LLVMExtractVectorInts` finds for an element of a constant vector (src/llvmutil.cpp:796-798):
`getElementAsInteger` extends with zeros to 64 bits, the result is a signed number. -/
def int64Of {k : Nat} (x : BitVec k) : Int := (x.setWidth 64).toInt

/-- `lExtractConstOffsets` (src/opt/GatherCoalescePass.cpp:744-760): in elements of 4 bytes, with C++'s division.  The
groups are made of gathers of 32-bit values only (src/opt/GatherCoalescePass.cpp:879-884), so the size is 4. -/
def constOffsets {W k : Nat} (group : List (Vec W (BitVec k))) : List Int :=
  group.flatMap fun delta => List.ofFn fun l => (int64Of (delta l)).tdiv 4

/-- What the compiler produces for a group: the loads, and for every gather where its lanes come from. -/
structure Code where
  loads : List (Int × Nat)
  results : List (Nat → Option Src)

/-- The compiler's side of `lCoalesceGathers` (src/opt/GatherCoalescePass.cpp:772-841); `none` is a failed assertion. -/
def compile {W k : Nat} (group : List (Vec W (BitVec k))) : Option Code := do
  let consts := constOffsets group
  let loads := selectLoads consts
  let results ← assembleResults W (split8 (emitFrom 0 loads)) consts
  if results.length = group.length then some ⟨loads, results⟩ else none

/-! ## What the code does -/

/-- One emitted load (src/opt/GatherCoalescePass.cpp:264-270, 284-328): `start * elementSize` bytes from the base.
Alignment (`--opt=force-aligned-memory`) is not modelled. -/
def runLoad (m : Mem) (basePtr : Addr) (l : Int × Nat) : Option (Nat → Elt 4) :=
  let ptr := basePtr + BitVec.ofInt 64 (l.1 * 4)
  if ∀ j : Fin l.2, m.accessible 4 (laneAddr 4 ptr j.val) then some fun j => m.elt 4 (laneAddr 4 ptr j) else none

/-- The loads, and then each lane of each gather; `none` is a fault, a lane that is `none` is poison. -/
def run {W : Nat} (m : Mem) (basePtr : Addr) (c : Code) : Option (List (Res W 4)) := do
  let vals ← c.loads.mapM (runLoad m basePtr)
  some (c.results.map fun r l => (r l.val).bind fun s => vals[s.1]?.map fun v => v s.2)

/-- `lComputeBasePtr` (src/opt/GatherCoalescePass.cpp:718-735) with 32-bit offsets: a product of 32-bit numbers, which
the address computation extends with its sign. -/
def basePtr32 (base : Addr) (offset scale : BitVec 32) : Addr := base + (offset * scale).signExtend 64

/-- `lComputeBasePtr` with 64-bit offsets: the scale is extended with zeros. -/
def basePtr64 (base : Addr) (offset : BitVec 64) (scale : BitVec 32) : Addr := base + offset * scale.setWidth 64

/-! ## Forming the groups -/

/-- The instructions of a basic block as `lInstructionMayWriteToMemory` tells them apart.  The arguments of a gather are
SSA values, given by number. -/
inductive Kind where
  | store | atomicRmw | cmpXchg
  | call (known readOnly : Bool)
  | fence
  | gather (fn base offsets scale mask : Nat)
  | other
deriving DecidableEq

/-- An instruction with what it does to memory; for a fence that is what other threads have written before. -/
structure Instr where
  kind : Kind
  effect : Mem → Mem

/-- `lInstructionMayWriteToMemory` (src/opt/GatherCoalescePass.cpp:848-873).  The pseudo gathers are declared read-only
(stdlib/include/core.isph:484-500). -/
def mayWrite : Kind → Bool
  | .store | .atomicRmw | .cmpXchg => true
  | .call known readOnly => !known || !readOnly
  | .fence | .gather .. | .other => false

/-- The search for further members of a group (src/opt/GatherCoalescePass.cpp:954-1019): `i` is the number of the next
instruction and `room` the number of gathers that may still be added. -/
def collect (first : Kind) : Nat → Nat → List Instr → List Nat
  | 0, _, _ => []
  | _ + 1, _, [] => []
  | room + 1, i, x :: xs =>
    if mayWrite x.kind then []
    else if x.kind = first then i :: collect first room (i + 1) xs
    else collect first (room + 1) (i + 1) xs

/-- The group that starts with instruction `i` of the block, a gather (src/opt/GatherCoalescePass.cpp:945-1019). -/
def groupAt (block : List Instr) (i : Nat) : List Nat :=
  match block.drop i with
  | x :: xs => i :: collect x.kind 3 (i + 1) xs
  | [] => []

/-- Memory when control reaches instruction `i` of the block. -/
def memAt (block : List Instr) (i : Nat) (m : Mem) : Mem := (block.take i).foldl (fun m x => x.effect m) m

end Ispc.Coalesce
