import Verif.Builtins.PerLane

/-!
# Gathers, scatters and masked vector loads and stores

The functions of `builtins/util.m4` and `builtins/generic.ispc` that the compiler calls for memory accesses through a
varying pointer, and for accesses to a vector under a mask.  Memory is byte-addressed, addresses are 64 bits wide and
wrap around, and touching an address that is not mapped is a fault (`none`).  A lane of a result that was never written
is poison, `none` as well.
-/

namespace Ispc.Gather

open Ispc.Vec Ispc.PerLane
open Ispc.ForeachActive (Mask movmsk activeLanes)

abbrev Byte := BitVec 8
abbrev Addr := BitVec 64

/-- The memory of a process. -/
structure Mem where
  mapped : Addr → Bool
  byte : Addr → Byte

/-- An element of `n` bytes. -/
abbrev Elt (n : Nat) := Fin n → Byte

/-- The element of `n` bytes at address `a`. -/
def Mem.elt (m : Mem) (n : Nat) (a : Addr) : Elt n := fun i => m.byte (a + BitVec.ofNat 64 i.val)

/-- All `n` bytes from `a` on can be accessed. -/
def Mem.accessible (m : Mem) (n : Nat) (a : Addr) : Prop := ∀ i : Fin n, m.mapped (a + BitVec.ofNat 64 i.val) = true

instance (m : Mem) (n : Nat) (a : Addr) : Decidable (m.accessible n a) := inferInstanceAs (Decidable (∀ _, _))

/-- `load T, T* %p`. -/
def Mem.load (m : Mem) (n : Nat) (a : Addr) : Option (Elt n) := if m.accessible n a then some (m.elt n a) else none

/-- Memory after the bytes of `v` have been written from `a` on. -/
def Mem.put {n : Nat} (m : Mem) (a : Addr) (v : Elt n) : Mem :=
  { m with byte := fun x => if h : (x - a).toNat < n then v ⟨(x - a).toNat, h⟩ else m.byte x }

/-- `store T %v, T* %p`. -/
def Mem.store {n : Nat} (m : Mem) (a : Addr) (v : Elt n) : Option Mem :=
  if m.accessible n a then some (m.put a v) else none

/-- What a gather returns: for each lane an element, or poison. -/
abbrev Res (W n : Nat) := Vec W (Option (Elt n))

/-- The address of lane `l` of a vector of elements of `n` bytes that starts at `a`: `getelementptr <W x T>, a, 0, l`. -/
def laneAddr (n : Nat) (a : Addr) (l : Nat) : Addr := a + BitVec.ofNat 64 (l * n)

variable {W n : Nat}

/-! ## Gathers and scatters through vectors of pointers -/

/-- `__gather32_T` and `__gather64_T` (builtins/util.m4:7217-7246), also `__gather32_generic_T` and
`__gather64_generic_T` (builtins/util.m4:7252-7281): `k` is the width of a pointer, 32 or 64, and `inttoptr` extends
with zeros.  The vector in memory that the lanes are stored to is a local one. -/
def gatherPtrs {k : Nat} (known : Bool) (m : Mem) (n : Nat) (ptrs : Vec W (BitVec k)) (mask : Mask W) :
    Option (Res W n) :=
  perLane known mask (fun lane ret => do
    let iptr ← extract ptrs lane
    let val ← m.load n (iptr.setWidth 64)
    insert ret lane (some val)) fun _ => none

/-- `__scatter32_T` and `__scatter64_T` (builtins/util.m4:7554-7575), also `__scatter32_generic_T` and
`__scatter64_generic_T` (builtins/util.m4:7454-7475). -/
def scatterPtrs {k : Nat} (known : Bool) (m : Mem) (ptrs : Vec W (BitVec k)) (vals : Vec W (Elt n)) (mask : Mask W) :
    Option Mem :=
  perLane known mask (fun lane m => do
    let iptr ← extract ptrs lane
    let val ← extract vals lane
    m.store (iptr.setWidth 64) val) m

/-! ## Gathers and scatters with a common base -/

/-- The address computed by `__gather_elt32_T` (builtins/util.m4:7292-7302) and `__scatter_elt32_T`
(builtins/util.m4:7486-7496). -/
def addr32 (base : Addr) (offset scale delta : BitVec 32) : Addr :=
  base + offset.signExtend 64 * scale.signExtend 64 + delta.signExtend 64

/-- The address computed by `__gather_elt64_T` (builtins/util.m4:7315-7323) and `__scatter_elt64_T`
(builtins/util.m4:7507-7515). -/
def addr64 (base : Addr) (offset : BitVec 64) (scale : BitVec 32) (delta : BitVec 64) : Addr :=
  base + offset * scale.signExtend 64 + delta

/-- A local vector is set to zero, `v` is stored to it with `__masked_store_blend`, and it is read again
(builtins/util.m4:7341-7345). -/
def zeroOff {k : Nat} (mask : Mask W) (v : Vec W (BitVec k)) : Vec W (BitVec k) := fun l => if mask l then v l else 0

/-- `__gather_factored_base_offsets32_T` (builtins/util.m4:7333-7362) and `__gather_factored_base_offsets64_T`
(builtins/util.m4:7364-7393): the lanes that are off read at the base. -/
def gatherFactored {k : Nat} (addr : Addr → BitVec k → BitVec 32 → BitVec k → Addr) (m : Mem) (n : Nat) (base : Addr)
    (offsets : Vec W (BitVec k)) (scale : BitVec 32) (delta : Vec W (BitVec k)) (mask : Mask W) : Option (Res W n) :=
  forLoop (fun lane ret => do
    let o ← extract (zeroOff mask offsets) lane
    let d ← extract (zeroOff mask delta) lane
    let val ← m.load n (addr base o scale d)
    insert ret lane (some val)) 0 W fun _ => none

/-- `__gather_base_offsets32_T` (builtins/util.m4:7414-7425): the product is one of 32-bit numbers. -/
def gatherBase32 (m : Mem) (n : Nat) (base : Addr) (scale : BitVec 32) (offsets : Vec W (BitVec 32)) (mask : Mask W) :
    Option (Res W n) :=
  gatherFactored addr32 m n base (fun l => scale * offsets l) 1 (fun _ => 0) mask

/-- `__gather_base_offsets64_T` (builtins/util.m4:7427-7439): the scale is extended with zeros. -/
def gatherBase64 (m : Mem) (n : Nat) (base : Addr) (scale : BitVec 32) (offsets : Vec W (BitVec 64)) (mask : Mask W) :
    Option (Res W n) :=
  gatherFactored addr64 m n base (fun l => scale.setWidth 64 * offsets l) 1 (fun _ => 0) mask

/-- `__scatter_factored_base_offsets32_T` and `__scatter_factored_base_offsets64_T` (builtins/util.m4:7523-7541). -/
def scatterFactored {k : Nat} (addr : Addr → BitVec k → BitVec 32 → BitVec k → Addr) (known : Bool) (m : Mem)
    (base : Addr) (offsets : Vec W (BitVec k)) (scale : BitVec 32) (delta : Vec W (BitVec k)) (vals : Vec W (Elt n))
    (mask : Mask W) : Option Mem :=
  perLane known mask (fun lane m => do
    let o ← extract offsets lane
    let d ← extract delta lane
    let val ← extract vals lane
    m.store (addr base o scale d) val) m

/-! ## Vectors in memory under a mask -/

/-- `load <W x T>`. -/
def loadVec (m : Mem) (n : Nat) (ptr : Addr) : Option (Res W n) :=
  forLoop (fun lane ret => do
    let val ← m.load n (laneAddr n ptr lane)
    insert ret lane (some val)) 0 W fun _ => none

/-- `store <W x T>`. -/
def storeVec (m : Mem) (ptr : Addr) (vals : Vec W (Elt n)) : Option Mem :=
  forLoop (fun lane m => do
    let val ← extract vals lane
    m.store (laneAddr n ptr lane) val) 0 W m

/-- `llvm.masked.load` with a poison pass-through, as the LLVM reference defines it: the lanes that are on are read. -/
def maskedLoadIntrinsic (m : Mem) (n : Nat) (ptr : Addr) (mask : Mask W) : Option (Res W n) :=
  (activeLanes mask).foldlM (fun ret l => do
    let val ← m.load n (laneAddr n ptr l.val)
    insert ret l.val (some val)) fun _ => none

/-- `MASK_HIGH_BIT_ON` (builtins/util.m4:30-33, builtins/generic.ispc:1496-1502). -/
def maskHighBitOn (W : Nat) : BitVec 64 := 1#64 <<< (W - 1)

/-- `__masked_load_T` (builtins/util.m4:6545-6580; `__masked_load_fast` in builtins/generic.ispc:1504-1516): `fast` is
`__fast_masked_vload`. -/
def maskedLoad (fast : Bool) (m : Mem) (n : Nat) (ptr : Addr) (mask : Mask W) : Option (Res W n) :=
  let mm := movmsk mask
  let low := mm &&& 1#64
  let high := (mm &&& maskHighBitOn W) >>> (W - 1)
  let canVload := low.getLsbD 0 && high.getLsbD 0
  if fast || canVload then loadVec m n ptr else maskedLoadIntrinsic m n ptr mask

/-- `__masked_store_T` (builtins/util.m4:6686-6694; in builtins/generic.ispc:1540-1589 it is `llvm.masked.store`, which
the LLVM reference defines as the same sequence of stores). -/
def maskedStore (known : Bool) (m : Mem) (ptr : Addr) (vals : Vec W (Elt n)) (mask : Mask W) : Option Mem :=
  perLane known mask (fun lane m => do
    let val ← extract vals lane
    m.store (laneAddr n ptr lane) val) m

/-- `select <W x i1> mask, vals, old`. -/
def select (mask : Mask W) (vals : Vec W (Elt n)) (old : Res W n) : Vec W (Option (Elt n)) :=
  fun l => if mask l then some (vals l) else old l

/-- Store a vector whose lanes may be poison; the model stops at a poison lane. -/
def storeVecPoison (m : Mem) (ptr : Addr) (vals : Res W n) : Option Mem :=
  forLoop (fun lane m => do
    let val ← extract vals lane
    let val ← val
    m.store (laneAddr n ptr lane) val) 0 W m

/-- `__masked_store_blend_T` (builtins/generic.ispc:1591-1611, `lLowerBlendStore` in
src/opt/LowerISPCIntrinsics.cpp:132-146): load, select, store. -/
def maskedStoreBlend (m : Mem) (ptr : Addr) (vals : Vec W (Elt n)) (mask : Mask W) : Option Mem := do
  let old ← loadVec m n ptr
  storeVecPoison m ptr (select mask vals old)

end Ispc.Gather
