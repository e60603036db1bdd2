import Verif.Builtins.GatherProps
import Verif.Opt.Linear

/-!
# Gathers and scatters that become loads and stores

`lGSToLoadStore` (src/opt/ImproveMemoryOps.cpp:1260-1564) asks the analyses of `Verif.Opt.Linear` about the vector of
offsets.  If all offsets are equal, a gather becomes a scalar load and a broadcast; if they go up or down by the size of
an element, a gather or scatter becomes a masked load or store of consecutive elements.

The answers of the analyses are inputs here: `Verif.Opt.LinearSound` tells when they are right.
-/

namespace Ispc.GatherToLoad

open Ispc.Vec Ispc.Gather
open Ispc.ForeachActive (Mask)
open Ispc.Linear (Val AllEqual IsLinear)

variable {W n k : Nat}

/-! ## The model -/

/-- `lConstElementsToMask` (src/llvmutil.cpp:1847-1885): `none` is an undefined element, otherwise the high bit of the
element. -/
def constMask (e : Vec W (Option Bool)) : Mask W :=
  if ∃ l, e l = some true then fun l => (e l).getD true else fun _ => false

inductive MaskStatus | all_on | all_off | mixed | unknown
  deriving DecidableEq

/-- `GetMaskStatusFromValue` (src/llvmutil.cpp:1930-1951); the argument is the mask if it is a constant
(`GetMaskFromValue`, src/llvmutil.cpp:1893-1925). -/
def maskStatus (c : Option (Vec W (Option Bool))) : MaskStatus :=
  match c with
  | none => .unknown
  | some e => if ∀ l, constMask e l = false then .all_off else if ∃ l, constMask e l = false then .mixed else .all_on

/-- The offsets of a factored call (src/opt/ImproveMemoryOps.cpp:1383-1390, `lGetOffsetScaleVec` in
src/opt/ImproveMemoryOps.cpp:1179-1194): in the width of the offsets, the scale extended with zeros. -/
def fullOffsets (scale : BitVec 32) (offsets delta : Vec W (BitVec k)) : Vec W (BitVec k) :=
  fun l => scale.setWidth k * offsets l + delta l

/-- The address that `getelementptr i8, base, off` computes: the offset is extended with its sign. -/
def gep (base : Addr) (off : BitVec k) : Addr := base + off.signExtend 64

inductive Plan | keep | broadcast | forward | backward
  deriving DecidableEq

/-- The decision for a gather (src/opt/ImproveMemoryOps.cpp:1415-1519): what the analyses say about the offsets, the
mask as far as it is known, and whether the target is Xe. -/
def planGather (allEq up down : Bool) (mask : MaskStatus) (xe : Bool) : Plan :=
  if allEq then .broadcast
  else if up then .forward
  else if down then if mask ≠ .all_on then .keep else if xe then .keep else .backward
  else .keep

/-- The decision for a scatter (src/opt/ImproveMemoryOps.cpp:1415-1563): with equal offsets there is only a warning. -/
def planScatter (allEq up down : Bool) (mask : MaskStatus) (xe : Bool) : Plan :=
  if allEq then .keep
  else if up then .forward
  else if down then if mask ≠ .all_on then .keep else if xe then .keep else .backward
  else .keep

/-- `lReverseVector` (src/opt/ImproveMemoryOps.cpp:1164-1177). -/
def reverse {α : Type} (v : Vec W α) : Vec W α := fun l => v l.rev

/-- What replaces a gather (src/opt/ImproveMemoryOps.cpp:1419-1450, 1481-1490, 1524-1542; `lComputeCommonPointer` in
src/opt/ImproveMemoryOps.cpp:1137-1143, `lComputeCommonPointerForNegativeStride` in
src/opt/ImproveMemoryOps.cpp:1148-1158); `keep` is the call that was there. -/
def runGather [NeZero W] (fast : Bool) (m : Mem) (n : Nat) (base : Addr) (off : Vec W (BitVec k)) (mask : Mask W)
    (keep : Option (Res W n)) : Plan → Option (Res W n)
  | .keep => keep
  | .broadcast => (m.load n (gep base (off 0))).map fun v _ => some v
  | .forward => maskedLoad fast m n (gep base (off 0)) mask
  | .backward => (maskedLoad fast m n (gep base (off (Fin.rev 0))) mask).map reverse

/-- What replaces a scatter (src/opt/ImproveMemoryOps.cpp:1491-1495, 1543-1559). -/
def runScatter [NeZero W] (known : Bool) (m : Mem) (base : Addr) (off : Vec W (BitVec k)) (vals : Vec W (Elt n))
    (mask : Mask W) (keep : Option Mem) : Plan → Option Mem
  | .keep => keep
  | .broadcast => keep
  | .forward => maskedStore known m (gep base (off 0)) vals mask
  | .backward => maskedStore known m (gep base (off (Fin.rev 0))) (reverse vals) mask

/-! ## Specification -/

/-- The offsets as the analyses see them. -/
def value (off : Vec W (BitVec k)) : Val := fun l => if h : l < W then (off ⟨l, h⟩).toNat else 0

/-- The addresses of all instances. -/
def addresses (base : Addr) (off : Vec W (BitVec k)) : Fin W → Addr := fun l => gep base (off l)

/-- In 32 bits, going from the first offset by strides of `s` stays in range. -/
def InRange [NeZero W] (s : Int) (off : Vec W (BitVec 32)) : Prop :=
  ∀ l : Fin W, -2 ^ 31 ≤ (off 0).toInt + l.val * s ∧ (off 0).toInt + l.val * s < 2 ^ 31

/-- The addresses go from the first one by strides of `s`. -/
def Strided [NeZero W] (s : Int) (base : Addr) (off : Vec W (BitVec k)) : Prop :=
  ∀ l : Fin W, gep base (off l) = gep base (off 0) + BitVec.ofInt 64 (l.val * s)

/-! ## Mask constants -/

/-- A mask constant is said to be all on, or all off, only if all its defined elements are. -/
theorem maskStatus_sound (e : Vec W (Option Bool)) :
    (maskStatus (some e) = .all_on → ∀ l, e l ≠ some false) ∧ (maskStatus (some e) = .all_off → ∀ l, e l ≠ some true) := by
  unfold maskStatus constMask
  by_cases h : ∃ l, e l = some true
  · simp only [h, if_true]
    obtain ⟨l0, h0⟩ := h
    have hn : ¬ ∀ l, (e l).getD true = false := fun hf => by simpa [h0] using hf l0
    simp only [hn, if_false]
    refine ⟨fun hs l hl => ?_, fun hs => ?_⟩
    · have : ∃ l, (e l).getD true = false := ⟨l, by simp [hl]⟩
      simp [this] at hs
    · split at hs <;> simp at hs
  · simp only [h, if_false]
    refine ⟨fun hs => by simp at hs, fun _ l hl => h ⟨l, hl⟩⟩

/-! ## From linear offsets to strided addresses -/

theorem strided_of_linear64 [NeZero W] {s : Int} {base : Addr} {off : Vec W (BitVec 64)}
    (h : IsLinear W 64 s (value off)) : Strided s base off := by
  intro l
  have hl := h l.val l.isLt
  have h0 : 0 < W := Nat.pos_of_ne_zero (NeZero.ne W)
  simp only [value, l.isLt, h0, dif_pos] at hl
  have e : off l = off 0 + BitVec.ofInt 64 (l.val * s) := by
    apply BitVec.eq_of_toNat_eq
    have hz : (off ⟨0, h0⟩) = off 0 := rfl
    rw [hz] at hl
    have h1 : ((off 0 + BitVec.ofInt 64 (l.val * s)).toNat : Int) ≡ (off 0).toNat + l.val * s [ZMOD 2 ^ 64] := by
      rw [BitVec.toNat_add, BitVec.toNat_ofInt]
      have : ((l.val * s) % ((2 ^ 64 : Nat) : Int)).toNat = (((l.val * s) % (2 ^ 64 : Nat)).toNat) := rfl
      push_cast
      rw [Int.toNat_of_nonneg (Int.emod_nonneg _ (by norm_num))]
      unfold Int.ModEq
      simp
    have h2 := hl.trans h1.symm
    unfold Int.ModEq at h2
    have a1 := (off l).isLt
    have a2 := (off 0 + BitVec.ofInt 64 (l.val * s)).isLt
    rw [Int.emod_eq_of_lt (by omega) (by exact_mod_cast a1), Int.emod_eq_of_lt (by omega) (by exact_mod_cast a2)] at h2
    exact_mod_cast h2
  unfold gep
  rw [BitVec.signExtend_eq, BitVec.signExtend_eq, e, BitVec.add_assoc]

theorem strided_of_linear32 [NeZero W] {s : Int} {base : Addr} {off : Vec W (BitVec 32)}
    (h : IsLinear W 32 s (value off)) (hr : InRange s off) : Strided s base off := by
  intro l
  have hl := h l.val l.isLt
  have h0 : 0 < W := Nat.pos_of_ne_zero (NeZero.ne W)
  simp only [value, l.isLt, h0, dif_pos] at hl
  have hz : (off ⟨0, h0⟩) = off 0 := rfl
  rw [hz] at hl
  obtain ⟨r1, r2⟩ := hr l
  have hmod : ∀ b : BitVec 32, (b.toInt : Int) ≡ b.toNat [ZMOD 2 ^ 32] := by
    intro b
    rw [BitVec.toInt_eq_toNat_bmod]
    exact Int.bmod_emod
  have ht : (off l).toInt = (off 0).toInt + l.val * s := by
    have h1 : (off l).toInt ≡ (off 0).toInt + l.val * s [ZMOD 2 ^ 32] :=
      ((hmod _).trans hl).trans ((hmod _).symm.add_right _)
    have b1 := BitVec.le_toInt (off l)
    have b2 := BitVec.toInt_lt (x := off l)
    unfold Int.ModEq at h1
    omega
  have e : (off l).signExtend 64 = (off 0).signExtend 64 + BitVec.ofInt 64 (l.val * s) := by
    apply BitVec.eq_of_toInt_eq
    rw [BitVec.toInt_add, BitVec.toInt_ofInt, BitVec.toInt_signExtend_of_le (by omega),
      BitVec.toInt_signExtend_of_le (by omega), Int.add_bmod_bmod, ht, Int.bmod_eq_of_le (by omega) (by omega)]
  unfold gep
  rw [e, BitVec.add_assoc]

/-! ## The replacements -/

theorem up_addresses [NeZero W] {base : Addr} {off : Vec W (BitVec k)} (h : Strided n base off) :
    addresses base off = fun l => laneAddr n (gep base (off 0)) l.val := by
  funext l
  rw [addresses, h l, laneAddr]
  congr 1

theorem down_addresses [NeZero W] {base : Addr} {off : Vec W (BitVec k)} (h : Strided (-n) base off) (l : Fin W) :
    gep base (off l) = laneAddr n (gep base (off (Fin.rev 0))) l.rev.val := by
  rw [h l, h (Fin.rev 0), laneAddr]
  have e1 : (l.rev : Nat) = W - 1 - l.val := by rw [Fin.val_rev]; omega
  have e2 : ((Fin.rev 0 : Fin W) : Nat) = W - 1 := by rw [Fin.val_rev]; simp
  have hl := l.isLt
  rw [e1, e2, BitVec.add_assoc, ← BitVec.ofInt_natCast, ← BitVec.ofInt_add]
  congr 2
  have : ((W - 1 - l.val : Nat) : Int) = (W - 1 : Nat) - l.val := by omega
  push_cast [this]
  ring

/-- **C45.** A gather whose addresses are all equal: the scalar load and broadcast gives every active instance its
element, if there is an active instance. -/
theorem broadcast_gather [NeZero W] (fast : Bool) (m : Mem) (base : Addr) (off : Vec W (BitVec k)) (mask : Mask W)
    (keep : Option (Res W n)) (heq : AllEqual W (value off)) (hon : ∃ l, mask l = true)
    (ha : AllAccessible m n (addresses base off) mask) :
    ∃ r, runGather fast m n base off mask keep .broadcast = some r ∧ Gathered m (addresses base off) mask r := by
  have h0 : 0 < W := Nat.pos_of_ne_zero (NeZero.ne W)
  have he : ∀ l, off l = off 0 := by
    intro l
    have := heq l.val l.isLt
    simp only [value, l.isLt, h0, dif_pos] at this
    exact BitVec.eq_of_toNat_eq this
  obtain ⟨l, hl⟩ := hon
  have h := ha l hl
  rw [addresses, he l] at h
  refine ⟨fun _ => some (m.elt n (gep base (off 0))), ?_, fun l _ => ?_⟩
  · simp [runGather, Mem.load, h]
  · rw [addresses, he l]

/-- **C45.** A gather of consecutive elements becomes a masked load, which reads the same elements and faults in the
same cases. -/
theorem forward_gather [NeZero W] (m : Mem) (base : Addr) (off : Vec W (BitVec k)) (mask : Mask W)
    (keep : Option (Res W n)) (hup : Strided n base off) (hpg : Paged m) (hW : W ≤ 64) (hsize : W * n ≤ 4096)
    (hwrap : (gep base (off 0)).toNat + W * n ≤ 2 ^ 64) :
    (AllAccessible m n (addresses base off) mask →
      ∃ r, runGather false m n base off mask keep .forward = some r ∧ Gathered m (addresses base off) mask r) ∧
    (¬ AllAccessible m n (addresses base off) mask → runGather false m n base off mask keep .forward = none) := by
  rw [up_addresses hup]
  exact masked_load m (gep base (off 0)) mask hpg (Nat.pos_of_ne_zero (NeZero.ne W)) hW hsize hwrap

/-- **C45.** A gather of consecutive elements downwards, with all instances on, becomes a load and a reversal. -/
theorem backward_gather [NeZero W] (m : Mem) (base : Addr) (off : Vec W (BitVec k)) (mask : Mask W)
    (keep : Option (Res W n)) (hdown : Strided (-n) base off) (hall : ∀ l, mask l = true) (hpg : Paged m) (hW : W ≤ 64)
    (hsize : W * n ≤ 4096) (hwrap : (gep base (off (Fin.rev 0))).toNat + W * n ≤ 2 ^ 64)
    (ha : AllAccessible m n (addresses base off) mask) :
    ∃ r, runGather false m n base off mask keep .backward = some r ∧ Gathered m (addresses base off) mask r := by
  have hd := down_addresses hdown
  have ha' : AllAccessible m n (fun l => laneAddr n (gep base (off (Fin.rev 0))) l.val) mask := by
    intro l _
    have := ha l.rev (hall _)
    rw [addresses, hd, Fin.rev_rev] at this
    exact this
  obtain ⟨r, hr, hg⟩ := (masked_load m (gep base (off (Fin.rev 0))) mask hpg (Nat.pos_of_ne_zero (NeZero.ne W)) hW hsize
    hwrap).1 ha'
  refine ⟨reverse r, by simp [runGather, hr], fun l _ => ?_⟩
  rw [reverse, addresses, hd]
  exact hg l.rev (hall _)

/-- **C45.** A scatter to consecutive elements becomes a masked store. -/
theorem forward_scatter [NeZero W] (known : Bool) (m : Mem) (base : Addr) (off : Vec W (BitVec k)) (vals : Vec W (Elt n))
    (mask : Mask W) (keep : Option Mem) (hup : Strided n base off) (hW : W ≤ 64) :
    (AllAccessible m n (addresses base off) mask →
      ∃ m', runScatter known m base off vals mask keep .forward = some m' ∧
        Scattered m m' (addresses base off) vals mask) ∧
    (¬ AllAccessible m n (addresses base off) mask → runScatter known m base off vals mask keep .forward = none) := by
  rw [up_addresses hup]
  exact masked_store known m (gep base (off 0)) vals mask hW

/-- **C45.** A scatter to consecutive elements downwards, with all instances on, becomes a reversal and a store. -/
theorem backward_scatter [NeZero W] (known : Bool) (m : Mem) (base : Addr) (off : Vec W (BitVec k))
    (vals : Vec W (Elt n)) (mask : Mask W) (keep : Option Mem) (hdown : Strided (-n) base off)
    (hall : ∀ l, mask l = true) (hW : W ≤ 64) (hsize : W * n ≤ 2 ^ 64) (ha : AllAccessible m n (addresses base off) mask) :
    ∃ m', runScatter known m base off vals mask keep .backward = some m' ∧
      Scattered m m' (addresses base off) vals mask := by
  have hd := down_addresses hdown
  have ha' : AllAccessible m n (fun l => laneAddr n (gep base (off (Fin.rev 0))) l.val) mask := by
    intro l _
    have := ha l.rev (hall _)
    rw [addresses, hd, Fin.rev_rev] at this
    exact this
  obtain ⟨m', hm, hs⟩ := (masked_store known m (gep base (off (Fin.rev 0))) (reverse vals) mask hW).1 ha'
  refine ⟨m', hm, hs.1, fun x => ?_⟩
  rcases hs.2 x with ⟨l, _, ⟨hw, hv⟩, _⟩ | ⟨hno, hv⟩
  · have el : addresses base off l.rev = laneAddr n (gep base (off (Fin.rev 0))) l.val := by
      rw [addresses, hd, Fin.rev_rev]
    refine .inl ⟨l.rev, hall _, ⟨by rw [el]; exact hw, ?_⟩, fun l' _ hlt hw' => ?_⟩
    · rw [hv, reverse]
      congr 2
      rw [el]
    · rw [addresses, hd] at hw'
      have := lanes_disjoint hsize hw hw'
      rw [this, Fin.rev_rev] at hlt
      exact lt_irrefl _ hlt
  · refine .inr ⟨fun l _ hw => hno l.rev (hall _) ?_, hv⟩
    rw [addresses, hd] at hw
    exact hw

/-! ## The decision -/

/-- What the analyses say is right. -/
structure AnswersRight (n : Nat) [NeZero W] (base : Addr) (off : Vec W (BitVec k)) (mask : Mask W)
    (allEq up down : Bool) (st : MaskStatus) : Prop where
  allEq : allEq = true → AllEqual W (value off)
  up : up = true → Strided n base off
  down : down = true → Strided (-n) base off
  on : st = .all_on → ∀ l, mask l = true

/-- **C45.** Whatever `lGSToLoadStore` does to a gather, each active instance gets the element at its own address, if
the answers of the analyses are right and so was the gather. -/
theorem gather_replacement [NeZero W] (m : Mem) (base : Addr) (off : Vec W (BitVec k)) (mask : Mask W)
    (keep : Option (Res W n)) (allEq up down xe : Bool) (st : MaskStatus)
    (hr : AnswersRight n base off mask allEq up down st) (hpg : Paged m) (hW : W ≤ 64) (hsize : W * n ≤ 4096)
    (hwrap : ∀ l, (gep base (off l)).toNat + W * n ≤ 2 ^ 64) (hon : ∃ l, mask l = true)
    (ha : AllAccessible m n (addresses base off) mask)
    (hkeep : ∃ r, keep = some r ∧ Gathered m (addresses base off) mask r) :
    ∃ r, runGather false m n base off mask keep (planGather allEq up down st xe) = some r ∧
      Gathered m (addresses base off) mask r := by
  unfold planGather
  cases allEq with
  | true => exact broadcast_gather false m base off mask keep (hr.allEq rfl) hon ha
  | false =>
    cases up with
    | true => exact (forward_gather m base off mask keep (hr.up rfl) hpg hW hsize (hwrap 0)).1 ha
    | false =>
      cases down with
      | false => exact hkeep
      | true =>
        by_cases hst : st = .all_on
        · cases xe with
          | true => simpa [hst, runGather] using hkeep
          | false =>
            simpa [hst] using backward_gather m base off mask keep (hr.down rfl) (hr.on hst) hpg hW hsize (hwrap _) ha
        · simpa [hst, runGather] using hkeep

/-- **C45.** The same for a scatter. -/
theorem scatter_replacement [NeZero W] (known : Bool) (m : Mem) (base : Addr) (off : Vec W (BitVec k))
    (vals : Vec W (Elt n)) (mask : Mask W) (keep : Option Mem) (allEq up down xe : Bool) (st : MaskStatus)
    (hr : AnswersRight n base off mask allEq up down st) (hW : W ≤ 64) (hsize : W * n ≤ 2 ^ 64)
    (ha : AllAccessible m n (addresses base off) mask)
    (hkeep : ∃ m', keep = some m' ∧ Scattered m m' (addresses base off) vals mask) :
    ∃ m', runScatter known m base off vals mask keep (planScatter allEq up down st xe) = some m' ∧
      Scattered m m' (addresses base off) vals mask := by
  unfold planScatter
  cases allEq with
  | true => exact hkeep
  | false =>
    cases up with
    | true => exact (forward_scatter known m base off vals mask keep (hr.up rfl) hW).1 ha
    | false =>
      cases down with
      | false => exact hkeep
      | true =>
        by_cases hst : st = .all_on
        · cases xe with
          | true => simpa [hst, runScatter] using hkeep
          | false =>
            simpa [hst] using backward_scatter known m base off vals mask keep (hr.down rfl) (hr.on hst) hW hsize ha
        · simpa [hst, runScatter] using hkeep

/-! ## The offsets the analyses are asked about -/

/-- In 64 bits the address from the full offset is the one of the gather or scatter that is replaced. -/
theorem address_64 (base : Addr) (scale : BitVec 32) (offsets delta : Vec W (BitVec 64)) (hs : scale.msb = false) :
    addresses base (fullOffsets scale offsets delta) = fun l => addr64 base (offsets l) scale (delta l) := by
  funext l
  simp only [addresses, gep, fullOffsets, addr64, BitVec.signExtend_eq, BitVec.signExtend_eq_setWidth_of_msb_false hs]
  grind

/-- In 32 bits it is, if neither the product nor the sum overflows. -/
theorem address_32 (base : Addr) (scale : BitVec 32) (offsets delta : Vec W (BitVec 32))
    (hfit : ∀ l, -2 ^ 31 ≤ scale.toInt * (offsets l).toInt + (delta l).toInt ∧
      scale.toInt * (offsets l).toInt + (delta l).toInt < 2 ^ 31) :
    addresses base (fullOffsets scale offsets delta) = fun l => addr32 base (offsets l) scale (delta l) := by
  funext l
  obtain ⟨h1, h2⟩ := hfit l
  have e : (scale * offsets l + delta l).signExtend 64 =
      (offsets l).signExtend 64 * scale.signExtend 64 + (delta l).signExtend 64 := by
    apply BitVec.eq_of_toInt_eq
    rw [BitVec.toInt_add, BitVec.toInt_mul, BitVec.toInt_signExtend_of_le (by omega),
      BitVec.toInt_signExtend_of_le (by omega), BitVec.toInt_signExtend_of_le (by omega),
      BitVec.toInt_signExtend_of_le (by omega), BitVec.toInt_add, BitVec.toInt_mul, Int.mul_comm (offsets l).toInt,
      Int.bmod_add_bmod, Int.bmod_add_bmod, Int.bmod_eq_of_le (by omega) (by omega), Int.bmod_eq_of_le (by omega) (by omega)]
  simp only [addresses, gep, fullOffsets, addr32, BitVec.setWidth_eq, e]
  rw [BitVec.add_assoc]

/-! ## What the replacement reads that the gather did not -/

/-- With no instance on, a gather through pointers reads nothing, while the broadcast that replaces a gather with equal
offsets reads the element: it faults if that is not accessible. -/
theorem broadcast_reads [NeZero W] (fast : Bool) (m : Mem) (base : Addr) (off : Vec W (BitVec k)) (mask : Mask W)
    (keep : Option (Res W n)) (h : ¬ m.accessible n (gep base (off 0))) :
    runGather fast m n base off mask keep .broadcast = none := by
  simp [runGather, Mem.load, h]

/-! ## Examples -/

/-- `a[7 - programIndex]` for 4-byte elements. -/
def downFrom7 : Vec 4 (BitVec 32) := fun l => BitVec.ofNat 32 (4 * (7 - l.val))

example : IsLinear 4 32 (-4) (value downFrom7) ∧ InRange (-4) downFrom7 := by
  refine ⟨fun l hl => ?_, fun l => ?_⟩
  · obtain rfl | rfl | rfl | rfl : l = 0 ∨ l = 1 ∨ l = 2 ∨ l = 3 := by omega
    all_goals decide +kernel
  · revert l
    decide +kernel

example : planGather false false true .all_on false = .backward ∧ planGather false false true .mixed false = .keep := by
  decide

/-- Bytes 28, 24, 20 and 16 of the page are the first bytes of the elements of the four instances. -/
example : (runGather false twoPages 4 4096#64 downFrom7 (fun _ => true) none .backward).map
      (fun r => (List.finRange 4).map fun l => (r l).map fun e => e 0) =
    some [some 28#8, some 24#8, some 20#8, some 16#8] := by decide +kernel

/-- In 32 bits, offsets that wrap around are linear for the analysis, and the addresses are not strided. -/
example : let off : Vec 2 (BitVec 32) := fun l => if l.val = 0 then 0x7ffffffc#32 else 0x80000000#32
    IsLinear 2 32 4 (value off) ∧ ¬ Strided 4 0#64 off := by
  refine ⟨fun l hl => ?_, fun h => ?_⟩
  · obtain rfl | rfl : l = 0 ∨ l = 1 := by omega
    all_goals decide +kernel
  · exact absurd (h 1) (by decide +kernel)

end Ispc.GatherToLoad
