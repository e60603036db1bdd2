import Mathlib.Tactic.IntervalCases

/-!
# The blends of the targets

What the `__masked_store_blend` functions of the target files compute between their load and their store: from the old
vector, the new vector and the mask, the vector that is stored.  A vector is a function on element numbers; only those
below its length matter.  Addresses and memory are the subject of `Verif.Builtins.Gather` and `Verif.Opt.Blend`.
-/

namespace Ispc.BlendFns

/-- A vector of integers of `n` bits. -/
abbrev V (n : Nat) := Nat → BitVec n

variable {n k : Nat}

/-- `shufflevector a, poison, idx`. -/
def shuf {α : Type} (a : Nat → α) (idx : List Nat) : Nat → α := fun i => a (idx.getD i 0)

/-- `shufflevector a, b, idx` for vectors of length `len`. -/
def shuf2 {α : Type} (len : Nat) (a b : Nat → α) (idx : List Nat) : Nat → α := fun i =>
  let j := idx.getD i 0
  if j < len then a j else b (j - len)

/-- `bitcast <L x i64> to <2L x float>` (little endian): element `2i` is the low half of element `i`. -/
def split64 (v : V 64) : V 32 := fun i => if i % 2 = 0 then (v (i / 2)).setWidth 32 else (v (i / 2) >>> 32).setWidth 32

/-- `bitcast <2L x float> to <L x i64>`. -/
def join32 (v : V 32) : V 64 := fun i => (v (2 * i)).setWidth 64 ||| (v (2 * i + 1)).setWidth 64 <<< 32

/-- `llvm.x86.sse41.blendvps`, `llvm.x86.avx.blendv.ps.256`, `llvm.x86.avx.blendv.pd.256` and
`llvm.x86.sse41.pblendvb`: the sign of an element of the third argument selects that of the second. -/
def blendv (old new : V n) (mask : V n) : V n := fun i => if (mask i).msb then new i else old i

/-- `trunc <W x MASK> mask to <W x i1>` and `select` (builtins/util.m4:6696-6791;
builtins/target-sse4-i16x8.ll:312-347, builtins/target-sse4-i8x16.ll:316-342, builtins/target-avx2-i16x16.ll:623-658,
builtins/target-avx2-i8x32.ll:646-681, builtins/target-wasm-i32x4.ll:164-198, builtins/target-xe.ll:972-979). -/
def truncSelect (old new : V n) (mask : V k) : V n := fun i => if (mask i).getLsbD 0 then new i else old i

/-- `__masked_store_blend_i32` (builtins/target-sse4-i32x4.ll:353-365). -/
def sse4_i32x4_i32 (old new mask : V 32) : V 32 := blendv old new mask

/-- `__masked_store_blend_i64` (builtins/target-sse4-i32x4.ll:368-413). -/
def sse4_i32x4_i64 (old new : V 64) (mask : V 32) : V 64 :=
  let old01 := split64 (shuf old [0, 1])
  let new01 := split64 (shuf new [0, 1])
  let mask01 := shuf mask [0, 0, 1, 1]
  let result01 := join32 (blendv old01 new01 mask01)
  let old23 := split64 (shuf old [2, 3])
  let new23 := split64 (shuf new [2, 3])
  let mask23 := shuf mask [2, 2, 3, 3]
  let result23 := join32 (blendv old23 new23 mask23)
  shuf2 2 result01 result23 [0, 1, 2, 3]

/-- `__masked_store_blend_i32` (builtins/target-sse4-i32x8.ll:382-410). -/
def sse4_i32x8_i32 (old new mask : V 32) : V 32 :=
  let mask_a := shuf mask [0, 1, 2, 3]
  let mask_b := shuf mask [4, 5, 6, 7]
  let old_a := shuf old [0, 1, 2, 3]
  let old_b := shuf old [4, 5, 6, 7]
  let new_a := shuf new [0, 1, 2, 3]
  let new_b := shuf new [4, 5, 6, 7]
  shuf2 4 (blendv old_a new_a mask_a) (blendv old_b new_b mask_b) [0, 1, 2, 3, 4, 5, 6, 7]

/-- `__masked_store_blend_i64` (builtins/target-sse4-i32x8.ll:412-477). -/
def sse4_i32x8_i64 (old new : V 64) (mask : V 32) : V 64 :=
  let result01 := join32 (blendv (split64 (shuf old [0, 1])) (split64 (shuf new [0, 1])) (shuf mask [0, 0, 1, 1]))
  let result23 := join32 (blendv (split64 (shuf old [2, 3])) (split64 (shuf new [2, 3])) (shuf mask [2, 2, 3, 3]))
  let result45 := join32 (blendv (split64 (shuf old [4, 5])) (split64 (shuf new [4, 5])) (shuf mask [4, 4, 5, 5]))
  let result67 := join32 (blendv (split64 (shuf old [6, 7])) (split64 (shuf new [6, 7])) (shuf mask [6, 6, 7, 7]))
  let final0123 := shuf2 2 result01 result23 [0, 1, 2, 3]
  let final4567 := shuf2 2 result45 result67 [0, 1, 2, 3]
  shuf2 4 final0123 final4567 [0, 1, 2, 3, 4, 5, 6, 7]

/-- `__masked_store_blend_i8` (builtins/target-sse4-i8x16.ll:346-353). -/
def sse4_i8x16_i8 (old new mask : V 8) : V 8 := blendv old new mask

/-- `__masked_store_blend_i32` (builtins/target-avx1-i32x8.ll:387-399). -/
def avx1_i32x8_i32 (old new mask : V 32) : V 32 := blendv old new mask

/-- `__masked_store_blend_i64` (builtins/target-avx1-i32x8.ll:402-450). -/
def avx1_i32x8_i64 (old new : V 64) (mask : V 32) : V 64 :=
  let old01 := split64 (shuf old [0, 1, 2, 3])
  let new01 := split64 (shuf new [0, 1, 2, 3])
  let mask01 := shuf mask [0, 0, 1, 1, 2, 2, 3, 3]
  let result01 := join32 (blendv old01 new01 mask01)
  let old23 := split64 (shuf old [4, 5, 6, 7])
  let new23 := split64 (shuf new [4, 5, 6, 7])
  let mask23 := shuf mask [4, 4, 5, 5, 6, 6, 7, 7]
  let result23 := join32 (blendv old23 new23 mask23)
  shuf2 4 result01 result23 [0, 1, 2, 3, 4, 5, 6, 7]

/-- `__masked_store_blend_i32` (builtins/target-avx1-i32x16.ll:465-497). -/
def avx1_i32x16_i32 (old new mask : V 32) : V 32 :=
  let lo := [0, 1, 2, 3, 4, 5, 6, 7]
  let hi := [8, 9, 10, 11, 12, 13, 14, 15]
  let blend0 := blendv (shuf old lo) (shuf new lo) (shuf mask lo)
  let blend1 := blendv (shuf old hi) (shuf new hi) (shuf mask hi)
  shuf2 8 blend0 blend1 [0, 1, 2, 3, 4, 5, 6, 7, 8, 9, 10, 11, 12, 13, 14, 15]

/-- `__masked_store_blend_i64` (builtins/target-avx1-i32x16.ll:503-559): here the blend is one of 64-bit elements, with
pairs of mask elements as its mask. -/
def avx1_i32x16_i64 (old new : V 64) (mask : V 32) : V 64 :=
  let mask0 := join32 (shuf mask [0, 0, 1, 1, 2, 2, 3, 3])
  let mask1 := join32 (shuf mask [4, 4, 5, 5, 6, 6, 7, 7])
  let mask2 := join32 (shuf mask [8, 8, 9, 9, 10, 10, 11, 11])
  let mask3 := join32 (shuf mask [12, 12, 13, 13, 14, 14, 15, 15])
  let result0 := blendv (shuf old [0, 1, 2, 3]) (shuf new [0, 1, 2, 3]) mask0
  let result1 := blendv (shuf old [4, 5, 6, 7]) (shuf new [4, 5, 6, 7]) mask1
  let result2 := blendv (shuf old [8, 9, 10, 11]) (shuf new [8, 9, 10, 11]) mask2
  let result3 := blendv (shuf old [12, 13, 14, 15]) (shuf new [12, 13, 14, 15]) mask3
  let result01 := shuf2 4 result0 result1 [0, 1, 2, 3, 4, 5, 6, 7]
  let result23 := shuf2 4 result2 result3 [0, 1, 2, 3, 4, 5, 6, 7]
  shuf2 8 result01 result23 [0, 1, 2, 3, 4, 5, 6, 7, 8, 9, 10, 11, 12, 13, 14, 15]

/-- `__masked_store_blend_i32` (builtins/target-avx1-i64x4.ll:417-430): the mask has elements of 64 bits. -/
def avx1_i64x4_i32 (old new : V 32) (mask : V 64) : V 32 := blendv old new fun i => (mask i).setWidth 32

/-- `__masked_store_blend_i64` (builtins/target-avx1-i64x4.ll:436-448). -/
def avx1_i64x4_i64 (old new mask : V 64) : V 64 := blendv old new mask

/-! ## Specification -/

/-- A mask as the compiler makes it: every element is all ones or all zeros, as `on` says. -/
def Represents (W : Nat) (mask : V k) (on : Nat → Bool) : Prop :=
  ∀ i < W, mask i = if on i then BitVec.allOnes k else 0

/-- `f` blends: in each of the `W` elements it takes the new value if the element is on, and else the old one. -/
def Blends (W : Nat) (f : V n → V n → V k → V n) : Prop :=
  ∀ (old new : V n) (mask : V k) (on : Nat → Bool), Represents W mask on →
    ∀ i < W, f old new mask i = if on i then new i else old i

/-! ## Proofs -/

theorem msb_rep {W : Nat} {mask : V k} {on : Nat → Bool} (h : Represents W mask on) (hk : 0 < k) {i : Nat} (hi : i < W) :
    (mask i).msb = on i := by
  rw [h i hi]
  cases on i <;> simp [BitVec.msb_eq_getLsbD_last, hk]

theorem blendv_rep {W : Nat} {mask : V n} {on : Nat → Bool} (h : Represents W mask on) (hn : 0 < n) (old new : V n)
    {i : Nat} (hi : i < W) : blendv old new mask i = if on i then new i else old i := by
  rw [blendv, msb_rep h hn hi]

theorem blendv_blends (W : Nat) (hn : 0 < n) : Blends (n := n) W blendv :=
  fun old new _ _ h _ hi => blendv_rep h hn old new hi

theorem truncSelect_blends (W : Nat) (hk : 0 < k) : Blends (n := n) (k := k) W truncSelect := by
  intro old new mask on h i hi
  rw [truncSelect, h i hi]
  cases on i <;> simp [hk]

theorem halves (x : BitVec 64) : (x.setWidth 32).setWidth 64 ||| ((x >>> 32).setWidth 32).setWidth 64 <<< 32 = x := by
  ext i hi
  simp only [BitVec.getElem_or, BitVec.getElem_setWidth, BitVec.getLsbD_setWidth, BitVec.getElem_shiftLeft,
    BitVec.getLsbD_ushiftRight]
  by_cases h : i < 32
  · simp [h, BitVec.getLsbD_eq_getElem hi]
  · have h1 : i - 32 < 32 := by omega
    have h2 : 32 + (i - 32) = i := by omega
    simp [h, h1, h2, BitVec.getLsbD_eq_getElem hi]

/-- The blend of the halves of an element, with its mask twice, is the blend of the element. -/
theorem join_blend (old new : V 64) (mask : V 32) (i : Nat) (b : Bool) (h0 : (mask (2 * i)).msb = b)
    (h1 : (mask (2 * i + 1)).msb = b) :
    join32 (blendv (split64 old) (split64 new) mask) i = if b then new i else old i := by
  have e1 : (2 * i + 1) / 2 = i := by omega
  have e2 : (2 * i) / 2 = i := by omega
  have e3 : (2 * i + 1) % 2 = 1 := by omega
  have e4 : (2 * i) % 2 = 0 := by omega
  simp only [join32, blendv, h0, h1, split64, e1, e2, e3, e4]
  cases b <;> simp [halves]

theorem join_msb (v : V 32) (i : Nat) : (join32 v i).msb = (v (2 * i + 1)).msb := by
  simp [join32, BitVec.msb_eq_getLsbD_last]

/-- **C49.** Every blend of the target files takes the new value in the elements that are on and keeps the old one in
the others. -/
theorem target_blends :
    (∀ (n k W : Nat), 0 < k → Blends (n := n) (k := k) W truncSelect) ∧
    Blends 4 sse4_i32x4_i32 ∧ Blends 4 sse4_i32x4_i64 ∧ Blends 8 sse4_i32x8_i32 ∧ Blends 8 sse4_i32x8_i64 ∧
    Blends 16 sse4_i8x16_i8 ∧ Blends 8 avx1_i32x8_i32 ∧ Blends 8 avx1_i32x8_i64 ∧ Blends 16 avx1_i32x16_i32 ∧
    Blends 16 avx1_i32x16_i64 ∧ Blends 4 avx1_i64x4_i32 ∧ Blends 4 avx1_i64x4_i64 := by
  refine ⟨fun n k W hk => truncSelect_blends W hk, blendv_blends 4 (by decide), ?_, ?_, ?_, blendv_blends 16 (by decide),
    blendv_blends 8 (by decide), ?_, ?_, ?_, ?_, blendv_blends 4 (by decide)⟩
  · intro old new mask on h i hi
    have hm := fun j (hj : j < 4) => msb_rep h (by decide) hj
    interval_cases i <;> simp only [sse4_i32x4_i64, shuf2, List.getD] <;>
      exact join_blend _ _ _ _ _ (hm _ (by decide)) (hm _ (by decide))
  · intro old new mask on h i hi
    have hm := fun j (hj : j < 8) => msb_rep h (by decide) hj
    interval_cases i <;> exact blendv_rep h (by decide) old new (by decide)
  · intro old new mask on h i hi
    have hm := fun j (hj : j < 8) => msb_rep h (by decide) hj
    interval_cases i <;> exact join_blend _ _ _ _ _ (hm _ (by decide)) (hm _ (by decide))
  · intro old new mask on h i hi
    have hm := fun j (hj : j < 8) => msb_rep h (by decide) hj
    interval_cases i <;> exact join_blend _ _ _ _ _ (hm _ (by decide)) (hm _ (by decide))
  · intro old new mask on h i hi
    interval_cases i <;> exact blendv_rep h (by decide) old new (by decide)
  · intro old new mask on h i hi
    have key : ∀ (o w : V 64) (mk : V 32) (j l : Nat), mk (2 * j + 1) = mask l → l < 16 →
        blendv o w (join32 mk) j = if on l then w j else o j := by
      intro o w mk j l e hl
      rw [blendv, join_msb, e, msb_rep h (by decide) hl]
    interval_cases i <;> exact key _ _ _ _ _ rfl (by decide)
  · intro old new mask on h i hi
    refine blendv_rep (W := 4) ?_ (by decide) old new hi
    intro j hj
    show (mask j).setWidth 32 = _
    rw [h j hj]
    cases on j <;> rfl

/-- **C49, boundary.** A mask whose elements are neither all ones nor all zeros is read in two ways: `truncSelect` looks
at the lowest bit, `blendv` at the highest.  Both are used on one target, for elements of different sizes, so that on
such a mask the same store to an `int8` and to an `int32` touches different elements. -/
theorem noncanonical_differ : ∃ (mask : V 32) (old new : V 32), truncSelect old new mask 0 ≠ sse4_i32x4_i32 old new mask 0 :=
  ⟨fun _ => 1, fun _ => 0, fun _ => 1, by decide⟩

example : Represents 4 (fun i => if i % 2 = 0 then BitVec.allOnes 32 else 0) (fun i => decide (i % 2 = 0)) := by
  intro i _
  by_cases h : i % 2 = 0 <;> simp [h]

example : (List.range 4).map (sse4_i32x4_i64 (fun i => BitVec.ofNat 64 (i <<< 40)) (fun i => BitVec.ofNat 64 (i + 1))
    (fun i => if i % 2 = 0 then BitVec.allOnes 32 else 0)) = [1#64, 1#64 <<< 40, 3#64, 3#64 <<< 40] := by decide +kernel

end Ispc.BlendFns
