import Verif.Builtins.Dot

/-!
# Packed dot products — C54, the theorems

`spec_exact`: eight of the twelve functions return what they should on every target for all operands.  The other four
do so on a target with the instructions (`native_exact`); in the portable code `dot4add_u8u8packed` loses 65536 for
every product above 32767 (`u8u8_iff`), `dot4add_i8i8packed_sat` takes the signed bytes for unsigned ones
(`i8i8_sat_is_portable`), and the two `_sat` functions of signed 16-bit products saturate twice (`i16i16_sat_iff`,
`u16i16_sat_iff`).  So a program gives other results on another target.
-/

namespace Ispc.Dot

open Ispc.BlendFns (V shuf shuf2)

/-! ## The packed elements -/

theorem byte_toNat (x : W32) (k : Nat) : (byte x k).toNat = x.toNat / 2 ^ k % 256 := by
  have : (byte x k).toNat = (x.toNat >>> k) &&& 255 := by simp [byte, BitVec.toNat_and, BitVec.toNat_ushiftRight]
  rw [this, Nat.shiftRight_eq_div_pow]
  exact Nat.and_two_pow_sub_one_eq_mod _ 8

theorem half_toNat (x : W32) (k : Nat) : (half x k).toNat = x.toNat / 2 ^ k % 65536 := by
  have : (half x k).toNat = (x.toNat >>> k) &&& 65535 := by simp [half, BitVec.toNat_and, BitVec.toNat_ushiftRight]
  rw [this, Nat.shiftRight_eq_div_pow]
  exact Nat.and_two_pow_sub_one_eq_mod _ 16

theorem elt_u8 (x : W32) (k : Nat) : elt false 8 x k = ((byte x (8 * k)).toNat : Int) := by
  rw [byte_toNat]; simp [elt]

theorem elt_i8 (x : W32) (k : Nat) : elt true 8 x k = ((byte x (8 * k)).setWidth 8).toInt := by
  have h := byte_toNat x (8 * k)
  have h8 : ((byte x (8 * k)).setWidth 8).toNat = (byte x (8 * k)).toNat := by
    rw [BitVec.toNat_setWidth, h]; omega
  rw [BitVec.toInt_eq_toNat_cond, h8, h]
  have : (x.toNat : Int) / 2 ^ (8 * k) % 2 ^ 8 = ((x.toNat / 2 ^ (8 * k) % 256 : Nat) : Int) := by simp
  simp only [elt, this]
  generalize x.toNat / 2 ^ (8 * k) % 256 = u
  simp only [Bool.true_and, decide_eq_true_eq]
  split_ifs <;> omega

theorem elt_u16 (x : W32) (k : Nat) : elt false 16 x k = ((half x (16 * k)).toNat : Int) := by
  rw [half_toNat]; simp [elt]

theorem elt_i16 (x : W32) (k : Nat) : elt true 16 x k = ((half x (16 * k)).setWidth 16).toInt := by
  have h := half_toNat x (16 * k)
  have h8 : ((half x (16 * k)).setWidth 16).toNat = (half x (16 * k)).toNat := by
    rw [BitVec.toNat_setWidth, h]; omega
  rw [BitVec.toInt_eq_toNat_cond, h8, h]
  have : (x.toNat : Int) / 2 ^ (16 * k) % 2 ^ 16 = ((x.toNat / 2 ^ (16 * k) % 65536 : Nat) : Int) := by simp
  simp only [elt, this]
  generalize x.toNat / 2 ^ (16 * k) % 65536 = u
  simp only [Bool.true_and, decide_eq_true_eq]
  split_ifs <;> omega

/-- The range of a packed element. -/
theorem elt_range8 (x : W32) (k : Nat) :
    (0 ≤ elt false 8 x k ∧ elt false 8 x k ≤ 255) ∧ (-128 ≤ elt true 8 x k ∧ elt true 8 x k ≤ 127) := by
  refine ⟨?_, ?_⟩
  · rw [elt_u8, byte_toNat]; omega
  · rw [elt_i8]
    have := BitVec.two_mul_toInt_lt (x := (byte x (8 * k)).setWidth 8)
    have := BitVec.le_two_mul_toInt (x := (byte x (8 * k)).setWidth 8)
    omega

theorem elt_range16 (x : W32) (k : Nat) :
    (0 ≤ elt false 16 x k ∧ elt false 16 x k ≤ 65535) ∧ (-32768 ≤ elt true 16 x k ∧ elt true 16 x k ≤ 32767) := by
  refine ⟨?_, ?_⟩
  · rw [elt_u16, half_toNat]; omega
  · rw [elt_i16]
    have := BitVec.two_mul_toInt_lt (x := (half x (16 * k)).setWidth 16)
    have := BitVec.le_two_mul_toInt (x := (half x (16 * k)).setWidth 16)
    omega

theorem u8_toNat (x : W32) (k : Nat) : ((u8 x (8 * k)).toNat : Int) = elt false 8 x k := by
  rw [elt_u8, u8, BitVec.toNat_setWidth, byte_toNat]; omega

theorem u8_toInt (x : W32) (k : Nat) : (u8 x (8 * k)).toInt = elt false 8 x k := by
  rw [← u8_toNat, BitVec.toInt_eq_toNat_of_lt]
  have : (u8 x (8 * k)).toNat ≤ 255 := by rw [u8, BitVec.toNat_setWidth, byte_toNat]; omega
  omega

theorem i8_toInt (x : W32) (k : Nat) : (i8 x (8 * k)).toInt = elt true 8 x k := by
  rw [elt_i8, i8, BitVec.toInt_signExtend_of_le (by omega)]

theorem u16_toNat (x : W32) (k : Nat) : ((u16 x (16 * k)).toNat : Int) = elt false 16 x k := by
  rw [elt_u16, u16, BitVec.toNat_setWidth, BitVec.toNat_setWidth, half_toNat]; omega

theorem u16_toInt (x : W32) (k : Nat) : (u16 x (16 * k)).toInt = elt false 16 x k := by
  rw [← u16_toNat, BitVec.toInt_eq_toNat_of_lt]
  have : (u16 x (16 * k)).toNat ≤ 65535 := by
    rw [u16, BitVec.toNat_setWidth, BitVec.toNat_setWidth, half_toNat]; omega
  omega

theorem i16_toInt (x : W32) (k : Nat) : (i16 x (16 * k)).toInt = elt true 16 x k := by
  rw [elt_i16, i16, BitVec.toInt_signExtend_of_le (by omega)]

/-! ## The products -/

theorem bmod16 {z : Int} (h1 : -32768 ≤ z) (h2 : z ≤ 32767) : z.bmod (2 ^ 16) = z :=
  Sat.bmod_id (n := 15) (by omega) (by omega)

theorem mul_bounds {x y : Int} (hx : 0 ≤ x ∧ x ≤ 255) (hy : -128 ≤ y ∧ y ≤ 127) : -32768 ≤ x * y ∧ x * y ≤ 32767 := by
  constructor <;> nlinarith

theorem mul_bounds_ss {x y : Int} (hx : -128 ≤ x ∧ x ≤ 127) (hy : -128 ≤ y ∧ y ≤ 127) :
    -16384 ≤ x * y ∧ x * y ≤ 16384 := by
  constructor <;> nlinarith

theorem mul_bounds_uu {x y : Int} (hx : 0 ≤ x ∧ x ≤ 255) (hy : 0 ≤ y ∧ y ≤ 255) : 0 ≤ x * y ∧ x * y ≤ 65025 := by
  constructor <;> nlinarith

theorem prod_u8i8 (a b : W32) (k : Nat) :
    (u8 a (8 * k) * i8 b (8 * k)).toInt = elt false 8 a k * elt true 8 b k := by
  rw [BitVec.toInt_mul, u8_toInt, i8_toInt]
  have := mul_bounds (elt_range8 a k).1 (elt_range8 b k).2
  exact bmod16 this.1 this.2

theorem prod_i8i8 (a b : W32) (k : Nat) :
    (i8 a (8 * k) * i8 b (8 * k)).toInt = elt true 8 a k * elt true 8 b k := by
  rw [BitVec.toInt_mul, i8_toInt, i8_toInt]
  have := mul_bounds_ss (elt_range8 a k).2 (elt_range8 b k).2
  exact bmod16 (by omega) (by omega)

/-- The product of two unsigned bytes as an `int16`. -/
theorem prod_u8u8 (a b : W32) (k : Nat) :
    (u8 a (8 * k) * u8 b (8 * k)).toInt =
      elt false 8 a k * elt false 8 b k - if 32768 ≤ elt false 8 a k * elt false 8 b k then 65536 else 0 := by
  rw [BitVec.toInt_mul, u8_toInt, u8_toInt]
  have h := mul_bounds_uu (elt_range8 a k).1 (elt_range8 b k).1
  split_ifs with hc
  · exact Sat.bmod_hi (n := 15) (by omega) (by omega)
  · rw [bmod16 (by omega) (by omega)]; omega

/-- The product of two unsigned bytes as a `uint16`. -/
theorem prod_u8u8_nat (a b : W32) (k : Nat) :
    ((u8 a (8 * k) * u8 b (8 * k)).toNat : Int) = elt false 8 a k * elt false 8 b k := by
  have h := mul_bounds_uu (elt_range8 a k).1 (elt_range8 b k).1
  rw [BitVec.toNat_mul, Int.natCast_emod, Int.natCast_mul, u8_toNat, u8_toNat]
  omega

theorem signExtend_eq (x : BitVec 16) : x.signExtend 32 = BitVec.ofInt 32 x.toInt := rfl

theorem setWidth_eq (x : BitVec 16) : x.setWidth 32 = BitVec.ofInt 32 x.toNat := by
  apply BitVec.eq_of_toNat_eq; simp

theorem ofInt_toInt (x : W32) : BitVec.ofInt 32 x.toInt = x := BitVec.ofInt_toInt

theorem ofInt_toNat (x : W32) : BitVec.ofInt 32 (x.toNat : Int) = x := by
  apply BitVec.eq_of_toNat_eq; simp

/-- Adding to the accumulator read as a signed or as an unsigned integer gives the same word. -/
theorem wrap_sign (acc : W32) (d : Int) : BitVec.ofInt 32 (acc.toNat + d) = BitVec.ofInt 32 (acc.toInt + d) := by
  rw [BitVec.ofInt_add, BitVec.ofInt_add, ofInt_toInt, ofInt_toNat]

theorem sum4_eq (sa sb : Bool) (a b : W32) : dot sa sb 8 a b =
    elt sa 8 a 0 * elt sb 8 b 0 + elt sa 8 a 1 * elt sb 8 b 1 + elt sa 8 a 2 * elt sb 8 b 2 +
      elt sa 8 a 3 * elt sb 8 b 3 := by
  have : List.range (32 / 8) = [0, 1, 2, 3] := by decide
  simp only [dot, this, List.map_cons, List.map_nil, List.sum_cons, List.sum_nil]; ring

theorem sum2_eq (sa sb : Bool) (a b : W32) : dot sa sb 16 a b =
    elt sa 16 a 0 * elt sb 16 b 0 + elt sa 16 a 1 * elt sb 16 b 1 := by
  have : List.range (32 / 16) = [0, 1] := by decide
  simp only [dot, this, List.map_cons, List.map_nil, List.sum_cons, List.sum_nil]; ring

/-- Four `int16` products, extended and added. -/
theorem add4 (t1 t2 t3 t4 : BitVec 16) :
    t1.signExtend 32 + t2.signExtend 32 + t3.signExtend 32 + t4.signExtend 32 =
      BitVec.ofInt 32 (t4.toInt + t3.toInt + t2.toInt + t1.toInt) := by
  simp only [signExtend_eq, BitVec.ofInt_add]
  grind

theorem small_toInt {z : Int} (h1 : -2 ^ 31 ≤ z) (h2 : z < 2 ^ 31) : (BitVec.ofInt 32 z).toInt = z := by
  rw [BitVec.toInt_ofInt]; exact Sat.bmod_id (n := 31) h1 h2

theorem small_toNat {z : Int} (h1 : 0 ≤ z) (h2 : z < 2 ^ 32) : ((BitVec.ofInt 32 z).toNat : Int) = z := by
  rw [BitVec.toNat_ofInt]; omega

theorem satS_eq (x acc : W32) : Sat.addS (n := 31) x acc =
    BitVec.ofInt 32 (max (-2 ^ 31) (min (2 ^ 31 - 1) (acc.toInt + x.toInt))) := by
  have h := Sat.addS_clamps (n := 31) x acc
  rw [Sat.clampS, Int.add_comm] at h
  rw [← h]; exact (ofInt_toInt _).symm

theorem satU_eq (x acc : W32) : Sat.addU (n := 31) x acc =
    BitVec.ofInt 32 (min (2 ^ 32 - 1) ((acc.toNat : Int) + x.toNat)) := by
  have h := Sat.addU_clamps (n := 31) x acc
  rw [Sat.clampU, Int.add_comm, Int.max_eq_right (by omega)] at h
  rw [show (2 : Int) ^ 32 - 1 = 2 ^ (31 + 1) - 1 by norm_num, ← h]; exact (ofInt_toNat _).symm

/-! ## The portable code -/

theorem u8i8_ok (a b acc : W32) : dot4U8I8 a b acc = Fn.spec .dot4add_u8i8packed a b acc := by
  have h0 := prod_u8i8 a b 0; have h1 := prod_u8i8 a b 1; have h2 := prod_u8i8 a b 2; have h3 := prod_u8i8 a b 3
  simp only [Nat.reduceMul] at h0 h1 h2 h3
  simp only [dot4U8I8, add4, h0, h1, h2, h3]
  show _ = BitVec.ofInt 32 (acc.toInt + dot false true 8 a b)
  rw [sum4_eq, Int.add_comm acc.toInt, BitVec.ofInt_add _ acc.toInt, ofInt_toInt]

theorem i8i8_ok (a b acc : W32) : dot4I8I8 a b acc = Fn.spec .dot4add_i8i8packed a b acc := by
  have h0 := prod_i8i8 a b 0; have h1 := prod_i8i8 a b 1; have h2 := prod_i8i8 a b 2; have h3 := prod_i8i8 a b 3
  simp only [Nat.reduceMul] at h0 h1 h2 h3
  simp only [dot4I8I8, add4, h0, h1, h2, h3]
  show _ = BitVec.ofInt 32 (acc.toInt + dot true true 8 a b)
  rw [sum4_eq, Int.add_comm acc.toInt, BitVec.ofInt_add _ acc.toInt, ofInt_toInt]

theorem u8i8_sat_ok (a b acc : W32) : dot4U8I8Sat a b acc = Fn.spec .dot4add_u8i8packed_sat a b acc := by
  have h0 := prod_u8i8 a b 0; have h1 := prod_u8i8 a b 1; have h2 := prod_u8i8 a b 2; have h3 := prod_u8i8 a b 3
  simp only [Nat.reduceMul] at h0 h1 h2 h3
  have b0 := mul_bounds (elt_range8 a 0).1 (elt_range8 b 0).2
  have b1 := mul_bounds (elt_range8 a 1).1 (elt_range8 b 1).2
  have b2 := mul_bounds (elt_range8 a 2).1 (elt_range8 b 2).2
  have b3 := mul_bounds (elt_range8 a 3).1 (elt_range8 b 3).2
  simp only [dot4U8I8Sat, add4, h0, h1, h2, h3, satS_eq]
  show _ = BitVec.ofInt 32 (max (-2 ^ 31) (min (2 ^ 31 - 1) (acc.toInt + dot false true 8 a b)))
  rw [sum4_eq, small_toInt (by omega) (by omega)]

theorem u8u8_sat_ok (a b acc : W32) : dot4U8U8Sat a b acc = Fn.spec .dot4add_u8u8packed_sat a b acc := by
  have h0 := prod_u8u8_nat a b 0; have h1 := prod_u8u8_nat a b 1
  have h2 := prod_u8u8_nat a b 2; have h3 := prod_u8u8_nat a b 3
  simp only [Nat.reduceMul] at h0 h1 h2 h3
  have b0 := mul_bounds_uu (elt_range8 a 0).1 (elt_range8 b 0).1
  have b1 := mul_bounds_uu (elt_range8 a 1).1 (elt_range8 b 1).1
  have b2 := mul_bounds_uu (elt_range8 a 2).1 (elt_range8 b 2).1
  have b3 := mul_bounds_uu (elt_range8 a 3).1 (elt_range8 b 3).1
  have hs : ∀ t1 t2 t3 t4 : BitVec 16, t1.setWidth 32 + t2.setWidth 32 + t3.setWidth 32 + t4.setWidth 32 =
      BitVec.ofInt 32 ((t4.toNat : Int) + t3.toNat + t2.toNat + t1.toNat) := by
    intro t1 t2 t3 t4
    simp only [setWidth_eq, BitVec.ofInt_add]
    grind
  simp only [dot4U8U8Sat, hs, h0, h1, h2, h3, satU_eq]
  show _ = BitVec.ofInt 32 (min (2 ^ 32 - 1) ((acc.toNat : Int) + dot false false 8 a b))
  rw [sum4_eq, small_toNat (by omega) (by omega)]

/-- The four products above 32767 that the portable `dot4add_u8u8packed` gets wrong. -/
def large (a b : W32) : Nat := ((List.range 4).filter fun k => 32768 ≤ elt false 8 a k * elt false 8 b k).length

theorem large_eq (a b : W32) : (large a b : Int) =
    (if 32768 ≤ elt false 8 a 0 * elt false 8 b 0 then 1 else 0) +
      (if 32768 ≤ elt false 8 a 1 * elt false 8 b 1 then 1 else 0) +
      (if 32768 ≤ elt false 8 a 2 * elt false 8 b 2 then 1 else 0) +
      (if 32768 ≤ elt false 8 a 3 * elt false 8 b 3 then 1 else 0) := by
  have : List.range 4 = [0, 1, 2, 3] := by decide
  simp only [large, this, List.filter_cons, List.filter_nil, decide_eq_true_eq]
  split_ifs <;> rfl

/-- The portable `dot4add_u8u8packed` is too small by 65536 for every product above 32767. -/
theorem u8u8_off (a b acc : W32) :
    dot4U8U8 a b acc = BitVec.ofInt 32 (acc.toNat + dot false false 8 a b - 65536 * large a b) := by
  have h0 := prod_u8u8 a b 0; have h1 := prod_u8u8 a b 1; have h2 := prod_u8u8 a b 2; have h3 := prod_u8u8 a b 3
  simp only [Nat.reduceMul] at h0 h1 h2 h3
  rw [sum4_eq, large_eq]
  simp only [dot4U8U8, add4]
  rw [show acc = BitVec.ofInt 32 acc.toNat from (ofInt_toNat acc).symm, ← BitVec.ofInt_add, ofInt_toNat, h0, h1, h2, h3]
  congr 1
  split_ifs <;> ring

theorem large_le (a b : W32) : large a b ≤ 4 := by
  unfold large
  exact (List.length_filter_le _ _).trans (by simp)

/-- The portable `dot4add_u8u8packed` is right exactly when no product is above 32767. -/
theorem u8u8_portable_iff (a b acc : W32) :
    dot4U8U8 a b acc = Fn.spec .dot4add_u8u8packed a b acc ↔
      ∀ k < 4, elt false 8 a k * elt false 8 b k ≤ 32767 := by
  have hz : large a b = 0 ↔ ∀ k < 4, elt false 8 a k * elt false 8 b k ≤ 32767 := by
    rw [large, List.length_eq_zero_iff, List.filter_eq_nil_iff]
    constructor
    · intro h k hk; have := h k (List.mem_range.2 hk); simp at this; omega
    · intro h k hk; have := h k (List.mem_range.1 hk); simp; omega
  rw [← hz, u8u8_off]
  show _ = BitVec.ofInt 32 (acc.toNat + dot false false 8 a b) ↔ _
  have hl := large_le a b
  constructor
  · intro h
    have h' := congrArg BitVec.toNat h
    rw [BitVec.toNat_ofInt, BitVec.toNat_ofInt] at h'
    generalize (acc.toNat : Int) + dot false false 8 a b = z at h'
    omega
  · intro h; rw [h]; simp

/-- What the portable `dot4add_i8i8packed_sat` adds: the products of the bytes read as unsigned, as `int16`. -/
def i8i8SatSum (a b : W32) : Int :=
  ((List.range 4).map fun k => (elt false 8 a k * elt false 8 b k).bmod (2 ^ 16)).sum

theorem range4_sum (f : Nat → Int) : ((List.range 4).map f).sum = f 0 + f 1 + f 2 + f 3 := by
  have : List.range 4 = [0, 1, 2, 3] := by decide
  simp only [this, List.map_cons, List.map_nil, List.sum_cons, List.sum_nil]
  ring

theorem bmod16_range (z : Int) : -32768 ≤ z.bmod (2 ^ 16) ∧ z.bmod (2 ^ 16) ≤ 32767 := by
  have h1 := Int.le_bmod (x := z) (m := 2 ^ 16) (by norm_num)
  have h2 := Int.bmod_lt (x := z) (m := 2 ^ 16) (by norm_num)
  omega

theorem i8i8_sat_is (a b acc : W32) :
    dot4I8I8Sat a b acc = BitVec.ofInt 32 (max (-2 ^ 31) (min (2 ^ 31 - 1) (acc.toInt + i8i8SatSum a b))) := by
  have hp : ∀ k, (u8 a (8 * k) * u8 b (8 * k)).toInt = (elt false 8 a k * elt false 8 b k).bmod (2 ^ 16) := by
    intro k; rw [BitVec.toInt_mul, u8_toInt, u8_toInt]
  have hb := bmod16_range
  have h0 := hp 0; have h1 := hp 1; have h2 := hp 2; have h3 := hp 3
  simp only [Nat.reduceMul] at h0 h1 h2 h3
  have hr : i8i8SatSum a b = (elt false 8 a 0 * elt false 8 b 0).bmod (2 ^ 16) + (elt false 8 a 1 * elt false 8 b 1).bmod (2 ^ 16) +
      (elt false 8 a 2 * elt false 8 b 2).bmod (2 ^ 16) + (elt false 8 a 3 * elt false 8 b 3).bmod (2 ^ 16) := by
    exact range4_sum _
  have b0 := hb (elt false 8 a 0 * elt false 8 b 0); have b1 := hb (elt false 8 a 1 * elt false 8 b 1)
  have b2 := hb (elt false 8 a 2 * elt false 8 b 2); have b3 := hb (elt false 8 a 3 * elt false 8 b 3)
  simp only [dot4I8I8Sat, add4, h0, h1, h2, h3, satS_eq]
  rw [hr]
  generalize (elt false 8 a 0 * elt false 8 b 0).bmod (2 ^ 16) = z0 at *
  generalize (elt false 8 a 1 * elt false 8 b 1).bmod (2 ^ 16) = z1 at *
  generalize (elt false 8 a 2 * elt false 8 b 2).bmod (2 ^ 16) = z2 at *
  generalize (elt false 8 a 3 * elt false 8 b 3).bmod (2 ^ 16) = z3 at *
  rw [small_toInt (by omega) (by omega)]

/-- The portable `dot4add_i8i8packed_sat` is right when the bytes that are multiplied are not negative or are multiplied
by zero. -/
theorem i8i8_sat_portable_partial (a b acc : W32)
    (h : ∀ k < 4, (0 ≤ elt true 8 a k ∧ 0 ≤ elt true 8 b k) ∨ elt true 8 a k = 0 ∨ elt true 8 b k = 0) :
    dot4I8I8Sat a b acc = Fn.spec .dot4add_i8i8packed_sat a b acc := by
  rw [i8i8_sat_is]
  show _ = BitVec.ofInt 32 (max (-2 ^ 31) (min (2 ^ 31 - 1) (acc.toInt + dot true true 8 a b)))
  have hk : ∀ k < 4, (elt false 8 a k * elt false 8 b k).bmod (2 ^ 16) = elt true 8 a k * elt true 8 b k := by
    intro k hk
    have hu : ∀ x : W32, elt false 8 x k = elt true 8 x k + if elt true 8 x k < 0 then 256 else 0 := by
      intro x
      have : (x.toNat : Int) / 2 ^ (8 * k) % 2 ^ 8 = ((x.toNat / 2 ^ (8 * k) % 256 : Nat) : Int) := by simp
      simp only [elt, this]
      have := Nat.mod_lt (x.toNat / 2 ^ (8 * k)) (show 256 > 0 by omega)
      generalize x.toNat / 2 ^ (8 * k) % 256 = u at this ⊢
      simp only [Bool.true_and, Bool.false_and, decide_eq_true_eq]
      split_ifs <;> first | omega | (exfalso; simp_all)
    rcases h k hk with ⟨h1, h2⟩ | h1 | h1
    · rw [hu a, hu b, if_neg (by omega), if_neg (by omega), Int.add_zero, Int.add_zero]
      have := mul_bounds_ss (elt_range8 a k).2 (elt_range8 b k).2
      exact bmod16 (by omega) (by omega)
    · rw [hu a, if_neg (by omega), h1]; simp
    · rw [hu b, if_neg (by omega), h1]; simp
  have : i8i8SatSum a b = dot true true 8 a b := by
    have e : 32 / 8 = 4 := rfl
    simp only [i8i8SatSum, dot, e]
    refine congrArg List.sum ?_
    exact List.map_congr_left fun k hm => hk k (List.mem_range.1 hm)
  rw [this]

theorem mul_bounds16 {x y : Int} (hx : -32768 ≤ x ∧ x ≤ 32767) (hy : -32768 ≤ y ∧ y ≤ 32767) :
    -(32768 * 32767) ≤ x * y ∧ x * y ≤ 32768 * 32768 := by
  constructor <;> nlinarith

theorem mul_bounds16_us {x y : Int} (hx : 0 ≤ x ∧ x ≤ 65535) (hy : -32768 ≤ y ∧ y ≤ 32767) :
    -(65535 * 32768) ≤ x * y ∧ x * y ≤ 65535 * 32767 := by
  constructor <;> nlinarith

theorem mul_bounds16_uu {x y : Int} (hx : 0 ≤ x ∧ x ≤ 65535) (hy : 0 ≤ y ∧ y ≤ 65535) :
    0 ≤ x * y ∧ x * y ≤ 65535 * 65535 := by
  constructor <;> nlinarith

theorem prod_i16i16 (a b : W32) (k : Nat) :
    (i16 a (16 * k) * i16 b (16 * k)).toInt = elt true 16 a k * elt true 16 b k := by
  rw [BitVec.toInt_mul, i16_toInt, i16_toInt]
  have := mul_bounds16 (elt_range16 a k).2 (elt_range16 b k).2
  exact Sat.bmod_id (n := 31) (by omega) (by omega)

theorem prod_u16i16 (a b : W32) (k : Nat) :
    (u16 a (16 * k) * i16 b (16 * k)).toInt = elt false 16 a k * elt true 16 b k := by
  rw [BitVec.toInt_mul, u16_toInt, i16_toInt]
  have := mul_bounds16_us (elt_range16 a k).1 (elt_range16 b k).2
  exact Sat.bmod_id (n := 31) (by omega) (by omega)

theorem prod_u16u16 (a b : W32) (k : Nat) :
    ((u16 a (16 * k) * u16 b (16 * k)).toNat : Int) = elt false 16 a k * elt false 16 b k := by
  have h := mul_bounds16_uu (elt_range16 a k).1 (elt_range16 b k).1
  rw [BitVec.toNat_mul, Int.natCast_emod, Int.natCast_mul, u16_toNat, u16_toNat]
  omega

theorem i16i16_ok (a b acc : W32) : dot2I16I16 a b acc = Fn.spec .dot2add_i16i16packed a b acc := by
  have h0 := prod_i16i16 a b 0; have h1 := prod_i16i16 a b 1
  simp only [Nat.reduceMul] at h0 h1
  show _ = BitVec.ofInt 32 (acc.toInt + dot true true 16 a b)
  rw [sum2_eq, ← h0, ← h1, BitVec.ofInt_add, BitVec.ofInt_add, ofInt_toInt, ofInt_toInt, ofInt_toInt]
  simp only [dot2I16I16]
  grind

theorem u16i16_ok (a b acc : W32) : dot2U16I16 a b acc = Fn.spec .dot2add_u16i16packed a b acc := by
  have h0 := prod_u16i16 a b 0; have h1 := prod_u16i16 a b 1
  simp only [Nat.reduceMul] at h0 h1
  show _ = BitVec.ofInt 32 (acc.toInt + dot false true 16 a b)
  rw [sum2_eq, ← h0, ← h1, BitVec.ofInt_add, BitVec.ofInt_add, ofInt_toInt, ofInt_toInt, ofInt_toInt]
  simp only [dot2U16I16]
  grind

theorem u16u16_ok (a b acc : W32) : dot2U16U16 a b acc = Fn.spec .dot2add_u16u16packed a b acc := by
  have h0 := prod_u16u16 a b 0; have h1 := prod_u16u16 a b 1
  simp only [Nat.reduceMul] at h0 h1
  show _ = BitVec.ofInt 32 ((acc.toNat : Int) + dot false false 16 a b)
  rw [sum2_eq, ← h0, ← h1, BitVec.ofInt_add, BitVec.ofInt_add, ofInt_toNat, ofInt_toNat, ofInt_toNat]
  simp only [dot2U16U16]
  grind

theorem u16u16_sat_ok (a b acc : W32) : dot2U16U16Sat a b acc = Fn.spec .dot2add_u16u16packed_sat a b acc := by
  have h0 := prod_u16u16 a b 0; have h1 := prod_u16u16 a b 1
  simp only [Nat.reduceMul] at h0 h1
  show _ = BitVec.ofInt 32 (min (2 ^ 32 - 1) ((acc.toNat : Int) + dot false false 16 a b))
  have e1 := Sat.addU_clamps (n := 31) acc (u16 a 16 * u16 b 16)
  rw [sum2_eq]
  simp only [dot2U16U16Sat]
  rw [satU_eq, e1, h0, h1]
  have b0 := mul_bounds16_uu (elt_range16 a 0).1 (elt_range16 b 0).1
  have b1 := mul_bounds16_uu (elt_range16 a 1).1 (elt_range16 b 1).1
  congr 1
  simp only [Sat.clampU]
  omega

theorem ofInt_inj {x y : Int} (hx : -2 ^ 31 ≤ x ∧ x ≤ 2 ^ 31 - 1) (hy : -2 ^ 31 ≤ y ∧ y ≤ 2 ^ 31 - 1) :
    BitVec.ofInt 32 x = BitVec.ofInt 32 y ↔ x = y := by
  constructor
  · intro h
    have := congrArg BitVec.toInt h
    rwa [small_toInt hx.1 (by omega), small_toInt hy.1 (by omega)] at this
  · rintro rfl; rfl

theorem acc_range (acc : W32) : -2 ^ 31 ≤ acc.toInt ∧ acc.toInt ≤ 2 ^ 31 - 1 := by
  have := Sat.toInt_range (n := 31) acc
  omega

/-- The portable `dot2add_i16i16packed_sat` is right except when all four integers are −32768 and the accumulator is
negative. -/
theorem i16i16_sat_portable_iff (a b acc : W32) :
    dot2I16I16Sat a b acc = Fn.spec .dot2add_i16i16packed_sat a b acc ↔
      ¬ (a = 0x80008000#32 ∧ b = 0x80008000#32 ∧ acc.toInt < 0) := by
  have h0 := prod_i16i16 a b 0; have h1 := prod_i16i16 a b 1
  simp only [Nat.reduceMul] at h0 h1
  have e1 := Sat.addS_clamps (n := 31) (i16 a 16 * i16 b 16) (i16 a 0 * i16 b 0)
  have ea := acc_range acc
  have b0 := mul_bounds16 (elt_range16 a 0).2 (elt_range16 b 0).2
  have b1 := mul_bounds16 (elt_range16 a 1).2 (elt_range16 b 1).2
  show _ = BitVec.ofInt 32 (max (-2 ^ 31) (min (2 ^ 31 - 1) (acc.toInt + dot true true 16 a b))) ↔ _
  rw [sum2_eq]
  simp only [dot2I16I16Sat]
  rw [satS_eq, e1, h0, h1, ofInt_inj (by omega) (by omega)]
  have hm : ∀ x : W32, x = 0x80008000#32 ↔ elt true 16 x 0 = -32768 ∧ elt true 16 x 1 = -32768 := by
    intro x
    have hx := x.isLt
    constructor
    · rintro rfl; decide
    · rintro ⟨g0, g1⟩
      apply BitVec.eq_of_toNat_eq
      simp only [elt, Bool.true_and, decide_eq_true_eq] at g0 g1
      simp only [BitVec.toNat_ofNat]
      split_ifs at g0 g1 <;> omega
  have hp : ∀ {x y : Int}, -32768 ≤ x ∧ x ≤ 32767 → -32768 ≤ y ∧ y ≤ 32767 →
      (x * y = 32768 * 32768 ↔ x = -32768 ∧ y = -32768) := by
    intro x y hx hy
    constructor
    · intro h; constructor <;> nlinarith
    · rintro ⟨rfl, rfl⟩; norm_num
  have p0 := hp (elt_range16 a 0).2 (elt_range16 b 0).2
  have p1 := hp (elt_range16 a 1).2 (elt_range16 b 1).2
  rw [hm a, hm b]
  generalize elt true 16 a 0 * elt true 16 b 0 = z0 at *
  generalize elt true 16 a 1 * elt true 16 b 1 = z1 at *
  simp only [Sat.clampS]
  constructor
  · rintro h ⟨⟨g1, g2⟩, ⟨g3, g4⟩, g5⟩
    have q0 := p0.2 ⟨g1, g3⟩
    have q1 := p1.2 ⟨g2, g4⟩
    omega
  · intro h
    by_cases c : z0 = 32768 * 32768 ∧ z1 = 32768 * 32768 ∧ acc.toInt < 0
    · exact absurd ⟨⟨(p0.1 c.1).1, (p1.1 c.2.1).1⟩, ⟨(p0.1 c.1).2, (p1.1 c.2.1).2⟩, c.2.2⟩ h
    · omega

/-- The portable `dot2add_u16i16packed_sat` is right except when the accumulator and the product of the high halves are
out of range together and the product of the low halves goes the other way. -/
theorem u16i16_sat_portable_iff (a b acc : W32) :
    dot2U16I16Sat a b acc = Fn.spec .dot2add_u16i16packed_sat a b acc ↔
      ¬ ((2 ^ 31 - 1 < acc.toInt + elt false 16 a 1 * elt true 16 b 1 ∧ elt false 16 a 0 * elt true 16 b 0 < 0) ∨
         (acc.toInt + elt false 16 a 1 * elt true 16 b 1 < -2 ^ 31 ∧ 0 < elt false 16 a 0 * elt true 16 b 0)) := by
  have h0 := prod_u16i16 a b 0; have h1 := prod_u16i16 a b 1
  simp only [Nat.reduceMul] at h0 h1
  have e1 := Sat.addS_clamps (n := 31) acc (u16 a 16 * i16 b 16)
  have ea := acc_range acc
  have b0 := mul_bounds16_us (elt_range16 a 0).1 (elt_range16 b 0).2
  have b1 := mul_bounds16_us (elt_range16 a 1).1 (elt_range16 b 1).2
  show _ = BitVec.ofInt 32 (max (-2 ^ 31) (min (2 ^ 31 - 1) (acc.toInt + dot false true 16 a b))) ↔ _
  rw [sum2_eq]
  simp only [dot2U16I16Sat]
  rw [satS_eq, e1, h0, h1, ofInt_inj (by omega) (by omega)]
  generalize elt false 16 a 0 * elt true 16 b 0 = z0 at *
  generalize elt false 16 a 1 * elt true 16 b 1 = z1 at *
  simp only [Sat.clampS]
  omega

/-! ## The instructions -/

theorem regByte_at (v : V 32) (l k : Nat) (hk : k < 4) : regByte v (4 * l + k) = (byte (v l) (8 * k)).setWidth 8 := by
  have e1 : (4 * l + k) / 4 = l := by omega
  have e2 : (4 * l + k) % 4 = k := by omega
  rw [regByte, e1, e2]
  apply BitVec.eq_of_toNat_eq
  rw [BitVec.extractLsb'_toNat, Nat.shiftRight_eq_div_pow, BitVec.toNat_setWidth, byte_toNat]
  omega

theorem regHalf_at (v : V 32) (l k : Nat) (hk : k < 2) : regHalf v (2 * l + k) = (half (v l) (16 * k)).setWidth 16 := by
  have e1 : (2 * l + k) / 2 = l := by omega
  have e2 : (2 * l + k) % 2 = k := by omega
  rw [regHalf, e1, e2]
  apply BitVec.eq_of_toNat_eq
  rw [BitVec.extractLsb'_toNat, Nat.shiftRight_eq_div_pow, BitVec.toNat_setWidth, half_toNat]
  omega

theorem un_byte (x : W32) (k : Nat) : un ((byte x (8 * k)).setWidth 8) = elt false 8 x k := by
  rw [elt_u8, un, BitVec.toNat_setWidth, byte_toNat]; omega

theorem un_half (x : W32) (k : Nat) : un ((half x (16 * k)).setWidth 16) = elt false 16 x k := by
  rw [elt_u16, un, BitVec.toNat_setWidth, half_toNat]; omega

/-- How an instruction reads a packed element. -/
def rd (signed : Bool) {n : Nat} (x : BitVec n) : Int := if signed then x.toInt else un x

theorem rd_byte (s : Bool) (x : W32) (k : Nat) : rd s ((byte x (8 * k)).setWidth 8) = elt s 8 x k := by
  cases s
  · exact un_byte x k
  · exact (elt_i8 x k).symm

theorem rd_half (s : Bool) (x : W32) (k : Nat) : rd s ((half x (16 * k)).setWidth 16) = elt s 16 x k := by
  cases s
  · exact un_half x k
  · exact (elt_i16 x k).symm

theorem sum4_dot (sa sb : Bool) (a b : V 32) (l : Nat) : sum4 (rd sa) (rd sb) a b l = dot sa sb 8 (a l) (b l) := by
  rw [sum4_eq, sum4]
  have h0 := fun v : V 32 => regByte_at v l 0 (by omega)
  simp only [Nat.add_zero] at h0
  rw [h0, h0, regByte_at a l 1 (by omega), regByte_at b l 1 (by omega), regByte_at a l 2 (by omega),
    regByte_at b l 2 (by omega), regByte_at a l 3 (by omega), regByte_at b l 3 (by omega)]
  simp only [rd_byte]

theorem sum2_dot (sa sb : Bool) (a b : V 32) (l : Nat) : sum2 (rd sa) (rd sb) a b l = dot sa sb 16 (a l) (b l) := by
  rw [sum2_eq, sum2]
  have h0 := fun v : V 32 => regHalf_at v l 0 (by omega)
  simp only [Nat.add_zero] at h0
  rw [h0, h0, regHalf_at a l 1 (by omega), regHalf_at b l 1 (by omega)]
  simp only [rd_half]

/-- The sums of products are not negative when both operands are unsigned. -/
theorem dot_uu_nonneg (a b : W32) : 0 ≤ dot false false 8 a b ∧ 0 ≤ dot false false 16 a b := by
  rw [sum4_eq, sum2_eq]
  have b0 := mul_bounds_uu (elt_range8 a 0).1 (elt_range8 b 0).1
  have b1 := mul_bounds_uu (elt_range8 a 1).1 (elt_range8 b 1).1
  have b2 := mul_bounds_uu (elt_range8 a 2).1 (elt_range8 b 2).1
  have b3 := mul_bounds_uu (elt_range8 a 3).1 (elt_range8 b 3).1
  have c0 := mul_bounds16_uu (elt_range16 a 0).1 (elt_range16 b 0).1
  have c1 := mul_bounds16_uu (elt_range16 a 1).1 (elt_range16 b 1).1
  constructor <;> omega

theorem rd_true {n : Nat} : (rd true : BitVec n → Int) = BitVec.toInt := rfl
theorem rd_false {n : Nat} : (rd false : BitVec n → Int) = un := rfl

/-- A lane of the instruction that a target uses for a function. -/
theorem lane_spec (t : Target) (f : Fn) (i : Instr) (h : native t f = some i) (acc a b : V 32) (l : Nat) :
    i.lane acc a b l = f.spec (a l) (b l) (acc l) := by
  have s4 := fun sa sb => sum4_dot sa sb a b l
  have s2 := fun sa sb => sum2_dot sa sb a b l
  have n := dot_uu_nonneg (a l) (b l)
  have p4 : ∀ acc : W32, BitVec.ofInt 32 (acc.toNat + dot false false 8 (a l) (b l)) =
      BitVec.ofInt 32 (acc.toInt + dot false false 8 (a l) (b l)) := fun acc => wrap_sign acc _
  have p2 : ∀ acc : W32, BitVec.ofInt 32 (acc.toNat + dot false false 16 (a l) (b l)) =
      BitVec.ofInt 32 (acc.toInt + dot false false 16 (a l) (b l)) := fun acc => wrap_sign acc _
  have u4 : Sat.clampU 31 (un (acc l) + dot false false 8 (a l) (b l)) =
      min (2 ^ 32 - 1) ((acc l).toNat + dot false false 8 (a l) (b l)) := by
    simp only [Sat.clampU, un]; omega
  have u2 : Sat.clampU 31 (un (acc l) + dot false false 16 (a l) (b l)) =
      min (2 ^ 32 - 1) ((acc l).toNat + dot false false 16 (a l) (b l)) := by
    simp only [Sat.clampU, un]; omega
  have t1 := s4 false true; have t2 := s4 true true; have t3 := s4 false false
  have t4 := s2 false true; have t5 := s2 true true; have t6 := s2 false false
  simp only [rd_true, rd_false] at t1 t2 t3 t4 t5 t6
  cases f <;> simp only [native] at h <;> (try split_ifs at h) <;> cases h <;>
    simp only [Instr.lane, t1, t2, t3, t4, t5, t6, u4, u2, Sat.clampS, Fn.spec, Fn.resultUnsigned, Fn.saturates,
      Fn.product, Fn.operands, Bool.not_true, Bool.not_false, Bool.and_false,
      Bool.false_eq_true, if_true, if_false, p4, p2, Bool.and_self]

/-- A lane of an instruction depends only on that lane of its operands. -/
theorem lane_local (i : Instr) {acc a b acc' a' b' : V 32} {l l' : Nat} (h1 : acc l = acc' l') (h2 : a l = a' l')
    (h3 : b l = b' l') : i.lane acc a b l = i.lane acc' a' b' l' := by
  have e4 : ∀ fa fb, sum4 fa fb a b l = sum4 fa fb a' b' l' := by
    intro fa fb
    have r : ∀ (v v' : V 32), v l = v' l' → ∀ k < 4, regByte v (4 * l + k) = regByte v' (4 * l' + k) := by
      intro v v' hv k hk; rw [regByte_at v l k hk, regByte_at v' l' k hk, hv]
    have ra := r a a' h2; have rb := r b b' h3
    have ra0 := ra 0 (by omega); have rb0 := rb 0 (by omega)
    simp only [Nat.add_zero] at ra0 rb0
    simp only [sum4, ra0, rb0, ra 1 (by omega), ra 2 (by omega), ra 3 (by omega), rb 1 (by omega), rb 2 (by omega),
      rb 3 (by omega)]
  have e2 : ∀ fa fb, sum2 fa fb a b l = sum2 fa fb a' b' l' := by
    intro fa fb
    have r : ∀ (v v' : V 32), v l = v' l' → ∀ k < 2, regHalf v (2 * l + k) = regHalf v' (2 * l' + k) := by
      intro v v' hv k hk; rw [regHalf_at v l k hk, regHalf_at v' l' k hk, hv]
    have ra := r a a' h2; have rb := r b b' h3
    have ra0 := ra 0 (by omega); have rb0 := rb 0 (by omega)
    simp only [Nat.add_zero] at ra0 rb0
    simp only [sum2, ra0, rb0, ra 1 (by omega), rb 1 (by omega)]
  cases i <;> simp only [Instr.lane, h1, e4, e2]

theorem idx_get (lo len i : Nat) (h : i < len) : (idx lo len).getD i 0 = lo + i := by
  simp [idx, List.getD, h]

theorem shuf_at (v : V 32) (lo len i : Nat) (h : i < len) : shuf v (idx lo len) i = v (lo + i) := by
  simp only [shuf, idx_get lo len i h]

theorem shuf2_at (len : Nat) (x y : V 32) (i : Nat) (h : i < 2 * len) :
    shuf2 len x y (idx 0 (2 * len)) i = if i < len then x i else y (i - len) := by
  simp only [shuf2, idx_get 0 _ i h, Nat.zero_add]

/-- Cutting the operands into registers and putting the results together again does not change a lane. -/
theorem builtin_lane (c : Cut) (i : Instr) (a b acc : V 32) (l : Nat) (hl : l < c.lanes) :
    builtin c i a b acc l = i.lane acc a b l := by
  have hp : ∀ n lo m, m < n → i.lane (shuf acc (idx lo n)) (shuf a (idx lo n)) (shuf b (idx lo n)) m =
      i.lane acc a b (lo + m) := by
    intro n lo m hm
    exact lane_local i (shuf_at _ _ _ _ hm) (shuf_at _ _ _ _ hm) (shuf_at _ _ _ _ hm)
  have h8 := fun x y j h => shuf2_at 4 x y j h
  have h16 := fun x y j h => shuf2_at 8 x y j h
  have h32 := fun x y j h => shuf2_at 16 x y j h
  have h64 := fun x y j h => shuf2_at 32 x y j h
  simp only [Nat.reduceMul] at h8 h16 h32 h64
  cases c <;> simp only [Cut.lanes] at hl
  · rfl
  · simp only [builtin]
    rw [h8 _ _ _ hl]
    split_ifs with c1 <;> rw [hp _ _ _ (by omega)] <;> congr 1 <;> omega
  · simp only [builtin]
    rw [h16 _ _ _ hl]
    split_ifs with c1 <;> rw [hp _ _ _ (by omega)] <;> congr 1 <;> omega
  · simp only [builtin]
    rw [h32 _ _ _ hl]
    split_ifs with c1 <;> rw [hp _ _ _ (by omega)] <;> congr 1 <;> omega
  · simp only [builtin]
    rw [h16 _ _ _ hl]
    split_ifs with c1 <;> rw [h8 _ _ _ (by omega)] <;> split_ifs <;> rw [hp _ _ _ (by omega)] <;> congr 1 <;> omega
  · simp only [builtin]
    rw [h64 _ _ _ hl]
    split_ifs with c1 <;> rw [h32 _ _ _ (by omega)] <;> split_ifs <;> rw [hp _ _ _ (by omega)] <;> congr 1 <;> omega
  · simp only [builtin]
    rw [h32 _ _ _ hl]
    split_ifs with c1 <;> rw [h16 _ _ _ (by omega)] <;> split_ifs <;> rw [h8 _ _ _ (by omega)] <;> split_ifs <;>
      rw [hp _ _ _ (by omega)] <;> congr 1 <;> omega

/-! ## The functions -/

/-- On a target with an instruction for it, every function returns what it should in every program instance. -/
theorem native_exact (t : Target) (f : Fn) (i : Instr) (h : native t f = some i) (a b acc : V 32) (l : Nat)
    (hl : l < t.cut.lanes) : call t f a b acc l = f.spec (a l) (b l) (acc l) := by
  simp only [call, h]
  rw [builtin_lane _ _ _ _ _ _ hl, lane_spec t f i h]

theorem call_portable (t : Target) (f : Fn) (h : native t f = none) (a b acc : V 32) (l : Nat) :
    call t f a b acc l = portable f (a l) (b l) (acc l) := by
  simp only [call, h]

/-- The functions whose portable code is right. -/
def Fn.good : Fn → Bool
  | .dot4add_u8u8packed | .dot4add_i8i8packed_sat | .dot2add_i16i16packed_sat | .dot2add_u16i16packed_sat => false
  | _ => true

/-- Eight of the twelve functions return, on every target and for all operands, the accumulator plus the dot product. -/
theorem spec_exact (t : Target) (f : Fn) (hf : f.good) (a b acc : V 32) (l : Nat) (hl : l < t.cut.lanes) :
    call t f a b acc l = f.spec (a l) (b l) (acc l) := by
  cases hn : native t f with
  | some i => exact native_exact t f i hn a b acc l hl
  | none =>
    rw [call_portable t f hn]
    cases f with
    | dot4add_u8i8packed => exact u8i8_ok _ _ _
    | dot4add_u8i8packed_sat => exact u8i8_sat_ok _ _ _
    | dot4add_u8u8packed_sat => exact u8u8_sat_ok _ _ _
    | dot4add_i8i8packed => exact i8i8_ok _ _ _
    | dot2add_i16i16packed => exact i16i16_ok _ _ _
    | dot2add_u16u16packed => exact u16u16_ok _ _ _
    | dot2add_u16u16packed_sat => exact u16u16_sat_ok _ _ _
    | dot2add_u16i16packed => exact u16i16_ok _ _ _
    | dot4add_u8u8packed | dot4add_i8i8packed_sat | dot2add_i16i16packed_sat | dot2add_u16i16packed_sat => cases hf

/-- Those functions give the same result on every target. -/
theorem targets_agree (t t' : Target) (f : Fn) (hf : f.good) (a b acc : V 32) (l : Nat) (hl : l < t.cut.lanes)
    (hl' : l < t'.cut.lanes) : call t f a b acc l = call t' f a b acc l := by
  rw [spec_exact t f hf a b acc l hl, spec_exact t' f hf a b acc l hl']

/-- `dot4add_u8u8packed` without an instruction for it is right exactly when no product is above 32767. -/
theorem u8u8_iff (t : Target) (hn : native t .dot4add_u8u8packed = none) (a b acc : V 32) (l : Nat) :
    call t .dot4add_u8u8packed a b acc l = Fn.spec .dot4add_u8u8packed (a l) (b l) (acc l) ↔
      ∀ k < 4, elt false 8 (a l) k * elt false 8 (b l) k ≤ 32767 := by
  rw [call_portable t _ hn]
  exact u8u8_portable_iff _ _ _

/-- What `dot4add_i8i8packed_sat` without an instruction for it returns: the dot product is that of the bytes read as
unsigned integers, each product reduced to an `int16`. -/
theorem i8i8_sat_is_portable (t : Target) (hn : native t .dot4add_i8i8packed_sat = none) (a b acc : V 32) (l : Nat) :
    call t .dot4add_i8i8packed_sat a b acc l =
      BitVec.ofInt 32 (max (-2 ^ 31) (min (2 ^ 31 - 1) ((acc l).toInt +
        ((List.range 4).map fun k => (elt false 8 (a l) k * elt false 8 (b l) k).bmod (2 ^ 16)).sum))) := by
  rw [call_portable t _ hn]
  exact i8i8_sat_is _ _ _

/-- `dot4add_i8i8packed_sat` without an instruction for it is right when no negative byte is multiplied by one other
than zero. -/
theorem i8i8_sat_partial (t : Target) (hn : native t .dot4add_i8i8packed_sat = none) (a b acc : V 32) (l : Nat)
    (h : ∀ k < 4, (0 ≤ elt true 8 (a l) k ∧ 0 ≤ elt true 8 (b l) k) ∨ elt true 8 (a l) k = 0 ∨ elt true 8 (b l) k = 0) :
    call t .dot4add_i8i8packed_sat a b acc l = Fn.spec .dot4add_i8i8packed_sat (a l) (b l) (acc l) := by
  rw [call_portable t _ hn]
  exact i8i8_sat_portable_partial _ _ _ h

/-- `dot2add_i16i16packed_sat` without an instruction for it is right except when all four integers are −32768 and the
accumulator is negative. -/
theorem i16i16_sat_iff (t : Target) (hn : native t .dot2add_i16i16packed_sat = none) (a b acc : V 32) (l : Nat) :
    call t .dot2add_i16i16packed_sat a b acc l = Fn.spec .dot2add_i16i16packed_sat (a l) (b l) (acc l) ↔
      ¬ (a l = 0x80008000#32 ∧ b l = 0x80008000#32 ∧ (acc l).toInt < 0) := by
  rw [call_portable t _ hn]
  exact i16i16_sat_portable_iff _ _ _

/-- `dot2add_u16i16packed_sat` without an instruction for it is right except when the accumulator plus the product of the
high halves is out of range and the product of the low halves has the other sign. -/
theorem u16i16_sat_iff (t : Target) (hn : native t .dot2add_u16i16packed_sat = none) (a b acc : V 32) (l : Nat) :
    call t .dot2add_u16i16packed_sat a b acc l = Fn.spec .dot2add_u16i16packed_sat (a l) (b l) (acc l) ↔
      ¬ ((2 ^ 31 - 1 < (acc l).toInt + elt false 16 (a l) 1 * elt true 16 (b l) 1 ∧
            elt false 16 (a l) 0 * elt true 16 (b l) 0 < 0) ∨
         ((acc l).toInt + elt false 16 (a l) 1 * elt true 16 (b l) 1 < -2 ^ 31 ∧
            0 < elt false 16 (a l) 0 * elt true 16 (b l) 0)) := by
  rw [call_portable t _ hn]
  exact u16i16_sat_portable_iff _ _ _

/-! ## Cases -/

/-- A target without any of the instructions, such as `sse4-i32x4`. -/
def plain : Target := ⟨false, false, false, false, .whole⟩
/-- `avx512icl-x32`. -/
def icl32 : Target := ⟨true, false, false, false, .v32x16⟩
/-- `avx10.2` with 64 lanes. -/
def avx10 : Target := ⟨true, true, false, false, .v64x16⟩
/-- `neon-i8x32` with both extensions. -/
def neon32 : Target := ⟨false, false, true, true, .v32x4⟩

/-- The four functions that differ between targets: on `plain` they are wrong and on `avx10` right. -/
theorem targets_disagree :
    ∀ f : Fn, f.good = false → ∃ a b acc : V 32,
      call plain f a b acc 0 ≠ f.spec (a 0) (b 0) (acc 0) ∧ call plain f a b acc 0 ≠ call avx10 f a b acc 0 := by
  intro f hf
  have key : ∀ a b acc : W32, portable f a b acc ≠ f.spec a b acc →
      ∃ a b acc : V 32, call plain f a b acc 0 ≠ f.spec (a 0) (b 0) (acc 0) ∧
        call plain f a b acc 0 ≠ call avx10 f a b acc 0 := by
    intro a b acc h
    refine ⟨fun _ => a, fun _ => b, fun _ => acc, ?_, ?_⟩
    · rw [call_portable plain f (by cases f <;> rfl)]; exact h
    · rw [call_portable plain f (by cases f <;> rfl)]
      have : ∃ i, native avx10 f = some i := by cases f <;> exact ⟨_, rfl⟩
      obtain ⟨i, hi⟩ := this
      rw [native_exact avx10 f i hi _ _ _ 0 (by decide)]
      exact h
  cases f with
  | dot4add_u8u8packed => exact key 0xFF#32 0xFF#32 0#32 (by decide +kernel)
  | dot4add_i8i8packed_sat => exact key 0xFF#32 0x01#32 0#32 (by decide +kernel)
  | dot2add_i16i16packed_sat => exact key 0x80008000#32 0x80008000#32 0xFFFFFFFF#32 (by decide +kernel)
  | dot2add_u16i16packed_sat => exact key 0xFFFF0001#32 0x7FFFFFFF#32 0x7FFFFFFF#32 (by decide +kernel)
  | dot4add_u8i8packed | dot4add_u8i8packed_sat | dot4add_u8u8packed_sat | dot4add_i8i8packed | dot2add_i16i16packed
  | dot2add_u16u16packed | dot2add_u16u16packed_sat | dot2add_u16i16packed => cases hf

/-- `255·255` on a target without the instruction is returned as `−511`. -/
example : call plain .dot4add_u8u8packed (fun _ => 0xFF#32) (fun _ => 0xFF#32) (fun _ => 0#32) 0 = BitVec.ofInt 32 (-511) := by
  decide +kernel

/-- `−1·1` on a target without the instruction is returned as 255. -/
example : call plain .dot4add_i8i8packed_sat (fun _ => 0xFF#32) (fun _ => 1#32) (fun _ => 0#32) 0 = 255#32 := by
  decide +kernel

/-- Lane 17 of a vector cut into two registers: `255·(−128) + 2·3 + 1·(−1) + 0·0 + 100`. -/
example : call icl32 .dot4add_u8i8packed (fun l => if l = 17 then 0x000102FF#32 else 0) (fun _ => 0x00FF0380#32)
    (fun l => BitVec.ofNat 32 (83 + l)) 17 = BitVec.ofInt 32 (255 * -128 + 2 * 3 + 1 * -1 + 100) := by decide +kernel

/-- The same on a target without the instruction, and on one cut into eight registers. -/
example : call plain .dot4add_u8i8packed (fun _ => 0x000102FF#32) (fun _ => 0x00FF0380#32) (fun _ => 100#32) 3 =
      BitVec.ofInt 32 (255 * -128 + 2 * 3 + 1 * -1 + 100) ∧
    call neon32 .dot4add_u8i8packed (fun l => if l = 29 then 0x000102FF#32 else 0) (fun _ => 0x00FF0380#32)
      (fun _ => 100#32) 29 = BitVec.ofInt 32 (255 * -128 + 2 * 3 + 1 * -1 + 100) := by decide +kernel

/-- Saturation at the top. -/
example : call plain .dot4add_u8u8packed_sat (fun _ => 0xFFFFFFFF#32) (fun _ => 0xFFFFFFFF#32) (fun _ => 0xFFFFFF00#32) 0
    = 0xFFFFFFFF#32 := by decide +kernel

/-- The hypotheses of `i8i8_sat_partial` hold of bytes that are not negative. -/
example : ∀ k < 4, (0 ≤ elt true 8 0x01027F03#32 k ∧ 0 ≤ elt true 8 0x7F000102#32 k) ∨ elt true 8 0x01027F03#32 k = 0 ∨
    elt true 8 0x7F000102#32 k = 0 := by decide +kernel

end Ispc.Dot
