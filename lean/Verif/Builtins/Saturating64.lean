import Verif.Builtins.Saturating
import Mathlib.Algebra.Order.Ring.Abs

/-!
# 64-bit saturating products (`stdlib/stdlib.ispc:7604-7737`)
-/

namespace Ispc.Sat

/-! ### 64-bit products -/

theorem lo32 (a : BitVec 64) : ((a &&& 0xFFFFFFFF#64).setWidth 32).toNat = a.toNat % 2 ^ 32 := by
  rw [BitVec.toNat_setWidth, BitVec.toNat_and]
  have : (0xFFFFFFFF#64).toNat = 2 ^ 32 - 1 := by decide
  rw [this, Nat.and_two_pow_sub_one_eq_mod, Nat.mod_mod]

theorem hi32 (a : BitVec 64) : ((a >>> 32).setWidth 32).toNat = a.toNat / 2 ^ 32 := by
  have := a.isLt
  rw [BitVec.toNat_setWidth, BitVec.toNat_ushiftRight, Nat.shiftRight_eq_div_pow]
  exact Nat.mod_eq_of_lt (by omega)

theorem hi32_ne (a : BitVec 64) : (a >>> 32).setWidth 32 ≠ 0#32 ↔ a.toNat / 2 ^ 32 ≠ 0 := by
  rw [ne_eq, ← BitVec.toNat_inj, hi32]; simp

theorem cross_arith {c d u r : Nat} (hmul : (u : Int) = max 0 (min (2 ^ (31 + 1) - 1) (c : Int)))
    (hr : (r : Int) = max 0 (min (2 ^ (63 + 1) - 1) (((u * 2 ^ 32 : Nat) : Int) + (d : Nat)))) :
    (c * 2 ^ 32 + d < 2 ^ 64 → r = c * 2 ^ 32 + d) ∧ (2 ^ 64 ≤ c * 2 ^ 32 + d → 2 ^ 64 - 2 ^ 32 ≤ r) := by
  have e1 : (2 : Int) ^ (31 + 1) = 4294967296 := by norm_num
  have e2 : (2 : Int) ^ (63 + 1) = 18446744073709551616 := by norm_num
  have e3 : (2 : Nat) ^ 32 = 4294967296 := by norm_num
  have e4 : (2 : Nat) ^ 64 = 18446744073709551616 := by norm_num
  rw [e1] at hmul
  rw [e2, e3] at hr
  rw [e3, e4]
  clear e1 e2 e3 e4
  constructor
  · intro h; omega
  · intro h; omega

/-- The one-sided product: exact when it fits, otherwise at least `2^64 - 2^32`. -/
theorem cross_spec (x y z : BitVec 32) :
    let m := (mulU (n := 31) y x).setWidth 64 <<< 32
    let r := addU (n := 63) m (z.setWidth 64 * y.setWidth 64)
    let exact := (x.toNat * 2 ^ 32 + z.toNat) * y.toNat
    (exact < 2 ^ 64 → r.toNat = exact) ∧ (2 ^ 64 ≤ exact → 2 ^ 64 - 2 ^ 32 ≤ r.toNat) := by
  intro m r exact
  have hx := x.isLt
  have hy := y.isLt
  have hz := z.isLt
  have hmul := mulU_clamps (n := 31) y x
  unfold clampU at hmul
  have hlow : (z.setWidth 64 * y.setWidth 64).toNat = z.toNat * y.toNat := by
    have h1 : z.toNat * y.toNat < 2 ^ 32 * 2 ^ 32 := Nat.mul_lt_mul'' hz hy
    rw [BitVec.toNat_mul, BitVec.toNat_setWidth, BitVec.toNat_setWidth, Nat.mod_eq_of_lt (a := z.toNat) (by omega),
      Nat.mod_eq_of_lt (a := y.toNat) (by omega)]
    exact Nat.mod_eq_of_lt (by omega)
  have hu := (mulU (n := 31) y x).isLt
  have hm : m.toNat = (mulU (n := 31) y x).toNat * 2 ^ 32 := by
    simp only [m]
    rw [BitVec.toNat_shiftLeft, BitVec.toNat_setWidth, Nat.shiftLeft_eq,
      Nat.mod_eq_of_lt (a := (mulU (n := 31) y x).toNat) (by omega)]
    exact Nat.mod_eq_of_lt (by omega)
  have hr := addU_clamps (n := 63) m (z.setWidth 64 * y.setWidth 64)
  rw [hlow, hm] at hr
  unfold clampU at hr
  have hexact : exact = (y.toNat * x.toNat) * 2 ^ 32 + z.toNat * y.toNat := by simp only [exact]; ring
  have hc : ((y.toNat * x.toNat : Nat) : Int) = (y.toNat : Int) * x.toNat := by push_cast; ring
  rw [hexact]
  rw [← hc] at hmul
  change ((r.toNat : Nat) : Int) = _ at hr
  generalize y.toNat * x.toNat = c at *
  generalize z.toNat * y.toNat = d at *
  generalize (mulU (n := 31) y x).toNat = u at *
  exact cross_arith hmul hr

theorem mulPart_spec (a b : BitVec 64) (h : ¬ (a.toNat / 2 ^ 32 ≠ 0 ∧ b.toNat / 2 ^ 32 ≠ 0)) :
    (a.toNat * b.toNat < 2 ^ 64 → (mulPart a b).toNat = a.toNat * b.toNat) ∧
    (2 ^ 64 ≤ a.toNat * b.toNat → 2 ^ 64 - 2 ^ 32 ≤ (mulPart a b).toNat) := by
  have da : a.toNat / 2 ^ 32 * 2 ^ 32 + a.toNat % 2 ^ 32 = a.toNat := Nat.div_add_mod' _ _
  have db : b.toNat / 2 ^ 32 * 2 ^ 32 + b.toNat % 2 ^ 32 = b.toNat := Nat.div_add_mod' _ _
  unfold mulPart
  simp only []
  by_cases ha : a.toNat / 2 ^ 32 ≠ 0
  · have hb : b.toNat / 2 ^ 32 = 0 := by by_contra hb; exact h ⟨ha, hb⟩
    have hb' : b.toNat % 2 ^ 32 = b.toNat := by omega
    rw [if_pos ((hi32_ne a).2 ha)]
    have := cross_spec ((a >>> 32).setWidth 32) ((b &&& 0xFFFFFFFF#64).setWidth 32) ((a &&& 0xFFFFFFFF#64).setWidth 32)
    simp only [lo32, hi32, da, hb'] at this
    exact this
  · have ha0 : a.toNat / 2 ^ 32 = 0 := not_not.1 ha
    have ha' : a.toNat % 2 ^ 32 = a.toNat := by omega
    rw [if_neg (by rw [hi32_ne]; exact ha)]
    by_cases hb : b.toNat / 2 ^ 32 ≠ 0
    · rw [if_pos ((hi32_ne b).2 hb)]
      have := cross_spec ((b >>> 32).setWidth 32) ((a &&& 0xFFFFFFFF#64).setWidth 32) ((b &&& 0xFFFFFFFF#64).setWidth 32)
      simp only [lo32, hi32, db, ha'] at this
      rw [Nat.mul_comm a.toNat b.toNat]
      rw [BitVec.mul_comm (BitVec.setWidth 64 (BitVec.setWidth 32 (a &&& 0xFFFFFFFF#64)))]
      exact this
    · rw [if_neg (by rw [hi32_ne]; exact hb)]
      have hb0 : b.toNat / 2 ^ 32 = 0 := not_not.1 hb
      have hlt : a.toNat * b.toNat < 2 ^ 32 * 2 ^ 32 := Nat.mul_lt_mul'' (by omega) (by omega)
      refine ⟨fun _ => ?_, fun h => by omega⟩
      rw [BitVec.toNat_mul, Nat.mod_eq_of_lt (by omega)]

/-- C20, 64-bit unsigned multiplication.  Full statement: the result is `clampU 63 (a*b)`.  Proved: exact whenever the
product fits, the maximum when both operands are at least `2^32`.  Missing (and false, see
`mulU64_does_not_saturate`): the maximum in the remaining overflow cases; there only `≥ 2^64 - 2^32` holds. -/
theorem mulU64_clamps_partial (a b : BitVec 64) :
    (a.toNat * b.toNat < 2 ^ 64 → (mulU64 a b).toNat = a.toNat * b.toNat) ∧
    (2 ^ 64 ≤ a.toNat * b.toNat → 2 ^ 64 - 2 ^ 32 ≤ (mulU64 a b).toNat) ∧
    (2 ^ 32 ≤ a.toNat → 2 ^ 32 ≤ b.toNat → (mulU64 a b).toNat = 2 ^ 64 - 1) := by
  unfold mulU64
  simp only [hi32_ne]
  by_cases h : a.toNat / 2 ^ 32 ≠ 0 ∧ b.toNat / 2 ^ 32 ≠ 0
  · rw [if_pos h]
    have h1 : 2 ^ 32 * 2 ^ 32 ≤ a.toNat * b.toNat := Nat.mul_le_mul (by omega) (by omega)
    refine ⟨fun h => by omega, fun _ => by decide, fun _ _ => by decide⟩
  · rw [if_neg h]
    obtain ⟨p1, p2⟩ := mulPart_spec a b h
    exact ⟨p1, p2, fun h1 h2 => absurd ⟨by omega, by omega⟩ h⟩

/-- Finding: `saturating_mul(2^33, 2^31)` on `uint64` overflows but does not return `UINT64_MAX`. -/
theorem mulU64_does_not_saturate :
    ∃ a b : BitVec 64, 2 ^ 64 ≤ a.toNat * b.toNat ∧ (mulU64 a b).toNat ≠ 2 ^ 64 - 1 :=
  ⟨0x200000000#64, 0x80000000#64, by decide, by decide +kernel⟩

theorem abs64_toNat (a : BitVec 64) : ((abs64 a).toNat : Int) = |a.toInt| := by
  have hr := toInt_range (n := 63) a
  have hc := BitVec.toInt_eq_toNat_cond a
  unfold abs64
  by_cases h : a = BitVec.intMin 64
  · subst h; decide
  · rw [if_neg h]
    have hne : a.toInt ≠ -2 ^ 63 := by
      intro he
      apply h
      apply BitVec.eq_of_toInt_eq
      rw [he]; decide
    rw [BitVec.slt_eq_decide]
    have h0 : (0#64).toInt = 0 := by decide
    rw [h0]
    by_cases hp : 0 < a.toInt
    · rw [if_pos (by simpa using hp), abs_of_pos hp]
      have := a.isLt
      split at hc <;> omega
    · rw [if_neg (by simpa using hp), abs_of_nonpos (by omega), BitVec.toNat_neg]
      have := a.isLt
      split at hc <;> omega

/-- C20: 64-bit signed saturating multiplication. -/
theorem mulS64_clamps (a b : BitVec 64) : (mulS64 a b).toInt = clampS 63 (a.toInt * b.toInt) := by
  have ra := toInt_range (n := 63) a
  have rb := toInt_range (n := 63) b
  have aa := abs64_toNat a
  have ab := abs64_toNat b
  have hmin : (BitVec.intMin 64).toInt = -2 ^ 63 := by decide
  have hmax : (BitVec.intMax 64).toInt = 2 ^ 63 - 1 := by decide
  have habs : (((abs64 a).toNat * (abs64 b).toNat : Nat) : Int) = |a.toInt * b.toInt| := by
    rw [abs_mul, Nat.cast_mul, aa, ab]
  have h0 : (0#64).toInt = 0 := by decide
  have hpos : ((BitVec.slt 0#64 a && BitVec.slt 0#64 b) || (BitVec.slt a 0#64 && BitVec.slt b 0#64)) =
      decide (0 < a.toInt * b.toInt) := by
    simp only [BitVec.slt_eq_decide, h0]
    rw [Bool.eq_iff_iff]
    simp only [Bool.or_eq_true, Bool.and_eq_true, decide_eq_true_eq]
    constructor
    · rintro (⟨h1, h2⟩ | ⟨h1, h2⟩)
      · exact Int.mul_pos h1 h2
      · exact Int.mul_pos_of_neg_of_neg h1 h2
    · intro h
      rcases lt_trichotomy a.toInt 0 with h1 | h1 | h1
      · right; refine ⟨h1, ?_⟩; by_contra hn
        have := Int.mul_nonpos_of_nonpos_of_nonneg (show a.toInt ≤ 0 by omega) (show 0 ≤ b.toInt by omega)
        omega
      · rw [h1] at h; simp at h
      · left; refine ⟨h1, ?_⟩; by_contra hn
        have := Int.mul_nonpos_of_nonneg_of_nonpos (show 0 ≤ a.toInt by omega) (show b.toInt ≤ 0 by omega)
        omega
  unfold mulS64 clampS
  simp only [hpos, hi32_ne]
  generalize hprod : a.toInt * b.toInt = r at *
  by_cases h : (abs64 a).toNat / 2 ^ 32 ≠ 0 ∧ (abs64 b).toNat / 2 ^ 32 ≠ 0
  · rw [if_pos h]
    have h1 : 2 ^ 32 * 2 ^ 32 ≤ (abs64 a).toNat * (abs64 b).toNat := Nat.mul_le_mul (by omega) (by omega)
    generalize (abs64 a).toNat * (abs64 b).toNat = u at *
    by_cases hs : 0 < r
    · rw [decide_eq_true hs, if_pos rfl, hmax]
      rw [abs_of_pos hs] at habs
      omega
    · rw [decide_eq_false hs]
      simp only [Bool.false_eq_true, if_false, hmin]
      rw [abs_of_nonpos (by omega)] at habs
      omega
  · rw [if_neg h]
    obtain ⟨p1, p2⟩ := mulPart_spec (abs64 a) (abs64 b) h
    generalize (abs64 a).toNat * (abs64 b).toNat = u at *
    have hlt := (mulPart (abs64 a) (abs64 b)).isLt
    generalize hx : mulPart (abs64 a) (abs64 b) = x at *
    have hminN : (BitVec.intMin 64).toNat = 2 ^ 63 := by decide
    have hmaxN : (BitVec.intMax 64).toNat = 2 ^ 63 - 1 := by decide
    simp only [BitVec.le_def, hminN, hmaxN]
    have hc := BitVec.toInt_eq_toNat_cond x
    by_cases hs : 0 < r
    · rw [abs_of_pos hs] at habs
      simp only [decide_eq_true hs, true_and, Bool.true_eq_false, false_and, if_false, if_true, BitVec.mul_one]
      by_cases hb : 2 ^ 63 - 1 ≤ x.toNat
      · rw [if_pos hb, hmax]
        rcases Nat.lt_or_ge u (2 ^ 64) with hu | hu
        · have := p1 hu; omega
        · omega
      · rw [if_neg hb]
        rcases Nat.lt_or_ge u (2 ^ 64) with hu | hu
        · have := p1 hu; split at hc <;> omega
        · have := p2 hu; omega
    · rw [abs_of_nonpos (by omega)] at habs
      simp only [decide_eq_false hs, true_and, Bool.false_eq_true, false_and, if_false]
      by_cases hb : 2 ^ 63 ≤ x.toNat
      · rw [if_pos hb, hmin]
        rcases Nat.lt_or_ge u (2 ^ 64) with hu | hu
        · have := p1 hu; omega
        · omega
      · rw [if_neg hb]
        have hm1 : x * -1#64 = -x := by rw [BitVec.mul_neg, BitVec.mul_one]
        rw [hm1, BitVec.toInt_neg]
        rcases Nat.lt_or_ge u (2 ^ 64) with hu | hu
        · have := p1 hu
          rw [bmod_id (n := 63)]
          · split at hc <;> omega
          · split at hc <;> omega
          · split at hc <;> omega
        · have := p2 hu; omega

/-! ## Non-vacuity: concrete values on both sides of every case -/

example : mulU64 0x100000000#64 0xFFFFFFFF#64 = 0xFFFFFFFF00000000#64 := by decide +kernel
example : mulU64 0x100000000#64 0x100000000#64 = 0xFFFFFFFFFFFFFFFF#64 := by decide +kernel
example : (mulS64 (BitVec.ofInt 64 (-3)) 5#64).toInt = -15 := by decide +kernel
example : mulS64 (BitVec.intMin 64) (BitVec.intMin 64) = BitVec.intMax 64 := by decide +kernel
example : mulS64 0x200000000#64 0x80000000#64 = BitVec.intMax 64 := by decide +kernel

end Ispc.Sat
