import Mathlib.Tactic.Ring
import Mathlib.Order.Monotone.Basic
import Mathlib.Tactic.IntervalCases

/-!
# The part of IEEE 754 that the half-float conversions and the random numbers need

A non-negative finite float with `p` stored mantissa bits is a natural number `x` (its bit pattern) and stands for
`mag p x` units in the last place of the smallest subnormal: `2^-149` for binary32 (`p = 23`), `2^-24` for binary16
(`p = 10`).
-/

namespace Ispc.Ieee

/-- IEEE 754: exponent field 0 is subnormal, exponent field `e > 0` is `(2^p + mantissa) * 2^(e-1)` units. -/
def mag (p x : Nat) : Nat := if x / 2 ^ p = 0 then x % 2 ^ p else (2 ^ p + x % 2 ^ p) * 2 ^ (x / 2 ^ p - 1)

/-- The pattern of infinity in binary32; larger patterns (below `2^31`) are NaNs. -/
def inf32 : Nat := 255 * 2 ^ 23
/-- The pattern of infinity in binary16. -/
def inf16 : Nat := 31 * 2 ^ 10

/-- Distance of natural numbers. -/
def dist (a b : Nat) : Nat := (a - b) + (b - a)

/-- A binary32 subtraction that is right on non-negative floats when the exact difference is a non-negative float: it then
returns that float.  Every IEEE 754 rounding mode but round-towards-negative (for `x - x`) does. -/
def SubExact (sub : BitVec 32 → BitVec 32 → BitVec 32) : Prop :=
  ∀ a b r : BitVec 32, a.toNat < inf32 → b.toNat < inf32 → r.toNat < inf32 →
    mag 23 a.toNat = mag 23 b.toNat + mag 23 r.toNat → sub a b = r

/-- A binary32 multiplication that, on non-negative floats whose product is at most `2^127`, rounds to a nearest float
(whichever on ties).  The default IEEE 754 mode without flush-to-zero does. -/
def MulNearest (mul : BitVec 32 → BitVec 32 → BitVec 32) : Prop :=
  ∀ a b : BitVec 32, a.toNat < inf32 → b.toNat < inf32 → mag 23 a.toNat * mag 23 b.toNat ≤ 2 ^ (127 + 149 + 149) →
    (mul a b).toNat < inf32 ∧ ∀ q < inf32,
      dist (2 ^ 149 * mag 23 (mul a b).toNat) (mag 23 a.toNat * mag 23 b.toNat) ≤
        dist (2 ^ 149 * mag 23 q) (mag 23 a.toNat * mag 23 b.toNat)

theorem mag_eq (p e m : Nat) (hm : m < 2 ^ p) :
    mag p (e * 2 ^ p + m) = if e = 0 then m else (2 ^ p + m) * 2 ^ (e - 1) := by
  have hp : 0 < 2 ^ p := Nat.two_pow_pos p
  have h1 : (e * 2 ^ p + m) / 2 ^ p = e := by
    rw [Nat.add_comm, Nat.add_mul_div_right _ _ hp, Nat.div_eq_of_lt hm, Nat.zero_add]
  have h2 : (e * 2 ^ p + m) % 2 ^ p = m := by
    rw [Nat.add_comm, Nat.add_mul_mod_self_right, Nat.mod_eq_of_lt hm]
  unfold mag
  rw [h1, h2]

/-- The binades join up: the formula also holds at the upper end. -/
theorem mag_eq_le (p e m : Nat) (hm : m ≤ 2 ^ p) :
    mag p (e * 2 ^ p + m) = if e = 0 then m else (2 ^ p + m) * 2 ^ (e - 1) := by
  rcases Nat.lt_or_eq_of_le hm with h | rfl
  · exact mag_eq p e m h
  · have := mag_eq p (e + 1) 0 (Nat.two_pow_pos p)
    rw [show (e + 1) * 2 ^ p + 0 = e * 2 ^ p + 2 ^ p by ring] at this
    rw [this, if_neg (by omega), Nat.add_zero, Nat.add_sub_cancel]
    by_cases he : e = 0
    · subst he; simp
    · rw [if_neg he]
      obtain ⟨k, rfl⟩ : ∃ k, e = k + 1 := ⟨e - 1, by omega⟩
      rw [Nat.add_sub_cancel, pow_succ 2 k]; ring

theorem split (p x : Nat) : ∃ e m, x = e * 2 ^ p + m ∧ m < 2 ^ p :=
  ⟨x / 2 ^ p, x % 2 ^ p, by rw [Nat.mul_comm]; exact (Nat.div_add_mod x (2 ^ p)).symm, Nat.mod_lt _ (Nat.two_pow_pos p)⟩

theorem mag_strictMono (p : Nat) : StrictMono (mag p) := by
  apply strictMono_nat_of_lt_succ
  intro x
  obtain ⟨e, m, rfl, hm⟩ := split p x
  rw [Nat.add_assoc, mag_eq_le p e m (by omega), mag_eq_le p e (m + 1) (by omega)]
  by_cases he : e = 0
  · rw [if_pos he, if_pos he]; omega
  · rw [if_neg he, if_neg he]
    exact (Nat.mul_lt_mul_right (Nat.two_pow_pos _)).2 (by omega)

theorem mag_inj {p x y : Nat} (h : mag p x = mag p y) : x = y := (mag_strictMono p).injective h

theorem mag_lt_iff {p x y : Nat} : mag p x < mag p y ↔ x < y := (mag_strictMono p).lt_iff_lt
theorem mag_le_iff {p x y : Nat} : mag p x ≤ mag p y ↔ x ≤ y := (mag_strictMono p).le_iff_le

/-- Appending `k` zero bits to the mantissa. -/
theorem mag_shift (p k x : Nat) : mag (p + k) (x * 2 ^ k) = 2 ^ k * mag p x := by
  obtain ⟨e, m, rfl, hm⟩ := split p x
  have hk : 0 < 2 ^ k := Nat.two_pow_pos k
  have hm' : m * 2 ^ k < 2 ^ (p + k) := by rw [pow_add]; exact (Nat.mul_lt_mul_right hk).2 hm
  rw [show (e * 2 ^ p + m) * 2 ^ k = e * 2 ^ (p + k) + m * 2 ^ k by rw [pow_add]; ring, mag_eq _ _ _ hm', mag_eq _ _ _ hm]
  by_cases he : e = 0
  · rw [if_pos he, if_pos he, Nat.mul_comm]
  · rw [if_neg he, if_neg he, pow_add]; ring

/-- The pattern half way between two neighbours of the coarser format is half way in value. -/
theorem mag_mid (p k x : Nat) :
    2 * mag (p + (k + 1)) (x * 2 ^ (k + 1) + 2 ^ k) =
      2 ^ (k + 1) * mag p x + 2 ^ (k + 1) * mag p (x + 1) := by
  obtain ⟨e, m, rfl, hm⟩ := split p x
  have hk : 0 < 2 ^ k := Nat.two_pow_pos k
  have hs : 2 ^ (k + 1) = 2 * 2 ^ k := by rw [pow_succ]; ring
  have hm' : m * 2 ^ (k + 1) + 2 ^ k < 2 ^ (p + (k + 1)) := by
    rw [pow_add 2 p (k + 1), hs]
    have : (m + 1) * (2 * 2 ^ k) ≤ 2 ^ p * (2 * 2 ^ k) := Nat.mul_le_mul_right _ hm
    have e : (m + 1) * (2 * 2 ^ k) = m * (2 * 2 ^ k) + 2 * 2 ^ k := by ring
    omega
  rw [show (e * 2 ^ p + m) * 2 ^ (k + 1) + 2 ^ k = e * 2 ^ (p + (k + 1)) + (m * 2 ^ (k + 1) + 2 ^ k) by
    rw [pow_add 2 p (k + 1)]; ring, mag_eq _ _ _ hm', mag_eq _ _ _ hm, Nat.add_assoc, mag_eq_le p e (m + 1) hm]
  by_cases he : e = 0
  · rw [if_pos he, if_pos he, if_pos he, hs]; ring
  · rw [if_neg he, if_neg he, if_neg he, pow_add 2 p (k + 1), hs]; ring

/-- Rounding to a nearest value, ties upwards, from the two midpoint inequalities. -/
theorem nearest_of_mid (c : Nat → Nat) (hc : StrictMono c) (top : Nat) (A h : Nat)
    (hlo : 0 < h → c (h - 1) + c h ≤ 2 * A) (hhi : h < top → 2 * A < c h + c (h + 1)) :
    ∀ k ≤ top, dist A (c h) ≤ dist A (c k) ∧ (dist A (c h) = dist A (c k) → k ≤ h) := by
  intro k hk
  unfold dist
  rcases Nat.lt_trichotomy k h with hlt | rfl | hgt
  · have h1 := hlo (by omega)
    have h2 : c k ≤ c (h - 1) := hc.monotone (by omega)
    have h3 : c (h - 1) < c h := hc (by omega)
    constructor
    · omega
    · intro _; omega
  · exact ⟨Nat.le_refl _, fun _ => Nat.le_refl _⟩
  · have h1 := hhi (by omega)
    have h2 : c (h + 1) ≤ c k := hc.monotone (by omega)
    have h3 : c h < c (h + 1) := hc (by omega)
    constructor
    · omega
    · intro h; omega

end Ispc.Ieee
