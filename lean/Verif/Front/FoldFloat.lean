import Mathlib.Data.Int.Log
import Mathlib.Data.Rat.Floor
import Mathlib.Algebra.Order.Field.Rat
import Mathlib.Tactic.Ring
import Mathlib.Tactic.NormNum
import Mathlib.Tactic.Linarith
import Mathlib.Tactic.Positivity
import Mathlib.Tactic.FieldSimp

/-!
# Rounding of rationals to the floating-point formats

`llvm::APFloat::convert` with `rmNearestTiesToEven`, and the conversion
instructions of LLVM (`sitofp`, `uitofp`, `fptrunc`, `fpext`), round to the
nearest representable number, ties to even.  Values are rationals with a sign,
infinities and one NaN.
-/

namespace Ispc.Fold

/-- The floating-point formats, `AtomicType::TYPE_FLOAT16`, `TYPE_FLOAT` and
`TYPE_DOUBLE`, src/type.h:374-393. -/
inductive Fmt
  | f16 | f32 | f64
  deriving DecidableEq, Repr

/-- Bits of precision. -/
def Fmt.prec : Fmt → Nat
  | .f16 => 11 | .f32 => 24 | .f64 => 53

/-- The exponent of the smallest positive number. -/
def Fmt.emin : Fmt → Int
  | .f16 => -24 | .f32 => -149 | .f64 => -1074

/-- Numbers of magnitude `2 ^ emax` or more overflow. -/
def Fmt.emax : Fmt → Nat
  | .f16 => 16 | .f32 => 128 | .f64 => 1024

/-- A floating-point value: finite with a sign and a magnitude. -/
inductive FV
  | nan
  | inf (neg : Bool)
  | fin (neg : Bool) (mag : ℚ)
  deriving DecidableEq, Repr

/-- To the nearest integer, ties to even. -/
def rne (x : ℚ) : Int :=
  if x - ⌊x⌋ < 1 / 2 then ⌊x⌋
  else if 1 / 2 < x - ⌊x⌋ then ⌊x⌋ + 1
  else if ⌊x⌋ % 2 = 0 then ⌊x⌋ else ⌊x⌋ + 1

/-- The exponent of the spacing of the format around `q`. -/
def quantum (f : Fmt) (q : ℚ) : Int := max (Int.log 2 q - (f.prec - 1)) f.emin

/-- A magnitude rounded to the format, without overflow. -/
def roundMag (f : Fmt) (q : ℚ) : ℚ := rne (q / 2 ^ quantum f q) * 2 ^ quantum f q

/-- The numbers of the format. -/
def Rep (f : Fmt) : FV → Prop
  | .fin _ q => ∃ (m : Nat) (e : Int), q = m * 2 ^ e ∧ m < 2 ^ f.prec ∧ f.emin ≤ e ∧ q < 2 ^ f.emax
  | _ => True

/-- Rounding to nearest, ties to even, as `lCreateAPFloat` does,
src/expr.cpp:107-113. -/
def round (f : Fmt) (neg : Bool) (q : ℚ) : FV :=
  if 2 ^ f.emax ≤ roundMag f q then .inf neg else .fin neg (roundMag f q)

theorem rne_int (n : Int) : rne (n : ℚ) = n := by simp [rne]

/-- `rne` is the nearest integer, and the even one of two. -/
theorem rne_nearest (x : ℚ) :
    |x - rne x| ≤ 1 / 2 ∧ (|x - rne x| = 1 / 2 → rne x % 2 = 0) := by
  have h1 := Int.floor_le x
  have h2 := Int.lt_floor_add_one x
  unfold rne
  split_ifs with ha hb hc
  · rw [abs_of_nonneg (by linarith)]
    exact ⟨by linarith, fun h => by linarith⟩
  · rw [abs_of_nonpos (by push_cast; linarith)]
    push_cast
    exact ⟨by linarith, fun h => by linarith⟩
  · rw [abs_of_nonneg (by linarith)]
    exact ⟨by linarith, fun _ => hc⟩
  · rw [abs_of_nonpos (by push_cast; linarith)]
    push_cast
    exact ⟨by linarith, fun _ => by omega⟩

example : rne (5 / 2) = 2 := by decide +kernel

theorem rne_bounds (x : ℚ) : ⌊x⌋ ≤ rne x ∧ rne x ≤ ⌊x⌋ + 1 := by
  unfold rne; split_ifs <;> omega

theorem log_le {q : ℚ} (h : 0 < q) : (2 : ℚ) ^ Int.log 2 q ≤ q := by
  exact_mod_cast Int.zpow_log_le_self (b := 2) (by norm_num) h

theorem lt_log (q : ℚ) : q < (2 : ℚ) ^ (Int.log 2 q + 1) := by
  exact_mod_cast Int.lt_zpow_succ_log_self (b := 2) (by norm_num) q

theorem zpow_pos2 (k : Int) : (0 : ℚ) < 2 ^ k := zpow_pos (by norm_num) k

/-- The scaled magnitude is below `2 ^ prec`. -/
theorem scaled_lt (f : Fmt) (q : ℚ) : q / 2 ^ quantum f q < 2 ^ f.prec := by
  rw [div_lt_iff₀ (zpow_pos2 _)]
  have h1 := lt_log q
  have h2 : (2 : ℚ) ^ (Int.log 2 q + 1) ≤ 2 ^ ((f.prec : Int) + quantum f q) := by
    apply zpow_le_zpow_right₀ (by norm_num)
    have := le_max_left (Int.log 2 q - (f.prec - 1)) f.emin
    simp only [quantum]; omega
  rw [zpow_add₀ (by norm_num) (f.prec : Int), zpow_natCast] at h2
  linarith

theorem rne_nonneg {x : ℚ} (h : 0 ≤ x) : 0 ≤ rne x :=
  le_trans (Int.floor_nonneg.mpr h) (rne_bounds x).1

theorem rep_round (f : Fmt) (neg : Bool) {q : ℚ} (h : 0 ≤ q) : Rep f (round f neg q) := by
  unfold round
  split
  · trivial
  · rename_i hlt
    rw [not_le] at hlt
    have hs := scaled_lt f q
    have hx : 0 ≤ q / 2 ^ quantum f q := div_nonneg h (zpow_pos2 _).le
    have hn := rne_nonneg hx
    have hfl : ⌊q / 2 ^ quantum f q⌋ < 2 ^ f.prec := by
      rw [Int.floor_lt]; exact_mod_cast hs
    have hle : rne (q / 2 ^ quantum f q) ≤ 2 ^ f.prec := by
      have := (rne_bounds (q / 2 ^ quantum f q)).2
      omega
    have he : f.emin ≤ quantum f q := le_max_right _ _
    rcases lt_or_eq_of_le hle with hl | he2
    · refine ⟨(rne (q / 2 ^ quantum f q)).toNat, quantum f q, ?_, ?_, he, hlt⟩
      · have : (((rne (q / 2 ^ quantum f q)).toNat : Int) : ℚ) = (rne (q / 2 ^ quantum f q) : ℚ) := by
          rw [Int.toNat_of_nonneg hn]
        rw [roundMag, ← this]; push_cast; rfl
      · have : ((rne (q / 2 ^ quantum f q)).toNat : Int) < 2 ^ f.prec := by
          rw [Int.toNat_of_nonneg hn]; exact hl
        exact_mod_cast this
    · refine ⟨2 ^ (f.prec - 1), quantum f q + 1, ?_, ?_, by omega, hlt⟩
      · rw [roundMag, he2, zpow_add₀ (by norm_num), zpow_one]
        have : (2 : ℚ) ^ f.prec = 2 ^ (f.prec - 1) * 2 := by
          rw [← pow_succ]; congr 1; cases f <;> rfl
        push_cast
        rw [this]; ring
      · exact Nat.pow_lt_pow_right (by norm_num) (by cases f <;> decide)

/-- `f` is at most as wide as `g`. -/
def Fmt.le (f g : Fmt) : Prop := f.prec ≤ g.prec ∧ g.emin ≤ f.emin ∧ f.emax ≤ g.emax

instance (f g : Fmt) : Decidable (f.le g) := by unfold Fmt.le; infer_instance

theorem roundMag_zero (f : Fmt) : roundMag f 0 = 0 := by
  simp [roundMag, rne]

theorem roundMag_exact {g : Fmt} {m : Nat} {e : Int} (hm : m < 2 ^ g.prec) (he : g.emin ≤ e) :
    roundMag g ((m : ℚ) * 2 ^ e) = m * 2 ^ e := by
  rcases Nat.eq_zero_or_pos m with rfl | hpos
  · simp [roundMag_zero]
  · set q : ℚ := (m : ℚ) * 2 ^ e with hq
    have hqpos : 0 < q := by
      have : (0 : ℚ) < m := by exact_mod_cast hpos
      exact mul_pos this (zpow_pos2 _)
    have hlog : Int.log 2 q < e + g.prec := by
      have h1 := log_le hqpos
      have h2 : q < 2 ^ (e + g.prec) := by
        rw [hq, zpow_add₀ (by norm_num), zpow_natCast, mul_comm]
        have : (m : ℚ) < 2 ^ g.prec := by exact_mod_cast hm
        exact mul_lt_mul_of_pos_left this (zpow_pos2 _)
      exact (zpow_lt_zpow_iff_right₀ (by norm_num : (1 : ℚ) < 2)).mp (lt_of_le_of_lt h1 h2)
    have hk : quantum g q ≤ e := by
      simp only [quantum]
      apply max_le _ he
      omega
    obtain ⟨d, hd⟩ := Int.le.dest hk
    have hdiv : q / 2 ^ quantum g q = ((m * 2 ^ d : Int) : ℚ) := by
      rw [div_eq_iff (zpow_pos2 _).ne', hq]
      push_cast
      have he' : e = (d : Int) + quantum g q := by omega
      rw [mul_assoc, ← zpow_natCast, ← zpow_add₀ (by norm_num), ← he']
    rw [roundMag, hdiv, rne_int, ← hdiv, div_mul_cancel₀ _ (zpow_pos2 _).ne']

theorem round_exact {f g : Fmt} (hfg : f.le g) {neg : Bool} {q : ℚ} (h : Rep f (.fin neg q)) :
    round g neg q = .fin neg q := by
  obtain ⟨m, e, rfl, hm, he, hlt⟩ := h
  have h1 : roundMag g ((m : ℚ) * 2 ^ e) = m * 2 ^ e :=
    roundMag_exact (lt_of_lt_of_le hm (Nat.pow_le_pow_right (by norm_num) hfg.1)) (le_trans hfg.2.1 he)
  have h2 : (2 : ℚ) ^ f.emax ≤ 2 ^ g.emax := pow_le_pow_right₀ (by norm_num) hfg.2.2
  rw [round, h1, if_neg (by linarith)]

theorem round_int_exact {n : Nat} (h : n < 2 ^ 53) (neg : Bool) :
    round .f64 neg (n : ℚ) = .fin neg n := by
  have h1 : roundMag .f64 (n : ℚ) = n := by
    have := roundMag_exact (g := .f64) (m := n) (e := 0) h (by decide)
    simpa using this
  rw [round, h1, if_neg]
  rw [not_le]
  have : (n : ℚ) < 2 ^ 53 := by exact_mod_cast h
  have h3 : (2 : ℚ) ^ 53 ≤ 2 ^ Fmt.f64.emax := pow_le_pow_right₀ (by norm_num) (by decide)
  linarith

/-- Rounding does not go below a power of two. -/
theorem roundMag_ge (f : Fmt) {q : ℚ} {k : Nat} (h : (2 : ℚ) ^ k ≤ q) : (2 : ℚ) ^ k ≤ roundMag f q := by
  have hq : 0 < q := lt_of_lt_of_le (by positivity) h
  have hkl : (k : Int) ≤ Int.log 2 q := by
    have h1 := lt_log q
    have h2 : (2 : ℚ) ^ (k : Int) < 2 ^ (Int.log 2 q + 1) := by
      rw [zpow_natCast]; linarith
    have := (zpow_lt_zpow_iff_right₀ (by norm_num : (1 : ℚ) < 2)).mp h2
    omega
  have hp : 1 ≤ f.prec := by cases f <;> decide
  have hem : f.emin ≤ 0 := by cases f <;> decide
  have hkq : quantum f q ≤ Int.log 2 q := by
    simp only [quantum]; apply max_le <;> omega
  obtain ⟨d, hd⟩ := Int.le.dest hkq
  have hfl : (2 : Int) ^ d ≤ ⌊q / 2 ^ quantum f q⌋ := by
    rw [Int.le_floor, le_div_iff₀ (zpow_pos2 _)]
    push_cast
    rw [← zpow_natCast, ← zpow_add₀ (by norm_num)]
    have : (d : Int) + quantum f q = Int.log 2 q := by omega
    rw [this]
    exact log_le hq
  have h3 : ((2 : Int) ^ d : ℚ) ≤ rne (q / 2 ^ quantum f q) := by
    exact_mod_cast le_trans hfl (rne_bounds _).1
  have h4 : (2 : ℚ) ^ Int.log 2 q ≤ roundMag f q := by
    rw [roundMag, ← hd, add_comm, zpow_add₀ (by norm_num), zpow_natCast]
    exact mul_le_mul_of_nonneg_right (by exact_mod_cast h3) (zpow_pos2 _).le
  refine le_trans ?_ h4
  rw [← zpow_natCast]
  exact zpow_le_zpow_right₀ (by norm_num) hkl

/-- Converting an integer, as `sitofp` and `uitofp` do. -/
def ofInt (f : Fmt) (n : Int) : FV := round f (decide (n < 0)) (n.natAbs : ℚ)

/-- Converting between formats, as `fpext` and `fptrunc` do. -/
def conv (f : Fmt) : FV → FV
  | .nan => .nan
  | .inf neg => .inf neg
  | .fin neg q => round f neg q

/-- The integer part, rounding toward zero; none for infinities and NaN. -/
def truncate : FV → Option Int
  | .fin neg q => some (if neg then -⌊q⌋ else ⌊q⌋)
  | _ => none

/-- `truncate` rounds toward zero. -/
theorem truncate_toward_zero {neg : Bool} {q : ℚ} {n : Int} (hq : 0 ≤ q)
    (h : truncate (.fin neg q) = some n) :
    (n.natAbs : ℚ) ≤ q ∧ q < n.natAbs + 1 ∧ (neg = true → n ≤ 0) ∧ (neg = false → 0 ≤ n) := by
  have hf : 0 ≤ ⌊q⌋ := Int.floor_nonneg.mpr hq
  have h1 : ((⌊q⌋.natAbs : Int) : ℚ) = ⌊q⌋ := by rw [Int.natAbs_of_nonneg hf]
  have h2 := Int.floor_le q
  have h3 := Int.lt_floor_add_one q
  cases neg <;> simp only [truncate, if_true, Bool.false_eq_true, if_false, Option.some.injEq] at h <;>
    subst h <;> rw [Int.cast_natCast] at h1
  · refine ⟨by rw [h1]; exact h2, by rw [h1]; exact h3, by simp, fun _ => hf⟩
  · rw [Int.natAbs_neg]
    refine ⟨by rw [h1]; exact h2, by rw [h1]; exact h3, fun _ => by omega, by simp⟩

example : truncate (.fin true (7 / 2)) = some (-3) := by decide +kernel

theorem rep_ofInt (f : Fmt) (n : Int) : Rep f (ofInt f n) :=
  rep_round f _ (by exact_mod_cast Nat.zero_le _)

theorem rep_nonneg {f : Fmt} {neg : Bool} {q : ℚ} (h : Rep f (.fin neg q)) : 0 ≤ q := by
  obtain ⟨m, e, rfl, -⟩ := h
  exact mul_nonneg (by exact_mod_cast Nat.zero_le _) (zpow_pos2 _).le

theorem rep_conv (f : Fmt) {g : Fmt} {x : FV} (h : Rep g x) : Rep f (conv f x) := by
  cases x with
  | nan => trivial
  | inf => trivial
  | fin neg q => exact rep_round f neg (rep_nonneg h)

theorem le_f64 (f : Fmt) : f.le .f64 := by cases f <;> decide

/-- Every number of a format is a `double`. -/
theorem conv_f64 {f : Fmt} {x : FV} (h : Rep f x) : conv .f64 x = x := by
  cases x with
  | nan => rfl
  | inf => rfl
  | fin neg q => exact round_exact (le_f64 f) h

/-- Through `double`, an integer below `2 ^ 53` is rounded once. -/
theorem conv_ofInt {n : Int} (h : n.natAbs < 2 ^ 53) (f : Fmt) :
    conv f (ofInt .f64 n) = ofInt f n := by
  rw [ofInt, round_int_exact h]; rfl

/-- Through `double`, the conversion to `float16` is right for every integer. -/
theorem conv_ofInt_f16 (n : Int) : conv .f16 (ofInt .f64 n) = ofInt .f16 n := by
  by_cases h : n.natAbs < 2 ^ 53
  · exact conv_ofInt h .f16
  · have hge : (2 : ℚ) ^ 53 ≤ (n.natAbs : ℚ) := by
      rw [not_lt] at h
      exact_mod_cast h
    have hm : (2 : ℚ) ^ Fmt.f16.emax ≤ 2 ^ 53 := pow_le_pow_right₀ (by norm_num) (by decide)
    have h1 : ∀ q : ℚ, (2 : ℚ) ^ 53 ≤ q → ∀ neg, round .f16 neg q = .inf neg := by
      intro q hq neg
      rw [round, if_pos (le_trans hm (roundMag_ge .f16 hq))]
    rw [ofInt, ofInt, h1 _ hge]
    unfold round
    split
    · rfl
    · exact h1 _ (roundMag_ge .f64 hge) _

/-- Through `double`, some 64-bit integers are rounded twice on the way to
`float`: `2 ^ 60 + 2 ^ 36 + 1` becomes `2 ^ 60` instead of `2 ^ 60 + 2 ^ 37`. -/
theorem double_rounding :
    conv .f32 (ofInt .f64 (2 ^ 60 + 2 ^ 36 + 1)) = .fin false (2 ^ 60) ∧
    ofInt .f32 (2 ^ 60 + 2 ^ 36 + 1) = .fin false (2 ^ 60 + 2 ^ 37) := by
  decide +kernel

/-! ## Values of a format -/

/-- The values of a format. -/
abbrev FP (f : Fmt) := {x : FV // Rep f x}

/-- Flipping the sign, `APFloat::changeSign` and `fneg`. -/
def FV.neg : FV → FV
  | .nan => .nan
  | .inf n => .inf (!n)
  | .fin n q => .fin (!n) q

theorem rep_neg {f : Fmt} {x : FV} (h : Rep f x) : Rep f x.neg := by
  cases x <;> exact h

/-- The four outcomes of a comparison, `APFloat::cmpResult`. -/
inductive Rel
  | less | equal | greater | unordered
  deriving DecidableEq, Repr

/-- The signed magnitude. -/
def signed (neg : Bool) (q : ℚ) : ℚ := if neg then -q else q

/-- IEEE comparison. -/
def FV.rel : FV → FV → Rel
  | .nan, _ => .unordered
  | _, .nan => .unordered
  | .inf a, .inf b => if a = b then .equal else if a then .less else .greater
  | .inf a, .fin _ _ => if a then .less else .greater
  | .fin _ _, .inf b => if b then .greater else .less
  | .fin a p, .fin b q =>
    if signed a p < signed b q then .less
    else if signed a p = signed b q then .equal else .greater

/-- `APFloat::isNonZero`. -/
def FV.nonZero : FV → Bool
  | .fin _ q => decide (q ≠ 0)
  | _ => true

theorem nonZero_iff (x : FV) : x.nonZero = true ↔ x.rel (.fin false 0) ≠ .equal := by
  cases x with
  | nan => simp [FV.nonZero, FV.rel]
  | inf a => cases a <;> simp [FV.nonZero, FV.rel]
  | fin a q =>
    simp only [FV.nonZero, FV.rel, decide_eq_true_eq]
    cases a
    · simp only [signed, Bool.false_eq_true, if_false]
      split_ifs with h1 h2 <;> simp_all [ne_of_lt]
    · simp only [signed, Bool.false_eq_true, if_false, if_true]
      split_ifs with h1 h2 <;> simp_all
      · rintro rfl; simp at h1

end Ispc.Fold
