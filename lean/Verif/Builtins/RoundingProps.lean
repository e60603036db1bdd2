import Verif.Builtins.Rounding

/-!
# Properties of `round`, `floor`, `ceil` and `trunc`
-/

namespace Ispc.Rounding

open Ispc.Fold (Fmt FV Rep signed rne)
open Ispc.FloatBits (Bits mant high val mk ofQ signMask val_mk zp zp_pos zp_lt_iff zp_le emax_eq prec_mant)

/-! ## What the functions should return -/

/-- `n` is the integer that rounding `x` in the mode `m` gives.  `near`: the nearest
integer, the even one of two; `down` and `up`: the nearest one not above
and not below; `zero`: the nearest one not farther from zero. -/
def Rounded (x : ℚ) (n : Int) : Mode → Prop
  | .near => |x - n| ≤ 1 / 2 ∧ (|x - n| = 1 / 2 → Even n)
  | .down => n ≤ x ∧ x < n + 1
  | .up => x ≤ n ∧ n < x + 1
  | .zero => |(n : ℚ)| ≤ |x| ∧ |x| < |(n : ℚ)| + 1 ∧ 0 ≤ n * x

/-- `r` is the right result for `v`: NaN and infinities are kept, a finite number
is rounded and keeps its sign. -/
def Right (m : Mode) : FV → FV → Prop
  | .nan, r => r = .nan
  | .inf s, r => r = .inf s
  | .fin s q, r => ∃ n : Int, Rounded (signed s q) n m ∧ signed s |(n : ℚ)| = n ∧ r = .fin s |(n : ℚ)|

/-- `r` is the right result for `v`, but for the sign of a zero. -/
def RightValue (m : Mode) : FV → FV → Prop
  | .nan, r => r = .nan
  | .inf s, r => r = .inf s
  | .fin s q, r => ∃ (n : Int) (s' : Bool),
      Rounded (signed s q) n m ∧ signed s' |(n : ℚ)| = n ∧ r = .fin s' |(n : ℚ)|

/-- docs/ispc.rst:5534-5543. -/
def doc : Fn → Mode
  | .round => .near | .floor => .down | .ceil => .up | .trunc => .zero

theorem right_value {m : Mode} {v r : FV} (h : Right m v r) : RightValue m v r := by
  cases v with
  | nan => exact h
  | inf s => exact h
  | fin s q => obtain ⟨n, h1, h2, h3⟩ := h; exact ⟨n, s, h1, h2, h3⟩

/-- There is one right integer. -/
theorem rounded_unique {x : ℚ} {m : Mode} {n k : Int} (h : Rounded x n m) (h' : Rounded x k m) : n = k := by
  have key : ∀ {a b : Int}, ((a : ℚ) < b + 1) → ((b : ℚ) < a + 1) → a = b := by
    intro a b h1 h2
    have h1 : a < b + 1 := by exact_mod_cast h1
    have h2 : b < a + 1 := by exact_mod_cast h2
    omega
  cases m with
  | near =>
    obtain ⟨h1, h2⟩ := h
    obtain ⟨h1', h2'⟩ := h'
    by_contra hne
    have a1 := abs_le.mp h1
    have a2 := abs_le.mp h1'
    have c1 : (n : ℚ) ≤ k + 1 := by linarith
    have c2 : (k : ℚ) ≤ n + 1 := by linarith
    have c1 : n ≤ k + 1 := by exact_mod_cast c1
    have c2 : k ≤ n + 1 := by exact_mod_cast c2
    have hor : n = k + 1 ∨ k = n + 1 := by omega
    rcases hor with rfl | rfl
    · push_cast at a1 a2 h2 h1
      have e1 : x - (k + 1) = -(1 / 2) := by linarith
      have e2 : x - k = 1 / 2 := by linarith
      have := h2 (by rw [e1]; norm_num [abs_of_pos])
      have := h2' (by rw [e2]; norm_num [abs_of_pos])
      grind
    · push_cast at a1 a2 h2' h1'
      have e1 : x - (n + 1) = -(1 / 2) := by linarith
      have e2 : x - n = 1 / 2 := by linarith
      have := h2' (by rw [e1]; norm_num [abs_of_pos])
      have := h2 (by rw [e2]; norm_num [abs_of_pos])
      grind
  | down => exact key (by linarith [h.1, h'.2]) (by linarith [h.2, h'.1])
  | up => exact key (by linarith [h.2, h'.1]) (by linarith [h.1, h'.2])
  | zero =>
    obtain ⟨h1, h2, h3⟩ := h
    obtain ⟨h1', h2', h3'⟩ := h'
    rw [← Int.cast_abs] at h1 h2 h1' h2'
    have hab : |n| = |k| := key (by linarith) (by linarith)
    rcases lt_trichotomy x 0 with hx | hx | hx
    · have a : (n : ℚ) ≤ 0 := by by_contra hc; nlinarith
      have b : (k : ℚ) ≤ 0 := by by_contra hc; nlinarith
      have a : n ≤ 0 := by exact_mod_cast a
      have b : k ≤ 0 := by exact_mod_cast b
      rw [abs_of_nonpos a, abs_of_nonpos b] at hab; omega
    · subst hx
      rw [abs_zero] at h1 h1'
      have a : |n| ≤ 0 := by exact_mod_cast h1
      have b : |k| ≤ 0 := by exact_mod_cast h1'
      rw [abs_nonpos_iff] at a b; omega
    · have a : (0 : ℚ) ≤ n := by by_contra hc; nlinarith
      have b : (0 : ℚ) ≤ k := by by_contra hc; nlinarith
      have a : 0 ≤ n := by exact_mod_cast a
      have b : 0 ≤ k := by exact_mod_cast b
      rw [abs_of_nonneg a, abs_of_nonneg b] at hab; omega

/-- There is one right result. -/
theorem right_unique {m : Mode} {v r r' : FV} (h : Right m v r) (h' : Right m v r') : r = r' := by
  cases v with
  | nan => exact h.trans h'.symm
  | inf s => exact h.trans h'.symm
  | fin s q =>
    obtain ⟨n, h1, h2, rfl⟩ := h
    obtain ⟨k, k1, k2, rfl⟩ := h'
    rw [rounded_unique h1 k1]

/-! ## Rounding instructions -/

theorem floor_neg' (q : ℚ) : ⌊-q⌋ = -⌈q⌉ := Int.floor_neg

/-- `integral` rounds as documented. -/
theorem integral_right (m : Mode) {v : FV} (h : ∀ s q, v = .fin s q → 0 ≤ q) : Right m v (integral m v) := by
  cases v with
  | nan => cases m <;> rfl
  | inf s => cases m <;> rfl
  | fin s q =>
    have hq : 0 ≤ q := h s q rfl
    have f1 := Int.floor_le q
    have f2 := Int.lt_floor_add_one q
    have c1 := Int.le_ceil q
    have c2 := Int.ceil_lt_add_one q
    have hf : (0 : ℚ) ≤ ⌊q⌋ := by exact_mod_cast Int.floor_nonneg.mpr hq
    have hc : (0 : ℚ) ≤ ⌈q⌉ := by exact_mod_cast Int.ceil_nonneg hq
    have hr : (0 : ℚ) ≤ rne q := by exact_mod_cast Fold.rne_nonneg hq
    obtain ⟨r1, r2⟩ := Fold.rne_nearest q
    have key : ∀ k : Int, (0 : ℚ) ≤ k → Rounded (signed s q) (if s then -k else k) m →
        Right m (.fin s q) (.fin s k) := by
      intro k hk hR
      refine ⟨_, hR, ?_, ?_⟩ <;> cases s <;> simp [signed, abs_of_nonneg hk]
    cases m with
    | near =>
      refine key _ hr ?_
      cases s
      · exact ⟨r1, fun h => Int.even_iff.mpr (r2 h)⟩
      · have e : signed true q - ((if true then -rne q else rne q : Int) : ℚ) = -(q - rne q) := by
          simp [signed]; ring
        refine ⟨by rw [e, abs_neg]; exact r1, fun h => ?_⟩
        rw [e, abs_neg] at h
        simp; exact Int.even_iff.mpr (r2 h)
    | down =>
      cases s
      · exact key _ hf ⟨by simp [signed]; exact f1, by simp [signed]⟩
      · refine key _ hc ⟨?_, ?_⟩ <;> simp [signed] <;> linarith
    | up =>
      cases s
      · exact key _ hc ⟨by simpa [signed] using c1, by simpa [signed] using c2⟩
      · refine key _ hf ⟨?_, ?_⟩ <;> simp [signed] <;> linarith
    | zero =>
      refine key _ hf ⟨?_, ?_, ?_⟩
      · cases s <;> simp [signed, abs_of_nonneg hf, abs_of_nonneg hq, f1]
      · cases s <;> simp [signed, abs_of_nonneg hf, abs_of_nonneg hq, f2]
      · cases s <;> simp [signed] <;> exact mul_nonneg hf hq

/-- -2.5 rounds to -2, -3, -2 and -2. -/
example : (integral .near (.fin true (5 / 2)), integral .down (.fin true (5 / 2)),
    integral .up (.fin true (5 / 2)), integral .zero (.fin true (5 / 2))) =
    (.fin true 2, .fin true 3, .fin true 2, .fin true 2) := by decide +kernel

/-! ## Integers of a format -/

theorem emin_neg (f : Fmt) : f.emin ≤ 0 := by cases f <;> decide

theorem emax_big (f : Fmt) : mant f + 1 < f.emax := by cases f <;> decide

theorem rep_nat {f : Fmt} {n : Nat} (h : n ≤ 2 ^ (mant f + 1)) (s : Bool) : Rep f (.fin s n) := by
  have hlt : (n : ℚ) < 2 ^ f.emax := by
    have h1 : 2 ^ (mant f + 1) < 2 ^ f.emax := Nat.pow_lt_pow_right (by norm_num) (emax_big f)
    exact_mod_cast lt_of_le_of_lt h h1
  rcases Nat.lt_or_eq_of_le h with h1 | h1
  · exact ⟨n, 0, by simp, by rw [prec_mant]; exact h1, emin_neg f, hlt⟩
  · refine ⟨1, (mant f + 1 : Nat), ?_, ?_, le_trans (emin_neg f) (by positivity), hlt⟩
    · rw [h1, zpow_natCast]; push_cast; rw [one_mul]
    · exact Nat.one_lt_two_pow (by rw [prec_mant]; omega)

theorem rep_int {f : Fmt} {n : Int} (h0 : 0 ≤ n) (h : n ≤ 2 ^ (mant f + 1)) (s : Bool) : Rep f (.fin s n) := by
  obtain ⟨k, rfl⟩ := Int.eq_ofNat_of_zero_le h0
  exact rep_nat (by exact_mod_cast h) s

/-- A large number of a format is an integer. -/
theorem large_int {f : Fmt} {s : Bool} {q : ℚ} (h : Rep f (.fin s q)) (hq : 2 ^ mant f ≤ q) :
    ∃ n : Nat, q = n := by
  obtain ⟨m, e, rfl, hm, he, hlt⟩ := h
  have he0 : 0 ≤ e := by
    by_contra hc
    have h1 : (m : ℚ) < 2 ^ f.prec := by exact_mod_cast hm
    have h2 : (m : ℚ) * 2 ^ e < 2 ^ f.prec * 2 ^ e := mul_lt_mul_of_pos_right h1 (zp_pos _)
    have h3 : (2 : ℚ) ^ f.prec * 2 ^ e ≤ 2 ^ mant f := by
      rw [← zpow_natCast, ← zpow_natCast, ← zp]
      apply zp_le; rw [prec_mant]; push_cast; omega
    linarith
  obtain ⟨d, rfl⟩ := Int.eq_ofNat_of_zero_le he0
  exact ⟨m * 2 ^ d, by push_cast; rw [← zpow_natCast]⟩

/-- The integers next to a number of the format are in the format. -/
theorem rep_near {f : Fmt} {s : Bool} {q : ℚ} (h : Rep f (.fin s q)) {n : Int} (h1 : ⌊q⌋ ≤ n) (h2 : n ≤ ⌈q⌉)
    (s' : Bool) : Rep f (.fin s' n) := by
  have h0 := Fold.rep_nonneg h
  have hn : 0 ≤ n := le_trans (Int.floor_nonneg.mpr h0) h1
  by_cases hq : 2 ^ mant f ≤ q
  · obtain ⟨k, rfl⟩ := large_int h hq
    have : n = k := by
      rw [Int.floor_natCast] at h1
      rw [Int.ceil_natCast] at h2
      omega
    subst this
    exact h
  · refine rep_int hn (le_trans h2 ?_) s'
    rw [Int.ceil_le]
    push_cast
    rw [pow_succ]
    have : (0 : ℚ) < 2 ^ mant f := by positivity
    linarith

theorem rne_ceil (q : ℚ) : rne q ≤ ⌈q⌉ := FloatBits.rne_le (Int.le_ceil q)

theorem rep_integral {f : Fmt} {v : FV} (h : Rep f v) (m : Mode) : Rep f (integral m v) := by
  cases v with
  | nan => cases m <;> trivial
  | inf s => cases m <;> trivial
  | fin s q =>
    have a := Int.floor_le_ceil q
    cases m with
    | near => exact rep_near h (Fold.rne_bounds q).1 (rne_ceil q) s
    | down => cases s
              · exact rep_near h (le_refl _) a _
              · exact rep_near h a (le_refl _) _
    | up => cases s
            · exact rep_near h a (le_refl _) _
            · exact rep_near h (le_refl _) a _
    | zero => exact rep_near h (le_refl _) a s

/-! ## Bits of a number -/

/-- `enc` is the inverse of `val`. -/
theorem val_enc {f : Fmt} {v : FV} (h : Rep f v) : val f (enc f v) = v := by
  have h1 : 1 < 2 ^ (high f - 1) := by cases f <;> decide
  have h2 : 2 ^ (mant f - 1) < 2 ^ mant f := by cases f <;> decide
  cases v with
  | nan =>
    rw [enc, val_mk (by omega) h2, if_pos rfl, if_neg (Nat.two_pow_pos _).ne']
  | inf s =>
    rw [enc, val_mk (by omega) (Nat.two_pow_pos _), if_pos rfl, if_pos rfl]
  | fin s q =>
    obtain ⟨m, e, rfl, hm, he, hlt⟩ := h
    rw [prec_mant] at hm
    rw [enc]
    by_cases hd : (m : ℚ) * 2 ^ e < 2 ^ (mant f + f.emin)
    · rw [if_pos hd]
      obtain ⟨d, hd'⟩ := Int.le.dest he
      have hq : (m : ℚ) * 2 ^ e = ((m * 2 ^ d : Nat) : ℚ) * 2 ^ f.emin := by
        rw [← hd', add_comm, zp, zpow_natCast]; push_cast; ring
      have hF : m * 2 ^ d < 2 ^ mant f := by
        rw [hq, zp, zpow_natCast] at hd
        have := lt_of_mul_lt_mul_right hd (zp_pos _).le
        exact_mod_cast this
      rw [hq, mul_div_assoc, div_self (zp_pos _).ne', mul_one, Int.floor_natCast, Int.toNat_natCast,
        val_mk (by omega) hF, if_neg (by omega), if_pos rfl]
    · rw [if_neg hd]
      rw [not_lt] at hd
      have hq0 : (0 : ℚ) < m * 2 ^ e := lt_of_lt_of_le (zp_pos _) hd
      have hl := Fold.log_le hq0
      have hl2 := Fold.lt_log ((m : ℚ) * 2 ^ e)
      set k := Int.log 2 ((m : ℚ) * 2 ^ e) with hk
      have hk1 : mant f + f.emin ≤ k := by
        have := zp_lt_iff.mp (lt_of_le_of_lt hd hl2); omega
      have hk2 : k < f.emax := by
        have := lt_of_le_of_lt hl hlt
        rw [← zpow_natCast] at this
        exact zp_lt_iff.mp this
      have hek : k - mant f ≤ e := by
        by_contra hcon
        have h3 : (m : ℚ) * 2 ^ e < 2 ^ ((mant f + 1 : Nat) + e) := by
          rw [zp, zpow_natCast]
          have : (m : ℚ) < 2 ^ (mant f + 1) := by exact_mod_cast hm
          exact mul_lt_mul_of_pos_right this (zp_pos _)
        have := zp_lt_iff.mp (lt_of_le_of_lt hl h3)
        push_cast at this
        omega
      obtain ⟨d, hd'⟩ := Int.le.dest hek
      have hq : (m : ℚ) * 2 ^ e = ((m * 2 ^ d : Nat) : ℚ) * 2 ^ (k - mant f) := by
        rw [← hd', add_comm, zp, zpow_natCast]; push_cast; ring
      rw [hq, show k + 1 = ((mant f + 1 : Nat) : Int) + (k - mant f) by push_cast; omega, zp, zpow_natCast] at hl2
      have hF2 : m * 2 ^ d < 2 ^ (mant f + 1) := by
        have := lt_of_mul_lt_mul_right hl2 (zp_pos _).le
        exact_mod_cast this
      have hF1 : 2 ^ mant f ≤ m * 2 ^ d := by
        rw [hq] at hl
        have hkk : (2 : ℚ) ^ k = 2 ^ mant f * 2 ^ (k - mant f) := by
          rw [← zpow_natCast, ← zp]; congr 1; omega
        have hl3 : (2 : ℚ) ^ mant f * 2 ^ (k - mant f) ≤ ((m * 2 ^ d : Nat) : ℚ) * 2 ^ (k - mant f) := by
          rw [← hkk]; exact hl
        have := le_of_mul_le_mul_right hl3 (zp_pos _)
        exact_mod_cast this
      rw [Nat.pow_succ] at hF2
      have hm := emax_eq f
      have hcast : ((2 ^ (high f - 1) : Nat) : Int) = 2 ^ (high f - 1) := by push_cast; rfl
      obtain ⟨E, hE⟩ : ∃ E : Nat, (E : Int) = k - mant f - f.emin + 1 := ⟨(k - mant f - f.emin + 1).toNat, by omega⟩
      have hdiv : ⌊(m : ℚ) * 2 ^ e / 2 ^ (k - mant f)⌋.toNat = m * 2 ^ d := by
        rw [hq, mul_div_assoc, div_self (zp_pos _).ne', mul_one, Int.floor_natCast, Int.toNat_natCast]
      rw [hdiv, ← hE, Int.toNat_natCast, val_mk (by omega) (by omega), if_neg (by omega), if_neg (by omega), hq]
      have h5 : 2 ^ mant f + (m * 2 ^ d - 2 ^ mant f) = m * 2 ^ d := by omega
      rw [h5, hE]
      congr 3
      omega

example : (enc .f32 (.fin true (5 / 2))).toNat = 0xC0200000 ∧
    val .f32 0xC0200000#32 = .fin true (5 / 2) := by decide +kernel
example : (enc .f16 (.fin false (3 / 2 ^ 24))).toNat = 3 := by decide +kernel

theorem exact_right {f : Fmt} (m : Mode) (x : Bits f) : Right m (val f x) (val f (exact f m x)) := by
  have hr := FloatBits.val_rep f x
  rw [exact, val_enc (rep_integral hr m)]
  exact integral_right m (fun s q h => Fold.rep_nonneg (h ▸ hr))

/-! ## Adding and subtracting a large constant -/

theorem xor_mk {f : Fmt} {s : Bool} {E F : Nat} (hE : E < 2 ^ (high f - 1)) (hF : F < 2 ^ mant f) (t : Bool) :
    mk f s E F ^^^ mk f t 0 0 = mk f (s ^^ t) E F := by
  apply BitVec.eq_of_getLsbD_eq
  intro i hi
  rw [BitVec.getLsbD_xor, FloatBits.mk_bit hE hF hi, FloatBits.mk_bit (FloatBits.pos_expo f) (FloatBits.pos_mant f) hi,
    FloatBits.mk_bit hE hF hi]
  split
  · simp
  · split <;> simp

/-- The sign of a number. -/
def sign : FV → Bool
  | .nan => false
  | .inf s => s
  | .fin s _ => s

/-- Flipping the sign. -/
def flip (t : Bool) (v : FV) : FV := if t then v.neg else v

theorem xor_sign {f : Fmt} (y : Bits f) (t : Bool) : val f (y ^^^ mk f t 0 0) = flip t (val f y) := by
  obtain ⟨s, E, F, hE, hF, rfl⟩ := FloatBits.fields f y
  rw [xor_mk hE hF, val_mk hE hF, val_mk hE hF]
  cases t
  · simp [flip]
  · rw [flip, if_pos rfl]
    split
    · split
      · cases s <;> rfl
      · rfl
    · split <;> cases s <;> rfl

/-- The sign bit of `x`, and `x` without it. -/
theorem split_sign {f : Fmt} (x : Bits f) : ∃ t, x &&& signMask f = mk f t 0 0 ∧
    val f (x ^^^ (x &&& signMask f)) = FloatBits.FV.abs (val f x) ∧
    (∀ s, val f x = .inf s → t = s) ∧ (∀ s q, val f x = .fin s q → t = s) := by
  obtain ⟨s, E, F, hE, hF, rfl⟩ := FloatBits.fields f x
  have h := FloatBits.signbits_mk (s := s) hE hF
  rw [FloatBits.signbits] at h
  refine ⟨s, h, ?_, ?_, ?_⟩
  · rw [h, xor_mk hE hF, Bool.xor_self, ← FloatBits.abs_mk (s := s) hE hF, FloatBits.abs_val]
  · intro t ht
    rw [val_mk hE hF] at ht
    split at ht
    · split at ht
      · injection ht
      · cases ht
    · split at ht <;> cases ht
  · intro t q ht
    rw [val_mk hE hF] at ht
    split at ht
    · split at ht <;> cases ht
    · split at ht <;> injection ht

theorem rep_zero (f : Fmt) (s : Bool) : Rep f (.fin s 0) := by
  have := rep_nat (f := f) (n := 0) (Nat.zero_le _) s
  simpa using this

theorem rep_add (f : Fmt) (a b : FV) : Rep f (add f a b) := by
  cases a <;> cases b <;> simp only [add]
  all_goals first | trivial | skip
  · split <;> trivial
  · rw [ofQ]
    split
    · exact rep_zero f _
    · exact Fold.rep_round f _ (abs_nonneg _)

theorem fadd_val {f : Fmt} (a b : Bits f) : val f (fadd f a b) = add f (val f a) (val f b) := val_enc (rep_add f _ _)

/-- The large constants. -/
def big : Fmt → Nat
  | .f16 => 1024 | .f32 => 8388608 | .f64 => 4503600000000000

theorem plus_val (f : Fmt) : val f (plus f) = .fin false (big f) := by cases f <;> decide +kernel

theorem minus_val (f : Fmt) : val f (minus f) = .fin true (big f) := by cases f <;> decide +kernel

theorem big_facts (f : Fmt) : big f % 4 = 0 ∧ 2 ^ mant f ≤ big f ∧ big f < 2 ^ (mant f + 1) := by
  cases f <;> decide

/-- The numbers that `magic` rounds right: up to 1024, 8388608 and 4503599254740992. -/
def limit (f : Fmt) : Nat := 2 ^ (mant f + 1) - big f

example : limit .f16 = 1024 ∧ limit .f32 = 8388608 ∧ limit .f64 = 4503599254740992 := by decide

theorem log_eq {q : ℚ} {k : Int} (h1 : (2 : ℚ) ^ k ≤ q) (h2 : q < 2 ^ (k + 1)) : Int.log 2 q = k := by
  have hq : 0 < q := lt_of_lt_of_le (zp_pos _) h1
  have a := zp_lt_iff.mp (lt_of_le_of_lt (Fold.log_le hq) h2)
  have b := zp_lt_iff.mp (lt_of_le_of_lt h1 (Fold.lt_log q))
  omega

theorem quantum_eq {f : Fmt} {q : ℚ} {j : Nat} (h1 : (2 : ℚ) ^ (mant f + j) ≤ q) (h2 : q < 2 ^ (mant f + j + 1)) :
    Fold.quantum f q = j := by
  have hl : Int.log 2 q = (mant f + j : Nat) := by
    apply log_eq
    · rw [zpow_natCast]; exact h1
    · rw [← Nat.cast_succ, zpow_natCast]; exact h2
  rw [Fold.quantum, hl, prec_mant]
  have := emin_neg f
  rw [max_eq_left (by push_cast; omega)]
  push_cast; omega

theorem rne_add_even (q : ℚ) {M : Int} (h : M % 2 = 0) : rne (M + q) = M + rne q := by
  have e : ⌊(M : ℚ) + q⌋ = M + ⌊q⌋ := Int.floor_intCast_add M q
  have e2 : (M : ℚ) + q - ((M + ⌊q⌋ : Int) : ℚ) = q - ⌊q⌋ := by push_cast; ring
  unfold rne
  rw [e, e2]
  have e3 : (M + ⌊q⌋) % 2 = ⌊q⌋ % 2 := by omega
  rw [e3]
  split_ifs <;> omega

/-- The first addition rounds to an integer. -/
theorem round_big {f : Fmt} {q : ℚ} (h0 : 0 ≤ q) (h : q ≤ limit f) :
    Fold.roundMag f (big f + q) = big f + rne q := by
  obtain ⟨b1, b2, b3⟩ := big_facts f
  have hB : ((2 ^ mant f : Nat) : ℚ) ≤ big f := by exact_mod_cast b2
  have hL : ((limit f : Nat) : ℚ) = 2 ^ (mant f + 1) - big f := by
    rw [limit, Nat.cast_sub (le_of_lt b3)]; push_cast; rfl
  rw [hL] at h
  rcases lt_or_eq_of_le h with h | h
  · have hq := quantum_eq (f := f) (q := big f + q) (j := 0)
      (by push_cast at hB; simp only [Nat.add_zero]; linarith) (by simp only [Nat.add_zero]; linarith)
    rw [Fold.roundMag, hq, Nat.cast_zero, zpow_zero, div_one, mul_one]
    have := rne_add_even q (M := big f) (by omega)
    rw [show ((big f : Nat) : ℚ) = ((big f : Int) : ℚ) by push_cast; rfl, this]
    push_cast; ring
  · have hi : q = ((limit f : Int) : ℚ) := by rw [h]; push_cast [hL]; ring
    have e : (big f : ℚ) + q = (1 : Nat) * 2 ^ ((mant f + 1 : Nat) : Int) := by
      rw [zpow_natCast, h]; push_cast; ring
    rw [e, Fold.roundMag_exact (Nat.one_lt_two_pow (by rw [prec_mant]; omega))
      (le_trans (emin_neg f) (Int.natCast_nonneg _)), ← e, hi, Fold.rne_int]

/-- The addition and the subtraction, when the addition rounds by an integer. -/
theorem magic_of {f : Fmt} {x : Bits f} {s : Bool} {q : ℚ} (hx : val f x = .fin s q) {r : Int} (h0 : 0 ≤ r)
    (hr : r ≤ 2 ^ (mant f + 1)) (h : Fold.roundMag f (big f + q) = big f + r) : val f (magic f x) = .fin s r := by
  obtain ⟨t, ht, ha, -, hs⟩ := split_sign x
  have hs := hs s q hx
  subst hs
  have hq : 0 ≤ q := Fold.rep_nonneg (hx ▸ FloatBits.val_rep f x)
  have hB : (0 : ℚ) < big f := by
    have := (big_facts f).2.1
    exact_mod_cast lt_of_lt_of_le (Nat.two_pow_pos _) this
  rw [magic, ht, xor_sign, fadd_val, fadd_val, ← ht, ha, hx, plus_val, minus_val]
  have e1 : add f (FloatBits.FV.abs (.fin t q)) (.fin false (big f)) = .fin false (big f + r) := by
    simp only [FloatBits.FV.abs, add, signed, Bool.false_eq_true, if_false]
    rw [ofQ, if_neg (by linarith), decide_eq_false (by linarith), abs_of_pos (by linarith), add_comm, Fold.round, h,
      if_neg]
    rw [not_le]
    have h1 : (r : ℚ) ≤ 2 ^ (mant f + 1) := by exact_mod_cast hr
    have h2 : (big f : ℚ) < 2 ^ (mant f + 1) := by exact_mod_cast (big_facts f).2.2
    have h3 : (2 : ℚ) ^ (mant f + 2) ≤ 2 ^ f.emax := pow_le_pow_right₀ (by norm_num) (emax_big f)
    rw [pow_succ] at h3
    linarith
  have e2 : add f (.fin false (big f + r)) (.fin true (big f)) = .fin false r := by
    simp only [add, Bool.and_true, signed, Bool.false_eq_true, if_false, if_true]
    have := FloatBits.ofQ_signed (rep_int (f := f) h0 hr false)
    rw [show (big f : ℚ) + r + -(big f : ℚ) = signed false r by simp [signed], this]
    split
    · rename_i h; rw [h]
    · rfl
  rw [e1, e2]
  cases t <;> rfl

/-- Rounding a number within the limit. -/
theorem magic_fin {f : Fmt} {x : Bits f} {s : Bool} {q : ℚ} (hx : val f x = .fin s q) (h : q ≤ limit f) :
    val f (magic f x) = .fin s (rne q) := by
  have hq : 0 ≤ q := Fold.rep_nonneg (hx ▸ FloatBits.val_rep f x)
  refine magic_of hx (Fold.rne_nonneg hq) ?_ (round_big hq h)
  refine FloatBits.rne_le (le_trans h ?_)
  have : limit f ≤ 2 ^ (mant f + 1) := Nat.sub_le _ _
  push_cast
  exact_mod_cast this

theorem magic_nan {f : Fmt} {x : Bits f} (hx : val f x = .nan) : val f (magic f x) = .nan := by
  obtain ⟨t, ht, ha, -, -⟩ := split_sign x
  rw [magic, ht, xor_sign, fadd_val, fadd_val, ← ht, ha, hx, plus_val, minus_val]
  cases t <;> rfl

theorem magic_inf {f : Fmt} {x : Bits f} {s : Bool} (hx : val f x = .inf s) : val f (magic f x) = .inf s := by
  obtain ⟨t, ht, ha, hs, -⟩ := split_sign x
  have hs := hs s hx
  subst hs
  rw [magic, ht, xor_sign, fadd_val, fadd_val, ← ht, ha, hx, plus_val, minus_val]
  cases t <;> rfl

/-- `round` by adding a constant, for NaN, the infinities and numbers within the
limit.  Missing: larger numbers, for which it is wrong (`magic_odd_wrong`). -/
theorem magic_right_partial {f : Fmt} (x : Bits f) (h : ∀ s q, val f x = .fin s q → q ≤ limit f) :
    Right .near (val f x) (val f (magic f x)) := by
  have hr := FloatBits.val_rep f x
  have hi := integral_right .near (v := val f x) (fun s q e => Fold.rep_nonneg (e ▸ hr))
  cases hv : val f x with
  | nan => rw [magic_nan hv]; rfl
  | inf s => rw [magic_inf hv]; rfl
  | fin s q => rw [magic_fin hv (h s q hv)]; rw [hv] at hi; exact hi

/-- 2.5 and -8388607.5. -/
example : val .f32 (magic .f32 0x40200000#32) = .fin false 2 ∧
    val .f32 (magic .f32 0xCAFFFFFF#32) = .fin true 8388608 := by decide +kernel

/-- The value beyond the limit, of an odd integer: one below or one above. -/
theorem magic_odd {f : Fmt} {x : Bits f} {s : Bool} {n : Nat} (hx : val f x = .fin s n) (hodd : n % 2 = 1)
    (h1 : limit f < n) (h2 : n < 2 ^ (mant f + 1)) :
    val f (magic f x) = .fin s ((if n % 4 = 1 then n - 1 else n + 1 : Int) : ℚ) := by
  obtain ⟨b1, b2, b3⟩ := big_facts f
  have hp : 2 ^ (mant f + 2) = 2 ^ (mant f + 1) * 2 := pow_succ _ _
  have hlim : 2 ^ (mant f + 1) < big f + n := by rw [limit] at h1; omega
  have hq : Fold.quantum f (big f + n) = (1 : Nat) := by
    apply quantum_eq
    · exact_mod_cast hlim.le
    · have : big f + n < 2 ^ (mant f + 1 + 1) := by rw [pow_succ]; omega
      exact_mod_cast this
  refine magic_of hx (by split <;> omega) ?_ ?_
  · have : n + 1 ≤ 2 ^ (mant f + 1) := h2
    have : (n : Int) + 1 ≤ 2 ^ (mant f + 1) := by exact_mod_cast this
    split <;> omega
  · obtain ⟨k, hk⟩ : ∃ k : Int, (big f : Int) + n = 2 * k + 1 := ⟨((big f : Int) + n) / 2, by omega⟩
    have hk' : (big f : ℚ) + n = 2 * (k : ℚ) + 1 := by exact_mod_cast hk
    have hdiv : ((big f : ℚ) + n) / 2 ^ ((1 : Nat) : Int) = k + 1 / 2 := by
      rw [hk', zpow_natCast]; ring
    have hval : (rne ((k : ℚ) + 1 / 2) : Int) * 2 = (big f : Int) + if n % 4 = 1 then (n : Int) - 1 else n + 1 := by
      by_cases h4 : n % 4 = 1
      · rw [if_pos h4, rne_add_even _ (by omega), show rne (1 / 2) = 0 by decide +kernel]; omega
      · rw [if_neg h4, FloatBits.rne_half _ (by omega)]; omega
    have hval' : (rne ((k : ℚ) + 1 / 2) : ℚ) * 2 = (big f : ℚ) + ((if n % 4 = 1 then (n : Int) - 1 else n + 1 : Int) : ℚ) := by
      have := congrArg (Int.cast (R := ℚ)) hval
      rw [Int.cast_mul, Int.cast_add, Int.cast_natCast] at this
      exact this
    rw [Fold.roundMag, hq, hdiv, zpow_natCast, pow_one, hval']

/-- Beyond the limit every odd integer, which should be returned as it is,
comes out even. -/
theorem magic_odd_wrong {f : Fmt} {x : Bits f} {s : Bool} {n : Nat} (hx : val f x = .fin s n) (hodd : n % 2 = 1)
    (h1 : limit f < n) (h2 : n < 2 ^ (mant f + 1)) : ¬ RightValue .near (val f x) (val f (magic f x)) := by
  rw [magic_odd hx hodd h1 h2, hx]
  rintro ⟨k, s', hR, hs, he⟩
  have hk : k = (if s then -(n : Int) else n) := by
    refine rounded_unique hR (m := .near) ⟨?_, ?_⟩ <;> cases s <;> norm_num [signed]
  injection he with _ he
  have hn : |(k : ℚ)| = n := by rw [hk]; cases s <;> simp
  rw [hn] at he
  have : (if n % 4 = 1 then (n : Int) - 1 else n + 1) = n := by exact_mod_cast he
  split at this <;> omega

/-- `round(8388609.0f)` is 8388608.0 and `round(8388611.0f)` is 8388612.0 on
SSE2 and WebAssembly; `round(4503599254740993.0)` is 4503599254740992.0 on Xe. -/
example : val .f32 0x4B000001#32 = .fin false (8388609 : Nat) ∧ val .f32 (magic .f32 0x4B000001#32) = .fin false 8388608 ∧
    val .f32 (magic .f32 0x4B000003#32) = .fin false 8388612 ∧
    val .f64 0x432FFFFFD3944002#64 = .fin false (4503599254740993 : Nat) ∧
    val .f64 (magic .f64 0x432FFFFFD3944002#64) = .fin false 4503599254740992 := by decide +kernel

/-! ## `floor` and `ceil` on top of it -/

theorem zero_val (f : Fmt) : val f 0 = .fin false 0 := by cases f <;> decide +kernel

theorem minusOne_val (f : Fmt) : val f (minusOne f) = .fin true 1 := by cases f <;> decide +kernel

theorem one_val (f : Fmt) : val f (one f) = .fin false 1 := by cases f <;> decide +kernel

theorem sext_and (f : Fmt) (b : Bool) (c : Bits f) : sext f b &&& c = if b then c else 0 := by
  cases b
  · simp [sext]
  · simp [sext]

theorem ofQ_int {f : Fmt} {n : Int} (h : |n| ≤ 2 ^ (mant f + 1)) (z : Bool) :
    ofQ f z n = if n = 0 then .fin z 0 else .fin (decide (n < 0)) |(n : ℚ)| := by
  have hr := rep_int (f := f) (abs_nonneg n) h (decide ((n : ℚ) < 0))
  rw [ofQ]
  by_cases hz : n = 0
  · rw [if_pos hz, if_pos (by exact_mod_cast hz)]
  · rw [if_neg hz, if_neg (by exact_mod_cast hz), ← Int.cast_abs,
      Fold.round_exact (g := f) ⟨le_refl _, le_refl _, le_refl _⟩ hr]
    congr 1
    simp

theorem nat_lim (f : Fmt) : limit f + 1 ≤ 2 ^ (mant f + 1) := by cases f <;> decide

/-- The magnitude of an integer next to a number within the limit. -/
theorem next_le {f : Fmt} {s : Bool} {q : ℚ} (h0 : 0 ≤ q) (h : q ≤ limit f) {n : Int}
    (h1 : (n : ℚ) - 1 < signed s q) (h2 : signed s q < n + 1) : |n| ≤ 2 ^ (mant f + 1) := by
  have hl : ((limit f : Nat) : Int) + 1 ≤ 2 ^ (mant f + 1) := by exact_mod_cast nat_lim f
  have a : n ≤ limit f + 1 := by
    have : (n : ℚ) < limit f + 2 := by
      cases s <;> simp only [signed, Bool.false_eq_true, if_false, if_true] at h1 <;> linarith
    have : n < limit f + 2 := by exact_mod_cast this
    omega
  have b : -(limit f + 1 : Int) ≤ n := by
    have : (-(limit f + 2) : ℚ) < n := by
      cases s <;> simp only [signed, Bool.false_eq_true, if_false, if_true] at h2 <;> linarith
    have : (-(limit f + 2) : Int) < n := by exact_mod_cast this
    omega
  rw [abs_le]; omega

theorem rel_greater {a b : Bool} {p q : ℚ} :
    (FV.fin a p).rel (.fin b q) = .greater ↔ signed b q < signed a p := by
  simp only [FV.rel]
  split_ifs with h1 h2
  · simp; linarith
  · simp [h2]
  · simp; exact lt_of_le_of_ne (not_lt.mp h1) (Ne.symm h2)

theorem rel_less {a b : Bool} {p q : ℚ} :
    (FV.fin a p).rel (.fin b q) = .less ↔ signed a p < signed b q := by
  simp only [FV.rel]
  split_ifs with h1 h2 <;> simp [h1]

/-- The integer `magic` rounds to. -/
theorem nearest {s : Bool} {q : ℚ} (h0 : 0 ≤ q) : ∃ m : Int, (m : ℚ) = signed s (rne q) ∧
    (m : ℚ) ≤ signed s q + 1 / 2 ∧ signed s q ≤ m + 1 / 2 ∧ (0 < m → s = false) ∧ (m < 0 → s = true) := by
  have hn := Fold.rne_nonneg h0
  have h := abs_le.mp (Fold.rne_nearest q).1
  cases s
  · exact ⟨rne q, by simp [signed], by simp [signed]; linarith, by simp [signed]; linarith, fun _ => rfl, fun h => by omega⟩
  · exact ⟨-rne q, by simp [signed], by simp [signed]; linarith, by simp [signed]; linarith, fun h => by omega, fun _ => rfl⟩

/-- `floor` of a number within the limit; a zero is always positive. -/
theorem magicFloor_fin {f : Fmt} {x : Bits f} {s : Bool} {q : ℚ} (hx : val f x = .fin s q) (h : q ≤ limit f) :
    val f (magicFloor f x) = .fin (decide (⌊signed s q⌋ < 0)) |(⌊signed s q⌋ : ℚ)| := by
  have h0 : 0 ≤ q := Fold.rep_nonneg (hx ▸ FloatBits.val_rep f x)
  obtain ⟨m, hm, m1, m2, m3, m4⟩ := nearest (s := s) h0
  have hy := magic_fin hx h
  rw [magicFloor, fadd_val, sext_and, ogt, hy, hx]
  by_cases hg : (FV.fin s (rne q : ℚ)).rel (.fin s q) = .greater
  · rw [decide_eq_true hg, if_pos rfl, minusOne_val]
    rw [rel_greater, ← hm] at hg
    have hfl : ⌊signed s q⌋ = m - 1 := by
      rw [Int.floor_eq_iff]; push_cast; constructor <;> linarith
    simp only [add]
    have e : signed s (rne q) + signed true 1 = ((m - 1 : Int) : ℚ) := by
      rw [← hm]; simp [signed]; ring
    rw [e, hfl, ofQ_int (next_le (s := s) h0 h (by push_cast; linarith) (by push_cast; linarith))]
    split
    · rename_i hz
      rw [hz, m3 (by omega)]; simp
    · rfl
  · rw [decide_eq_false hg, if_neg (by simp), zero_val]
    rw [rel_greater, ← hm, not_lt] at hg
    have hfl : ⌊signed s q⌋ = m := by
      rw [Int.floor_eq_iff]; constructor <;> linarith
    simp only [add]
    have e : signed s (rne q) + signed false 0 = (m : ℚ) := by
      rw [← hm]; simp [signed]
    rw [e, hfl, ofQ_int (next_le (s := s) h0 h (by linarith) (by linarith))]
    split
    · rename_i hz
      rw [hz]; simp
    · rfl

/-- `ceil` of a number within the limit; a zero is always positive. -/
theorem magicCeil_fin {f : Fmt} {x : Bits f} {s : Bool} {q : ℚ} (hx : val f x = .fin s q) (h : q ≤ limit f) :
    val f (magicCeil f x) = .fin (decide (⌈signed s q⌉ < 0)) |(⌈signed s q⌉ : ℚ)| := by
  have h0 : 0 ≤ q := Fold.rep_nonneg (hx ▸ FloatBits.val_rep f x)
  obtain ⟨m, hm, m1, m2, m3, m4⟩ := nearest (s := s) h0
  have hy := magic_fin hx h
  rw [magicCeil, fadd_val, sext_and, olt, hy, hx]
  by_cases hg : (FV.fin s (rne q : ℚ)).rel (.fin s q) = .less
  · rw [decide_eq_true hg, if_pos rfl, one_val]
    rw [rel_less, ← hm] at hg
    have hfl : ⌈signed s q⌉ = m + 1 := by
      rw [Int.ceil_eq_iff]; push_cast; constructor <;> linarith
    simp only [add]
    have e : signed s (rne q) + signed false 1 = ((m + 1 : Int) : ℚ) := by
      rw [← hm]; simp [signed]
    rw [e, hfl, ofQ_int (next_le (s := s) h0 h (by push_cast; linarith) (by push_cast; linarith))]
    split
    · rename_i hz
      rw [hz]; simp
    · rfl
  · rw [decide_eq_false hg, if_neg (by simp), zero_val]
    rw [rel_less, ← hm, not_lt] at hg
    have hfl : ⌈signed s q⌉ = m := by
      rw [Int.ceil_eq_iff]; constructor <;> linarith
    simp only [add]
    have e : signed s (rne q) + signed false 0 = (m : ℚ) := by
      rw [← hm]; simp [signed]
    rw [e, hfl, ofQ_int (next_le (s := s) h0 h (by linarith) (by linarith))]
    split
    · rename_i hz
      rw [hz]; simp
    · rfl

theorem signed_abs (n : Int) : signed (decide (n < 0)) |(n : ℚ)| = n := by
  by_cases h : n < 0
  · have : (n : ℚ) < 0 := by exact_mod_cast h
    simp [signed, h, abs_of_neg this]
  · have : (0 : ℚ) ≤ n := by exact_mod_cast not_lt.mp h
    simp [signed, h, abs_of_nonneg this]

/-- `floor` by adding a constant, within the limit: right but for the sign of a zero.
Missing: larger numbers, for which it is wrong (`magicFloor_odd_wrong`). -/
theorem magicFloor_partial {f : Fmt} (x : Bits f) (h : ∀ s q, val f x = .fin s q → q ≤ limit f) :
    RightValue .down (val f x) (val f (magicFloor f x)) := by
  cases hv : val f x with
  | nan =>
    rw [magicFloor, fadd_val, magic_nan hv]; rfl
  | inf s =>
    rw [magicFloor, fadd_val, sext_and, ogt, magic_inf hv, hv]
    cases s <;> rw [decide_eq_false (by simp [FV.rel]), if_neg (by simp), zero_val] <;> rfl
  | fin s q =>
    rw [magicFloor_fin hv (h s q hv)]
    exact ⟨_, _, ⟨Int.floor_le _, Int.lt_floor_add_one _⟩, signed_abs _, rfl⟩

/-- `ceil`, likewise. -/
theorem magicCeil_partial {f : Fmt} (x : Bits f) (h : ∀ s q, val f x = .fin s q → q ≤ limit f) :
    RightValue .up (val f x) (val f (magicCeil f x)) := by
  cases hv : val f x with
  | nan =>
    rw [magicCeil, fadd_val, magic_nan hv]; rfl
  | inf s =>
    rw [magicCeil, fadd_val, sext_and, olt, magic_inf hv, hv]
    cases s <;> rw [decide_eq_false (by simp [FV.rel]), if_neg (by simp), zero_val] <;> rfl
  | fin s q =>
    rw [magicCeil_fin hv (h s q hv)]
    exact ⟨_, _, ⟨Int.le_ceil _, Int.ceil_lt_add_one _⟩, signed_abs _, rfl⟩

/-- -2.5. -/
example : val .f32 (magicFloor .f32 0xC0200000#32) = .fin true 3 ∧
    val .f32 (magicCeil .f32 0xC0200000#32) = .fin true 2 := by decide +kernel

/-- `floor` loses the sign of a zero, and only that. -/
theorem magicFloor_sign_iff {f : Fmt} {x : Bits f} {s : Bool} {q : ℚ} (hx : val f x = .fin s q) (h : q ≤ limit f) :
    Right .down (val f x) (val f (magicFloor f x)) ↔ ¬ (s = true ∧ q = 0) := by
  have h0 : 0 ≤ q := Fold.rep_nonneg (hx ▸ FloatBits.val_rep f x)
  rw [magicFloor_fin hx h, hx]
  constructor
  · rintro ⟨n, hR, hs, he⟩ ⟨rfl, rfl⟩
    simp [signed] at he
  · intro hz
    refine ⟨⌊signed s q⌋, ⟨Int.floor_le _, Int.lt_floor_add_one _⟩, ?_, ?_⟩
    all_goals
      have hd : decide (⌊signed s q⌋ < 0) = s := by
        cases s
        · rw [decide_eq_false]; rw [not_lt]; exact Int.floor_nonneg.mpr h0
        · have : 0 < q := lt_of_le_of_ne h0 (fun e => hz ⟨rfl, e.symm⟩)
          rw [decide_eq_true]
          rw [Int.floor_lt]; simp [signed]; exact this
    · have := signed_abs ⌊signed s q⌋
      rw [hd] at this; exact this
    · rw [hd]

/-- `ceil` loses the sign of a negative number that goes to zero, and only that. -/
theorem magicCeil_sign_iff {f : Fmt} {x : Bits f} {s : Bool} {q : ℚ} (hx : val f x = .fin s q) (h : q ≤ limit f) :
    Right .up (val f x) (val f (magicCeil f x)) ↔ ¬ (s = true ∧ q < 1) := by
  have h0 : 0 ≤ q := Fold.rep_nonneg (hx ▸ FloatBits.val_rep f x)
  rw [magicCeil_fin hx h, hx]
  constructor
  · rintro ⟨n, hR, hs, he⟩ ⟨rfl, h1⟩
    injection he with he _
    have he := of_decide_eq_true he
    have : (0 : Int) ≤ ⌈signed true q⌉ := by
      have : (-1 : Int) < ⌈signed true q⌉ := by rw [Int.lt_ceil]; simp [signed]; exact h1
      omega
    omega
  · intro hz
    refine ⟨⌈signed s q⌉, ⟨Int.le_ceil _, Int.ceil_lt_add_one _⟩, ?_, ?_⟩
    all_goals
      have hd : decide (⌈signed s q⌉ < 0) = s := by
        cases s
        · rw [decide_eq_false]; rw [not_lt]; exact Int.ceil_nonneg h0
        · have : 1 ≤ q := by by_contra hc; exact hz ⟨rfl, not_le.mp hc⟩
          rw [decide_eq_true]
          have : ⌈signed true q⌉ ≤ -1 := by rw [Int.ceil_le]; simp [signed]; linarith
          omega
    · have := signed_abs ⌈signed s q⌉
      rw [hd] at this; exact this
    · rw [hd]

/-- `floor(-0.0f)` and `ceil(-0.5f)` are positive zero. -/
example : val .f32 (magicFloor .f32 0x80000000#32) = .fin false 0 ∧
    val .f32 (magicCeil .f32 0xBF000000#32) = .fin false 0 := by decide +kernel

/-- The values `RightValue` allows for an integer: the integer itself. -/
theorem right_of_int {m : Mode} {s : Bool} {n : Nat} {r : FV} (h : RightValue m (.fin s n) r) :
    ∃ s', r = .fin s' n ∧ signed s' n = signed s n := by
  obtain ⟨k, s', hR, hs, rfl⟩ := h
  have hk : k = (if s then -(n : Int) else n) := by
    refine rounded_unique hR ?_
    cases m <;> cases s <;> simp [Rounded, signed]
    all_goals positivity
  have hn : |(k : ℚ)| = n := by rw [hk]; cases s <;> simp
  rw [hn] at hs ⊢
  refine ⟨s', rfl, ?_⟩
  rw [hs, hk]; cases s <;> simp [signed]

/-- Beyond the limit `floor` is wrong for half of the odd integers. -/
theorem magicFloor_odd_wrong {f : Fmt} {x : Bits f} {s : Bool} {n : Nat} (hx : val f x = .fin s n)
    (hodd : n % 4 = if s then 3 else 1) (h1 : limit f < n) (h2 : n < 2 ^ (mant f + 1)) :
    ¬ RightValue .down (val f x) (val f (magicFloor f x)) := by
  have hy := magic_odd hx (by split at hodd <;> omega) h1 h2
  obtain ⟨k, hk⟩ : ∃ k : Int, k = if s then -(n : Int) - 1 else (n : Int) - 1 := ⟨_, rfl⟩
  have hsk : signed s ((if n % 4 = 1 then n - 1 else n + 1 : Int) : ℚ) = k := by
    cases s
    · rw [if_neg (by simp)] at hodd; rw [if_pos hodd, hk]; simp [signed]
    · rw [if_pos rfl] at hodd; rw [if_neg (by omega), hk]; simp [signed]; ring
  have hb : |k| ≤ 2 ^ (mant f + 1) := by
    have h3 : n + 1 ≤ 2 ^ (mant f + 1) := h2
    have h3 : (n : Int) + 1 ≤ 2 ^ (mant f + 1) := by exact_mod_cast h3
    rw [abs_le]; cases s <;> simp at hk <;> omega
  have hlt : (k : ℚ) < signed s n := by cases s <;> simp [signed, hk]
  intro h
  generalize ((if n % 4 = 1 then n - 1 else n + 1 : Int) : ℚ) = r at hy hsk
  rw [magicFloor, fadd_val, sext_and, ogt, hy, hx, decide_eq_false (by rw [rel_greater, hsk]; linarith),
    if_neg (by simp), zero_val] at h
  simp only [add, Bool.and_false] at h
  rw [hsk, show (k : ℚ) + signed false 0 = k by simp [signed], ofQ_int hb] at h
  obtain ⟨s', hr, hs⟩ := right_of_int h
  split at hr
  · rename_i hz
    injection hr with _ hn
    rw [← hn] at hlt
    rw [hz] at hlt
    cases s <;> simp [signed] at hlt
  · injection hr with e1 e2
    have hk2 := signed_abs k
    rw [e1, e2, hs] at hk2
    linarith

/-- Beyond the limit `ceil` is wrong for the other half. -/
theorem magicCeil_odd_wrong {f : Fmt} {x : Bits f} {s : Bool} {n : Nat} (hx : val f x = .fin s n)
    (hodd : n % 4 = if s then 1 else 3) (h1 : limit f < n) (h2 : n < 2 ^ (mant f + 1)) :
    ¬ RightValue .up (val f x) (val f (magicCeil f x)) := by
  have hy := magic_odd hx (by split at hodd <;> omega) h1 h2
  obtain ⟨k, hk⟩ : ∃ k : Int, k = if s then -(n : Int) + 1 else (n : Int) + 1 := ⟨_, rfl⟩
  have hsk : signed s ((if n % 4 = 1 then n - 1 else n + 1 : Int) : ℚ) = k := by
    cases s
    · rw [if_neg (by simp)] at hodd; rw [if_neg (by omega), hk]; simp [signed]
    · rw [if_pos rfl] at hodd; rw [if_pos hodd, hk]; simp [signed]; ring
  have hb : |k| ≤ 2 ^ (mant f + 1) := by
    have h3 : n + 1 ≤ 2 ^ (mant f + 1) := h2
    have h3 : (n : Int) + 1 ≤ 2 ^ (mant f + 1) := by exact_mod_cast h3
    rw [abs_le]; cases s <;> simp at hk <;> omega
  have hlt : signed s n < (k : ℚ) := by cases s <;> simp [signed, hk]
  intro h
  generalize ((if n % 4 = 1 then n - 1 else n + 1 : Int) : ℚ) = r at hy hsk
  rw [magicCeil, fadd_val, sext_and, olt, hy, hx, decide_eq_false (by rw [rel_less, hsk]; linarith),
    if_neg (by simp), zero_val] at h
  simp only [add, Bool.and_false] at h
  rw [hsk, show (k : ℚ) + signed false 0 = k by simp [signed], ofQ_int hb] at h
  obtain ⟨s', hr, hs⟩ := right_of_int h
  split at hr
  · rename_i hz
    injection hr with _ hn
    rw [← hn] at hlt
    rw [hz] at hlt
    cases s <;> simp [signed] at hlt
  · injection hr with e1 e2
    have hk2 := signed_abs k
    rw [e1, e2, hs] at hk2
    linarith

/-- `floor(8388609.0f)` is 8388608.0 and `ceil(8388611.0f)` is 8388612.0. -/
example : val .f32 (magicFloor .f32 0x4B000001#32) = .fin false 8388608 ∧
    val .f32 (magicCeil .f32 0x4B000003#32) = .fin false 8388612 := by decide +kernel

/-! ## `float16` on SSE2 -/

theorem halfRound_eq (x : Bits .f16) :
    halfRound x = if oge .f16 (x ^^^ (x &&& signMask .f16)) (plus .f16) then x else magic .f16 x := rfl

theorem halfRoundVarying_eq (x : Bits .f16) : halfRoundVarying x = halfRound x := by
  simp only [halfRoundVarying, halfRound]
  split <;> rfl

/-- An integer is rounded to itself. -/
theorem right_int (m : Mode) (s : Bool) (n : Nat) : Right m (.fin s n) (.fin s n) := by
  refine ⟨if s then -(n : Int) else n, ?_, ?_, ?_⟩
  · cases m <;> cases s <;> simp [Rounded, signed]
    all_goals positivity
  · cases s <;> simp [signed]
  · cases s <;> simp

/-- The version for `float16` is right for every argument. -/
theorem halfRound_right (x : Bits .f16) : Right .near (val .f16 x) (val .f16 (halfRound x)) := by
  obtain ⟨t, ht, ha, -, -⟩ := split_sign x
  rw [halfRound_eq, oge, ha, plus_val]
  cases hv : val .f16 x with
  | nan => rw [if_neg (by simp [FloatBits.FV.abs, FV.rel]), magic_nan hv]; rfl
  | inf s => rw [if_pos (by simp [FloatBits.FV.abs, FV.rel]), hv]; rfl
  | fin s q =>
    by_cases h : (big .f16 : ℚ) ≤ q
    · have hc : decide ((FloatBits.FV.abs (.fin s q)).rel (.fin false (big .f16)) = .greater ∨
          (FloatBits.FV.abs (.fin s q)).rel (.fin false (big .f16)) = .equal) = true := by
        rw [decide_eq_true_eq]
        simp only [FloatBits.FV.abs, FV.rel, signed, Bool.false_eq_true, if_false]
        rw [if_neg (not_lt.mpr h)]
        split <;> simp
      rw [if_pos hc, hv]
      obtain ⟨n, rfl⟩ := large_int (f := .f16) (s := s) (q := q) (hv ▸ FloatBits.val_rep .f16 x)
        (by simp only [mant]; simp only [big] at h; norm_num at h ⊢; exact h)
      exact right_int _ _ _
    · have hc : ¬ decide ((FloatBits.FV.abs (.fin s q)).rel (.fin false (big .f16)) = .greater ∨
          (FloatBits.FV.abs (.fin s q)).rel (.fin false (big .f16)) = .equal) = true := by
        rw [decide_eq_true_eq]
        simp only [FloatBits.FV.abs, FV.rel, signed, Bool.false_eq_true, if_false]
        rw [if_pos (not_le.mp h)]
        simp
      rw [if_neg hc, ← hv]
      refine magic_right_partial x (fun s' q' h' => ?_)
      rw [hv] at h'
      injection h' with _ h'
      rw [← h']
      exact (not_le.mp h).le

/-- 2047, which `magic` would get wrong, and -0.5. -/
example : val .f16 0x67FF#16 = .fin false 2047 ∧ val .f16 (halfRound 0x67FF#16) = .fin false 2047 ∧
    val .f16 (magic .f16 0x67FF#16) = .fin false 2048 ∧ val .f16 (halfRoundVarying 0xB800#16) = .fin true 0 := by
  decide +kernel

/-! ## `round` of the C library -/

theorem cRound_val {f : Fmt} (x : Bits f) : val f (enc f (cRound (val f x))) = cRound (val f x) := by
  apply val_enc
  have hr := FloatBits.val_rep f x
  cases hv : val f x with
  | nan => trivial
  | inf s => trivial
  | fin s q =>
    rw [hv] at hr
    refine rep_near hr (Int.floor_le_floor (by linarith)) ?_ s
    rw [Int.floor_le_iff]
    have := Int.le_ceil q
    linarith

theorem half_up (q : ℚ) : ⌊q + 1 / 2⌋ = rne q ↔ ¬ ∃ n : Int, Even n ∧ q = n + 1 / 2 := by
  have f1 := Int.floor_le q
  have f2 := Int.lt_floor_add_one q
  have hup : 1 / 2 ≤ q - ⌊q⌋ → ⌊q + 1 / 2⌋ = ⌊q⌋ + 1 := by
    intro h; rw [Int.floor_eq_iff]; push_cast; constructor <;> linarith
  constructor
  · rintro he ⟨n, hn, rfl⟩
    have hfl : ⌊(n : ℚ) + 1 / 2⌋ = n := by rw [Int.floor_eq_iff]; constructor <;> linarith
    rw [hup (by rw [hfl]; linarith), hfl, rne_add_even _ (Int.even_iff.mp hn), show rne (1 / 2) = 0 by decide +kernel] at he
    omega
  · intro h
    unfold rne
    split_ifs with ha hb hc
    · rw [Int.floor_eq_iff]; constructor <;> linarith
    · exact hup hb.le
    · exact absurd ⟨⌊q⌋, Int.even_iff.mpr hc, by linarith⟩ h
    · exact hup (by linarith)

/-- `round` of `double` on SSE2 and WebAssembly is right but for an even number and a
half. -/
theorem cRound_iff {f : Fmt} {x : Bits f} {s : Bool} {q : ℚ} (hx : val f x = .fin s q) :
    Right .near (val f x) (val f (enc f (cRound (val f x)))) ↔ ¬ ∃ n : Int, Even n ∧ q = n + 1 / 2 := by
  have hi := integral_right .near (v := val f x) (fun s q e => Fold.rep_nonneg (e ▸ FloatBits.val_rep f x))
  rw [cRound_val, ← half_up]
  rw [hx] at hi ⊢
  constructor
  · intro h
    have := right_unique h hi
    simp only [cRound, integral] at this
    injection this with _ this
    exact_mod_cast this
  · intro h
    simp only [cRound]
    rw [h]
    exact hi

/-- `round(0.5)` is 1 and `round(2.5)` is 3. -/
theorem cRound_wrong : cRound (val .f64 0x3FE0000000000000#64) = .fin false 1 ∧
    ¬ Right .near (val .f64 0x3FE0000000000000#64) (val .f64 (enc .f64 (cRound (val .f64 0x3FE0000000000000#64)))) := by
  refine ⟨by decide +kernel, fun h => ?_⟩
  exact (cRound_iff (f := .f64) (x := 0x3FE0000000000000#64) (s := false) (q := 1 / 2) (by decide +kernel)).mp h
    ⟨0, Even.zero, by norm_num⟩

/-! ## `float16` on Xe -/

theorem conv_rep {f g : Fmt} (hfg : f.le g) {v : FV} (h : Rep f v) : Fold.conv g v = v := by
  cases v with
  | nan => rfl
  | inf s => rfl
  | fin s q => exact Fold.round_exact hfg h

theorem viaFloat_eq (m : Mode) {v : FV} (h : Rep .f16 v) : viaFloat m v = integral m v := by
  rw [viaFloat, conv_rep (f := .f16) (g := .f32) (by decide) h, conv_rep (f := .f16) (by decide) (rep_integral h m)]

/-! ## `trunc` of `double` on Xe -/

/-- `mk` at the type of the builtins. -/
def mk64 (s : Bool) (E F : Nat) : BitVec 64 := mk .f64 s E F

section
variable {s : Bool} {E F : Nat} (hE : E < 2 ^ 11) (hF : F < 2 ^ 52)
include hE hF

theorem mk64_bit {i : Nat} (hi : i < 64) : (mk64 s E F).getLsbD i =
    if i < 52 then F.testBit i else if i < 63 then E.testBit (i - 52) else s :=
  FloatBits.mk_bit (f := .f64) hE hF hi

theorem and_high : mk64 s E F &&& 0xFFF0000000000000#64 = mk64 s E 0 := by
  have hm : ∀ i, i < 64 → (0xFFF0000000000000#64).getLsbD i = decide (52 ≤ i) := by decide
  apply BitVec.eq_of_getLsbD_eq
  intro i hi
  rw [BitVec.getLsbD_and, hm i hi]
  rw [mk64_bit hE hF hi, mk64_bit hE (Nat.two_pow_pos 52) hi]
  by_cases h : i < 52
  · rw [decide_eq_false (by omega), if_pos h, if_pos h]; simp
  · rw [decide_eq_true (by omega), Bool.and_true, if_neg h, if_neg h]

theorem and_low : mk64 s E F &&& 0x000FFFFFFFFFFFFF#64 = mk64 false 0 F := by
  have hm : ∀ i, i < 64 → (0x000FFFFFFFFFFFFF#64).getLsbD i = decide (i < 52) := by decide
  apply BitVec.eq_of_getLsbD_eq
  intro i hi
  rw [BitVec.getLsbD_and, hm i hi]
  rw [mk64_bit hE hF hi, mk64_bit (Nat.two_pow_pos 11) hF hi]
  by_cases h : i < 52
  · rw [decide_eq_true h, Bool.and_true, if_pos h, if_pos h]
  · rw [decide_eq_false h, if_neg h, if_neg h]; simp

theorem and_top : mk64 s E F &&& 0x8000000000000000#64 = mk64 s 0 0 :=
  FloatBits.signbits_mk (f := .f64) hE hF

theorem expi_eq : (mk64 s E F >>> 52) &&& 2047#64 = BitVec.ofNat 64 E := by
  apply BitVec.eq_of_toNat_eq
  have h : (mk64 s E F).toNat = 2 ^ 52 * (2 ^ 11 * s.toNat + E) + F :=
    FloatBits.mk_toNat (f := .f64) hE hF
  rw [BitVec.toNat_and, BitVec.toNat_ushiftRight, h, Nat.shiftRight_eq_div_pow, Nat.mul_add_div (by norm_num),
    Nat.div_eq_of_lt hF, Nat.add_zero, show (2047#64).toNat = 2 ^ 11 - 1 from rfl, Nat.and_two_pow_sub_one_eq_mod,
    Nat.mul_add_mod, Nat.mod_eq_of_lt hE, BitVec.toNat_ofNat, Nat.mod_eq_of_lt (by omega)]

theorem xeTrunc_eq (varying : Bool) : xeTrunc varying (mk64 s E F) =
    if E = 2047 then some (mk64 s E F)
    else if E < 1023 then some (mk64 (s && !varying) 0 0)
    else if E ≤ 1075 then some (mk64 s E (F / 2 ^ (1075 - E) * 2 ^ (1075 - E)))
    else none := by
  have h0 := and_high (s := s) hE hF
  have h1 := and_low (s := s) hE hF
  have h2 := and_top (s := s) hE hF
  have h3 := expi_eq (s := s) hE hF
  simp only [xeTrunc]
  rw [h0, h1, h2, h3]
  have e1 : (BitVec.ofNat 64 E == 2047#64) = decide (E = 2047) := by
    rw [Bool.eq_iff_iff, beq_iff_eq, decide_eq_true_eq, BitVec.toNat_eq, BitVec.toNat_ofNat,
      Nat.mod_eq_of_lt (by omega)]
    rfl
  have e2 : (BitVec.ofNat 64 E - 1023#64).sle (-1#64) = decide (E < 1023) := by
    have t1 : (BitVec.ofNat 64 E - 1023#64).toInt = (E : Int) - 1023 := by
      rw [BitVec.toInt_eq_toNat_cond, BitVec.toNat_sub, BitVec.toNat_ofNat, BitVec.toNat_ofNat]
      split <;> omega
    rw [BitVec.sle_eq_decide, t1, show (-1#64 : BitVec 64).toInt = -1 by decide]
    congr 1
    apply propext; omega
  rw [e1, e2]
  by_cases c1 : E = 2047
  · rw [decide_eq_true c1, if_pos rfl, if_pos c1]
  · rw [decide_eq_false c1, if_neg (by simp), if_neg c1]
    by_cases c2 : E < 1023
    · rw [decide_eq_true c2, if_pos rfl, if_pos c2]
      cases varying
      · simp
      · rw [if_pos rfl, BitVec.and_zero, Bool.not_true, Bool.and_false]
        rfl
    · rw [decide_eq_false c2, if_neg (by simp), if_neg c2]
      by_cases c3 : E ≤ 1075
      · have ht : (52#64 - (BitVec.ofNat 64 E - 1023#64)).toNat = 1075 - E := by
          rw [BitVec.toNat_sub, BitVec.toNat_sub, BitVec.toNat_ofNat, BitVec.toNat_ofNat, BitVec.toNat_ofNat]
          omega
        rw [ht, if_pos (by omega), if_pos c3, Option.map_some]
        congr 1
        have hp : 0 < 2 ^ (1075 - E) := Nat.two_pow_pos _
        have hle : F / 2 ^ (1075 - E) * 2 ^ (1075 - E) ≤ F := Nat.div_mul_le_self _ _
        have hsh : (mk64 false 0 F) >>> (1075 - E) <<< (1075 - E) =
            mk64 false 0 (F / 2 ^ (1075 - E) * 2 ^ (1075 - E)) := by
          apply BitVec.eq_of_toNat_eq
          have a : (mk64 false 0 F).toNat = 2 ^ 52 * (2 ^ 11 * 0 + 0) + F :=
            FloatBits.mk_toNat (f := .f64) (Nat.two_pow_pos 11) hF
          have b : (mk64 false 0 (F / 2 ^ (1075 - E) * 2 ^ (1075 - E))).toNat =
              2 ^ 52 * (2 ^ 11 * 0 + 0) + F / 2 ^ (1075 - E) * 2 ^ (1075 - E) :=
            FloatBits.mk_toNat (f := .f64) (Nat.two_pow_pos 11) (show _ < 2 ^ 52 by omega)
          rw [BitVec.toNat_shiftLeft, BitVec.toNat_ushiftRight, a, b, Nat.shiftLeft_eq, Nat.shiftRight_eq_div_pow]
          simp only [Nat.mul_zero, Nat.zero_add]
          exact Nat.mod_eq_of_lt (by omega)
        rw [hsh, BitVec.or_comm]
        exact FloatBits.or_mk (f := .f64) (s := false) hE (show _ < 2 ^ 52 by omega) s
      · have ht : ¬ (52#64 - (BitVec.ofNat 64 E - 1023#64)).toNat < 64 := by
          rw [BitVec.toNat_sub, BitVec.toNat_sub, BitVec.toNat_ofNat, BitVec.toNat_ofNat, BitVec.toNat_ofNat]
          omega
        rw [if_neg ht, if_neg c3]; rfl

end

/-- The biased exponent of a finite `double` tells the range it is in. -/
theorem range_f64 {E F : Nat} (hF : F < 2 ^ 52) {s s' : Bool} {q : ℚ} (hE : E < 2 ^ 11)
    (h : val .f64 (mk .f64 s E F) = .fin s' q) : s' = s ∧ E ≠ 2047 ∧ (q < 1 ↔ E < 1023) ∧ (q < 2 ^ 53 ↔ E ≤ 1075) ∧
    (1023 ≤ E → E ≤ 1075 → q = ((2 ^ 52 + F : Nat) : ℚ) / 2 ^ (1075 - E)) := by
  have hm := val_mk (f := .f64) (s := s) hE hF
  rw [h] at hm
  have hmant : mant .f64 = 52 := rfl
  have hhigh : high .f64 - 1 = 11 := rfl
  have hemin : Fmt.f64.emin = -1074 := rfl
  rw [hhigh] at hm
  split at hm
  · split at hm <;> cases hm
  · rename_i hE1
    split at hm
    · rename_i hE0
      injection hm with hs hq
      have hlt := FloatBits.denormal_lt (f := .f64) hF Fmt.f64.emin
      rw [← hq] at hlt
      have h1 : q < 1 := lt_of_lt_of_le hlt (by
        rw [hmant, hemin, show (1 : ℚ) = 2 ^ (0 : Int) by norm_num]; exact zp_le (by norm_num))
      refine ⟨hs, by omega, ⟨fun _ => by omega, fun _ => h1⟩, ⟨fun _ => by omega, fun _ => ?_⟩, fun _ _ => by omega⟩
      refine lt_trans h1 (by norm_num)
    · rename_i hE0
      injection hm with hs hq
      obtain ⟨b1, b2⟩ := FloatBits.normal_bounds (f := .f64) hF ((E : Int) - 1 + Fmt.f64.emin)
      rw [← hq, hmant, hemin] at b1 b2
      refine ⟨hs, by omega, ?_, ?_, ?_⟩
      · rw [show (1 : ℚ) = 2 ^ (0 : Int) by norm_num]
        constructor
        · intro h1
          have := zp_lt_iff.mp (lt_of_le_of_lt b1 h1); push_cast at this; omega
        · intro h1
          exact lt_of_lt_of_le b2 (zp_le (by push_cast; omega))
      · rw [show (2 : ℚ) ^ 53 = 2 ^ (53 : Int) by norm_num]
        constructor
        · intro h1
          have := zp_lt_iff.mp (lt_of_le_of_lt b1 h1); push_cast at this; omega
        · intro h1
          exact lt_of_lt_of_le b2 (zp_le (by push_cast; omega))
      · intro h1 h2
        rw [hq, hemin, hmant, div_eq_mul_inv, ← zpow_natCast, ← zpow_neg]
        congr 2
        omega

/-- `trunc` of a `double` on Xe: below `2 ^ 53`, but for the sign of a zero of the
varying version. -/
theorem xeTrunc_val {x : Bits .f64} {s : Bool} {q : ℚ} (hx : val .f64 x = .fin s q) (varying : Bool) (h : q < 2 ^ 53) :
    ∃ r, xeTrunc varying x = some r ∧ val .f64 r = .fin (s && !(varying && decide (q < 1))) ⌊q⌋ := by
  obtain ⟨s', E, F, hE, hF, rfl⟩ := FloatBits.fields .f64 x
  obtain ⟨rfl, hinf, h1, h53, hval⟩ := range_f64 hF hE hx
  have hq0 : 0 ≤ q := Fold.rep_nonneg (hx ▸ FloatBits.val_rep .f64 _)
  have he : xeTrunc varying (mk .f64 s E F) = _ := xeTrunc_eq (s := s) hE hF varying
  rw [he, if_neg hinf]
  by_cases c : E < 1023
  · refine ⟨_, if_pos c, ?_⟩
    have hz : ⌊q⌋ = 0 := by rw [Int.floor_eq_iff]; push_cast; exact ⟨hq0, by linarith [h1.mpr c]⟩
    refine (val_mk (f := .f64) (Nat.two_pow_pos 11) (Nat.two_pow_pos 52)).trans ?_
    rw [if_neg (by decide), if_pos rfl, hz, decide_eq_true (h1.mpr c), Bool.and_true]
    simp
  · have c3 := h53.mp h
    rw [if_neg c, if_pos c3]
    refine ⟨_, rfl, ?_⟩
    have hle : F / 2 ^ (1075 - E) * 2 ^ (1075 - E) ≤ F := Nat.div_mul_le_self _ _
    have hlt : ¬ q < 1 := fun hc => c (h1.mp hc)
    rw [decide_eq_false hlt, Bool.and_false, Bool.not_false, Bool.and_true]
    obtain ⟨-, -, -, -, hval'⟩ := range_f64 (s := s) (E := E) (F := F / 2 ^ (1075 - E) * 2 ^ (1075 - E))
      (lt_of_le_of_lt hle hF) (s' := s)
      (q := (2 ^ mant .f64 + F / 2 ^ (1075 - E) * 2 ^ (1075 - E) : Nat) * 2 ^ ((E : Int) - 1 + Fmt.f64.emin)) hE (by
        refine (val_mk (f := .f64) hE (lt_of_le_of_lt hle hF)).trans ?_
        rw [if_neg (show ¬ E = 2 ^ (high .f64 - 1) - 1 from hinf), if_neg (by omega)])
    refine (val_mk (f := .f64) hE (lt_of_le_of_lt hle hF)).trans ?_
    rw [if_neg (show ¬ E = 2 ^ (high .f64 - 1) - 1 from hinf), if_neg (by omega), hval' (by omega) c3, hval (by omega) c3]
    congr 1
    set t := 1075 - E
    have ht : t ≤ 52 := by omega
    have hp : (0 : ℚ) < 2 ^ t := by positivity
    have hsplit : 2 ^ 52 + F / 2 ^ t * 2 ^ t = (2 ^ (52 - t) + F / 2 ^ t) * 2 ^ t := by
      rw [Nat.add_mul, ← pow_add]; congr 2; omega
    have hmod := Nat.div_add_mod F (2 ^ t)
    have hml := Nat.mod_lt F (Nat.two_pow_pos t)
    have hN : 2 ^ 52 + F = (2 ^ (52 - t) + F / 2 ^ t) * 2 ^ t + F % 2 ^ t := by
      rw [← hsplit]; linarith [Nat.mul_comm (2 ^ t) (F / 2 ^ t)]
    generalize 2 ^ (52 - t) + F / 2 ^ t = c at hsplit hN
    have hfl : ⌊((2 ^ 52 + F : Nat) : ℚ) / 2 ^ t⌋ = (c : Int) := by
      have hml' : ((F % 2 ^ t : Nat) : ℚ) < 2 ^ t := by exact_mod_cast hml
      have hml0 : (0 : ℚ) ≤ ((F % 2 ^ t : Nat) : ℚ) := by positivity
      rw [Int.floor_eq_iff, hN, Int.cast_natCast, Nat.cast_add, Nat.cast_mul, Nat.cast_pow, Nat.cast_ofNat]
      constructor
      · rw [le_div_iff₀ hp]; linarith
      · rw [div_lt_iff₀ hp, add_mul, one_mul]; linarith
    rw [hfl, hsplit, Nat.cast_mul, Nat.cast_pow, Nat.cast_ofNat, mul_div_assoc, div_self hp.ne', mul_one,
      Int.cast_natCast]

/-- `trunc` of a `double` on Xe is right but for the sign of a zero of the varying
version and from `2 ^ 53` on.  Missing: those numbers (`xeTrunc_large_wrong`). -/
theorem xeTrunc_right_partial (varying : Bool) (x : Bits .f64) (h : ∀ s q, val .f64 x = .fin s q → q < 2 ^ 53) :
    ∃ r, xeTrunc varying x = some r ∧ RightValue .zero (val .f64 x) (val .f64 r) ∧
      (varying = false → Right .zero (val .f64 x) (val .f64 r)) := by
  have key : (∀ s q, val .f64 x ≠ .fin s q) → xeTrunc varying x = some x := by
    intro hn
    obtain ⟨s, E, F, hE, hF, rfl⟩ := FloatBits.fields .f64 x
    have he : E = 2047 := by
      by_contra hc
      have hm := val_mk (f := .f64) (s := s) hE hF
      rw [if_neg (show ¬ E = 2 ^ (high .f64 - 1) - 1 from hc)] at hm
      split at hm <;> exact hn _ _ hm
    exact (xeTrunc_eq (s := s) hE hF varying).trans (if_pos he)
  cases hv : val .f64 x with
  | nan => exact ⟨x, key (by rw [hv]; simp), hv, fun _ => hv⟩
  | inf s => exact ⟨x, key (by rw [hv]; simp), hv, fun _ => hv⟩
  | fin s q =>
    obtain ⟨r, hr, hval⟩ := xeTrunc_val hv varying (h s q hv)
    have hq0 : 0 ≤ q := Fold.rep_nonneg (hv ▸ FloatBits.val_rep .f64 _)
    have hi := integral_right .zero (v := .fin s q) (fun _ _ e => by injection e with _ e; exact e ▸ hq0)
    simp only [integral] at hi
    refine ⟨r, hr, ?_, ?_⟩
    · by_cases hz : varying = true ∧ q < 1
      · rw [hz.1, decide_eq_true hz.2, Bool.and_true, Bool.not_true, Bool.and_false] at hval
        have h0 : ⌊q⌋ = 0 := by rw [Int.floor_eq_iff]; push_cast; exact ⟨hq0, by linarith [hz.2]⟩
        rw [hval, h0]
        refine ⟨0, false, ?_, by simp [signed], by simp⟩
        cases s <;> simp [Rounded, signed, abs_of_nonneg hq0, hz.2] <;> exact hq0
      · have : (varying && decide (q < 1)) = false := by
          rw [Bool.eq_false_iff]
          intro hc
          rw [Bool.and_eq_true, decide_eq_true_eq] at hc
          exact hz hc
        rw [this, Bool.not_false, Bool.and_true] at hval
        rw [hval]
        exact right_value hi
    · rintro rfl
      rw [Bool.false_and, Bool.not_false, Bool.and_true] at hval
      rw [hval]
      exact hi

/-- The varying version loses the sign of a zero, and only that. -/
theorem xeTrunc_sign_iff {x r : Bits .f64} {s : Bool} {q : ℚ} (hx : val .f64 x = .fin s q) (h : q < 2 ^ 53)
    (hr : xeTrunc true x = some r) : Right .zero (val .f64 x) (val .f64 r) ↔ ¬ (s = true ∧ q < 1) := by
  obtain ⟨r', hr', hval⟩ := xeTrunc_val hx true h
  have e : r' = r := by
    have := hr'.symm.trans hr
    injection this
  rw [e] at hval
  have hq0 : 0 ≤ q := Fold.rep_nonneg (hx ▸ FloatBits.val_rep .f64 _)
  have hi := integral_right .zero (v := .fin s q) (fun _ _ e => by injection e with _ e; exact e ▸ hq0)
  simp only [integral] at hi
  rw [hx, hval, Bool.true_and]
  constructor
  · rintro h' ⟨rfl, h1⟩
    have := right_unique h' hi
    injection this with this _
    rw [decide_eq_true h1] at this
    simp at this
  · intro hz
    have : (s && !decide (q < 1)) = s := by
      cases s
      · rfl
      · rw [decide_eq_false (fun hc => hz ⟨rfl, hc⟩)]; rfl
    rw [this]
    exact hi

/-- From `2 ^ 53` on the result is a poison value: the shift is negative. -/
theorem xeTrunc_large_wrong {x : Bits .f64} {s : Bool} {q : ℚ} (hx : val .f64 x = .fin s q) (varying : Bool)
    (h : 2 ^ 53 ≤ q) : xeTrunc varying x = none := by
  obtain ⟨s', E, F, hE, hF, rfl⟩ := FloatBits.fields .f64 x
  obtain ⟨rfl, hinf, h1, h53, -⟩ := range_f64 hF hE hx
  have c : ¬ E ≤ 1075 := fun hc => absurd (h53.mpr hc) (not_lt.mpr h)
  refine (xeTrunc_eq (s := s) hE hF varying).trans ?_
  rw [if_neg hinf, if_neg (by omega), if_neg c]

/-- -2.5, -0.5 and `2 ^ 53`. -/
example : (xeTrunc true 0xC004000000000000#64).map (val .f64 ·) = some (.fin true 2) ∧
    (xeTrunc true 0xBFE0000000000000#64).map (val .f64 ·) = some (.fin false 0) ∧
    (xeTrunc false 0xBFE0000000000000#64).map (val .f64 ·) = some (.fin true 0) ∧
    val .f64 0x4340000000000000#64 = .fin false (2 ^ 53) ∧ xeTrunc false 0x4340000000000000#64 = none := by
  decide +kernel

/-! ## The functions of the standard library -/

/-- The functions that a target does not do by an instruction or a guarded
emulation. -/
def Emulated (t : Target) (fn : Fn) (f : Fmt) : Prop :=
  ((t = .sse2 ∨ t = .wasm) ∧ (f = .f32 ∧ fn ≠ .trunc ∨ f = .f64 ∧ fn = .round)) ∨ (t = .xe ∧ f = .f64)

theorem viaFloat_right (m : Mode) (x : Bits .f16) :
    Right m (val .f16 x) (val .f16 (enc .f16 (viaFloat m (val .f16 x)))) := by
  rw [viaFloat_eq m (FloatBits.val_rep .f16 x)]
  exact exact_right m x

theorem half_right (varying : Bool) (x : Bits .f16) :
    Right .near (val .f16 x) (val .f16 (if varying then halfRoundVarying x else halfRound x)) := by
  cases varying
  · exact halfRound_right x
  · rw [if_pos rfl, halfRoundVarying_eq]; exact halfRound_right x

/-- The functions return what is documented, whatever the rounding mode of the
processor.  Missing: the functions of `Emulated`, see `call_small_partial`
and the theorems named `_wrong`. -/
theorem call_right_partial {t : Target} {fn : Fn} {f : Fmt} (h : ¬ Emulated t fn f) (varying : Bool) (x : Bits f) :
    ∃ r, call t fn varying f x = some r ∧ Right (doc fn) (val f x) (val f r) := by
  have he : ∀ m, Right m (val f x) (val f (exact f m x)) := fun m => exact_right m x
  cases t with
  | generic => exact ⟨_, rfl, by cases fn <;> exact he _⟩
  | sse4 m => cases fn <;> cases f <;> exact ⟨_, rfl, he _⟩
  | sse2 =>
    cases f with
    | f16 =>
      cases fn with
      | round => exact ⟨_, rfl, half_right varying x⟩
      | floor => exact ⟨_, rfl, he .down⟩
      | ceil => exact ⟨_, rfl, he .up⟩
      | trunc => exact ⟨_, rfl, he .zero⟩
    | f32 =>
      by_cases hf : fn = .trunc
      · subst hf; exact ⟨_, rfl, he .zero⟩
      · exact absurd (Or.inl ⟨Or.inl rfl, Or.inl ⟨rfl, hf⟩⟩) h
    | f64 =>
      cases fn with
      | round => exact absurd (Or.inl ⟨Or.inl rfl, Or.inr ⟨rfl, rfl⟩⟩) h
      | floor => exact ⟨_, rfl, he .down⟩
      | ceil => exact ⟨_, rfl, he .up⟩
      | trunc => exact ⟨_, rfl, he .zero⟩
  | wasm =>
    cases f with
    | f16 => cases fn <;> exact ⟨_, rfl, he _⟩
    | f32 =>
      by_cases hf : fn = .trunc
      · subst hf; exact ⟨_, rfl, he .zero⟩
      · exact absurd (Or.inl ⟨Or.inr rfl, Or.inl ⟨rfl, hf⟩⟩) h
    | f64 =>
      cases fn with
      | round => exact absurd (Or.inl ⟨Or.inr rfl, Or.inr ⟨rfl, rfl⟩⟩) h
      | floor => exact ⟨_, rfl, he .down⟩
      | ceil => exact ⟨_, rfl, he .up⟩
      | trunc => exact ⟨_, rfl, he .zero⟩
  | xe =>
    cases f with
    | f16 => cases fn <;> exact ⟨_, rfl, viaFloat_right _ x⟩
    | f32 => cases fn <;> exact ⟨_, rfl, he _⟩
    | f64 => exact absurd (Or.inr ⟨rfl, rfl⟩) h

/-- Every function, for NaN, the infinities and numbers up to 1024 (`float16`), 8388608
(`float`) or 4503599254740992 (`double`): the documented value, but for the
sign of a zero.  Missing: larger numbers, the sign of a zero, and `round` of `double` on SSE2
and WebAssembly, where a half is rounded away from zero (`cRound_iff`). -/
theorem call_small_partial (t : Target) (fn : Fn) (varying : Bool) {f : Fmt} (x : Bits f)
    (h : ∀ s q, val f x = .fin s q → q ≤ limit f)
    (hc : ¬ ((t = .sse2 ∨ t = .wasm) ∧ fn = .round ∧ f = .f64)) :
    ∃ r, call t fn varying f x = some r ∧ RightValue (doc fn) (val f x) (val f r) := by
  by_cases he : Emulated t fn f
  · have h1 := right_value (magic_right_partial x h)
    have h2 := magicFloor_partial x h
    have h3 := magicCeil_partial x h
    rcases he with ⟨ht, hf⟩ | ⟨rfl, rfl⟩
    · have hf : f = .f32 ∧ fn ≠ .trunc := by
        rcases hf with hf | hf
        · exact hf
        · exact absurd ⟨ht, hf.2, hf.1⟩ hc
      obtain ⟨rfl, hfn⟩ := hf
      cases fn with
      | round => rcases ht with rfl | rfl <;> exact ⟨_, rfl, h1⟩
      | floor => rcases ht with rfl | rfl <;> exact ⟨_, rfl, h2⟩
      | ceil => rcases ht with rfl | rfl <;> exact ⟨_, rfl, h3⟩
      | trunc => exact absurd rfl hfn
    · cases fn with
      | round => exact ⟨_, rfl, h1⟩
      | floor => exact ⟨_, rfl, h2⟩
      | ceil => exact ⟨_, rfl, h3⟩
      | trunc =>
        obtain ⟨r, hr, hv, -⟩ := xeTrunc_right_partial varying x (fun s q e => by
          refine lt_of_le_of_lt (h s q e) ?_
          have : limit .f64 < 2 ^ 53 := by decide
          exact_mod_cast this)
        exact ⟨r, hr, hv⟩
  · obtain ⟨r, h1, h2⟩ := call_right_partial he varying x
    exact ⟨r, h1, right_value h2⟩

/-- `round(-2.5f)` on SSE2 and on SSE4, with the processor in the mode that rounds up. -/
example : (call .sse2 .round true .f32 0xC0200000#32).map (val .f32 ·) = some (.fin true 2) ∧
    (call (.sse4 .up) .round true .f32 0xC0200000#32).map (val .f32 ·) = some (.fin true 2) := by decide +kernel

/-- A program that rounds 8388609.0f and 8388611.0f gets other numbers on SSE2 and WebAssembly. -/
theorem call_float_wrong (varying : Bool) :
    (∀ t, t = .sse2 ∨ t = .wasm →
      (call t .round varying .f32 0x4B000001#32).map (val .f32 ·) = some (.fin false 8388608) ∧
      (call t .floor varying .f32 0x4B000001#32).map (val .f32 ·) = some (.fin false 8388608) ∧
      (call t .ceil varying .f32 0x4B000003#32).map (val .f32 ·) = some (.fin false 8388612)) ∧
    (call .generic .round varying .f32 0x4B000001#32).map (val .f32 ·) = some (.fin false 8388609) := by
  refine ⟨?_, by revert varying; decide +kernel⟩
  rintro t (rfl | rfl) <;> revert varying <;> decide +kernel

/-- The same for `double`: 0.5 on SSE2 and WebAssembly, 4503599254740993.0 and
`2 ^ 53` on Xe. -/
theorem call_double_wrong (varying : Bool) :
    (∀ t, t = .sse2 ∨ t = .wasm →
      (call t .round varying .f64 0x3FE0000000000000#64).map (val .f64 ·) = some (.fin false 1)) ∧
    (call .xe .round varying .f64 0x432FFFFFD3944002#64).map (val .f64 ·) = some (.fin false 4503599254740992) ∧
    (call .xe .floor varying .f64 0x432FFFFFD3944002#64).map (val .f64 ·) = some (.fin false 4503599254740992) ∧
    call .xe .trunc varying .f64 0x4340000000000000#64 = none := by
  refine ⟨?_, ?_⟩
  · rintro t (rfl | rfl) <;> revert varying <;> decide +kernel
  · revert varying; decide +kernel

end Ispc.Rounding
