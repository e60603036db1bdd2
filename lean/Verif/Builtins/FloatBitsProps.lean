import Verif.Builtins.FloatBits

/-!
# Properties of the functions on the bits of floating-point numbers
-/

namespace Ispc.FloatBits

open Ispc.Fold (Fmt FV Rel signed round Rep)

/-! ## Fields -/

/-- A bit pattern from its sign, exponent and fraction. -/
def mk (f : Fmt) (s : Bool) (E F : Nat) : Bits f :=
  BitVec.ofNat (width f) (2 ^ mant f * (2 ^ (high f - 1) * s.toNat + E) + F)

theorem width_eq (f : Fmt) : width f = mant f + (high f - 1) + 1 ∧ 0 < mant f ∧ 0 < high f - 1 := by
  cases f <;> decide

theorem mk_lt {f : Fmt} {s : Bool} {E F : Nat} (hE : E < 2 ^ (high f - 1)) (hF : F < 2 ^ mant f) :
    2 ^ mant f * (2 ^ (high f - 1) * s.toNat + E) + F < 2 ^ width f := by
  have h1 : 2 ^ (high f - 1) * s.toNat + E < 2 ^ (high f - 1) * 2 := by cases s <;> simp <;> omega
  have h2 : 2 ^ mant f * (2 ^ (high f - 1) * s.toNat + E + 1) ≤ 2 ^ mant f * (2 ^ (high f - 1) * 2) :=
    Nat.mul_le_mul_left _ h1
  rw [(width_eq f).1, Nat.pow_succ, Nat.pow_add, Nat.mul_assoc]
  rw [Nat.mul_add] at h2
  omega

theorem mk_toNat {f : Fmt} {s : Bool} {E F : Nat} (hE : E < 2 ^ (high f - 1)) (hF : F < 2 ^ mant f) :
    (mk f s E F).toNat = 2 ^ mant f * (2 ^ (high f - 1) * s.toNat + E) + F := by
  rw [mk, BitVec.toNat_ofNat, Nat.mod_eq_of_lt (mk_lt hE hF)]

theorem frac_lt (f : Fmt) (b : Bits f) : frac f b < 2 ^ mant f := Nat.mod_lt _ (Nat.two_pow_pos _)

theorem expo_lt (f : Fmt) (b : Bits f) : expo f b < 2 ^ (high f - 1) := Nat.mod_lt _ (Nat.two_pow_pos _)

theorem toNat_eq (f : Fmt) (b : Bits f) :
    b.toNat = 2 ^ mant f * (2 ^ (high f - 1) * (sgn f b).toNat + expo f b) + frac f b := by
  have h := b.isLt
  have h1 := Nat.div_add_mod b.toNat (2 ^ mant f)
  have h2 := Nat.div_add_mod (b.toNat / 2 ^ mant f) (2 ^ (high f - 1))
  have h3 : b.toNat / 2 ^ mant f / 2 ^ (high f - 1) = (sgn f b).toNat := by
    rw [Nat.div_div_eq_div_mul, ← Nat.pow_add]
    have hw := (width_eq f).1
    have hw1 : mant f + (high f - 1) = width f - 1 := by omega
    rw [hw1]
    have hp : 2 ^ width f = 2 ^ (width f - 1) * 2 := by
      rw [← Nat.pow_succ]; congr 1; omega
    unfold sgn
    by_cases hs : 2 ^ (width f - 1) ≤ b.toNat
    · simp only [hs, decide_true, Bool.toNat_true]
      exact Nat.div_eq_of_lt_le (by omega) (by omega)
    · simp only [hs, decide_false, Bool.toNat_false]
      exact Nat.div_eq_of_lt (by omega)
  rw [h3] at h2
  show _ = 2 ^ mant f * (2 ^ (high f - 1) * (sgn f b).toNat + b.toNat / 2 ^ mant f % 2 ^ (high f - 1))
    + b.toNat % 2 ^ mant f
  rw [h2, h1]

theorem mk_fields (f : Fmt) (b : Bits f) : mk f (sgn f b) (expo f b) (frac f b) = b := by
  apply BitVec.eq_of_toNat_eq
  rw [mk_toNat (expo_lt f b) (frac_lt f b), ← toNat_eq]

theorem frac_mk {f : Fmt} {s : Bool} {E F : Nat} (hE : E < 2 ^ (high f - 1)) (hF : F < 2 ^ mant f) :
    frac f (mk f s E F) = F := by
  rw [frac, mk_toNat hE hF, Nat.mul_add_mod, Nat.mod_eq_of_lt hF]

theorem expo_mk {f : Fmt} {s : Bool} {E F : Nat} (hE : E < 2 ^ (high f - 1)) (hF : F < 2 ^ mant f) :
    expo f (mk f s E F) = E := by
  rw [expo, mk_toNat hE hF, Nat.mul_add_div (Nat.two_pow_pos _), Nat.div_eq_of_lt hF, Nat.add_zero,
    Nat.mul_add_mod, Nat.mod_eq_of_lt hE]

theorem sgn_mk {f : Fmt} {s : Bool} {E F : Nat} (hE : E < 2 ^ (high f - 1)) (hF : F < 2 ^ mant f) :
    sgn f (mk f s E F) = s := by
  have hw1 : mant f + (high f - 1) = width f - 1 := by have := (width_eq f).1; omega
  rw [sgn, mk_toNat hE hF, ← hw1, Nat.pow_add]
  have h2 : 2 ^ mant f * (E + 1) ≤ 2 ^ mant f * 2 ^ (high f - 1) := Nat.mul_le_mul_left _ hE
  rw [Nat.mul_add] at h2
  cases s
  · simp; omega
  · simp [Nat.mul_add]; omega

theorem mk_bit {f : Fmt} {s : Bool} {E F : Nat} (hE : E < 2 ^ (high f - 1)) (hF : F < 2 ^ mant f)
    {i : Nat} (hi : i < width f) :
    (mk f s E F).getLsbD i =
      if i < mant f then F.testBit i else if i < width f - 1 then E.testBit (i - mant f) else s := by
  rw [BitVec.getLsbD, mk_toNat hE hF, Nat.testBit_two_pow_mul_add _ hF]
  have hw := (width_eq f).1
  split
  · rfl
  · rw [Nat.testBit_two_pow_mul_add _ hE]
    split
    · rw [if_pos (by omega)]
    · rw [if_neg (by omega)]
      have : i - mant f - (high f - 1) = 0 := by omega
      rw [this]; cases s <;> rfl

theorem expMask_bit (f : Fmt) : ∀ i, i < width f →
    (expMask f).getLsbD i = decide (mant f ≤ i ∧ i < width f - 1) := by cases f <;> decide

theorem absMask_bit (f : Fmt) : ∀ i, i < width f →
    (absMask f).getLsbD i = decide (i < width f - 1) := by cases f <;> decide

theorem signMask_bit (f : Fmt) : ∀ i, i < width f →
    (signMask f).getLsbD i = decide (i = width f - 1) := by cases f <;> decide

theorem infBits_eq (f : Fmt) : infBits f = mk f false (2 ^ (high f - 1) - 1) 0 := by
  cases f <;> decide

theorem expMask_eq (f : Fmt) : expMask f = mk f false (2 ^ (high f - 1) - 1) 0 := by
  cases f <;> decide

theorem halfExp_eq (f : Fmt) : halfExp f = mk f false (2 ^ (high f - 2) - 2) 0 := by
  cases f <;> decide

theorem pos_mant (f : Fmt) : 0 < 2 ^ mant f := Nat.two_pow_pos _
theorem pos_expo (f : Fmt) : 0 < 2 ^ (high f - 1) := Nat.two_pow_pos _

section
variable {f : Fmt} {s : Bool} {E F : Nat} (hE : E < 2 ^ (high f - 1)) (hF : F < 2 ^ mant f)
include hE hF

theorem abs_mk : abs f (mk f s E F) = mk f false E F := by
  apply BitVec.eq_of_getLsbD_eq
  intro i hi
  rw [abs, BitVec.getLsbD_and, mk_bit hE hF hi, mk_bit hE hF hi, absMask_bit f i hi]
  split
  · rw [decide_eq_true (by have := width_eq f; omega), Bool.and_true]
  · split
    · rename_i h; rw [decide_eq_true h, Bool.and_true]
    · rename_i h; rw [decide_eq_false h, Bool.and_false]

theorem signbits_mk : signbits f (mk f s E F) = mk f s 0 0 := by
  apply BitVec.eq_of_getLsbD_eq
  intro i hi
  rw [signbits, BitVec.getLsbD_and, mk_bit hE hF hi, mk_bit (pos_expo f) (pos_mant f) hi, signMask_bit f i hi]
  have := width_eq f
  split
  · rw [decide_eq_false (by omega)]; simp
  · split
    · rw [decide_eq_false (by omega)]; simp
    · rw [decide_eq_true (by omega), Bool.and_true]

theorem andExp_mk : mk f s E F &&& expMask f = mk f false E 0 := by
  apply BitVec.eq_of_getLsbD_eq
  intro i hi
  rw [BitVec.getLsbD_and, mk_bit hE hF hi, mk_bit hE (pos_mant f) hi, expMask_bit f i hi]
  split
  · rw [decide_eq_false (by omega)]; simp
  · split
    · rw [decide_eq_true (by omega), Bool.and_true]
    · rw [decide_eq_false (by omega), Bool.and_false]

theorem andNotExp_mk : mk f s E F &&& ~~~ expMask f = mk f s 0 F := by
  apply BitVec.eq_of_getLsbD_eq
  intro i hi
  rw [BitVec.getLsbD_and, BitVec.getLsbD_not, mk_bit hE hF hi, mk_bit (pos_expo f) hF hi, expMask_bit f i hi,
    decide_eq_true hi, Bool.true_and]
  split
  · rw [decide_eq_false (by omega)]; simp
  · split
    · rw [decide_eq_true (by omega)]; simp
    · rw [decide_eq_false (by omega)]; simp

theorem or_mk (s' : Bool) : mk f s 0 F ||| mk f s' E 0 = mk f (s || s') E F := by
  apply BitVec.eq_of_getLsbD_eq
  intro i hi
  rw [BitVec.getLsbD_or, mk_bit (pos_expo f) hF hi, mk_bit hE (pos_mant f) hi, mk_bit hE hF hi]
  split
  · simp
  · split <;> simp

theorem mk_inj {s' : Bool} {E' F' : Nat} (hE' : E' < 2 ^ (high f - 1)) (hF' : F' < 2 ^ mant f) :
    mk f s E F = mk f s' E' F' ↔ s = s' ∧ E = E' ∧ F = F' := by
  constructor
  · intro h
    refine ⟨?_, ?_, ?_⟩
    · rw [← sgn_mk (s := s) hE hF, h, sgn_mk hE' hF']
    · rw [← expo_mk (s := s) hE hF, h, expo_mk hE' hF']
    · rw [← frac_mk (s := s) hE hF, h, frac_mk hE' hF']
  · rintro ⟨rfl, rfl, rfl⟩; rfl

end

/-- Every bit pattern is a sign, an exponent and a fraction. -/
theorem fields (f : Fmt) (b : Bits f) : ∃ s E F, E < 2 ^ (high f - 1) ∧ F < 2 ^ mant f ∧ b = mk f s E F :=
  ⟨_, _, _, expo_lt f b, frac_lt f b, (mk_fields f b).symm⟩

theorem val_mk {f : Fmt} {s : Bool} {E F : Nat} (hE : E < 2 ^ (high f - 1)) (hF : F < 2 ^ mant f) :
    val f (mk f s E F) =
      if E = 2 ^ (high f - 1) - 1 then if F = 0 then .inf s else .nan
      else if E = 0 then .fin s (F * 2 ^ f.emin)
      else .fin s ((2 ^ mant f + F : Nat) * 2 ^ ((E : Int) - 1 + f.emin)) := by
  rw [val, expo_mk hE hF, frac_mk hE hF, sgn_mk hE hF]

/-! ## The bit patterns and the values of the format -/

theorem prec_mant (f : Fmt) : f.prec = mant f + 1 := by cases f <;> rfl

theorem emax_eq (f : Fmt) : (f.emax : Int) = f.emin + mant f + 2 ^ (high f - 1) - 2 := by
  cases f <;> decide

theorem zp (a b : Int) : (2 : ℚ) ^ (a + b) = 2 ^ a * 2 ^ b := zpow_add₀ (by norm_num) a b

theorem zp_pos (a : Int) : (0 : ℚ) < 2 ^ a := Fold.zpow_pos2 a

theorem zp_le {a b : Int} (h : a ≤ b) : (2 : ℚ) ^ a ≤ 2 ^ b := zpow_le_zpow_right₀ (by norm_num) h

theorem zp_lt {a b : Int} (h : a < b) : (2 : ℚ) ^ a < 2 ^ b := zpow_lt_zpow_right₀ (by norm_num) h

theorem zp_lt_iff {a b : Int} : (2 : ℚ) ^ a < 2 ^ b ↔ a < b := zpow_lt_zpow_iff_right₀ (by norm_num)

theorem zp_le_iff {a b : Int} : (2 : ℚ) ^ a ≤ 2 ^ b ↔ a ≤ b := zpow_le_zpow_iff_right₀ (by norm_num)

/-- The magnitude of a normal number lies between two powers of two. -/
theorem normal_bounds {f : Fmt} {F : Nat} (hF : F < 2 ^ mant f) (k : Int) :
    (2 : ℚ) ^ (mant f + k) ≤ (2 ^ mant f + F : Nat) * 2 ^ k ∧
    ((2 ^ mant f + F : Nat) * (2 : ℚ) ^ k) < 2 ^ (mant f + 1 + k) := by
  have h := zp_pos k
  have h1 : ((2 : ℚ) ^ mant f) ≤ (2 ^ mant f + F : Nat) := by exact_mod_cast Nat.le_add_right _ _
  have h2 : ((2 ^ mant f + F : Nat) : ℚ) < 2 ^ (mant f + 1) := by
    have : 2 ^ mant f + F < 2 ^ (mant f + 1) := by rw [Nat.pow_succ]; omega
    exact_mod_cast this
  constructor
  · rw [zp, zpow_natCast]; exact mul_le_mul_of_nonneg_right h1 h.le
  · rw [zp, show ((mant f : Int) + 1) = ((mant f + 1 : Nat) : Int) by push_cast; rfl, zpow_natCast]
    exact mul_lt_mul_of_pos_right h2 h

theorem denormal_lt {f : Fmt} {F : Nat} (hF : F < 2 ^ mant f) (k : Int) :
    ((F : ℚ) * 2 ^ k) < 2 ^ (mant f + k) := by
  have h1 : (F : ℚ) < 2 ^ mant f := by exact_mod_cast hF
  rw [zp, zpow_natCast]
  exact mul_lt_mul_of_pos_right h1 (zp_pos k)

/-- Every bit pattern stands for a number of the format. -/
theorem val_rep (f : Fmt) (b : Bits f) : Rep f (val f b) := by
  obtain ⟨s, E, F, hE, hF, rfl⟩ := fields f b
  rw [val_mk hE hF]
  have hm := emax_eq f
  have h63 : 2 ≤ (2 : Int) ^ (high f - 1) := by cases f <;> decide
  split
  · split <;> trivial
  · split
    · refine ⟨F, f.emin, rfl, ?_, le_refl _, ?_⟩
      · rw [prec_mant, Nat.pow_succ]; omega
      · refine lt_of_lt_of_le (denormal_lt hF _) ?_
        rw [← zpow_natCast]
        exact zp_le (by omega)
    · rename_i h1 h2
      refine ⟨2 ^ mant f + F, (E : Int) - 1 + f.emin, by push_cast; rfl, ?_, by omega, ?_⟩
      · rw [prec_mant, Nat.pow_succ]; omega
      · refine lt_of_lt_of_le (normal_bounds hF _).2 ?_
        rw [← zpow_natCast]
        apply zp_le
        have : (E : Int) + 1 < 2 ^ (high f - 1) := by
          have : E + 1 < 2 ^ (high f - 1) := by omega
          exact_mod_cast this
        omega

/-- Every number of the format has a bit pattern. -/
theorem val_onto (f : Fmt) (v : FV) (h : Rep f v) : ∃ b, val f b = v := by
  have h1 : 1 < 2 ^ (high f - 1) := by cases f <;> decide
  have h2 : 1 < 2 ^ mant f := by cases f <;> decide
  cases v with
  | nan =>
    refine ⟨mk f false (2 ^ (high f - 1) - 1) 1, ?_⟩
    rw [val_mk (by omega) h2, if_pos rfl, if_neg (by omega)]
  | inf s =>
    refine ⟨mk f s (2 ^ (high f - 1) - 1) 0, ?_⟩
    rw [val_mk (by omega) (by omega), if_pos rfl, if_pos rfl]
  | fin s q =>
    obtain ⟨m, e, rfl, hm, he, hlt⟩ := h
    rw [prec_mant] at hm
    by_cases hd : (m : ℚ) * 2 ^ e < 2 ^ (mant f + f.emin)
    · obtain ⟨d, hd'⟩ := Int.le.dest he
      have hq : (m : ℚ) * 2 ^ e = ((m * 2 ^ d : Nat) : ℚ) * 2 ^ f.emin := by
        rw [← hd', add_comm, zp, zpow_natCast]; push_cast; ring
      have hF : m * 2 ^ d < 2 ^ mant f := by
        rw [hq, zp, zpow_natCast] at hd
        have := lt_of_mul_lt_mul_right hd (zp_pos _).le
        exact_mod_cast this
      refine ⟨mk f s 0 (m * 2 ^ d), ?_⟩
      rw [val_mk (by omega) hF, if_neg (by omega), if_pos rfl, hq]
    · rw [not_lt] at hd
      have hq0 : (0 : ℚ) < m * 2 ^ e := lt_of_lt_of_le (zp_pos _) hd
      have hl := Fold.log_le hq0
      have hl2 := Fold.lt_log ((m : ℚ) * 2 ^ e)
      set k := Int.log 2 ((m : ℚ) * 2 ^ e) with hk
      have hk1 : mant f + f.emin ≤ k := by
        have := zp_lt_iff.mp (lt_of_le_of_lt hd hl2); omega
      have hk2 : k < f.emax := by
        have := lt_of_le_of_lt hl hlt
        rw [← zpow_natCast] at this
        exact zp_lt_iff.mp this
      have hek : k - mant f ≤ e := by
        by_contra hcon
        have h3 : (m : ℚ) * 2 ^ e < 2 ^ ((mant f + 1 : Nat) + e) := by
          rw [zp, zpow_natCast]
          have : (m : ℚ) < 2 ^ (mant f + 1) := by exact_mod_cast hm
          exact mul_lt_mul_of_pos_right this (zp_pos _)
        have := zp_lt_iff.mp (lt_of_le_of_lt hl h3)
        push_cast at this
        omega
      obtain ⟨d, hd'⟩ := Int.le.dest hek
      have hq : (m : ℚ) * 2 ^ e = ((m * 2 ^ d : Nat) : ℚ) * 2 ^ (k - mant f) := by
        rw [← hd', add_comm, zp, zpow_natCast]; push_cast; ring
      rw [hq, show k + 1 = ((mant f + 1 : Nat) : Int) + (k - mant f) by push_cast; omega, zp, zpow_natCast] at hl2
      have hF2 : m * 2 ^ d < 2 ^ (mant f + 1) := by
        have := lt_of_mul_lt_mul_right hl2 (zp_pos _).le
        exact_mod_cast this
      have hF1 : 2 ^ mant f ≤ m * 2 ^ d := by
        rw [hq] at hl
        have hkk : (2 : ℚ) ^ k = 2 ^ mant f * 2 ^ (k - mant f) := by
          rw [← zpow_natCast, ← zp]; congr 1; omega
        have hl3 : (2 : ℚ) ^ mant f * 2 ^ (k - mant f) ≤ ((m * 2 ^ d : Nat) : ℚ) * 2 ^ (k - mant f) := by
          rw [← hkk]; exact hl
        have := le_of_mul_le_mul_right hl3 (zp_pos _)
        exact_mod_cast this
      rw [Nat.pow_succ] at hF2
      have hm := emax_eq f
      have hcast : ((2 ^ (high f - 1) : Nat) : Int) = 2 ^ (high f - 1) := by push_cast; rfl
      obtain ⟨E, hE⟩ : ∃ E : Nat, (E : Int) = k - mant f - f.emin + 1 := ⟨(k - mant f - f.emin + 1).toNat, by omega⟩
      refine ⟨mk f s E (m * 2 ^ d - 2 ^ mant f), ?_⟩
      rw [val_mk (by omega) (by omega), if_neg (by omega), if_neg (by omega), hq]
      have h5 : 2 ^ mant f + (m * 2 ^ d - 2 ^ mant f) = m * 2 ^ d := by omega
      rw [h5, hE]
      congr 3
      omega

/-- Two bit patterns stand for the same number only if they are equal, or both
are NaN. -/
theorem val_inj {f : Fmt} {a b : Bits f} (h : val f a = val f b) : a = b ∨ val f a = .nan := by
  obtain ⟨s, E, F, hE, hF, rfl⟩ := fields f a
  obtain ⟨s', E', F', hE', hF', rfl⟩ := fields f b
  have key : ∀ {m m' : Nat} {k : Int}, (m : ℚ) * 2 ^ k = m' * 2 ^ k → m = m' := by
    intro m m' k h
    have := mul_right_cancel₀ (zp_pos k).ne' h
    exact_mod_cast this
  have step : ∀ {F F' : Nat} {k k' : Int}, F < 2 ^ mant f → F' < 2 ^ mant f → k < k' →
      ((2 ^ mant f + F : Nat) : ℚ) * 2 ^ k ≠ (2 ^ mant f + F' : Nat) * 2 ^ k' := by
    intro F F' k k' hF hF' hk h
    have h1 := (normal_bounds hF k).2
    have h2 := (normal_bounds hF' k').1
    rw [h] at h1
    have := zp_lt_iff.mp (lt_of_le_of_lt h2 h1)
    omega
  have sub : ∀ {F F' : Nat} {k' : Int}, F < 2 ^ mant f → F' < 2 ^ mant f → f.emin ≤ k' →
      (F : ℚ) * 2 ^ f.emin ≠ (2 ^ mant f + F' : Nat) * 2 ^ k' := by
    intro F F' k' hF hF' hk h
    have h1 := denormal_lt hF f.emin
    have h2 := (normal_bounds hF' k').1
    rw [h] at h1
    have := zp_lt_iff.mp (lt_of_le_of_lt h2 h1)
    omega
  rw [mk_inj hE hF hE' hF']
  rw [val_mk hE hF] at h ⊢
  rw [val_mk hE' hF'] at h
  split at h
  · rename_i h1
    split at h
    · rename_i h2
      left
      split at h
      · split at h
        · simp only [FV.inf.injEq] at h; exact ⟨h, by omega, by omega⟩
        · cases h
      · split at h <;> cases h
    · rename_i h2
      right; rw [if_pos h1, if_neg h2]
  · rename_i h1
    left
    split at h
    · rename_i h2
      split at h
      · split at h <;> cases h
      · split at h
        · simp only [FV.fin.injEq] at h
          have := key h.2
          exact ⟨h.1, by omega, this⟩
        · simp only [FV.fin.injEq] at h
          exact absurd h.2 (sub hF hF' (by omega))
    · rename_i h2
      split at h
      · split at h <;> cases h
      · split at h
        · simp only [FV.fin.injEq] at h
          exact absurd h.2.symm (sub hF' hF (by omega))
        · simp only [FV.fin.injEq] at h
          rcases lt_trichotomy E E' with hlt | heq | hgt
          · exact absurd h.2 (step hF hF' (by omega))
          · subst heq
            have := key h.2
            exact ⟨h.1, rfl, by omega⟩
          · exact absurd h.2.symm (step hF' hF (by omega))

example : val .f32 0x40490FDB#32 = .fin false (13176795 / 4194304) := by decide +kernel
example : val .f16 0x8001#16 = .fin true (1 / 2 ^ 24) := by decide +kernel

/-! ## Classification

`isnan`, `isinf` and `isfinite` are right for every bit pattern. -/

theorem isnan_iff (f : Fmt) (v : Bits f) : isnan f v = true ↔ val f v = .nan := by
  rw [isnan, ne, decide_eq_true_iff]
  cases h : val f v with
  | nan => simp [FV.rel]
  | inf a => simp [FV.rel]
  | fin a q => simp [FV.rel]

theorem isinf_iff (f : Fmt) (v : Bits f) : isinf f v = true ↔ ∃ s, val f v = .inf s := by
  obtain ⟨s, E, F, hE, hF, rfl⟩ := fields f v
  have h1 : 2 ^ (high f - 1) - 1 < 2 ^ (high f - 1) := by have := pos_expo f; omega
  rw [isinf, abs_mk hE hF, infBits_eq, beq_iff_eq, mk_inj hE hF h1 (pos_mant f), val_mk hE hF]
  constructor
  · rintro ⟨-, rfl, rfl⟩
    exact ⟨s, by rw [if_pos rfl, if_pos rfl]⟩
  · rintro ⟨s', h⟩
    split at h
    · split at h
      · refine ⟨rfl, ?_, ?_⟩ <;> assumption
      · cases h
    · split at h <;> cases h

theorem isfinite_iff (f : Fmt) (v : Bits f) : isfinite f v = true ↔ ∃ s q, val f v = .fin s q := by
  obtain ⟨s, E, F, hE, hF, rfl⟩ := fields f v
  have h1 : 2 ^ (high f - 1) - 1 < 2 ^ (high f - 1) := by have := pos_expo f; omega
  rw [isfinite, andExp_mk hE hF, expMask_eq, bne_iff_ne, Ne, mk_inj hE (pos_mant f) h1 (pos_mant f), val_mk hE hF]
  constructor
  · intro h
    rw [if_neg (fun h' => h ⟨rfl, h', rfl⟩)]
    split
    · exact ⟨_, _, rfl⟩
    · exact ⟨_, _, rfl⟩
  · rintro ⟨s', q, h⟩ ⟨-, h', -⟩
    rw [if_pos h'] at h
    split at h <;> cases h

/-- Exactly one of the three holds. -/
theorem classes (f : Fmt) (v : Bits f) :
    (isnan f v).toNat + (isinf f v).toNat + (isfinite f v).toNat = 1 := by
  have h1 := isnan_iff f v
  have h2 := isinf_iff f v
  have h3 := isfinite_iff f v
  cases h : val f v <;> simp only [h, reduceCtorEq, exists_false, exists_eq', iff_true, iff_false,
    Bool.not_eq_true, FV.inf.injEq, FV.fin.injEq, exists_and_left] at h1 h2 h3 <;> simp [*]

/-! ## Absolute value and sign -/

/-- The absolute value of a value. -/
def FV.abs : FV → FV
  | .nan => .nan
  | .inf _ => .inf false
  | .fin _ q => .fin false q

/-- The sign of a value; NaN has none. -/
def Negative : FV → Prop
  | .nan => False
  | .inf s => s = true
  | .fin s _ => s = true

theorem abs_val (f : Fmt) (a : Bits f) : val f (abs f a) = FV.abs (val f a) := by
  obtain ⟨s, E, F, hE, hF, rfl⟩ := fields f a
  rw [abs_mk hE hF, val_mk hE hF, val_mk hE hF]
  split
  · split <;> rfl
  · split <;> rfl

/-- `signbits` is the sign bit of a negative number (also of `-0`) and 0 for
every other number. -/
theorem signbits_val {f : Fmt} {x : Bits f} (h : val f x ≠ .nan) :
    (Negative (val f x) → (signbits f x).toNat = 2 ^ (width f - 1)) ∧
    (¬ Negative (val f x) → signbits f x = 0) := by
  obtain ⟨s, E, F, hE, hF, rfl⟩ := fields f x
  have hn : Negative (val f (mk f s E F)) ↔ s = true := by
    revert h
    rw [val_mk hE hF]
    split
    · split
      · intro _; rfl
      · intro h; exact absurd rfl h
    · split <;> exact fun _ => Iff.rfl
  rw [hn, signbits_mk hE hF]
  have hw1 : mant f + (high f - 1) = width f - 1 := by have := (width_eq f).1; omega
  constructor
  · rintro rfl
    rw [mk_toNat (pos_expo f) (pos_mant f), ← hw1, Nat.pow_add]
    simp
  · intro hs
    rw [Bool.not_eq_true] at hs
    subst hs
    apply BitVec.eq_of_toNat_eq
    rw [mk_toNat (pos_expo f) (pos_mant f)]
    simp

/-- A number is its absolute value with the sign put back. -/
theorem abs_or_signbits (f : Fmt) (x : Bits f) : abs f x ||| signbits f x = x := by
  obtain ⟨s, E, F, hE, hF, rfl⟩ := fields f x
  rw [abs_mk hE hF, signbits_mk hE hF]
  apply BitVec.eq_of_getLsbD_eq
  intro i hi
  rw [BitVec.getLsbD_or, mk_bit hE hF hi, mk_bit (pos_expo f) (pos_mant f) hi, mk_bit hE hF hi]
  split
  · simp
  · split <;> simp

example : Negative (val .f32 0x80000000#32) ∧ signbits .f32 0x80000000#32 = 0x80000000#32 := by
  refine ⟨?_, rfl⟩
  rw [show val .f32 0x80000000#32 = .fin true 0 by decide +kernel]; rfl

/-- Where `abs` of an integer is defined it is the absolute value. -/
theorem iabs_val {w : Nat} {a r : BitVec w} (h : iabs a = some r) : r.toInt = |a.toInt| := by
  unfold iabs at h
  split at h
  · rename_i hs
    cases h
    rw [BitVec.slt, decide_eq_true_iff] at hs
    simp only [BitVec.ofNat_eq_ofNat, BitVec.toInt_zero] at hs
    rw [abs_of_pos hs]
  · rename_i hs
    split at h
    · cases h
    · rename_i hm
      cases h
      rw [BitVec.slt, decide_eq_true_iff] at hs
      simp only [BitVec.ofNat_eq_ofNat, BitVec.toInt_zero, not_lt] at hs
      rw [abs_of_nonpos hs, BitVec.toInt_neg_of_ne_intMin hm]

/-- It is defined for every integer but the least, whose absolute value is not
an integer of the type. -/
theorem iabs_defined {w : Nat} (hw : 0 < w) (a : BitVec w) :
    (iabs a).isSome = true ↔ |a.toInt| < 2 ^ (w - 1) := by
  have h1 := BitVec.two_mul_toInt_lt (x := a)
  have h2 := BitVec.le_two_mul_toInt (x := a)
  have hp : (2 : Int) ^ w = 2 ^ (w - 1) * 2 := by rw [← Int.pow_succ]; congr 1; omega
  have hmin : (BitVec.intMin w).toInt = -2 ^ (w - 1) := BitVec.toInt_intMin_of_pos hw
  unfold iabs
  split
  · rename_i hs
    rw [BitVec.slt, decide_eq_true_iff] at hs
    simp only [BitVec.ofNat_eq_ofNat, BitVec.toInt_zero] at hs
    rw [abs_of_pos hs]
    simp only [Option.isSome_some, true_iff]
    omega
  · rename_i hs
    rw [BitVec.slt, decide_eq_true_iff] at hs
    simp only [BitVec.ofNat_eq_ofNat, BitVec.toInt_zero, not_lt] at hs
    rw [abs_of_nonpos hs]
    split
    · rename_i hm
      simp only [Option.isSome_none, Bool.false_eq_true, false_iff, not_lt]
      rw [hm, hmin]; omega
    · rename_i hm
      have : a.toInt ≠ -2 ^ (w - 1) := fun h => hm (BitVec.eq_of_toInt_eq (by rw [h, hmin]))
      simp only [Option.isSome_some, true_iff]
      omega

example : iabs (-5 : BitVec 8) = some 5 ∧ iabs (-128 : BitVec 8) = none := by decide

/-! ## `frexp` -/

/-- What `frexp` of C returns: a fraction from a half to one and an exponent;
zeros, infinities and NaN are returned as they are, the exponent of zero is 0. -/
def FrexpOk : FV → FV → Int → Prop
  | .nan, m, _ => m = .nan
  | .inf s, m, _ => m = .inf s
  | .fin s q, m, e =>
      (q = 0 ∧ m = .fin s 0 ∧ e = 0) ∨ (∃ p, m = .fin s p ∧ 1 / 2 ≤ p ∧ p < 1 ∧ q = p * 2 ^ e)

/-- The normal numbers of the format. -/
def Normal (f : Fmt) (v : FV) : Prop := ∃ s q, v = .fin s q ∧ (2 : ℚ) ^ (mant f + f.emin) ≤ q

theorem normal_iff {f : Fmt} {s : Bool} {E F : Nat} (hE : E < 2 ^ (high f - 1)) (hF : F < 2 ^ mant f) :
    Normal f (val f (mk f s E F)) ↔ E ≠ 0 ∧ E ≠ 2 ^ (high f - 1) - 1 := by
  rw [val_mk hE hF]
  split
  · rename_i h
    simp only [Ne, h, not_true, and_false, iff_false]
    rintro ⟨s', q, h', -⟩
    split at h' <;> cases h'
  · rename_i h
    split
    · rename_i h0
      simp only [h0, Ne, not_true, false_and, iff_false]
      rintro ⟨s', q, h', hq⟩
      cases h'
      exact absurd (denormal_lt hF f.emin) (not_lt.mpr hq)
    · rename_i h0
      simp only [Ne, h0, not_false_iff, h, and_self, iff_true]
      refine ⟨s, _, rfl, le_trans (zp_le ?_) (normal_bounds hF _).1⟩
      omega

theorem half_lt (f : Fmt) : 2 ^ (high f - 2) - 2 < 2 ^ (high f - 1) ∧ 2 ^ (high f - 2) - 2 ≠ 2 ^ (high f - 1) - 1
    ∧ 2 ^ (high f - 2) - 2 ≠ 0 ∧ ((2 ^ (high f - 2) - 2 : Nat) : Int) - 1 + f.emin = - (mant f + 1 : Int) := by
  cases f <;> decide

theorem frexp_mk {f : Fmt} {s : Bool} {E F : Nat} (hE : E < 2 ^ (high f - 1)) (hF : F < 2 ^ mant f) :
    (frexp f (mk f s E F)).1 = mk f s (2 ^ (high f - 2) - 2) F := by
  simp only [frexp]
  rw [andNotExp_mk hE hF, halfExp_eq, or_mk (half_lt f).1 hF, Bool.or_false]

theorem unbias_toNat (f : Fmt) : (unbias f).toNat = 2 ^ (high f - 2) - 2 := by cases f <;> decide

theorem frexp_exp {f : Fmt} {s : Bool} {E F : Nat} (hE : E < 2 ^ (high f - 1)) (hF : F < 2 ^ mant f) :
    (frexp f (mk f s E F)).2.toInt = E - (2 ^ (high f - 2) - 2 : Nat) := by
  simp only [frexp]
  rw [BitVec.and_comm, andExp_mk hE hF]
  have h1 : ((mk f false E 0 >>> mant f).setWidth 32).toNat = E := by
    rw [BitVec.toNat_setWidth, BitVec.toNat_ushiftRight, mk_toNat hE (pos_mant f), Nat.shiftRight_eq_div_pow]
    simp only [Bool.toNat_false, Nat.mul_zero, Nat.zero_add, Nat.add_zero]
    rw [Nat.mul_div_cancel_left _ (pos_mant f)]
    apply Nat.mod_eq_of_lt
    exact lt_of_lt_of_le hE (by cases f <;> decide)
  have h2 := unbias_toNat f
  have h3 : 2 ^ (high f - 1) ≤ 2 ^ 11 ∧ 2 ^ (high f - 2) ≤ 2 ^ 10 := by cases f <;> decide
  rw [BitVec.toInt_sub, BitVec.toInt_eq_toNat_of_lt (by rw [h1]; omega), BitVec.toInt_eq_toNat_of_lt (by rw [h2]; omega),
    h1, h2]
  apply Int.bmod_eq_of_le <;> omega

/-- `frexp` of a normal number.  Missing: zero, the denormal numbers, the
infinities and NaN, for which `frexp_iff` says that it is wrong. -/
theorem frexp_partial {f : Fmt} {x : Bits f} (h : Normal f (val f x)) :
    FrexpOk (val f x) (val f (frexp f x).1) (frexp f x).2.toInt := by
  obtain ⟨s, E, F, hE, hF, rfl⟩ := fields f x
  rw [normal_iff hE hF] at h
  obtain ⟨h1, h2, h3, h4⟩ := half_lt f
  rw [frexp_mk hE hF, frexp_exp hE hF, val_mk hE hF, val_mk h1 hF, if_neg h.2, if_neg h.1, if_neg h2, if_neg h3, h4]
  right
  have hb := normal_bounds hF (-(mant f + 1 : Int))
  refine ⟨_, rfl, ?_, ?_, ?_⟩
  · refine le_trans ?_ hb.1
    rw [show (mant f : Int) + -(mant f + 1) = -1 by omega]; norm_num
  · refine lt_of_lt_of_le hb.2 ?_
    rw [show (mant f : Int) + 1 + -(mant f + 1) = 0 by omega]; norm_num
  · rw [mul_assoc, ← zp]
    congr 2
    omega

/-- `frexp` is right for the normal numbers only: not for zero, the denormal
numbers, the infinities and NaN. -/
theorem frexp_iff (f : Fmt) (x : Bits f) :
    FrexpOk (val f x) (val f (frexp f x).1) (frexp f x).2.toInt ↔ Normal f (val f x) := by
  refine ⟨fun h => ?_, frexp_partial⟩
  obtain ⟨s, E, F, hE, hF, rfl⟩ := fields f x
  obtain ⟨h1, h2, h3, h4⟩ := half_lt f
  rw [normal_iff hE hF]
  rw [frexp_mk hE hF, frexp_exp hE hF, val_mk hE hF, val_mk h1 hF, if_neg h2, if_neg h3, h4] at h
  constructor
  · rintro rfl
    rw [if_neg (by have := h2; omega), if_pos rfl] at h
    rcases h with ⟨-, h, -⟩ | ⟨p, hp, hp1, hp2, hq⟩
    · simp only [FV.fin.injEq, true_and] at h
      have hb := (normal_bounds hF (-(mant f + 1 : Int))).1
      rw [h] at hb
      exact absurd (zp_pos _) (not_lt.mpr hb)
    · simp only [FV.fin.injEq, true_and] at hp
      rw [← hp, mul_assoc, ← zp, show -(mant f + 1 : Int) + (((0 : Nat) : Int) - (2 ^ (high f - 2) - 2 : Nat)) =
        f.emin + -1 by omega, zp f.emin, ← mul_assoc, mul_right_comm] at hq
      have h5 := mul_right_cancel₀ (zp_pos f.emin).ne' hq
      have h6 : (2 : ℚ) * F = (2 ^ mant f + F : Nat) := by rw [h5]; norm_num; ring
      have h7 : 2 * F = 2 ^ mant f + F := by exact_mod_cast h6
      omega
  · intro hi
    rw [if_pos hi] at h
    split at h <;> cases h

/-- `frexp(0.0f)` is a half with the exponent -126. -/
theorem frexp_zero_wrong : val .f32 (frexp .f32 0).1 = .fin false (1 / 2) ∧ (frexp .f32 0).2.toInt = -126 := by
  refine ⟨by decide +kernel, by decide⟩

/-- `frexp` of infinity is a half with the exponent 129. -/
theorem frexp_inf_wrong : val .f32 (frexp .f32 (infBits .f32)).1 = .fin false (1 / 2) ∧
    (frexp .f32 (infBits .f32)).2.toInt = 129 := by
  refine ⟨by decide +kernel, by decide⟩

example : Normal .f32 (val .f32 0x40490FDB#32) := by
  rw [show val .f32 0x40490FDB#32 = .fin false (13176795 / 4194304) by decide +kernel]
  exact ⟨_, _, rfl, by norm_num [mant, Fmt.emin]⟩

/-! ## `ldexp` -/

theorem count_mod (f : Fmt) (n : BitVec 32) : ((count f n).toNat : Int) % 2 ^ high f = n.toInt % 2 ^ high f := by
  have h32 : ∀ {k : Nat}, k ≤ 32 → ((n.toNat : Int) % 2 ^ k) = n.toInt % 2 ^ k := by
    intro k hk
    rw [BitVec.toInt_eq_toNat_bmod, Int.bmod_def]
    have hd : ((2 : Int) ^ k) ∣ ((2 ^ 32 : Nat) : Int) := by
      push_cast; exact pow_dvd_pow 2 hk
    split
    · rw [Int.emod_emod_of_dvd _ hd]
    · rw [Int.sub_emod, Int.emod_emod_of_dvd _ hd, Int.emod_eq_zero_of_dvd hd, Int.sub_zero, Int.emod_emod_of_dvd _ (dvd_refl _)]
  cases f
  · simp only [count, high, width, mant]
    rw [BitVec.toNat_setWidth]
    push_cast
    rw [Int.emod_emod_of_dvd _ (by decide)]
    exact h32 (k := 6) (by omega)
  · exact h32 (k := 9) (by omega)
  · simp only [count, high, width, mant]
    have h := BitVec.toInt_signExtend_of_le (x := n) (v := 64) (by omega)
    rw [BitVec.toInt_eq_toNat_bmod, Int.bmod_def] at h
    have hd : ((2 : Int) ^ 12) ∣ ((2 ^ 64 : Nat) : Int) := by decide
    rw [← h]
    split
    · rw [Int.emod_emod_of_dvd _ hd]
    · rw [Int.sub_emod, Int.emod_emod_of_dvd _ hd, Int.emod_eq_zero_of_dvd hd, Int.sub_zero, Int.emod_emod_of_dvd _ (dvd_refl _)]

/-- The exponent and the overflow out of it into the sign. -/
def total (f : Fmt) (E : Nat) (n : Int) : Nat := ((E + n) % 2 ^ high f).toNat

theorem total_lt (f : Fmt) (E : Nat) (n : Int) : total f E n < 2 ^ (high f - 1) * 2 := by
  have h : (2 : Int) ^ high f = ((2 ^ (high f - 1) * 2 : Nat) : Int) := by cases f <;> decide
  have h1 := Int.emod_lt_of_pos ((E : Int) + n) (b := 2 ^ high f) (by positivity)
  have h2 := Int.emod_nonneg ((E : Int) + n) (b := 2 ^ high f) (by positivity)
  rw [total]; omega

/-- What `ldexp` computes before it looks at zero. -/
def scaled (f : Fmt) (x : Bits f) (n : BitVec 32) : Bits f :=
  (x &&& ~~~ expMask f) ||| ((count f n <<< mant f) + (expMask f &&& x))

theorem scaled_mk {f : Fmt} {s : Bool} {E F : Nat} (hE : E < 2 ^ (high f - 1)) (hF : F < 2 ^ mant f) (n : BitVec 32) :
    scaled f (mk f s E F) n =
      mk f (s || decide (2 ^ (high f - 1) ≤ total f E n.toInt)) (total f E n.toInt % 2 ^ (high f - 1)) F := by
  have hT := total_lt f E n.toInt
  set T := total f E n.toInt with hTd
  have hTm : T % 2 ^ (high f - 1) < 2 ^ (high f - 1) := Nat.mod_lt _ (pos_expo f)
  rw [scaled, andNotExp_mk hE hF, BitVec.and_comm (expMask f), andExp_mk hE hF]
  have h1 : (count f n <<< mant f) + mk f false E 0 =
      mk f (decide (2 ^ (high f - 1) ≤ T)) (T % 2 ^ (high f - 1)) 0 := by
    apply BitVec.eq_of_toNat_eq
    rw [BitVec.toNat_add, BitVec.toNat_shiftLeft, mk_toNat hE (pos_mant f), mk_toNat hTm (pos_mant f),
      Nat.shiftLeft_eq, Nat.mod_add_mod]
    simp only [Bool.toNat_false, Nat.mul_zero, Nat.zero_add, Nat.add_zero]
    have hT2 : 2 ^ (high f - 1) * (decide (2 ^ (high f - 1) ≤ T)).toNat + T % 2 ^ (high f - 1) = T := by
      by_cases hc : 2 ^ (high f - 1) ≤ T
      · rw [decide_eq_true hc, Bool.toNat_true, Nat.mul_one, Nat.mod_eq_sub_mod hc, Nat.mod_eq_of_lt (by omega)]; omega
      · rw [decide_eq_false hc, Bool.toNat_false, Nat.mul_zero, Nat.zero_add, Nat.mod_eq_of_lt (by omega)]
    rw [hT2, Nat.mul_comm _ (2 ^ mant f), ← Nat.mul_add]
    have hw : 2 ^ width f = 2 ^ mant f * 2 ^ high f := by cases f <;> decide
    rw [hw, Nat.mul_mod_mul_left]
    congr 1
    have h2 := count_mod f n
    zify
    rw [hTd, total, Int.toNat_of_nonneg (Int.emod_nonneg _ (by positivity)), Int.add_emod, h2, ← Int.add_emod, Int.add_comm]
  rw [h1, or_mk hTm hF]

theorem ldexp_eq (f : Fmt) (fast : Bool) (x : Bits f) (n : BitVec 32) :
    ldexp f fast x n = if fast = false ∧ (∃ s, val f x = .fin s 0) then x else scaled f x n := by
  have hz : eq (val f x) (.fin false 0) = true ↔ ∃ s, val f x = .fin s 0 := by
    rw [eq, decide_eq_true_iff]
    cases h : val f x with
    | nan => simp [FV.rel]
    | inf a => cases a <;> simp [FV.rel]
    | fin a q =>
      have hq := Fold.rep_nonneg (h ▸ val_rep f x)
      simp only [FV.rel, FV.fin.injEq]
      constructor
      · intro h
        split at h
        · cases h
        · split at h
          · rename_i h1 h2
            exact ⟨a, rfl, by cases a <;> simpa [signed] using h2⟩
          · cases h
      · rintro ⟨-, -, rfl⟩
        cases a <;> simp [signed]
  rw [ldexp]
  cases fast
  · simp only [Bool.false_eq_true, if_false, true_and]
    by_cases h : eq (val f x) (.fin false 0) = true
    · rw [if_pos h, if_pos (hz.mp h)]
    · rw [if_neg h, if_neg (fun h' => h (hz.mpr h'))]; rfl
  · simp only [if_true, Bool.true_eq_false, false_and, if_false]; rfl

/-- Whatever the bits, `ldexp` undoes `frexp`. -/
theorem ldexp_frexp (f : Fmt) (fast : Bool) (x : Bits f) :
    ldexp f fast (frexp f x).1 (frexp f x).2 = x := by
  obtain ⟨s, E, F, hE, hF, rfl⟩ := fields f x
  obtain ⟨h1, h2, h3, h4⟩ := half_lt f
  have hT : total f (2 ^ (high f - 2) - 2) (frexp f (mk f s E F)).2.toInt = E := by
    rw [frexp_exp hE hF, total]
    have : ((2 ^ (high f - 2) - 2 : Nat) : Int) + (E - (2 ^ (high f - 2) - 2 : Nat)) = E := by omega
    rw [this, Int.emod_eq_of_lt (by omega)]
    · rfl
    · have : E < 2 ^ high f := lt_of_lt_of_le hE (Nat.pow_le_pow_right (by omega) (by omega))
      exact_mod_cast this
  rw [ldexp_eq, if_neg, frexp_mk hE hF, scaled_mk h1 hF, hT, Nat.mod_eq_of_lt hE, decide_eq_false (by omega), Bool.or_false]
  rintro ⟨-, s', h⟩
  rw [frexp_mk hE hF, val_mk h1 hF, if_neg h2, if_neg h3] at h
  simp only [FV.fin.injEq] at h
  have hb := (normal_bounds hF (((2 ^ (high f - 2) - 2 : Nat) : Int) - 1 + f.emin)).1
  rw [h.2] at hb
  exact absurd (zp_pos _) (not_lt.mpr hb)

/-- `ldexp` of zero is the same zero, but for the fast library. -/
theorem ldexp_zero {f : Fmt} {x : Bits f} {s : Bool} (h : val f x = .fin s 0) (n : BitVec 32) :
    ldexp f false x n = x := by
  rw [ldexp_eq, if_pos ⟨rfl, s, h⟩]

theorem round_over {f : Fmt} (s : Bool) {Q : ℚ} (h : (2 : ℚ) ^ (f.emax : Int) ≤ Q) : round f s Q = .inf s := by
  rw [zpow_natCast] at h
  rw [Fold.round, if_pos (Fold.roundMag_ge f h)]

theorem roundMag_sub {f : Fmt} {Q : ℚ} (h0 : 0 < Q) (h : Q < 2 ^ (mant f + 1 + f.emin)) :
    Fold.roundMag f Q = Fold.rne (Q / 2 ^ f.emin) * 2 ^ f.emin := by
  have : Fold.quantum f Q = f.emin := by
    have h1 := zp_lt_iff.mp (lt_of_le_of_lt (Fold.log_le h0) h)
    rw [Fold.quantum, prec_mant]
    apply max_eq_right
    push_cast; omega
  rw [Fold.roundMag, this]

theorem rne_le {x : ℚ} {n : Int} (h : x ≤ n) : Fold.rne x ≤ n := by
  have h1 := Fold.rne_bounds x
  have h2 := Int.floor_le x
  rcases eq_or_lt_of_le (show ⌊x⌋ ≤ n from by exact_mod_cast le_trans h2 h) with he | hl
  · have hx : x = n := le_antisymm h (by rw [← he]; exact h2)
    rw [hx, Fold.rne_int]
  · omega

/-- Rounding does not go beyond a power of two below the normal numbers. -/
theorem roundMag_le_sub {f : Fmt} {Q : ℚ} {j : Nat} (h0 : 0 < Q) (hj : j ≤ mant f) (h : Q ≤ 2 ^ (j + f.emin)) :
    Fold.roundMag f Q ≤ 2 ^ (j + f.emin) := by
  rw [roundMag_sub h0 (lt_of_le_of_lt h (zp_lt (by omega)))]
  have h1 : Q / 2 ^ f.emin ≤ ((2 ^ j : Int) : ℚ) := by
    rw [div_le_iff₀ (zp_pos _)]; push_cast
    rw [zp, zpow_natCast] at h; exact h
  have h2 : ((Fold.rne (Q / 2 ^ f.emin) : Int) : ℚ) ≤ ((2 ^ j : Int) : ℚ) := by exact_mod_cast rne_le h1
  rw [zp, zpow_natCast]
  refine mul_le_mul_of_nonneg_right ?_ (zp_pos _).le
  push_cast at h2; exact h2

/-- Below half of the least number rounding gives zero. -/
theorem roundMag_tiny {f : Fmt} {Q : ℚ} (h0 : 0 < Q) (h : Q < 2 ^ (f.emin - 1)) : Fold.roundMag f Q = 0 := by
  rw [roundMag_sub h0 (lt_trans h (zp_lt (by omega)))]
  have h1 : Q / 2 ^ f.emin < 1 / 2 := by
    rw [div_lt_iff₀ (zp_pos _)]
    rw [show f.emin - 1 = -1 + f.emin by omega, zp] at h
    norm_num at h ⊢; linarith
  have h2 : ⌊Q / 2 ^ f.emin⌋ = 0 := by
    rw [Int.floor_eq_zero_iff]; exact ⟨(div_pos h0 (zp_pos _)).le, by linarith⟩
  have h3 : Fold.rne (Q / 2 ^ f.emin) = 0 := by
    rw [Fold.rne, h2, if_pos (by push_cast; linarith)]
  rw [h3]; simp

theorem round_fin_of_le {f : Fmt} {s : Bool} {Q : ℚ} (h : Fold.roundMag f Q < 2 ^ (f.emax : Int)) :
    round f s Q = .fin s (Fold.roundMag f Q) := by
  rw [zpow_natCast] at h
  rw [Fold.round, if_neg (not_le.mpr h)]

theorem pow_iff {f : Fmt} {F : Nat} (hF : F < 2 ^ mant f) (j k : Int) :
    ((2 ^ mant f + F : Nat) : ℚ) * 2 ^ j = 2 ^ k ↔ F = 0 ∧ k = mant f + j := by
  constructor
  · intro h
    have hb := normal_bounds hF j
    rw [h] at hb
    have h1 := zp_le_iff.mp hb.1
    have h2 := zp_lt_iff.mp hb.2
    have hk : k = mant f + j := by omega
    refine ⟨?_, hk⟩
    rw [hk, zp, zpow_natCast] at h
    have h3 := mul_right_cancel₀ (zp_pos j).ne' h
    have h4 : 2 ^ mant f + F = 2 ^ mant f := by exact_mod_cast h3
    omega
  · rintro ⟨rfl, rfl⟩
    rw [zp, zpow_natCast]; push_cast; ring

/-- How often the exponent of the result comes back: with the sign bit, which
is part of the sum, and for negative numbers, whose sign bit stays, without. -/
def period (f : Fmt) (s : Bool) : Int := if s then 2 ^ (high f - 1) else 2 ^ high f

theorem wraps {f : Fmt} (s : Bool) (t : Int) {c : Nat} (hc : c < 2 ^ (high f - 1)) :
    ((s || decide (2 ^ (high f - 1) ≤ (t % 2 ^ high f).toNat)) = s ∧
      (t % 2 ^ high f).toNat % 2 ^ (high f - 1) = c) ↔ (t - c) % period f s = 0 := by
  cases f
  · have h1 : high .f16 = 6 := rfl
    rw [h1] at hc ⊢
    cases s <;> simp [period, h1] <;> omega
  · have h1 : high .f32 = 9 := rfl
    rw [h1] at hc ⊢
    cases s <;> simp [period, h1] <;> omega
  · have h1 : high .f64 = 12 := rfl
    rw [h1] at hc ⊢
    cases s <;> simp [period, h1] <;> omega

theorem rne_half (n : Int) (h : n % 2 = 1) : Fold.rne ((n : ℚ) + 1 / 2) = n + 1 := by
  have hf : ⌊(n : ℚ) + 1 / 2⌋ = n := by
    rw [Int.floor_eq_iff]; constructor <;> linarith
  rw [Fold.rne, hf, if_neg (by linarith), if_neg (by linarith), if_neg (by omega)]

/-- What `ldexp` makes of a normal number, the new exponent not yet reduced. -/
theorem scaled_val {f : Fmt} {s : Bool} {E F : Nat} (hE : E < 2 ^ (high f - 1)) (hF : F < 2 ^ mant f)
    (n : BitVec 32) :
    val f (scaled f (mk f s E F) n) =
        round f s ((2 ^ mant f + F : Nat) * 2 ^ ((E : Int) + n.toInt - 1 + f.emin)) ↔
      (1 ≤ E + n.toInt ∧ (E : Int) + n.toInt ≤ 2 ^ (high f - 1) - 2) ∨
      (F = 0 ∧ 2 ^ (high f - 1) - 1 ≤ E + n.toInt ∧ (E + n.toInt - (2 ^ (high f - 1) - 1)) % period f s = 0) ∨
      (F = 0 ∧ E + n.toInt < 0 ∧ (E + n.toInt) % period f s = 0) := by
  have hP : 2 < 2 ^ (high f - 1) ∧ mant f + 1 ≤ 2 ^ (high f - 1) * 2 ∧ 1 < mant f ∧ mant f < 2 ^ (high f - 1) := by
    cases f <;> decide
  have hPc : ((2 ^ (high f - 1) : Nat) : Int) = 2 ^ (high f - 1) := by push_cast; rfl
  have hmax := emax_eq f
  set t : Int := (E : Int) + n.toInt with ht
  have hTm : total f E n.toInt % 2 ^ (high f - 1) < 2 ^ (high f - 1) := Nat.mod_lt _ (pos_expo f)
  have hTd : total f E n.toInt = (t % 2 ^ high f).toNat := rfl
  have hcast : ((total f E n.toInt % 2 ^ (high f - 1) : Nat) : Int) = t % 2 ^ (high f - 1) := by
    have h2 : (2 : Int) ^ (high f - 1) ∣ 2 ^ high f := pow_dvd_pow 2 (by omega)
    push_cast
    rw [hTd, Int.toNat_of_nonneg (Int.emod_nonneg _ (by positivity)), Int.emod_emod_of_dvd _ h2]
  have hw0 := wraps (f := f) s t (c := 0) (pos_expo f)
  have hw1 := wraps (f := f) s t (c := 2 ^ (high f - 1) - 1) (by omega)
  rw [← hTd] at hw0 hw1
  rw [scaled_mk hE hF, val_mk hTm hF]
  set s' := (s || decide (2 ^ (high f - 1) ≤ total f E n.toInt)) with hs'
  set E' := total f E n.toInt % 2 ^ (high f - 1) with hE'
  have hb := normal_bounds hF (t - 1 + f.emin)
  have hQ0 : (0 : ℚ) < (2 ^ mant f + F : Nat) * 2 ^ (t - 1 + f.emin) := lt_of_lt_of_le (zp_pos _) hb.1
  rcases lt_or_ge t 1 with hlow | hge
  · -- too small for a normal number
    have hQhi : ((2 ^ mant f + F : Nat) : ℚ) * 2 ^ (t - 1 + f.emin) < 2 ^ (mant f + t + f.emin) := by
      refine lt_of_lt_of_le hb.2 (zp_le (by omega))
    have hrle : Fold.roundMag f ((2 ^ mant f + F : Nat) * 2 ^ (t - 1 + f.emin)) ≤ 2 ^ (mant f + f.emin) :=
      roundMag_le_sub hQ0 (le_refl _) (le_trans hQhi.le (zp_le (by omega)))
    have hrf : round f s ((2 ^ mant f + F : Nat) * 2 ^ (t - 1 + f.emin)) =
        .fin s (Fold.roundMag f ((2 ^ mant f + F : Nat) * 2 ^ (t - 1 + f.emin))) :=
      round_fin_of_le (lt_of_le_of_lt hrle (zp_lt (by omega)))
    rw [hrf]
    have hnr : ¬ (1 ≤ t ∧ t ≤ 2 ^ (high f - 1) - 2) := by omega
    have hnr2 : ¬ (F = 0 ∧ 2 ^ (high f - 1) - 1 ≤ t ∧ (t - (2 ^ (high f - 1) - 1)) % period f s = 0) := by omega
    simp only [hnr, hnr2, false_or]
    rcases lt_or_eq_of_le (show t ≤ 0 by omega) with hneg | hzero
    · have hrle2 : Fold.roundMag f ((2 ^ mant f + F : Nat) * 2 ^ (t - 1 + f.emin)) < 2 ^ (mant f + f.emin) := by
        have h2 : ((mant f - 1 : Nat) : Int) = mant f - 1 := by omega
        have h3 := roundMag_le_sub (f := f) (j := mant f - 1) hQ0 (by omega) (le_trans hQhi.le (zp_le (by omega)))
        exact lt_of_le_of_lt h3 (zp_lt (by omega))
      split
      · rename_i hmx
        constructor
        · intro h; split at h <;> cases h
        · rintro ⟨-, -, h⟩
          have h3 := (hw0.mpr (by simpa using h)).2
          omega
      · split
        · rename_i hE0
          have ht2 : t ≤ -2 ^ (high f - 1) := by
            rw [hE0] at hcast
            have := Int.emod_add_mul_ediv t (2 ^ (high f - 1))
            have h4 : t / 2 ^ (high f - 1) < 0 := by
              apply Int.ediv_neg_of_neg_of_pos hneg (by positivity)
            have h5 : 2 ^ (high f - 1) * (t / 2 ^ (high f - 1)) ≤ 2 ^ (high f - 1) * (-1 : Int) :=
              mul_le_mul_of_nonneg_left (by omega) (by positivity)
            push_cast at hcast
            omega
          have hr0 : Fold.roundMag f ((2 ^ mant f + F : Nat) * 2 ^ (t - 1 + f.emin)) = 0 := by
            apply roundMag_tiny hQ0
            refine lt_of_lt_of_le hQhi (zp_le ?_)
            omega
          rw [hr0]
          constructor
          · intro h
            simp only [FV.fin.injEq, mul_eq_zero, (zp_pos f.emin).ne', or_false, Nat.cast_eq_zero] at h
            refine ⟨h.2, hneg, ?_⟩
            have := hw0.mp ⟨h.1, hE0⟩
            simpa using this
          · rintro ⟨h2, -, h3⟩
            have := hw0.mpr (by simpa using h3)
            simp [h2, this.1]
        · rename_i hmx hE0
          constructor
          · intro h
            simp only [FV.fin.injEq] at h
            have hb2 := (normal_bounds hF ((E' : Int) - 1 + f.emin)).1
            rw [h.2] at hb2
            have := zp_lt_iff.mp (lt_of_le_of_lt hb2 hrle2)
            omega
          · rintro ⟨-, -, h⟩
            exact absurd (hw0.mpr (by simpa using h)).2 hE0
    · -- exponent field zero: the leading one is lost
      have hE0 : E' = 0 := by
        rw [hzero] at hcast; simp at hcast; omega
      rw [if_neg (by omega), if_pos hE0]
      have hn0 : ¬ (F = 0 ∧ t < 0 ∧ t % period f s = 0) := by omega
      simp only [hn0, iff_false, FV.fin.injEq, not_and]
      intro _ heq
      rw [roundMag_sub hQ0 (lt_trans hQhi (zp_lt (by omega)))] at heq
      have h3 := mul_right_cancel₀ (zp_pos f.emin).ne' heq
      have hdiv : ((2 ^ mant f + F : Nat) : ℚ) * 2 ^ (t - 1 + f.emin) / 2 ^ f.emin = ((2 ^ mant f + F : Nat) : ℚ) / 2 := by
        rw [hzero, show (0 : Int) - 1 + f.emin = -1 + f.emin by omega, zp, ← mul_assoc, mul_div_assoc,
          div_self (zp_pos f.emin).ne']
        norm_num; ring
      rw [hdiv] at h3
      have h4 : Fold.rne (((2 ^ mant f + F : Nat) : ℚ) / 2) = (F : Int) := by exact_mod_cast h3.symm
      have h5 := (Fold.rne_nearest (((2 ^ mant f + F : Nat) : ℚ) / 2)).1
      rw [h4] at h5
      have h6 := (abs_le.mp h5).2
      have h7 : ((2 ^ mant f + F : Nat) : ℚ) ≤ (2 * F + 1 : Nat) := by push_cast at h6 ⊢; linarith
      have h8 : 2 ^ mant f + F ≤ 2 * F + 1 := by exact_mod_cast h7
      have h9 : F = 2 ^ mant f - 1 := by omega
      have h10 : ((2 ^ mant f + F : Nat) : ℚ) / 2 = ((F : Int) : ℚ) + 1 / 2 := by
        have : 2 ^ mant f = F + 1 := by omega
        rw [this]; push_cast; ring
      have hodd : (F : Int) % 2 = 1 := by
        have : ∃ k, 2 ^ mant f = 2 * k := by
          obtain ⟨k, hk⟩ : ∃ k, mant f = k + 1 := ⟨mant f - 1, by omega⟩
          exact ⟨2 ^ k, by rw [hk, Nat.pow_succ]; omega⟩
        omega
      rw [h10, rne_half _ hodd] at h4
      omega
  · rcases lt_or_ge t (2 ^ (high f - 1) - 1) with hmid | hhigh
    · -- in range
      have hTt : t % 2 ^ high f = t := Int.emod_eq_of_lt (by omega) (by
        have : (2 : Int) ^ (high f - 1) ≤ 2 ^ high f := pow_le_pow_right₀ (by norm_num) (by omega)
        omega)
      have hEt : (E' : Int) = t := by
        rw [hcast]; exact Int.emod_eq_of_lt (by omega) (by omega)
      have hss : s' = s := by
        rw [hs', hTd, hTt, decide_eq_false (by omega), Bool.or_false]
      have hrep := val_rep f (mk f s E' F)
      rw [val_mk hTm hF, if_neg (by omega), if_neg (by omega), hEt] at hrep
      rw [if_neg (by omega), if_neg (by omega), hEt, hss]
      constructor
      · intro _; left; omega
      · intro _
        exact (Fold.round_exact (g := f) ⟨le_refl _, le_refl _, le_refl _⟩ hrep).symm
    · -- too large
      have hQlo : (2 : ℚ) ^ (f.emax : Int) ≤ (2 ^ mant f + F : Nat) * 2 ^ (t - 1 + f.emin) :=
        le_trans (zp_le (by omega)) hb.1
      rw [round_over s hQlo]
      constructor
      · intro h
        split at h
        · rename_i hmx
          split at h
          · rename_i hF0
            simp only [FV.inf.injEq] at h
            right; left
            refine ⟨hF0, by omega, ?_⟩
            have := hw1.mp ⟨h, by omega⟩
            rw [show ((2 ^ (high f - 1) - 1 : Nat) : Int) = 2 ^ (high f - 1) - 1 by omega] at this
            exact this
          · cases h
        · split at h <;> cases h
      · rintro (h | ⟨h2, h3, h4⟩ | ⟨-, h3, -⟩)
        · omega
        · rw [← show ((2 ^ (high f - 1) - 1 : Nat) : Int) = 2 ^ (high f - 1) - 1 by omega] at h4
          have := hw1.mpr h4
          rw [if_pos this.2, if_pos h2, this.1]
        · omega

/-- Results of `ldexp` that are right because the exponent has come round to
the one of infinity or of zero. -/
def Lucky (f : Fmt) (s : Bool) (Q : ℚ) : Prop :=
  ∃ k : Int, Q = 2 ^ k ∧
    ((f.emax ≤ k ∧ (k - f.emax) % period f s = 0) ∨
     (k < mant f + f.emin - 1 ∧ (k - (mant f + f.emin - 1)) % period f s = 0))

/-- `ldexp` of a normal number: right exactly if the result is a normal number
or, by luck, a power of two far outside the format. -/
theorem ldexp_iff {f : Fmt} {x : Bits f} {s : Bool} {q : ℚ} (fast : Bool) (n : BitVec 32)
    (hx : val f x = .fin s q) (hq : (2 : ℚ) ^ (mant f + f.emin) ≤ q) :
    val f (ldexp f fast x n) = round f s (q * 2 ^ n.toInt) ↔
      ((2 : ℚ) ^ (mant f + f.emin) ≤ q * 2 ^ n.toInt ∧ q * 2 ^ n.toInt < 2 ^ (f.emax : Int)) ∨
      Lucky f s (q * 2 ^ n.toInt) := by
  have hnz : ¬ (fast = false ∧ ∃ s, val f x = .fin s 0) := by
    rintro ⟨-, s', h⟩
    rw [hx] at h
    simp only [FV.fin.injEq] at h
    rw [h.2] at hq
    exact absurd (zp_pos _) (not_lt.mpr hq)
  rw [ldexp_eq, if_neg hnz]
  have hN : Normal f (val f x) := ⟨s, q, hx, hq⟩
  obtain ⟨s', E, F, hE, hF, rfl⟩ := fields f x
  rw [normal_iff hE hF] at hN
  rw [val_mk hE hF, if_neg hN.2, if_neg hN.1] at hx
  simp only [FV.fin.injEq] at hx
  obtain ⟨rfl, rfl⟩ := hx
  have hQ : ((2 ^ mant f + F : Nat) : ℚ) * 2 ^ ((E : Int) - 1 + f.emin) * 2 ^ n.toInt =
      (2 ^ mant f + F : Nat) * 2 ^ ((E : Int) + n.toInt - 1 + f.emin) := by
    rw [mul_assoc, ← zp]; congr 2; omega
  rw [hQ, scaled_val hE hF]
  have hmax := emax_eq f
  have hb := normal_bounds hF ((E : Int) + n.toInt - 1 + f.emin)
  apply or_congr
  · constructor
    · rintro ⟨h1, h2⟩
      exact ⟨le_trans (zp_le (by omega)) hb.1, lt_of_lt_of_le hb.2 (zp_le (by omega))⟩
    · rintro ⟨h1, h2⟩
      have h3 := zp_lt_iff.mp (lt_of_le_of_lt h1 hb.2)
      have h4 := zp_lt_iff.mp (lt_of_le_of_lt hb.1 h2)
      omega
  · constructor
    · rintro (⟨h0, h1, h2⟩ | ⟨h0, h1, h2⟩)
      · refine ⟨_, (pow_iff hF _ _).mpr ⟨h0, rfl⟩, Or.inl ⟨by omega, ?_⟩⟩
        rw [← h2]; congr 1; omega
      · refine ⟨_, (pow_iff hF _ _).mpr ⟨h0, rfl⟩, Or.inr ⟨by omega, ?_⟩⟩
        rw [← h2]; congr 1; omega
    · rintro ⟨k, hk, h | h⟩
      · obtain ⟨h0, rfl⟩ := (pow_iff hF _ _).mp hk
        refine Or.inl ⟨h0, by omega, ?_⟩
        rw [← h.2]; congr 1; omega
      · obtain ⟨h0, rfl⟩ := (pow_iff hF _ _).mp hk
        refine Or.inr ⟨h0, by omega, ?_⟩
        rw [← h.2]; congr 1; omega

/-- `ldexp` multiplies exactly where number and product are normal.  Missing:
products that overflow or are denormal, denormal numbers and infinities, for
which it is wrong (`ldexp_iff`, `ldexp_denormal_iff`, `ldexp_inf_iff`). -/
theorem ldexp_partial {f : Fmt} {x : Bits f} {s : Bool} {q : ℚ} (fast : Bool) (n : BitVec 32)
    (hx : val f x = .fin s q) (hq : (2 : ℚ) ^ (mant f + f.emin) ≤ q)
    (h1 : (2 : ℚ) ^ (mant f + f.emin) ≤ q * 2 ^ n.toInt) (h2 : q * 2 ^ n.toInt < 2 ^ (f.emax : Int)) :
    val f (ldexp f fast x n) = .fin s (q * 2 ^ n.toInt) := by
  rw [(ldexp_iff fast n hx hq).mpr (Or.inl ⟨h1, h2⟩)]
  have hrep : Rep f (.fin s (q * 2 ^ n.toInt)) := by
    have hN : Normal f (val f x) := ⟨s, q, hx, hq⟩
    obtain ⟨s', E, F, hE, hF, rfl⟩ := fields f x
    rw [normal_iff hE hF] at hN
    rw [val_mk hE hF, if_neg hN.2, if_neg hN.1] at hx
    simp only [FV.fin.injEq] at hx
    obtain ⟨rfl, rfl⟩ := hx
    rw [mul_assoc, ← zp] at h1 h2 ⊢
    have hb := normal_bounds hF ((E : Int) - 1 + f.emin + n.toInt)
    have h3 := zp_lt_iff.mp (lt_of_le_of_lt h1 hb.2)
    refine ⟨_, _, rfl, ?_, by omega, by rw [← zpow_natCast]; exact h2⟩
    rw [prec_mant, Nat.pow_succ]; omega
  exact Fold.round_exact (g := f) ⟨le_refl _, le_refl _, le_refl _⟩ hrep

example : val .f32 (ldexp .f32 true 0x40490FDB#32 100) = .fin false (13176795 / 4194304 * 2 ^ (100 : Int)) :=
  ldexp_partial true 100 (by decide +kernel) (by norm_num [mant, Fmt.emin])
    (by rw [show (100 : BitVec 32).toInt = 100 by decide]; norm_num [mant, Fmt.emin])
    (by rw [show (100 : BitVec 32).toInt = 100 by decide]; norm_num [Fmt.emax])

/-- `ldexp` of a denormal number is right only for `n = 0`. -/
theorem ldexp_denormal_iff {f : Fmt} {x : Bits f} {s : Bool} {q : ℚ} (fast : Bool) (n : BitVec 32)
    (hx : val f x = .fin s q) (h0 : 0 < q) (hq : q < 2 ^ (mant f + f.emin)) :
    val f (ldexp f fast x n) = round f s (q * 2 ^ n.toInt) ↔ n = 0 := by
  have hnz : ¬ (fast = false ∧ ∃ s, val f x = .fin s 0) := by
    rintro ⟨-, s', h⟩
    rw [hx] at h
    simp only [FV.fin.injEq] at h
    rw [h.2] at h0
    exact absurd h0 (lt_irrefl _)
  rw [ldexp_eq, if_neg hnz]
  have hN : ¬ Normal f (val f x) := by
    rintro ⟨s', q', h, hq'⟩
    rw [hx] at h
    cases h
    exact absurd hq (not_lt.mpr hq')
  have hrep := hx ▸ val_rep f x
  obtain ⟨s', E, F, hE, hF, rfl⟩ := fields f x
  rw [normal_iff hE hF] at hN
  have hP : 2 < 2 ^ (high f - 1) ∧ 1 < mant f ∧ mant f < 2 ^ (high f - 1) := by cases f <;> decide
  have hPc : ((2 ^ (high f - 1) : Nat) : Int) = 2 ^ (high f - 1) := by push_cast; rfl
  have hE0 : E = 0 := by
    by_contra hE0
    have : E = 2 ^ (high f - 1) - 1 := by
      by_contra hh; exact hN ⟨hE0, hh⟩
    rw [val_mk hE hF, if_pos this] at hx
    split at hx <;> cases hx
  subst hE0
  have hmx : (0 : Nat) ≠ 2 ^ (high f - 1) - 1 := by omega
  rw [val_mk hE hF, if_neg hmx, if_pos rfl] at hx
  simp only [FV.fin.injEq] at hx
  obtain ⟨rfl, rfl⟩ := hx
  have hF0 : 0 < F := by
    rcases Nat.eq_zero_or_pos F with rfl | h
    · simp at h0
    · exact h
  have hmax := emax_eq f
  have hTm : total f 0 n.toInt % 2 ^ (high f - 1) < 2 ^ (high f - 1) := Nat.mod_lt _ (pos_expo f)
  have hcast : ((total f 0 n.toInt % 2 ^ (high f - 1) : Nat) : Int) = n.toInt % 2 ^ (high f - 1) := by
    have h2 : (2 : Int) ^ (high f - 1) ∣ 2 ^ high f := pow_dvd_pow 2 (by omega)
    push_cast
    rw [total, Int.toNat_of_nonneg (Int.emod_nonneg _ (by positivity)), Int.emod_emod_of_dvd _ h2]
    simp
  constructor
  · intro h
    by_contra hn
    have hni : n.toInt ≠ 0 := fun h' => hn (BitVec.eq_of_toInt_eq (by rw [h']; rfl))
    rw [scaled_mk hE hF, val_mk hTm hF] at h
    set E' := total f 0 n.toInt % 2 ^ (high f - 1) with hE'
    rw [mul_assoc, ← zp] at h
    have hQ0 : (0 : ℚ) < F * 2 ^ (f.emin + n.toInt) := mul_pos (by exact_mod_cast hF0) (zp_pos _)
    have hdm := Int.emod_add_mul_ediv n.toInt (2 ^ (high f - 1))
    rw [← hcast] at hdm
    rcases lt_or_gt_of_ne hni with hneg | hpos
    · -- divided: the result is below the number
      have hj : n.toInt / 2 ^ (high f - 1) ≤ -1 := by
        have := Int.ediv_neg_of_neg_of_pos hneg (b := 2 ^ (high f - 1)) (by positivity); omega
      have hj2 : 2 ^ (high f - 1) * (n.toInt / 2 ^ (high f - 1)) ≤ 2 ^ (high f - 1) * (-1 : Int) :=
        mul_le_mul_of_nonneg_left hj (by positivity)
      have hQlt : (F : ℚ) * 2 ^ (f.emin + n.toInt) < 2 ^ (mant f - 1 + f.emin) := by
        refine lt_of_lt_of_le (denormal_lt hF _) (zp_le (by omega))
      have h2 : ((mant f - 1 : Nat) : Int) = mant f - 1 := by omega
      have hr := roundMag_le_sub (f := f) (j := mant f - 1) hQ0 (by omega) (by rw [h2]; exact hQlt.le)
      rw [h2] at hr
      rw [round_fin_of_le (lt_of_le_of_lt hr (zp_lt (by omega)))] at h
      split at h
      · split at h <;> cases h
      · split at h
        · rename_i hz
          rw [hz] at hdm
          have ht : Fold.roundMag f ((F : ℚ) * 2 ^ (f.emin + n.toInt)) = 0 := by
            apply roundMag_tiny hQ0
            refine lt_of_lt_of_le (denormal_lt hF _) (zp_le ?_)
            push_cast at hdm; omega
          rw [ht] at h
          simp only [FV.fin.injEq, mul_eq_zero, (zp_pos f.emin).ne', or_false, Nat.cast_eq_zero] at h
          omega
        · simp only [FV.fin.injEq] at h
          have hb := (normal_bounds hF ((E' : Int) - 1 + f.emin)).1
          rw [h.2] at hb
          have := zp_le_iff.mp (le_trans hb hr)
          omega
    · -- multiplied
      have hj : 0 ≤ n.toInt / 2 ^ (high f - 1) := Int.ediv_nonneg hpos.le (by positivity)
      have hlow : (2 : ℚ) ^ (f.emin + n.toInt) ≤ F * 2 ^ (f.emin + n.toInt) := by
        have : (1 : ℚ) ≤ F := by exact_mod_cast hF0
        exact le_mul_of_one_le_left (zp_pos _).le this
      by_cases hov : (F : ℚ) * 2 ^ (f.emin + n.toInt) < 2 ^ (f.emax : Int)
      · have hrep' : Rep f (.fin s' ((F : ℚ) * 2 ^ (f.emin + n.toInt))) := by
          refine ⟨F, _, rfl, ?_, by omega, by rw [← zpow_natCast]; exact hov⟩
          rw [prec_mant, Nat.pow_succ]; omega
        rw [Fold.round_exact (g := f) ⟨le_refl _, le_refl _, le_refl _⟩ hrep'] at h
        split at h
        · split at h <;> cases h
        · split at h
          · simp only [FV.fin.injEq] at h
            have h3 := mul_left_cancel₀ (show (F : ℚ) ≠ 0 by exact_mod_cast hF0.ne') h.2
            have : (2 : ℚ) ^ f.emin < 2 ^ (f.emin + n.toInt) := zp_lt (by omega)
            rw [h3] at this
            exact absurd this (lt_irrefl _)
          · simp only [FV.fin.injEq] at h
            rcases eq_or_lt_of_le hj with hj0 | hjpos
            · have hnE : (E' : Int) = n.toInt := by rw [← hj0] at hdm; omega
              rw [hnE, show n.toInt - 1 + f.emin = -1 + (f.emin + n.toInt) by omega, zp (-1), ← mul_assoc] at h
              have h3 := mul_right_cancel₀ (zp_pos _).ne' h.2
              have h4 : ((2 ^ mant f + F : Nat) : ℚ) = (2 * F : Nat) := by
                push_cast at h3 ⊢; norm_num at h3; linarith
              have h5 : 2 ^ mant f + F = 2 * F := by exact_mod_cast h4
              omega
            · have hj2 : 2 ^ (high f - 1) * (1 : Int) ≤ 2 ^ (high f - 1) * (n.toInt / 2 ^ (high f - 1)) :=
                mul_le_mul_of_nonneg_left (by omega) (by positivity)
              have hb := (normal_bounds hF ((E' : Int) - 1 + f.emin)).2
              rw [h.2] at hb
              have := zp_lt_iff.mp (lt_of_le_of_lt hlow hb)
              omega
      · rw [round_over s' (not_lt.mp hov)] at h
        split at h
        · split at h
          · omega
          · cases h
        · split at h <;> cases h
  · rintro rfl
    have hT : total f 0 (0 : BitVec 32).toInt = 0 := by
      rw [show (0 : BitVec 32).toInt = 0 by decide, total]; simp
    rw [scaled_mk hE hF, hT, decide_eq_false (by omega), Bool.or_false, Nat.zero_mod, val_mk hE hF, if_neg hmx, if_pos rfl,
      show (0 : BitVec 32).toInt = 0 by decide, zpow_zero, mul_one]
    exact (Fold.round_exact (g := f) ⟨le_refl _, le_refl _, le_refl _⟩ hrep).symm

example : ∃ q, val .f32 1#32 = .fin false q ∧ 0 < q ∧ q < 2 ^ (mant .f32 + Fmt.f32.emin) :=
  ⟨1 / 2 ^ 149, by decide +kernel, by norm_num, by norm_num [mant, Fmt.emin]⟩

/-- `ldexp` of an infinity is that infinity only if the exponent comes round. -/
theorem ldexp_inf_iff {f : Fmt} {x : Bits f} {s : Bool} (fast : Bool) (n : BitVec 32) (hx : val f x = .inf s) :
    val f (ldexp f fast x n) = .inf s ↔ n.toInt % period f s = 0 := by
  rw [ldexp_eq, if_neg (by rintro ⟨-, s', h⟩; rw [hx] at h; cases h)]
  have hP : 2 < 2 ^ (high f - 1) := by cases f <;> decide
  have hPc : ((2 ^ (high f - 1) : Nat) : Int) = 2 ^ (high f - 1) := by push_cast; rfl
  obtain ⟨s', E, F, hE, hF, rfl⟩ := fields f x
  have hEF : E = 2 ^ (high f - 1) - 1 ∧ F = 0 ∧ s' = s := by
    rw [val_mk hE hF] at hx
    split at hx
    · split at hx
      · cases hx
        refine ⟨?_, ?_, rfl⟩ <;> assumption
      · cases hx
    · split at hx <;> cases hx
  obtain ⟨rfl, rfl, rfl⟩ := hEF
  have hTm : total f (2 ^ (high f - 1) - 1) n.toInt % 2 ^ (high f - 1) < 2 ^ (high f - 1) := Nat.mod_lt _ (pos_expo f)
  have hw := wraps (f := f) s' (((2 ^ (high f - 1) - 1 : Nat) : Int) + n.toInt) (c := 2 ^ (high f - 1) - 1) (by omega)
  rw [show ((2 ^ (high f - 1) - 1 : Nat) : Int) + n.toInt - (2 ^ (high f - 1) - 1 : Nat) = n.toInt by omega] at hw
  rw [← hw, scaled_mk hE hF, val_mk hTm hF]
  show _ ↔ ((s' || decide (2 ^ (high f - 1) ≤ total f (2 ^ (high f - 1) - 1) n.toInt)) = s' ∧
    total f (2 ^ (high f - 1) - 1) n.toInt % 2 ^ (high f - 1) = 2 ^ (high f - 1) - 1)
  constructor
  · intro h
    split at h
    · rename_i h1
      rw [if_pos rfl] at h
      simp only [FV.inf.injEq] at h
      exact ⟨h, h1⟩
    · split at h <;> cases h
  · rintro ⟨h1, h2⟩
    rw [if_pos h2, if_pos rfl, h1]

/-- `ldexp` of NaN is NaN only if the exponent comes round. -/
theorem ldexp_nan_iff {f : Fmt} {x : Bits f} (fast : Bool) (n : BitVec 32) (hx : val f x = .nan) :
    val f (ldexp f fast x n) = .nan ↔ n.toInt % 2 ^ (high f - 1) = 0 := by
  rw [ldexp_eq, if_neg (by rintro ⟨-, s', h⟩; rw [hx] at h; cases h)]
  have hP : 2 < 2 ^ (high f - 1) := by cases f <;> decide
  have hPc : ((2 ^ (high f - 1) : Nat) : Int) = 2 ^ (high f - 1) := by push_cast; rfl
  obtain ⟨s', E, F, hE, hF, rfl⟩ := fields f x
  have hEF : E = 2 ^ (high f - 1) - 1 ∧ F ≠ 0 := by
    rw [val_mk hE hF] at hx
    split at hx
    · split at hx
      · cases hx
      · refine ⟨?_, ?_⟩ <;> assumption
    · split at hx <;> cases hx
  obtain ⟨rfl, hF0⟩ := hEF
  have hTm : total f (2 ^ (high f - 1) - 1) n.toInt % 2 ^ (high f - 1) < 2 ^ (high f - 1) := Nat.mod_lt _ (pos_expo f)
  have hw := wraps (f := f) true (((2 ^ (high f - 1) - 1 : Nat) : Int) + n.toInt) (c := 2 ^ (high f - 1) - 1) (by omega)
  rw [show ((2 ^ (high f - 1) - 1 : Nat) : Int) + n.toInt - (2 ^ (high f - 1) - 1 : Nat) = n.toInt by omega] at hw
  simp only [Bool.true_or, true_and, period, if_true] at hw
  rw [← hw, scaled_mk hE hF, val_mk hTm hF]
  show _ ↔ total f (2 ^ (high f - 1) - 1) n.toInt % 2 ^ (high f - 1) = 2 ^ (high f - 1) - 1
  constructor
  · intro h
    split at h
    · assumption
    · split at h <;> cases h
  · intro h
    rw [if_pos h, if_neg hF0]

/-- Overflow gives NaN or the other zero, underflow minus infinity or zero:
`ldexp(1.5f, 128)`, `ldexp(1.0f, 129)`, `ldexp(1.0f, -128)` and
`ldexp(1.0f, -127)`, whose values are infinity, infinity, `2 ^ -128` and
`2 ^ -127`. -/
theorem ldexp_wrong :
    val .f32 (ldexp .f32 false 0x3FC00000#32 128) = .nan ∧
    val .f32 (ldexp .f32 false 0x3F800000#32 129) = .fin true 0 ∧
    val .f32 (ldexp .f32 false 0x3F800000#32 (-128)) = .inf true ∧
    val .f32 (ldexp .f32 false 0x3F800000#32 (-127)) = .fin false 0 ∧
    val .f32 (ldexp .f32 false (infBits .f32) (-1)) = .fin false (2 ^ 127) := by
  decide +kernel

/-- The fast library multiplies zero: `ldexp(0.0f, 1)` is `2 ^ -126`. -/
theorem ldexp_fast_zero_wrong : val .f32 (ldexp .f32 true 0 1) = .fin false (1 / 2 ^ 126) := by decide +kernel

end Ispc.FloatBits
