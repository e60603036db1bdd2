import Verif.Builtins.FloatBitsProps

/-!
# `fmod`
-/

namespace Ispc.FloatBits

open Ispc.Fold (Fmt FV Rel signed Rep)

/-- `fmod` of C: what is left of `x` after taking away the largest multiple of
`y` that is not larger, with the sign of `x`. -/
def cFmod : FV → FV → FV
  | .nan, _ => .nan
  | _, .nan => .nan
  | .inf _, _ => .nan
  | .fin s p, .inf _ => .fin s p
  | .fin s p, .fin _ q => if q = 0 then .nan else .fin s (p - ⌊p / q⌋ * q)

theorem eq_zero_iff {f : Fmt} (x : Bits f) : eq (val f x) (.fin false 0) = true ↔ ∃ s, val f x = .fin s 0 := by
  rw [eq, decide_eq_true_iff]
  cases h : val f x with
  | nan => simp [FV.rel]
  | inf a => cases a <;> simp [FV.rel]
  | fin a q =>
    simp only [FV.rel, FV.fin.injEq]
    constructor
    · intro h
      split at h
      · cases h
      · split at h
        · rename_i h1 h2
          exact ⟨a, rfl, by cases a <;> simpa [signed] using h2⟩
        · cases h
    · rintro ⟨-, -, rfl⟩
      cases a <;> simp [signed]

theorem quiet_val (f : Fmt) (neg : Bool) : val f (quiet f neg) = .nan := by
  cases f <;> cases neg <;> decide +kernel

theorem inf_iff {f : Fmt} (x : Bits f) : x &&& absMask f = infBits f ↔ ∃ s, val f x = .inf s := by
  rw [← isinf_iff, isinf, abs, beq_iff_eq]

theorem first_iff {f : Fmt} (x y : Bits f) :
    (isnan f x || isnan f y || eq (val f y) (.fin false 0)) = true ↔
      val f x = .nan ∨ val f y = .nan ∨ ∃ s, val f y = .fin s 0 := by
  rw [Bool.or_eq_true, Bool.or_eq_true, isnan_iff, isnan_iff, eq_zero_iff, or_assoc]

/-- The special cases, for whatever reciprocal and whatever the sign given to
the NaN.  Two infinities are left out: see `fmod_inf_inf_wrong`. -/
theorem body_special {f : Fmt} (fused : Bool) (rcp : FV → FV) (n₁ n₂ : Bool) (x y : Bits f)
    (h : ∀ s q s' q', val f x = .fin s q → val f y = .fin s' q' → q = 0 ∨ q' = 0)
    (hi : ∀ s s', val f x = .inf s → val f y ≠ .inf s') :
    (fmodBody f fused rcp n₁ n₂ x y).val = cFmod (val f x) (val f y) := by
  unfold fmodBody
  split
  · rename_i h1
    rw [first_iff] at h1
    show val f _ = _
    rw [quiet_val]
    rcases h1 with h1 | h1 | ⟨s, h1⟩
    · rw [h1]; rfl
    · rw [h1]; cases val f x <;> rfl
    · rw [h1]; cases val f x <;> simp [cFmod]
  · rename_i h1
    rw [first_iff, not_or, not_or] at h1
    obtain ⟨hx, hy, hy0⟩ := h1
    split
    · rename_i h2
      rw [inf_iff] at h2
      obtain ⟨s, h2⟩ := h2
      show val f x = _
      rw [h2]
      cases hv : val f x with
      | nan => exact absurd hv hx
      | inf s' => exact absurd h2 (hi s' s hv)
      | fin s' q => rfl
    · rename_i h2
      rw [inf_iff] at h2
      split
      · rename_i h3
        rw [inf_iff] at h3
        obtain ⟨s', h3⟩ := h3
        show val f _ = _
        rw [quiet_val, h3]
        cases hv : val f y with
        | nan => rfl
        | inf s' => rfl
        | fin s' q => rfl
      · rename_i h3
        rw [inf_iff] at h3
        cases hv : val f x with
        | nan => exact absurd hv hx
        | inf s' => exact absurd ⟨s', hv⟩ h3
        | fin s q =>
          cases hw : val f y with
          | nan => exact absurd hw hy
          | inf s' => exact absurd ⟨s', hw⟩ h2
          | fin s' q' =>
            rcases h _ _ _ _ hv hw with rfl | rfl
            · rw [if_pos]
              · show val f x = _
                rw [hv]
                rw [cFmod, if_neg (fun h0 => hy0 ⟨s', by rw [hw, h0]⟩)]
                simp
              · rw [← hv, eq_zero_iff]; exact ⟨s, hv⟩
            · exact absurd ⟨s', hw⟩ hy0

/-- `fmod` of the uniform version in the special cases: a NaN, an infinite
operand, a zero. -/
theorem fmod_special_partial {f : Fmt} (fused : Bool) (rcp : FV → FV) (x y : Bits f)
    (h : ∀ s q s' q', val f x = .fin s q → val f y = .fin s' q' → q = 0 ∨ q' = 0)
    (hi : ∀ s s', val f x = .inf s → val f y ≠ .inf s') :
    (fmod f fused rcp x y).val = cFmod (val f x) (val f y) := body_special _ _ _ _ _ _ h hi

/-- The same in every program instance of the varying version, whatever the
others are doing. -/
theorem fmod_gang_special_partial {f : Fmt} (fused eager : Bool) (rcp : FV → FV) (W : Nat) (mask : Nat → Bool)
    (x y : Nat → Bits f) (l : Nat)
    (h : ∀ s q s' q', val f (x l) = .fin s q → val f (y l) = .fin s' q' → q = 0 ∨ q' = 0)
    (hi : ∀ s s', val f (x l) = .inf s → val f (y l) ≠ .inf s') :
    (fmodGang f fused eager rcp W mask x y l).val = cFmod (val f (x l)) (val f (y l)) :=
  body_special _ _ _ _ _ _ h hi

example : (fmod .f32 false id 0x40490FDB#32 0#32).val = .nan := by
  refine (fmod_special_partial (f := .f32) false id 0x40490FDB#32 0#32 ?_ ?_).trans (by decide +kernel)
  · intro s q s' q' _ h
    rw [show val .f32 0#32 = .fin false 0 by decide +kernel] at h
    cases h; exact Or.inr rfl
  · intro s s' h
    rw [show val .f32 0x40490FDB#32 = .fin false (13176795 / 4194304) by decide +kernel] at h
    cases h

/-- `fmod` of two infinities is the first of them: the test for an infinite `y`
comes before that for an infinite `x`.  It should be NaN. -/
theorem fmod_inf_inf_wrong {f : Fmt} (fused : Bool) (rcp : FV → FV) {x y : Bits f} {s s' : Bool}
    (hx : val f x = .inf s) (hy : val f y = .inf s') :
    (fmod f fused rcp x y).val = .inf s ∧ cFmod (val f x) (val f y) = .nan := by
  refine ⟨?_, by rw [hx]; cases h : val f y <;> rfl⟩
  rw [fmod, fmodBody, if_neg, if_pos ((inf_iff y).mpr ⟨s', hy⟩)]
  · exact hx
  · rw [first_iff, hx, hy]
    simp

/-- The comment says "Return NaN with the sign of x".  In the varying version
the variable is shared by the gang: a NaN of one program instance is negative
because `x` is negative in another. -/
theorem fmod_nan_sign_wrong :
    fmodGang .f32 false false id 4 (fun _ => true)
      (fun l => if l = 0 then 0x3F800000#32 else 0xBF800000#32) (fun _ => 0#32) 0 = .bits (quiet .f32 true) ∧
    fmod .f32 false id 0x3F800000#32 0#32 = .bits (quiet .f32 false) := by
  decide +kernel

/-! ## Finite numbers -/

theorem signed_mul (a b : Bool) (p q : ℚ) : signed a p * signed b q = signed (a ^^ b) (p * q) := by
  cases a <;> cases b <;> simp [signed]

theorem signed_sub (a : Bool) (p q : ℚ) : signed a p - signed a q = signed a (p - q) := by
  cases a <;> simp [signed]
  ring

/-- A difference of the format, with the sign of a zero put to plus. -/
theorem ofQ_signed {f : Fmt} {a : Bool} {r : ℚ} (hr : Rep f (.fin a r)) :
    ofQ f false (signed a r) = if r = 0 then .fin false 0 else .fin a r := by
  have h0 := Fold.rep_nonneg hr
  have hrd : ∀ b, Rep f (.fin b r) := fun b => hr
  have hex : ∀ b, Fold.round f b r = .fin b r := fun b =>
    Fold.round_exact (g := f) ⟨le_refl _, le_refl _, le_refl _⟩ (hrd b)
  rw [ofQ]
  by_cases hz : r = 0
  · rw [if_pos hz, if_pos (by rw [hz]; cases a <;> simp [signed])]
  · have hp : 0 < r := lt_of_le_of_ne h0 (Ne.symm hz)
    rw [if_neg hz, if_neg (by cases a <;> simp [signed, hz])]
    cases a
    · simp only [signed, Bool.false_eq_true, if_false]
      rw [abs_of_pos hp, decide_eq_false (not_lt.mpr h0), hex]
    · simp only [signed, if_true]
      rw [abs_neg, abs_of_pos hp, decide_eq_true (by linarith), hex]

/-- `fmod` by a power of two, with a reciprocal that is correctly rounded (as
on the generic targets, builtins/generic.ispc:458-459): exact, up to the sign of a zero,
unless the quotient overflows.  Missing: all other divisors, for which it is
wrong in general (`fmod_wrong`). -/
theorem fmod_pow2_partial {f : Fmt} (fused : Bool) {x y : Bits f} {s s' : Bool} {p : ℚ} {k : Int}
    (hx : val f x = .fin s p) (hy : val f y = .fin s' (2 ^ k)) (hk : -k < f.emax)
    (hov : p / 2 ^ k < 2 ^ (f.emax : Int)) :
    ∃ z r, (fmod f fused (recip f) x y).val = .fin z r ∧ cFmod (val f x) (val f y) = .fin s r ∧
      (r ≠ 0 → z = s) := by
  have hk0 := (zp_pos k).ne'
  have hrepx := hx ▸ val_rep f x
  have hrepy := hy ▸ val_rep f y
  have hp0 := Fold.rep_nonneg hrepx
  obtain ⟨m, e, hpe, hm, he, hlt⟩ := hrepx
  obtain ⟨m', e', hke', -, he', hklt⟩ := hrepy
  rw [prec_mant] at hm
  have hmax := emax_eq f
  have hbig : f.emin + mant f + 1 ≤ -1 ∧ 2 ≤ mant f ∧ 1 ≤ f.emax ∧ -f.emin = f.emax + mant f - 2 := by
    cases f <;> decide
  have hkhi : k < f.emax := by rw [← zpow_natCast] at hklt; exact zp_lt_iff.mp hklt
  have hklo : f.emin ≤ k := by
    have hm1 : (1 : ℚ) ≤ m' := by
      rcases Nat.eq_zero_or_pos m' with rfl | h
      · simp at hke'; exact absurd hke' hk0
      · exact_mod_cast h
    have : (2 : ℚ) ^ e' ≤ 2 ^ k := by
      rw [hke']; exact le_mul_of_one_le_left (zp_pos _).le hm1
    have := zp_le_iff.mp this
    omega
  have hcf : cFmod (val f x) (val f y) = .fin s (p - ⌊p / 2 ^ k⌋ * 2 ^ k) := by
    rw [hx, hy, cFmod, if_neg hk0]
  by_cases hp : p = 0
  · refine ⟨s, 0, ?_, ?_, fun h => absurd rfl h⟩
    · rw [fmod_special_partial, hcf, hp]
      · simp
      · intro a q b q' h1 _
        rw [hx] at h1; cases h1; exact Or.inl hp
      · intro a b h1; rw [hx] at h1; cases h1
    · rw [hcf, hp]; simp
  have hppos : 0 < p := lt_of_le_of_ne hp0 (Ne.symm hp)
  have hmpos : 0 < m := by
    rcases Nat.eq_zero_or_pos m with rfl | h
    · simp at hpe; exact absurd hpe hp
    · exact h
  -- the path taken
  have hbody : (fmod f fused (recip f) x y).val =
      mulSub f fused (.fin s p) (trunc (mul f (.fin s p) (recip f (.fin s' (2 ^ k))))) (.fin s' (2 ^ k)) := by
    rw [fmod, fmodBody, if_neg, if_neg, if_neg, if_neg, hx, hy]
    · rfl
    · rw [eq_zero_iff, hx]; rintro ⟨b, h⟩; cases h; exact hp rfl
    · rw [inf_iff, hx]; rintro ⟨b, h⟩; cases h
    · rw [inf_iff, hy]; rintro ⟨b, h⟩; cases h
    · rw [first_iff, hx, hy]; rintro (h | h | ⟨b, h⟩)
      · cases h
      · cases h
      · simp only [FV.fin.injEq] at h; exact hk0 h.2
  have hself : f.le f := ⟨le_refl _, le_refl _, le_refl _⟩
  have hrcp : recip f (.fin s' (2 ^ k)) = .fin s' (2 ^ (-k)) := by
    rw [recip, if_neg hk0]
    have : (1 : ℚ) / 2 ^ k = 2 ^ (-k) := by rw [zpow_neg, one_div]
    rw [this]
    refine Fold.round_exact hself ⟨1, -k, by simp, ?_, by omega, ?_⟩
    · rw [prec_mant]; exact Nat.one_lt_two_pow (by omega)
    · rw [← zpow_natCast]; exact zp_lt (by omega)
  -- the quotient
  set N := ⌊p / 2 ^ k⌋ with hN
  have hq0 : 0 ≤ p / 2 ^ k := div_nonneg hp0 (zp_pos _).le
  have hN0 : 0 ≤ N := Int.floor_nonneg.mpr hq0
  have hdiv : p / 2 ^ k = (m : ℚ) * 2 ^ (e - k) := by
    rw [hpe, mul_div_assoc, ← zpow_sub₀ (by norm_num)]
  have htrunc : trunc (mul f (.fin s p) (.fin s' (2 ^ (-k)))) = .fin (s ^^ s') N := by
    have hmul : p * 2 ^ (-k) = p / 2 ^ k := by rw [zpow_neg, div_eq_mul_inv]
    simp only [mul]
    rw [hmul]
    rcases le_or_gt f.emin (e - k) with hek | hek
    · have hr : Rep f (.fin (s ^^ s') (p / 2 ^ k)) :=
        ⟨m, e - k, hdiv, by rw [prec_mant]; exact hm, hek, by rw [← zpow_natCast]; exact hov⟩
      rw [Fold.round_exact hself hr]; rfl
    · -- far below one
      have hqlt : p / 2 ^ k < 2 ^ (mant f + f.emin) := by
        have h1 : (m : ℚ) < 2 ^ (mant f + 1) := by exact_mod_cast hm
        have h2 : (m : ℚ) * 2 ^ (e - k) < 2 ^ ((mant f + 1 : Nat) + (e - k)) := by
          rw [zp, zpow_natCast]; exact mul_lt_mul_of_pos_right h1 (zp_pos _)
        rw [hdiv]
        exact lt_of_lt_of_le h2 (zp_le (by push_cast; omega))
      have hqpos : 0 < p / 2 ^ k := div_pos hppos (zp_pos _)
      have hle := roundMag_le_sub (f := f) (j := mant f) hqpos (le_refl _) hqlt.le
      have hone : (2 : ℚ) ^ (mant f + f.emin) < 1 := by
        rw [← zpow_zero (2 : ℚ)]; exact zp_lt (by omega)
      have hNz : N = 0 := by
        rw [hN, Int.floor_eq_zero_iff]; exact ⟨hq0, by linarith⟩
      rw [round_fin_of_le (lt_of_le_of_lt hle (zp_lt (by omega))), trunc, hNz]
      have hrn : 0 ≤ Fold.roundMag f (p / 2 ^ k) := by
        rw [roundMag_sub hqpos (lt_trans hqlt (zp_lt (by omega)))]
        exact mul_nonneg (by exact_mod_cast Fold.rne_nonneg (div_nonneg hq0 (zp_pos _).le)) (zp_pos _).le
      have : ⌊Fold.roundMag f (p / 2 ^ k)⌋ = 0 := by
        rw [Int.floor_eq_zero_iff]; exact ⟨hrn, by linarith⟩
      rw [this]
  -- the product and the difference are numbers of the format
  have hNle : (N : ℚ) * 2 ^ k ≤ p := by
    have := Int.floor_le (p / 2 ^ k)
    rw [le_div_iff₀ (zp_pos _)] at this
    exact this
  have hprod : ∀ b, Rep f (.fin b ((N : ℚ) * 2 ^ k)) := by
    intro b
    rcases le_or_gt k e with hke | hke
    · have hint : (N : ℚ) = p / 2 ^ k := by
        obtain ⟨d, hd⟩ := Int.le.dest hke
        have : p / 2 ^ k = ((m * 2 ^ d : Int) : ℚ) := by
          rw [hdiv, show e - k = (d : Int) by omega, zpow_natCast]; push_cast; rfl
        rw [hN, this, Int.floor_intCast]
      rw [hint, div_mul_cancel₀ _ hk0]
      exact ⟨m, e, hpe, by rw [prec_mant]; exact hm, he, hlt⟩
    · refine ⟨N.toNat, k, ?_, ?_, hklo, lt_of_le_of_lt hNle hlt⟩
      · have : ((N.toNat : Int) : ℚ) = N := by rw [Int.toNat_of_nonneg hN0]
        rw [← this]; push_cast; rfl
      · have h1 : (N : ℚ) < 2 ^ f.prec := by
          have h2 : p / 2 ^ k < m := by
            rw [hdiv]
            have hm0 : (0 : ℚ) < m := by exact_mod_cast hmpos
            have : (2 : ℚ) ^ (e - k) < 1 := by rw [← zpow_zero (2 : ℚ)]; exact zp_lt (by omega)
            exact mul_lt_of_lt_one_right hm0 this
          have h3 : (m : ℚ) < 2 ^ f.prec := by rw [prec_mant]; exact_mod_cast hm
          exact lt_of_le_of_lt (Int.floor_le _) (lt_trans h2 h3)
        have h2 : N < 2 ^ f.prec := by exact_mod_cast h1
        have h3 : ((N.toNat : Int)) < ((2 ^ f.prec : Nat) : Int) := by
          rw [Int.toNat_of_nonneg hN0]; exact_mod_cast h2
        exact_mod_cast h3
  have hdiff : Rep f (.fin s (p - N * 2 ^ k)) := by
    rcases le_or_gt k e with hke | hke
    · have hint : (N : ℚ) = p / 2 ^ k := by
        obtain ⟨d, hd⟩ := Int.le.dest hke
        have : p / 2 ^ k = ((m * 2 ^ d : Int) : ℚ) := by
          rw [hdiv, show e - k = (d : Int) by omega, zpow_natCast]; push_cast; rfl
        rw [hN, this, Int.floor_intCast]
      rw [hint, div_mul_cancel₀ _ hk0, sub_self]
      exact ⟨0, f.emin, by simp, Nat.two_pow_pos _, le_refl _, by positivity⟩
    · obtain ⟨d, hd⟩ := Int.le.dest hke.le
      have hval : p - N * 2 ^ k = ((m - N * 2 ^ d : Int) : ℚ) * 2 ^ e := by
        rw [hpe, ← hd, add_comm e, zp, zpow_natCast]; push_cast; ring
      have hnn : 0 ≤ p - N * 2 ^ k := by linarith
      have hnn2 : 0 ≤ (m : Int) - N * 2 ^ d := by
        by_contra hneg
        rw [not_le] at hneg
        rw [hval] at hnn
        have h1 : (((m : Int) - N * 2 ^ d : Int) : ℚ) < 0 := by exact_mod_cast hneg
        have := mul_neg_of_neg_of_pos h1 (zp_pos e)
        linarith
      refine ⟨((m : Int) - N * 2 ^ d).toNat, e, ?_, ?_, he, ?_⟩
      · have : ((((m : Int) - N * 2 ^ d).toNat : Int) : ℚ) = ((m : Int) - N * 2 ^ d : Int) := by
          rw [Int.toNat_of_nonneg hnn2]
        rw [hval, ← this]; push_cast; rfl
      · have h1 : 0 ≤ N * 2 ^ d := by positivity
        rw [prec_mant]; omega
      · have h1 : (0 : ℚ) ≤ N * 2 ^ k := mul_nonneg (by exact_mod_cast hN0) (zp_pos _).le
        linarith
  refine ⟨if p - N * 2 ^ k = 0 then false else s, p - N * 2 ^ k, ?_, hcf, fun h => by rw [if_neg h]⟩
  have hfin : ofQ f false (signed s (p - N * 2 ^ k)) =
      .fin (if p - N * 2 ^ k = 0 then false else s) (p - N * 2 ^ k) := by
    rw [ofQ_signed hdiff]
    split
    · rename_i h; rw [h]
    · rfl
  have hx1 : ((s ^^ s') ^^ s') = s := by cases s <;> cases s' <;> rfl
  have hx2 : (s && !s) = false := by cases s <;> rfl
  rw [hbody, hrcp, htrunc]
  have hunf : sub f (.fin s p) (mul f (.fin (s ^^ s') N) (.fin s' (2 ^ k))) =
      .fin (if p - N * 2 ^ k = 0 then false else s) (p - N * 2 ^ k) := by
    simp only [mul]
    rw [Fold.round_exact hself (hprod _), hx1]
    simp only [sub]
    rw [hx2, signed_sub, hfin]
  cases fused
  · simp only [mulSub, Bool.false_eq_true, if_false]; exact hunf
  · simp only [mulSub, if_true]
    rw [signed_mul, hx1, hx2, signed_sub, hfin]

example : ∃ p, val .f32 0x40490FDB#32 = .fin false p ∧ val .f32 0x3E800000#32 = .fin false (2 ^ (-2 : Int)) ∧
    p / 2 ^ (-2 : Int) < 2 ^ (Fmt.f32.emax : Int) :=
  ⟨13176795 / 4194304, by decide +kernel, by
    rw [show (2 : ℚ) ^ (-2 : Int) = 1 / 4 by norm_num]; decide +kernel, by norm_num [Fmt.emax]⟩

/-- With the correctly rounded reciprocal of the generic targets
`fmod(41.0f, 41.0f)` is 41, as `41 * (1 / 41)` is rounded below one;
`fmod(2^30, 3)`, 1 in C, is 0, or -32 where the last multiplication is fused
with the subtraction; and `fmod(2^126, 2^-124)`, 0 in C, is minus infinity. -/
theorem fmod_wrong (fused : Bool) :
    (fmod .f32 fused (recip .f32) 0x42240000#32 0x42240000#32).val = .fin false 41 ∧
    cFmod (val .f32 0x42240000#32) (val .f32 0x42240000#32) = .fin false 0 ∧
    (fmod .f32 fused (recip .f32) 0x4E800000#32 0x40400000#32).val = (if fused then .fin true 32 else .fin false 0) ∧
    cFmod (val .f32 0x4E800000#32) (val .f32 0x40400000#32) = .fin false 1 ∧
    (fmod .f32 fused (recip .f32) 0x7E800000#32 0x01800000#32).val = .inf true ∧
    cFmod (val .f32 0x7E800000#32) (val .f32 0x01800000#32) = .fin false 0 := by
  cases fused <;> decide +kernel

/-- `fmod(-4.0f, 2.0f)` is `+0`, in C `-0`. -/
theorem fmod_zero_sign_wrong (fused : Bool) :
    (fmod .f32 fused (recip .f32) 0xC0800000#32 0x40000000#32).val = .fin false 0 ∧
    cFmod (val .f32 0xC0800000#32) (val .f32 0x40000000#32) = .fin true 0 := by
  cases fused <;> decide +kernel

end Ispc.FloatBits
