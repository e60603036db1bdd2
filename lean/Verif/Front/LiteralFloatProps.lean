import Verif.Front.LiteralFloat
import Mathlib.Tactic.LinearCombination

/-!
# C50: floating-point literals, the proofs
-/

namespace Ispc.Literal

/-! ## Rounding -/

theorem ilog_spec {x : ℚ} (hx : 0 < x) : (2 : ℚ) ^ ilog x ≤ x ∧ x < (2 : ℚ) ^ (ilog x + 1) := by
  have hnum : 0 < x.num := Rat.num_pos.2 hx
  obtain ⟨n, hn⟩ : ∃ n : Nat, x.num = n := ⟨x.num.toNat, (Int.toNat_of_nonneg hnum.le).symm⟩
  have hn0 : n ≠ 0 := by rintro rfl; rw [hn] at hnum; exact absurd hnum (by simp)
  have hd0 : x.den ≠ 0 := x.den_nz
  have hxe : x = (n : ℚ) / (x.den : ℚ) := by
    conv_lhs => rw [← Rat.num_div_den x]
    rw [hn]; rfl
  have hnt : x.num.toNat = n := by rw [hn]; rfl
  have h1 : (2 : ℚ) ^ (Nat.log2 n : Int) ≤ n := by
    rw [zpow_natCast]; exact_mod_cast Nat.log2_self_le hn0
  have h2 : (n : ℚ) < (2 : ℚ) ^ ((Nat.log2 n : Int) + 1) := by
    have : n < 2 ^ (Nat.log2 n + 1) := Nat.lt_log2_self
    have e : ((Nat.log2 n : Int) + 1) = ((Nat.log2 n + 1 : Nat) : Int) := by push_cast; rfl
    rw [e, zpow_natCast]; exact_mod_cast this
  have h3 : (2 : ℚ) ^ (Nat.log2 x.den : Int) ≤ x.den := by
    rw [zpow_natCast]; exact_mod_cast Nat.log2_self_le hd0
  have h4 : (x.den : ℚ) < (2 : ℚ) ^ ((Nat.log2 x.den : Int) + 1) := by
    have : x.den < 2 ^ (Nat.log2 x.den + 1) := Nat.lt_log2_self
    have e : ((Nat.log2 x.den : Int) + 1) = ((Nat.log2 x.den + 1 : Nat) : Int) := by push_cast; rfl
    rw [e, zpow_natCast]; exact_mod_cast this
  have hdpos : (0 : ℚ) < x.den := by exact_mod_cast Nat.pos_of_ne_zero hd0
  have hup : x < (2 : ℚ) ^ ((Nat.log2 n : Int) - Nat.log2 x.den + 1) := by
    rw [hxe, div_lt_iff₀ hdpos, ← hxe]
    calc (n : ℚ) < (2 : ℚ) ^ ((Nat.log2 n : Int) + 1) := h2
      _ = (2 : ℚ) ^ ((Nat.log2 n : Int) - Nat.log2 x.den + 1) * (2 : ℚ) ^ (Nat.log2 x.den : Int) := by
          rw [← zpow_add₀ (by norm_num)]; congr 1; ring
      _ ≤ _ := mul_le_mul_of_nonneg_left h3 (by positivity)
  have hlo : (2 : ℚ) ^ ((Nat.log2 n : Int) - Nat.log2 x.den - 1) ≤ x := by
    rw [hxe, le_div_iff₀ hdpos, ← hxe]
    calc (2 : ℚ) ^ ((Nat.log2 n : Int) - Nat.log2 x.den - 1) * (x.den : ℚ)
        ≤ (2 : ℚ) ^ ((Nat.log2 n : Int) - Nat.log2 x.den - 1) * (2 : ℚ) ^ ((Nat.log2 x.den : Int) + 1) :=
          mul_le_mul_of_nonneg_left h4.le (by positivity)
      _ = (2 : ℚ) ^ (Nat.log2 n : Int) := by rw [← zpow_add₀ (by norm_num)]; congr 1; ring
      _ ≤ n := h1
  unfold ilog
  rw [hnt]
  dsimp only
  split_ifs with h
  · exact ⟨h, hup⟩
  · refine ⟨hlo, ?_⟩
    rw [sub_add_cancel]
    exact not_le.1 h

theorem rne_int (n : Int) : rne (n : ℚ) = n := by
  unfold rne
  simp

theorem rne_near (q : ℚ) : |q - rne q| ≤ 1 / 2 := by
  unfold rne
  have h1 := Int.floor_le q
  have h2 := Int.lt_floor_add_one q
  dsimp only
  split_ifs <;> rw [abs_le] <;> push_cast <;> constructor <;> linarith

theorem two_zpow_pos (e : Int) : (0 : ℚ) < (2 : ℚ) ^ e := by positivity

/-- Numbers of the format are not changed. -/
theorem rnd_exact {f : Fmt} {x : ℚ} (h : f.Rep x) : f.rnd x = .fin x := by
  obtain ⟨m, e, hm, he, hx, hmax⟩ := h
  unfold Fmt.rnd
  split_ifs with h0
  · rw [h0]
  have hpos : 0 < x := by
    rcases Nat.eq_zero_or_pos m with rfl | hm0
    · exact absurd (by rw [hx]; simp) h0
    · rw [hx]
      have : (0 : ℚ) < m := by exact_mod_cast hm0
      exact mul_pos this (two_zpow_pos e)
  obtain ⟨hl, hu⟩ := ilog_spec hpos
  have hue : f.unit x ≤ e := by
    unfold Fmt.unit
    apply max_le _ he
    have hlt : x < (2 : ℚ) ^ ((f.p : Int) + e) := by
      rw [hx, zpow_add₀ (by norm_num), zpow_natCast]
      exact mul_lt_mul_of_pos_right (by exact_mod_cast hm) (two_zpow_pos e)
    have := (zpow_lt_zpow_iff_right₀ (by norm_num : (1 : ℚ) < 2)).1 (lt_of_le_of_lt hl hlt)
    omega
  obtain ⟨k, hk⟩ : ∃ k : Nat, e = f.unit x + k := ⟨(e - f.unit x).toNat, by omega⟩
  have hint : x / (2 : ℚ) ^ f.unit x = ((m * 2 ^ k : Int) : ℚ) := by
    rw [div_eq_iff (two_zpow_pos _).ne']
    conv_lhs => rw [hx, hk, zpow_add₀ (by norm_num), zpow_natCast]
    push_cast
    ring
  rw [hint, rne_int, ← hint, div_mul_cancel₀ _ (two_zpow_pos _).ne']
  simp only [hmax, if_true]

theorem rne_even {q : ℚ} (h : q - ⌊q⌋ = 1 / 2) : rne q % 2 = 0 := by
  unfold rne
  dsimp only
  rw [if_neg (by linarith), if_neg (by linarith)]
  split_ifs with h2
  · exact h2
  · omega

theorem rne_nearest (q : ℚ) (n : Int) : |q - rne q| ≤ |q - n| := by
  by_cases h : n = rne q
  · rw [h]
  · have h1 := rne_near q
    have h2 : (1 : ℚ) ≤ |(n : ℚ) - rne q| := by
      have : 1 ≤ |n - rne q| := Int.one_le_abs (sub_ne_zero.2 h)
      exact_mod_cast this
    have h3 : |(n : ℚ) - rne q| ≤ |q - rne q| + |q - n| := by
      have : (n : ℚ) - rne q = (q - rne q) - (q - n) := by ring
      rw [this]
      exact abs_sub _ _
    linarith

theorem rne_ge {q : ℚ} {n : Int} (h : (n : ℚ) ≤ q) : n ≤ rne q := by
  have : n ≤ ⌊q⌋ := Int.le_floor.2 h
  unfold rne
  dsimp only
  split_ifs <;> omega

theorem rne_le {q : ℚ} {n : Int} (h : q ≤ n) : rne q ≤ n := by
  have h1 := rne_nearest q n
  have h2 := rne_near q
  by_contra hlt
  have h3 : (n : ℚ) + 1 ≤ rne q := by exact_mod_cast (by omega : n + 1 ≤ rne q)
  rw [abs_le] at h2
  rw [abs_of_nonpos (by linarith), abs_of_nonpos (by linarith)] at h1
  linarith

/-- **The rounding used here is that of IEEE 754**: a finite result is a number of the format, and no number of the format
is nearer. -/
theorem rnd_nearest {f : Fmt} (hp : 0 < f.p) {x y : ℚ} (hx : 0 ≤ x) (h : f.rnd x = .fin y) :
    f.Rep y ∧ ∀ z, f.Rep z → |x - y| ≤ |x - z| := by
  unfold Fmt.rnd at h
  split_ifs at h with h0
  · cases h
    subst h0
    refine ⟨⟨0, f.emin, by positivity, le_refl _, by simp, two_zpow_pos _⟩, fun z _ => ?_⟩
    simp
  dsimp only at h
  split_ifs at h with hmax
  simp only [Fp.fin.injEq] at h
  have hpos : 0 < x := lt_of_le_of_ne hx (Ne.symm h0)
  obtain ⟨hl, hu⟩ := ilog_spec hpos
  set u := f.unit x with hudef
  have hupos := two_zpow_pos u
  have hu1 : ilog x - (f.p - 1) ≤ u := le_max_left _ _
  have hu2 : f.emin ≤ u := le_max_right _ _
  set r := rne (x / (2 : ℚ) ^ u) with hr
  have hr0 : 0 ≤ r := rne_ge (by push_cast; positivity)
  have hrp : r ≤ 2 ^ f.p := by
    apply rne_le
    rw [div_le_iff₀ hupos]
    push_cast
    calc x ≤ (2 : ℚ) ^ (ilog x + 1) := hu.le
      _ ≤ (2 : ℚ) ^ ((f.p : Int) + u) := zpow_le_zpow_right₀ (by norm_num) (by omega)
      _ = _ := by rw [zpow_add₀ (by norm_num), zpow_natCast]
  have hdist : ∀ n : Int, |x - y| ≤ |x - n * (2 : ℚ) ^ u| := by
    intro n
    have h1 := rne_nearest (x / (2 : ℚ) ^ u) n
    rw [← hr] at h1
    have e1 : x - y = (x / (2 : ℚ) ^ u - r) * (2 : ℚ) ^ u := by
      rw [← h, sub_mul, div_mul_cancel₀ _ hupos.ne']
    have e2 : x - n * (2 : ℚ) ^ u = (x / (2 : ℚ) ^ u - n) * (2 : ℚ) ^ u := by
      rw [sub_mul, div_mul_cancel₀ _ hupos.ne']
    rw [e1, e2, abs_mul, abs_mul]
    exact mul_le_mul_of_nonneg_right h1 (abs_nonneg _)
  refine ⟨?_, ?_⟩
  · obtain ⟨m, hm⟩ : ∃ m : Nat, r = m := ⟨r.toNat, (Int.toNat_of_nonneg hr0).symm⟩
    rw [hm] at h hmax hrp
    have hmp : m ≤ 2 ^ f.p := by exact_mod_cast hrp
    rcases Nat.lt_or_ge m (2 ^ f.p) with hlt | hge
    · exact ⟨m, u, hlt, hu2, by rw [← h]; push_cast; rfl, by rw [← h]; exact hmax⟩
    · have hme : m = 2 ^ f.p := le_antisymm hmp hge
      obtain ⟨k, hk⟩ : ∃ k, f.p = k + 1 := ⟨f.p - 1, by omega⟩
      refine ⟨2 ^ k, u + 1, ?_, by omega, ?_, by rw [← h]; exact hmax⟩
      · rw [hk]; exact Nat.pow_lt_pow_right (by norm_num) (by omega)
      · rw [← h, hme, hk, zpow_add₀ (by norm_num)]
        push_cast
        rw [pow_succ]
        ring
  · rintro z ⟨m, e, hm, he, rfl, _⟩
    rcases le_or_gt u e with hue | hue
    · obtain ⟨k, hk⟩ : ∃ k : Nat, e = u + k := ⟨(e - u).toNat, by omega⟩
      have := hdist (m * 2 ^ k)
      rw [hk, zpow_add₀ (by norm_num), zpow_natCast]
      have e1 : ((m * 2 ^ k : Int) : ℚ) * (2 : ℚ) ^ u = m * ((2 : ℚ) ^ u * 2 ^ k) := by push_cast; ring
      rw [← e1]
      exact this
    · have hueq : u = ilog x - (f.p - 1) := by
        have : u = max (ilog x - (f.p - 1)) f.emin := rfl
        rcases max_choice (ilog x - ((f.p : Int) - 1)) f.emin with h' | h' <;> omega
      have hz : (m : ℚ) * (2 : ℚ) ^ e ≤ (2 : ℚ) ^ ilog x := by
        calc (m : ℚ) * (2 : ℚ) ^ e ≤ (2 : ℚ) ^ (f.p : Int) * (2 : ℚ) ^ (u - 1) := by
              apply mul_le_mul
              · rw [zpow_natCast]; exact_mod_cast hm.le
              · exact zpow_le_zpow_right₀ (by norm_num) (by omega)
              · exact (two_zpow_pos _).le
              · exact (two_zpow_pos _).le
          _ = (2 : ℚ) ^ ilog x := by rw [← zpow_add₀ (by norm_num)]; congr 1; omega
      have h1 := hdist (2 ^ (f.p - 1))
      have h2 : (((2 ^ (f.p - 1) : Int)) : ℚ) * (2 : ℚ) ^ u = (2 : ℚ) ^ ilog x := by
        push_cast
        rw [← zpow_natCast, ← zpow_add₀ (by norm_num)]
        congr 1
        omega
      rw [h2, abs_of_nonneg (a := x - (2 : ℚ) ^ ilog x) (by linarith)] at h1
      rw [abs_of_nonneg (a := x - m * (2 : ℚ) ^ e) (by linarith)]
      linarith

theorem rnd_overflow {f : Fmt} (hf : f.emin ≤ f.emax - (f.p - 1)) (hp : 0 < f.p) {x : ℚ} (hx : (2 : ℚ) ^ f.emax ≤ x) :
    f.rnd x = .inf := by
  have hpos : 0 < x := lt_of_lt_of_le (two_zpow_pos _) hx
  obtain ⟨hl, hu⟩ := ilog_spec hpos
  have hlog : f.emax ≤ ilog x := by
    have := (zpow_lt_zpow_iff_right₀ (by norm_num : (1 : ℚ) < 2)).1 (lt_of_le_of_lt hx hu)
    omega
  unfold Fmt.rnd
  rw [if_neg hpos.ne']
  dsimp only
  have hueq : f.unit x = ilog x - (f.p - 1) := by unfold Fmt.unit; exact max_eq_left (by omega)
  have hr : (2 ^ (f.p - 1) : Int) ≤ rne (x / (2 : ℚ) ^ f.unit x) := by
    apply rne_ge
    rw [le_div_iff₀ (two_zpow_pos _)]
    push_cast
    rw [← zpow_natCast, ← zpow_add₀ (by norm_num)]
    refine le_trans (le_of_eq ?_) hl
    congr 1
    omega
  rw [if_neg]
  rw [not_lt]
  have hr' : ((2 : ℚ) ^ (f.p - 1)) ≤ rne (x / (2 : ℚ) ^ f.unit x) := by exact_mod_cast hr
  calc (2 : ℚ) ^ f.emax ≤ (2 : ℚ) ^ (((f.p - 1 : Nat) : Int) + f.unit x) :=
        zpow_le_zpow_right₀ (by norm_num) (by omega)
    _ = (2 : ℚ) ^ (f.p - 1) * (2 : ℚ) ^ f.unit x := by rw [zpow_add₀ (by norm_num), zpow_natCast]
    _ ≤ _ := mul_le_mul_of_nonneg_right hr' (two_zpow_pos _).le

theorem rnd_underflow {f : Fmt} (hp : 0 < f.p) {x : ℚ} (h0 : 0 ≤ x) (hx : x < (2 : ℚ) ^ (f.emin - 1)) :
    f.rnd x = .fin 0 := by
  unfold Fmt.rnd
  split_ifs with hz
  · rfl
  have hpos : 0 < x := lt_of_le_of_ne h0 (Ne.symm hz)
  obtain ⟨hl, hu⟩ := ilog_spec hpos
  have hlog : ilog x < f.emin - 1 := (zpow_lt_zpow_iff_right₀ (by norm_num : (1 : ℚ) < 2)).1 (lt_of_le_of_lt hl hx)
  have hueq : f.unit x = f.emin := by unfold Fmt.unit; exact max_eq_right (by omega)
  dsimp only
  rw [hueq]
  have hq : x / (2 : ℚ) ^ f.emin < 1 / 2 := by
    rw [div_lt_iff₀ (two_zpow_pos _)]
    refine lt_of_lt_of_eq hx ?_
    rw [zpow_sub₀ (by norm_num)]
    norm_num
    ring
  have hq0 : 0 ≤ x / (2 : ℚ) ^ f.emin := by positivity
  have hfl : ⌊x / (2 : ℚ) ^ f.emin⌋ = 0 := Int.floor_eq_iff.2 ⟨by push_cast; exact hq0, by push_cast; linarith⟩
  have hr : rne (x / (2 : ℚ) ^ f.emin) = 0 := by
    unfold rne
    dsimp only
    rw [hfl, if_pos (by push_cast; linarith)]
  rw [hr]
  simp [two_zpow_pos]

theorem rnd_fin {f : Fmt} (hf : f.emin ≤ f.emax - 1) (hp : 0 < f.p) {x : ℚ} (h0 : 0 ≤ x)
    (hx : x < (2 : ℚ) ^ (f.emax - 1)) : ∃ y, f.rnd x = .fin y := by
  unfold Fmt.rnd
  split_ifs with hz
  · exact ⟨_, rfl⟩
  have hpos : 0 < x := lt_of_le_of_ne h0 (Ne.symm hz)
  obtain ⟨hl, hu⟩ := ilog_spec hpos
  have hlog : ilog x < f.emax - 1 := (zpow_lt_zpow_iff_right₀ (by norm_num : (1 : ℚ) < 2)).1 (lt_of_le_of_lt hl hx)
  have hue : f.unit x ≤ f.emax - 1 := by unfold Fmt.unit; exact max_le (by omega) hf
  dsimp only
  have h1 := rne_near (x / (2 : ℚ) ^ f.unit x)
  rw [abs_le] at h1
  have h2 : (rne (x / (2 : ℚ) ^ f.unit x) : ℚ) * (2 : ℚ) ^ f.unit x ≤ x + 1 / 2 * (2 : ℚ) ^ f.unit x := by
    have h3 : (rne (x / (2 : ℚ) ^ f.unit x) : ℚ) ≤ x / (2 : ℚ) ^ f.unit x + 1 / 2 := by linarith
    have := mul_le_mul_of_nonneg_right h3 (two_zpow_pos (f.unit x)).le
    rwa [add_mul, div_mul_cancel₀ _ (two_zpow_pos _).ne'] at this
  have h4 : (2 : ℚ) ^ f.unit x ≤ (2 : ℚ) ^ (f.emax - 1) := zpow_le_zpow_right₀ (by norm_num) hue
  have h5 : (2 : ℚ) ^ f.emax = 2 * (2 : ℚ) ^ (f.emax - 1) := by
    rw [← zpow_one_add₀ (by norm_num)]; congr 1; omega
  rw [if_pos (by have := two_zpow_pos (f.emax - 1); linarith)]
  exact ⟨_, rfl⟩

/-! ## Specification: the value of a hexadecimal literal -/

/-- The value of the digits after the dot. -/
def fraction : List Nat → ℚ
  | [] => 0
  | d :: ds => (d + fraction ds) / 16

/-- The value of the mantissa. -/
def mant (lead : Bool) (ds : List Nat) : ℚ := (if lead then 1 else 0) + fraction ds

/-- The value of the literal. -/
def hexValue (lead : Bool) (ds : List Nat) (e : Int) : ℚ := mant lead ds * (2 : ℚ) ^ e

/-! ## The mantissa -/

theorem zpow_four (i : Nat) : (2 : ℚ) ^ (-4 * (i : Int)) = (1 / 16) ^ i := by
  rw [zpow_mul, zpow_natCast]
  norm_num

theorem rep_scaled {n i : Nat} (hn : n < 2 ^ 53) (hi : i ≤ 200) : dbl.Rep (n * (1 / 16) ^ i) := by
  refine ⟨n, -4 * (i : Int), hn, by simp only [dbl]; omega, by rw [zpow_four], ?_⟩
  have h1 : ((1 : ℚ) / 16) ^ i ≤ 1 := pow_le_one₀ (by norm_num) (by norm_num)
  have h2 : (n : ℚ) < 2 ^ 53 := by exact_mod_cast hn
  have h3 : (n : ℚ) * (1 / 16) ^ i ≤ n := mul_le_of_le_one_right (by positivity) h1
  refine lt_of_le_of_lt h3 (lt_trans h2 ?_)
  have : (2 : ℚ) ^ (53 : Nat) = (2 : ℚ) ^ (53 : Int) := by norm_cast
  rw [this]
  exact zpow_lt_zpow_right₀ (by norm_num) (by simp [dbl])

theorem fin_div (a b : ℚ) (hb : b ≠ 0) : (Fp.fin a).div (.fin b) = dbl.rnd (a / b) := by simp [Fp.div, hb]

theorem mantissaLoop_eq : ∀ (ds : List Nat) (i K : Nat), (∀ d ∈ ds, d < 16) → i + ds.length ≤ 13 → K < 2 * 16 ^ i →
    mantissaLoop ds (.fin (K * (1 / 16) ^ i)) (.fin ((1 / 16) ^ (i + 1))) =
      .fin (K * (1 / 16) ^ i + fraction ds * (1 / 16) ^ i)
  | [], i, K, _, _, _ => by simp [mantissaLoop, fraction]
  | d :: ds, i, K, hd, hlen, hK => by
    have hd0 := hd d (by simp)
    simp only [List.length_cons] at hlen
    have hpow : 16 ^ (i + 1) ≤ 16 ^ 13 := Nat.pow_le_pow_right (by norm_num) (by omega)
    have hK' : 16 * K + d < 2 * 16 ^ (i + 1) := by rw [pow_succ]; omega
    have h53 : (2 : Nat) * 16 ^ 13 = 2 ^ 53 := by norm_num
    have e1 : (Fp.fin ((1 / 16) ^ (i + 1))).mul (.fin (d : ℚ)) = .fin (d * (1 / 16) ^ (i + 1)) := by
      show dbl.rnd _ = _
      rw [mul_comm]
      exact rnd_exact (rep_scaled (by omega) (by omega))
    have e2 : (Fp.fin (K * (1 / 16) ^ i)).add (.fin (d * (1 / 16) ^ (i + 1))) =
        .fin (((16 * K + d : Nat) : ℚ) * (1 / 16) ^ (i + 1)) := by
      show dbl.rnd _ = _
      have : (K : ℚ) * (1 / 16) ^ i + d * (1 / 16) ^ (i + 1) = ((16 * K + d : Nat) : ℚ) * (1 / 16) ^ (i + 1) := by
        push_cast
        rw [pow_succ]
        ring
      rw [this]
      exact rnd_exact (rep_scaled (by omega) (by omega))
    have e3 : (Fp.fin ((1 / 16) ^ (i + 1))).div (.fin 16) = .fin ((1 / 16) ^ (i + 1 + 1)) := by
      rw [fin_div _ _ (by norm_num)]
      have : ((1 : ℚ) / 16) ^ (i + 1) / 16 = ((1 : Nat) : ℚ) * (1 / 16) ^ (i + 1 + 1) := by
        rw [pow_succ _ (i + 1)]; push_cast; ring
      rw [this]
      rw [rnd_exact (rep_scaled (by norm_num) (by omega))]
      simp
    rw [mantissaLoop, e1, e2, e3, mantissaLoop_eq ds (i + 1) (16 * K + d) (fun d h => hd d (by simp [h])) (by omega) hK']
    congr 1
    simp only [fraction]
    push_cast
    rw [pow_succ]
    ring

theorem fraction_nonneg (ds : List Nat) : 0 ≤ fraction ds := by
  induction ds with
  | nil => simp [fraction]
  | cons d ds ih => simp only [fraction]; positivity

theorem fraction_eq : ∀ ds : List Nat, (∀ d ∈ ds, d < 16) → ∃ K : Nat, K < 16 ^ ds.length ∧
    fraction ds = K * (1 / 16) ^ ds.length
  | [], _ => ⟨0, by simp, by simp [fraction]⟩
  | d :: ds, h => by
    obtain ⟨K, h1, h2⟩ := fraction_eq ds fun d hd => h d (by simp [hd])
    have hd0 := h d (by simp)
    refine ⟨d * 16 ^ ds.length + K, ?_, ?_⟩
    · rw [List.length_cons, pow_succ]
      have : d * 16 ^ ds.length ≤ 15 * 16 ^ ds.length := Nat.mul_le_mul_right _ (by omega)
      omega
    · simp only [fraction, h2, List.length_cons]
      push_cast
      rw [pow_succ, add_mul, one_div, inv_pow]
      have : (16 : ℚ) ^ ds.length ≠ 0 := by positivity
      field_simp

/-- The mantissa: an integer of at most 53 bits, scaled. -/
theorem mantissa_eq (lead : Bool) (ds : List Nat) (hd : ∀ d ∈ ds, d < 16) (hlen : ds.length ≤ 13) :
    mantissaLoop ds (if lead then .fin 1 else .fin 0) ((Fp.fin 1).div (.fin 16)) =
      .fin (mant lead ds) := by
  have e : (Fp.fin 1).div (.fin 16) = .fin ((1 / 16) ^ (0 + 1)) := by
    rw [fin_div _ _ (by norm_num)]
    have : (1 : ℚ) / 16 = ((1 : Nat) : ℚ) * (1 / 16) ^ 1 := by norm_num
    rw [this, rnd_exact (rep_scaled (by norm_num) (by norm_num))]
    norm_num
  have h := mantissaLoop_eq ds 0 (if lead then 1 else 0) hd (by omega) (by split_ifs <;> norm_num)
  rw [e]
  unfold mant
  cases lead <;> simpa using h

theorem mantissa_rep (lead : Bool) (ds : List Nat) (hd : ∀ d ∈ ds, d < 16) (hlen : ds.length ≤ 13) :
    ∃ K : Nat, K < 2 ^ 53 ∧ mant lead ds = K * (2 : ℚ) ^ (-52 : Int) ∧
      (lead = true → 2 ^ 52 ≤ K) := by
  obtain ⟨K, h1, h2⟩ := fraction_eq ds hd
  have hs : 16 ^ ds.length * 16 ^ (13 - ds.length) = 2 ^ 52 := by
    rw [← pow_add, show ds.length + (13 - ds.length) = 13 by omega]
    norm_num
  have h3 : K * 16 ^ (13 - ds.length) < 2 ^ 52 := by
    rw [← hs]
    exact Nat.mul_lt_mul_of_pos_right h1 (by positivity)
  refine ⟨(if lead then 2 ^ 52 else 0) + K * 16 ^ (13 - ds.length), ?_, ?_, ?_⟩
  · split_ifs <;> omega
  · unfold mant
    rw [h2]
    have e1 : (2 : ℚ) ^ (-52 : Int) = (1 / 16) ^ 13 := by
      have := zpow_four 13
      norm_num at this ⊢
    have e2 : ((1 : ℚ) / 16) ^ 13 = (1 / 16) ^ ds.length * (1 / 16) ^ (13 - ds.length) := by
      rw [← pow_add, show ds.length + (13 - ds.length) = 13 by omega]
    have e3 : (16 : ℚ) ^ (13 - ds.length) * (1 / 16) ^ (13 - ds.length) = 1 := by
      rw [← mul_pow]; norm_num
    have e4 : (2 : ℚ) ^ 52 * (1 / 16) ^ 13 = 1 := by norm_num
    rw [e1]
    push_cast
    rw [add_mul, show (K : ℚ) * 16 ^ (13 - ds.length) * (1 / 16) ^ 13 = K * (1 / 16) ^ ds.length by
      rw [e2]; linear_combination (K * (1 / 16) ^ ds.length) * e3]
    congr 1
    cases lead
    · simp
    · norm_num
  · rintro rfl
    simp

/-! ## The power of two -/

/-- The powers of two, up to infinity. -/
def pw (k : Nat) : Fp := if k < 1024 then .fin (2 ^ k) else .inf

theorem pw_mul (a b : Nat) (hb : b ≤ 16) : (pw a).mul (.fin (2 ^ b)) = pw (a + b) := by
  unfold pw
  split_ifs with h1 h2 h2
  · show dbl.rnd _ = _
    rw [← pow_add]
    refine rnd_exact ⟨1, ((a + b : Nat) : Int), by norm_num [dbl], by simp [dbl]; omega, ?_, ?_⟩
    · rw [zpow_natCast]; simp
    · rw [← zpow_natCast]
      exact zpow_lt_zpow_right₀ (by norm_num) (by simp only [dbl]; omega)
  · show dbl.rnd _ = _
    rw [← pow_add]
    apply rnd_overflow (by simp [dbl]) (by simp [dbl])
    rw [← zpow_natCast]
    exact zpow_le_zpow_right₀ (by norm_num) (by simp only [dbl]; omega)
  · omega
  · show (if (2 : ℚ) ^ b = 0 then _ else _) = _
    rw [if_neg (by positivity)]

theorem ipow2Small_eq : ∀ (n a : Nat), ipow2Small n (pw a) = pw (a + n)
  | 0, a => rfl
  | n + 1, a => by
    rw [ipow2Small]
    have := pw_mul a 1 (by norm_num)
    rw [pow_one] at this
    rw [this, ipow2Small_eq n (a + 1)]
    congr 1
    omega

theorem ipow2Big_eq : ∀ (fuel n a : Nat), ipow2Big fuel n (pw a) = pw (a + n)
  | 0, n, a => ipow2Small_eq n a
  | fuel + 1, n, a => by
    rw [ipow2Big]
    split_ifs with h
    · have := pw_mul a 16 (by norm_num)
      rw [show (2 : ℚ) ^ 16 = 65536 by norm_num] at this
      rw [this, ipow2Big_eq fuel (n - 16) (a + 16)]
      congr 1
      omega
    · exact ipow2Small_eq n a

theorem toIntExp_toInt {e : Int} (h1 : -2 ^ 31 < e) (h2 : e < 2 ^ 31) : (toIntExp e).toInt = e := by
  unfold toIntExp
  rw [max_eq_right (by rw [min_eq_left] <;> omega), min_eq_left (by omega), BitVec.toInt_ofInt]
  rw [Int.bmod_eq_of_le] <;> omega

/-- `ipow2` is right up to the largest finite power of two, both ways. -/
theorem ipow2_eq {e : Int} (h1 : -2 ^ 31 < e) (h2 : e < 2 ^ 31) :
    ipow2 (toIntExp e) = some (if e < -1023 then .fin 0 else if e < 1024 then .fin ((2 : ℚ) ^ e) else .inf) := by
  have hone : Fp.fin 1 = pw 0 := by simp [pw]
  unfold ipow2
  rw [toIntExp_toInt h1 h2]
  have hne : toIntExp e ≠ BitVec.intMin 32 := by
    intro h
    have := congrArg BitVec.toInt h
    rw [toIntExp_toInt h1 h2] at this
    rw [this] at h1
    revert h1
    decide
  split_ifs with h3 h4 h5
  · rw [hone, ipow2Big_eq, Nat.zero_add, ← hone]
    unfold pw
    rw [if_neg (by omega)]
    rfl
  · rw [hone, ipow2Big_eq, Nat.zero_add, ← hone]
    unfold pw
    rw [if_pos (by omega)]
    congr 1
    rw [fin_div _ _ (by positivity)]
    have : (1 : ℚ) / 2 ^ (-e).toNat = (2 : ℚ) ^ e := by
      rw [← zpow_natCast, Int.toNat_of_nonneg (by omega), zpow_neg]; simp
    rw [this]
    refine rnd_exact ⟨1, e, by norm_num [dbl], by simp only [dbl]; omega, by simp, ?_⟩
    exact zpow_lt_zpow_right₀ (by norm_num) (by simp only [dbl]; omega)
  · omega
  · omega
  · rw [hone, ipow2Big_eq, Nat.zero_add]
    unfold pw
    rw [if_pos (by omega), ← zpow_natCast, Int.toNat_of_nonneg (by omega)]
  · rw [hone, ipow2Big_eq, Nat.zero_add]
    unfold pw
    rw [if_neg (by omega)]

/-! ## The literals -/

/-- What is computed. -/
theorem parseHexFloat_eq (lead : Bool) (ds : List Nat) (hd : ∀ d ∈ ds, d < 16) (hlen : ds.length ≤ 13) {e : Int}
    (h1 : -2 ^ 31 < e) (h2 : e < 2 ^ 31) :
    parseHexFloat lead ds e = some ((Fp.fin (mant lead ds)).mul
      (if e < -1023 then .fin 0 else if e < 1024 then .fin ((2 : ℚ) ^ e) else .inf)) := by
  unfold parseHexFloat
  simp only [mantissa_eq lead ds hd hlen, ipow2_eq h1 h2, Option.map_some]

theorem hexValue_nonneg (lead : Bool) (ds : List Nat) (e : Int) : 0 ≤ hexValue lead ds e := by
  unfold hexValue mant
  have := fraction_nonneg ds
  have := two_zpow_pos e
  split_ifs <;> positivity

theorem hexValue_lt (lead : Bool) (ds : List Nat) (hd : ∀ d ∈ ds, d < 16) (hlen : ds.length ≤ 13) (e : Int) :
    hexValue lead ds e < (2 : ℚ) ^ (e + 1) := by
  obtain ⟨K, h1, h2, _⟩ := mantissa_rep lead ds hd hlen
  unfold hexValue
  rw [h2, add_comm e 1, zpow_add₀ (by norm_num)]
  apply mul_lt_mul_of_pos_right _ (two_zpow_pos e)
  have : (K : ℚ) < 9007199254740992 := by exact_mod_cast h1
  norm_num
  linarith

/-- The value is a number of the format if the exponent is that of a normal number. -/
theorem hexValue_rep (lead : Bool) (ds : List Nat) (hd : ∀ d ∈ ds, d < 16) (hlen : ds.length ≤ 13) {e : Int}
    (h1 : -1022 ≤ e) (h2 : e ≤ 1023) : dbl.Rep (hexValue lead ds e) := by
  obtain ⟨K, h3, h4, _⟩ := mantissa_rep lead ds hd hlen
  refine ⟨K, -52 + e, h3, by simp only [dbl]; omega, ?_, ?_⟩
  · unfold hexValue
    rw [h4, zpow_add₀ (by norm_num)]
    ring
  · exact lt_of_lt_of_le (hexValue_lt lead ds hd hlen e) (zpow_le_zpow_right₀ (by norm_num) (by simp only [dbl]; omega))

/-- **C50, partial.** A hexadecimal literal of type `double` with up to 13 digits after the dot is the number of the
format that is nearest to the value written, if the exponent is at least -1023, and if it is at most 1023 or the number
begins with a 1.  For the exponents of normal numbers it is exactly the value written. -/
theorem hex_double_partial (lead : Bool) (ds : List Nat) (hd : ∀ d ∈ ds, d < 16) (hlen : ds.length ≤ 13) (e : Int)
    (h1 : -1023 ≤ e) (h2 : e < 2 ^ 31) (h3 : e ≤ 1023 ∨ lead = true) :
    hexLiteral .double lead ds e = some (dbl.rnd (hexValue lead ds e)) ∧
      (-1022 ≤ e → e ≤ 1023 → hexLiteral .double lead ds e = some (.fin (hexValue lead ds e))) := by
  have key : hexLiteral .double lead ds e = some (dbl.rnd (hexValue lead ds e)) := by
    show parseHexFloat lead ds e = _
    rw [parseHexFloat_eq lead ds hd hlen (by omega) h2, if_neg (by omega)]
    split_ifs with h4
    · rfl
    · have hl : lead = true := by rcases h3 with h3 | h3; · omega
                                  · exact h3
      subst hl
      have hf := fraction_nonneg ds
      have hne : mant true ds ≠ 0 := by simp only [mant, if_true]; positivity
      rw [rnd_overflow (f := dbl) (by simp [dbl]) (by simp [dbl])]
      · simp [Fp.mul, hne]
      · unfold hexValue
        have ha : (1 : ℚ) ≤ mant true ds := by simp only [mant, if_true]; linarith
        have hb : (2 : ℚ) ^ dbl.emax ≤ (2 : ℚ) ^ e := zpow_le_zpow_right₀ (by norm_num) (by simp only [dbl]; omega)
        calc (2 : ℚ) ^ dbl.emax ≤ 1 * (2 : ℚ) ^ e := by rw [one_mul]; exact hb
          _ ≤ _ := mul_le_mul_of_nonneg_right ha (two_zpow_pos e).le
  exact ⟨key, fun h5 h6 => by rw [key, rnd_exact (hexValue_rep lead ds hd hlen h5 h6)]⟩

/-- **C50, partial.** A hexadecimal literal of type `float` with up to 13 digits after the dot is the number of the format
that is nearest to the value written, if the exponent fits in an `int` and is at most 1023, or the value is not 0. -/
theorem hex_float_partial (lead : Bool) (ds : List Nat) (hd : ∀ d ∈ ds, d < 16) (hlen : ds.length ≤ 13) (e : Int)
    (h1 : -2 ^ 31 < e) (h2 : e < 2 ^ 31) (h3 : e ≤ 1023 ∨ hexValue lead ds e ≠ 0) :
    hexLiteral .single lead ds e = some (flt.rnd (hexValue lead ds e)) := by
  have h0 := hexValue_nonneg lead ds e
  have hlt := hexValue_lt lead ds hd hlen e
  show (parseHexFloat lead ds e).map Fp.toFloat = _
  rw [parseHexFloat_eq lead ds hd hlen h1 h2, Option.map_some]
  congr 1
  split_ifs with h4 h5
  · rw [rnd_underflow (f := flt) (by simp [flt]) h0
      (lt_of_lt_of_le hlt (zpow_le_zpow_right₀ (by norm_num) (by simp only [flt]; omega)))]
    have : (Fp.fin (mant lead ds)).mul (.fin 0) = .fin 0 := by
      show dbl.rnd _ = _
      rw [mul_zero]
      simp [Fmt.rnd]
    rw [this]
    simp [Fp.toFloat, Fmt.rnd]
  · show (dbl.rnd (hexValue lead ds e)).toFloat = _
    by_cases h6 : e = -1023
    · have hbig : (2 : ℚ) ^ (e + 1) < (2 : ℚ) ^ (dbl.emax - 1) :=
        zpow_lt_zpow_right₀ (by norm_num) (by show e + 1 < 1024 - 1; omega)
      obtain ⟨y, hy⟩ := rnd_fin (f := dbl) (by simp [dbl]) (by simp [dbl]) h0 (lt_trans hlt hbig)
      obtain ⟨⟨m, e', _, _, hye, _⟩, hnear⟩ := rnd_nearest (f := dbl) (by simp [dbl]) h0 hy
      have hy0 : 0 ≤ y := by rw [hye]; exact mul_nonneg (Nat.cast_nonneg m) (two_zpow_pos e').le
      have hz := hnear 0 ⟨0, 0, by norm_num [dbl], by simp [dbl], by simp, two_zpow_pos _⟩
      rw [sub_zero, abs_of_nonneg h0, abs_le] at hz
      have hy2 : y < (2 : ℚ) ^ (flt.emin - 1) := by
        have h7 : (2 : ℚ) * (2 : ℚ) ^ (e + 1) ≤ (2 : ℚ) ^ (flt.emin - 1) := by
          rw [← zpow_one_add₀ (by norm_num)]
          exact zpow_le_zpow_right₀ (by norm_num) (by simp only [flt]; omega)
        linarith [hz.1]
      rw [hy]
      show flt.rnd y = _
      rw [rnd_underflow (f := flt) (by simp [flt]) hy0 hy2, rnd_underflow (f := flt) (by simp [flt]) h0
        (lt_of_lt_of_le hlt (zpow_le_zpow_right₀ (by norm_num) (by simp only [flt]; omega)))]
    · rw [rnd_exact (hexValue_rep lead ds hd hlen (by omega) (by omega))]
      rfl
  · have hv : hexValue lead ds e ≠ 0 := by rcases h3 with h3 | h3; · omega
                                           · exact h3
    obtain ⟨K, hK1, hK2, _⟩ := mantissa_rep lead ds hd hlen
    have hm : mant lead ds ≠ 0 := by
      intro h; apply hv; unfold hexValue; rw [h, zero_mul]
    have hKpos : 1 ≤ K := by
      rcases Nat.eq_zero_or_pos K with rfl | h
      · exact absurd (by rw [hK2]; simp) hm
      · exact h
    have : (Fp.fin (mant lead ds)).mul .inf = .inf := by simp only [Fp.mul, hm, if_false]
    rw [this, rnd_overflow (f := flt) (by simp [flt]) (by simp [flt])]
    · rfl
    · unfold hexValue
      rw [hK2, mul_assoc, ← zpow_add₀ (by norm_num)]
      have hb : (2 : ℚ) ^ flt.emax ≤ (2 : ℚ) ^ (-52 + e) := zpow_le_zpow_right₀ (by norm_num) (by simp only [flt]; omega)
      have hk : (1 : ℚ) ≤ K := by exact_mod_cast hKpos
      calc (2 : ℚ) ^ flt.emax ≤ 1 * (2 : ℚ) ^ (-52 + e) := by rw [one_mul]; exact hb
        _ ≤ _ := mul_le_mul_of_nonneg_right hk (two_zpow_pos _).le

/-- `0x1.921fb54442d18p+1d`, from the manual, is the `double` nearest to π. -/
example : hexLiteral .double true [9, 2, 1, 15, 11, 5, 4, 4, 4, 2, 13, 1, 8] 1 = some (.fin (884279719003555 / 281474976710656)) := by
  decide +kernel

/-- **C50, the negation for small numbers.** Below the exponent -1023 every hexadecimal literal is 0, although numbers down
to 2^-1074 are of the format, as 2^-1030. -/
theorem hex_underflow_wrong : (∀ (lead : Bool) (ds : List Nat) (e : Int), (∀ d ∈ ds, d < 16) → ds.length ≤ 13 →
      -2 ^ 31 < e → e < -1023 → hexLiteral .double lead ds e = some (.fin 0)) ∧
    dbl.rnd (hexValue true [] (-1030)) = .fin ((2 : ℚ) ^ (-1030 : Int)) := by
  refine ⟨fun lead ds e hd hlen h1 h2 => ?_, by decide +kernel⟩
  show parseHexFloat lead ds e = _
  rw [parseHexFloat_eq lead ds hd hlen h1 (by omega), if_pos h2]
  show some (dbl.rnd _) = _
  rw [mul_zero]
  simp [Fmt.rnd]

/-- **C50, the negations for other hexadecimal literals.** `0x0p1024` is not a number; `0x0.1p1024d`, which is 2^1020, is
infinity; `0x1.000000000000081p0d` is rounded twice, to 1 instead of the next number; and exponents are taken modulo
2^32, so that `0x1p4294967296` is 1. -/
theorem hex_wrong :
    hexLiteral .single false [] 1024 = some .nan ∧ flt.rnd (hexValue false [] 1024) = .fin 0 ∧
    hexLiteral .double false [1] 1024 = some .inf ∧ dbl.rnd (hexValue false [1] 1024) = .fin ((2 : ℚ) ^ (1020 : Int)) ∧
    hexLiteral .double true [0, 0, 0, 0, 0, 0, 0, 0, 0, 0, 0, 0, 0, 8, 1] 0 = some (.fin 1) ∧
    dbl.rnd (hexValue true [0, 0, 0, 0, 0, 0, 0, 0, 0, 0, 0, 0, 0, 8, 1] 0) = .fin (1 + 1 / 2 ^ 52) ∧
    hexLiteral .single true [] 4294967296 = some (.fin 1) := by
  refine ⟨?_, ?_, ?_, ?_, ?_, ?_, ?_⟩ <;> decide +kernel

/-- **C50, partial.** A decimal literal of type `double` is the number of the format nearest to the value written; one of
type `float` is, if that value is a `double`. -/
theorem decimal_partial (v : ℚ) : decLiteral .double v = dbl.rnd v ∧ (dbl.Rep v → decLiteral .single v = flt.rnd v) := by
  refine ⟨rfl, fun h => ?_⟩
  show (dbl.rnd v).toFloat = _
  rw [rnd_exact h]
  rfl

example : dbl.Rep (1 / 2) ∧ decLiteral .single (1 / 2) = .fin (1 / 2) ∧
    decLiteral .single (1 / 10) = .fin (13421773 / 134217728) ∧ flt.rnd (1 / 10) = .fin (13421773 / 134217728) := by
  refine ⟨⟨1, -1, by norm_num [dbl], by simp [dbl], by norm_num, ?_⟩, by decide +kernel, by decide +kernel, by decide +kernel⟩
  exact lt_trans (show (1 / 2 : ℚ) < (2 : ℚ) ^ (0 : Int) by norm_num) (zpow_lt_zpow_right₀ (by norm_num) (by simp [dbl]))

/-- **C50, the negation.** Decimal literals of type `float` are rounded twice: 1.000000059604644775390626 becomes 1,
although 1.00000011920928955078125 is nearer. -/
theorem decimal_float_wrong : ∃ v y : ℚ, v = 1000000059604644775390626 / 1000000000000000000000000 ∧
    decLiteral .single v = .fin 1 ∧ flt.rnd v = .fin y ∧ |v - y| < |v - 1| := by
  refine ⟨_, 1 + 1 / 2 ^ 23, rfl, by decide +kernel, by decide +kernel, ?_⟩
  norm_num [abs_lt, abs_of_nonneg, abs_of_nonpos]

/-! ## The type -/

/-- The suffixes that the manual lists (docs/ispc.rst:2886-2896). -/
def suffixKind : List (List Char × FpKind) :=
  [([], .single), (['f'], .single), (['F'], .single), (['d'], .double), (['D'], .double), (['f', '1', '6'], .half),
   (['F', '1', '6'], .half)]

/-- The text of a literal before the suffix ends with a dot, or with a digit that only digits, a sign, or the character
`p`, `P`, `e`, `E` or `.` precede within the last three characters: in particular it does not end with `f16`. -/
def BodyOk (body : List Char) : Prop :=
  ∃ c cs, body.reverse = c :: cs ∧ (c.isDigit ∨ c = '.') ∧ ∀ x ∈ (c :: cs).take 3, x ≠ 'f' ∧ x ≠ 'F'

/-- **C50.** The suffix decides about the type as listed in the manual. -/
theorem kind_spec (body : List Char) (hb : BodyOk body) (sk : List Char × FpKind) (hs : sk ∈ suffixKind) :
    fpKind (body ++ sk.1) = sk.2 := by
  obtain ⟨c, cs, hrev, hc, htake⟩ := hb
  have hcd : c ≠ 'd' ∧ c ≠ 'D' := by
    rcases hc with h | rfl
    · constructor <;> (rintro rfl; revert h; decide)
    · decide
  have hends : ∀ s t : List Char, endsWith s t = s.reverse.isPrefixOf t.reverse := by
    intro s t
    rfl
  unfold fpKind
  simp only [hends, List.reverse_append, hrev]
  simp only [suffixKind, List.mem_cons, List.not_mem_nil, or_false] at hs
  have h1 := htake
  rcases cs with _ | ⟨c2, _ | ⟨c3, cs⟩⟩ <;> simp at h1 <;>
    rcases hs with rfl | rfl | rfl | rfl | rfl | rfl | rfl <;> simp [List.isPrefixOf] <;> grind

example : BodyOk ['0', 'x', '1', '.', 'f', '1', '6', 'p', '+', '1', '6'] ∧
    fpKind ['0', 'x', '1', '.', 'f', '1', '6', 'p', '+', '1', '6', 'd'] = .double := by
  refine ⟨⟨'6', _, rfl, Or.inl (by decide), by simp⟩, by decide⟩

end Ispc.Literal
