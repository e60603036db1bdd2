import Verif.Builtins.Ieee

/-!
# Conversions between `float` and half-precision floats (C39)

`stdlib/stdlib.ispc:6633-6781`, the paths without native conversions, and the `_fast` versions (6783-6859).  The two
floating point operations of the code are parameters `sub` and `mul` of the model; what is assumed of them is in
`Ieee.SubExact` and `Ieee.MulNearest`.
-/

namespace Ispc.Half

open Ispc.Ieee

/-! ## Model -/

/-- `half_to_float(uniform unsigned int16)` (stdlib.ispc:6633-6656). -/
def halfToFloatU (sub : BitVec 32 → BitVec 32 → BitVec 32) (h : BitVec 16) : BitVec 32 :=
  let shifted_exp : BitVec 32 := 0x7c00#32 <<< 13
  let o : BitVec 32 := (h &&& 0x7fff#16).setWidth 32 <<< 13
  let exp := shifted_exp &&& o
  let o := o + (112#32 <<< 23)
  let o := if exp = shifted_exp then o + (112#32 <<< 23)
    else if exp = 0#32 then
      let o := o + (1#32 <<< 23)
      sub o (113#32 <<< 23)
    else o
  o ||| ((h &&& 0x8000#16).setWidth 32 <<< 16)

/-- `half_to_float(unsigned int16)` (stdlib.ispc:6658-6678), one lane. -/
def halfToFloatV (sub : BitVec 32 → BitVec 32 → BitVec 32) (h : BitVec 16) : BitVec 32 :=
  let shifted_exp : BitVec 32 := 0x7c00#32 <<< 13
  let o : BitVec 32 := (h &&& 0x7fff#16).setWidth 32 <<< 13
  let exp := shifted_exp &&& o
  let o := o + (112#32 <<< 23)
  let infnan_val := o + (112#32 <<< 23)
  let zerodenorm_val := sub (o + (1#32 <<< 23)) (113#32 <<< 23)
  let reg_val := if exp = 0#32 then zerodenorm_val else o
  let sign_bit : BitVec 32 := (h &&& 0x8000#16).setWidth 32 <<< 16
  (if exp = shifted_exp then infnan_val else reg_val) ||| sign_bit

/-- `float_to_half(uniform float)` (stdlib.ispc:6680-6721). -/
def floatToHalfU (mul : BitVec 32 → BitVec 32 → BitVec 32) (f : BitVec 32) : BitVec 16 :=
  let sign := f &&& 0x80000000#32
  let fint := f ^^^ sign
  let f32infty : BitVec 32 := 255#32 <<< 23
  let o : BitVec 32 := if f32infty.slt fint then 0x7e00#32 else 0x7c00#32
  let round_mask : BitVec 32 := ~~~0xfff#32
  let magic : BitVec 32 := 15#32 <<< 23
  let f16infty : BitVec 32 := 31#32 <<< 23
  let fint2 := mul (fint &&& round_mask) magic - round_mask
  let fint2 := if f16infty.slt fint2 then f16infty else fint2
  let o := if fint.slt f32infty then fint2.sshiftRight 13 else o
  (o ||| sign.sshiftRight 16).setWidth 16

/-- `min(float, float)` on the non-negative floats it is used on here, whose order is that of their patterns. -/
def minPos (a b : BitVec 32) : BitVec 32 := if b.toNat < a.toNat then b else a

/-- `float_to_half(float)` (stdlib.ispc:6723-6781), one lane. -/
def floatToHalfV (mul : BitVec 32 → BitVec 32 → BitVec 32) (f : BitVec 32) : BitVec 16 :=
  let sign := f &&& 0x80000000#32
  let fint := f ^^^ sign
  let f32infty : BitVec 32 := 255#32 <<< 23
  let o : BitVec 32 := if f32infty.slt fint then 0x7e00#32 else 0x7c00#32
  let round_mask : BitVec 32 := ~~~0xfff#32
  let magic : BitVec 32 := 15#32 <<< 23
  let fscale := mul (fint &&& round_mask) magic
  let fscale := minPos fscale ((31#32 <<< 23) - 0x1000#32)
  let fint2 := fscale - round_mask
  let o := if fint.slt f32infty then fint2.sshiftRight 13 else o
  (o ||| sign.sshiftRight 16).setWidth 16

/-- `half_to_float_fast` (stdlib.ispc:6783-6811). -/
def halfToFloatFast (h : BitVec 16) : BitVec 32 :=
  let hs : BitVec 32 := (h &&& 0x8000#16).setWidth 32
  let hem : BitVec 32 := (h &&& 0x7fff#16).setWidth 32
  (hs <<< 16) ||| ((hem <<< 13) + 0x38000000#32)

/-- `float_to_half_fast` (stdlib.ispc:6813-6859). -/
def floatToHalfFast (f : BitVec 32) : BitVec 16 :=
  let xs := f &&& 0x80000000#32
  let xe := f &&& 0x7F800000#32
  let xm := f &&& 0x007FFFFF#32
  let hs := xs >>> 16
  let hes := (xe >>> 23) - 127#32 + 15#32
  let he := hes <<< 10
  let hm := xm >>> 13
  let ret := hs ||| he ||| hm
  let ret := if xm &&& 0x00001000#32 ≠ 0#32 then ret + 1#32 else ret
  ret.setWidth 16

/-! ## Bits -/

theorem low_bits (x : BitVec 32) (k : Nat) (hk : k ≤ 32) : (x &&& BitVec.ofNat 32 (2 ^ k - 1)).toNat = x.toNat % 2 ^ k := by
  have h : 2 ^ k ≤ 2 ^ 32 := Nat.pow_le_pow_right (by omega) hk
  have hp : 0 < 2 ^ k := Nat.two_pow_pos k
  rw [BitVec.toNat_and, BitVec.toNat_ofNat, Nat.mod_eq_of_lt (by omega : 2 ^ k - 1 < 2 ^ 32), Nat.and_two_pow_sub_one_eq_mod]

theorem half_split (h : BitVec 16) : ∃ s x : Nat, h.toNat = s * 2 ^ 15 + x ∧ s < 2 ∧ x < 2 ^ 15 ∧
    (h &&& 0x7fff#16).toNat = x ∧ (h &&& 0x8000#16).toNat = s * 2 ^ 15 := by
  refine ⟨h.toNat / 2 ^ 15, h.toNat % 2 ^ 15, by omega, by have := h.isLt; omega, by omega, ?_, ?_⟩
  · rw [BitVec.toNat_and]; exact Nat.and_two_pow_sub_one_eq_mod _ 15
  · have e : h &&& 0x8000#16 = (h >>> 15) <<< 15 := by
      apply BitVec.eq_of_getLsbD_eq
      intro i hi
      interval_cases i <;> simp
    rw [e, BitVec.toNat_shiftLeft, BitVec.toNat_ushiftRight, Nat.shiftRight_eq_div_pow, Nat.shiftLeft_eq]
    have := h.isLt
    omega

theorem float_split (f : BitVec 32) : ∃ s a : Nat, f.toNat = s * 2 ^ 31 + a ∧ s < 2 ∧ a < 2 ^ 31 ∧
    (f ^^^ (f &&& 0x80000000#32)).toNat = a ∧ (f &&& 0x80000000#32) = BitVec.ofNat 32 (s * 2 ^ 31) := by
  refine ⟨f.toNat / 2 ^ 31, f.toNat % 2 ^ 31, by omega, by have := f.isLt; omega, by omega, ?_, ?_⟩
  · have e : f ^^^ (f &&& 0x80000000#32) = f &&& BitVec.ofNat 32 (2 ^ 31 - 1) := by
      apply BitVec.eq_of_getLsbD_eq
      intro i hi
      interval_cases i <;> simp
    rw [e, low_bits f 31 (by omega)]
  · have e : f &&& 0x80000000#32 = (f >>> 31) <<< 31 := by
      apply BitVec.eq_of_getLsbD_eq
      intro i hi
      interval_cases i <;> simp
    apply BitVec.eq_of_toNat_eq
    rw [e, BitVec.toNat_shiftLeft, BitVec.toNat_ushiftRight, Nat.shiftRight_eq_div_pow, Nat.shiftLeft_eq,
      BitVec.toNat_ofNat]

theorem or_sign16 (o : BitVec 32) (x : BitVec 16) (s : Nat) (hs : s < 2) (ho : o.toNat < 2 ^ 31) (hx : x.toNat = s * 2 ^ 15) :
    (o ||| (x.setWidth 32 <<< 16)).toNat = s * 2 ^ 31 + o.toNat := by
  rw [BitVec.toNat_or, BitVec.toNat_shiftLeft, BitVec.toNat_setWidth, hx, Nat.shiftLeft_eq]
  have e : s * 2 ^ 15 % 2 ^ 32 * 2 ^ 16 % 2 ^ 32 = 2 ^ 31 * s := by omega
  rw [e, Nat.or_comm, ← Nat.two_pow_add_eq_or_of_lt ho]
  omega

/-- The exponent test of `half_to_float`. -/
theorem exp_eq (o : BitVec 32) (e m : Nat) (he : e < 32) (hm : m < 2 ^ 10) (ho : o.toNat = (e * 2 ^ 10 + m) * 2 ^ 13) :
    ((0x7c00#32 <<< 13) &&& o).toNat = e * 2 ^ 23 := by
  have h : (0x7c00#32 <<< 13) &&& o = ((o >>> 23) &&& BitVec.ofNat 32 (2 ^ 5 - 1)) <<< 23 := by
    apply BitVec.eq_of_getLsbD_eq
    intro i hi
    interval_cases i <;> simp
  rw [h, BitVec.toNat_shiftLeft, low_bits _ 5 (by omega), BitVec.toNat_ushiftRight, Nat.shiftRight_eq_div_pow, ho,
    Nat.shiftLeft_eq]
  omega

theorem shl13 (x : Nat) (hx : x < 2 ^ 15) (h : BitVec 16) (hh : h.toNat = x) : (h.setWidth 32 <<< 13).toNat = x * 2 ^ 13 := by
  rw [BitVec.toNat_shiftLeft, BitVec.toNat_setWidth, hh, Nat.shiftLeft_eq]
  omega

/-! ## half to float -/

/-- The two versions of `half_to_float` are the same function. -/
theorem half_to_float_varying_eq (sub : BitVec 32 → BitVec 32 → BitVec 32) (h : BitVec 16) :
    halfToFloatV sub h = halfToFloatU sub h := by
  unfold halfToFloatV halfToFloatU
  simp only

/-- The value of a half in units of binary32. -/
theorem mag10_scaled (e m : Nat) (hm : m < 2 ^ 10) : 2 ^ 125 * mag 10 (e * 2 ^ 10 + m) =
    if e = 0 then m * 2 ^ 125 else (2 ^ 23 + m * 2 ^ 13) * 2 ^ (e + 112 - 1) := by
  rw [mag_eq 10 e m hm]
  by_cases h0 : e = 0
  · rw [if_pos h0, if_pos h0, Nat.mul_comm]
  · rw [if_neg h0, if_neg h0, show e + 112 - 1 = (e - 1) + 112 by omega, pow_add,
      show (2 : Nat) ^ 125 = 2 ^ 13 * 2 ^ 112 by rw [← pow_add]]
    ring

/-- Every multiple `m < 2^10` of the smallest half is a binary32. -/
theorem exists_float (m : Nat) (hm : m < 2 ^ 10) : ∃ r : Nat, r < inf32 ∧ mag 23 r = m * 2 ^ 125 := by
  by_cases hm0 : m = 0
  · exact ⟨0, by unfold inf32; omega, by rw [hm0]; decide⟩
  · obtain ⟨k, hk1, hk2⟩ : ∃ k, 2 ^ k ≤ m ∧ m < 2 ^ (k + 1) := ⟨Nat.log2 m, (Nat.log2_eq_iff hm0).1 rfl⟩
    have hk : k < 10 := by
      by_contra hk
      have : 2 ^ 10 ≤ 2 ^ k := Nat.pow_le_pow_right (by omega) (by omega)
      omega
    have hmk : (m - 2 ^ k) * 2 ^ (23 - k) < 2 ^ 23 := by
      have : (2 : Nat) ^ 23 = 2 ^ k * 2 ^ (23 - k) := by rw [← pow_add]; congr 1; omega
      rw [this]
      exact (Nat.mul_lt_mul_right (Nat.two_pow_pos _)).2 (by rw [pow_succ] at hk2; omega)
    refine ⟨(k + 103) * 2 ^ 23 + (m - 2 ^ k) * 2 ^ (23 - k), by unfold inf32; omega, ?_⟩
    rw [mag_eq 23 _ _ hmk, if_neg (by omega)]
    have e1 : 2 ^ 23 + (m - 2 ^ k) * 2 ^ (23 - k) = m * 2 ^ (23 - k) := by
      have : (2 : Nat) ^ 23 = 2 ^ k * 2 ^ (23 - k) := by rw [← pow_add]; congr 1; omega
      rw [this, ← Nat.add_mul, Nat.add_sub_cancel' hk1]
    rw [e1, Nat.mul_assoc, ← pow_add]
    congr 2
    omega

/-- The subtraction that renormalises a subnormal half is exact. -/
theorem renormalise (sub : BitVec 32 → BitVec 32 → BitVec 32) (hsub : SubExact sub) (o : BitVec 32) (m : Nat)
    (hm : m < 2 ^ 10) (ho : o.toNat = 113 * 2 ^ 23 + m * 2 ^ 13) :
    (sub o (113#32 <<< 23)).toNat < inf32 ∧ mag 23 (sub o (113#32 <<< 23)).toNat = m * 2 ^ 125 := by
  obtain ⟨r, hr1, hr2⟩ := exists_float m hm
  have hrn : (BitVec.ofNat 32 r).toNat = r := by
    clear hr2
    rw [BitVec.toNat_ofNat, Nat.mod_eq_of_lt (by unfold inf32 at hr1; omega)]
  have h1 : o.toNat < inf32 := by clear hr2; rw [ho]; unfold inf32; omega
  have h13 : m * 2 ^ 13 < 2 ^ 23 := by clear hr2; omega
  have hsr : sub o (113#32 <<< 23) = BitVec.ofNat 32 r := by
    refine hsub _ _ _ h1 (by decide) (by rw [hrn]; exact hr1) ?_
    rw [ho, hrn, hr2, show (113#32 <<< 23).toNat = 113 * 2 ^ 23 + 0 from rfl, mag_eq 23 113 _ h13,
      mag_eq 23 113 0 (Nat.two_pow_pos _), if_neg (by decide), if_neg (by decide),
      show (2 : Nat) ^ 125 = 2 ^ 13 * 2 ^ 112 by rw [← pow_add]]
    ring
  rw [hsr, hrn]
  exact ⟨hr1, hr2⟩

theorem fields_bound (e m : Nat) (he : e < 31) (hm : m < 2 ^ 10) :
    (e + 112) * 2 ^ 23 + m * 2 ^ 13 < inf32 ∧ m * 2 ^ 13 < 2 ^ 23 := by
  unfold inf32; omega

/-- What `half_to_float` computes, on sign `s`, exponent `e` and mantissa `m`. -/
theorem halfToFloat_fields (sub : BitVec 32 → BitVec 32 → BitVec 32) (hsub : SubExact sub) (h : BitVec 16) (s e m : Nat)
    (hs : s < 2) (he : e < 32) (hm : m < 2 ^ 10) (hh : h.toNat = s * 2 ^ 15 + (e * 2 ^ 10 + m)) :
    ∃ a, (halfToFloatU sub h).toNat = s * 2 ^ 31 + a ∧
      (e = 31 → a = inf32 + m * 2 ^ 13) ∧ (e < 31 → a < inf32 ∧ mag 23 a = 2 ^ 125 * mag 10 (e * 2 ^ 10 + m)) := by
  obtain ⟨s', x, h1, hs', hx, h2, h3⟩ := half_split h
  obtain rfl : s' = s := by omega
  obtain rfl : x = e * 2 ^ 10 + m := by omega
  clear h1
  have ho := shl13 _ hx _ h2
  have hexp := exp_eq _ e m he hm ho
  unfold halfToFloatU
  simp only
  generalize hog : (h &&& 0x7fff#16).setWidth 32 <<< 13 = o at ho hexp ⊢
  have ho1 : (o + (112#32 <<< 23)).toNat = (e + 112) * 2 ^ 23 + m * 2 ^ 13 := by
    rw [BitVec.toNat_add, ho, show (112#32 <<< 23).toNat = 112 * 2 ^ 23 from rfl]; omega
  by_cases h31 : e = 31
  · rw [if_pos (BitVec.eq_of_toNat_eq (by rw [hexp, h31]; rfl))]
    refine ⟨_, or_sign16 _ _ s' hs ?_ h3, ?_, fun h => absurd h (by omega)⟩
    · rw [BitVec.toNat_add, ho1, show (112#32 <<< 23).toNat = 112 * 2 ^ 23 from rfl]; omega
    · intro _
      rw [BitVec.toNat_add, ho1, show (112#32 <<< 23).toNat = 112 * 2 ^ 23 from rfl]; unfold inf32; omega
  · rw [if_neg (fun hc => by
      have := congrArg BitVec.toNat hc
      rw [hexp, show (0x7c00#32 <<< 13).toNat = 31 * 2 ^ 23 from rfl] at this
      omega)]
    by_cases h0 : e = 0
    · rw [if_pos (BitVec.eq_of_toNat_eq (by rw [hexp, h0]; rfl))]
      -- the exact difference is `m * 2^125`, a float
      have ho2 : (o + (112#32 <<< 23) + (1#32 <<< 23)).toNat = 113 * 2 ^ 23 + m * 2 ^ 13 := by
        rw [BitVec.toNat_add, ho1, show (1#32 <<< 23).toNat = 1 * 2 ^ 23 from rfl]; omega
      obtain ⟨hr1, hr2⟩ := renormalise sub hsub _ m hm ho2
      refine ⟨_, or_sign16 _ _ s' hs ?_ h3, fun h => absurd h (by clear hr2; omega), fun _ => ⟨hr1, ?_⟩⟩
      · clear hr2; unfold inf32 at hr1; omega
      · rw [hr2, mag10_scaled e m hm, if_pos h0]
    · rw [if_neg (fun hc => by
        have := congrArg BitVec.toNat hc
        rw [hexp, show (0#32).toNat = 0 from rfl] at this
        omega)]
      obtain ⟨b1, b2⟩ := fields_bound e m (Nat.lt_of_le_of_ne (Nat.le_of_lt_succ he) h31) hm
      refine ⟨_, or_sign16 _ _ s' hs (by rw [ho1]; exact Nat.lt_trans b1 (by decide)) h3,
        fun h => absurd h h31, fun _ => ⟨by rw [ho1]; exact b1, ?_⟩⟩
      rw [ho1, mag_eq 23 _ _ b2, if_neg (Nat.succ_ne_zero _), mag10_scaled e m hm, if_neg h0]

/-! ## float to half -/

theorem mag_magic : mag 23 (15 * 2 ^ 23) = 2 ^ 37 := by
  have := mag_eq 23 15 0 (Nat.two_pow_pos _)
  rw [Nat.add_zero, if_neg (by decide)] at this
  rw [this, Nat.add_zero, ← pow_add]

theorem mag_inf32 : mag 23 inf32 = 2 ^ 277 := by
  have := mag_eq 23 255 0 (Nat.two_pow_pos _)
  rw [Nat.add_zero, if_neg (by decide)] at this
  unfold inf32
  rw [this, Nat.add_zero, ← pow_add]

theorem dist_mul (c a b : Nat) : dist (c * a) (c * b) = c * dist a b := by
  unfold dist
  rw [Nat.mul_add, Nat.mul_sub, Nat.mul_sub]

/-- What the scaling multiplication guarantees: `r` is a nearest float to `a / 2^112`. -/
theorem scaled (mul : BitVec 32 → BitVec 32 → BitVec 32) (hmul : MulNearest mul) (a : BitVec 32) (ha : a.toNat < inf32) :
    (mul a (15#32 <<< 23)).toNat < inf32 ∧ ∀ q < inf32,
      dist (2 ^ 112 * mag 23 (mul a (15#32 <<< 23)).toNat) (mag 23 a.toNat) ≤ dist (2 ^ 112 * mag 23 q) (mag 23 a.toNat) := by
  have hm : (15#32 <<< 23).toNat = 15 * 2 ^ 23 := by decide
  have hlt : mag 23 a.toNat < 2 ^ 277 := by rw [← mag_inf32]; exact mag_lt_iff.2 ha
  obtain ⟨h1, h2⟩ := hmul a (15#32 <<< 23) ha (by decide) (by
    rw [hm, mag_magic]
    refine Nat.le_trans (Nat.mul_le_mul_right _ hlt.le) ?_
    rw [← pow_add]
    exact Nat.pow_le_pow_right (by decide) (by decide))
  refine ⟨h1, fun q hq => ?_⟩
  have h3 := h2 q hq
  rw [hm, mag_magic, Nat.mul_comm (mag 23 a.toNat), show (2 : Nat) ^ 149 = 2 ^ 37 * 2 ^ 112 by rw [← pow_add], Nat.mul_assoc,
    Nat.mul_assoc, dist_mul, dist_mul] at h3
  exact Nat.le_of_mul_le_mul_left h3 (Nat.two_pow_pos _)

theorem mag_small {q : Nat} (h : q ≤ 2 ^ 23) : mag 23 q = q := by
  have := mag_eq_le 23 0 q h
  rwa [Nat.zero_mul, Nat.zero_add, if_pos rfl] at this

theorem mag_up (e m : Nat) (he : 0 < e) (hm : m < 2 ^ 23) : mag 23 ((e + 112) * 2 ^ 23 + m) = 2 ^ 112 * mag 23 (e * 2 ^ 23 + m) := by
  rw [mag_eq _ _ _ hm, mag_eq _ _ _ hm, if_neg (by omega), if_neg (by omega), show e + 112 - 1 = 112 + (e - 1) by omega, pow_add]
  ring

theorem dist_eq_zero {a b : Nat} (h : dist a b ≤ 0) : a = b := by unfold dist at h; omega

theorem dist_far {x y z : Nat} (h1 : dist x z ≤ dist y z) (h2 : z < y) (h3 : y < x) : False := by
  unfold dist at h1; omega

theorem dist_self (a : Nat) : dist a a = 0 := by unfold dist; omega

/-- Floats whose last twelve bits are clear compare with the scaled value as with the exact one. -/
theorem scaled_compare (e m r q : Nat) (he : e < 255) (hm : m < 2 ^ 23) (hq : q < inf32) (hq12 : q % 2 ^ 12 = 0)
    (hr : ∀ q < inf32, dist (2 ^ 112 * mag 23 r) (mag 23 (e * 2 ^ 23 + (m - m % 2 ^ 12))) ≤
      dist (2 ^ 112 * mag 23 q) (mag 23 (e * 2 ^ 23 + (m - m % 2 ^ 12)))) :
    q ≤ r ↔ 2 ^ 112 * mag 23 q ≤ mag 23 (e * 2 ^ 23 + m) := by
  have hP : 0 < 2 ^ 112 := Nat.two_pow_pos _
  generalize hm' : m - m % 2 ^ 12 = m' at hr
  have hm'lt : m' < 2 ^ 23 := by omega
  have hm'12 : m' % 2 ^ 12 = 0 := by omega
  by_cases h113 : 113 ≤ e
  · -- the scaled value is itself a normal float
    obtain ⟨k, rfl⟩ : ∃ k, e = k + 112 := ⟨e - 112, by omega⟩
    have hk : 0 < k := by omega
    have hex : 2 ^ 112 * mag 23 r = mag 23 ((k + 112) * 2 ^ 23 + m') := by
      apply dist_eq_zero
      refine Nat.le_trans (hr (k * 2 ^ 23 + m') (by unfold inf32; omega)) ?_
      rw [← mag_up k m' hk hm'lt, dist_self]
    rw [mag_up k m' hk hm'lt] at hex
    have hrk : r = k * 2 ^ 23 + m' := mag_inj (Nat.eq_of_mul_eq_mul_left hP hex)
    rw [mag_up k m hk hm, Nat.mul_le_mul_left_iff hP, mag_le_iff, hrk]
    clear hr hex
    omega
  · have hsm : ∀ q, 2 ^ 23 < q → ¬ 2 ^ 112 * mag 23 q ≤ mag 23 (e * 2 ^ 23 + m) := by
      intro q hq hle
      have h1 : mag 23 (e * 2 ^ 23 + m) < mag 23 ((1 + 112) * 2 ^ 23 + 0) := mag_lt_iff.2 (by clear hr; omega)
      rw [mag_up 1 0 (by omega) (by omega)] at h1
      have h2 := Nat.lt_of_mul_lt_mul_left (Nat.lt_of_le_of_lt hle h1)
      have h3 := mag_lt_iff.1 h2
      omega
    by_cases h101 : 101 ≤ e
    · -- the scaled value is a subnormal float
      obtain ⟨k, rfl⟩ : ∃ k, e = k + 101 := ⟨e - 101, by omega⟩
      have hU : ∀ n, n < 2 ^ 23 → mag 23 ((k + 101) * 2 ^ 23 + n) = 2 ^ 100 * ((2 ^ 23 + n) * 2 ^ k) := by
        intro n hn
        rw [mag_eq _ _ _ hn, if_neg (by omega), show k + 101 - 1 = 100 + k by omega, pow_add]
        ring
      obtain ⟨n, hn⟩ : ∃ n, 2 ^ 23 + m' = 2 ^ 12 * n := ⟨(2 ^ 23 + m') / 2 ^ 12, by clear hr hU; omega⟩
      have hnk : n * 2 ^ k < 2 ^ 23 := by
        have h1 : n < 2 ^ 12 := by clear hr hU; omega
        have h2 : 2 ^ k ≤ 2 ^ 11 := Nat.pow_le_pow_right (by decide) (by omega)
        calc n * 2 ^ k < 2 ^ 12 * 2 ^ k := (Nat.mul_lt_mul_right (Nat.two_pow_pos _)).2 h1
          _ ≤ 2 ^ 12 * 2 ^ 11 := Nat.mul_le_mul_left _ h2
          _ = 2 ^ 23 := by rw [← pow_add]
      have hval : mag 23 ((k + 101) * 2 ^ 23 + m') = 2 ^ 112 * mag 23 (n * 2 ^ k) := by
        rw [hU m' hm'lt, hn, mag_small hnk.le, show (2 : Nat) ^ 112 = 2 ^ 100 * 2 ^ 12 by rw [← pow_add]]
        ring
      have hrk : r = n * 2 ^ k := by
        refine mag_inj (p := 23) (Nat.eq_of_mul_eq_mul_left hP ?_)
        rw [← hval]
        apply dist_eq_zero
        refine Nat.le_trans (hr (n * 2 ^ k) (Nat.lt_trans hnk (by decide))) ?_
        rw [← hval, dist_self]
      by_cases hq23 : q ≤ 2 ^ 23
      · rw [mag_small hq23, hU m hm, show (2 : Nat) ^ 112 = 2 ^ 100 * 2 ^ 12 by rw [← pow_add], Nat.mul_assoc,
          Nat.mul_le_mul_left_iff (Nat.two_pow_pos _), hrk]
        clear hr hU hval hsm hrk hnk
        obtain ⟨j, rfl⟩ : ∃ j, q = 2 ^ 12 * j := ⟨q / 2 ^ 12, by omega⟩
        obtain ⟨i, hi⟩ : ∃ i, k + i = 12 := ⟨12 - k, by omega⟩
        have e1 : 2 ^ 12 * (2 ^ 12 * j) = 2 ^ 12 * (2 ^ i * j) * 2 ^ k := by
          rw [show 2 ^ 12 * (2 ^ 12 * j) = 2 ^ 12 * ((2 ^ k * 2 ^ i) * j) by rw [← pow_add, hi]]; ring
        have e2 : 2 ^ 12 * j = 2 ^ i * j * 2 ^ k := by
          rw [show 2 ^ 12 * j = (2 ^ k * 2 ^ i) * j by rw [← pow_add, hi]]; ring
        rw [e1, Nat.mul_le_mul_right_iff (Nat.two_pow_pos _), e2, Nat.mul_le_mul_right_iff (Nat.two_pow_pos _)]
        omega
      · refine iff_of_false ?_ (hsm q (by omega))
        rw [hrk]; omega
    · -- the scaled value is below 2^11 units: only zero is small enough
      have hlt : ∀ n, n < 2 ^ 23 → mag 23 (e * 2 ^ 23 + n) < 2 ^ 112 * 2 ^ 11 := by
        intro n hn
        have h1 : mag 23 (e * 2 ^ 23 + n) < mag 23 (101 * 2 ^ 23 + 0) := mag_lt_iff.2 (by clear hr; omega)
        rw [mag_eq 23 101 0 (by omega), if_neg (by decide), Nat.add_zero, ← pow_add] at h1
        rw [← pow_add]
        exact h1
      have hr11 : r ≤ 2 ^ 11 := by
        by_contra hc
        have h1 := hr (2 ^ 11) (by decide)
        have h2 := hlt m' hm'lt
        have h3 : 2 ^ 112 * mag 23 (2 ^ 11) < 2 ^ 112 * mag 23 r :=
          (Nat.mul_lt_mul_left hP).2 (mag_lt_iff.2 (by omega))
        rw [mag_small (q := 2 ^ 11) (by decide)] at h1 h3
        exact dist_far h1 h2 h3
      by_cases hq0 : q = 0
      · subst hq0
        refine iff_of_true (Nat.zero_le _) ?_
        rw [mag_small (by decide), Nat.mul_zero]
        exact Nat.zero_le _
      · refine iff_of_false (by omega) ?_
        intro hle
        have h2 := Nat.lt_of_le_of_lt hle (hlt m hm)
        have h3 := Nat.lt_of_mul_lt_mul_left h2
        rw [← mag_small (q := 2 ^ 11) (by decide)] at h3
        have := mag_lt_iff.1 h3
        omega

/-- `float_to_half`, once the sign is off and the NaN and infinity cases are gone: the pattern of the half. -/
def roundedHalf (r : Nat) : Nat := min ((r + 2 ^ 12) / 2 ^ 13) inf16

/-- The value of a half in units of binary32 (a strictly increasing function of its pattern). -/
theorem halfValue_strictMono : StrictMono fun k => 2 ^ 125 * mag 10 k := fun _ _ h =>
  (Nat.mul_lt_mul_left (Nat.two_pow_pos _)).2 (mag_lt_iff.2 h)

theorem midpoint (k : Nat) : 2 ^ 125 * mag 10 k + 2 ^ 125 * mag 10 (k + 1) = 2 * (2 ^ 112 * mag 23 (k * 2 ^ 13 + 2 ^ 12)) := by
  have := mag_mid 10 12 k
  rw [show 2 * (2 ^ 112 * mag 23 (k * 2 ^ 13 + 2 ^ 12)) = 2 ^ 112 * (2 * mag (10 + (12 + 1)) (k * 2 ^ (12 + 1) + 2 ^ 12)) by
    rw [show 10 + (12 + 1) = 23 from rfl]; ring, this, show (2 : Nat) ^ 125 = 2 ^ 112 * 2 ^ (12 + 1) by rw [← pow_add]]
  ring

theorem roundedHalf_nearest (e m r : Nat) (he : e < 255) (hm : m < 2 ^ 23)
    (hr : ∀ q < inf32, dist (2 ^ 112 * mag 23 r) (mag 23 (e * 2 ^ 23 + (m - m % 2 ^ 12))) ≤
      dist (2 ^ 112 * mag 23 q) (mag 23 (e * 2 ^ 23 + (m - m % 2 ^ 12)))) :
    ∀ k ≤ inf16, dist (mag 23 (e * 2 ^ 23 + m)) (2 ^ 125 * mag 10 (roundedHalf r)) ≤
        dist (mag 23 (e * 2 ^ 23 + m)) (2 ^ 125 * mag 10 k) ∧
      (dist (mag 23 (e * 2 ^ 23 + m)) (2 ^ 125 * mag 10 (roundedHalf r)) =
        dist (mag 23 (e * 2 ^ 23 + m)) (2 ^ 125 * mag 10 k) → k ≤ roundedHalf r) := by
  have hlo : ∀ k, k < roundedHalf r → k * 2 ^ 13 + 2 ^ 12 ≤ r := by
    clear hr; intro k hk; unfold roundedHalf at hk; omega
  have hhi : ∀ k, roundedHalf r ≤ k → k < inf16 → ¬ k * 2 ^ 13 + 2 ^ 12 ≤ r := by
    clear hr hlo; intro k hk hk2; unfold roundedHalf at hk; omega
  have hmid : ∀ k, k ≤ inf16 → (k * 2 ^ 13 + 2 ^ 12 ≤ r ↔ 2 ^ 112 * mag 23 (k * 2 ^ 13 + 2 ^ 12) ≤ mag 23 (e * 2 ^ 23 + m)) :=
    fun k hk => scaled_compare e m r _ he hm (by clear hr hlo hhi; unfold inf16 at hk; unfold inf32; omega)
      (by clear hr hlo hhi; omega) hr
  have htop : roundedHalf r ≤ inf16 := Nat.min_le_right _ _
  refine nearest_of_mid (fun k => 2 ^ 125 * mag 10 k) halfValue_strictMono inf16 _ _ ?_ ?_
  · intro h0
    obtain ⟨k, hk⟩ : ∃ k, roundedHalf r = k + 1 := ⟨roundedHalf r - 1, by clear hr hmid; omega⟩
    simp only [hk, Nat.add_sub_cancel]
    rw [midpoint k]
    exact Nat.mul_le_mul_left _ ((hmid k (by clear hr hmid; omega)).1 (hlo k (by clear hr hmid; omega)))
  · intro h1
    rw [midpoint]
    refine (Nat.mul_lt_mul_left (by decide)).2 (Nat.lt_of_not_le fun hc => ?_)
    exact hhi _ (Nat.le_refl _) h1 ((hmid _ htop).2 hc)

theorem or_sign (o : BitVec 32) (s : Nat) (hs : s < 2) (ho : o.toNat < 2 ^ 15) :
    ((o ||| (BitVec.ofNat 32 (s * 2 ^ 31)).sshiftRight 16).setWidth 16).toNat = s * 2 ^ 15 + o.toNat := by
  obtain rfl | rfl : s = 0 ∨ s = 1 := by omega
  · rw [show (BitVec.ofNat 32 (0 * 2 ^ 31)).sshiftRight 16 = 0#32 by decide, BitVec.or_zero, BitVec.toNat_setWidth]
    omega
  · rw [show (BitVec.ofNat 32 (1 * 2 ^ 31)).sshiftRight 16 = 0xffff8000#32 by decide, BitVec.toNat_setWidth, BitVec.toNat_or,
      show (0xffff8000#32).toNat = 2 ^ 15 * 131071 by decide, Nat.or_comm, ← Nat.two_pow_add_eq_or_of_lt ho]
    omega

theorem slt_pos (x y : BitVec 32) (hx : x.toNat < 2 ^ 31) (hy : y.toNat < 2 ^ 31) : x.slt y = decide (x.toNat < y.toNat) := by
  rw [BitVec.slt_eq_decide, BitVec.toInt_eq_toNat_of_lt (by omega), BitVec.toInt_eq_toNat_of_lt (by omega)]
  simp

theorem sshr_pos (x : BitVec 32) (hx : x.toNat < 2 ^ 31) : (x.sshiftRight 13).toNat = x.toNat / 2 ^ 13 := by
  rw [BitVec.sshiftRight_eq_of_msb_false (by rw [BitVec.msb_eq_false_iff_two_mul_lt]; omega), BitVec.toNat_ushiftRight,
    Nat.shiftRight_eq_div_pow]

theorem sub_roundMask (x : BitVec 32) (hx : x.toNat < inf32) : (x - ~~~0xfff#32).toNat = x.toNat + 2 ^ 12 := by
  unfold inf32 at hx
  rw [BitVec.toNat_sub, show (~~~0xfff#32).toNat = 4294963200 by decide]
  omega

theorem and_roundMask (x : BitVec 32) : (x &&& ~~~0xfff#32).toNat = x.toNat - x.toNat % 2 ^ 12 := by
  have e : x &&& ~~~0xfff#32 = (x >>> 12) <<< 12 := by
    apply BitVec.eq_of_getLsbD_eq
    intro i hi
    interval_cases i <;> simp
  rw [e, BitVec.toNat_shiftLeft, BitVec.toNat_ushiftRight, Nat.shiftRight_eq_div_pow, Nat.shiftLeft_eq]
  have := x.isLt
  omega

/-- The last lines of the uniform version on a finite float. -/
theorem uniform_tail (r : BitVec 32) (hr : r.toNat < inf32) :
    ((if (31#32 <<< 23).slt (r - ~~~0xfff#32) then (31#32 <<< 23) else r - ~~~0xfff#32).sshiftRight 13).toNat =
      roundedHalf r.toNat := by
  have h1 := sub_roundMask r hr
  unfold inf32 at hr
  have h2 : (r - ~~~0xfff#32).toNat < 2 ^ 31 := by omega
  rw [slt_pos _ _ (by decide) h2, h1, show (31#32 <<< 23).toNat = 260046848 by decide]
  unfold roundedHalf inf16
  by_cases h : 260046848 < r.toNat + 2 ^ 12
  · rw [if_pos (by simpa using h), sshr_pos _ (by decide), show (31#32 <<< 23).toNat = 260046848 by decide]
    omega
  · rw [if_neg (by simpa using h), sshr_pos _ h2, h1]
    omega

/-- The last lines of the varying version on a finite float. -/
theorem varying_tail (r : BitVec 32) (hr : r.toNat < inf32) :
    ((minPos r ((31#32 <<< 23) - 0x1000#32) - ~~~0xfff#32).sshiftRight 13).toNat = roundedHalf r.toNat := by
  have hc : ((31#32 <<< 23) - 0x1000#32).toNat = 260042752 := by decide
  unfold minPos roundedHalf inf16
  rw [hc]
  by_cases h : 260042752 < r.toNat
  · rw [if_pos h, sshr_pos _ (by decide), show ((31#32 <<< 23) - 0x1000#32 - ~~~0xfff#32).toNat = 260046848 by decide]
    omega
  · have h1 := sub_roundMask r hr
    rw [if_neg h, sshr_pos _ (by omega), h1]
    omega

/-! ## Properties -/

/-- **C39**: `half_to_float` is exact: the sign is kept and the value of a finite half (in units of `2^-24`) is the value of
the resulting float (in units of `2^-149`). -/
theorem half_to_float_finite (sub : BitVec 32 → BitVec 32 → BitVec 32) (hsub : SubExact sub) (h : BitVec 16)
    (hfin : h.toNat % 2 ^ 15 < inf16) :
    (halfToFloatU sub h).toNat / 2 ^ 31 = h.toNat / 2 ^ 15 ∧ (halfToFloatU sub h).toNat % 2 ^ 31 < inf32 ∧
      mag 23 ((halfToFloatU sub h).toNat % 2 ^ 31) = 2 ^ 125 * mag 10 (h.toNat % 2 ^ 15) := by
  have hlt := h.isLt
  obtain ⟨e, m, hx, hm⟩ := split 10 (h.toNat % 2 ^ 15)
  have he : e < 31 := by unfold inf16 at hfin; omega
  obtain ⟨a, h1, -, h3⟩ := halfToFloat_fields sub hsub h (h.toNat / 2 ^ 15) e m (by omega) (by omega) hm (by omega)
  obtain ⟨h4, h5⟩ := h3 he
  have hd : (halfToFloatU sub h).toNat / 2 ^ 31 = h.toNat / 2 ^ 15 := by clear h5; unfold inf32 at h4; omega
  have hr : (halfToFloatU sub h).toNat % 2 ^ 31 = a := by clear h5; unfold inf32 at h4; omega
  rw [hr, hx]
  exact ⟨hd, h4, h5⟩

/-- **C39**: infinities and NaNs stay what they are, with sign and payload. -/
theorem half_to_float_special (sub : BitVec 32 → BitVec 32 → BitVec 32) (hsub : SubExact sub) (h : BitVec 16)
    (hspec : inf16 ≤ h.toNat % 2 ^ 15) :
    (halfToFloatU sub h).toNat = h.toNat / 2 ^ 15 * 2 ^ 31 + (inf32 + (h.toNat % 2 ^ 15 - inf16) * 2 ^ 13) := by
  have hlt := h.isLt
  obtain ⟨e, m, hx, hm⟩ := split 10 (h.toNat % 2 ^ 15)
  have he : e = 31 := by unfold inf16 at hspec; omega
  obtain ⟨a, h1, h2, -⟩ := halfToFloat_fields sub hsub h (h.toNat / 2 ^ 15) e m (by omega) (by omega) hm (by omega)
  have h2 := h2 he
  rw [h1, h2, hx]
  unfold inf16 inf32
  omega

theorem masked_fields (a : Nat) : a - a % 2 ^ 12 = a / 2 ^ 23 * 2 ^ 23 + (a % 2 ^ 23 - a % 2 ^ 23 % 2 ^ 12) := by omega

/-- What both versions of `float_to_half` compute on a finite float. -/
theorem floatToHalf_finite (mul : BitVec 32 → BitVec 32 → BitVec 32) (hmul : MulNearest mul) (f : BitVec 32)
    (hfin : f.toNat % 2 ^ 31 < inf32) :
    ∃ r : BitVec 32, r.toNat < inf32 ∧
      (∀ q < inf32, dist (2 ^ 112 * mag 23 r.toNat) (mag 23 (f.toNat % 2 ^ 31 - f.toNat % 2 ^ 31 % 2 ^ 12)) ≤
        dist (2 ^ 112 * mag 23 q) (mag 23 (f.toNat % 2 ^ 31 - f.toNat % 2 ^ 31 % 2 ^ 12))) ∧
      (floatToHalfU mul f).toNat = f.toNat / 2 ^ 31 * 2 ^ 15 + roundedHalf r.toNat ∧
      (floatToHalfV mul f).toNat = f.toNat / 2 ^ 31 * 2 ^ 15 + roundedHalf r.toNat := by
  obtain ⟨s, a, hf, hs, ha, h1, h2⟩ := float_split f
  have hsd : f.toNat / 2 ^ 31 = s := by omega
  have had : f.toNat % 2 ^ 31 = a := by omega
  rw [had] at hfin
  rw [hsd, had]
  have hmask := and_roundMask (f ^^^ (f &&& 0x80000000#32))
  rw [h1] at hmask
  obtain ⟨hr1, hr2⟩ := scaled mul hmul ((f ^^^ (f &&& 0x80000000#32)) &&& ~~~0xfff#32) (by rw [hmask]; omega)
  rw [hmask] at hr2
  have hslt : (f ^^^ (f &&& 0x80000000#32)).slt (255#32 <<< 23) = true := by
    rw [slt_pos _ _ (by rw [h1]; exact ha) (by decide), h1]
    exact decide_eq_true hfin
  have hb : ∀ x, roundedHalf x < 2 ^ 15 := fun x => Nat.lt_of_le_of_lt (Nat.min_le_right _ _) (by decide)
  refine ⟨_, hr1, hr2, ?_, ?_⟩
  · unfold floatToHalfU
    simp only [hslt, if_true]
    rw [h2, or_sign _ s hs (by rw [uniform_tail _ (by rw [← h2]; exact hr1)]; exact hb _),
      uniform_tail _ (by rw [← h2]; exact hr1)]
  · unfold floatToHalfV
    simp only [hslt, if_true]
    rw [h2, or_sign _ s hs (by rw [varying_tail _ (by rw [← h2]; exact hr1)]; exact hb _),
      varying_tail _ (by rw [← h2]; exact hr1)]

/-- **C39**: `float_to_half` of a finite float keeps the sign and returns a nearest half, the one further from zero on ties.
`2^16` (the pattern of infinity read as a value) counts as a half, as in IEEE 754, so floats of at least 65520 become infinite
and smaller ones do not. -/
theorem float_to_half_nearest (mul : BitVec 32 → BitVec 32 → BitVec 32) (hmul : MulNearest mul) (f : BitVec 32)
    (hfin : f.toNat % 2 ^ 31 < inf32) :
    ∃ h ≤ inf16, (floatToHalfU mul f).toNat = f.toNat / 2 ^ 31 * 2 ^ 15 + h ∧
      ∀ k ≤ inf16, dist (mag 23 (f.toNat % 2 ^ 31)) (2 ^ 125 * mag 10 h) ≤ dist (mag 23 (f.toNat % 2 ^ 31)) (2 ^ 125 * mag 10 k) ∧
        (dist (mag 23 (f.toNat % 2 ^ 31)) (2 ^ 125 * mag 10 h) = dist (mag 23 (f.toNat % 2 ^ 31)) (2 ^ 125 * mag 10 k) →
          k ≤ h) := by
  obtain ⟨r, -, hr2, hu, -⟩ := floatToHalf_finite mul hmul f hfin
  refine ⟨roundedHalf r.toNat, Nat.min_le_right _ _, hu, ?_⟩
  rw [masked_fields] at hr2
  have hn := roundedHalf_nearest (f.toNat % 2 ^ 31 / 2 ^ 23) (f.toNat % 2 ^ 31 % 2 ^ 23) r.toNat
    (by clear hr2; unfold inf32 at hfin; omega) (Nat.mod_lt _ (Nat.two_pow_pos _)) hr2
  rwa [show f.toNat % 2 ^ 31 / 2 ^ 23 * 2 ^ 23 + f.toNat % 2 ^ 31 % 2 ^ 23 = f.toNat % 2 ^ 31 by
    rw [Nat.mul_comm]; exact Nat.div_add_mod _ _] at hn

/-- **C39**: infinity stays infinity and a NaN becomes the quiet NaN, with the sign kept. -/
theorem float_to_half_special (mul : BitVec 32 → BitVec 32 → BitVec 32) (f : BitVec 32) (hspec : inf32 ≤ f.toNat % 2 ^ 31) :
    (floatToHalfU mul f).toNat =
      f.toNat / 2 ^ 31 * 2 ^ 15 + (if f.toNat % 2 ^ 31 = inf32 then 0x7c00 else 0x7e00) := by
  obtain ⟨s, a, hf, hs, ha, h1, h2⟩ := float_split f
  have hsd : f.toNat / 2 ^ 31 = s := by omega
  have had : f.toNat % 2 ^ 31 = a := by omega
  rw [had] at hspec
  rw [hsd, had]
  have hslt : (f ^^^ (f &&& 0x80000000#32)).slt (255#32 <<< 23) = false := by
    rw [slt_pos _ _ (by rw [h1]; exact ha) (by decide), h1]
    exact decide_eq_false (Nat.not_lt.2 hspec)
  have hsgt : (255#32 <<< 23).slt (f ^^^ (f &&& 0x80000000#32)) = decide (inf32 < a) := by
    rw [slt_pos _ _ (by decide) (by rw [h1]; exact ha), h1]
    rfl
  unfold floatToHalfU
  simp only [hslt, hsgt, Bool.false_eq_true, if_false]
  by_cases h : a = inf32
  · rw [if_pos h, if_neg (by simp [h]), h2, or_sign _ s hs (by decide)]
    rfl
  · rw [if_neg h, if_pos (by simp; omega), h2, or_sign _ s hs (by decide)]
    rfl

/-- **C39**: the varying and the uniform version are the same function. -/
theorem float_to_half_varying_eq (mul : BitVec 32 → BitVec 32 → BitVec 32) (hmul : MulNearest mul) (f : BitVec 32) :
    floatToHalfV mul f = floatToHalfU mul f := by
  by_cases hfin : f.toNat % 2 ^ 31 < inf32
  · obtain ⟨r, -, -, hu, hv⟩ := floatToHalf_finite mul hmul f hfin
    exact BitVec.eq_of_toNat_eq (by rw [hu, hv])
  · obtain ⟨s, a, hf, hs, ha, h1, h2⟩ := float_split f
    have had : f.toNat % 2 ^ 31 = a := by omega
    have hslt : (f ^^^ (f &&& 0x80000000#32)).slt (255#32 <<< 23) = false := by
      rw [slt_pos _ _ (by rw [h1]; exact ha) (by decide), h1]
      exact decide_eq_false (by rw [had] at hfin; exact hfin)
    unfold floatToHalfV floatToHalfU
    simp only [hslt, Bool.false_eq_true, if_false]

/-- **C39**: converting a half to float and back is the identity, for every half that is not a NaN. -/
theorem half_round_trip (sub mul : BitVec 32 → BitVec 32 → BitVec 32) (hsub : SubExact sub) (hmul : MulNearest mul)
    (h : BitVec 16) (hnan : h.toNat % 2 ^ 15 ≤ inf16) : floatToHalfU mul (halfToFloatU sub h) = h := by
  apply BitVec.eq_of_toNat_eq
  have hlt := h.isLt
  by_cases hfin : h.toNat % 2 ^ 15 < inf16
  · obtain ⟨h1, h2, h3⟩ := half_to_float_finite sub hsub h hfin
    obtain ⟨k, hk, h4, h5⟩ := float_to_half_nearest mul hmul _ h2
    have h6 := (h5 (h.toNat % 2 ^ 15) hnan).1
    rw [h3, dist_self] at h6
    have h7 := dist_eq_zero h6
    have h8 := mag_inj (Nat.eq_of_mul_eq_mul_left (Nat.two_pow_pos _) h7)
    rw [h4, h1, ← h8]
    clear h2 h3 h4 h5 h6 h7 h8
    omega
  · have h1 := half_to_float_special sub hsub h (Nat.le_of_not_lt hfin)
    have h0 : h.toNat % 2 ^ 15 = inf16 := by omega
    rw [h0, Nat.sub_self, Nat.zero_mul, Nat.add_zero] at h1
    have hi : inf32 < 2 ^ 31 := by decide
    have h2 := float_to_half_special mul (halfToFloatU sub h) (by rw [h1]; omega)
    rw [h2, h1, if_pos (by omega)]
    unfold inf16 at h0
    unfold inf32
    omega

/-- **C39**: `half_to_float_fast` agrees with `half_to_float` on normalised halves. -/
theorem half_to_float_fast_normal (h : BitVec 16) (hlo : 2 ^ 10 ≤ h.toNat % 2 ^ 15) (hhi : h.toNat % 2 ^ 15 < inf16) :
    (halfToFloatFast h).toNat / 2 ^ 31 = h.toNat / 2 ^ 15 ∧
      mag 23 ((halfToFloatFast h).toNat % 2 ^ 31) = 2 ^ 125 * mag 10 (h.toNat % 2 ^ 15) := by
  obtain ⟨s, x, h1, hs, hx, h2, h3⟩ := half_split h
  have hxe : h.toNat % 2 ^ 15 = x := by omega
  have hse : h.toNat / 2 ^ 15 = s := by omega
  rw [hxe] at hlo hhi
  rw [hxe, hse]
  obtain ⟨e, m, rfl, hm⟩ := split 10 x
  have he : e < 31 := by unfold inf16 at hhi; omega
  have he0 : e ≠ 0 := by omega
  obtain ⟨b1, b2⟩ := fields_bound e m he hm
  have ho := shl13 _ hx _ h2
  have hv : (halfToFloatFast h).toNat = s * 2 ^ 31 + ((e + 112) * 2 ^ 23 + m * 2 ^ 13) := by
    unfold halfToFloatFast
    simp only
    have hsum : (((h &&& 0x7fff#16).setWidth 32 <<< 13) + 0x38000000#32).toNat = (e + 112) * 2 ^ 23 + m * 2 ^ 13 := by
      rw [BitVec.toNat_add, ho, show (0x38000000#32).toNat = 112 * 2 ^ 23 by decide]
      unfold inf32 at b1
      omega
    rw [BitVec.or_comm, or_sign16 _ _ s hs (by rw [hsum]; exact Nat.lt_trans b1 (by decide)) h3, hsum]
  have hmd : (halfToFloatFast h).toNat % 2 ^ 31 = (e + 112) * 2 ^ 23 + m * 2 ^ 13 := by
    rw [hv]; unfold inf32 at b1; omega
  have hdv : (halfToFloatFast h).toNat / 2 ^ 31 = s := by
    rw [hv]; unfold inf32 at b1; omega
  rw [hmd, hdv]
  refine ⟨rfl, ?_⟩
  rw [mag_eq 23 _ _ b2, if_neg (Nat.succ_ne_zero _), mag10_scaled e m hm, if_neg he0]

theorem fast_fields (f : BitVec 32) (s e m : Nat) (hs : s < 2) (he1 : 113 ≤ e) (he2 : e < 143) (hm : m < 2 ^ 23)
    (hf : f.toNat = s * 2 ^ 31 + (e * 2 ^ 23 + m)) :
    (floatToHalfFast f).toNat = s * 2 ^ 15 + ((e - 112) * 2 ^ 10 + (m + 2 ^ 12) / 2 ^ 13) := by
  obtain ⟨s', a, h1, hs', ha, -, h2⟩ := float_split f
  obtain rfl : s' = s := by omega
  obtain rfl : a = e * 2 ^ 23 + m := by omega
  have hxe : ((f &&& 0x7F800000#32) >>> 23).toNat = e := by
    have h : (f &&& 0x7F800000#32) >>> 23 = (f >>> 23) &&& BitVec.ofNat 32 (2 ^ 8 - 1) := by
      apply BitVec.eq_of_getLsbD_eq
      intro i hi
      interval_cases i <;> simp
    rw [h, low_bits _ 8 (by omega), BitVec.toNat_ushiftRight, Nat.shiftRight_eq_div_pow]
    omega
  have hxm : (f &&& 0x007FFFFF#32).toNat = m := by
    rw [show 0x007FFFFF#32 = BitVec.ofNat 32 (2 ^ 23 - 1) from rfl, low_bits _ 23 (by omega)]
    omega
  have hxs : ((f &&& 0x80000000#32) >>> 16).toNat = s' * 2 ^ 15 := by
    rw [h2, BitVec.toNat_ushiftRight, BitVec.toNat_ofNat, Nat.shiftRight_eq_div_pow]
    omega
  have hbit : ((f &&& 0x007FFFFF#32) &&& 0x00001000#32).toNat = m / 2 ^ 12 % 2 * 2 ^ 12 := by
    have h : (f &&& 0x007FFFFF#32) &&& 0x00001000#32 =
        (((f &&& 0x007FFFFF#32) >>> 12) &&& BitVec.ofNat 32 (2 ^ 1 - 1)) <<< 12 := by
      apply BitVec.eq_of_getLsbD_eq
      intro i hi
      interval_cases i <;> simp
    rw [h, BitVec.toNat_shiftLeft, low_bits _ 1 (by omega), BitVec.toNat_ushiftRight, hxm, Nat.shiftRight_eq_div_pow,
      Nat.shiftLeft_eq]
    omega
  have hhe : ((((f &&& 0x7F800000#32) >>> 23) - 127#32 + 15#32) <<< 10).toNat = (e - 112) * 2 ^ 10 := by
    rw [BitVec.toNat_shiftLeft, BitVec.toNat_add, BitVec.toNat_sub, hxe, show (127#32).toNat = 127 from rfl,
      show (15#32).toNat = 15 from rfl, Nat.shiftLeft_eq]
    omega
  have hhm : ((f &&& 0x007FFFFF#32) >>> 13).toNat = m / 2 ^ 13 := by
    rw [BitVec.toNat_ushiftRight, hxm, Nat.shiftRight_eq_div_pow]
  have hret : (((f &&& 0x80000000#32) >>> 16) ||| ((((f &&& 0x7F800000#32) >>> 23) - 127#32 + 15#32) <<< 10) |||
      ((f &&& 0x007FFFFF#32) >>> 13)).toNat = s' * 2 ^ 15 + ((e - 112) * 2 ^ 10 + m / 2 ^ 13) := by
    rw [BitVec.or_assoc, BitVec.toNat_or, BitVec.toNat_or, hxs, hhe, hhm, Nat.mul_comm _ (2 ^ 10),
      ← Nat.two_pow_add_eq_or_of_lt (by omega : m / 2 ^ 13 < 2 ^ 10), Nat.mul_comm _ (2 ^ 15),
      ← Nat.two_pow_add_eq_or_of_lt (by omega : 2 ^ 10 * (e - 112) + m / 2 ^ 13 < 2 ^ 15)]
  unfold floatToHalfFast
  simp only
  have hz : ((f &&& 0x007FFFFF#32) &&& 0x00001000#32 ≠ 0#32) ↔ m / 2 ^ 12 % 2 = 1 := by
    rw [Ne, ← BitVec.toNat_inj, hbit, show (0#32).toNat = 0 from rfl]
    omega
  by_cases hb : m / 2 ^ 12 % 2 = 1
  · rw [if_pos (hz.2 hb), BitVec.toNat_setWidth, BitVec.toNat_add, hret, show (1#32).toNat = 1 from rfl]
    omega
  · rw [if_neg (fun h => hb (hz.1 h)), BitVec.toNat_setWidth, hret]
    omega

/-- **C39**: `float_to_half_fast` also returns a nearest half (ties away from zero) for every float whose exponent is in the
range of normalised halves; the top of that range may round to infinity, as it should. -/
theorem float_to_half_fast_nearest (f : BitVec 32) (hlo : 113 * 2 ^ 23 ≤ f.toNat % 2 ^ 31) (hhi : f.toNat % 2 ^ 31 < 143 * 2 ^ 23) :
    ∃ h ≤ inf16, (floatToHalfFast f).toNat = f.toNat / 2 ^ 31 * 2 ^ 15 + h ∧
      ∀ k ≤ inf16, dist (mag 23 (f.toNat % 2 ^ 31)) (2 ^ 125 * mag 10 h) ≤ dist (mag 23 (f.toNat % 2 ^ 31)) (2 ^ 125 * mag 10 k) ∧
        (dist (mag 23 (f.toNat % 2 ^ 31)) (2 ^ 125 * mag 10 h) = dist (mag 23 (f.toNat % 2 ^ 31)) (2 ^ 125 * mag 10 k) →
          k ≤ h) := by
  have hlt := f.isLt
  obtain ⟨e, m, hx, hm⟩ := split 23 (f.toNat % 2 ^ 31)
  have he1 : 113 ≤ e := by omega
  have he2 : e < 143 := by omega
  have hv := fast_fields f (f.toNat / 2 ^ 31) e m (by omega) he1 he2 hm (by omega)
  have hR : roundedHalf ((e - 112) * 2 ^ 23 + (m - m % 2 ^ 12)) = (e - 112) * 2 ^ 10 + (m + 2 ^ 12) / 2 ^ 13 := by
    unfold roundedHalf inf16
    clear hv hx hlo hhi
    omega
  rw [hx]
  refine ⟨_, ?_, hv, ?_⟩
  · rw [← hR]; exact Nat.min_le_right _ _
  · rw [← hR]
    refine roundedHalf_nearest e m _ (by clear hv hR; omega) hm fun q _ => ?_
    obtain ⟨k, rfl⟩ : ∃ k, e = k + 112 := ⟨e - 112, by clear hv hR; omega⟩
    rw [Nat.add_sub_cancel, mag_up k _ (by clear hv hR; omega) (by clear hv hR; omega), dist_self]
    exact Nat.zero_le _

/-! ## The hypotheses can be met -/

/-- There is an exact subtraction. -/
theorem exists_subExact : ∃ sub, SubExact sub := by
  classical
  refine ⟨fun a b => if h : ∃ r : BitVec 32, r.toNat < inf32 ∧ mag 23 a.toNat = mag 23 b.toNat + mag 23 r.toNat
    then h.choose else 0#32, ?_⟩
  intro a b r _ _ hr h
  have hex : ∃ r : BitVec 32, r.toNat < inf32 ∧ mag 23 a.toNat = mag 23 b.toNat + mag 23 r.toNat := ⟨r, hr, h⟩
  simp only [dif_pos hex]
  have h2 := hex.choose_spec.2
  exact BitVec.eq_of_toNat_eq (mag_inj (Nat.add_left_cancel (h2.symm.trans h)))

/-- There is a multiplication that rounds to nearest. -/
theorem exists_mulNearest : ∃ mul, MulNearest mul := by
  have key : ∀ a b : BitVec 32, ∃ r : BitVec 32, r.toNat < inf32 ∧ ∀ q < inf32,
      dist (2 ^ 149 * mag 23 r.toNat) (mag 23 a.toNat * mag 23 b.toNat) ≤
        dist (2 ^ 149 * mag 23 q) (mag 23 a.toNat * mag 23 b.toNat) := by
    intro a b
    generalize mag 23 a.toNat * mag 23 b.toNat = x
    classical
    have hex : ∃ d, ∃ q < inf32, dist (2 ^ 149 * mag 23 q) x = d := ⟨_, 0, by decide, rfl⟩
    obtain ⟨q, hq, hd⟩ := Nat.find_spec hex
    refine ⟨BitVec.ofNat 32 q, ?_⟩
    have hn : (BitVec.ofNat 32 q).toNat = q := by
      rw [BitVec.toNat_ofNat]
      exact Nat.mod_eq_of_lt (Nat.lt_trans hq (by decide))
    rw [hn, hd]
    exact ⟨hq, fun q' hq' => Nat.find_min' hex ⟨q', hq', rfl⟩⟩
  choose mul hmul using key
  exact ⟨mul, fun a b _ _ _ => hmul a b⟩

/-- Not vacuous: `1 + 2^-10` goes to float and back. -/
example (sub mul : BitVec 32 → BitVec 32 → BitVec 32) (hsub : SubExact sub) (hmul : MulNearest mul) :
    floatToHalfU mul (halfToFloatU sub 0x3c01#16) = 0x3c01#16 :=
  half_round_trip sub mul hsub hmul _ (by decide)
/-- Not vacuous: the smallest subnormal half is `2^-24`, the float `0x33800000`. -/
example (sub : BitVec 32 → BitVec 32 → BitVec 32) (hsub : SubExact sub) : halfToFloatU sub 0x0001#16 = 0x33800000#32 := by
  have h := half_to_float_finite sub hsub 0x0001#16 (by decide)
  have e : (halfToFloatU sub 0x0001#16).toNat % 2 ^ 31 = 0x33800000 := mag_inj (p := 23) (h.2.2.trans (by decide +kernel))
  have := h.1
  apply BitVec.eq_of_toNat_eq
  rw [show (0x33800000#32).toNat = 0x33800000 from rfl, ← e]
  have h0 : (0x0001#16).toNat / 2 ^ 15 = 0 := by decide
  rw [h0] at this
  clear h
  omega
/-- Not vacuous: a finite float, an infinite one, and floats and halves in the normalised range. -/
example : (0xc77fefff#32).toNat % 2 ^ 31 < inf32 ∧ inf32 ≤ (0xff800000#32).toNat % 2 ^ 31 ∧
    113 * 2 ^ 23 ≤ (0x3f800001#32).toNat % 2 ^ 31 ∧ (0x3f800001#32).toNat % 2 ^ 31 < 143 * 2 ^ 23 ∧
    2 ^ 10 ≤ (0xbc01#16).toNat % 2 ^ 15 ∧ (0xbc01#16).toNat % 2 ^ 15 < inf16 ∧ inf16 ≤ (0xfc01#16).toNat % 2 ^ 15 := by decide
/-- 65519.996 rounds to 65504, 65520 to infinity. -/
example : floatToHalfFast 0x477fefff#32 = 0x7bff#16 ∧ floatToHalfFast 0x477ff000#32 = 0x7c00#16 := by decide
/-- Outside the normalised range the fast version is wrong: 2^-15 comes out as 0 rather than the subnormal `0x0200`. -/
example : floatToHalfFast 0x38000000#32 = 0x0000#16 := by decide

end Ispc.Half
