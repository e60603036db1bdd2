import Mathlib.Tactic.Linarith
import Mathlib.Tactic.Ring
import Mathlib.Data.Int.Init

/-!
# Saturating arithmetic and averages (stdlib/stdlib.ispc:7066-7737, builtins/generic.ispc:922-934) — C20, C21

The source repeats each function for 8, 16, 32 and 64 bits, uniform and varying (a varying call is the same code in
every instance).  The model is one function on `BitVec (n+1)` for every `n`; the source is `n+1 = 8, 16, 32, 64`.
In the source some intermediate values of the 8- and 16-bit functions are `int32` because literals are `int32`; the bits
that are used are the same, and the model computes them in the width of the type.
On targets with `__have_saturating_arithmetic`, and for varying 8/16-bit add and sub, the source calls the
LLVM/x86 saturating intrinsics instead, whose contract is the specification here.
-/

namespace Ispc.Sat

/-! ## Model -/

variable {n : Nat}

/-- `(a_unsig >> (w-1)) + INT_MAX` (stdlib.ispc:7072 and others). -/
def bound (a : BitVec (n + 1)) : BitVec (n + 1) := (a >>> n) + BitVec.ofNat (n + 1) (2 ^ n - 1)

/-- `(int)(x) >= 0`. -/
def nonneg (x : BitVec (n + 1)) : Bool := !x.msb

/-- `saturating_add`, signed (stdlib.ispc:7066-7146). -/
def addS (a b : BitVec (n + 1)) : BitVec (n + 1) :=
  let result := a + b
  let a' := bound a
  if nonneg ((a' ^^^ b) ||| ~~~(b ^^^ result)) then a' else result

/-- `saturating_add`, unsigned (stdlib.ispc:7148-7214): `result |= -(int)(result < a)`. -/
def addU (a b : BitVec (n + 1)) : BitVec (n + 1) :=
  let result := a + b
  result ||| -(if result < a then 1#(n + 1) else 0#(n + 1))

/-- `saturating_sub`, signed (stdlib.ispc:7216-7296). -/
def subS (a b : BitVec (n + 1)) : BitVec (n + 1) :=
  let result := a - b
  let a' := bound a
  if !nonneg ((a' ^^^ b) &&& (a' ^^^ result)) then a' else result

/-- `saturating_sub`, unsigned (stdlib.ispc:7298-7364): `result &= -(int)(result <= a)`. -/
def subU (a b : BitVec (n + 1)) : BitVec (n + 1) :=
  let result := a - b
  result &&& -(if result ≤ a then 1#(n + 1) else 0#(n + 1))

/-- `saturating_div`, signed (stdlib.ispc:7366-7412): `a += !((b + 1) | ((unsigned)a + INT_MIN))`; division by zero is
undefined and not a value. -/
def divS (a b : BitVec (n + 1)) : Option (BitVec (n + 1)) :=
  let a' := a + (if ((b + 1#(n + 1)) ||| (a + BitVec.ofNat (n + 1) (2 ^ n))) = 0#(n + 1) then 1#(n + 1) else 0#(n + 1))
  if b = 0#(n + 1) then none else some (a'.sdiv b)

/-- `saturating_div`, unsigned (stdlib.ispc:7414-7452). -/
def divU (a b : BitVec (n + 1)) : Option (BitVec (n + 1)) := if b = 0#(n + 1) then none else some (a.udiv b)

/-- `saturating_mul`, signed, 8/16/32 bits (stdlib.ispc:7454-7536), through the double-width product. -/
def mulS (a b : BitVec (n + 1)) : BitVec (n + 1) :=
  let result := a.signExtend (2 * (n + 1)) * b.signExtend (2 * (n + 1))
  let result2 := bound (a ^^^ b)
  let hi := (result.sshiftRight (n + 1)).setWidth (n + 1)
  let lo := result.setWidth (n + 1)
  let result := if hi ≠ lo.sshiftRight n then result2.setWidth (2 * (n + 1)) else result
  result.setWidth (n + 1)

/-- `saturating_mul`, unsigned, 8/16/32 bits (stdlib.ispc:7538-7602): `lo | -(int)!!hi`. -/
def mulU (a b : BitVec (n + 1)) : BitVec (n + 1) :=
  let result := a.setWidth (2 * (n + 1)) * b.setWidth (2 * (n + 1))
  let hi := (result >>> (n + 1)).setWidth (n + 1)
  let lo := result.setWidth (n + 1)
  lo ||| -(if hi ≠ 0#(n + 1) then 1#(n + 1) else 0#(n + 1))

/-- The part of the 64-bit products that both signednesses share (stdlib.ispc:7626-7643, 7676-7693, 7706-7719, 7723-7736): at most one of
the operands has a non-zero upper half. -/
def mulPart (a b : BitVec 64) : BitVec 64 :=
  let a0 : BitVec 32 := (a &&& 0xFFFFFFFF#64).setWidth 32
  let b0 : BitVec 32 := (b &&& 0xFFFFFFFF#64).setWidth 32
  let a1 : BitVec 32 := (a >>> 32).setWidth 32
  let b1 : BitVec 32 := (b >>> 32).setWidth 32
  if a1 ≠ 0#32 then
    addU (n := 63) ((mulU (n := 31) b0 a1).setWidth 64 <<< 32) (a0.setWidth 64 * b0.setWidth 64)
  else if b1 ≠ 0#32 then
    addU (n := 63) ((mulU (n := 31) a0 b1).setWidth 64 <<< 32) (a0.setWidth 64 * b0.setWidth 64)
  else a * b

/-- `saturating_mul(uint64, uint64)` (stdlib.ispc:7704-7737). -/
def mulU64 (a b : BitVec 64) : BitVec 64 :=
  let a1 : BitVec 32 := (a >>> 32).setWidth 32
  let b1 : BitVec 32 := (b >>> 32).setWidth 32
  if a1 ≠ 0#32 ∧ b1 ≠ 0#32 then 0xFFFFFFFFFFFFFFFF#64 else mulPart a b

/-- Absolute value as computed in stdlib.ispc:7611-7624, 7661-7674. -/
def abs64 (a : BitVec 64) : BitVec 64 :=
  if a = BitVec.intMin 64 then BitVec.intMin 64 else if BitVec.slt 0#64 a then a else -a

/-- `saturating_mul(int64, int64)` (stdlib.ispc:7604-7702). -/
def mulS64 (a b : BitVec 64) : BitVec 64 :=
  let pos : Bool := (BitVec.slt 0#64 a && BitVec.slt 0#64 b) || (BitVec.slt a 0#64 && BitVec.slt b 0#64)
  let aAbs := abs64 a
  let bAbs := abs64 b
  let a1 : BitVec 32 := (aAbs >>> 32).setWidth 32
  let b1 : BitVec 32 := (bAbs >>> 32).setWidth 32
  if a1 ≠ 0#32 ∧ b1 ≠ 0#32 then (if pos then BitVec.intMax 64 else BitVec.intMin 64)
  else
    let ret := mulPart aAbs bAbs
    if pos = false ∧ BitVec.intMin 64 ≤ ret then BitVec.intMin 64
    else if pos = true ∧ BitVec.intMax 64 ≤ ret then BitVec.intMax 64
    else ret * (if pos then 1#64 else -1#64)

/-- `__avg_up_uint{8,16}`, `__avg_down_uint{8,16}` (generic.ispc:923-926). -/
def avgUpU (a b : BitVec (n + 1)) : BitVec (n + 1) :=
  ((a.setWidth (2 * (n + 1)) + b.setWidth (2 * (n + 1)) + 1#(2 * (n + 1))) >>> 1).setWidth (n + 1)

def avgDownU (a b : BitVec (n + 1)) : BitVec (n + 1) :=
  ((a.setWidth (2 * (n + 1)) + b.setWidth (2 * (n + 1))) >>> 1).setWidth (n + 1)

/-- `__avg_up_int{8,16}`, `__avg_down_int{8,16}` (generic.ispc:931-934). -/
def avgUpS (a b : BitVec (n + 1)) : BitVec (n + 1) :=
  ((a.signExtend (2 * (n + 1)) + b.signExtend (2 * (n + 1)) + 1#(2 * (n + 1))).sshiftRight 1).setWidth (n + 1)

def avgDownS (a b : BitVec (n + 1)) : BitVec (n + 1) :=
  ((a.signExtend (2 * (n + 1)) + b.signExtend (2 * (n + 1))).sshiftRight 1).setWidth (n + 1)

/-! ## Specification -/

/-- The nearest value of the signed `w`-bit type, `w = n+1`. -/
def clampS (n : Nat) (z : Int) : Int := max (-2 ^ n) (min (2 ^ n - 1) z)

/-- The nearest value of the unsigned `w`-bit type. -/
def clampU (n : Nat) (z : Int) : Int := max 0 (min (2 ^ (n + 1) - 1) z)

/-! ## Lemmas -/

theorem two_pow_succ (n : Nat) : (2 : Int) ^ (n + 1) = 2 * 2 ^ n := by ring

theorem pow_pos' (n : Nat) : (0 : Int) < 2 ^ n := by positivity

theorem toInt_range (x : BitVec (n + 1)) : -2 ^ n ≤ x.toInt ∧ x.toInt < 2 ^ n := by
  have h1 := BitVec.le_toInt x
  have h2 := BitVec.toInt_lt (x := x)
  simp only [Nat.add_sub_cancel] at h1 h2
  exact ⟨h1, h2⟩

theorem bmod_id {n : Nat} {z : Int} (h1 : -2 ^ n ≤ z) (h2 : z < 2 ^ n) : z.bmod (2 ^ (n + 1)) = z := by
  have hp := pow_pos' n
  apply Int.bmod_eq_of_le <;> push_cast <;> rw [two_pow_succ] <;> omega

theorem bmod_hi {n : Nat} {z : Int} (h1 : 2 ^ n ≤ z) (h2 : z < 3 * 2 ^ n) : z.bmod (2 ^ (n + 1)) = z - 2 * 2 ^ n := by
  have e : z.bmod (2 ^ (n + 1)) = (z - 2 * 2 ^ n).bmod (2 ^ (n + 1)) := by
    have : z - 2 * 2 ^ n = z + -1 * ((2 ^ (n + 1) : Nat) : Int) := by push_cast; rw [two_pow_succ]; ring
    rw [this, Int.add_mul_bmod_self_right]
  rw [e]; exact bmod_id (by omega) (by omega)

theorem bmod_lo {n : Nat} {z : Int} (h1 : -(3 * 2 ^ n) ≤ z) (h2 : z < -2 ^ n) : z.bmod (2 ^ (n + 1)) = z + 2 * 2 ^ n := by
  have e : z.bmod (2 ^ (n + 1)) = (z + 2 * 2 ^ n).bmod (2 ^ (n + 1)) := by
    have : z + 2 * 2 ^ n = z + 1 * ((2 ^ (n + 1) : Nat) : Int) := by push_cast; rw [two_pow_succ]; ring
    rw [this, Int.add_mul_bmod_self_right]
  rw [e]; exact bmod_id (by omega) (by omega)

theorem msb_iff (x : BitVec (n + 1)) : x.msb = decide (x.toInt < 0) := BitVec.msb_eq_toInt

theorem shr_n (a : BitVec (n + 1)) : a >>> n = if a.msb then 1#(n + 1) else 0#(n + 1) := by
  apply BitVec.eq_of_toNat_eq
  have hlt := a.isLt
  rw [BitVec.toNat_ushiftRight, Nat.shiftRight_eq_div_pow]
  have hm : a.msb = decide (2 ^ n ≤ a.toNat) := by rw [BitVec.msb_eq_decide]; rfl
  rw [Nat.pow_succ] at hlt
  by_cases h : 2 ^ n ≤ a.toNat
  · rw [hm, decide_eq_true h, if_pos rfl]
    have : a.toNat / 2 ^ n = 1 := by
      apply Nat.div_eq_of_lt_le <;> omega
    rw [this]
    cases n with
    | zero => rfl
    | succ n => simp
  · rw [hm, decide_eq_false h]
    simp only [Bool.false_eq_true, if_false]
    rw [Nat.div_eq_of_lt (by omega)]; rfl

theorem bound_toInt (a : BitVec (n + 1)) : (bound a).toInt = if a.toInt < 0 then -2 ^ n else 2 ^ n - 1 := by
  have hp := pow_pos' n
  have hpn : 0 < 2 ^ n := Nat.two_pow_pos n
  unfold bound
  rw [shr_n, msb_iff]
  by_cases h : a.toInt < 0
  · rw [decide_eq_true h, if_pos rfl, if_pos h, BitVec.toInt_add, BitVec.toInt_ofNat', BitVec.toInt_ofNat']
    rw [← Int.add_bmod]
    have : ((1 : Nat) : Int) + ((2 ^ n - 1 : Nat) : Int) = 2 ^ n := by
      rw [Nat.cast_sub hpn]; push_cast; ring
    rw [this, bmod_hi (le_refl _) (by omega)]; ring
  · rw [decide_eq_false h, if_neg h]
    simp only [Bool.false_eq_true, if_false, BitVec.zero_add]
    rw [BitVec.toInt_ofNat']
    have : ((2 ^ n - 1 : Nat) : Int) = 2 ^ n - 1 := by rw [Nat.cast_sub hpn]; push_cast; ring
    rw [this, bmod_id (by omega) (by omega)]

theorem bound_msb (a : BitVec (n + 1)) : (bound a).msb = a.msb := by
  have hp := pow_pos' n
  rw [msb_iff, msb_iff, bound_toInt]
  split <;> rename_i h
  · simp [h]
  · simp [h]; omega

/-! ## C20 -/

/-- C20: signed saturating addition, any width. -/
theorem addS_clamps (a b : BitVec (n + 1)) : (addS a b).toInt = clampS n (a.toInt + b.toInt) := by
  have hp := pow_pos' n
  obtain ⟨a1, a2⟩ := toInt_range a
  obtain ⟨b1, b2⟩ := toInt_range b
  unfold addS nonneg clampS
  simp only [BitVec.msb_or, BitVec.msb_not, BitVec.msb_xor, bound_msb]
  rw [msb_iff a, msb_iff b, msb_iff (a + b), BitVec.toInt_add]
  rcases lt_or_ge (a.toInt + b.toInt) (-2 ^ n) with h | h
  · rw [bmod_lo (by omega) h]
    have e1 : a.toInt < 0 := by omega
    have e2 : b.toInt < 0 := by omega
    have e3 : ¬ a.toInt + b.toInt + 2 * 2 ^ n < 0 := by omega
    simp [e1, e2, e3, bound_toInt]; omega
  · rcases lt_or_ge (a.toInt + b.toInt) (2 ^ n) with h' | h'
    · have hb : ((a + b).toInt) = a.toInt + b.toInt := by rw [BitVec.toInt_add]; exact bmod_id h h'
      rw [bmod_id h h']
      rw [if_neg, hb]
      · omega
      · by_cases e1 : a.toInt < 0 <;> by_cases e2 : b.toInt < 0 <;> simp [e1, e2] <;> omega
    · rw [bmod_hi h' (by omega)]
      have e1 : ¬ a.toInt < 0 := by omega
      have e2 : ¬ b.toInt < 0 := by omega
      have e3 : a.toInt + b.toInt - 2 * 2 ^ n < 0 := by omega
      simp [e1, e2, e3, bound_toInt]; omega

/-- C20: signed saturating subtraction, any width. -/
theorem subS_clamps (a b : BitVec (n + 1)) : (subS a b).toInt = clampS n (a.toInt - b.toInt) := by
  have hp := pow_pos' n
  obtain ⟨a1, a2⟩ := toInt_range a
  obtain ⟨b1, b2⟩ := toInt_range b
  unfold subS nonneg clampS
  simp only [BitVec.msb_and, BitVec.msb_xor, bound_msb]
  rw [msb_iff a, msb_iff b, msb_iff (a - b), BitVec.toInt_sub]
  rcases lt_or_ge (a.toInt - b.toInt) (-2 ^ n) with h | h
  · rw [bmod_lo (by omega) h]
    have e1 : a.toInt < 0 := by omega
    have e2 : ¬ b.toInt < 0 := by omega
    have e3 : ¬ a.toInt - b.toInt + 2 * 2 ^ n < 0 := by omega
    simp [e1, e2, e3, bound_toInt]; omega
  · rcases lt_or_ge (a.toInt - b.toInt) (2 ^ n) with h' | h'
    · have hb : ((a - b).toInt) = a.toInt - b.toInt := by rw [BitVec.toInt_sub]; exact bmod_id h h'
      rw [bmod_id h h']
      rw [if_neg, hb]
      · omega
      · by_cases e1 : a.toInt < 0 <;> by_cases e2 : b.toInt < 0 <;> simp [e1, e2] <;> omega
    · rw [bmod_hi h' (by omega)]
      have e1 : ¬ a.toInt < 0 := by omega
      have e2 : b.toInt < 0 := by omega
      have e3 : a.toInt - b.toInt - 2 * 2 ^ n < 0 := by omega
      simp [e1, e2, e3, bound_toInt]; omega

theorem or_neg_one (x : BitVec (n + 1)) : x ||| -1#(n + 1) = BitVec.allOnes (n + 1) := by
  rw [BitVec.neg_one_eq_allOnes]; simp

/-- C20: unsigned saturating addition, any width. -/
theorem addU_clamps (a b : BitVec (n + 1)) : ((addU a b).toNat : Int) = clampU n (a.toNat + b.toNat) := by
  have ha := a.isLt
  have hb := b.isLt
  have e : ((2 ^ (n + 1) : Nat) : Int) = 2 ^ (n + 1) := by push_cast; ring
  unfold addU clampU
  simp only [BitVec.lt_def, BitVec.toNat_add]
  by_cases h : a.toNat + b.toNat < 2 ^ (n + 1)
  · rw [Nat.mod_eq_of_lt h, if_neg (by omega)]
    simp only [BitVec.neg_zero, BitVec.or_zero, BitVec.toNat_add]
    rw [Nat.mod_eq_of_lt h]; omega
  · have hm : (a.toNat + b.toNat) % 2 ^ (n + 1) = a.toNat + b.toNat - 2 ^ (n + 1) := by
      rw [Nat.mod_eq_sub_mod (by omega), Nat.mod_eq_of_lt (by omega)]
    rw [hm, if_pos (by omega), or_neg_one, BitVec.toNat_allOnes]
    omega

/-- C20: unsigned saturating subtraction, any width. -/
theorem subU_clamps (a b : BitVec (n + 1)) : ((subU a b).toNat : Int) = clampU n (a.toNat - b.toNat) := by
  have ha := a.isLt
  have hb := b.isLt
  have e : ((2 ^ (n + 1) : Nat) : Int) = 2 ^ (n + 1) := by push_cast; ring
  unfold subU clampU
  simp only [BitVec.le_def, BitVec.toNat_sub]
  by_cases h : b.toNat ≤ a.toNat
  · have hm : (2 ^ (n + 1) - b.toNat + a.toNat) % 2 ^ (n + 1) = a.toNat - b.toNat := by
      have : 2 ^ (n + 1) - b.toNat + a.toNat = (a.toNat - b.toNat) + 2 ^ (n + 1) := by omega
      rw [this, Nat.add_mod_right, Nat.mod_eq_of_lt (by omega)]
    rw [hm, if_pos (by omega), BitVec.neg_one_eq_allOnes, BitVec.and_allOnes, BitVec.toNat_sub, hm]
    omega
  · have hm : (2 ^ (n + 1) - b.toNat + a.toNat) % 2 ^ (n + 1) = 2 ^ (n + 1) - b.toNat + a.toNat :=
      Nat.mod_eq_of_lt (by omega)
    rw [hm, if_neg (by omega)]
    simp only [BitVec.neg_zero, BitVec.and_zero, BitVec.toNat_zero]
    omega

/-- C20: signed saturating division, any width: the C quotient, clamped (only INT_MIN / -1 needs it). -/
theorem divS_clamps (a b : BitVec (n + 1)) (hb : b ≠ 0#(n + 1)) :
    ∃ q, divS a b = some q ∧ q.toInt = clampS n (a.toInt.tdiv b.toInt) := by
  have hp := pow_pos' n
  have hneg1 : (-1#(n + 1)).toInt = -1 := by
    rw [BitVec.neg_one_eq_allOnes, BitVec.toInt_allOnes, if_pos (by omega)]
  have hmin : BitVec.ofNat (n + 1) (2 ^ n) = BitVec.intMin (n + 1) := by
    apply BitVec.eq_of_toNat_eq
    rw [BitVec.toNat_intMin_of_pos (by omega), BitVec.toNat_ofNat, Nat.add_sub_cancel]
    exact Nat.mod_eq_of_lt (Nat.pow_lt_pow_right (by omega) (by omega))
  have hminI : (BitVec.intMin (n + 1)).toInt = -2 ^ n := by
    rw [BitVec.toInt_intMin_of_pos (by omega)]; rfl
  have hcond : ((b + 1#(n + 1)) ||| (a + BitVec.ofNat (n + 1) (2 ^ n))) = 0#(n + 1) ↔
      b = -1#(n + 1) ∧ a = BitVec.intMin (n + 1) := by
    rw [BitVec.or_eq_zero_iff, hmin]
    refine and_congr ?_ ?_
    · constructor
      · intro h
        have := congrArg (· + -1#(n + 1)) h
        simpa [BitVec.add_assoc, BitVec.add_right_neg] using this
      · rintro rfl; exact BitVec.add_left_neg _
    · constructor
      · intro h
        have := congrArg (· + -BitVec.intMin (n + 1)) h
        rw [BitVec.add_assoc, BitVec.add_right_neg, BitVec.add_zero, BitVec.zero_add, BitVec.neg_intMin] at this
        exact this
      · rintro rfl
        have := BitVec.add_right_neg (BitVec.intMin (n + 1))
        rwa [BitVec.neg_intMin] at this
  have hquot : ∀ x y : Int, y ≠ 0 → -2 ^ n ≤ x → x < 2 ^ n → -2 ^ n ≤ x.tdiv y ∧ x.tdiv y ≤ 2 ^ n := by
    intro x y _ h1 h2
    have h := Int.natAbs_tdiv x y
    have h3 : (x.tdiv y).natAbs ≤ x.natAbs := by rw [h]; exact Nat.div_le_self _ _
    omega
  unfold divS
  simp only [if_neg hb]
  refine ⟨_, rfl, ?_⟩
  by_cases hc : b = -1#(n + 1) ∧ a = BitVec.intMin (n + 1)
  · rw [if_pos (hcond.2 hc)]
    obtain ⟨rfl, rfl⟩ := hc
    cases n with
    | zero => decide
    | succ n =>
      have hq := pow_pos' n
      have h1 : (BitVec.intMin (n + 1 + 1) + 1#(n + 1 + 1)).toInt = -2 ^ (n + 1) + 1 := by
        rw [BitVec.toInt_add, hminI, BitVec.toInt_ofNat']
        rw [Int.add_bmod_bmod]
        exact bmod_id (by push_cast; omega) (by push_cast; rw [two_pow_succ]; omega)
      have h2 : BitVec.intMin (n + 1 + 1) + 1#(n + 1 + 1) ≠ BitVec.intMin (n + 1 + 1) := by
        intro h
        rw [h, hminI] at h1; omega
      rw [BitVec.toInt_sdiv_of_ne_or_ne _ _ (Or.inl h2), h1, hneg1, hminI]
      simp only [Int.tdiv_neg, Int.tdiv_one, clampS]
      omega
  · rw [if_neg (fun h => hc (hcond.1 h)), BitVec.add_zero]
    have hc' : a ≠ BitVec.intMin (n + 1) ∨ b ≠ -1#(n + 1) := by
      by_contra hn
      simp only [not_or, not_not] at hn
      exact hc ⟨hn.2, hn.1⟩
    rw [BitVec.toInt_sdiv_of_ne_or_ne _ _ hc']
    obtain ⟨a1, a2⟩ := toInt_range a
    obtain ⟨r1, r2⟩ := toInt_range (a.sdiv b)
    rw [BitVec.toInt_sdiv_of_ne_or_ne _ _ hc'] at r1 r2
    unfold clampS
    omega

/-- C20: unsigned saturating division, any width: the quotient. -/
theorem divU_exact (a b : BitVec (n + 1)) (hb : b ≠ 0#(n + 1)) :
    ∃ q, divU a b = some q ∧ (q.toNat : Int) = clampU n ((a.toNat / b.toNat : Nat) : Int) := by
  refine ⟨_, by unfold divU; rw [if_neg hb], ?_⟩
  have ha := a.isLt
  have : a.toNat / b.toNat ≤ a.toNat := Nat.div_le_self _ _
  have e : ((2 ^ (n + 1) : Nat) : Int) = 2 ^ (n + 1) := by push_cast; ring
  show (((a.udiv b).toNat : Nat) : Int) = _
  have hd : (a.udiv b).toNat = a.toNat / b.toNat := BitVec.toNat_udiv
  rw [hd]
  unfold clampU
  omega

theorem mul_range {x y P : Int} (x1 : -P ≤ x) (x2 : x < P) (y1 : -P ≤ y) (y2 : y < P) :
    -(P * P) ≤ x * y ∧ x * y ≤ P * P := by
  constructor <;> nlinarith

/-- The test on the upper half decides whether a product fits. -/
theorem fits_iff {P q m r : Int} (hq : 2 * P * q + m = r) (hm0 : 0 ≤ m) (hm1 : m < 2 * P) :
    (q = if m < P then 0 else -1) ↔ -P ≤ r ∧ r < P := by
  have h1 : 1 ≤ q → 2 * P ≤ 2 * P * q := by intro h; nlinarith
  have h2 : q ≤ -2 → 2 * P * q ≤ -(4 * P) := by intro h; nlinarith
  constructor
  · intro h
    split at h <;> subst h <;> constructor <;> omega
  · rintro ⟨r1, r2⟩
    rcases lt_trichotomy q 0 with h | h | h
    · rcases lt_or_eq_of_le (show q ≤ -1 by omega) with h' | h'
      · have := h2 (by omega); omega
      · subst h'; rw [if_neg (by omega)]
    · subst h; rw [if_pos (by omega)]
    · have := h1 (by omega); omega

/-- C20: signed saturating multiplication through the double-width product, any width (source: 8, 16, 32 bits). -/
theorem mulS_clamps (a b : BitVec (n + 1)) : (mulS a b).toInt = clampS n (a.toInt * b.toInt) := by
  have hp := pow_pos' n
  obtain ⟨a1, a2⟩ := toInt_range a
  obtain ⟨b1, b2⟩ := toInt_range b
  obtain ⟨m1, m2⟩ := mul_range a1 a2 b1 b2
  have hPP : (2 : Int) ^ (2 * n + 1) = 2 * (2 ^ n * 2 ^ n) := by ring
  have hPpos : (0 : Int) < 2 ^ n * 2 ^ n := by positivity
  have h2 : 2 * (n + 1) = (2 * n + 1) + 1 := by ring
  -- the double-width product is exact
  have hr : (a.signExtend (2 * (n + 1)) * b.signExtend (2 * (n + 1))).toInt = a.toInt * b.toInt := by
    rw [BitVec.toInt_mul, BitVec.toInt_signExtend_of_le (by omega), BitVec.toInt_signExtend_of_le (by omega), h2]
    exact bmod_id (by rw [hPP]; omega) (by rw [hPP]; omega)
  generalize hR : a.signExtend (2 * (n + 1)) * b.signExtend (2 * (n + 1)) = R at hr
  have hset : ∀ X : BitVec (2 * (n + 1)), (X.setWidth (n + 1)).toInt = X.toInt.bmod (2 ^ (n + 1)) := by
    intro X
    rw [BitVec.toInt_setWidth]
    have hd : ((2 ^ (2 * (n + 1)) : Nat) : Int) = ((2 ^ (n + 1) : Nat) : Int) * ((2 ^ (n + 1) : Nat) : Int) := by
      rw [Nat.two_mul, Nat.pow_add]; push_cast; ring
    have hx : X.toInt = X.toNat ∨ X.toInt = X.toNat + -((2 ^ (n + 1) : Nat) : Int) * ((2 ^ (n + 1) : Nat) : Int) := by
      rw [BitVec.toInt_eq_toNat_cond]
      split
      · left; rfl
      · right; rw [hd]; ring
    rcases hx with hx | hx
    · rw [hx]
    · rw [hx, Int.add_mul_bmod_self_right]
  -- quotient and remainder of the product
  have hq := Int.mul_ediv_add_emod (a.toInt * b.toInt) (2 ^ (n + 1))
  have hm0 := Int.emod_nonneg (a.toInt * b.toInt) (b := 2 ^ (n + 1)) (by positivity)
  have hm1 := Int.emod_lt_of_pos (a.toInt * b.toInt) (b := 2 ^ (n + 1)) (by positivity)
  obtain ⟨q, hqd⟩ : ∃ q, a.toInt * b.toInt / 2 ^ (n + 1) = q := ⟨_, rfl⟩
  obtain ⟨m, hmd⟩ : ∃ m, a.toInt * b.toInt % 2 ^ (n + 1) = m := ⟨_, rfl⟩
  obtain ⟨r, hrd⟩ : ∃ r, a.toInt * b.toInt = r := ⟨_, rfl⟩
  rw [hqd, hmd] at hq
  rw [hmd] at hm0 hm1
  rw [two_pow_succ] at hq hm1
  have hlo : (R.setWidth (n + 1)).toInt = if m < 2 ^ n then m else m - 2 * 2 ^ n := by
    rw [hset, hr, ← Int.emod_bmod]
    have : (a.toInt * b.toInt) % ((2 ^ (n + 1) : Nat) : Int) = m := by rw [← hmd]; push_cast; rfl
    rw [this]
    split
    · exact bmod_id (by omega) (by omega)
    · exact bmod_hi (by omega) (by omega)
  have hqr : -2 ^ n ≤ q ∧ q < 2 ^ n := by
    constructor
    · by_contra hn
      nlinarith
    · by_contra hn
      nlinarith
  have hhi : ((R.sshiftRight (n + 1)).setWidth (n + 1)).toInt = q := by
    rw [hset, BitVec.toInt_sshiftRight, hr, Int.shiftRight_eq_div_pow]
    have : a.toInt * b.toInt / ((2 ^ (n + 1) : Nat) : Int) = q := by rw [← hqd]; push_cast; rfl
    rw [this]
    exact bmod_id hqr.1 hqr.2
  have hsgn : ((R.setWidth (n + 1)).sshiftRight n).toInt = if m < 2 ^ n then 0 else -1 := by
    rw [BitVec.toInt_sshiftRight, hlo, Int.shiftRight_eq_div_pow]
    push_cast
    split
    · exact Int.ediv_eq_zero_of_lt hm0 (by omega)
    · have e : m - 2 * 2 ^ n = (m - 2 ^ n) + 2 ^ n * -1 := by ring
      rw [e, Int.add_mul_ediv_left _ _ (by omega), Int.ediv_eq_zero_of_lt (by omega) (by omega)]
      rfl
  have hne : (R.sshiftRight (n + 1)).setWidth (n + 1) ≠ (R.setWidth (n + 1)).sshiftRight n ↔
      ¬ (-2 ^ n ≤ r ∧ r < 2 ^ n) := by
    rw [ne_eq, ← BitVec.toInt_inj, hhi, hsgn, fits_iff hq hm0 hm1, hrd]
  unfold mulS
  simp only [hR]
  by_cases hc : -2 ^ n ≤ r ∧ r < 2 ^ n
  · rw [if_neg (by rw [hne]; exact not_not.2 hc), hset, hr, hrd, bmod_id hc.1 hc.2]
    unfold clampS
    omega
  · rw [if_pos (hne.2 hc), BitVec.setWidth_setWidth_of_le _ (by omega), BitVec.setWidth_eq, bound_toInt]
    have hx : ((a ^^^ b).toInt < 0) ↔ ¬ (a.toInt < 0 ↔ b.toInt < 0) := by
      have := msb_iff (a ^^^ b)
      rw [BitVec.msb_xor, msb_iff a, msb_iff b] at this
      have h' : ((a ^^^ b).toInt < 0) ↔ decide ((a ^^^ b).toInt < 0) = true := by simp
      rw [h', ← this]
      by_cases e1 : a.toInt < 0 <;> by_cases e2 : b.toInt < 0 <;> simp [e1, e2]
    have hs : (a.toInt < 0 ↔ b.toInt < 0) → 0 ≤ r := by
      intro h
      rw [← hrd]
      by_cases e1 : a.toInt < 0
      · have := h.1 e1; nlinarith
      · have : ¬ b.toInt < 0 := fun h' => e1 (h.2 h')
        exact Int.mul_nonneg (by omega) (by omega)
    have hs' : ¬ (a.toInt < 0 ↔ b.toInt < 0) → r ≤ 0 := by
      intro h
      rw [← hrd]
      by_cases e1 : a.toInt < 0
      · have : ¬ b.toInt < 0 := fun h' => h ⟨fun _ => h', fun _ => e1⟩
        exact Int.mul_nonpos_of_nonpos_of_nonneg (by omega) (by omega)
      · have : b.toInt < 0 := by by_contra h'; exact h ⟨fun h => absurd h e1, fun h => absurd h h'⟩
        exact Int.mul_nonpos_of_nonneg_of_nonpos (by omega) (by omega)
    rw [hrd]
    unfold clampS
    by_cases e : (a.toInt < 0 ↔ b.toInt < 0)
    · rw [if_neg (by rw [hx]; exact not_not.2 e)]
      have := hs e
      omega
    · rw [if_pos (hx.2 e)]
      have := hs' e
      omega

/-- C20: unsigned saturating multiplication through the double-width product, any width (source: 8, 16, 32 bits). -/
theorem mulU_clamps (a b : BitVec (n + 1)) : ((mulU a b).toNat : Int) = clampU n (a.toNat * b.toNat) := by
  have ha := a.isLt
  have hb := b.isLt
  have hW : 0 < 2 ^ (n + 1) := Nat.two_pow_pos _
  have hlt : a.toNat * b.toNat < 2 ^ (n + 1) * 2 ^ (n + 1) := Nat.mul_lt_mul'' ha hb
  have h2 : 2 ^ (2 * (n + 1)) = 2 ^ (n + 1) * 2 ^ (n + 1) := by rw [Nat.two_mul, Nat.pow_add]
  have hle : 2 ^ (n + 1) ≤ 2 ^ (2 * (n + 1)) := Nat.pow_le_pow_right (by omega) (by omega)
  have hr : (a.setWidth (2 * (n + 1)) * b.setWidth (2 * (n + 1))).toNat = a.toNat * b.toNat := by
    rw [BitVec.toNat_mul, BitVec.toNat_setWidth, BitVec.toNat_setWidth, Nat.mod_eq_of_lt (Nat.lt_of_lt_of_le ha hle),
      Nat.mod_eq_of_lt (Nat.lt_of_lt_of_le hb hle), h2, Nat.mod_eq_of_lt hlt]
  unfold mulU clampU
  simp only []
  generalize a.setWidth (2 * (n + 1)) * b.setWidth (2 * (n + 1)) = R at hr ⊢
  have hhi : ((R >>> (n + 1)).setWidth (n + 1)).toNat = a.toNat * b.toNat / 2 ^ (n + 1) := by
    rw [BitVec.toNat_setWidth, BitVec.toNat_ushiftRight, hr, Nat.shiftRight_eq_div_pow]
    exact Nat.mod_eq_of_lt ((Nat.div_lt_iff_lt_mul hW).2 hlt)
  have hlo : (R.setWidth (n + 1)).toNat = a.toNat * b.toNat % 2 ^ (n + 1) := by
    rw [BitVec.toNat_setWidth, hr]
  have e : ((2 ^ (n + 1) : Nat) : Int) = 2 ^ (n + 1) := by push_cast; ring
  have em : ((a.toNat * b.toNat : Nat) : Int) = (a.toNat : Int) * b.toNat := by push_cast; ring
  have hne : (R >>> (n + 1)).setWidth (n + 1) ≠ 0#(n + 1) ↔ a.toNat * b.toNat / 2 ^ (n + 1) ≠ 0 := by
    rw [ne_eq, ← BitVec.toNat_inj, hhi]; simp
  rw [← em]
  generalize a.toNat * b.toNat = r at *
  by_cases h : r < 2 ^ (n + 1)
  · rw [if_neg (by rw [hne]; exact not_not.2 (Nat.div_eq_of_lt h))]
    simp only [BitVec.neg_zero, BitVec.or_zero]
    rw [hlo, Nat.mod_eq_of_lt h]
    omega
  · have : r / 2 ^ (n + 1) ≠ 0 := by
      have := Nat.div_pos (by omega : 2 ^ (n + 1) ≤ r) hW
      omega
    rw [if_pos (hne.2 this), or_neg_one, BitVec.toNat_allOnes]
    omega

/-! ## C21 -/

theorem setWidth_up (a : BitVec (n + 1)) : (a.setWidth (2 * (n + 1))).toNat = a.toNat := by
  have := a.isLt
  rw [BitVec.toNat_setWidth]
  exact Nat.mod_eq_of_lt (Nat.lt_of_lt_of_le this (Nat.pow_le_pow_right (by omega) (by omega)))

theorem wide_ge (n : Nat) (hn : 0 < n) : 4 * 2 ^ n ≤ 2 ^ (2 * (n + 1)) := by
  have : 4 * 2 ^ n = 2 ^ (n + 2) := by rw [Nat.pow_add]; omega
  rw [this]
  exact Nat.pow_le_pow_right (by omega) (by omega)

/-- C21: `avg_up` on unsigned values of any width of at least two bits. -/
theorem avgUpU_exact (hn : 0 < n) (a b : BitVec (n + 1)) : (avgUpU a b).toNat = (a.toNat + b.toNat + 1) / 2 := by
  have ha := a.isLt
  have hb := b.isLt
  have hw := wide_ge n hn
  have hp : 0 < 2 ^ n := Nat.two_pow_pos n
  rw [Nat.pow_succ] at ha hb
  have h1 : (1#(2 * (n + 1))).toNat = 1 := by
    rw [BitVec.toNat_ofNat]; exact Nat.mod_eq_of_lt (by omega)
  unfold avgUpU
  rw [BitVec.toNat_setWidth, BitVec.toNat_ushiftRight, BitVec.toNat_add, BitVec.toNat_add, setWidth_up, setWidth_up, h1,
    Nat.shiftRight_eq_div_pow, Nat.mod_eq_of_lt (a := a.toNat + b.toNat) (by omega),
    Nat.mod_eq_of_lt (a := a.toNat + b.toNat + 1) (by omega)]
  exact Nat.mod_eq_of_lt (by rw [Nat.pow_succ]; omega)

/-- C21: `avg_down` on unsigned values. -/
theorem avgDownU_exact (hn : 0 < n) (a b : BitVec (n + 1)) : (avgDownU a b).toNat = (a.toNat + b.toNat) / 2 := by
  have ha := a.isLt
  have hb := b.isLt
  have hw := wide_ge n hn
  have hp : 0 < 2 ^ n := Nat.two_pow_pos n
  rw [Nat.pow_succ] at ha hb
  unfold avgDownU
  rw [BitVec.toNat_setWidth, BitVec.toNat_ushiftRight, BitVec.toNat_add, setWidth_up, setWidth_up,
    Nat.shiftRight_eq_div_pow, Nat.mod_eq_of_lt (a := a.toNat + b.toNat) (by omega)]
  exact Nat.mod_eq_of_lt (by rw [Nat.pow_succ]; omega)

theorem narrow_toInt (X : BitVec (2 * (n + 1))) (h1 : -2 ^ n ≤ X.toInt) (h2 : X.toInt < 2 ^ n) :
    (X.setWidth (n + 1)).toInt = X.toInt := by
  rw [BitVec.toInt_setWidth]
  have hd : ((2 ^ (2 * (n + 1)) : Nat) : Int) = ((2 ^ (n + 1) : Nat) : Int) * ((2 ^ (n + 1) : Nat) : Int) := by
    rw [Nat.two_mul, Nat.pow_add]; push_cast; ring
  have hx : (X.toNat : Int) = X.toInt ∨ (X.toNat : Int) = X.toInt + ((2 ^ (n + 1) : Nat) : Int) * ((2 ^ (n + 1) : Nat) : Int) := by
    rw [BitVec.toInt_eq_toNat_cond]
    split
    · left; rfl
    · right; rw [hd]; ring
  rcases hx with hx | hx
  · rw [hx]; exact bmod_id h1 h2
  · rw [hx, Int.add_mul_bmod_self_right]; exact bmod_id h1 h2

theorem wide_toInt_add (hn : 0 < n) (a b : BitVec (n + 1)) :
    (a.signExtend (2 * (n + 1)) + b.signExtend (2 * (n + 1))).toInt = a.toInt + b.toInt := by
  have hp := pow_pos' n
  obtain ⟨a1, a2⟩ := toInt_range a
  obtain ⟨b1, b2⟩ := toInt_range b
  have h2 : 2 * (n + 1) = (2 * n + 1) + 1 := by ring
  have hPP : (2 : Int) * 2 ^ n ≤ 2 ^ (2 * n + 1) := by
    rw [← two_pow_succ]; exact_mod_cast Nat.pow_le_pow_right (by omega) (by omega)
  rw [BitVec.toInt_add, BitVec.toInt_signExtend_of_le (by omega), BitVec.toInt_signExtend_of_le (by omega), h2]
  exact bmod_id (by omega) (by omega)

/-- C21: `avg_down` on signed values: the floor of the half sum. -/
theorem avgDownS_exact (hn : 0 < n) (a b : BitVec (n + 1)) : (avgDownS a b).toInt = (a.toInt + b.toInt) / 2 := by
  have hp := pow_pos' n
  obtain ⟨a1, a2⟩ := toInt_range a
  obtain ⟨b1, b2⟩ := toInt_range b
  unfold avgDownS
  have hs : ((a.signExtend (2 * (n + 1)) + b.signExtend (2 * (n + 1))).sshiftRight 1).toInt = (a.toInt + b.toInt) / 2 := by
    rw [BitVec.toInt_sshiftRight, wide_toInt_add hn, Int.shiftRight_eq_div_pow]; rfl
  rw [narrow_toInt _ (by rw [hs]; omega) (by rw [hs]; omega), hs]

/-- C21: `avg_up` on signed values: half the sum, rounded up. -/
theorem avgUpS_exact (hn : 0 < n) (a b : BitVec (n + 1)) : (avgUpS a b).toInt = (a.toInt + b.toInt + 1) / 2 := by
  have hp := pow_pos' n
  obtain ⟨a1, a2⟩ := toInt_range a
  obtain ⟨b1, b2⟩ := toInt_range b
  have h2 : 2 * (n + 1) = (2 * n + 1) + 1 := by ring
  have hPP : (4 : Int) * 2 ^ n ≤ 2 ^ (2 * n + 1) ∨ n = 0 := by
    by_cases h : n = 0
    · exact Or.inr h
    · left
      have : (4 : Int) * 2 ^ n = 2 ^ (n + 2) := by ring
      rw [this]
      by_cases h1 : n = 1
      · subst h1; decide
      · exact_mod_cast Nat.pow_le_pow_right (by omega) (by omega)
  have h1 : (1#(2 * (n + 1))).toInt = 1 := by
    rw [BitVec.toInt_ofNat', h2]
    exact bmod_id (by push_cast; omega) (by push_cast; omega)
  unfold avgUpS
  have hs : ((a.signExtend (2 * (n + 1)) + b.signExtend (2 * (n + 1)) + 1#(2 * (n + 1))).sshiftRight 1).toInt
      = (a.toInt + b.toInt + 1) / 2 := by
    rw [BitVec.toInt_sshiftRight, BitVec.toInt_add, wide_toInt_add hn, h1, Int.shiftRight_eq_div_pow]
    have : (a.toInt + b.toInt + 1).bmod (2 ^ (2 * (n + 1))) = a.toInt + b.toInt + 1 := by
      rw [h2]; exact bmod_id (by omega) (by omega)
    rw [this]; rfl
  rw [narrow_toInt _ (by rw [hs]; omega) (by rw [hs]; omega), hs]

/-! ## Non-vacuity: concrete values -/

example : addS (n := 7) 100#8 100#8 = 127#8 := by decide
example : (addS (n := 7) (BitVec.ofInt 8 (-100)) (BitVec.ofInt 8 (-100))).toInt = -128 := by decide
example : mulS (n := 7) 16#8 (BitVec.ofInt 8 (-16)) = BitVec.intMin 8 := by decide
example : divS (n := 7) (BitVec.intMin 8) (-1#8) = some 127#8 := by decide
example : (avgUpS (n := 7) (BitVec.ofInt 8 (-3)) (BitVec.ofInt 8 (-4))).toInt = -3 := by decide

end Ispc.Sat
