import Verif.Builtins.BitCount
import Mathlib.Data.Finset.Range
import Mathlib.Data.Finset.Card
import Mathlib.Tactic.Common

/-!
# C85: counting bits gives the documented number on every target
-/

namespace Ispc.BitCount

open Ispc.Types (Basic Var)
open Ispc.Overload (at_ Outcome Cand cand)

/-! ## Specification -/

/-- `k` is the number of trailing zeros of `x`: the bits below `k` are zero and bit `k`, if there is one, is not. -/
def IsTrailing {w : Nat} (x : BitVec w) (k : Nat) : Prop :=
  k ≤ w ∧ (∀ i < k, x.getLsbD i = false) ∧ (k < w → x.getLsbD k = true)

/-- `k` is the number of leading zeros of `x`, counted from the highest bit `w - 1`. -/
def IsLeading {w : Nat} (x : BitVec w) (k : Nat) : Prop :=
  k ≤ w ∧ (∀ i < k, x.getLsbD (w - 1 - i) = false) ∧ (k < w → x.getLsbD (w - 1 - k) = true)

/-- The number of bits that are set. -/
def setBits {w : Nat} (x : BitVec w) : Nat := ((Finset.range w).filter fun i => x.getLsbD i = true).card

/-- There is only one such number. -/
theorem trailing_unique {w : Nat} (x : BitVec w) (j k : Nat) (hj : IsTrailing x j) (hk : IsTrailing x k) : j = k := by
  rcases Nat.lt_trichotomy j k with h | h | h
  · have h1 := hj.2.2 (by have := hk.1; omega)
    rw [hk.2.1 j h] at h1
    cases h1
  · exact h
  · have h1 := hk.2.2 (by have := hj.1; omega)
    rw [hj.2.1 k h] at h1
    cases h1

theorem leading_unique {w : Nat} (x : BitVec w) (j k : Nat) (hj : IsLeading x j) (hk : IsLeading x k) : j = k := by
  rcases Nat.lt_trichotomy j k with h | h | h
  · have h1 := hj.2.2 (by have := hk.1; omega)
    rw [hk.2.1 j h] at h1
    cases h1
  · exact h
  · have h1 := hk.2.2 (by have := hj.1; omega)
    rw [hj.2.1 k h] at h1
    cases h1

/-! ## Lists of bits -/

theorem bits_length {w : Nat} (x : BitVec w) : (bits x).length = w := by simp [bits]

theorem bits_get {w : Nat} (x : BitVec w) (i : Nat) (h : i < (bits x).length) : (bits x)[i] = x.getLsbD i := by
  simp [bits]

theorem takeWhile_spec (l : List Bool) (k : Nat) (h : k = (l.takeWhile (!·)).length) :
    k ≤ l.length ∧ (∀ i (hi : i < l.length), i < k → l[i] = false) ∧ (∀ hk : k < l.length, l[k] = true) := by
  subst h
  induction l with
  | nil => simp
  | cons b r ih =>
    cases b with
    | true => simp
    | false =>
      simp only [List.takeWhile_cons, Bool.not_false, if_true, List.length_cons]
      refine ⟨by omega, ?_, ?_⟩
      · intro i hi hk
        cases i with
        | zero => rfl
        | succ i => simpa using ih.2.1 i (by simpa using hi) (by omega)
      · intro hk
        simpa using ih.2.2 (by simpa using hk)

theorem trailing_list {w : Nat} (x : BitVec w) : IsTrailing x ((bits x).takeWhile (!·)).length := by
  obtain ⟨h1, h2, h3⟩ := takeWhile_spec (bits x) _ rfl
  rw [bits_length] at h1
  refine ⟨h1, ?_, ?_⟩
  · intro i hi
    have := h2 i (by rw [bits_length]; omega) hi
    rwa [bits_get] at this
  · intro hk
    have := h3 (by rw [bits_length]; omega)
    rwa [bits_get] at this

theorem leading_list {w : Nat} (x : BitVec w) : IsLeading x ((bits x).reverse.takeWhile (!·)).length := by
  obtain ⟨h1, h2, h3⟩ := takeWhile_spec (bits x).reverse _ rfl
  have hl : (bits x).reverse.length = w := by rw [List.length_reverse, bits_length]
  rw [hl] at h1
  refine ⟨h1, ?_, ?_⟩
  · intro i hi
    have := h2 i (by rw [hl]; omega) hi
    rwa [List.getElem_reverse, bits_get, bits_length] at this
  · intro hk
    have := h3 (by rw [hl]; omega)
    rwa [List.getElem_reverse, bits_get, bits_length] at this

theorem count_list (f : Nat → Bool) (n : Nat) :
    ((List.range n).map f).count true = ((Finset.range n).filter fun i => f i = true).card := by
  induction n with
  | zero => rfl
  | succ n ih =>
    rw [List.range_succ, List.map_append, List.count_append, ih, Finset.range_add_one, Finset.filter_insert]
    cases h : f n
    · simp [h]
    · rw [if_pos rfl, Finset.card_insert_of_notMem (by simp)]
      simp [h]

theorem count_setBits {w : Nat} (x : BitVec w) : (bits x).count true = setBits x := count_list _ _

theorem setBits_le {w : Nat} (x : BitVec w) : setBits x ≤ w := by
  unfold setBits
  exact (Finset.card_filter_le _ _).trans (by simp)

/-! ## The instructions -/

theorem lt_two_pow_of_le {k w : Nat} (h : k ≤ w) : k < 2 ^ w := Nat.lt_of_le_of_lt h Nat.lt_two_pow_self

theorem cttz_spec {w : Nat} (x : BitVec w) : IsTrailing x (cttz x).toNat := by
  have h := trailing_list x
  unfold cttz
  rw [BitVec.toNat_ofNat, Nat.mod_eq_of_lt (lt_two_pow_of_le h.1)]
  exact h

theorem ctlz_spec {w : Nat} (x : BitVec w) : IsLeading x (ctlz x).toNat := by
  have h := leading_list x
  unfold ctlz
  rw [BitVec.toNat_ofNat, Nat.mod_eq_of_lt (lt_two_pow_of_le h.1)]
  exact h

theorem ctpop_spec {w : Nat} (x : BitVec w) : (ctpop x).toNat = setBits x := by
  unfold ctpop
  rw [BitVec.toNat_ofNat, count_setBits, Nat.mod_eq_of_lt (lt_two_pow_of_le (setBits_le x))]

theorem rev_leading {w : Nat} (x : BitVec w) (k : Nat) (h : IsLeading (bfrev x) k) : IsTrailing x k := by
  have key : ∀ i < w, (bfrev x).getLsbD (w - 1 - i) = x.getLsbD i := by
    intro i hi
    unfold bfrev
    rw [BitVec.getLsbD_reverse, BitVec.getMsbD_eq_getLsbD]
    have h1 : w - 1 - (w - 1 - i) = i := by omega
    have h2 : w - 1 - i < w := by omega
    simp [h1, h2]
  refine ⟨h.1, ?_, ?_⟩
  · intro i hi
    rw [← key i (by have := h.1; omega)]
    exact h.2.1 i hi
  · intro hk
    rw [← key k hk]
    exact h.2.2 hk

theorem low_bit (x : BitVec 64) (i : Nat) (h : i < 32) : (low x).getLsbD i = x.getLsbD i := by
  unfold low
  simp [h]

theorem high_bit (x : BitVec 64) (i : Nat) (h : i < 32) : (high x).getLsbD i = x.getLsbD (32 + i) := by
  unfold high
  simp [BitVec.getLsbD_ushiftRight, h]

/-- Two halves: trailing zeros. -/
theorem trailing_halves (x : BitVec 64) (l h : BitVec 32) (hl : IsTrailing (low x) l.toNat)
    (hh : IsTrailing (high x) h.toNat) :
    IsTrailing x ((l + if l = 32#32 then h else 0#32).setWidth 64).toNat := by
  have e : (l = 32#32) ↔ l.toNat = 32 := by
    constructor
    · rintro rfl; rfl
    · intro e; exact BitVec.eq_of_toNat_eq (by simpa using e)
  obtain ⟨a1, a2, a3⟩ := hl
  obtain ⟨b1, b2, b3⟩ := hh
  by_cases hc : l = 32#32
  · have hn := e.1 hc
    rw [if_pos hc, BitVec.toNat_setWidth, BitVec.toNat_add, hn]
    rw [hn] at a1 a2
    have : (32 + h.toNat) % 2 ^ 32 % 2 ^ 64 = 32 + h.toNat := by omega
    rw [this]
    refine ⟨by omega, ?_, ?_⟩
    · intro i hi
      by_cases h32 : i < 32
      · rw [← low_bit x i h32]; exact a2 i h32
      · have := b2 (i - 32) (by omega)
        rw [high_bit x _ (by omega)] at this
        rwa [show 32 + (i - 32) = i by omega] at this
    · intro hk
      have := b3 (by omega)
      rwa [high_bit x _ (by omega)] at this
  · have hn : l.toNat ≠ 32 := fun h => hc (e.2 h)
    rw [if_neg hc, BitVec.toNat_setWidth, BitVec.toNat_add]
    have : (l.toNat + (0#32).toNat) % 2 ^ 32 % 2 ^ 64 = l.toNat := by simp; omega
    rw [this]
    refine ⟨by omega, ?_, ?_⟩
    · intro i hi
      rw [← low_bit x i (by omega)]
      exact a2 i hi
    · intro _
      rw [← low_bit x _ (by omega)]
      exact a3 (by omega)

/-- Two halves: leading zeros. -/
theorem leading_halves (x : BitVec 64) (h l : BitVec 32) (hh : IsLeading (high x) h.toNat)
    (hl : IsLeading (low x) l.toNat) :
    IsLeading x ((h + if h = 32#32 then l else 0#32).setWidth 64).toNat := by
  have e : (h = 32#32) ↔ h.toNat = 32 := by
    constructor
    · rintro rfl; rfl
    · intro e; exact BitVec.eq_of_toNat_eq (by simpa using e)
  obtain ⟨a1, a2, a3⟩ := hh
  obtain ⟨b1, b2, b3⟩ := hl
  by_cases hc : h = 32#32
  · have hn := e.1 hc
    rw [if_pos hc, BitVec.toNat_setWidth, BitVec.toNat_add, hn]
    rw [hn] at a1 a2
    have : (32 + l.toNat) % 2 ^ 32 % 2 ^ 64 = 32 + l.toNat := by omega
    rw [this]
    refine ⟨by omega, ?_, ?_⟩
    · intro i hi
      by_cases h32 : i < 32
      · have := a2 i h32
        rw [high_bit x _ (by omega)] at this
        rwa [show 32 + (32 - 1 - i) = 64 - 1 - i by omega] at this
      · have := b2 (i - 32) (by omega)
        rw [low_bit x _ (by omega)] at this
        rwa [show 32 - 1 - (i - 32) = 64 - 1 - i by omega] at this
    · intro hk
      have := b3 (by omega)
      rw [low_bit x _ (by omega)] at this
      rwa [show 64 - 1 - (32 + l.toNat) = 32 - 1 - l.toNat by omega]
  · have hn : h.toNat ≠ 32 := fun h => hc (e.2 h)
    rw [if_neg hc, BitVec.toNat_setWidth, BitVec.toNat_add]
    have : (h.toNat + (0#32).toNat) % 2 ^ 32 % 2 ^ 64 = h.toNat := by simp; omega
    rw [this]
    refine ⟨by omega, ?_, ?_⟩
    · intro i hi
      have := a2 i hi
      rw [high_bit x _ (by omega)] at this
      rwa [show 32 + (32 - 1 - i) = 64 - 1 - i by omega] at this
    · intro _
      have := a3 (by omega)
      rw [high_bit x _ (by omega)] at this
      rwa [show 32 + (32 - 1 - h.toNat) = 64 - 1 - h.toNat by omega] at this

theorem bits_halves (x : BitVec 64) : bits x = bits (low x) ++ bits (high x) := by
  apply List.ext_getElem
  · simp [bits]
  · intro i h1 h2
    rw [bits_get]
    have hi : i < 64 := by simpa [bits_length] using h1
    by_cases h32 : i < 32
    · rw [List.getElem_append_left (by rw [bits_length]; exact h32), bits_get, low_bit x i h32]
    · rw [List.getElem_append_right (by rw [bits_length]; omega), bits_get, bits_length, high_bit x _ (by omega)]
      rw [show 32 + (i - 32) = i by omega]

theorem pop_halves (x : BitVec 64) : (ctpop (low x) + ctpop (high x)).toNat = setBits x := by
  have h := congrArg (List.count true) (bits_halves x)
  rw [List.count_append, count_setBits, count_setBits, count_setBits] at h
  have h1 := setBits_le (low x)
  have h2 := setBits_le (high x)
  rw [BitVec.toNat_add, ctpop_spec, ctpop_spec, ← h]
  have : setBits x ≤ 64 := setBits_le x
  omega

/-! ## Uniform values -/

/-- `count_trailing_zeros` of a uniform value, on every target. -/
theorem trailing_uniform (c : Code) (x : BitVec 32) (y : BitVec 64) :
    IsTrailing x (ctz32 c x).toNat ∧ IsTrailing y (ctz64 c y).toNat := by
  constructor
  · unfold ctz32
    cases c with
    | xe => exact rev_leading x _ (ctlz_spec _)
    | _ => exact cttz_spec x
  · unfold ctz64
    cases c with
    | xe => exact trailing_halves y _ _ (rev_leading _ _ (ctlz_spec _)) (rev_leading _ _ (ctlz_spec _))
    | _ => exact cttz_spec y

/-- `count_leading_zeros` of a uniform value, on every target. -/
theorem leading_uniform (c : Code) (x : BitVec 32) (y : BitVec 64) :
    IsLeading x (clz32 c x).toNat ∧ IsLeading y (clz64 c y).toNat := by
  constructor
  · unfold clz32
    cases c <;> exact ctlz_spec x
  · unfold clz64
    cases c with
    | xe => exact leading_halves y _ _ (ctlz_spec _) (ctlz_spec _)
    | _ => exact ctlz_spec y

/-- `popcnt` of a uniform value, on every target. -/
theorem popcnt_uniform (c : Code) (x : BitVec 32) (y : BitVec 64) :
    (pop32 c x).toNat = setBits x ∧ (pop64 c y).toNat = setBits y := by
  refine ⟨ctpop_spec x, ?_⟩
  have h : ((ctpop y).setWidth 32).toNat = setBits y := by
    rw [BitVec.toNat_setWidth, ctpop_spec]
    have := setBits_le y
    omega
  unfold pop64
  cases c with
  | xe => exact pop_halves y
  | _ => exact h

example : setBits 0xF0#32 = 4 ∧ IsLeading 0xF0#32 24 ∧ IsTrailing 0xF0#32 4 := by
  refine ⟨by decide +kernel, ?_, ?_⟩
  · exact (by decide +kernel : (clz32 .xe 0xF0#32).toNat = 24) ▸ (leading_uniform .xe 0xF0#32 0).1
  · exact (by decide +kernel : (ctz32 .xe 0xF0#32).toNat = 4) ▸ (trailing_uniform .xe 0xF0#32 0).1

/-! ## Varying values -/

/-- The loop over the instances sets each of them, whatever the variable had before. -/
theorem loop_get {w w' : Nat} (f : BitVec w → BitVec w') (v : Gang w) (r : Gang w') (n i : Nat) :
    loop f v r n i = if i < n then f (v i) else r i := by
  induction n with
  | zero => simp [loop]
  | succ n ih =>
    show insert (loop f v r n) n (f (v n)) i = _
    unfold insert
    by_cases h : i = n
    · simp [h]
    · rw [if_neg h, ih]
      by_cases h2 : i < n
      · rw [if_pos h2, if_pos (by omega)]
      · rw [if_neg h2, if_neg (by omega)]

/-- `count_trailing_zeros` of a varying value: in every instance the number for its own value. -/
theorem trailing_varying (c : Code) (v : Gang 32) (u : Gang 64) (i : Nat) :
    IsTrailing (v i) (ctz32V c v i).toNat ∧ IsTrailing (u i) (ctz64V c u i).toNat := by
  constructor
  · unfold ctz32V
    cases c with
    | xe => exact rev_leading _ _ (ctlz_spec _)
    | _ => exact cttz_spec _
  · unfold ctz64V
    cases c with
    | xe => exact trailing_halves (u i) _ _ (rev_leading _ _ (ctlz_spec _)) (rev_leading _ _ (ctlz_spec _))
    | _ => exact cttz_spec _

/-- `count_leading_zeros` of a varying value: in every instance of the gang the number for its own value, whatever the
    variable for the result has at first and however the count is made. -/
theorem leading_varying (W : Nat) (c : Code) (conflict : Bool) (j32 v : Gang 32) (j64 u : Gang 64) (i : Nat)
    (hi : i < W) :
    IsLeading (v i) (clz32V W c conflict j32 v i).toNat ∧ IsLeading (u i) (clz64V W c conflict j64 u i).toNat := by
  constructor
  · unfold clz32V
    cases conflict with
    | true => exact ctlz_spec _
    | false =>
      simp only [Bool.false_eq_true, if_false]
      rw [loop_get, if_pos hi]
      exact (leading_uniform c _ 0).1
  · unfold clz64V
    cases conflict with
    | true =>
      simp only [if_true]
      unfold clz64Vec
      cases c with
      | native b => exact ctlz_spec _
      | generic =>
        have h := ctlz_spec (u i)
        have h1 := h.1
        show IsLeading (u i) (((ctlz (u i)).setWidth 32).signExtend 64).toNat
        have e : (((ctlz (u i)).setWidth 32).signExtend 64).toNat = (ctlz (u i)).toNat := by
          have e1 : ((ctlz (u i)).setWidth 32).toNat = (ctlz (u i)).toNat := by
            rw [BitVec.toNat_setWidth]; omega
          have e2 : ((ctlz (u i)).setWidth 32).msb = false := by
            rw [BitVec.msb_eq_decide, e1]
            simp only [decide_eq_false_iff_not, not_le]
            omega
          rw [BitVec.signExtend_eq_setWidth_of_msb_false e2, BitVec.toNat_setWidth, e1]
          omega
        rw [e]
        exact h
      | xe => exact leading_halves (u i) _ _ (ctlz_spec _) (ctlz_spec _)
    | false =>
      simp only [Bool.false_eq_true, if_false]
      rw [loop_get, if_pos hi]
      exact (leading_uniform c 0 _).2

theorem mask_low (m : Nat) (hm : 0 < m) (b : Bool) : (maskElt m b).getLsbD 0 = b := by
  cases b <;> simp [maskElt, hm]

theorem mask_ne (m : Nat) (hm : 0 < m) (b : Bool) : maskElt m b ≠ 0#m ↔ b = true := by
  constructor
  · intro h
    cases b
    · exact absurd rfl h
    · rfl
  · rintro rfl h
    have := mask_low m hm true
    rw [h] at this
    simp at this

/-- `popcnt` of a varying value: for an instance that executes it the number for its own value, for the others zero, with
    mask elements of any size, whatever the variable for the result has at first. -/
theorem popcnt_varying (W m : Nat) (hm : 0 < m) (c : Code) (junk : Gang 32) (on : Nat → Bool) (v : Gang 32) (u : Gang 64)
    (i : Nat) (hi : i < W) :
    (pop32V W m c junk (fun j => maskElt m (on j)) v i).toNat = (if on i = true then setBits (v i) else 0) ∧
    (pop64V W m c junk (fun j => maskElt m (on j)) u i).toNat = (if on i = true then setBits (u i) else 0) := by
  have p1 := (popcnt_uniform c (v i) (u i)).1
  have p2 := (popcnt_uniform c (v i) (u i)).2
  have q1 := ctpop_spec (v i)
  have q2 : ((ctpop (u i)).setWidth 32).toNat = setBits (u i) := (popcnt_uniform .generic (v i) (u i)).2
  have q3 := pop_halves (u i)
  constructor
  · unfold pop32V
    split
    · simp only [mask_low m hm]
      split <;> simp [q1]
    · simp only [mask_low m hm]
      split <;> simp [q1]
    · simp only [mask_ne m hm, loop_get, if_pos hi]
      split <;> simp [p1]
  · unfold pop64V
    split
    · simp only [mask_low m hm]
      split <;> simp only [q2, BitVec.toNat_ofNat, Nat.zero_mod]
    · simp only [mask_low m hm]
      split <;> simp only [q3, BitVec.toNat_ofNat, Nat.zero_mod]
    · simp only [mask_ne m hm, loop_get, if_pos hi]
      split <;> simp [p2]

example : (pop32V 4 32 .generic (fun _ => 7#32) (fun j => maskElt 32 (decide (j ≠ 2))) (fun j => BitVec.ofNat 32 j) 3,
    pop32V 4 32 .generic (fun _ => 7#32) (fun j => maskElt 32 (decide (j ≠ 2))) (fun j => BitVec.ofNat 32 j) 2)
      = (2#32, 0#32) := by decide +kernel

/-! ## Absolute values -/

/-- `abs` of an integer is its absolute value, unless it is the smallest number of its type. -/
theorem abs_value {w : Nat} (a : BitVec w) (h : a ≠ BitVec.intMin w) : (abs a).toInt = (a.toInt.natAbs : Int) := by
  have hn : (-a).toInt = -a.toInt := BitVec.toInt_neg_of_ne_intMin h
  have hs : (0#w).slt a = true ↔ 0 < a.toInt := by rw [BitVec.slt_iff_toInt_lt, BitVec.toInt_zero]
  unfold abs
  split_ifs with hp
  · rw [hs] at hp; omega
  · rw [hs] at hp; rw [hn]; omega

/-- Of the smallest number `abs` is this number, which is negative. -/
theorem abs_smallest_wrong (w : Nat) (hw : 0 < w) :
    abs (BitVec.intMin w) = BitVec.intMin w ∧ (abs (BitVec.intMin w)).toInt < 0 := by
  have h1 : (BitVec.intMin w).toInt < 0 := by
    rw [BitVec.toInt_intMin_of_pos hw]
    have : (0 : Int) < 2 ^ (w - 1) := by positivity
    omega
  have h2 : abs (BitVec.intMin w) = BitVec.intMin w := by
    have hs : ¬ (0#w).slt (BitVec.intMin w) = true := by rw [BitVec.slt_iff_toInt_lt, BitVec.toInt_zero]; omega
    unfold abs
    rw [if_neg hs, BitVec.neg_intMin]
  rw [h2]
  exact ⟨rfl, h1⟩

/-! ## Which values `popcnt` takes -/

/-- `popcnt` can be called with `int32`, `int64`, `unsigned int64` and varying `bool`; the function for this type is
    chosen. -/
theorem popcnt_accepted :
    callPopcnt (at_ .int32 .uniform) = .chosen (cand 0 [at_ .int32 .uniform]) ∧
    callPopcnt (at_ .int64 .uniform) = .chosen (cand 1 [at_ .int64 .uniform]) ∧
    callPopcnt (at_ .uint64 .uniform) = .chosen (cand 1 [at_ .int64 .uniform]) ∧
    callPopcnt (at_ .int32) = .chosen (cand 2 [at_ .int32]) ∧
    callPopcnt (at_ .int64) = .chosen (cand 3 [at_ .int64]) ∧
    callPopcnt (at_ .uint64) = .chosen (cand 3 [at_ .int64]) ∧
    callPopcnt (at_ .bool) = .chosen (cand 4 [at_ .bool]) := by
  decide +kernel

/-- A call with an `unsigned int`, or with an integer of 8 or 16 bits, is an error: the functions for `int32` and `int64`
    are equally good. -/
theorem popcnt_ambiguous_wrong (b : Basic) (hb : b ∈ [.int8, .uint8, .int16, .uint16, .uint32]) (v : Var)
    (hv : v = .uniform ∨ v = .varying) : callPopcnt (at_ b v) = .ambiguous := by
  have h : ∀ b ∈ [Basic.int8, .uint8, .int16, .uint16, .uint32], ∀ v ∈ [Var.uniform, .varying],
      callPopcnt (at_ b v) = .ambiguous := by decide +kernel
  exact h b hb v (by rcases hv with rfl | rfl <;> simp)

end Ispc.BitCount
