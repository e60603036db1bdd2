import Verif.Builtins.Perm

/-!
# `shift` by a constant (C16)

`src/opt/ReplaceStdlibShiftPass.cpp:26-80` replaces a call of `shift` with a constant amount by one `shufflevector` of the
vector and a vector of zeros.  It knows the versions for `int8`, `int16`, `int32`, `int64`, `float` and `double`
(lines 33-38); calls of the others stay as they are.  Not modelled: an amount that is a constant but not a number (`undef`), at
which the compiler stops with an assertion (lines 14-18, 52-55).
-/

namespace Ispc.ShiftPass

open Ispc.Vec
open Ispc.Perm (lineNeighbour shift)

variable {W : Nat} {α : Type}

/-! ## Model -/

/-- `int s = i + shiftInt` (line 57).  The sum may overflow, which C++ leaves undefined: `none`, unless the compiler was
built in such a way that `int` wraps around. -/
def intAdd (wraps : Bool) (x y : BitVec 32) : Option (BitVec 32) :=
  if x.saddOverflow y && !wraps then none else some (x + y)

/-- The element of the mask of lane `i` (lines 57-60). -/
def maskElt (wraps : Bool) (W : Nat) (amount : BitVec 32) (i : Nat) : Option (BitVec 32) := do
  let s ← intAdd wraps (BitVec.ofNat 32 i) amount
  let s := if s.toInt < 0 then BitVec.ofNat 32 W else s
  some (if (W : Int) ≤ s.toInt then BitVec.ofNat 32 W else s)

/-- `shufflevector v, zeroinitializer, mask` for one lane: an index into both vectors, one after the other. -/
def shuffleElt (zero : α) (v : Vec W α) (k : BitVec 32) : Option α :=
  if h : k.toNat < W then some (v ⟨k.toNat, h⟩) else if k.toNat < 2 * W then some zero else none

/-- The loop over the lanes makes the mask (lines 56-61), the instruction uses it (lines 62-66). -/
def replaced (wraps : Bool) (zero : α) (v : Vec W α) (amount : BitVec 32) : Option (Vec W α) := do
  let mask ← forLoop (fun i (m : Vec W (BitVec 32)) => do
    let s ← maskElt wraps W amount i
    insert m i s) 0 W fun _ => 0
  if h : ∀ l, (shuffleElt zero v (mask l)).isSome then some fun l => (shuffleElt zero v (mask l)).get (h l) else none

/-! ## Proofs -/

/-- The value of the sum when it is defined or wraps around. -/
theorem maskElt_spec (wraps : Bool) (hW : W ≤ 2 ^ 30) (zero : α) (v : Vec W α) (amount : BitVec 32) (l : Fin W)
    (h : wraps = true ∨ amount.toInt + l.val < 2 ^ 31) :
    ∃ s, maskElt wraps W amount l.val = some s ∧ shuffleElt zero v s = some (lineNeighbour zero v amount.toInt l) := by
  have hl := l.isLt
  have h0 : 0 < W := by omega
  have hlo := BitVec.le_toInt amount
  have hhi := BitVec.toInt_lt (x := amount)
  have hli : (BitVec.ofNat 32 l.val).toInt = l.val := by
    rw [BitVec.toInt_eq_toNat_cond, BitVec.toNat_ofNat, Nat.mod_eq_of_lt (by omega)]
    split <;> omega
  have hWi : (BitVec.ofNat 32 W).toInt = W := by
    rw [BitVec.toInt_eq_toNat_cond, BitVec.toNat_ofNat, Nat.mod_eq_of_lt (by omega)]
    split <;> omega
  have hWn : (BitVec.ofNat 32 W).toNat = W := by rw [BitVec.toNat_ofNat, Nat.mod_eq_of_lt (by omega)]
  have hsum : (BitVec.ofNat 32 l.val + amount).toInt =
      if amount.toInt + l.val < 2 ^ 31 then amount.toInt + l.val else amount.toInt + l.val - 2 ^ 32 := by
    rw [BitVec.toInt_add, hli]
    split
    · rw [Int.bmod_eq_of_le (by omega) (by omega)]
      omega
    · rw [Int.bmod_def]
      omega
  have hadd : intAdd wraps (BitVec.ofNat 32 l.val) amount = some (BitVec.ofNat 32 l.val + amount) := by
    unfold intAdd
    rw [if_neg]
    intro hc
    simp only [Bool.and_eq_true, Bool.not_eq_true', BitVec.saddOverflow, Bool.or_eq_true, decide_eq_true_eq, hli] at hc
    rcases h with h | h
    · rw [h] at hc; simp at hc
    · omega
  unfold maskElt
  rw [hadd]
  simp only [Option.bind_eq_bind, Option.bind_some]
  refine ⟨_, rfl, ?_⟩
  have zeroCase : shuffleElt zero v (BitVec.ofNat 32 W) = some zero := by
    unfold shuffleElt
    rw [dif_neg (by omega), if_pos (by omega)]
  unfold lineNeighbour
  by_cases hr : 0 ≤ (l.val : Int) + amount.toInt ∧ (l.val : Int) + amount.toInt < W
  · rw [if_pos (by omega)] at hsum
    have hn : ¬ (BitVec.ofNat 32 l.val + amount).toInt < 0 := by omega
    simp only [hn, if_false]
    rw [dif_pos hr, if_neg (by omega)]
    have e : (BitVec.ofNat 32 l.val + amount).toNat = ((l.val : Int) + amount.toInt).toNat := by
      rw [BitVec.toInt_eq_toNat_cond] at hsum
      split at hsum <;> omega
    unfold shuffleElt
    rw [dif_pos (by omega)]
    congr 2
    exact Fin.ext e
  · rw [dif_neg hr]
    by_cases hn : (BitVec.ofNat 32 l.val + amount).toInt < 0
    · simp only [hn, if_true, hWi, le_refl]
      exact zeroCase
    · simp only [hn, if_false]
      rw [if_pos (by split at hsum <;> omega)]
      exact zeroCase

/-- **C16.** `shift` by a constant: each instance gets the value of the instance `amount` places further on, and zero if
there is none; for every amount at which `i + amount` does not overflow, and for all if it wraps around. -/
theorem constant_shift_partial (wraps : Bool) (hW : W ≤ 2 ^ 30) (zero : α) (v : Vec W α) (amount : BitVec 32)
    (h : wraps = true ∨ amount.toInt + W ≤ 2 ^ 31) :
    replaced wraps zero v amount = some (lineNeighbour zero v amount.toInt) := by
  have key : ∀ l : Fin W, ∃ s, maskElt wraps W amount l.val = some s ∧
      shuffleElt zero v s = some (lineNeighbour zero v amount.toInt l) := fun l =>
    maskElt_spec wraps hW zero v amount l (by
      rcases h with h | h
      · exact .inl h
      · right; have := l.isLt; omega)
  obtain ⟨mask, hm, hI⟩ := forLoop_inv (body := fun i (m : Vec W (BitVec 32)) => do
      let s ← maskElt wraps W amount i
      insert m i s)
    (fun i (m : Vec W (BitVec 32)) => ∀ l : Fin W, l.val < i →
      shuffleElt zero v (m l) = some (lineNeighbour zero v amount.toInt l)) W 0 (fun _ => 0)
    (by intro l h; omega)
    (by
      intro i m _ hi hI
      have hi : i < W := by omega
      obtain ⟨s, hs, hv⟩ := key ⟨i, hi⟩
      refine ⟨fun l => if l.val = i then s else m l, ?_, ?_⟩
      · simp only at hs
        rw [hs]
        exact insert_lt _ hi _
      · intro l hl
        by_cases e : l.val = i
        · simp only [e, if_true]
          have : l = ⟨i, hi⟩ := Fin.ext e
          rw [this]
          exact hv
        · simp only [e, if_false]
          exact hI l (by omega))
  unfold replaced
  rw [hm]
  simp only [Option.bind_eq_bind, Option.bind_some]
  have hall : ∀ l, shuffleElt zero v (mask l) = some (lineNeighbour zero v amount.toInt l) := fun l =>
    hI l (by have := l.isLt; omega)
  rw [dif_pos fun l => by rw [hall l]; rfl]
  congr 1
  funext l
  exact Option.get_of_eq_some _ (hall l)

/-- Finding: for the amounts next to `2 ^ 31` the sum overflows, and what the compiler does is undefined. -/
theorem overflow_undefined (hW0 : 0 < W) (hW : W ≤ 2 ^ 30) (zero : α) (v : Vec W α) (amount : BitVec 32)
    (h : 2 ^ 31 < amount.toInt + W) : replaced false zero v amount = none := by
  have hW1 : W - 1 < W := by omega
  have hli : (BitVec.ofNat 32 (W - 1)).toInt = W - 1 := by
    rw [BitVec.toInt_eq_toNat_cond, BitVec.toNat_ofNat, Nat.mod_eq_of_lt (by omega)]
    split <;> omega
  have hlast : maskElt false W amount (W - 1) = none := by
    unfold maskElt intAdd
    rw [if_pos]
    · rfl
    · simp only [Bool.not_false, Bool.and_true, BitVec.saddOverflow, Bool.or_eq_true, decide_eq_true_eq, hli]
      omega
  have hloop : ∀ n i (m : Vec W (BitVec 32)), i ≤ W - 1 → W - 1 < i + n →
      forLoop (fun i (m : Vec W (BitVec 32)) => do
        let s ← maskElt false W amount i
        insert m i s) i n m = none := by
    intro n
    induction n with
    | zero => intro i m h1 h2; omega
    | succ n ih =>
      intro i m h1 h2
      rw [forLoop]
      by_cases e : i = W - 1
      · rw [e, hlast]
        rfl
      · cases maskElt false W amount i with
        | none => rfl
        | some s =>
          have hi : i < W := by omega
          simp only [Option.bind_eq_bind, Option.bind_some, insert_lt m hi]
          exact ih (i + 1) _ (by omega) (by omega)
  unfold replaced
  rw [hloop W 0 _ (by omega) (by omega)]
  rfl

/-- **C16.** Where the function in memory is right, the replacement gives the same; beyond one gang it is right where the
function is not. -/
theorem constant_shift_function (wraps : Bool) (hW : W ≤ 2 ^ 29) (zero : α) (v : Vec W α) (amount : BitVec 32)
    (hi : -(W : Int) ≤ amount.toInt ∧ amount.toInt ≤ W) :
    (replaced wraps zero v amount) = shift zero v amount := by
  rw [constant_shift_partial wraps (by omega) zero v amount (.inr (by omega)),
    Ispc.Perm.shift_spec_partial hW zero v amount hi]

/-! ## Non-vacuity -/

example : (replaced false 0 (fun l : Fin 4 => l.val + 1) 1).map (fun r => [r 0, r 1, r 2, r 3]) = some [2, 3, 4, 0] := by
  decide +kernel

example : (replaced false 0 (fun l : Fin 4 => l.val + 1) (-3)).map (fun r => [r 0, r 1, r 2, r 3]) = some [0, 0, 0, 1] := by
  decide +kernel

example : (replaced false 0 (fun l : Fin 4 => l.val + 1) 100).map (fun r => [r 0, r 1, r 2, r 3]) = some [0, 0, 0, 0] := by
  decide +kernel

example : (2 : Int) ^ 31 < (0x7fffffff : BitVec 32).toInt + 4 := by decide

end Ispc.ShiftPass
