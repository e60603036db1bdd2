import Verif.Builtins.MaskBits
import Verif.Builtins.ScanProps

/-!
# C81: Questions about the mask have the same answers on every target, and assertions are triggered by the executing instances
-/

namespace Ispc.MaskBits

open Ispc.ForeachActive (Mask movmsk movmsk_bit)
open Ispc.Scan (popcnt allMask allMask_bit movmsk_eq_all movmsk_eq_zero)

/-! ## Specification -/

/-- The lanes of a mask have all bits set or none. -/
def Wf {n b : Nat} (m : Lanes n b) : Prop := ∀ l, m l = 0#b ∨ m l = BitVec.allOnes b

/-- The instance `l` is on: its lane of the mask is not zero. -/
def On {n b : Nat} (m : Lanes n b) (l : Fin n) : Prop := m l ≠ 0#b

instance {n b : Nat} (m : Lanes n b) (l : Fin n) : Decidable (On m l) := by unfold On; infer_instance

/-- The gang sizes and mask bits of the targets: those that the code supports, and for `generic` everything that a word of 64 bits can hold. -/
def Supported : Name → Prop
  | .xe W        => W ≤ 64
  | .generic W B => W ≤ 64 ∧ 0 < B
  | _            => True

/-! ## Packed bits -/

theorem one_shl_bit' (w k i : Nat) : (1#w <<< k).getLsbD i = (decide (i < w) && decide (i = k)) := by
  rw [BitVec.getLsbD_shiftLeft, BitVec.getLsbD_one]
  by_cases h1 : i < w <;> by_cases h2 : i < k <;> by_cases h3 : i = k <;> simp [h1, h2, h3] <;> omega

theorem pack_foldl {n : Nat} (w : Nat) (p : Fin n → Bool) (ls : List (Fin n)) (acc : BitVec w) (i : Nat) :
    (ls.foldl (fun acc l => if p l then acc ||| (1#w <<< l.val) else acc) acc).getLsbD i = true ↔
      acc.getLsbD i = true ∨ i < w ∧ ∃ l ∈ ls, p l = true ∧ l.val = i := by
  induction ls generalizing acc with
  | nil => simp
  | cons l ls ih =>
    rw [List.foldl_cons, ih]
    by_cases hm : p l = true
    · simp only [hm, if_true, BitVec.getLsbD_or, one_shl_bit', Bool.or_eq_true, Bool.and_eq_true, decide_eq_true_eq,
        List.mem_cons, exists_eq_or_imp]
      constructor
      · rintro ((h | ⟨h1, h⟩) | ⟨h1, h⟩)
        · exact Or.inl h
        · exact Or.inr ⟨h1, Or.inl ⟨trivial, h.symm⟩⟩
        · exact Or.inr ⟨h1, Or.inr h⟩
      · rintro (h | ⟨h1, ⟨_, h⟩ | h⟩)
        · exact Or.inl (Or.inl h)
        · exact Or.inl (Or.inr ⟨h1, h.symm⟩)
        · exact Or.inr ⟨h1, h⟩
    · simp [hm]

theorem pack_bit {n : Nat} (w : Nat) (p : Fin n → Bool) (i : Nat) :
    (pack w p).getLsbD i = true ↔ i < w ∧ ∃ h : i < n, p ⟨i, h⟩ = true := by
  unfold pack
  rw [pack_foldl w p]
  simp only [BitVec.getLsbD_zero, Bool.false_eq_true, false_or, List.mem_finRange, true_and]
  refine and_congr_right fun _ => ?_
  constructor
  · rintro ⟨l, h1, rfl⟩; exact ⟨l.isLt, h1⟩
  · rintro ⟨h1, h2⟩; exact ⟨⟨i, h1⟩, h2, rfl⟩

theorem bits_ext {w : Nat} {x y : BitVec w} (h : ∀ i, x.getLsbD i = true ↔ y.getLsbD i = true) : x = y := by
  apply BitVec.eq_of_getLsbD_eq
  intro i _
  rw [Bool.eq_iff_iff]; exact h i

theorem pack_eq_zero {n w : Nat} (h : n ≤ w) (p : Fin n → Bool) : pack w p = 0#w ↔ ∀ l, p l = false := by
  constructor
  · intro he l
    by_contra hl
    have := (pack_bit w p l.val).2 ⟨by omega, l.isLt, by simpa using hl⟩
    rw [he] at this; simp at this
  · intro hp
    apply bits_ext
    intro i
    rw [pack_bit]; simp [hp]

theorem pack_eq_ones {n w : Nat} (h : n ≤ w) (p : Fin n → Bool) (ones : BitVec w)
    (ho : ∀ i, i < w → ones.getLsbD i = decide (i < n)) : pack w p = ones ↔ ∀ l, p l = true := by
  constructor
  · intro he l
    have := (pack_bit w p l.val).1 (by rw [he, ho _ (by omega)]; simp [l.isLt])
    exact this.2.2
  · intro hp
    apply BitVec.eq_of_getLsbD_eq
    intro i hi
    rw [ho i hi, Bool.eq_iff_iff, pack_bit]
    simp [hp, hi]

theorem zext_pack {n w : Nat} (h : n ≤ w) (hw : w ≤ 64) (p : Fin n → Bool) : (pack w p).zeroExtend 64 = movmsk p := by
  apply bits_ext
  intro i
  show ((pack w p).setWidth 64).getLsbD i = true ↔ _
  rw [movmsk_bit p (by omega), BitVec.getLsbD_setWidth, Bool.and_eq_true, pack_bit, decide_eq_true_eq]
  constructor
  · rintro ⟨_, _, h⟩; exact h
  · rintro ⟨h1, h2⟩; exact ⟨by omega, by omega, h1, h2⟩

theorem trunc_pack {n w v : Nat} (p : Fin n → Bool) (hv : v ≤ w) : (pack w p).truncate v = pack v p := by
  apply bits_ext
  intro i
  rw [BitVec.truncate_eq_setWidth, BitVec.getLsbD_setWidth, Bool.and_eq_true, pack_bit, pack_bit, decide_eq_true_eq]
  constructor
  · rintro ⟨h1, _, h⟩; exact ⟨h1, h⟩
  · rintro ⟨h1, h2⟩; exact ⟨h1, by omega, h2⟩

theorem pack_64 {n : Nat} (p : Fin n → Bool) : pack 64 p = movmsk p := rfl

/-! ## Lanes that are all ones or all zeros -/

theorem msb_sext {b : Nat} (hb : 0 < b) (v : Bool) : (sext b v).msb = v := by
  cases v <;> simp [sext, BitVec.msb_allOnes, hb]

theorem lsb_sext {b : Nat} (hb : 0 < b) (v : Bool) : (sext b v).getLsbD 0 = v := by
  cases v <;> simp [sext, hb]

theorem sext_or {b : Nat} (u v : Bool) : sext b u ||| sext b v = sext b (u || v) := by
  cases u <;> cases v <;> simp [sext]

theorem sext_and {b : Nat} (u v : Bool) : sext b u &&& sext b v = sext b (u && v) := by
  cases u <;> cases v <;> simp [sext]

theorem sext_xor {b : Nat} (u : Bool) : sext b u ^^^ BitVec.allOnes b = sext b (!u) := by
  cases u <;> simp [sext]

theorem sext_trunc {b c : Nat} (h : c ≤ b) (u : Bool) : (sext b u).truncate c = sext c u := by
  cases u
  · simp [sext]
  · apply BitVec.eq_of_getLsbD_eq
    intro i hi
    simp [sext, hi]; omega

theorem sext_signExtend {b c : Nat} (hb : 0 < b) (u : Bool) : (sext b u).signExtend c = sext c u := by
  cases u
  · apply BitVec.eq_of_getLsbD_eq
    intro i hi
    show ((0#b).signExtend c).getLsbD i = (0#c).getLsbD i
    rw [BitVec.getLsbD_signExtend]
    simp
  · apply BitVec.eq_of_getLsbD_eq
    intro i hi
    show ((BitVec.allOnes b).signExtend c).getLsbD i = (BitVec.allOnes c).getLsbD i
    rw [BitVec.getLsbD_signExtend, BitVec.msb_allOnes hb]
    simp only [BitVec.getLsbD_allOnes, hi]
    by_cases h : i < b <;> simp [h]

theorem sext_ne_zero {b : Nat} (hb : 0 < b) (u : Bool) : (sext b u != 0#b) = u := by
  cases u
  · simp [sext]
  · have : BitVec.allOnes b ≠ 0#b := by
      intro h
      have := congrArg (fun x => x.getLsbD 0) h
      simp [hb] at this
    simpa [sext] using this

theorem signs_sext {n b : Nat} (hb : 0 < b) (p : Fin n → Bool) : signs (fun l => sext b (p l)) = pack 32 p := by
  simp only [signs, msb_sext hb]

/-! ## Each target -/

/-- What a target has to do for lanes that are all ones or all zeros. -/
structure Right (t : Target) : Prop where
  size : t.W ≤ 64 ∧ 0 < t.B
  movmsk : ∀ p : Mask t.W, t.movmsk (fun l => sext t.B (p l)) = movmsk p
  any : ∀ p : Mask t.W, t.any (fun l => sext t.B (p l)) = true ↔ ∃ l, p l = true
  all : ∀ p : Mask t.W, t.all (fun l => sext t.B (p l)) = true ↔ ∀ l, p l = true
  non : ∀ p : Mask t.W, t.non (fun l => sext t.B (p l)) = true ↔ ∀ l, p l = false

theorem not_all_false {n : Nat} (p : Fin n → Bool) : (¬ ∀ l, p l = false) ↔ ∃ l, p l = true := by
  constructor
  · intro h
    by_contra hn
    refine h fun l => ?_
    by_contra hl
    exact hn ⟨l, by simpa using hl⟩
  · rintro ⟨l, hl⟩ h
    rw [h l] at hl; cases hl

/-- Targets whose answers all come from one integer. -/
theorem right_of_word (t : Target) (hB : 0 < t.B) (w : Nat) (h1 : t.W ≤ w) (h2 : w ≤ 64) (ones : BitVec w)
    (ho : ∀ i, i < w → ones.getLsbD i = decide (i < t.W)) (word : Lanes t.W t.B → BitVec w)
    (hw : ∀ p : Mask t.W, word (fun l => sext t.B (p l)) = pack w p)
    (hm : ∀ m, t.movmsk m = (word m).zeroExtend 64) (hany : ∀ m, t.any m = (word m != 0#w))
    (hall : ∀ m, t.all m = (word m == ones)) (hnon : ∀ m, t.non m = (word m == 0#w)) : Right t where
  size := ⟨by omega, hB⟩
  movmsk p := by rw [hm, hw, zext_pack h1 h2]
  any p := by rw [hany, hw, bne_iff_ne, ne_eq, pack_eq_zero h1, not_all_false]
  all p := by rw [hall, hw, beq_iff_eq, pack_eq_ones h1 p ones ho]
  non p := by rw [hnon, hw, beq_iff_eq, pack_eq_zero h1]

theorem right_oneSigns (W B : Nat) (hB : 0 < B) (hW : W ≤ 32) (ones : BitVec 32)
    (ho : ∀ i, i < 32 → ones.getLsbD i = decide (i < W)) : Right (oneSigns W B ones) :=
  right_of_word _ hB 32 hW (by omega) ones ho signs (fun p => signs_sext hB p) (fun _ => rfl) (fun _ => rfl) (fun _ => rfl)
    (fun _ => rfl)

theorem pack_halves {h w : Nat} (p : Fin (h + h) → Bool) :
    pack w (fun l : Fin h => p ⟨l.val, by omega⟩) ||| pack w (fun l : Fin h => p ⟨h + l.val, by omega⟩) <<< h = pack w p := by
  apply bits_ext
  intro i
  rw [BitVec.getLsbD_or, Bool.or_eq_true, pack_bit, pack_bit, BitVec.getLsbD_shiftLeft, Bool.and_eq_true, Bool.and_eq_true, pack_bit]
  simp only [decide_eq_true_eq, Bool.not_eq_true', decide_eq_false_iff_not]
  constructor
  · rintro (⟨h1, h2, h3⟩ | ⟨⟨h1, h2⟩, h3, h4, h5⟩)
    · exact ⟨h1, by omega, h3⟩
    · refine ⟨h1, by omega, ?_⟩
      have : h + (i - h) = i := by omega
      simpa only [this] using h5
  · rintro ⟨h1, h2, h3⟩
    by_cases hi : i < h
    · exact Or.inl ⟨h1, hi, h3⟩
    · refine Or.inr ⟨⟨h1, hi⟩, by omega, by omega, ?_⟩
      have : h + (i - h) = i := by omega
      simpa only [this] using h3

theorem right_doubleSigns (h : Nat) (hh : h + h ≤ 32) (ones : BitVec 32)
    (ho : ∀ i, i < 32 → ones.getLsbD i = decide (i < h + h)) : Right (doubleSigns h ones) :=
  right_of_word _ (show 0 < 32 by omega) 32 hh (by omega) ones ho (twoSigns h)
    (fun p => by
      show signs (fun l => sext 32 (p ⟨l.val, by have := l.isLt; show _ < h + h; omega⟩)) ||| signs (fun l => sext 32 (p ⟨h + l.val, by have := l.isLt; show _ < h + h; omega⟩)) <<< h = _
      rw [signs_sext (by omega), signs_sext (by omega)]
      exact pack_halves p)
    (fun _ => rfl) (fun _ => rfl) (fun _ => rfl) (fun _ => rfl)

theorem right_bits (W w : Nat) (hW : W ≤ w) (hw : w ≤ 64) (ones : BitVec w)
    (ho : ∀ i, i < w → ones.getLsbD i = decide (i < W)) : Right (bits W w ones) :=
  right_of_word _ (show 0 < 1 by omega) w hW hw ones ho (fun m => pack w fun l => (m l).getLsbD 0)
    (fun p => by
      show pack w (fun l => (sext 1 (p l)).getLsbD 0) = _
      simp only [lsb_sext (show 0 < 1 by omega)])
    (fun _ => rfl) (fun _ => rfl) (fun _ => rfl) (fun _ => rfl)

theorem right_sse4I16x8 : Right sse4I16x8 :=
  right_of_word _ (show 0 < 16 by omega) 64 (show 8 ≤ 64 by omega) (by omega) 255#64 (by decide) (fun m => sse4I16x8.movmsk m)
    (fun (p : Fin 8 → Bool) => by
      show (signs fun l : Fin 16 => if h : l.val < 8 then (sext 16 (p ⟨l.val, h⟩)).truncate 8 else 0#8).zeroExtend 64 = pack 64 p
      have e : (fun l : Fin 16 => if h : l.val < 8 then (sext 16 (p ⟨l.val, h⟩)).truncate 8 else 0#8) =
          fun l : Fin 16 => sext 8 (if h : l.val < 8 then p ⟨l.val, h⟩ else false) := by
        funext l
        split
        · rw [sext_trunc (by omega)]
        · rfl
      rw [e, signs_sext (by omega), zext_pack (by omega) (by omega), pack_64]
      apply bits_ext
      intro i
      rw [movmsk_bit _ (by omega), movmsk_bit p (by omega)]
      constructor
      · rintro ⟨h1, h2⟩
        split at h2
        · next h => exact ⟨h, h2⟩
        · cases h2
      · rintro ⟨h1, h2⟩
        have h1' : i < 8 := h1
        exact ⟨by omega, by simpa [h1'] using h2⟩)
    (fun _ => by simp) (fun _ => rfl) (fun _ => rfl) (fun _ => rfl)

theorem right_avx2I16x16 : Right avx2I16x16 :=
  right_of_word _ (show 0 < 16 by omega) 16 (show 16 ≤ 16 by omega) (by omega) (BitVec.allOnes 16) (by decide)
    (fun m => (signs fun l => (m l).truncate 8).truncate 16)
    (fun (p : Fin 16 → Bool) => by
      show (signs fun l => (sext 16 (p l)).truncate 8).truncate 16 = pack 16 p
      have e : (fun l : Fin 16 => (sext 16 (p l)).truncate 8) = fun l => sext 8 (p l) := by
        funext l; rw [sext_trunc (by omega)]
      rw [e, signs_sext (by omega), trunc_pack _ (by omega)])
    (fun _ => rfl) (fun _ => rfl) (fun _ => rfl) (fun _ => rfl)

theorem right_generic (W B : Nat) (hW : W ≤ 64) (hB : 0 < B) : Right (generic W B) :=
  right_of_word _ hB 64 hW (by omega) (BitVec.allOnes 64 >>> (64 - W)) (fun i _ => allMask_bit hW i) packmask
    (fun p => by
      show (pack W fun l => (sext B (p l)).getLsbD 0).zeroExtend 64 = _
      simp only [lsb_sext hB]
      rw [pack_64]; exact zext_pack (Nat.le_refl W) hW p)
    (fun m => by simp [generic]) (fun _ => rfl) (fun _ => rfl) (fun _ => rfl)

theorem right_xe (W : Nat) (hW : W ≤ 64) : Right (xe W) where
  size := ⟨hW, show 0 < 1 by omega⟩
  movmsk p := by
    show (pack W fun l => (sext 1 (p l)).getLsbD 0).zeroExtend 64 = _
    simp only [lsb_sext (show 0 < 1 by omega)]
    exact zext_pack (Nat.le_refl W) hW p
  any p := by
    show ((List.finRange W).any fun l => (sext 1 (p l)).getLsbD 0) = true ↔ _
    simp only [lsb_sext (show 0 < 1 by omega), List.any_eq_true, List.mem_finRange, true_and]
    rfl
  all p := by
    show ((List.finRange W).all fun l => (sext 1 (p l)).getLsbD 0) = true ↔ _
    simp only [lsb_sext (show 0 < 1 by omega), List.all_eq_true, List.mem_finRange, true_imp_iff]
    rfl
  non p := by
    show (((List.finRange W).any fun l => (sext 1 (p l)).getLsbD 0) == false) = true ↔ _
    simp only [lsb_sext (show 0 < 1 by omega), beq_iff_eq, List.any_eq_false, List.mem_finRange, true_imp_iff, Bool.not_eq_true]
    rfl

theorem vec4 {α : Type} (p : Fin 4 → α) : p = ![p 0, p 1, p 2, p 3] := by
  funext l
  match l with
  | 0 => rfl
  | 1 => rfl
  | 2 => rfl
  | 3 => rfl

theorem vec8 {α : Type} (p : Fin 8 → α) : p = ![p 0, p 1, p 2, p 3, p 4, p 5, p 6, p 7] := by
  funext l
  match l with
  | 0 => rfl
  | 1 => rfl
  | 2 => rfl
  | 3 => rfl
  | 4 => rfl
  | 5 => rfl
  | 6 => rfl
  | 7 => rfl

theorem right_neonI32x4 : Right neonI32x4 where
  size := ⟨show 4 ≤ 64 by omega, show 0 < 32 by omega⟩
  movmsk p := by
    have : ∀ a b c d, neonI32x4.movmsk (fun l => sext 32 ((![a, b, c, d] : Fin 4 → Bool) l)) = movmsk (![a, b, c, d] : Fin 4 → Bool) := by
      decide +kernel
    rw [vec4 p]; exact this _ _ _ _
  any p := by
    have : ∀ a b c d, neonI32x4.any (fun l => sext 32 ((![a, b, c, d] : Fin 4 → Bool) l)) = true ↔
        ∃ l, (![a, b, c, d] : Fin 4 → Bool) l = true := by decide +kernel
    rw [vec4 p]; exact this _ _ _ _
  all p := by
    have : ∀ a b c d, neonI32x4.all (fun l => sext 32 ((![a, b, c, d] : Fin 4 → Bool) l)) = true ↔
        ∀ l, (![a, b, c, d] : Fin 4 → Bool) l = true := by decide +kernel
    rw [vec4 p]; exact this _ _ _ _
  non p := by
    have : ∀ a b c d, neonI32x4.non (fun l => sext 32 ((![a, b, c, d] : Fin 4 → Bool) l)) = true ↔
        ∀ l, (![a, b, c, d] : Fin 4 → Bool) l = false := by decide +kernel
    rw [vec4 p]; exact this _ _ _ _

theorem right_wasmI32x4 : Right wasmI32x4 where
  size := ⟨show 4 ≤ 64 by omega, show 0 < 32 by omega⟩
  movmsk p := by
    have : ∀ a b c d, wasmI32x4.movmsk (fun l => sext 32 ((![a, b, c, d] : Fin 4 → Bool) l)) = movmsk (![a, b, c, d] : Fin 4 → Bool) := by
      decide +kernel
    rw [vec4 p]; exact this _ _ _ _
  any p := by
    have : ∀ a b c d, wasmI32x4.any (fun l => sext 32 ((![a, b, c, d] : Fin 4 → Bool) l)) = true ↔
        ∃ l, (![a, b, c, d] : Fin 4 → Bool) l = true := by decide +kernel
    rw [vec4 p]; exact this _ _ _ _
  all p := by
    have : ∀ a b c d, wasmI32x4.all (fun l => sext 32 ((![a, b, c, d] : Fin 4 → Bool) l)) = true ↔
        ∀ l, (![a, b, c, d] : Fin 4 → Bool) l = true := by decide +kernel
    rw [vec4 p]; exact this _ _ _ _
  non p := by
    have : ∀ a b c d, wasmI32x4.non (fun l => sext 32 ((![a, b, c, d] : Fin 4 → Bool) l)) = true ↔
        ∀ l, (![a, b, c, d] : Fin 4 → Bool) l = false := by decide +kernel
    rw [vec4 p]; exact this _ _ _ _

theorem right_neonI32x8 : Right neonI32x8 where
  size := ⟨show 8 ≤ 64 by omega, show 0 < 32 by omega⟩
  movmsk p := by
    have : ∀ a b c d e f g h, neonI32x8.movmsk (fun l => sext 32 ((![a, b, c, d, e, f, g, h] : Fin 8 → Bool) l)) =
        movmsk (![a, b, c, d, e, f, g, h] : Fin 8 → Bool) := by decide +kernel
    rw [vec8 p]; exact this _ _ _ _ _ _ _ _
  any p := by
    have : ∀ a b c d e f g h, neonI32x8.any (fun l => sext 32 ((![a, b, c, d, e, f, g, h] : Fin 8 → Bool) l)) = true ↔
        ∃ l, (![a, b, c, d, e, f, g, h] : Fin 8 → Bool) l = true := by decide +kernel
    rw [vec8 p]; exact this _ _ _ _ _ _ _ _
  all p := by
    have : ∀ a b c d e f g h, neonI32x8.all (fun l => sext 32 ((![a, b, c, d, e, f, g, h] : Fin 8 → Bool) l)) = true ↔
        ∀ l, (![a, b, c, d, e, f, g, h] : Fin 8 → Bool) l = true := by decide +kernel
    rw [vec8 p]; exact this _ _ _ _ _ _ _ _
  non p := by
    have : ∀ a b c d e f g h, neonI32x8.non (fun l => sext 32 ((![a, b, c, d, e, f, g, h] : Fin 8 → Bool) l)) = true ↔
        ∀ l, (![a, b, c, d, e, f, g, h] : Fin 8 → Bool) l = false := by decide +kernel
    rw [vec8 p]; exact this _ _ _ _ _ _ _ _

theorem right_neonI16x8 : Right neonI16x8 where
  size := ⟨show 8 ≤ 64 by omega, show 0 < 16 by omega⟩
  movmsk p := by
    have : ∀ a b c d e f g h, neonI16x8.movmsk (fun l => sext 16 ((![a, b, c, d, e, f, g, h] : Fin 8 → Bool) l)) =
        movmsk (![a, b, c, d, e, f, g, h] : Fin 8 → Bool) := by decide +kernel
    rw [vec8 p]; exact this _ _ _ _ _ _ _ _
  any p := by
    have : ∀ a b c d e f g h, neonI16x8.any (fun l => sext 16 ((![a, b, c, d, e, f, g, h] : Fin 8 → Bool) l)) = true ↔
        ∃ l, (![a, b, c, d, e, f, g, h] : Fin 8 → Bool) l = true := by decide +kernel
    rw [vec8 p]; exact this _ _ _ _ _ _ _ _
  all p := by
    have : ∀ a b c d e f g h, neonI16x8.all (fun l => sext 16 ((![a, b, c, d, e, f, g, h] : Fin 8 → Bool) l)) = true ↔
        ∀ l, (![a, b, c, d, e, f, g, h] : Fin 8 → Bool) l = true := by decide +kernel
    rw [vec8 p]; exact this _ _ _ _ _ _ _ _
  non p := by
    have : ∀ a b c d e f g h, neonI16x8.non (fun l => sext 16 ((![a, b, c, d, e, f, g, h] : Fin 8 → Bool) l)) = true ↔
        ∀ l, (![a, b, c, d, e, f, g, h] : Fin 8 → Bool) l = false := by decide +kernel
    rw [vec8 p]; exact this _ _ _ _ _ _ _ _

/-- The sums of neon-i8x16 for eight lanes. -/
def sum8 (m : Lanes 8 8) : BitVec 64 :=
  let c : Lanes 8 8 := ![1#8, 2#8, 4#8, 8#8, 16#8, 32#8, 64#8, 128#8]
  let v4 : Lanes 4 16 := paddl (n := 4) (b := 8) fun l => m l &&& c l
  let v2 : Lanes 2 32 := paddl (n := 2) (b := 16) v4
  paddl (n := 1) (b := 32) v2 0

theorem sum8_pack (p : Fin 8 → Bool) : sum8 (fun l => sext 8 (p l)) = pack 64 p := by
  have : ∀ a b c d e f g h, sum8 (fun l => sext 8 ((![a, b, c, d, e, f, g, h] : Fin 8 → Bool) l)) =
      pack 64 (![a, b, c, d, e, f, g, h] : Fin 8 → Bool) := by decide +kernel
  rw [vec8 p]; exact this _ _ _ _ _ _ _ _

theorem neonI8x16_movmsk (m : Lanes 16 8) : neonI8x16.movmsk m = sum8 (lo 8 m) ||| sum8 (hi 8 m) <<< 8 := rfl

theorem right_neonI8x16 : Right neonI8x16 where
  size := ⟨show 16 ≤ 64 by omega, show 0 < 8 by omega⟩
  movmsk p := by
    refine (neonI8x16_movmsk _).trans ?_
    show sum8 (fun l => sext 8 (p ⟨l.val, by have := l.isLt; show _ < 16; omega⟩)) ||| sum8 (fun l => sext 8 (p ⟨8 + l.val, by have := l.isLt; show _ < 16; omega⟩)) <<< 8 = _
    rw [sum8_pack, sum8_pack]
    exact pack_halves (h := 8) p
  any (p : Fin 16 → Bool) := by
    show _ ↔ ∃ l : Fin 16, p l = true
    simp only [neonI8x16, lo, hi, sext_or, sext_signExtend (show 0 < 8 by omega), sext_signExtend (show 0 < 16 by omega),
      sext_ne_zero (show 0 < 32 by omega)]
    simp [Fin.exists_fin_succ]
    grind
  all (p : Fin 16 → Bool) := by
    show _ ↔ ∀ l : Fin 16, p l = true
    simp only [neonI8x16, lo, hi, sext_and, sext_signExtend (show 0 < 8 by omega), sext_signExtend (show 0 < 16 by omega),
      sext_ne_zero (show 0 < 32 by omega)]
    simp [Fin.forall_fin_succ]
    grind
  non (p : Fin 16 → Bool) := by
    show _ ↔ ∀ l : Fin 16, p l = false
    simp only [neonI8x16, lo, hi, sext_or, sext_signExtend (show 0 < 8 by omega), sext_signExtend (show 0 < 16 by omega),
      sext_ne_zero (show 0 < 32 by omega)]
    simp [Fin.forall_fin_succ]
    grind

theorem right : ∀ n, Supported n → Right (target n)
  | .sse2I32x4, _  => right_oneSigns 4 32 (by omega) (by omega) _ (by decide)
  | .sse2I32x8, _  => right_doubleSigns 4 (by omega) _ (by decide)
  | .sse4I32x4, _  => right_oneSigns 4 32 (by omega) (by omega) _ (by decide)
  | .sse4I32x8, _  => right_doubleSigns 4 (by omega) _ (by decide)
  | .sse4I16x8, _  => right_sse4I16x8
  | .sse4I8x16, _  => right_oneSigns 16 8 (by omega) (by omega) _ (by decide)
  | .avx1I32x8, _  => right_oneSigns 8 32 (by omega) (by omega) _ (by decide)
  | .avx1I32x16, _ => right_doubleSigns 8 (by omega) _ (by decide)
  | .avx1I64x4, _  => right_oneSigns 4 64 (by omega) (by omega) _ (by decide)
  | .avx2I16x16, _ => right_avx2I16x16
  | .avx2I8x32, _  => right_oneSigns 32 8 (by omega) (by omega) _ (by decide)
  | .avx512X4, _   => right_bits 4 8 (by omega) (by omega) _ (by decide)
  | .avx512X8, _   => right_bits 8 8 (by omega) (by omega) _ (by decide)
  | .avx512X16, _  => right_bits 16 16 (by omega) (by omega) _ (by decide)
  | .avx512X32, _  => right_bits 32 32 (by omega) (by omega) _ (by decide)
  | .avx512X64, _  => right_bits 64 64 (by omega) (by omega) _ (by decide)
  | .neonI32x4, _  => right_neonI32x4
  | .neonI32x8, _  => right_neonI32x8
  | .neonI16x8, _  => right_neonI16x8
  | .neonI8x16, _  => right_neonI8x16
  | .wasmI32x4, _  => right_wasmI32x4
  | .xe W, h       => right_xe W h
  | .generic W B, h => right_generic W B h.1 h.2

/-! ## Theorems -/

theorem sext_on {n b : Nat} {m : Lanes n b} (hm : Wf m) : m = fun l => sext b (decide (On m l)) := by
  funext l
  by_cases h : m l = 0#b
  · simp [On, h, sext]
  · have h2 := (hm l).resolve_left h
    have : decide (On m l) = true := decide_eq_true (show On m l from h)
    rw [this]; exact h2

/-- A lane that is all ones or zeros, as it is used for the mask. -/
theorem on_sext {n b : Nat} (hb : 0 < b) (p : Fin n → Bool) (l : Fin n) : On (fun l => sext b (p l)) l ↔ p l = true := by
  have := sext_ne_zero hb (p l)
  unfold On
  rw [← bne_iff_ne, this]

/-- C81: on every target, bit `i` of `__movmsk` is whether instance `i` is on, and `__any`, `__all` and `__none` say whether some instance is on,
all are on and none is on. -/
theorem queries (n : Name) (hn : Supported n) (m : Lanes (target n).W (target n).B) (hm : Wf m) :
    (∀ i, ((target n).movmsk m).getLsbD i = true ↔ ∃ h : i < (target n).W, On m ⟨i, h⟩) ∧
      ((target n).any m = true ↔ ∃ l, On m l) ∧ ((target n).all m = true ↔ ∀ l, On m l) ∧
      ((target n).non m = true ↔ ¬ ∃ l, On m l) := by
  have r := right n hn
  have e := sext_on hm
  refine ⟨fun i => ?_, ?_, ?_, ?_⟩
  · conv_lhs => rw [e]
    rw [r.movmsk, movmsk_bit _ r.size.1]
    simp
  · conv_lhs => rw [e]
    rw [r.any]; simp
  · conv_lhs => rw [e]
    rw [r.all]; simp
  · conv_lhs => rw [e]
    rw [r.non]; simp

example : Supported .neonI8x16 ∧ Wf (n := 16) (b := 8) (fun l => sext 8 (l.val % 3 == 1)) ∧
    (target .neonI8x16).movmsk (fun l => sext 8 (l.val % 3 == 1)) = 0x2492#64 := by
  refine ⟨trivial, ?_, by decide +kernel⟩
  intro l
  show sext 8 _ = 0#8 ∨ sext 8 _ = BitVec.allOnes 8
  unfold sext
  split
  · exact Or.inr rfl
  · exact Or.inl rfl

/-- C81: two targets with the same gang size give the same answers. -/
theorem same_answers (n n' : Name) (hn : Supported n) (hn' : Supported n') (hW : (target n).W = (target n').W)
    (m : Lanes (target n).W (target n).B) (m' : Lanes (target n').W (target n').B) (hm : Wf m) (hm' : Wf m')
    (h : ∀ l, On m l ↔ On m' (Fin.cast hW l)) :
    (target n).movmsk m = (target n').movmsk m' ∧ (target n).any m = (target n').any m' ∧
      (target n).all m = (target n').all m' ∧ (target n).non m = (target n').non m' := by
  have q := queries n hn m hm
  have q' := queries n' hn' m' hm'
  have hex : (∃ l, On m l) ↔ ∃ l, On m' l :=
    ⟨fun ⟨l, hl⟩ => ⟨_, (h l).1 hl⟩, fun ⟨l, hl⟩ => ⟨Fin.cast hW.symm l, (h _).2 hl⟩⟩
  refine ⟨bits_ext fun i => ?_, ?_, ?_, ?_⟩
  · rw [q.1, q'.1]
    constructor
    · rintro ⟨h1, h2⟩; exact ⟨by omega, (h _).1 h2⟩
    · rintro ⟨h1, h2⟩; exact ⟨by omega, (h _).2 h2⟩
  · rw [Bool.eq_iff_iff, q.2.1, q'.2.1, hex]
  · rw [Bool.eq_iff_iff, q.2.2.1, q'.2.2.1]
    exact ⟨fun hl l => (h (Fin.cast hW.symm l)).1 (hl _), fun hl l => (h l).2 (hl _)⟩
  · rw [Bool.eq_iff_iff, q.2.2.2, q'.2.2.2, hex]

example : (target .neonI8x16).W = (target .avx512X16).W ∧ (target .avx512X16).W = (target (.generic 16 1)).W := ⟨rfl, rfl⟩

theorem masked_lanes {n b : Nat} {m : Lanes n b} (hm : Wf m) (v : Mask n) :
    (fun l => sext b (v l) &&& m l) = fun l => sext b (v l && decide (On m l)) := by
  funext l
  conv_lhs => rw [sext_on hm]
  rw [sext_and]

/-- C81: `any`, `all`, `none`, `popcnt`, `lanemask` and `packmask` take exactly the executing instances into account, on every target. -/
theorem stdlib_queries (n : Name) (hn : Supported n) (v : Mask (target n).W) (mask : Lanes (target n).W (target n).B) (hm : Wf mask) :
    (anyOf (target n) v mask = true ↔ ∃ l, On mask l ∧ v l = true) ∧
      (allOf (target n) v mask = true ↔ ∀ l, On mask l → v l = true) ∧
      (noneOf (target n) v mask = true ↔ ∀ l, On mask l → v l = false) ∧
      (popcntOf (target n) v mask).toNat = (Finset.univ.filter fun l => On mask l ∧ v l = true).card ∧
      (∀ i, (lanemask (target n) mask).getLsbD i = true ↔ ∃ h : i < (target n).W, On mask ⟨i, h⟩) ∧
      (∀ i, (packmaskOf (target n) v mask).getLsbD i = true ↔
        ∃ h : i < (target n).W, On mask ⟨i, h⟩ ∧ v ⟨i, h⟩ = true) := by
  have r := right n hn
  refine ⟨?_, ?_, ?_, ?_, (queries n hn mask hm).1, fun i => ?_⟩
  · unfold anyOf
    rw [masked_lanes hm, r.any]
    simp [and_comm]
  · unfold allOf
    have e : (fun l => sext (target n).B (v l) ||| sext (target n).B (mask l == 0#(target n).B)) =
        fun l => sext (target n).B (v l || mask l == 0#(target n).B) := by
      funext l; rw [sext_or]
    rw [e, r.all]
    refine forall_congr' fun l => ?_
    unfold On
    by_cases h : mask l = 0#(target n).B <;> simp [h]
  · unfold noneOf
    rw [masked_lanes hm, r.non]
    refine forall_congr' fun l => ?_
    by_cases h : On mask l <;> simp [h]
  · unfold popcntOf
    rw [masked_lanes hm, r.movmsk]
    have := Ispc.Scan.popcntBool_eq r.size.1 v (fun l => decide (On mask l))
    unfold Ispc.Scan.popcntBool at this
    rw [this]
    congr 1
    ext l
    simp
  · unfold packmaskOf
    rw [masked_lanes hm, r.movmsk, movmsk_bit _ r.size.1]
    simp [and_comm]

example : anyOf (target .sse2I32x8) (fun l => l.val == 5) (fun l => sext 32 (l.val != 5)) = false ∧
    allOf (target .wasmI32x4) (fun l => l.val == 2) (fun l => sext 32 (l.val == 2)) = true ∧
    popcntOf (target .neonI16x8) (fun l => l.val != 3) (fun l => sext 16 (l.val < 6)) = 5#32 := by decide +kernel

theorem failsVarying_iff (n : Name) (hn : Supported n) (test mask : Lanes (target n).W (target n).B) (ht : Wf test) (hm : Wf mask) :
    failsVarying (target n) test mask = true ↔ ∃ l, On mask l ∧ ¬ On test l := by
  have r := right n hn
  unfold failsVarying
  have e : (fun l => (test l ^^^ BitVec.allOnes (target n).B) &&& mask l) =
      fun l => sext (target n).B (!decide (On test l) && decide (On mask l)) := by
    funext l
    conv_lhs => rw [sext_on hm, sext_on ht]
    rw [sext_xor, sext_and]
  rw [e, r.movmsk, bne_iff_ne, ne_eq, movmsk_eq_zero r.size.1, not_all_false]
  simp [and_comm]

theorem failsGeneric_iff (W B : Nat) (hW : W ≤ 64) (hB : 0 < B) (test mask : Lanes W B) (ht : Wf test) (hm : Wf mask) :
    failsGeneric W B test mask = true ↔ ∃ l, On mask l ∧ ¬ On test l := by
  show (packmask (fun l => (test l ^^^ 1#B) &&& mask l) != 0#64) = true ↔ _
  have e : packmask (fun l => (test l ^^^ 1#B) &&& mask l) = movmsk fun l => !decide (On test l) && decide (On mask l) := by
    unfold packmask
    have : (fun l => ((test l ^^^ 1#B) &&& mask l).getLsbD 0) = fun l => !decide (On test l) && decide (On mask l) := by
      funext l
      conv_lhs => rw [sext_on hm, sext_on ht]
      rw [BitVec.getLsbD_and, BitVec.getLsbD_xor, lsb_sext hB, lsb_sext hB, BitVec.getLsbD_one]
      simp [hB]
    rw [this]
    exact zext_pack (Nat.le_refl W) hW _
  rw [e, bne_iff_ne, ne_eq, movmsk_eq_zero hW, not_all_false]
  simp [and_comm]

/-- C81: an assertion with a varying condition is triggered exactly if the condition is false for an executing instance, on every target. -/
theorem assert_varying (n : Name) (hn : Supported n) (test mask : Lanes (target n).W (target n).B) (ht : Wf test) (hm : Wf mask) :
    (runAssert (target n) (fails n) false (.varying test) mask).2 = .abort ↔ ∃ l, On mask l ∧ ¬ On test l := by
  have h : fails n test mask = true ↔ ∃ l, On mask l ∧ ¬ On test l := by
    cases n with
    | generic W B => exact failsGeneric_iff W B hn.1 hn.2 test mask ht hm
    | xe W => exact failsVarying_iff (.xe W) hn test mask ht hm
    | _ => exact failsVarying_iff _ hn test mask ht hm
  rw [← h]
  show (if fails n test mask = true then Outcome.abort else .next) = .abort ↔ _
  by_cases hf : fails n test mask = true
  · simp [hf]
  · simp [hf]

example : (runAssert (target .sse4I16x8) (fails .sse4I16x8) false (.varying fun l => sext 16 (l.val == 3)) (fun l => sext 16 (l.val == 3))).2 = .next ∧
    (runAssert (target (.generic 8 16)) (fails (.generic 8 16)) false (.varying fun l => sext 16 (l.val == 3)) (fun l => sext 16 (l.val == 4))).2 = .abort := by
  decide +kernel

/-- C81, an assertion with a uniform condition, while some instance is executing: it is triggered exactly if the condition is false.  The full
property has no hypothesis about the mask; see `assert_uniform_wrong`. -/
theorem assert_uniform_partial (n : Name) (b : Bool) (mask : Lanes (target n).W (target n).B) (h : ∃ l, On mask l) :
    (runAssert (target n) (fails n) false (.uniform b) mask).2 = .abort ↔ ∃ l, On mask l ∧ b = false := by
  obtain ⟨l, hl⟩ := h
  cases b
  · exact ⟨fun _ => ⟨l, hl, rfl⟩, fun _ => rfl⟩
  · constructor
    · intro h; cases h
    · rintro ⟨_, _, h⟩; cases h

example : ∃ l, On (n := 4) (b := 32) (fun l => sext 32 (l.val == 2)) l := ⟨2, by decide⟩

/-- C81: with assertions on, an assertion never makes the behaviour undefined, and a condition that is true for all executing instances does
nothing. -/
theorem assert_enabled (n : Name) (hn : Supported n) (c : Cond (target n)) (mask : Lanes (target n).W (target n).B) (hm : Wf mask)
    (hc : match c with | .uniform b => b = true | .varying test => Wf test ∧ ∀ l, On mask l → On test l) :
    runAssert (target n) (fails n) false c mask = (true, .next) := by
  cases c with
  | uniform b => simp only at hc; subst hc; rfl
  | varying test =>
    simp only at hc
    have := (assert_varying n hn test mask hc.1 hm).not.2 (by rintro ⟨l, h1, h2⟩; exact h2 (hc.2 l h1))
    show (true, if fails n test mask = true then Outcome.abort else .next) = _
    have h2 : (if fails n test mask = true then Outcome.abort else .next) ≠ .abort := this
    by_cases hf : fails n test mask = true
    · simp [hf] at h2
    · simp [hf]

/-- C81 does not hold: an assertion with a uniform condition is triggered although no instance is executing. -/
theorem assert_uniform_wrong (n : Name) :
    ∃ mask : Lanes (target n).W (target n).B, (∀ l, ¬ On mask l) ∧
      (runAssert (target n) (fails n) false (.uniform false) mask).2 = .abort :=
  ⟨fun _ => 0#_, fun _ h => h rfl, rfl⟩

/-- C81 does not hold: with `--opt=disable-assertions`, the behaviour of a false uniform condition is undefined, whether or not instances are
executing, and its side effects remain, while a varying condition is not evaluated. -/
theorem disabled_assert_wrong (n : Name) (mask test : Lanes (target n).W (target n).B) :
    runAssert (target n) (fails n) true (.uniform false) mask = (true, .undefined) ∧
      runAssert (target n) (fails n) true (.varying test) mask = (false, .next) := ⟨rfl, rfl⟩

/-- C81: disabled assertions with a varying condition do nothing, and so do those with a uniform condition that is true. -/
theorem disabled_assert_partial (n : Name) (c : Cond (target n)) (mask : Lanes (target n).W (target n).B)
    (hc : c ≠ .uniform false) : (runAssert (target n) (fails n) true c mask).2 = .next := by
  cases c with
  | uniform b =>
    cases b
    · exact absurd rfl hc
    · rfl
  | varying test => rfl

example : (Cond.varying (fun _ => 0#32) : Cond (target .sse4I32x4)) ≠ .uniform false := by intro h; cases h

/-- The hypothesis about the lanes is needed: for lanes with only some bits set the targets disagree.  Such lanes exist, as `+=` for varying
`bool`s adds lanes. -/
theorem other_lanes_wrong :
    (target .sse4I32x4).any (fun _ => -2#32) = true ∧ (target (.generic 4 32)).any (fun _ => -2#32) = false := by
  decide +kernel

end Ispc.MaskBits
