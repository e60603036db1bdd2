import Verif.Builtins.Vec
import Verif.Builtins.RotTables
import Mathlib.Data.Int.ModEq

/-!
# broadcast, rotate, shift and shuffle (C16)

`builtins/generic.ispc:1006-1189`, `builtins/util.m4:2186-2332` and the wrappers and shuffle-based versions in
`stdlib/stdlib.ispc:72-669`.  All of them are `unmasked`: the mask plays no role and inactive lanes take part.

Two kinds of undefined results are distinguished.  A lane that `extractelement` reads outside the vector is poison: the
lane is `none`, and a `select` that does not choose it drops it.  A load outside an array is undefined behaviour: the
whole result is `none`.
-/

namespace Ispc.Perm

open Ispc.Vec

variable {W : Nat} {α : Type}

/-! ## Model -/

/-- `extractelement v, i32 i`: the index is read as unsigned. -/
def extractU (v : Vec W α) (i : BitVec 32) : Option α := extract v i.toNat

/-- `__broadcast` (generic.ispc:1006; util.m4:2265-2272). -/
def broadcast (v : Vec W α) (i : BitVec 32) : Vec W (Option α) := fun _ => extractU v i

/-- `TARGET_WIDTH - 1` as an `int32`. -/
def widthMask (W : Nat) : BitVec 32 := BitVec.ofNat 32 W - 1#32

/-- `__concat(a, b)` (generic.ispc:98-108): an array of `2 * W` elements; `none` outside it. -/
def concat (a b : Vec W α) (i : Int) : Option α :=
  if i < 0 then none
  else if h : i.toNat < W then some (a ⟨i.toNat, h⟩)
  else if h : i.toNat - W < W then some (b ⟨i.toNat - W, h⟩)
  else none

/-- Load a gang of `W` consecutive elements starting at `start`; undefined if any of them is outside the array. -/
def loadGang (arr : Int → Option α) (start : Int) : Option (Vec W α) :=
  if h : ∀ l : Fin W, (arr (start + l.val)).isSome = true then some fun l => (arr (start + l.val)).get (h l) else none

/-- `__rotate` (generic.ispc:1057-1062; util.m4:2291-2306, the not-constant path). -/
def rotate (v : Vec W α) (i : BitVec 32) : Option (Vec W α) :=
  loadGang (concat v v) (i &&& widthMask W).toInt

/-- `__rotate` of util.m4:2279-2289, for a compile-time constant offset. -/
def rotateConst (v : Vec W α) (i : BitVec 32) : Vec W (Option α) := fun l =>
  extractU v ((i + BitVec.ofNat 32 l.val) &&& widthMask W)

/-- The array `{0, v, 0}` of `__shift` (generic.ispc:1073; util.m4:2311-2317). -/
def triple (zero : α) (v : Vec W α) (i : Int) : Option α :=
  if i < 0 then none
  else if i.toNat < W then some zero
  else if h : i.toNat - W < W then some (v ⟨i.toNat - W, h⟩)
  else if i.toNat < 3 * W then some zero
  else none

/-- `__shift` (generic.ispc:1072-1078; util.m4:2309-2326). -/
def shift (zero : α) (v : Vec W α) (i : BitVec 32) : Option (Vec W α) :=
  loadGang (triple zero v) (i + BitVec.ofNat 32 W).toInt

/-- `__shuffle` (generic.ispc:1143-1150; util.m4:2186-2198). -/
def shuffle (zero : α) (v : Vec W α) (perm : Vec W (BitVec 32)) : Option (Vec W (Option α)) :=
  forLoop (fun i (result : Vec W (Option α)) => do
    let p ← extract perm i
    insert result i (extractU v p)) 0 W fun _ => some zero

/-- `__shuffle2` (generic.ispc:1164-1172; util.m4:2203-2259, both paths). -/
def shuffle2 (zero : α) (v0 v1 : Vec W α) (perm : Vec W (BitVec 32)) : Option (Vec W (Option α)) :=
  forLoop (fun i (result : Vec W (Option α)) => do
    let p ← extract perm i
    insert result i (concat v0 v1 p.toInt)) 0 W fun _ => some zero

/-- The rotation table of `__rotate_via_shuffle` for the gang sizes that have one (stdlib.ispc:102-401). -/
def masks : Nat → Option (List (List Nat))
  | 4 => some masks4
  | 8 => some masks8
  | 16 => some masks16
  | 32 => some masks32
  | 64 => some masks64
  | _ => none

/-- `__rotate_via_shuffle` (stdlib.ispc:100-405). -/
def rotateViaShuffle (zero : α) (v : Vec W α) (i : BitVec 32) : Option (Vec W (Option α)) := do
  let tab ← masks W
  let row ← tab[(i &&& widthMask W).toNat]?
  shuffle zero v fun l => BitVec.ofNat 32 (row.getD l.val 0)

/-- `__shift_via_shuffle` (stdlib.ispc:495-507). -/
def shiftViaShuffle (zero : α) (v : Vec W α) (i : BitVec 32) : Option (Vec W (Option α)) := do
  let sourceIndex : Vec W (BitVec 32) := fun l => BitVec.ofNat 32 l.val + i
  let shuffled ← shuffle zero v sourceIndex
  let inBounds : Vec W Bool := fun l =>
    BitVec.sle 0#32 (sourceIndex l) && BitVec.slt (sourceIndex l) (BitVec.ofNat 32 W)
  some fun l => if inBounds l then shuffled l else some zero

/-! ## Specification -/

/-- The value of the neighbour `k` steps away on the ring of `W` instances. -/
def ringNeighbour (v : Vec W α) (k : Int) (l : Fin W) : α :=
  v ⟨((l.val + k) % W).toNat, by
    have hW : (0 : Int) < W := by have := l.isLt; omega
    have h1 := Int.emod_nonneg (l.val + k) (Int.ne_of_gt hW)
    have h2 := Int.emod_lt_of_pos (l.val + k) hW
    omega⟩

/-- The value of the neighbour `k` steps away on the line of `W` instances, zero if there is none. -/
def lineNeighbour (zero : α) (v : Vec W α) (k : Int) (l : Fin W) : α :=
  if h : 0 ≤ (l.val : Int) + k ∧ (l.val : Int) + k < W then v ⟨((l.val : Int) + k).toNat, by omega⟩ else zero

/-! ## Proofs -/

theorem and_widthMask {k : Nat} (hk : k < 32) (i : BitVec 32) : (i &&& widthMask (2 ^ k)).toNat = i.toNat % 2 ^ k := by
  have hlt : 2 ^ k < 2 ^ 32 := Nat.pow_lt_pow_right (by omega) hk
  have hpos : 0 < 2 ^ k := Nat.two_pow_pos k
  have : (widthMask (2 ^ k)).toNat = 2 ^ k - 1 := by
    unfold widthMask
    have e : (1#32).toNat = 1 := rfl
    rw [BitVec.toNat_sub, BitVec.toNat_ofNat (x := 2 ^ k), Nat.mod_eq_of_lt hlt, e]
    rw [show 2 ^ 32 - 1 + 2 ^ k = (2 ^ k - 1) + 2 ^ 32 by omega, Nat.add_mod_right]
    exact Nat.mod_eq_of_lt (by omega)
  rw [BitVec.toNat_and, this, Nat.and_two_pow_sub_one_eq_mod]

/-- An `int32` and its unsigned reading agree modulo every power of two below `2^32`. -/
theorem toInt_emod {k : Nat} (hk : k < 32) (i : BitVec 32) : i.toInt % (2 ^ k : Nat) = ((i.toNat % 2 ^ k : Nat) : Int) := by
  have hdvd : ((2 ^ k : Nat) : Int) ∣ (2 : Int) ^ 32 := by
    rw [Nat.cast_pow]; exact pow_dvd_pow 2 (Nat.le_of_lt hk)
  rw [BitVec.toInt_eq_toNat_cond, Int.natCast_emod]
  split
  · rfl
  · obtain ⟨c, hc⟩ := hdvd
    rw [show ((2 ^ 32 : Nat) : Int) = (2 ^ k : Nat) * c from hc, Int.sub_mul_emod_self_left]

theorem ring_index {k : Nat} (hk : k < 32) (i : BitVec 32) (l : Nat) :
    (((l : Int) + i.toInt) % (2 ^ k : Nat)).toNat = (l + i.toNat % 2 ^ k) % 2 ^ k := by
  rw [Int.add_emod, toInt_emod hk, ← Int.natCast_emod, ← Int.natCast_add, ← Int.natCast_emod, Int.toNat_natCast]
  rw [Nat.add_mod, Nat.mod_mod, Nat.mod_mod, ← Nat.add_mod, Nat.add_mod_mod]

theorem loadGang_eq {arr : Int → Option α} {start : Int} {f : Vec W α} (h : ∀ l : Fin W, arr (start + l.val) = some (f l)) :
    loadGang arr start = some f := by
  unfold loadGang
  rw [dif_pos (fun l => by rw [h l]; rfl)]
  congr 1
  funext l
  exact Option.get_of_eq_some _ (h l)

/-- C16: `rotate` for every offset, negative and larger than the gang included. -/
theorem rotate_spec {k : Nat} (hk : k < 31) (v : Vec (2 ^ k) α) (i : BitVec 32) :
    rotate v i = some (ringNeighbour v i.toInt) := by
  have hlt : 2 ^ k < 2 ^ 31 := Nat.pow_lt_pow_right (by omega) hk
  have hs := and_widthMask (by omega : k < 32) i
  have hm : i.toNat % 2 ^ k < 2 ^ k := Nat.mod_lt _ (Nat.two_pow_pos k)
  have hst : (i &&& widthMask (2 ^ k)).toInt = ((i.toNat % 2 ^ k : Nat) : Int) := by
    rw [BitVec.toInt_eq_toNat_cond, hs, if_pos (by omega)]
  unfold rotate
  rw [hst]
  refine loadGang_eq fun l => ?_
  have hl := l.isLt
  have hidx := ring_index (by omega : k < 32) i l.val
  unfold concat ringNeighbour
  clear hst hs
  generalize i.toNat % 2 ^ k = r at *
  have ht : ((r : Int) + l.val).toNat = r + l.val := by omega
  rw [if_neg (by omega)]
  simp only [ht]
  by_cases h : r + l.val < 2 ^ k
  · rw [dif_pos h]
    congr 2
    apply Fin.ext
    simp only
    rw [hidx, Nat.mod_eq_of_lt (by omega : l.val + r < 2 ^ k)]
    omega
  · rw [dif_neg h, dif_pos (by omega)]
    congr 2
    apply Fin.ext
    simp only
    rw [hidx, show l.val + r = (l.val + r - 2 ^ k) + 2 ^ k by omega, Nat.add_mod_right,
      Nat.mod_eq_of_lt (by omega)]
    omega

/-- C16: the constant-offset path of `rotate`. -/
theorem rotateConst_spec {k : Nat} (hk : k < 32) (v : Vec (2 ^ k) α) (i : BitVec 32) :
    rotateConst v i = fun l => some (ringNeighbour v i.toInt l) := by
  funext l
  have hl := l.isLt
  have hlt : 2 ^ k < 2 ^ 32 := Nat.pow_lt_pow_right (by omega) hk
  unfold rotateConst extractU extract ringNeighbour
  have e : ((i + BitVec.ofNat 32 l.val) &&& widthMask (2 ^ k)).toNat = (l.val + i.toNat % 2 ^ k) % 2 ^ k := by
    rw [and_widthMask hk, BitVec.toNat_add, BitVec.toNat_ofNat, Nat.mod_eq_of_lt (by omega : l.val < 2 ^ 32),
      Nat.mod_mod_of_dvd _ (pow_dvd_pow 2 (by omega)), Nat.add_mod_mod, Nat.add_comm]
  rw [dif_pos (by rw [e]; exact Nat.mod_lt _ (Nat.two_pow_pos k))]
  congr 2
  apply Fin.ext
  simp only
  rw [e, ring_index hk]

/-- C16: `broadcast` of an instance's value. -/
theorem broadcast_spec (v : Vec W α) (i : Fin W) (hW : W ≤ 2 ^ 32) :
    broadcast v (BitVec.ofNat 32 i.val) = fun _ => some (v i) := by
  funext l
  unfold broadcast extractU
  have : (BitVec.ofNat 32 i.val).toNat = i.val := by
    rw [BitVec.toNat_ofNat]; exact Nat.mod_eq_of_lt (by have := i.isLt; omega)
  rw [this, extract_lt v i.isLt]

/-- `shuffle` never fails as a whole; each lane is the selected lane, or poison. -/
theorem shuffle_eq (zero : α) (v : Vec W α) (perm : Vec W (BitVec 32)) :
    shuffle zero v perm = some fun l => extractU v (perm l) := by
  unfold shuffle
  obtain ⟨r, hr, hI⟩ := forLoop_inv (body := fun i (result : Vec W (Option α)) => do
      let p ← extract perm i
      insert result i (extractU v p))
    (fun i (r : Vec W (Option α)) => ∀ l : Fin W, l.val < i → r l = extractU v (perm l)) W 0 (fun _ => some zero)
    (by intro l h; omega)
    (by
      intro i r _ hi hI
      have hi : i < W := by omega
      rw [extract_lt _ hi]
      simp only [Option.bind_eq_bind, Option.bind_some]
      rw [insert_lt _ hi]
      refine ⟨_, rfl, ?_⟩
      intro l hl
      by_cases h : l.val = i
      · subst h; rw [if_pos rfl]
      · rw [if_neg h]; exact hI l (by omega))
  rw [hr]
  congr 1
  funext l
  exact hI l (by have := l.isLt; omega)

/-- C16: `shuffle`. -/
theorem shuffle_spec (zero : α) (v : Vec W α) (perm : Vec W (BitVec 32))
    (hp : ∀ l, 0 ≤ (perm l).toInt ∧ (perm l).toInt < W) :
    shuffle zero v perm = some fun l => some (v ⟨(perm l).toInt.toNat, by have := hp l; omega⟩) := by
  rw [shuffle_eq]
  congr 1
  funext l
  obtain ⟨h1, h2⟩ := hp l
  have e : (perm l).toInt.toNat = (perm l).toNat := by
    rw [BitVec.toInt_eq_toNat_cond] at h1 h2 ⊢
    have := (perm l).isLt
    split at h1 <;> rename_i hc <;> simp only [hc, if_true, if_false] at * <;> omega
  unfold extractU
  have hlt : (perm l).toNat < W := by omega
  rw [extract_lt v hlt]
  congr 2
  exact Fin.ext e.symm

/-- C16: `shuffle` of two vectors selects from their concatenation. -/
theorem shuffle2_spec (zero : α) (v0 v1 : Vec W α) (perm : Vec W (BitVec 32))
    (hp : ∀ l, 0 ≤ (perm l).toInt ∧ (perm l).toInt < 2 * W) :
    shuffle2 zero v0 v1 perm = some fun l =>
      some (if h : (perm l).toInt < W then v0 ⟨(perm l).toInt.toNat, by have := hp l; omega⟩
        else v1 ⟨((perm l).toInt - W).toNat, by have := hp l; omega⟩) := by
  have key : shuffle2 zero v0 v1 perm = some fun l => concat v0 v1 (perm l).toInt := by
    unfold shuffle2
    obtain ⟨r, hr, hI⟩ := forLoop_inv (body := fun i (result : Vec W (Option α)) => do
        let p ← extract perm i
        insert result i (concat v0 v1 p.toInt))
      (fun i (r : Vec W (Option α)) => ∀ l : Fin W, l.val < i → r l = concat v0 v1 (perm l).toInt) W 0 (fun _ => some zero)
      (by intro l h; omega)
      (by
        intro i r _ hi hI
        have hi : i < W := by omega
        rw [extract_lt _ hi]
        simp only [Option.bind_eq_bind, Option.bind_some]
        rw [insert_lt _ hi]
        refine ⟨_, rfl, ?_⟩
        intro l hl
        by_cases h : l.val = i
        · subst h; rw [if_pos rfl]
        · rw [if_neg h]; exact hI l (by omega))
    rw [hr]
    congr 1
    funext l
    exact hI l (by have := l.isLt; omega)
  rw [key]
  congr 1
  funext l
  obtain ⟨h1, h2⟩ := hp l
  unfold concat
  rw [if_neg (by omega)]
  by_cases h : (perm l).toInt < W
  · rw [dif_pos (by omega), dif_pos h]
  · rw [dif_neg (by omega), dif_pos (by omega), dif_neg h]
    congr 2
    apply Fin.ext
    simp only
    omega

/-- The five tables, checked entry by entry. -/
theorem masks4_ok : ∀ r < 4, masks4[r]? = some ((List.range 4).map fun l => (l + r) % 4) := by decide +kernel
theorem masks8_ok : ∀ r < 8, masks8[r]? = some ((List.range 8).map fun l => (l + r) % 8) := by decide +kernel
theorem masks16_ok : ∀ r < 16, masks16[r]? = some ((List.range 16).map fun l => (l + r) % 16) := by decide +kernel
theorem masks32_ok : ∀ r < 32, masks32[r]? = some ((List.range 32).map fun l => (l + r) % 32) := by decide +kernel
theorem masks64_ok : ∀ r < 64, masks64[r]? = some ((List.range 64).map fun l => (l + r) % 64) := by decide +kernel

theorem masks_ok {k : Nat} (h2 : 2 ≤ k) (h6 : k ≤ 6) : ∃ tab, masks (2 ^ k) = some tab ∧
    ∀ r < 2 ^ k, tab[r]? = some ((List.range (2 ^ k)).map fun l => (l + r) % 2 ^ k) := by
  have hk : k = 2 ∨ k = 3 ∨ k = 4 ∨ k = 5 ∨ k = 6 := by omega
  rcases hk with rfl | rfl | rfl | rfl | rfl
  · exact ⟨_, rfl, masks4_ok⟩
  · exact ⟨_, rfl, masks8_ok⟩
  · exact ⟨_, rfl, masks16_ok⟩
  · exact ⟨_, rfl, masks32_ok⟩
  · exact ⟨_, rfl, masks64_ok⟩

/-- C16: the table-driven rotate, for each gang size that has a table (4, 8, 16, 32, 64). -/
theorem rotateViaShuffle_spec {k : Nat} (h2 : 2 ≤ k) (h6 : k ≤ 6) (zero : α) (v : Vec (2 ^ k) α) (i : BitVec 32) :
    rotateViaShuffle zero v i = some fun l => some (ringNeighbour v i.toInt l) := by
  obtain ⟨tab, ht, hrow⟩ := masks_ok h2 h6
  have hlt : 2 ^ k < 2 ^ 32 := Nat.pow_lt_pow_right (by omega) (by omega)
  have hm : i.toNat % 2 ^ k < 2 ^ k := Nat.mod_lt _ (Nat.two_pow_pos k)
  unfold rotateViaShuffle
  rw [ht, and_widthMask (by omega : k < 32)]
  simp only [Option.bind_eq_bind, Option.bind_some]
  rw [hrow _ hm]
  simp only [Option.bind_some]
  rw [shuffle_eq]
  congr 1
  funext l
  have hl := l.isLt
  have e : (BitVec.ofNat 32 (((List.range (2 ^ k)).map fun j => (j + i.toNat % 2 ^ k) % 2 ^ k).getD l.val 0)).toNat =
      (l.val + i.toNat % 2 ^ k) % 2 ^ k := by
    have hx := Nat.mod_lt (l.val + i.toNat % 2 ^ k) (Nat.two_pow_pos k)
    rw [List.getD_eq_getElem?_getD, List.getElem?_map, List.getElem?_range hl]
    simp only [Option.map_some, Option.getD_some]
    rw [BitVec.toNat_ofNat]
    exact Nat.mod_eq_of_lt (by omega)
  unfold extractU ringNeighbour
  rw [e, extract_lt v (Nat.mod_lt _ (Nat.two_pow_pos k))]
  congr 2
  apply Fin.ext
  simp only
  rw [ring_index (by omega : k < 32)]

/-- C16: the shuffle-based `shift`, for every `int32` offset. -/
theorem shiftViaShuffle_spec (hW : W ≤ 2 ^ 30) (zero : α) (v : Vec W α) (i : BitVec 32) :
    shiftViaShuffle zero v i = some fun l => some (lineNeighbour zero v i.toInt l) := by
  unfold shiftViaShuffle
  simp only [shuffle_eq, Option.bind_eq_bind, Option.bind_some]
  congr 1
  funext l
  have hl := l.isLt
  have hil := BitVec.le_toInt i
  have hih := BitVec.toInt_lt (x := i)
  simp only [show (32 - 1 : Nat) = 31 from rfl] at hil hih
  have hlN : (BitVec.ofNat 32 l.val).toInt = l.val := by
    rw [BitVec.toInt_ofNat']; rw [Int.bmod_eq_of_le] <;> omega
  have hWN : (BitVec.ofNat 32 W).toInt = W := by
    rw [BitVec.toInt_ofNat']; rw [Int.bmod_eq_of_le] <;> omega
  have hsum : (BitVec.ofNat 32 l.val + i).toInt =
      if (l.val : Int) + i.toInt < 2 ^ 31 then (l.val : Int) + i.toInt else (l.val : Int) + i.toInt - 2 ^ 32 := by
    rw [BitVec.toInt_add, hlN]
    split
    · rw [Int.bmod_eq_of_le] <;> omega
    · rw [Int.bmod_def]
      rw [if_neg]
      · rw [Int.emod_eq_of_lt] <;> omega
      · rw [Int.emod_eq_of_lt] <;> omega
  have hb : (BitVec.sle 0#32 (BitVec.ofNat 32 l.val + i) && BitVec.slt (BitVec.ofNat 32 l.val + i) (BitVec.ofNat 32 W)) = true ↔
      0 ≤ (l.val : Int) + i.toInt ∧ (l.val : Int) + i.toInt < W := by
    rw [Bool.and_eq_true, BitVec.sle_iff_toInt_le, BitVec.slt_iff_toInt_lt, hWN, hsum]
    simp only [BitVec.toInt_zero]
    split <;> omega
  unfold lineNeighbour
  by_cases h : 0 ≤ (l.val : Int) + i.toInt ∧ (l.val : Int) + i.toInt < W
  · rw [if_pos (hb.2 h), dif_pos h]
    rw [if_pos (by omega)] at hsum
    have e : (BitVec.ofNat 32 l.val + i).toNat = ((l.val : Int) + i.toInt).toNat := by
      rw [← hsum, BitVec.toInt_eq_toNat_cond]
      rw [BitVec.toInt_eq_toNat_cond] at hsum
      split at hsum <;> rename_i hc
      · rw [if_pos hc, Int.toNat_natCast]
      · have := (BitVec.ofNat 32 l.val + i).isLt; omega
    unfold extractU
    rw [e, extract_lt v (by omega)]
  · rw [if_neg (fun hh => h (hb.1 hh)), dif_neg h]

theorem offset_toInt (hW : W ≤ 2 ^ 29) (i : BitVec 32) (hi : i.toInt < 2 ^ 30) :
    (i + BitVec.ofNat 32 W).toInt = i.toInt + W := by
  have hil := BitVec.le_toInt i
  simp only [show (32 - 1 : Nat) = 31 from rfl] at hil
  have hWN : (BitVec.ofNat 32 W).toInt = W := by
    rw [BitVec.toInt_ofNat']; rw [Int.bmod_eq_of_le] <;> omega
  rw [BitVec.toInt_add, hWN, Int.bmod_eq_of_le] <;> omega

/-- C16, partial: the memory-based `shift` is right when the offset is at most one gang in either direction.  Missing:
larger offsets, where the code reads outside its array (`shift_out_of_bounds`). -/
theorem shift_spec_partial (hW : W ≤ 2 ^ 29) (zero : α) (v : Vec W α) (i : BitVec 32)
    (hi : -(W : Int) ≤ i.toInt ∧ i.toInt ≤ W) : shift zero v i = some (lineNeighbour zero v i.toInt) := by
  unfold shift
  rw [offset_toInt hW i (by omega)]
  have key : ∀ l : Fin W, triple zero v (i.toInt + W + l.val) = some (lineNeighbour zero v i.toInt l) := by
    intro l
    have hl := l.isLt
    unfold triple lineNeighbour
    rw [if_neg (by omega)]
    by_cases h1 : (i.toInt + W + l.val).toNat < W
    · rw [if_pos h1, dif_neg (by omega)]
    · rw [if_neg h1]
      by_cases h2 : (i.toInt + W + l.val).toNat - W < W
      · rw [dif_pos h2, dif_pos (by omega)]
        congr 2
        apply Fin.ext
        simp only
        omega
      · rw [dif_neg h2, if_pos (by omega), dif_neg (by omega)]
  exact loadGang_eq key

/-- Finding: an offset of more than one gang makes the memory-based `shift` read outside its array. -/
theorem shift_out_of_bounds (h0 : 0 < W) (hW : W ≤ 2 ^ 29) (zero : α) (v : Vec W α) (i : BitVec 32)
    (hi : i.toInt < -(W : Int) ∨ (W < i.toInt ∧ i.toInt < 2 ^ 30)) : shift zero v i = none := by
  unfold shift
  rw [offset_toInt hW i (by omega)]
  unfold loadGang
  rw [dif_neg]
  intro h
  rcases hi with hi | hi
  · have := h ⟨0, h0⟩
    unfold triple at this
    rw [if_pos (by push_cast; omega)] at this
    cases this
  · have := h ⟨W - 1, by omega⟩
    unfold triple at this
    rw [if_neg (by omega), if_neg (by simp only; omega), dif_neg (by simp only; omega), if_neg (by simp only; omega)] at this
    cases this

/-! ## Non-vacuity -/

def v8 : Vec 8 Nat := fun l => l.val + 1

/-- The example of the documentation: `rotate((1,...,8), -1)` is `(8,1,2,...)`. -/
example : ((rotate v8 (-1#32)).map fun r => (List.finRange 8).map r) = some [8, 1, 2, 3, 4, 5, 6, 7] := by decide +kernel
example : ((rotateViaShuffle 0 v8 (-9#32)).map fun r => (List.finRange 8).map r) =
    some ([8, 1, 2, 3, 4, 5, 6, 7].map some) := by decide +kernel
example : ((shift 0 v8 3#32).map fun r => (List.finRange 8).map r) = some [4, 5, 6, 7, 8, 0, 0, 0] := by decide +kernel
example : ((shiftViaShuffle 0 v8 (0x7fffffff#32)).map fun r => (List.finRange 8).map r) =
    some (List.replicate 8 (some 0)) := by decide +kernel
example : (9#32).toInt > 8 ∧ shift 0 v8 9#32 = none :=
  ⟨by decide, shift_out_of_bounds (by decide) (by decide) 0 v8 9#32 (Or.inr (by decide))⟩

end Ispc.Perm
