import Verif.Builtins.ScanProps

/-!
# C88: `reduce_equal` and memory

What the two forms of `reduce_equal` of the standard library write, on memory of bytes, on top of the reductions of
`Builtins/Scan`. The bit patterns of values are stored with the lowest byte first.
-/

namespace Ispc.ReduceEqual

open Ispc.Vec
open Ispc.ForeachActive (Mask)
open Ispc.Scan (reduceEqual reduceEqualM4 reduceEqualM4Pairs ReduceEqualSpec reduce_equal_generic reduce_equal_m4
  reduce_equal_m4_pairs)

variable {W n : Nat}

/-! ## Model -/

/-- Memory. -/
abbrev Bytes := Int → BitVec 8

/-- A store of `n` bytes: `*ret = first_val` (builtins/generic.ispc:825) and `store $2 %the_value` of
    builtins/util.m4:7055. -/
def store (m : Bytes) (p : Int) (v : BitVec (8 * n)) : Bytes := fun q =>
  if p ≤ q ∧ q < p + n then v.extractLsb' (8 * (q - p).toNat) 8 else m q

/-- The versions of the builtin: the one of builtins/generic.ispc:817-829 and the two of builtins/util.m4:6986-7061. -/
inductive Version where
  | generic | rotate | pairs
  deriving DecidableEq, Repr

/-- The builtin without its store. -/
def Version.value (k : Version) (eq : BitVec (8 * n) → BitVec (8 * n) → Bool) (x : Vec W (BitVec (8 * n)))
    (mask : Mask W) : Option (Option (BitVec (8 * n))) :=
  match k with
  | .generic => reduceEqual eq x mask
  | .rotate => reduceEqualM4 eq x mask
  | .pairs => reduceEqualM4Pairs eq x mask

/-- The builtin: the value is stored only if all are equal (builtins/generic.ispc:824-828,
    builtins/util.m4:7052-7059). -/
def builtin (k : Version) (eq : BitVec (8 * n) → BitVec (8 * n) → Bool) (x : Vec W (BitVec (8 * n))) (ret : Int)
    (mask : Mask W) (m : Bytes) : Option (Bool × Bytes) :=
  match k.value eq x mask with
  | none => none
  | some none => some (false, m)
  | some (some v) => some (true, store m ret v)

/-- `reduce_equal(v, value)` (stdlib/stdlib.ispc:1709-1711). -/
def reduceEqualTo (k : Version) (eq : BitVec (8 * n) → BitVec (8 * n) → Bool) (x : Vec W (BitVec (8 * n))) (value : Int)
    (mask : Mask W) (m : Bytes) : Option (Bool × Bytes) :=
  builtin k eq x value mask m

/-- `reduce_equal(v)` (stdlib/stdlib.ispc:1705-1708); `unused` is the address of its variable `unusedValue`, which has
    one byte. -/
def reduceEqualOnly (k : Version) (eq : BitVec (8 * n) → BitVec (8 * n) → Bool) (x : Vec W (BitVec (8 * n)))
    (unused : Int) (mask : Mask W) (m : Bytes) : Option (Bool × Bytes) :=
  builtin k eq x unused mask m

/-! ## Specification -/

/-- All active instances have equal values. -/
def AllEqual (eq : BitVec (8 * n) → BitVec (8 * n) → Bool) (x : Vec W (BitVec (8 * n))) (mask : Mask W) : Prop :=
  ∀ l l', mask l = true → mask l' = true → eq (x l) (x l') = true

/-- The bytes of `v` are at `p`. -/
def Holds (m : Bytes) (p : Int) (v : BitVec (8 * n)) : Prop := ∀ i < n, m (p + i) = v.extractLsb' (8 * i) 8

/-! ## Theorems -/

theorem store_holds (m : Bytes) (p : Int) (v : BitVec (8 * n)) : Holds (store m p v) p v := by
  intro i hi
  unfold store
  rw [if_pos (by omega)]
  congr 2
  omega

theorem store_other (m : Bytes) (p : Int) (v : BitVec (8 * n)) (q : Int) (h : q < p ∨ p + n ≤ q) :
    store m p v q = m q := by
  unfold store
  rw [if_neg (by omega)]

theorem value_spec (k : Version) (hW1 : 2 ≤ W) (hW : W ≤ 64) (eq : BitVec (8 * n) → BitVec (8 * n) → Bool)
    (hs : ∀ a b, eq a b = true → eq b a = true) (ht : ∀ a b c, eq a b = true → eq b c = true → eq a c = true)
    (x : Vec W (BitVec (8 * n))) (mask : Mask W) (hact : ∃ l, mask l = true) :
    ∃ r, k.value eq x mask = some r ∧ ReduceEqualSpec eq x mask r := by
  cases k
  · exact reduce_equal_generic hW eq hs ht x mask hact
  · exact reduce_equal_m4 (by omega) hW eq hs ht x mask hact
  · exact reduce_equal_m4_pairs hW1 hW eq hs ht x mask hact

/-- **`reduce_equal(v, &value)` tells whether all active instances have equal values; if so it leaves this value in the
    variable, else memory is unchanged; no other byte is ever changed.** -/
theorem reduce_equal_to (k : Version) (hW1 : 2 ≤ W) (hW : W ≤ 64) (eq : BitVec (8 * n) → BitVec (8 * n) → Bool)
    (hs : ∀ a b, eq a b = true → eq b a = true) (ht : ∀ a b c, eq a b = true → eq b c = true → eq a c = true)
    (x : Vec W (BitVec (8 * n))) (mask : Mask W) (hact : ∃ l, mask l = true) (p : Int) (m : Bytes) :
    ∃ b m', reduceEqualTo k eq x p mask m = some (b, m') ∧ (b = true ↔ AllEqual eq x mask) ∧
      (b = true → ∃ v, Holds m' p v ∧ ∀ l, mask l = true → eq (x l) v = true) ∧ (b = false → m' = m) ∧
      ∀ q, q < p ∨ p + n ≤ q → m' q = m q := by
  obtain ⟨r, hr, h1, h2⟩ := value_spec k hW1 hW eq hs ht x mask hact
  cases r with
  | none =>
    refine ⟨false, m, by simp [reduceEqualTo, builtin, hr], ?_, by simp, fun _ => rfl, fun _ _ => rfl⟩
    simpa [AllEqual] using h1
  | some v =>
    refine ⟨true, store m p v, by simp [reduceEqualTo, builtin, hr], ?_, fun _ => ⟨v, store_holds m p v, ?_⟩, by simp,
      store_other m p v⟩
    · simpa [AllEqual] using h1
    · exact h2 v rfl

/-- **`reduce_equal(v)` gives the same answer; only for types of one byte is it proved that it changes no memory but
    its own variable.** What is missing is every other type: see `reduce_equal_overrun_wrong`. -/
theorem reduce_equal_only_partial (k : Version) (hW1 : 2 ≤ W) (hW : W ≤ 64)
    (eq : BitVec (8 * n) → BitVec (8 * n) → Bool) (hs : ∀ a b, eq a b = true → eq b a = true)
    (ht : ∀ a b c, eq a b = true → eq b c = true → eq a c = true) (x : Vec W (BitVec (8 * n))) (mask : Mask W)
    (hact : ∃ l, mask l = true) (unused : Int) (m : Bytes) :
    ∃ b m', reduceEqualOnly k eq x unused mask m = some (b, m') ∧ (b = true ↔ AllEqual eq x mask) ∧
      (n = 1 → ∀ q, q ≠ unused → m' q = m q) := by
  obtain ⟨b, m', h, h1, -, -, h4⟩ := reduce_equal_to k hW1 hW eq hs ht x mask hact unused m
  exact ⟨b, m', h, h1, fun hn q hq => h4 q (by omega)⟩

/-- **For every type of more than one byte `reduce_equal(v)` overwrites memory behind its variable**, all but the first
    of the `n` bytes, whenever all active instances have equal values. -/
theorem reduce_equal_overrun_wrong (k : Version) (hW1 : 2 ≤ W) (hW : W ≤ 64)
    (eq : BitVec (8 * n) → BitVec (8 * n) → Bool) (hs : ∀ a b, eq a b = true → eq b a = true)
    (ht : ∀ a b c, eq a b = true → eq b c = true → eq a c = true) (x : Vec W (BitVec (8 * n))) (mask : Mask W)
    (hact : ∃ l, mask l = true) (he : AllEqual eq x mask) (unused : Int) :
    ∃ m m', reduceEqualOnly k eq x unused mask m = some (true, m') ∧
      ∀ i : Nat, 1 ≤ i → i < n → m' (unused + i) ≠ m (unused + i) := by
  obtain ⟨r, hr, h1, -⟩ := value_spec k hW1 hW eq hs ht x mask hact
  obtain ⟨v, rfl⟩ := Option.isSome_iff_exists.1 (h1.2 he)
  refine ⟨fun q => ~~~ v.extractLsb' (8 * (q - unused).toNat) 8,
    store (fun q => ~~~ v.extractLsb' (8 * (q - unused).toNat) 8) unused v,
    by simp only [reduceEqualOnly, builtin, hr], ?_⟩
  intro i _ hi
  rw [store_holds _ unused v i hi]
  have : (unused + (i : Int) - unused).toNat = i := by omega
  simp only [this]
  intro hh
  have := congrArg (fun b : BitVec 8 => b.getLsbD 0) hh
  simp at this

/-! ## Examples -/

/-- Four instances, the second of them off. -/
def mask4 : Mask 4 := fun l => decide (l.val ≠ 1)

/-- 32-bit values, equal in the active instances. -/
def x4 : Vec 4 (BitVec (8 * 4)) := fun l => if l.val = 1 then 5 else 0x04030201

example : ∃ l, mask4 l = true := ⟨0, by decide⟩

example : AllEqual (· == ·) x4 mask4 := by unfold AllEqual; decide +kernel

example : ((reduceEqualOnly .generic (· == ·) x4 100 mask4 (fun _ => 0)).map fun r =>
    (r.1, [99, 100, 101, 102, 103, 104].map r.2)) = some (true, [0, 1, 2, 3, 4, 0]) := by decide +kernel

example : ∃ m m', reduceEqualOnly .pairs (· == ·) x4 100 mask4 m = some (true, m') ∧
    ∀ i : Nat, 1 ≤ i → i < 4 → m' (100 + i) ≠ m (100 + i) :=
  reduce_equal_overrun_wrong .pairs (by decide) (by decide) (· == ·) (by intro a b h; exact beq_iff_eq.2 (beq_iff_eq.1 h).symm)
    (by intro a b c h h'; exact beq_iff_eq.2 ((beq_iff_eq.1 h).trans (beq_iff_eq.1 h'))) x4 mask4 ⟨0, by decide⟩
    (by unfold AllEqual; decide +kernel) 100

end Ispc.ReduceEqual
