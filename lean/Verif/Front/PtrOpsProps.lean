import Verif.Front.PtrOps
import Verif.Front.StrideProps

/-!
# Pointers compare as their elements do, and step as they are added to

C68.
-/

namespace Ispc.PtrOps

open Header (Ty Vb llay)
open Soa (Mode Ix Fits gep)
open Stride (Tgt element at' Value sizeOf)
open Fold (resize)

/-! ## Comparisons -/

/-- Specification: the address of element `j` of an array at `a`, in memory of
`2 ^ P` bytes. -/
theorem at_nat {m : Mode} {p : BitVec m.P} {s j : Nat} (h : p.toNat + j * s < 2 ^ m.P) :
    (at' p s (j : Int)).toNat = p.toNat + j * s := by
  unfold at'
  have : ((j : Int) * (s : Int)) = ((j * s : Nat) : Int) := by push_cast; rfl
  rw [this, BitVec.ofInt_natCast, BitVec.toNat_add, BitVec.toNat_ofNat, Nat.add_mod_mod,
    Nat.mod_eq_of_lt h]

theorem toInt_low {n : Nat} (hn : 0 < n) {x : BitVec n} (h : x.toNat < 2 ^ (n - 1)) :
    x.toInt = x.toNat := by
  obtain ⟨k, rfl⟩ : ∃ k, n = k + 1 := ⟨n - 1, by omega⟩
  simp only [Nat.add_sub_cancel] at h
  have h2 := pow_succ 2 k
  rw [BitVec.toInt_eq_toNat_cond, if_pos (by omega)]

theorem toInt_high {n : Nat} (hn : 0 < n) {x : BitVec n} (h : 2 ^ (n - 1) ≤ x.toNat) :
    x.toInt = x.toNat - 2 ^ n := by
  obtain ⟨k, rfl⟩ : ∃ k, n = k + 1 := ⟨n - 1, by omega⟩
  simp only [Nat.add_sub_cancel] at h
  have h2 := pow_succ 2 k
  rw [BitVec.toInt_eq_toNat_cond, if_neg (by omega)]
  push_cast; rfl

theorem cmp_int (op : Fold.Cmp) {n : Nat} (a b : BitVec n) :
    Fold.runCmp op true a b = Fold.foldCmp op a.toInt b.toInt :=
  (Fold.foldCmp_run op true a b).symm

/-- A comparison does not change if both sides are moved or stretched. -/
theorem foldCmp_scale (op : Fold.Cmp) (j k c : Int) {s : Int} (hs : 0 < s) :
    Fold.foldCmp op (c + j * s) (c + k * s) = Fold.foldCmp op j k := by
  have h1 : c + j * s < c + k * s ↔ j < k := by
    rw [add_lt_add_iff_left]; exact mul_lt_mul_iff_left₀ hs
  have h2 : c + k * s < c + j * s ↔ k < j := by
    rw [add_lt_add_iff_left]; exact mul_lt_mul_iff_left₀ hs
  have h3 : c + j * s = c + k * s ↔ j = k := by
    rw [add_right_inj]; exact mul_left_inj' hs.ne'
  cases op <;> simp only [Fold.foldCmp, gt_iff_lt, ge_iff_le, ← not_lt, h1, h2, h3, ne_eq]

/-- **Two elements of an array compare as their numbers do**, the end included,
if the array does not reach across the middle of the address space. -/
theorem compare_partial {m : Mode} {p : BitVec m.P} {s n : Nat} (hs : 0 < s)
    (h : p.toNat + n * s < 2 ^ (m.P - 1) ∨ 2 ^ (m.P - 1) ≤ p.toNat ∧ p.toNat + n * s < 2 ^ m.P)
    (op : Fold.Cmp) {j k : Nat} (hj : j ≤ n) (hk : k ≤ n) :
    compare m op (at' p s j) (at' p s k) = Fold.foldCmp op j k := by
  have hP := Soa.P_pos m
  have h2 : (2 : Nat) ^ (m.P - 1) ≤ 2 ^ m.P := Nat.pow_le_pow_right (by norm_num) (by omega)
  have hjs : j * s ≤ n * s := Nat.mul_le_mul_right _ hj
  have hks : k * s ≤ n * s := Nat.mul_le_mul_right _ hk
  have ej := at_nat (p := p) (s := s) (j := j) (by rcases h with h | h <;> omega)
  have ek := at_nat (p := p) (s := s) (j := k) (by rcases h with h | h <;> omega)
  have hs' : (0 : Int) < s := by exact_mod_cast hs
  unfold compare
  rw [cmp_int]
  rcases h with h | h
  · rw [toInt_low hP (by rw [ej]; omega), toInt_low hP (by rw [ek]; omega), ej, ek]
    push_cast
    exact foldCmp_scale op _ _ _ hs'
  · rw [toInt_high hP (by rw [ej]; omega), toInt_high hP (by rw [ek]; omega), ej, ek]
    push_cast
    have := foldCmp_scale op (j : Int) (k : Int) (p.toNat - 2 ^ m.P) hs'
    rw [show ((p.toNat : Int) + j * s - 2 ^ m.P) = p.toNat - 2 ^ m.P + j * s by ring,
      show ((p.toNat : Int) + k * s - 2 ^ m.P) = p.toNat - 2 ^ m.P + k * s by ring]
    exact this

example : (4096#Mode.p64.P).toNat + 100 * 4 < 2 ^ (Mode.p64.P - 1) := by decide

/-- **Pointers are equal exactly if their addresses are**, for any two. -/
theorem equal_ok {m : Mode} (p q : BitVec m.P) :
    (compare m .eq p q = true ↔ p = q) ∧ (compare m .ne p q = true ↔ p ≠ q) := by
  unfold compare
  rw [cmp_int, cmp_int]
  simp [Fold.foldCmp, BitVec.toInt_inj]

/-- The elements of an array compare as their numbers do if and only if the
array does not reach across the middle of the address space. -/
theorem compare_iff {m : Mode} {p : BitVec m.P} {s n : Nat} (hs : 0 < s)
    (h : p.toNat + n * s < 2 ^ m.P) :
    (∀ j k, j ≤ n → k ≤ n → compare m .lt (at' p s j) (at' p s k) = decide (j < k)) ↔
      ¬ (p.toNat < 2 ^ (m.P - 1) ∧ 2 ^ (m.P - 1) ≤ p.toNat + n * s) := by
  constructor
  · rintro hall ⟨h1, h2⟩
    have hP := Soa.P_pos m
    have hn : 0 < n := by
      rcases Nat.eq_zero_or_pos n with h0 | h0
      · subst h0; omega
      · exact h0
    have e0 := at_nat (p := p) (s := s) (j := 0) (by omega)
    have en := at_nat (p := p) (s := s) (j := n) h
    have := hall 0 n (by omega) le_rfl
    unfold compare at this
    rw [cmp_int, toInt_low hP (by rw [e0]; omega), toInt_high hP (by rw [en]; omega), e0, en] at this
    simp only [Fold.foldCmp, decide_eq_decide] at this
    have h3 := this.2 hn
    push_cast at h3
    have h4 : ((p.toNat : Int) + n * s) < 2 ^ m.P := by exact_mod_cast h
    have h5 : (0 : Int) ≤ p.toNat := by positivity
    omega
  · intro hno j k hj hk
    have := compare_partial (m := m) (p := p) hs (n := n) (by omega) .lt hj hk
    rw [this]
    simp [Fold.foldCmp]

/-- On a 32-bit target, element 0 of an array of `int` at 0x7ffffffc is not
below element 1. -/
theorem compare_wrong :
    compare .p32 .lt (at' (m := .p32) 0x7ffffffc#32 4 0) (at' (m := .p32) 0x7ffffffc#32 4 1) = false := by
  decide

/-! ## Steps -/

/-- **`p += i` is `i` elements behind `p`**, for a signed or unsigned `i`. -/
theorem plusAssign_ok {T : Tgt} {v : Vb} {t : Ty} (hst : sizeOf T v t = (llay T.D v t).1)
    (hs : 0 < (llay T.D v t).1) (vp : Bool) (p : BitVec T.m.P) {ix : Ix} {k : Int} (hk : Value ix k)
    (hf : Fits T.m.A (k * (llay T.D v t).1)) :
    plusAssign T v t vp p ix = some (at' p (llay T.D v t).1 k) := by
  have hv : Fold.val (!(Ix.signed (Stride.Ix.conv T.m.P ix)).uns)
      (Ix.signed (Stride.Ix.conv T.m.P ix)).v = k := by
    simp only [Ix.signed, Stride.Ix.conv, Fold.val, Bool.not_false, if_true]
    rw [Stride.conv_eq hk.1]
    exact Soa.toInt_ofInt_fits (Soa.P_pos _) (Soa.fits_mono (Soa.A_le_P _) (Stride.fits_mul hs hf))
  exact Stride.element_ok hst hs hv (Or.inr (Stride.sext_val hv _ (Or.inl rfl))) hf

/-- **`p -= i` is `i` elements before `p`.** -/
theorem minusAssign_ok {T : Tgt} {v : Vb} {t : Ty} (hst : sizeOf T v t = (llay T.D v t).1)
    (hs : 0 < (llay T.D v t).1) (vp : Bool) (p : BitVec T.m.P) {ix : Ix} {k : Int} (hk : Value ix k)
    (hf : Fits T.m.A (-k * (llay T.D v t).1)) :
    minusAssign T v t vp p ix = some (at' p (llay T.D v t).1 (-k)) := by
  have := Stride.minus_ok hst hs vp vp p hk hf
  simpa [Stride.minus, minusAssign] using this

/-- **`++p` and `--p` are one element behind and before `p`.** -/
theorem step_ok {T : Tgt} {v : Vb} {t : Ty} (hst : sizeOf T v t = (llay T.D v t).1)
    (hs : 0 < (llay T.D v t).1) (hz : (llay T.D v t).1 < 2 ^ (T.m.A - 1)) (vp up : Bool)
    (p : BitVec T.m.P) :
    step T v t vp up p = some (at' p (llay T.D v t).1 (if up then 1 else -1)) := by
  have hA := Soa.A_pos T.m
  have hf : Fits T.m.A ((if up then 1 else -1) * ((llay T.D v t).1 : Int)) := by
    have h1 : (((llay T.D v t).1 : Nat) : Int) < 2 ^ (T.m.A - 1) := by exact_mod_cast hz
    cases up <;> simp only [if_true, Bool.false_eq_true, if_false, Fits] <;> constructor <;> omega
  have hv : Fold.val (!(⟨32, if up then 1 else -1, false⟩ : Ix).uns)
      (⟨32, if up then 1 else -1, false⟩ : Ix).v = if up then 1 else -1 := by
    cases up <;> decide
  exact Stride.element_ok hst hs hv (Or.inr (Stride.sext_val hv _ (Or.inr rfl))) hf

/-- **All the ways to step agree**: for every type but `bool` and its short
vectors, with a uniform or varying pointer and an integer of any type,
`p += i` is `p + i`, `p -= i` is `p - i`, and `++p` is `p + 1`.  Partial: the
types, and the offsets in bytes must fit the width that addresses are computed
in. -/
theorem steps_partial {T : Tgt} (hT : T.Good) {v : Vb} (hv : v ≠ .unbound) {t : Ty}
    (hp : Stride.Plain v t) (hs : 0 < (llay T.D v t).1) (hz : (llay T.D v t).1 < 2 ^ (T.m.A - 1))
    (vp : Bool) (p : BitVec T.m.P) {ix : Ix} {k : Int} (hk : Value ix k)
    (hf : Fits T.m.A (k * (llay T.D v t).1)) (hf' : Fits T.m.A (-k * (llay T.D v t).1)) :
    plusAssign T v t vp p ix = Stride.plus T v t vp vp p ix ∧
    minusAssign T v t vp p ix = Stride.minus T v t vp vp p ix ∧
    step T v t vp true p = Stride.plus T v t vp vp p ⟨32, 1, false⟩ ∧
    step T v t vp false p = Stride.minus T v t vp vp p ⟨32, 1, false⟩ := by
  have hst := Stride.sizeof_stride_partial hT hv t hp
  have h1 : Value ⟨32, 1, false⟩ 1 := ⟨by decide, by simp⟩
  have hlt : (((llay T.D v t).1 : Nat) : Int) < 2 ^ (T.m.A - 1) := by exact_mod_cast hz
  have hf1 : Fits T.m.A (1 * ((llay T.D v t).1 : Int)) := by constructor <;> omega
  have hf2 : Fits T.m.A (-1 * ((llay T.D v t).1 : Int)) := by constructor <;> omega
  refine ⟨?_, ?_, ?_, ?_⟩
  · rw [plusAssign_ok hst hs vp p hk hf, Stride.plus_ok hst hs vp vp p hk hf]
  · rw [minusAssign_ok hst hs vp p hk hf', Stride.minus_ok hst hs vp vp p hk hf']
  · rw [step_ok hst hs hz, Stride.plus_ok hst hs vp vp p h1 hf1]; rfl
  · rw [step_ok hst hs hz, Stride.minus_ok hst hs vp vp p h1 hf2]; rfl

/-- Five `float<3>` on. -/
example : Value ⟨16, 5#16, true⟩ 5 ∧
    (llay (Stride.x64 2 32 .force32).D .uniform (.vec .float 3 .unbound)).1 = 16 ∧
    Fits 32 (5 * (16 : Nat)) ∧ Fits 32 (-5 * (16 : Nat)) :=
  ⟨⟨by decide, by simp⟩, by decide, by decide, by decide⟩

/-- For signed integers, uniform pointers, and where addresses are as wide as
pointers, `p += i` and `p = p + i` are the same whatever the offset. -/
theorem plusAssign_same (T : Tgt) (v : Vb) (t : Ty) (vp : Bool) (p : BitVec T.m.P) (ix : Ix)
    (h : ix.uns = false ∨ vp = false ∨ T.m ≠ .force32) :
    plusAssign T v t vp p ix = Stride.plus T v t vp vp p ix := by
  unfold plusAssign Stride.plus element
  simp only [Bool.or_self]
  cases vp with
  | false => rfl
  | true =>
    simp only [if_true]
    rcases h with h | h | h
    · have : Ix.signed (Stride.Ix.conv T.m.P ix) = Stride.Ix.conv T.m.P ix := by
        simp [Ix.signed, Stride.Ix.conv, h]
      rw [this]
    · exact absurd h (by simp)
    · have hA : T.m.A = T.m.P := by cases hm : T.m <;> simp_all [Mode.A, Mode.P]
      unfold gep
      have hr : ∀ (b : Bool) (x : BitVec T.m.P), resize b T.m.A x = x.setWidth T.m.A := by
        intro b x; simp [resize, hA]
      have hr' : ∀ (b : Bool) (x : BitVec T.m.A), resize b T.m.P x = x.setWidth T.m.P := by
        intro b x; simp [resize, hA]
      simp only [Ix.signed, Stride.Ix.conv, hr, hr']

/-- With the default 32-bit addressing, `p += i` on a varying `uint8 *` with
`unsigned int i = 3000000000` goes back by 1294967296; `p = p + i` goes forward
by 3000000000. -/
theorem plusAssign_wrong (p : BitVec 64) :
    plusAssign (Stride.x64 2 32 .force32) .uniform (.atom .uint8 .unbound) true p ⟨32, 3000000000#32, true⟩ =
        some (p + BitVec.ofInt 64 (-1294967296)) ∧
      Stride.plus (Stride.x64 2 32 .force32) .uniform (.atom .uint8 .unbound) true true p
        ⟨32, 3000000000#32, true⟩ = some (p + 3000000000#64) := by
  constructor <;> rfl

/-- The offset 2 GB, on a varying `float *` with `unsigned int i = 536870912`, is
undefined with 32-bit addressing, though it is below the documented 4 GB. -/
theorem offset_wrong (p : BitVec 64) :
    Stride.plus (Stride.x64 2 32 .force32) .uniform (.atom .float .unbound) true true p
      ⟨32, 536870912#32, true⟩ = none := by
  rfl

end Ispc.PtrOps
