import Verif.Front.New
import Verif.Front.StrideProps
import Mathlib.Data.List.Pairwise
import Mathlib.Data.List.Nodup

/-!
# C58. `new` gives every running program instance memory of its own, and `delete` gives it back
-/

namespace Ispc.New

open Header (Ty Vb DL llay)
open Soa (Mode Fits Ix)
open Stride (Tgt sizeOf Plain Value at')
open Fold (resize)

/-! ## Specification: heaps and allocators -/

/-- The blocks have no byte in common; an empty block counts as one byte. -/
def Apart (b c : Block) : Prop :=
  b.addr + max b.size 1 ≤ c.addr ∨ c.addr + max c.size 1 ≤ b.addr

/-- No two blocks overlap, and none is at the null pointer. -/
def Heap (live : List Block) : Prop := live.Pairwise Apart ∧ ∀ b ∈ live, b.addr ≠ 0

/-- The contract of the C library, on a system with pointers of `P` bits: what the allocator returns is aligned,
is not null, ends within the address space and overlaps no block there is. -/
def Contract (A : Alloc) (P : Nat) : Prop :=
  ∀ live n s a p, A live n s a = some p →
    p ≠ 0 ∧ a ∣ p ∧ p + s < 2 ^ P ∧ ∀ b ∈ live, Apart b ⟨p, s⟩

/-- `posix_memalign` fails unless the alignment is a power of two and a multiple of the size of a pointer. -/
def Posix (A : Alloc) (P : Nat) : Prop :=
  ∀ live n s a, ¬ ((∃ k, a = 2 ^ k) ∧ P / 8 ∣ a) → A live n s a = none

/-- An allocator that takes the next aligned address above everything there is. -/
def bump (P : Nat) : Alloc := fun live _ s a =>
  let p := a * (1 + (live.map (fun b => b.addr + b.size + 1)).sum)
  if p ≠ 0 ∧ p + s < 2 ^ P then some p else none

theorem le_sum_of_mem {live : List Block} {b : Block} (h : b ∈ live) :
    b.addr + b.size + 1 ≤ (live.map (fun b => b.addr + b.size + 1)).sum := by
  induction live with
  | nil => simp at h
  | cons c cs ih =>
    simp only [List.map_cons, List.sum_cons]
    rcases List.mem_cons.1 h with rfl | h
    · omega
    · have := ih h; omega

theorem bump_contract (P : Nat) : Contract (bump P) P := by
  intro live n s a p h
  simp only [bump] at h
  split at h
  · rename_i hc
    simp only [Option.some.injEq] at h
    subst h
    refine ⟨hc.1, Dvd.intro _ rfl, hc.2, fun b hb => Or.inl ?_⟩
    have h1 := le_sum_of_mem hb
    have ha : 1 ≤ a := by
      rcases Nat.eq_zero_or_pos a with h | h
      · subst h; simp at hc
      · exact h
    have h2 := Nat.le_mul_of_pos_left (1 + (live.map (fun b => b.addr + b.size + 1)).sum) ha
    show b.addr + max b.size 1 ≤ a * _
    omega
  · simp at h

theorem apart_symm {b c : Block} (h : Apart b c) : Apart c b := Or.symm h

theorem apart_addr {b c : Block} (h : Apart b c) : b.addr ≠ c.addr := by
  unfold Apart at h; omega

/-! ## How many bytes are asked for -/

/-- Specification: the number of bytes fits in a signed offset, and in 32 bits where the library only has those. -/
def Small (C : Cfg) (n : Nat) : Prop := n < 2 ^ (C.T.m.A - 1) ∧ (C.lib.generic = true → n < 2 ^ 32)

theorem allocSize_ok {T : Tgt} {v : Vb} {t : Ty} {c : BitVec T.m.A} (h : c.toNat * sizeOf T v t < 2 ^ (T.m.A - 1))
    (hs : 0 < sizeOf T v t) :
    allocSize T v t c = some (BitVec.ofNat T.m.A (c.toNat * sizeOf T v t)) := by
  have hc : c.toNat < 2 ^ (T.m.A - 1) := lt_of_le_of_lt (Nat.le_mul_of_pos_right _ hs) h
  have hp : 2 ^ T.m.A = 2 * 2 ^ (T.m.A - 1) := by
    have := Soa.A_pos T.m
    rw [← Nat.pow_succ']; congr 1; omega
  have hi : c.toInt = c.toNat := by
    rw [BitVec.toInt_eq_toNat_of_lt]; omega
  unfold allocSize
  rw [hi, ← Nat.cast_mul, if_pos (Soa.fits_nat h), BitVec.ofInt_natCast]

theorem laneRequest_ok {C : Cfg} {n : Nat} (h : Small C n) : laneRequest C (BitVec.ofNat C.T.m.A n) = n := by
  have hp : 2 ^ (C.T.m.A - 1) ≤ 2 ^ C.T.m.A := Nat.pow_le_pow_right (by norm_num) (by omega)
  unfold laneRequest
  split
  · rename_i hg
    rw [BitVec.toNat_setWidth, BitVec.toNat_ofNat, Nat.mod_eq_of_lt (lt_of_lt_of_le h.1 hp),
      Nat.mod_eq_of_lt (h.2 hg)]
  · rw [BitVec.toNat_ofNat, Nat.mod_eq_of_lt (lt_of_lt_of_le h.1 hp)]

theorem uniformRequest_ok {C : Cfg} {n : Nat} (h : Small C n) : uniformRequest C (BitVec.ofNat C.T.m.A n) = n := by
  have hA := Soa.A_pos C.T.m
  have hp : 2 ^ C.T.m.A = 2 * 2 ^ (C.T.m.A - 1) := by
    rw [← Nat.pow_succ']; congr 1; omega
  have hA64 : C.T.m.A ≤ 64 := by cases C.T.m <;> simp [Mode.A]
  have hx : (BitVec.ofNat C.T.m.A n).signExtend 64 = BitVec.ofNat 64 n := by
    have hm : (BitVec.ofNat C.T.m.A n).msb = false := by
      rw [BitVec.msb_eq_false_iff_two_mul_lt, BitVec.toNat_ofNat, Nat.mod_eq_of_lt (by have := h.1; omega)]
      have := h.1; omega
    rw [BitVec.signExtend_eq_setWidth_of_msb_false hm]
    apply BitVec.eq_of_toNat_eq
    simp only [BitVec.toNat_setWidth, BitVec.toNat_ofNat]
    rw [Nat.mod_eq_of_lt (a := n) (b := 2 ^ C.T.m.A) (by have := h.1; omega)]
  have h64 : n < 2 ^ 64 := lt_of_lt_of_le (by have := h.1; omega) (Nat.pow_le_pow_right (by norm_num) hA64)
  unfold uniformRequest
  rw [hx]
  split
  · rename_i hc
    have h32 : n < 2 ^ 32 := by
      simp only [Bool.or_eq_true, decide_eq_true_eq] at hc
      rcases hc with hc | hc
      · exact h.2 hc
      · have h1 := h.1; rw [hc] at h1
        exact lt_of_lt_of_le h1 (Nat.pow_le_pow_right (by norm_num) (by decide))
    rw [BitVec.toNat_setWidth, BitVec.toNat_ofNat, Nat.mod_eq_of_lt h64, Nat.mod_eq_of_lt h32]
  · rw [BitVec.toNat_ofNat, Nat.mod_eq_of_lt h64]

/-! ## A varying `new` -/

section
variable {A : Alloc} {C : Cfg} {v : Vb} {t : Ty} {count : Nat → BitVec C.T.m.A} {mask : Nat → Bool}

/-- The state of the loop after `n` program instances. -/
structure Inv (C : Cfg) (v : Vb) (t : Ty) (count : Nat → BitVec C.T.m.A) (mask : Nat → Bool) (w : World)
    (n : Nat) (st : (Nat → Nat) × World) : Prop where
  live  : st.2.live = w.live ++ ((List.range n).filter (fun l => mask l && decide (st.1 l ≠ 0))).map
            (fun l => ⟨st.1 l, (count l).toNat * sizeOf C.T v t⟩)
  null  : ∀ l, mask l = false ∨ n ≤ l → st.1 l = 0
  heap  : Heap st.2.live
  place : ∀ l, st.1 l ≠ 0 → C.align ∣ st.1 l ∧ st.1 l + (count l).toNat * sizeOf C.T v t < 2 ^ C.T.m.P
  ub    : st.2.ub = w.ub
  calls : st.2.calls = w.calls + ((List.range n).filter mask).length
  inits : st.2.stores = w.stores ∧ st.2.evals = w.evals

theorem newLane_inv (hA : Contract A C.T.m.P) (hs : 0 < sizeOf C.T v t) {w : World} {n : Nat}
    (hfit : mask n = true → Small C ((count n).toNat * sizeOf C.T v t)) {st : (Nat → Nat) × World}
    (hi : Inv C v t count mask w n st) : Inv C v t count mask w (n + 1) (newLane A C v t count mask st n) := by
  have hsame : ∀ f : Nat → Nat, (∀ l < n, f l = st.1 l) →
      ((List.range n).filter (fun l => mask l && decide (f l ≠ 0))).map
        (fun l => (⟨f l, (count l).toNat * sizeOf C.T v t⟩ : Block)) =
      ((List.range n).filter (fun l => mask l && decide (st.1 l ≠ 0))).map
        (fun l => (⟨st.1 l, (count l).toNat * sizeOf C.T v t⟩ : Block)) := by
    intro f hf
    have h1 : (List.range n).filter (fun l => mask l && decide (f l ≠ 0)) =
        (List.range n).filter (fun l => mask l && decide (st.1 l ≠ 0)) := by
      apply List.filter_congr
      intro l hl
      rw [hf l (List.mem_range.1 hl)]
    rw [h1]
    apply List.map_congr_left
    intro l hl
    rw [hf l (List.mem_range.1 (List.mem_filter.1 hl).1)]
  unfold newLane
  by_cases hm : mask n = true
  · rw [if_pos hm, allocSize_ok (hfit hm).1 hs]
    simp only [laneRequest_ok (hfit hm), malloc]
    cases hp : A st.2.live st.2.calls ((count n).toNat * sizeOf C.T v t) C.align with
    | none =>
      have h0 := hi.null n (Or.inr (le_refl n))
      refine ⟨?_, ?_, hi.heap, hi.place, hi.ub, ?_, hi.inits⟩
      · rw [List.range_succ, List.filter_append]
        simp [hi.live, h0]
      · rintro l (h | h)
        · exact hi.null l (Or.inl h)
        · exact hi.null l (Or.inr (by omega))
      · rw [List.range_succ, List.filter_append]
        simp [hi.calls, hm, Nat.add_assoc]
    | some p =>
      obtain ⟨hp0, hpa, hpe, hpb⟩ := hA _ _ _ _ _ hp
      refine ⟨?_, ?_, ?_, ?_, hi.ub, ?_, hi.inits⟩
      · rw [List.range_succ, List.filter_append, List.map_append,
          hsame (fun i => if i = n then p else st.1 i) (fun l hl => if_neg (by omega))]
        simp [hi.live, hm, hp0, List.append_assoc]
      · rintro l (h | h)
        · have : l ≠ n := by rintro rfl; simp [hm] at h
          simp only [this, if_false]
          exact hi.null l (Or.inl h)
        · simp only [show l ≠ n by omega, if_false]
          exact hi.null l (Or.inr (by omega))
      · refine ⟨?_, ?_⟩
        · simp only
          rw [List.pairwise_append]
          refine ⟨hi.heap.1, List.pairwise_singleton _ _, ?_⟩
          intro b hb c hc
          rw [List.mem_singleton.1 hc]
          exact hpb b hb
        · intro b hb
          simp only [List.mem_append, List.mem_singleton] at hb
          rcases hb with hb | rfl
          · exact hi.heap.2 b hb
          · exact hp0
      · intro l hl
        simp only at hl ⊢
        by_cases hln : l = n
        · subst hln; simp only [if_true]; exact ⟨hpa, hpe⟩
        · simp only [hln, if_false] at hl ⊢; exact hi.place l hl
      · rw [List.range_succ, List.filter_append]
        simp [hi.calls, hm, Nat.add_assoc]
  · rw [if_neg hm]
    have hmf : mask n = false := by simpa using hm
    refine ⟨?_, ?_, hi.heap, hi.place, hi.ub, ?_, hi.inits⟩
    · rw [List.range_succ, List.filter_append]
      simp [hi.live, hmf]
    · rintro l (h | h)
      · exact hi.null l (Or.inl h)
      · exact hi.null l (Or.inr (by omega))
    · rw [List.range_succ, List.filter_append]
      simp [hi.calls, hmf]

theorem newVarying_inv (hA : Contract A C.T.m.P) (hs : 0 < sizeOf C.T v t) {w : World} (hw : Heap w.live)
    (hfit : ∀ l < C.T.D.W, mask l = true → Small C ((count l).toNat * sizeOf C.T v t)) :
    Inv C v t count mask w C.T.D.W (newVarying A C v t count mask w) := by
  unfold newVarying
  have : ∀ n ≤ C.T.D.W, Inv C v t count mask w n
      ((List.range n).foldl (newLane A C v t count mask) (fun _ => 0, w)) := by
    intro n
    induction n with
    | zero => intro _; exact ⟨by simp, by simp, hw, by simp, rfl, by simp, rfl, rfl⟩
    | succ n ih =>
      intro hn
      rw [List.range_succ, List.foldl_append]
      exact newLane_inv hA hs (hfit n (by omega)) (ih (by omega))
  exact this _ (le_refl _)

/-- **Every running program instance gets memory of its own, or null.**  The others get null.  A block that is given
out has as many bytes as the elements need, is aligned, ends within the address space, and overlaps neither a
block there was nor that of another program instance.  All blocks there were are still there, nothing else is
added, and the allocator is called once for every running program instance. -/
theorem new_varying (hA : Contract A C.T.m.P) (hs : 0 < sizeOf C.T v t) {w : World} (hw : Heap w.live)
    (hfit : ∀ l < C.T.D.W, mask l = true → Small C ((count l).toNat * sizeOf C.T v t)) :
    let ptr := (newVarying A C v t count mask w).1
    let w' := (newVarying A C v t count mask w).2
    let blk := fun l => (⟨ptr l, (count l).toNat * sizeOf C.T v t⟩ : Block)
    (∀ l, mask l = false ∨ C.T.D.W ≤ l → ptr l = 0) ∧
    (∀ l, ptr l ≠ 0 → C.align ∣ ptr l ∧ ptr l + (count l).toNat * sizeOf C.T v t < 2 ^ C.T.m.P ∧
      blk l ∈ w'.live ∧ (∀ b ∈ w.live, Apart b (blk l)) ∧
      ∀ l', ptr l' ≠ 0 → l ≠ l' → Apart (blk l) (blk l')) ∧
    (∀ b, b ∈ w'.live ↔ b ∈ w.live ∨ ∃ l, ptr l ≠ 0 ∧ b = blk l) ∧
    Heap w'.live ∧ w'.ub = w.ub ∧
    w'.calls = w.calls + ((List.range C.T.D.W).filter mask).length := by
  have hi := newVarying_inv (count := count) (mask := mask) hA hs hw hfit
  generalize newVarying A C v t count mask w = r at hi
  obtain ⟨ptr, w'⟩ := r
  have hin : ∀ l, ptr l ≠ 0 → l ∈ (List.range C.T.D.W).filter (fun l => mask l && decide (ptr l ≠ 0)) := by
    intro l hl
    rw [List.mem_filter, List.mem_range]
    refine ⟨?_, ?_⟩
    · by_contra h; exact hl (hi.null l (Or.inr (by omega)))
    · rw [Bool.and_eq_true]
      refine ⟨?_, by simpa using hl⟩
      by_contra h; exact hl (hi.null l (Or.inl (by simpa using h)))
  have hmem : ∀ b, b ∈ w'.live ↔ b ∈ w.live ∨ ∃ l, ptr l ≠ 0 ∧
      b = ⟨ptr l, (count l).toNat * sizeOf C.T v t⟩ := by
    intro b
    rw [hi.live, List.mem_append, List.mem_map]
    constructor
    · rintro (h | ⟨l, hl, rfl⟩)
      · exact Or.inl h
      · rw [List.mem_filter, Bool.and_eq_true, decide_eq_true_eq] at hl
        exact Or.inr ⟨l, hl.2.2, rfl⟩
    · rintro (h | ⟨l, hl, rfl⟩)
      · exact Or.inl h
      · exact Or.inr ⟨l, hin l hl, rfl⟩
  refine ⟨hi.null, ?_, hmem, hi.heap, hi.ub, hi.calls⟩
  intro l hl
  have hh := hi.heap.1
  rw [hi.live, List.pairwise_append] at hh
  refine ⟨(hi.place l hl).1, (hi.place l hl).2, (hmem _).2 (Or.inr ⟨l, hl, rfl⟩), ?_, ?_⟩
  · intro b hb
    exact hh.2.2 b hb _ (List.mem_map.2 ⟨l, hin l hl, rfl⟩)
  · intro l' hl' hne
    have h2 := hh.2.1
    rw [List.pairwise_map] at h2
    have : Std.Symm (fun a b : Nat => Apart ⟨ptr a, (count a).toNat * sizeOf C.T v t⟩
        ⟨ptr b, (count b).toNat * sizeOf C.T v t⟩) := ⟨fun _ _ h => apart_symm h⟩
    exact List.Pairwise.forall h2 (hin l hl) (hin l' hl') hne


/-- A gang of four, of which the second program instance is not running, allocates 1, 3 and 4 `float`s. -/
def demo : Cfg := ⟨Stride.x64 1 32 .p64, .utilUnix, none⟩
def demoCount : Nat → BitVec demo.T.m.A := fun l => BitVec.ofNat 64 (l + 1)
def demoMask : Nat → Bool := fun l => l != 1
def demoWorld : World := ⟨[⟨100, 8⟩], 0, false, [], 0⟩

theorem demo_small : ∀ l < demo.T.D.W, demoMask l = true →
    Small demo ((demoCount l).toNat * sizeOf demo.T .uniform (.atom .float .unbound)) := by
  intro l hl _
  have hl : l < 4 := hl
  have h : (demoCount l).toNat ≤ 4 := by
    show (BitVec.ofNat 64 (l + 1)).toNat ≤ 4
    rw [BitVec.toNat_ofNat, Nat.mod_eq_of_lt (by omega)]; omega
  refine ⟨?_, fun h => absurd h (by decide)⟩
  show (demoCount l).toNat * 4 < 2 ^ 63
  omega

theorem demo_heap : Heap demoWorld.live := ⟨List.pairwise_singleton _ _, by simp [demoWorld]⟩

example : (newVarying (bump 64) demo .uniform (.atom .float .unbound) demoCount demoMask demoWorld).2.live =
      [⟨100, 8⟩, ⟨1760, 4⟩, ⟨30000, 12⟩, ⟨510208, 16⟩] ∧
    (newVarying (bump 64) demo .uniform (.atom .float .unbound) demoCount demoMask demoWorld).1 1 = 0 ∧
    (newVarying (bump 64) demo .uniform (.atom .float .unbound) demoCount demoMask demoWorld).1 2 = 30000 := by
  decide +kernel

/-- `new_varying` and the theorems below apply to it. -/
example := new_varying (count := demoCount) (mask := demoMask) (v := .uniform) (t := .atom .float .unbound)
  (bump_contract 64) (by decide) demo_heap demo_small

/-- **A block is large enough for its elements**: whatever integer `k` below the number of elements is used, `p[k]`
lies in the block, and different elements have different bytes.  Partial: not for `bool`, see `bool_small_wrong`
and `short_bool_small_wrong`. -/
theorem new_elements_partial (hT : C.T.Good) (hv : v ≠ .unbound) (hp : Plain v t) (hA : Contract A C.T.m.P)
    (hs : 0 < (llay C.T.D v t).1) {w : World} (hw : Heap w.live)
    (hfit : ∀ l < C.T.D.W, mask l = true → Small C ((count l).toNat * sizeOf C.T v t)) {l : Nat}
    (hl : (newVarying A C v t count mask w).1 l ≠ 0) {k : Nat} (hk : k < (count l).toNat) {ix : Ix}
    (hix : Value ix k) (vp vi : Bool) :
    let b : Block := ⟨(newVarying A C v t count mask w).1 l, (count l).toNat * sizeOf C.T v t⟩
    ∃ a, Stride.index C.T v t vp vi (BitVec.ofNat C.T.m.P b.addr) ix = some (BitVec.ofNat C.T.m.P a) ∧
      b ∈ (newVarying A C v t count mask w).2.live ∧ a = b.addr + k * (llay C.T.D v t).1 ∧
      a + (llay C.T.D v t).1 ≤ b.addr + b.size ∧ b.addr + b.size < 2 ^ C.T.m.P := by
  have hst := Stride.sizeof_stride_partial hT hv t hp
  have hs' : 0 < sizeOf C.T v t := by rw [hst]; exact hs
  obtain ⟨hnull, hblk, -⟩ := new_varying (count := count) (mask := mask) hA hs' hw hfit
  obtain ⟨-, hend, hmem, -, -⟩ := hblk l hl
  have hlW : l < C.T.D.W ∧ mask l = true := by
    constructor
    · by_contra h; exact hl (hnull l (Or.inr (by omega)))
    · by_contra h; exact hl (hnull l (Or.inl (by simpa using h)))
  have hsm := (hfit l hlW.1 hlW.2).1
  have hle : k * (llay C.T.D v t).1 + (llay C.T.D v t).1 ≤ (count l).toNat * sizeOf C.T v t := by
    rw [hst, ← Nat.succ_mul]; exact Nat.mul_le_mul_right _ hk
  refine ⟨_, ?_, hmem, rfl, by simp only; omega, hend⟩
  rw [Stride.index_ok hst hs vp vi _ hix]
  · unfold at'
    rw [← Nat.cast_mul, BitVec.ofInt_natCast, ← BitVec.ofNat_add]
  · rw [← Nat.cast_mul]; exact Soa.fits_nat (by omega)

end

/-- The third `float` of the third program instance, with a varying index of 8 bits. -/
example : ∃ a, Stride.index demo.T .uniform (.atom .float .unbound) true true (BitVec.ofNat 64 30000) ⟨8, 2#8, false⟩ =
      some (BitVec.ofNat 64 a) ∧ a = 30008 := by
  obtain ⟨a, h1, -, h2, -⟩ := new_elements_partial (A := bump 64) (C := demo) (v := .uniform)
    (t := .atom .float .unbound) (count := demoCount) (mask := demoMask) (Stride.x64_good 1 32 .p64 (by simp)) (by simp)
    (by simp [Plain]) (bump_contract 64) (by decide) demo_heap demo_small (l := 2) (by decide +kernel) (k := 2)
    (by decide) (ix := ⟨8, 2#8, false⟩) ⟨by decide, by simp⟩ true true
  have hp : (newVarying (bump 64) demo .uniform (.atom .float .unbound) demoCount demoMask demoWorld).1 2 = 30000 := by
    decide +kernel
  rw [hp] at h1 h2
  exact ⟨a, h1, h2⟩

/-! ## `delete` -/

theorem free_mid {live base : List Block} {L : List Nat} {g : Nat → Block} (hl : live = base ++ L.map g) {n : Nat}
    (hn : n ∈ L) (h0 : (g n).addr ≠ 0) (hb : ∀ b ∈ base, b.addr ≠ (g n).addr)
    (hL : ∀ l ∈ L, l ≠ n → (g l).addr ≠ (g n).addr) (w : World) (hw : w.live = live) :
    free (g n).addr w = { w with live := base ++ (L.filter (fun l => l != n)).map g } := by
  unfold free
  rw [if_neg h0, if_pos]
  · congr 1
    rw [hw, hl, List.filter_append, List.filter_map, List.filter_eq_self.2]
    · congr 2
      apply List.filter_congr
      intro l hm
      by_cases h : l = n
      · subst h; simp
      · show ((g l).addr != (g n).addr) = (l != n)
        rw [show ((g l).addr != (g n).addr) = true from bne_iff_ne.2 (hL l hm h),
          show (l != n) = true from bne_iff_ne.2 h]
    · intro b hm; simpa using hb b hm
  · rw [hw, hl, List.any_eq_true]
    exact ⟨g n, List.mem_append.2 (Or.inr (List.mem_map.2 ⟨n, hn, rfl⟩)), by simp⟩

/-- `delete` of pointers that lie in a heap, for the program instances of a mask. -/
theorem delete_inv {W : Nat} {base : List Block} {ptr : Nat → Nat} {size : Nat → Nat} {mask : Nat → Bool} {w : World}
    (hlive : w.live = base ++ ((List.range W).filter (fun l => decide (ptr l ≠ 0))).map (fun l => ⟨ptr l, size l⟩))
    (hh : Heap w.live) : ∀ n ≤ W,
    (List.range n).foldl (fun w l => if mask l then free (ptr l) w else w) w =
      { w with live := base ++ ((List.range W).filter
          (fun l => decide (ptr l ≠ 0) && !(decide (l < n) && mask l))).map (fun l => ⟨ptr l, size l⟩) } := by
  intro n
  induction n with
  | zero =>
    intro _
    simp only [List.range_zero, List.foldl_nil, Nat.not_lt_zero, decide_false, Bool.false_and, Bool.not_false,
      Bool.and_true]
    rw [← hlive]
  | succ n ih =>
    intro hn
    rw [List.range_succ, List.foldl_append, ih (by omega)]
    simp only [List.foldl_cons, List.foldl_nil]
    have hstep : ∀ l, (decide (ptr l ≠ 0) && !(decide (l < n + 1) && mask l)) =
        ((decide (ptr l ≠ 0) && !(decide (l < n) && mask l)) && !(decide (l = n) && mask n && decide (ptr n ≠ 0))) := by
      intro l
      by_cases h : l = n
      · subst h; cases mask l <;> simp
      · rw [show decide (l < n + 1) = decide (l < n) by rw [decide_eq_decide]; omega]
        simp [h]
    by_cases hm : mask n = true ∧ ptr n ≠ 0
    · rw [if_pos hm.1]
      have h1 := hh.1
      rw [hlive, List.pairwise_append, List.pairwise_map] at h1
      have hin : ∀ l < W, ptr l ≠ 0 → l ∈ (List.range W).filter (fun l => decide (ptr l ≠ 0)) := by
        intro l hl h0; simp [hl, h0]
      have hsym : Std.Symm (fun a b : Nat => Apart ⟨ptr a, size a⟩ ⟨ptr b, size b⟩) := ⟨fun _ _ h => apart_symm h⟩
      rw [free_mid (g := fun l => ⟨ptr l, size l⟩) (n := n) rfl (by simp [hm.2]; omega) hm.2
        (fun b hb => apart_addr (h1.2.2 b hb _ (List.mem_map.2 ⟨n, hin n (by omega) hm.2, rfl⟩)))
        (fun l hl hne => by
          rw [List.mem_filter, List.mem_range, Bool.and_eq_true, decide_eq_true_eq] at hl
          exact apart_addr (List.Pairwise.forall h1.2.1 (hin l hl.1 hl.2.1) (hin n (by omega) hm.2) hne)) _ rfl]
      congr 2
      rw [List.filter_filter]
      congr 1
      apply List.filter_congr
      intro l _
      rw [hstep l]
      by_cases h : l = n <;> simp [h, hm.1, hm.2]
    · have hw : (if mask n = true then free (ptr n) { w with live := base ++ ((List.range W).filter
          (fun l => decide (ptr l ≠ 0) && !(decide (l < n) && mask l))).map (fun l => ⟨ptr l, size l⟩) }
          else { w with live := base ++ ((List.range W).filter
          (fun l => decide (ptr l ≠ 0) && !(decide (l < n) && mask l))).map (fun l => ⟨ptr l, size l⟩) }) =
          { w with live := base ++ ((List.range W).filter
          (fun l => decide (ptr l ≠ 0) && !(decide (l < n) && mask l))).map (fun l => ⟨ptr l, size l⟩) } := by
        split
        · rename_i h
          have h0 : ptr n = 0 := by by_contra h0; exact hm ⟨h, h0⟩
          unfold free; rw [if_pos h0]
        · rfl
      rw [hw]
      congr 3
      apply List.filter_congr
      intro l _
      rw [hstep l]
      have : (mask n && decide (ptr n ≠ 0)) = false := by
        rw [Bool.and_eq_false_iff]
        by_contra h; push Not at h
        exact hm ⟨by simpa using h.1, by simpa using h.2⟩
      rw [Bool.and_assoc (decide (l = n)), this]; simp

section
variable {A : Alloc} {C : Cfg} {v : Vb} {t : Ty} {count : Nat → BitVec C.T.m.A} {mask : Nat → Bool}

/-- **`delete` gives back the memory of the program instances that run it**, and of no others: after a `new` under
one mask and a `delete` under another, the blocks are those there were before and those of the program instances
that did not run the `delete`.  Nothing undefined happens, whatever the masks and whichever allocations failed. -/
theorem new_delete (hA : Contract A C.T.m.P) (hs : 0 < sizeOf C.T v t) {w : World} (hw : Heap w.live)
    (hfit : ∀ l < C.T.D.W, mask l = true → Small C ((count l).toNat * sizeOf C.T v t)) (mask' : Nat → Bool) :
    let r := newVarying A C v t count mask w
    let w' := deleteVarying C.T.D.W r.1 mask' r.2
    (∀ b, b ∈ w'.live ↔ b ∈ w.live ∨
      ∃ l, r.1 l ≠ 0 ∧ mask' l = false ∧ b = ⟨r.1 l, (count l).toNat * sizeOf C.T v t⟩) ∧
    Heap w'.live ∧ w'.ub = w.ub ∧ w'.calls = r.2.calls ∧
    ((∀ l < C.T.D.W, mask l = true → mask' l = true) → w'.live = w.live) := by
  have hi := newVarying_inv (count := count) (mask := mask) hA hs hw hfit
  generalize newVarying A C v t count mask w = r at hi
  obtain ⟨ptr, w1⟩ := r
  have hm : ∀ l, ptr l ≠ 0 → l < C.T.D.W ∧ mask l = true := by
    intro l hl
    constructor
    · by_contra h; exact hl (hi.null l (Or.inr (by omega)))
    · by_contra h; exact hl (hi.null l (Or.inl (by simpa using h)))
  have hlive : w1.live = w.live ++ ((List.range C.T.D.W).filter (fun l => decide (ptr l ≠ 0))).map
      (fun l => ⟨ptr l, (count l).toNat * sizeOf C.T v t⟩) := by
    rw [hi.live]
    congr 2
    apply List.filter_congr
    intro l _
    by_cases h : ptr l = 0
    · simp [h]
    · simp [h, (hm l h).2]
  have hd := delete_inv (mask := mask') hlive hi.heap C.T.D.W (le_refl _)
  simp only [deleteVarying]
  rw [hd]
  have hsub : (w.live ++ ((List.range C.T.D.W).filter (fun l => decide (ptr l ≠ 0) &&
      !(decide (l < C.T.D.W) && mask' l))).map (fun l => (⟨ptr l, (count l).toNat * sizeOf C.T v t⟩ : Block))).Sublist
      w1.live := by
    rw [hlive]
    apply List.Sublist.append_left
    apply List.Sublist.map
    apply List.monotone_filter_right
    intro l h
    rw [Bool.and_eq_true] at h
    exact h.1
  refine ⟨?_, ⟨hi.heap.1.sublist hsub, fun b hb => hi.heap.2 b (hsub.subset hb)⟩, hi.ub, rfl, ?_⟩
  · intro b
    simp only [List.mem_append, List.mem_map, List.mem_filter, List.mem_range, Bool.and_eq_true, decide_eq_true_eq,
      Bool.not_eq_true']
    constructor
    · rintro (h | ⟨l, ⟨hl, h0, hx⟩, rfl⟩)
      · exact Or.inl h
      · exact Or.inr ⟨l, h0, by simpa [hl] using hx, rfl⟩
    · rintro (h | ⟨l, h0, hx, rfl⟩)
      · exact Or.inl h
      · exact Or.inr ⟨l, ⟨(hm l h0).1, h0, by simp [hx]⟩, rfl⟩
  · intro hcov
    simp only
    rw [List.filter_eq_nil_iff.2]
    · simp
    · intro l hl
      have hl' := List.mem_range.1 hl
      by_cases h : ptr l = 0
      · simp [h]
      · simp [hl', hcov l hl' (hm l h).2]

/-- The third program instance keeps its block. -/
example : (deleteVarying 4 (newVarying (bump 64) demo .uniform (.atom .float .unbound) demoCount demoMask demoWorld).1
      (fun l => l != 2) (newVarying (bump 64) demo .uniform (.atom .float .unbound) demoCount demoMask demoWorld).2).live =
    [⟨100, 8⟩, ⟨30000, 12⟩] := by
  decide +kernel

/-- All have given back what they had, although the mask of the `delete` is larger. -/
example := (new_delete (count := demoCount) (mask := demoMask) (v := .uniform) (t := .atom .float .unbound)
  (bump_contract 64) (by decide) demo_heap demo_small (fun _ => true)).2.2.2.2 (fun _ _ _ => rfl)

/-! ## Initialisers -/

/-- **The initialiser is stored once for every block that was allocated, and nowhere else**, and it is evaluated that
many times. -/
theorem init_varying (W : Nat) (ptr : Nat → Nat) (w : World) :
    initVarying W ptr w =
      { w with stores := w.stores ++ ((List.range W).filter (fun l => decide (ptr l ≠ 0))).map ptr
               evals := w.evals + ((List.range W).filter (fun l => decide (ptr l ≠ 0))).length } := by
  unfold initVarying
  induction W with
  | zero => simp
  | succ n ih =>
    rw [List.range_succ, List.foldl_append, ih, List.filter_append]
    simp only [List.foldl_cons, List.foldl_nil]
    by_cases h : ptr n = 0
    · simp [h]
    · simp [h, Nat.add_assoc]

/-- **`new` with an initialiser stores to the blocks it allocated only**: every store of it goes to the beginning of
the block of one program instance, all those blocks are initialised, and no null pointer is written through. -/
theorem new_init (hA : Contract A C.T.m.P) (hs : 0 < sizeOf C.T v t) {w : World} (hw : Heap w.live)
    (hfit : ∀ l < C.T.D.W, mask l = true → Small C ((count l).toNat * sizeOf C.T v t)) :
    let r := newVarying A C v t count mask w
    let w' := initVarying C.T.D.W r.1 r.2
    w'.live = r.2.live ∧ w'.ub = w.ub ∧
    ∃ new, w'.stores = w.stores ++ new ∧ new.Nodup ∧ w'.evals = w.evals + new.length ∧
      ∀ a, a ∈ new ↔ a ≠ 0 ∧ ∃ l < C.T.D.W, mask l = true ∧ r.1 l = a := by
  have hnv := new_varying (count := count) (mask := mask) hA hs hw hfit
  have hi := newVarying_inv (count := count) (mask := mask) hA hs hw hfit
  generalize newVarying A C v t count mask w = r at hi hnv
  obtain ⟨ptr, w1⟩ := r
  simp only at hnv hi ⊢
  rw [init_varying]
  have h1 : w1.stores = w.stores := hi.inits.1
  have h2 : w1.evals = w.evals := hi.inits.2
  refine ⟨rfl, hi.ub, ((List.range C.T.D.W).filter (fun l => decide (ptr l ≠ 0))).map ptr, by rw [h1], ?_,
    by rw [h2, List.length_map], ?_⟩
  · rw [List.nodup_map_iff_inj_on (List.nodup_range.filter _)]
    intro a ha b hb hab
    by_contra hne
    rw [List.mem_filter, decide_eq_true_eq] at ha hb
    exact apart_addr ((hnv.2.1 a ha.2).2.2.2.2 b hb.2 hne) hab
  · intro a
    simp only [List.mem_map, List.mem_filter, List.mem_range, decide_eq_true_eq]
    constructor
    · rintro ⟨l, ⟨hl, h0⟩, rfl⟩
      refine ⟨h0, l, hl, ?_, rfl⟩
      by_contra h; exact h0 (hi.null l (Or.inl (by simpa using h)))
    · rintro ⟨h0, l, hl, -, rfl⟩
      exact ⟨l, ⟨hl, h0⟩, rfl⟩

end

/-! ## A uniform `new` -/

/-- **A uniform `new` allocates one block**, once for the gang, that overlaps no other; or it fails, nothing is
allocated, and the pointer is null.  Partial: in util.m4 for Unix the pointer is then undefined, see
`uniform_fail_wrong`. -/
theorem new_uniform_partial {A : Alloc} {C : Cfg} {v : Vb} {t : Ty} {count : BitVec C.T.m.A} (hA : Contract A C.T.m.P)
    (hs : 0 < sizeOf C.T v t) {w : World} (hw : Heap w.live) (hfit : Small C (count.toNat * sizeOf C.T v t)) :
    let r := newUniform A C v t count w
    r.2.ub = w.ub ∧ r.2.calls = w.calls + 1 ∧ Heap r.2.live ∧
    ((∃ p, r.1 = some p ∧ p ≠ 0 ∧ C.align ∣ p ∧ p + count.toNat * sizeOf C.T v t < 2 ^ C.T.m.P ∧
      r.2.live = w.live ++ [⟨p, count.toNat * sizeOf C.T v t⟩] ∧
      (∀ b ∈ w.live, Apart b ⟨p, count.toNat * sizeOf C.T v t⟩) ∧
      (deleteUniform p r.2).live = w.live ∧ (deleteUniform p r.2).ub = w.ub ∧
      (initUniform r.1 r.2).ub = w.ub ∧ (initUniform r.1 r.2).stores = w.stores ++ [p]) ∨
     (r.2.live = w.live ∧ r.1 = if C.lib = .utilUnix then none else some 0)) := by
  simp only [newUniform, allocSize_ok hfit.1 hs, uniformRequest_ok hfit, malloc]
  cases hp : A w.live w.calls (count.toNat * sizeOf C.T v t) C.align with
  | none => exact ⟨rfl, rfl, hw, Or.inr ⟨rfl, rfl⟩⟩
  | some p =>
    obtain ⟨hp0, hpa, hpe, hpb⟩ := hA _ _ _ _ _ hp
    refine ⟨rfl, rfl, ⟨?_, ?_⟩, Or.inl ⟨p, rfl, hp0, hpa, hpe, rfl, hpb, ?_, ?_, ?_, rfl⟩⟩
    · simp only
      rw [List.pairwise_append]
      refine ⟨hw.1, List.pairwise_singleton _ _, ?_⟩
      intro b hb c hc
      rw [List.mem_singleton.1 hc]
      exact hpb b hb
    · intro b hb
      simp only [List.mem_append, List.mem_singleton] at hb
      rcases hb with hb | rfl
      · exact hw.2 b hb
      · exact hp0
    · simp only [deleteUniform, free]
      rw [if_neg hp0, if_pos (by simp)]
      simp only [List.filter_append]
      rw [List.filter_eq_self.2]
      · simp
      · intro b hb; simpa using apart_addr (hpb b hb)
    · simp only [deleteUniform, free]
      rw [if_neg hp0, if_pos (by simp)]
    · simp [initUniform, hp0]

example : newUniform (bump 64) demo .varying (.atom .float .unbound) (10#64) demoWorld =
    (some 1760, ⟨[⟨100, 8⟩, ⟨1760, 160⟩], 1, false, [], 0⟩) := by
  decide +kernel

example := new_uniform_partial (C := demo) (v := .varying) (t := .atom .float .unbound) (count := 10#64)
  (bump_contract 64) (by decide) demo_heap ⟨by decide, fun h => absurd h (by decide)⟩

/-! ## Alignment -/

/-- Without `--force-alignment` the alignment is one that `posix_memalign` takes. -/
theorem align_valid {C : Cfg} (hT : C.T.Good) (hf : C.force = none) :
    (∃ k, C.align = 2 ^ k) ∧ C.T.m.P / 8 ∣ C.align := by
  obtain ⟨w, hw⟩ := hT.gang
  have h1 : C.T.D.W ≠ 1 := by
    have := Nat.two_pow_pos w
    rw [hw, Nat.pow_succ]; omega
  have h : C.align = 2 ^ w * 8 := by
    unfold Cfg.align
    rw [hf]
    simp only [h1, if_false]
    rw [hw, Nat.pow_succ]; omega
  refine ⟨⟨w + 3, by rw [h, Nat.pow_add]⟩, ?_⟩
  rw [h]
  have : C.T.m.P / 8 ∣ 8 := by cases C.T.m <;> simp [Mode.P]
  exact this.trans (Dvd.intro_left _ rfl)

/-- **The pointers are aligned for the type.**  Partial: if its alignment divides four times the size of the gang (or
`--force-alignment`), see `align_wrong`. -/
theorem new_aligned_partial {A : Alloc} {C : Cfg} {v : Vb} {t : Ty} {count : Nat → BitVec C.T.m.A} {mask : Nat → Bool}
    (hA : Contract A C.T.m.P) (hs : 0 < sizeOf C.T v t) {w : World} (hw : Heap w.live)
    (hfit : ∀ l < C.T.D.W, mask l = true → Small C ((count l).toNat * sizeOf C.T v t))
    (hd : (llay C.T.D v t).2 ∣ C.align) (l : Nat) :
    (llay C.T.D v t).2 ∣ (newVarying A C v t count mask w).1 l := by
  by_cases h : (newVarying A C v t count mask w).1 l = 0
  · rw [h]; exact Dvd.intro _ (Nat.mul_zero _)
  · exact hd.trans ((new_varying (count := count) (mask := mask) hA hs hw hfit).2.1 l h).1

example (l : Nat) : 16 ∣ (newVarying (bump 64) demo .varying (.atom .float .unbound) (fun _ => 1#64) demoMask
    demoWorld).1 l :=
  new_aligned_partial (C := demo) (v := .varying) (t := .atom .float .unbound) (count := fun _ => 1#64)
    (bump_contract 64) (by decide) demo_heap (fun _ _ _ => ⟨by decide, fun h => absurd h (by decide)⟩) (by decide) l

/-- For all scalars of at most four bytes that is the case, for gangs and for single values. -/
theorem align_small {C : Cfg} (hT : C.T.Good) (hf : C.force = none)
    (ha : ∀ k, C.T.D.align k ∣ C.T.D.size k) (k : Header.Scal) (hk : C.T.D.size k ≤ 4)
    (v : Vb) (hv : v = .uniform ∨ v = .varying) : (llay C.T.D v (.atom k .unbound)).2 ∣ C.align := by
  obtain ⟨w, hw⟩ := hT.gang
  have h1 : C.T.D.W ≠ 1 := by
    have := Nat.two_pow_pos w
    rw [hw, Nat.pow_succ]; omega
  have h : C.align = C.T.D.W * 4 := by
    unfold Cfg.align; rw [hf]; simp only [h1, if_false]
  have h4 : C.T.D.size k ∣ 4 := by
    obtain ⟨e, he⟩ := hT.size k
    rw [he] at hk ⊢
    have : e ≤ 2 := by
      by_contra hc
      have := Nat.pow_le_pow_right (show 0 < 2 by norm_num) (show 3 ≤ e by omega)
      omega
    exact pow_dvd_pow 2 this
  rw [h, llay]
  rcases hv with rfl | rfl
  · exact ((ha k).trans h4).trans (Dvd.intro_left _ rfl)
  · obtain ⟨e, he⟩ := Stride.gang_pow hT k
    show C.T.D.valign (C.T.D.W * C.T.D.size k) ∣ _
    have h2 : C.T.D.valign (C.T.D.W * C.T.D.size k) ∣ C.T.D.W * C.T.D.size k := by
      rw [he]; exact hT.align e
    exact h2.trans (Nat.mul_dvd_mul_left _ h4)

/-! ## Where the code is wrong -/

/-- A number of bytes that does not fit in a signed offset: the multiplication overflows, and its result is poison. -/
theorem overflow_wrong (A : Alloc) {C : Cfg} {v : Vb} {t : Ty} {c : BitVec C.T.m.A} (hc : c.toNat < 2 ^ (C.T.m.A - 1))
    (h : 2 ^ (C.T.m.A - 1) ≤ c.toNat * sizeOf C.T v t) (w : World) :
    (newUniform A C v t c w).2.ub = true ∧ (newUniform A C v t c w).1 = none := by
  have hp : 2 ^ C.T.m.A = 2 * 2 ^ (C.T.m.A - 1) := by
    have := Soa.A_pos C.T.m
    rw [← Nat.pow_succ']; congr 1; omega
  have hi : c.toInt = c.toNat := by
    rw [BitVec.toInt_eq_toNat_of_lt]; omega
  have hn : ¬ Fits C.T.m.A (c.toInt * sizeOf C.T v t) := by
    rw [hi, ← Nat.cast_mul]
    intro hx
    have := hx.2
    rw [← Nat.cast_ofNat, ← Nat.cast_pow, Nat.cast_lt] at this
    omega
  simp only [newUniform, allocSize, if_neg hn, and_self]

/-- 2 GiB of `float`s with 32-bit addressing, which is the default on 64-bit targets. -/
example (A : Alloc) (w : World) := overflow_wrong A (C := ⟨Stride.x64 1 32 .force32, .utilUnix, none⟩)
  (v := .uniform) (t := .atom .float .unbound) (c := 0x20000000#32) (by decide) (by decide) w

/-- The functions of generic.ispc ask for the number of bytes modulo 2³²: with 64-bit offsets a large block is too
small. -/
theorem generic_wrong {A : Alloc} {C : Cfg} (hg : C.lib.generic = true) {v : Vb} {t : Ty} {c : BitVec C.T.m.A}
    (hs : 0 < sizeOf C.T v t) (h : c.toNat * sizeOf C.T v t < 2 ^ (C.T.m.A - 1)) {w : World} {p : Nat}
    (hp : A w.live w.calls (c.toNat * sizeOf C.T v t % 2 ^ 32) C.align = some p) :
    newUniform A C v t c w =
      (some p, { w with live := w.live ++ [⟨p, c.toNat * sizeOf C.T v t % 2 ^ 32⟩], calls := w.calls + 1 }) := by
  have hA := Soa.A_pos C.T.m
  have hpow : 2 ^ C.T.m.A = 2 * 2 ^ (C.T.m.A - 1) := by
    rw [← Nat.pow_succ']; congr 1; omega
  have hA64 : C.T.m.A ≤ 64 := by cases C.T.m <;> simp [Mode.A]
  have hq : uniformRequest C (BitVec.ofNat C.T.m.A (c.toNat * sizeOf C.T v t)) = c.toNat * sizeOf C.T v t % 2 ^ 32 := by
    unfold uniformRequest
    rw [hg, Bool.true_or, if_pos rfl, BitVec.signExtend_eq_setWidth_of_msb_false]
    · rw [BitVec.toNat_setWidth, BitVec.toNat_setWidth, BitVec.toNat_ofNat, Nat.mod_eq_of_lt (a := _ * _) (by omega),
        Nat.mod_mod_of_dvd _ (by norm_num : (2 : Nat) ^ 32 ∣ 2 ^ 64)]
    · rw [BitVec.msb_eq_false_iff_two_mul_lt, BitVec.toNat_ofNat, Nat.mod_eq_of_lt (by omega)]
      omega
  simp only [newUniform, allocSize_ok h hs, hq, malloc, hp]

/-- 4 GiB and four bytes: four bytes are allocated. -/
example : newUniform (bump 64) ⟨Stride.x64 1 32 .p64, .genericUnix, none⟩ .uniform (.atom .float .unbound)
    (0x40000001#64) ⟨[], 0, false, [], 0⟩ = (some 16, ⟨[⟨16, 4⟩], 1, false, [], 0⟩) := by
  decide +kernel

/-- A uniform `new` that fails: in util.m4 for Unix its result is undefined, and in all libraries an initialiser is
stored through it. -/
theorem uniform_fail_wrong {A : Alloc} {C : Cfg} {v : Vb} {t : Ty} {c : BitVec C.T.m.A}
    (hs : 0 < sizeOf C.T v t) (hfit : Small C (c.toNat * sizeOf C.T v t)) {w : World}
    (hf : A w.live w.calls (c.toNat * sizeOf C.T v t) C.align = none) :
    (C.lib = .utilUnix → (newUniform A C v t c w).1 = none) ∧
    (initUniform (newUniform A C v t c w).1 (newUniform A C v t c w).2).ub = true := by
  simp only [newUniform, allocSize_ok hfit.1 hs, uniformRequest_ok hfit, malloc, hf]
  constructor
  · intro h; simp [h]
  · by_cases h : C.lib = .utilUnix <;> simp [h, initUniform]

theorem free_ub (p : Nat) (w : World) (h : w.ub = true) : (free p w).ub = true := by
  unfold free; split_ifs <;> simp [h]

theorem delete_ub (ptr : Nat → Nat) (mask : Nat → Bool) (L : List Nat) (w : World) (h : w.ub = true) :
    (L.foldl (fun w l => if mask l then free (ptr l) w else w) w).ub = true := by
  induction L generalizing w with
  | nil => exact h
  | cons l L ih =>
    simp only [List.foldl_cons]
    apply ih
    split
    · exact free_ub _ _ h
    · exact h

theorem delete_gone {p : Nat} (hp : p ≠ 0) (mask : Nat → Bool) (L : List Nat) (w : World)
    (h : ∀ b ∈ w.live, b.addr ≠ p) (hL : 1 ≤ (L.filter mask).length) :
    (L.foldl (fun w l => if mask l then free p w else w) w).ub = true := by
  induction L with
  | nil => simp at hL
  | cons l L ih =>
    simp only [List.foldl_cons]
    by_cases hm : mask l = true
    · rw [if_pos hm]
      apply delete_ub (fun _ => p)
      unfold free
      rw [if_neg hp, if_neg]
      rw [List.any_eq_true]
      rintro ⟨b, hb, he⟩
      exact h b hb (by simpa using he)
    · rw [if_neg hm]
      apply ih
      simpa [List.filter_cons, hm] using hL

/-- One block that several program instances delete, as with a uniform pointer that has become varying: it is freed
twice. -/
theorem smear_delete_wrong {p : Nat} (hp : p ≠ 0) (W : Nat) (mask : Nat → Bool) (w : World)
    (h2 : 2 ≤ ((List.range W).filter mask).length) : (deleteVarying W (fun _ => p) mask w).ub = true := by
  unfold deleteVarying
  generalize List.range W = L at h2
  induction L with
  | nil => simp at h2
  | cons l L ih =>
    simp only [List.foldl_cons]
    by_cases hm : mask l = true
    · rw [if_pos hm]
      have hL : 1 ≤ (L.filter mask).length := by
        simp only [List.filter_cons, hm, if_true, List.length_cons] at h2; omega
      by_cases ha : w.live.any (fun b => b.addr == p) = true
      · apply delete_gone hp _ _ _ _ hL
        unfold free
        rw [if_neg hp, if_pos ha]
        intro b hb
        simpa using (List.mem_filter.1 hb).2
      · apply delete_ub (fun _ => p)
        unfold free
        rw [if_neg hp, if_neg ha]
    · rw [if_neg hm]
      apply ih
      simpa [List.filter_cons, hm] using h2

/-- If `sizeof` is less than the distance of elements, the last element sticks out of the block. -/
theorem short_block {C : Cfg} {v : Vb} {t : Ty} (h : sizeOf C.T v t < (llay C.T.D v t).1) (p : BitVec C.T.m.P) {c : Nat}
    (hc : 0 < c) : ∃ o,
      Stride.element C.T v t false false p ⟨C.T.m.P, BitVec.ofNat C.T.m.P (c - 1), false⟩ =
        some (p + BitVec.ofNat C.T.m.P o) ∧ c * sizeOf C.T v t < o + (llay C.T.D v t).1 := by
  refine ⟨(c - 1) * (llay C.T.D v t).1, ?_, ?_⟩
  · simp only [Stride.element, Bool.or_self, Bool.false_eq_true, if_false, Stride.ugep]
    congr 2
    simp [resize, BitVec.ofNat_mul]
  · rw [← Nat.succ_mul, show (c - 1).succ = c by omega]
    exact Nat.mul_lt_mul_of_pos_left h hc

/-- `new bool<n>[c]`: too small, on every target. -/
theorem short_bool_small_wrong {C : Cfg} (hT : C.T.Good) (n : Nat) (p : BitVec C.T.m.P) {c : Nat} (hc : 0 < c) :
    ∃ o, Stride.element C.T .uniform (.vec .bool n .unbound) false false p
        ⟨C.T.m.P, BitVec.ofNat C.T.m.P (c - 1), false⟩ = some (p + BitVec.ofNat C.T.m.P o) ∧
      c * sizeOf C.T .uniform (.vec .bool n .unbound) < o + (llay C.T.D .uniform (.vec .bool n .unbound)).1 :=
  short_block (Stride.short_bool_wrong hT n) p hc

/-- `new varying bool[c]`: too small, on targets whose masks have one bit for every program instance. -/
theorem bool_small_wrong {C : Cfg} (hT : C.T.Good) (hM : C.T.M = 1) (p : BitVec C.T.m.P) {c : Nat} (hc : 0 < c) :
    ∃ o, Stride.element C.T .varying (.atom .bool .unbound) false false p
        ⟨C.T.m.P, BitVec.ofNat C.T.m.P (c - 1), false⟩ = some (p + BitVec.ofNat C.T.m.P o) ∧
      c * sizeOf C.T .varying (.atom .bool .unbound) < o + (llay C.T.D .varying (.atom .bool .unbound)).1 := by
  apply short_block _ p hc
  have hsz : (llay C.T.D .varying (.atom .bool .unbound)).1 = C.T.D.W := by
    rw [llay]; show (C.T.D.scalar .bool .varying).1 = _
    rw [Stride.gang_scalar hT, hT.bool, Nat.mul_one]
  rw [hsz]
  simp only [Stride.sizeOf, Vb.resolve, Stride.scalarSize, if_true, hM, Stride.bytes]
  obtain ⟨w, hw⟩ := hT.gang
  have := Nat.two_pow_pos w
  rw [hw, Nat.pow_succ]
  omega

/-- A gang of `double`s is aligned to eight bytes for every program instance, but `new` aligns to four: a store of the
whole gang, which is compiled for the alignment of the type (src/ctx.cpp:3313-3341), may fault. -/
theorem align_wrong (w M : Nat) (m : Mode) (lib : Lib) (hw : w ≤ 16) :
    let C : Cfg := ⟨Stride.x64 w M m, lib, none⟩
    ∃ A, Contract A C.T.m.P ∧ ∃ p, (newUniform A C .varying (.atom .double .unbound) (1#C.T.m.A) ⟨[], 0, false, [], 0⟩).1 = some p ∧
      p ≠ 0 ∧ ¬ (llay C.T.D .varying (.atom .double .unbound)).2 ∣ p := by
  intro C
  have hw2 : 2 ^ (w + 1) ≤ 2 ^ 17 := Nat.pow_le_pow_right (by norm_num) (by omega)
  have hwp := Nat.two_pow_pos w
  have hw1 : 2 ^ (w + 1) = 2 * 2 ^ w := Nat.pow_succ'
  have hsz : sizeOf C.T .varying (.atom .double .unbound) = 2 ^ (w + 1) * 8 := rfl
  have hal : (llay C.T.D .varying (.atom .double .unbound)).2 = 2 ^ (w + 1) * 8 := by
    rw [llay]
    show 2 ^ Nat.clog 2 (2 ^ (w + 1) * 8) = _
    rw [show 2 ^ (w + 1) * 8 = 2 ^ (w + 4) by rw [show w + 4 = w + 1 + 3 by omega, Nat.pow_add _ (w + 1)], Nat.clog_pow 2 _ (by norm_num)]
  have hca : C.align = 2 ^ (w + 1) * 4 := by
    have hW : C.T.D.W = 2 ^ (w + 1) := rfl
    have hF : C.force = none := rfl
    unfold Cfg.align
    rw [hF]
    simp only
    rw [hW, if_neg (by omega)]
  have h31 : 2 ^ 31 ≤ 2 ^ (C.T.m.A - 1) := Nat.pow_le_pow_right (by norm_num) (by
    show 31 ≤ m.A - 1
    cases m <;> simp [Mode.A])
  have hP : 2 ^ 32 ≤ 2 ^ C.T.m.P := Nat.pow_le_pow_right (by norm_num) (by
    show 32 ≤ m.P
    cases m <;> simp [Mode.P])
  have h1 : (1#C.T.m.A).toNat = 1 := by
    show (1#m.A).toNat = 1
    cases m <;> rfl
  have hfit : Small C ((1#C.T.m.A).toNat * sizeOf C.T .varying (.atom .double .unbound)) := by
    rw [h1, hsz]
    exact ⟨by omega, fun _ => by omega⟩
  refine ⟨bump C.T.m.P, bump_contract _, 2 ^ (w + 1) * 4, ?_, by omega, ?_⟩
  · have hq := uniformRequest_ok hfit
    have hz := allocSize_ok hfit.1 (by rw [hsz]; omega)
    rw [h1, hsz, Nat.one_mul] at hq hz
    simp only [newUniform, hz, hq, malloc, bump, List.map_nil, List.sum_nil, Nat.add_zero, Nat.mul_one, hca]
    rw [if_pos ⟨by omega, by omega⟩]
  · rw [hal]
    intro h
    have := Nat.le_of_dvd (by omega) h
    omega

/-- `--force-alignment` is not checked: with an alignment that `posix_memalign` does not take, no `new` ever succeeds. -/
theorem force_wrong {A : Alloc} {C : Cfg} (hA : Posix A C.T.m.P) {a : Nat} (hf : C.force = some a)
    (ha : ¬ ((∃ k, a = 2 ^ k) ∧ C.T.m.P / 8 ∣ a)) (v : Vb) (t : Ty) (count : Nat → BitVec C.T.m.A)
    (mask : Nat → Bool) (w : World) :
    (newVarying A C v t count mask w).2.live = w.live ∧ ∀ l, (newVarying A C v t count mask w).1 l = 0 := by
  have hca : C.align = a := by unfold Cfg.align; rw [hf]
  unfold newVarying
  generalize List.range C.T.D.W = L
  suffices h : ∀ st : (Nat → Nat) × World, st.2.live = w.live → (∀ l, st.1 l = 0) →
      (L.foldl (newLane A C v t count mask) st).2.live = w.live ∧
      ∀ l, (L.foldl (newLane A C v t count mask) st).1 l = 0 from h _ rfl (fun _ => rfl)
  induction L with
  | nil => intro st h1 h2; exact ⟨h1, h2⟩
  | cons l L ih =>
    intro st h1 h2
    simp only [List.foldl_cons]
    have hx : (newLane A C v t count mask st l).2.live = w.live ∧ ∀ i, (newLane A C v t count mask st l).1 i = 0 := by
      unfold newLane
      split
      · split
        · exact ⟨h1, h2⟩
        · simp only [malloc]
          rw [hca, hA _ _ _ _ ha]
          exact ⟨h1, h2⟩
      · exact ⟨h1, h2⟩
    exact ih _ hx.1 hx.2

example (A : Alloc) (hA : Posix A 64) := force_wrong (C := ⟨Stride.x64 1 32 .p64, .utilUnix, some 4⟩) hA rfl
  (by rintro ⟨-, h⟩; revert h; decide)

/-- The user's guide says that `uniform new float[10]` allocates ten gangs; it allocates ten values
(docs/ispc.rst:4210-4220). -/
theorem guide_wrong {T : Tgt} (hf : T.D.size .float = 4) : 10 * sizeOf T allocVb (.atom .float .unbound) = 40 := by
  simp [Stride.sizeOf, allocVb, Vb.resolve, Stride.scalarSize, hf]

end Ispc.New
