import Verif.Builtins.AtomicsLane

/-!
# memcpy, memmove and memset (C35)

`stdlib/stdlib.ispc:828-1020`.  Memory is a function from 64-bit addresses to bytes.  Access to unallocated memory is not
modelled.  On targets other than Xe the work is done by LLVM's intrinsics (`builtins/util.m4:5463-5502`,
`builtins/generic.ispc:565-582`), which read the length as unsigned; `llvm.memcpy` of partly overlapping ranges is undefined.
The theorems are about non-negative lengths.  The 32- and 64-bit variants are the two widths of `count`.
-/

namespace Ispc.MemOps

open Ispc.Vec
open Ispc.ForeachActive (Mask movmsk activeLanes activeLanes_spec St foreachActive bodyFor foreach_active_serialises)
open Ispc.Atomics (nodup_activeLanes foldlM_some)

variable {W c : Nat}

abbrev Addr := BitVec 64
abbrev BMem := Addr → BitVec 8

/-! ## Model -/

def BMem.set (m : BMem) (p : Addr) (x : BitVec 8) : BMem := fun q => if q = p then x else m q

/-- `for (j = 0; j < count; j++) dst[j] = src[j];` (stdlib.ispc:830-832, 840-842, 858-860, 877-879, 889-891, 905-907), `n` iterations
left, at iteration `j`. -/
def fwd (d s : Addr) : Nat → Nat → BMem → BMem
  | 0, _, m => m
  | n + 1, j, m => fwd d s n (j + 1) (m.set (d + BitVec.ofNat 64 j) (m (s + BitVec.ofNat 64 j)))

/-- `for (j = count - 1; j >= 0; j--) dst[j] = src[j];` (stdlib.ispc:893-895, 909-911, 934-936, 960-962). -/
def bwd (d s : Addr) : Nat → BMem → BMem
  | 0, m => m
  | n + 1, m => bwd d s n (m.set (d + BitVec.ofNat 64 n) (m (s + BitVec.ofNat 64 n)))

/-- `for (j = 0; j < count; j++) ptr[j] = val;` (stdlib.ispc:972-974, 982-984, 997-999, 1013-1015). -/
def fill (d : Addr) (x : BitVec 8) : Nat → Nat → BMem → BMem
  | 0, _, m => m
  | n + 1, j, m => fill d x n (j + 1) (m.set (d + BitVec.ofNat 64 j) x)

/-- Number of iterations of a loop whose bound is the signed `count`. -/
def iters (count : BitVec c) : Nat := count.toInt.toNat

/-- `llvm.memmove`: all bytes are read before any is written. -/
def llvmMemmove (m : BMem) (d s : Addr) (n : Nat) : BMem := fun p => if (p - d).toNat < n then m (s + (p - d)) else m p

/-- `llvm.memcpy`: undefined for ranges that overlap without being equal. -/
def llvmMemcpy (m : BMem) (d s : Addr) (n : Nat) : Option BMem :=
  if d = s ∨ (n ≤ (d - s).toNat ∧ n ≤ (s - d).toNat) then some (llvmMemmove m d s n) else none

/-- `llvm.memset`. -/
def llvmMemset (m : BMem) (d : Addr) (x : BitVec 8) (n : Nat) : BMem := fun p => if (p - d).toNat < n then x else m p

/-- `memcpy`, `memcpy64` with uniform arguments (stdlib.ispc:828-846). -/
def memcpyU (xe : Bool) (m : BMem) (d s : Addr) (count : BitVec c) : Option BMem :=
  if xe then some (fwd d s (iters count) 0 m) else llvmMemcpy m d s count.toNat

/-- `memmove`, `memmove64` with uniform arguments (stdlib.ispc:886-916); `(size_t)count` sign-extends. -/
def memmoveU (xe : Bool) (m : BMem) (d s : Addr) (count : BitVec c) : Option BMem :=
  if xe then
    some (if (count.signExtend 64).toNat ≤ (d - s).toNat then fwd d s (iters count) 0 m else bwd d s (iters count) m)
  else some (llvmMemmove m d s count.toNat)

/-- `memset`, `memset64` with uniform arguments (stdlib.ispc:970-988). -/
def memsetU (xe : Bool) (m : BMem) (d : Addr) (x : BitVec 8) (count : BitVec c) : Option BMem :=
  if xe then some (fill d x (iters count) 0 m) else some (llvmMemset m d x count.toNat)

/-- `da[programIndex] = dst;` (stdlib.ispc:849-853, 868-872, 919-923, 945-949, 991-992, 1007-1008): a masked scatter into an
uninitialised array. -/
def ptrArr (m : Mask W) (p : Vec W Addr) : Vec W (Option Addr) := fun l => if m l then some (p l) else none

/-- `memcpy`, `memcpy64` with varying arguments (stdlib.ispc:848-884). -/
def memcpyV (xe : Bool) (fm im : Mask W) (dst src : Vec W Addr) (count : Vec W (BitVec c)) (m : BMem) : Option BMem :=
  let da := ptrArr (fun l => im l && fm l) dst
  let sa := ptrArr (fun l => im l && fm l) src
  (foreachActive fm (fun i _ (σ : St W BMem) => do
    let d ← (← extract da i)
    let s ← (← extract sa i)
    let n ← extract count i
    let m ← memcpyU xe σ.data d s n
    some { σ with data := m }) W ⟨im, m⟩).map St.data

/-- The forward loop of the varying `memmove` on Xe (stdlib.ispc:930-932, 956-958): the test is `j < count` with the *varying*
`count`, so it is a varying loop that runs while some instance of its mask passes the test. -/
def fwdVarying (count : Vec W (BitVec c)) (d s : Addr) : Nat → Nat → Mask W → BMem → Option BMem
  | 0, _, _, _ => none
  | k + 1, j, mask, m =>
    let mask' : Mask W := fun l => mask l && decide ((j : Int) < (count l).toInt)
    if movmsk mask' = 0#64 then some m
    else fwdVarying count d s k (j + 1) mask' (m.set (d + BitVec.ofNat 64 j) (m (s + BitVec.ofNat 64 j)))

/-- `memmove`, `memmove64` with varying arguments (stdlib.ispc:918-968); `2 ^ c` bounds the number of iterations. -/
def memmoveV (xe : Bool) (fm im : Mask W) (dst src : Vec W Addr) (count : Vec W (BitVec c)) (m : BMem) : Option BMem :=
  let da := ptrArr (fun l => im l && fm l) dst
  let sa := ptrArr (fun l => im l && fm l) src
  (foreachActive fm (fun i full (σ : St W BMem) => do
    let d ← (← extract da i)
    let s ← (← extract sa i)
    let n ← extract count i
    let m ← if xe then
        if (n.signExtend 64).toNat ≤ (d - s).toNat then fwdVarying count d s (2 ^ c) 0 full σ.data
        else some (bwd d s (iters n) σ.data)
      else some (llvmMemmove σ.data d s n.toNat)
    some { σ with data := m }) W ⟨im, m⟩).map St.data

/-- `memset`, `memset64` with varying arguments (stdlib.ispc:990-1020). -/
def memsetV (xe : Bool) (fm im : Mask W) (ptr : Vec W Addr) (val : Vec W (BitVec 8)) (count : Vec W (BitVec c)) (m : BMem) :
    Option BMem :=
  let pa := ptrArr (fun l => im l && fm l) ptr
  (foreachActive fm (fun i _ (σ : St W BMem) => do
    let d ← (← extract pa i)
    let x ← extract val i
    let n ← extract count i
    let m ← memsetU xe σ.data d x n
    some { σ with data := m }) W ⟨im, m⟩).map St.data

/-! ## Specification -/

/-- `p` is one of the `n` bytes from `d` on. -/
def InRange (p d : Addr) (n : Nat) : Prop := ∃ k < n, p = d + BitVec.ofNat 64 k

/-- `m'` is `m` with the `n` bytes at `s` (as they were before) copied to `d`. -/
def IsCopy (m m' : BMem) (d s : Addr) (n : Nat) : Prop :=
  (∀ k < n, m' (d + BitVec.ofNat 64 k) = m (s + BitVec.ofNat 64 k)) ∧ ∀ p, ¬ InRange p d n → m' p = m p

/-- `m'` is `m` with the `n` bytes at `d` set to `x`. -/
def IsFill (m m' : BMem) (d : Addr) (x : BitVec 8) (n : Nat) : Prop :=
  (∀ k < n, m' (d + BitVec.ofNat 64 k) = x) ∧ ∀ p, ¬ InRange p d n → m' p = m p

/-! ## Proofs: loops -/

theorem inRange_iff {p d : Addr} {n : Nat} (hn : n ≤ 2 ^ 64) : InRange p d n ↔ (p - d).toNat < n := by
  constructor
  · rintro ⟨k, hk, rfl⟩
    have : (d + BitVec.ofNat 64 k - d).toNat = k := by
      have : d + BitVec.ofNat 64 k - d = BitVec.ofNat 64 k := by bv_omega
      rw [this, BitVec.toNat_ofNat, Nat.mod_eq_of_lt (by omega)]
    omega
  · intro h
    exact ⟨(p - d).toNat, h, by rw [BitVec.ofNat_toNat, BitVec.setWidth_eq]; bv_omega⟩

theorem memmove_isCopy (m : BMem) (d s : Addr) {n : Nat} (hn : n ≤ 2 ^ 64) : IsCopy m (llvmMemmove m d s n) d s n := by
  refine ⟨?_, ?_⟩
  · intro k hk
    unfold llvmMemmove
    have : d + BitVec.ofNat 64 k - d = BitVec.ofNat 64 k := by bv_omega
    rw [this, BitVec.toNat_ofNat, Nat.mod_eq_of_lt (by omega : k < 2 ^ 64), if_pos hk]
  · intro p hp
    rw [inRange_iff hn] at hp
    unfold llvmMemmove
    rw [if_neg hp]

theorem isCopy_unique {m m' : BMem} {d s : Addr} {n : Nat} (hn : n ≤ 2 ^ 64) (h : IsCopy m m' d s n) :
    m' = llvmMemmove m d s n := by
  funext p
  have hm := memmove_isCopy m d s hn
  by_cases hp : InRange p d n
  · obtain ⟨k, hk, rfl⟩ := hp
    rw [h.1 k hk, hm.1 k hk]
  · rw [h.2 p hp, hm.2 p hp]

theorem fwd_eq (m0 : BMem) (d s : Addr) (N : Nat) (hN : N ≤ 2 ^ 64) (hδ : d = s ∨ N ≤ (d - s).toNat) :
    ∀ (n j : Nat), j + n = N → fwd d s n j (llvmMemmove m0 d s j) = llvmMemmove m0 d s N := by
  intro n
  induction n with
  | zero => intro j h; rw [← h]; rfl
  | succ n ih =>
    intro j h
    rw [fwd]
    have e : (llvmMemmove m0 d s j).set (d + BitVec.ofNat 64 j) (llvmMemmove m0 d s j (s + BitVec.ofNat 64 j)) =
        llvmMemmove m0 d s (j + 1) := by
      have hr : llvmMemmove m0 d s j (s + BitVec.ofNat 64 j) = m0 (s + BitVec.ofNat 64 j) := by
        unfold llvmMemmove
        rw [if_neg]
        rcases hδ with rfl | hδ
        · have : d + BitVec.ofNat 64 j - d = BitVec.ofNat 64 j := by bv_omega
          rw [this, BitVec.toNat_ofNat, Nat.mod_eq_of_lt (by omega : j < 2 ^ 64)]
          omega
        · bv_omega
      funext p
      unfold BMem.set
      rw [hr]
      by_cases hp : p = d + BitVec.ofNat 64 j
      · rw [if_pos hp]
        unfold llvmMemmove
        have : p - d = BitVec.ofNat 64 j := by bv_omega
        rw [this, BitVec.toNat_ofNat, Nat.mod_eq_of_lt (by omega : j < 2 ^ 64), if_pos (by omega)]
      · rw [if_neg hp]
        have hne : (p - d).toNat ≠ j := fun h => hp (by
          have : BitVec.ofNat 64 j = p - d := by rw [← h, BitVec.ofNat_toNat, BitVec.setWidth_eq]
          rw [this]; bv_omega)
        unfold llvmMemmove
        by_cases hlt : (p - d).toNat < j
        · rw [if_pos hlt, if_pos (by omega)]
        · rw [if_neg hlt, if_neg (by omega)]
    rw [e]
    exact ih (j + 1) (by omega)

theorem memmove_zero (m : BMem) (d s : Addr) : llvmMemmove m d s 0 = m := by
  funext p; unfold llvmMemmove; rw [if_neg (by omega)]

/-- Copying upwards is right when the destination is not inside the source, cyclically. -/
theorem fwd_copy (m : BMem) (d s : Addr) (n : Nat) (hn : n ≤ 2 ^ 64) (hδ : d = s ∨ n ≤ (d - s).toNat) :
    fwd d s n 0 m = llvmMemmove m d s n := by
  have := fwd_eq m d s n hn hδ n 0 (by omega)
  rwa [memmove_zero] at this

/-- The state of the downward loop: bytes from `j` on have been copied. -/
theorem bwd_eq (m0 : BMem) (d s : Addr) (N : Nat) (hN : N ≤ 2 ^ 63) (hδ : (d - s).toNat < N) :
    ∀ (j : Nat) (m : BMem), j ≤ N →
      (∀ p, m p = if j ≤ (p - d).toNat ∧ (p - d).toNat < N then m0 (s + (p - d)) else m0 p) →
      bwd d s j m = llvmMemmove m0 d s N := by
  intro j
  induction j with
  | zero =>
    intro m _ h
    funext p
    rw [bwd, h p]
    unfold llvmMemmove
    simp only [Nat.zero_le, true_and]
  | succ j ih =>
    intro m hj h
    rw [bwd]
    refine ih _ (by omega) fun p => ?_
    have hr : m (s + BitVec.ofNat 64 j) = m0 (s + BitVec.ofNat 64 j) := by
      rw [h, if_neg]
      bv_omega
    unfold BMem.set
    rw [hr]
    by_cases hp : p = d + BitVec.ofNat 64 j
    · rw [if_pos hp]
      have : p - d = BitVec.ofNat 64 j := by bv_omega
      rw [this, BitVec.toNat_ofNat, Nat.mod_eq_of_lt (by omega : j < 2 ^ 64), if_pos (by omega)]
    · rw [if_neg hp, h p]
      have hne : (p - d).toNat ≠ j := fun h => hp (by
        have : BitVec.ofNat 64 j = p - d := by rw [← h, BitVec.ofNat_toNat, BitVec.setWidth_eq]
        rw [this]; bv_omega)
      by_cases hlt : j + 1 ≤ (p - d).toNat ∧ (p - d).toNat < N
      · rw [if_pos hlt, if_pos (by omega)]
      · rw [if_neg hlt, if_neg (by omega)]

theorem bwd_copy (m : BMem) (d s : Addr) (n : Nat) (hn : n ≤ 2 ^ 63) (hδ : (d - s).toNat < n) :
    bwd d s n m = llvmMemmove m d s n :=
  bwd_eq m d s n hn hδ n m (Nat.le_refl n) fun p => by rw [if_neg (by omega)]

theorem fill_eq (m0 : BMem) (d : Addr) (x : BitVec 8) (N : Nat) (hN : N ≤ 2 ^ 64) :
    ∀ (n j : Nat), j + n = N → fill d x n j (llvmMemset m0 d x j) = llvmMemset m0 d x N := by
  intro n
  induction n with
  | zero => intro j h; rw [← h]; rfl
  | succ n ih =>
    intro j h
    rw [fill]
    have e : (llvmMemset m0 d x j).set (d + BitVec.ofNat 64 j) x = llvmMemset m0 d x (j + 1) := by
      funext p
      unfold BMem.set llvmMemset
      by_cases hp : p = d + BitVec.ofNat 64 j
      · have : p - d = BitVec.ofNat 64 j := by bv_omega
        rw [if_pos hp, this, BitVec.toNat_ofNat, Nat.mod_eq_of_lt (by omega : j < 2 ^ 64), if_pos (by omega)]
      · have hne : (p - d).toNat ≠ j := fun h => hp (by
          have : BitVec.ofNat 64 j = p - d := by rw [← h, BitVec.ofNat_toNat, BitVec.setWidth_eq]
          rw [this]; bv_omega)
        rw [if_neg hp]
        by_cases hlt : (p - d).toNat < j
        · rw [if_pos hlt, if_pos (by omega)]
        · rw [if_neg hlt, if_neg (by omega)]
    rw [e]
    exact ih (j + 1) (by omega)

/-! ## Proofs: lengths -/

theorem iters_eq (count : BitVec c) (h : 0 ≤ count.toInt) : iters count = count.toNat ∧ 2 * count.toNat < 2 ^ c := by
  unfold iters
  rw [BitVec.toInt_eq_toNat_cond] at h ⊢
  have := count.isLt
  split at h <;> rename_i hc
  · rw [if_pos hc]; exact ⟨by omega, hc⟩
  · exfalso
    have : ((count.toNat : Nat) : Int) < ((2 ^ c : Nat) : Int) := by exact_mod_cast this
    omega

theorem size_bound (hc : c ≤ 64) (count : BitVec c) (h : 0 ≤ count.toInt) : count.toNat ≤ 2 ^ 63 := by
  have h1 := (iters_eq count h).2
  have : 2 ^ c ≤ 2 ^ 64 := Nat.pow_le_pow_right (by omega) hc
  omega

theorem signExtend_nonneg (hc : c ≤ 64) (count : BitVec c) (h : 0 ≤ count.toInt) :
    (count.signExtend 64).toNat = count.toNat := by
  have hb := size_bound hc count h
  have h1 : (count.signExtend 64).toInt = count.toInt := by
    rw [BitVec.toInt_signExtend_of_le hc]
  have h2 := (iters_eq count h).1
  unfold iters at h2
  have h3 : (count.signExtend 64).toInt = (count.toNat : Int) := by rw [h1]; omega
  have := BitVec.toInt_eq_toNat_cond (count.signExtend 64)
  rw [h3] at this
  have hl := (count.signExtend 64).isLt
  split at this <;> omega

/-! ## Theorems: uniform versions -/

/-- C35: `memmove` copies correctly however the ranges overlap, on every target, and touches nothing else. -/
theorem memmove_correct (hc : c ≤ 64) (xe : Bool) (m : BMem) (d s : Addr) (count : BitVec c) (h : 0 ≤ count.toInt) :
    ∃ m', memmoveU xe m d s count = some m' ∧ IsCopy m m' d s count.toNat := by
  have hb := size_bound hc count h
  refine ⟨llvmMemmove m d s count.toNat, ?_, memmove_isCopy m d s (by omega)⟩
  unfold memmoveU
  rw [signExtend_nonneg hc count h, (iters_eq count h).1]
  cases xe with
  | false => rfl
  | true =>
    simp only [if_true]
    by_cases hd : count.toNat ≤ (d - s).toNat
    · rw [if_pos hd, fwd_copy m d s _ (by omega) (Or.inr hd)]
    · rw [if_neg hd, bwd_copy m d s _ hb (by omega)]

/-- C35: `memcpy` copies correctly when the ranges are disjoint or equal. -/
theorem memcpy_correct (hc : c ≤ 64) (xe : Bool) (m : BMem) (d s : Addr) (count : BitVec c) (h : 0 ≤ count.toInt)
    (hd : d = s ∨ ∀ p, InRange p d count.toNat → ¬ InRange p s count.toNat) :
    ∃ m', memcpyU xe m d s count = some m' ∧ IsCopy m m' d s count.toNat := by
  have hb := size_bound hc count h
  have hov : d = s ∨ (count.toNat ≤ (d - s).toNat ∧ count.toNat ≤ (s - d).toNat) := by
    rcases hd with hd | hd
    · exact Or.inl hd
    · right
      by_cases h0 : count.toNat = 0
      · omega
      constructor
      · have := hd d ⟨0, by omega, by simp⟩
        rw [inRange_iff (by omega)] at this
        omega
      · by_contra hlt
        refine hd s ?_ ⟨0, by omega, by simp⟩
        rw [inRange_iff (by omega)]
        omega
  refine ⟨llvmMemmove m d s count.toNat, ?_, memmove_isCopy m d s (by omega)⟩
  unfold memcpyU
  rw [(iters_eq count h).1]
  cases xe with
  | false => simp only [Bool.false_eq_true, if_false]; unfold llvmMemcpy; rw [if_pos hov]
  | true =>
    simp only [if_true]
    rw [fwd_copy m d s _ (by omega) (hov.imp id And.left)]

/-- C35: `memset`. -/
theorem memset_correct (hc : c ≤ 64) (xe : Bool) (m : BMem) (d : Addr) (x : BitVec 8) (count : BitVec c)
    (h : 0 ≤ count.toInt) : ∃ m', memsetU xe m d x count = some m' ∧ IsFill m m' d x count.toNat := by
  have hb := size_bound hc count h
  refine ⟨llvmMemset m d x count.toNat, ?_, ?_, ?_⟩
  · unfold memsetU
    rw [(iters_eq count h).1]
    cases xe with
    | false => rfl
    | true =>
      simp only [if_true]
      have := fill_eq m d x count.toNat (by omega) count.toNat 0 (by omega)
      have e : llvmMemset m d x 0 = m := by funext p; unfold llvmMemset; rw [if_neg (by omega)]
      rw [e] at this
      rw [this]
  · intro k hk
    unfold llvmMemset
    have : d + BitVec.ofNat 64 k - d = BitVec.ofNat 64 k := by bv_omega
    rw [this, BitVec.toNat_ofNat, Nat.mod_eq_of_lt (by omega : k < 2 ^ 64), if_pos hk]
  · intro p hp
    rw [inRange_iff (by omega)] at hp
    unfold llvmMemset
    rw [if_neg hp]

-- overlapping by one byte in both directions
example : (memmoveU true (fun p => p.setWidth 8) 101#64 100#64 3#32).map (fun m => [m 100, m 101, m 102, m 103, m 104]) =
    some [100, 100, 101, 102, 104] := by decide +kernel
example : (memmoveU true (fun p => p.setWidth 8) 100#64 101#64 3#32).map (fun m => [m 99, m 100, m 101, m 102, m 103]) =
    some [99, 101, 102, 103, 103] := by decide +kernel

/-! ## Theorems: varying versions -/

theorem fold_congr {S : Type} (f g : S → Fin W → Option S) : ∀ (ls : List (Fin W)) (s : S), (∀ s, ∀ l ∈ ls, f s l = g s l) →
    ls.foldlM f s = ls.foldlM g s := by
  intro ls
  induction ls with
  | nil => intro s _; rfl
  | cons l ls ih =>
    intro s h
    rw [List.foldlM_cons, List.foldlM_cons, h s l (by simp)]
    congr 1; funext s'
    exact ih s' fun s k hk => h s k (by simp [hk])

/-- C35: the varying `memcpy` performs the uniform one for each active instance in turn and for no other. -/
theorem memcpy_varying (hW : W ≤ 64) (xe : Bool) (fm im : Mask W) (hact : ∃ l, im l = true ∧ fm l = true)
    (dst src : Vec W Addr) (count : Vec W (BitVec c)) (m : BMem) :
    memcpyV xe fm im dst src count m =
      (activeLanes fun l => im l && fm l).foldlM (fun m l => memcpyU xe m (dst l) (src l) (count l)) m := by
  unfold memcpyV
  simp only
  rw [foreach_active_serialises hW fm _ ⟨im, m⟩ hact W (Nat.le_refl W)]
  simp only [Option.map_map]
  rw [fold_congr _ (fun m l => memcpyU xe m (dst l) (src l) (count l)) _ m]
  · generalize List.foldlM (m := Option) _ m _ = o
    cases o <;> rfl
  · intro s l hl
    have hl' := ((activeLanes_spec (fun l => im l && fm l)).1 l).1 hl
    unfold bodyFor
    simp only [Option.bind_eq_bind]
    have ed : ptrArr (fun l => im l && fm l) dst ⟨l.val, l.isLt⟩ = some (dst l) := by simp [ptrArr, hl']
    have es : ptrArr (fun l => im l && fm l) src ⟨l.val, l.isLt⟩ = some (src l) := by simp [ptrArr, hl']
    simp only [extract_lt _ l.isLt, Option.bind_some, ed, es]
    cases memcpyU xe s (dst l) (src l) (count l) <;> rfl

/-- C35: the varying `memset` performs the uniform one for each active instance in turn and for no other. -/
theorem memset_varying (hW : W ≤ 64) (xe : Bool) (fm im : Mask W) (hact : ∃ l, im l = true ∧ fm l = true)
    (ptr : Vec W Addr) (val : Vec W (BitVec 8)) (count : Vec W (BitVec c)) (m : BMem) :
    memsetV xe fm im ptr val count m =
      (activeLanes fun l => im l && fm l).foldlM (fun m l => memsetU xe m (ptr l) (val l) (count l)) m := by
  unfold memsetV
  simp only
  rw [foreach_active_serialises hW fm _ ⟨im, m⟩ hact W (Nat.le_refl W)]
  simp only [Option.map_map]
  rw [fold_congr _ (fun m l => memsetU xe m (ptr l) (val l) (count l)) _ m]
  · generalize List.foldlM (m := Option) _ m _ = o
    cases o <;> rfl
  · intro s l hl
    have hl' := ((activeLanes_spec (fun l => im l && fm l)).1 l).1 hl
    unfold bodyFor
    simp only [Option.bind_eq_bind]
    rw [extract_lt _ l.isLt, Option.bind_some, extract_lt _ l.isLt, extract_lt _ l.isLt,
      show ptrArr (fun l => im l && fm l) ptr ⟨l.val, l.isLt⟩ = some (ptr l) by simp [ptrArr, hl']]
    simp only [Option.bind_some]
    cases memsetU xe s (ptr l) (val l) (count l) <;> rfl

/-- The varying loop with one instance on runs that instance's number of iterations. -/
theorem fwdVarying_eq (hW : W ≤ 64) (count : Vec W (BitVec c)) (d s : Addr) (l : Fin W) (h0 : 0 ≤ (count l).toInt) :
    ∀ (k j : Nat) (mask : Mask W) (m : BMem), (∀ q, mask q = true ↔ q = l) → j ≤ (count l).toNat → (count l).toNat < j + k →
      fwdVarying count d s k j mask m = some (fwd d s ((count l).toNat - j) j m) := by
  intro k
  induction k with
  | zero => intro j _ _ _ h1 h2; omega
  | succ k ih =>
    intro j mask m hm h1 h2
    have hti : (count l).toInt = ((count l).toNat : Int) := by
      have := (iters_eq (count l) h0).1
      unfold iters at this
      omega
    rw [fwdVarying]
    by_cases hj : j = (count l).toNat
    · rw [if_pos, hj, Nat.sub_self]
      · rfl
      · rw [Scan.movmsk_eq_zero hW]
        intro q
        by_cases hq : q = l
        · subst hq
          have : ¬ ((j : Int) < (count q).toInt) := by omega
          simp [this]
        · have : mask q = false := by
            cases h : mask q with
            | false => rfl
            | true => exact absurd ((hm q).1 h) hq
          simp [this]
    · have hlt : (j : Int) < (count l).toInt := by omega
      rw [if_neg, ih (j + 1) _ _ _ (by omega) (by omega)]
      · rw [show (count l).toNat - j = ((count l).toNat - (j + 1)) + 1 by omega, fwd]
      · intro q
        by_cases hq : q = l
        · subst hq; simp [(hm q).2 rfl, hlt]
        · have : mask q ≠ true := fun h => hq ((hm q).1 h)
          simp [this, hq]
      · rw [Scan.movmsk_eq_zero hW]
        intro h
        have := h l
        simp [(hm l).2 rfl, hlt] at this

/-- C35: the varying `memmove` performs the uniform one for each active instance in turn and for no other. -/
theorem memmove_varying (hW : W ≤ 64) (hc : c ≤ 64) (xe : Bool) (fm im : Mask W) (hact : ∃ l, im l = true ∧ fm l = true)
    (dst src : Vec W Addr) (count : Vec W (BitVec c)) (hcount : ∀ l, (im l && fm l) = true → 0 ≤ (count l).toInt)
    (m : BMem) :
    memmoveV xe fm im dst src count m =
      (activeLanes fun l => im l && fm l).foldlM (fun m l => memmoveU xe m (dst l) (src l) (count l)) m := by
  unfold memmoveV
  simp only
  rw [foreach_active_serialises hW fm _ ⟨im, m⟩ hact W (Nat.le_refl W)]
  simp only [Option.map_map]
  rw [fold_congr _ (fun m l => memmoveU xe m (dst l) (src l) (count l)) _ m]
  · generalize List.foldlM (m := Option) _ m _ = o
    cases o <;> rfl
  · intro s l hl
    have hl' := ((activeLanes_spec (fun l => im l && fm l)).1 l).1 hl
    have h0 := hcount l hl'
    unfold bodyFor
    simp only [Option.bind_eq_bind]
    have ed : ptrArr (fun l => im l && fm l) dst ⟨l.val, l.isLt⟩ = some (dst l) := by simp [ptrArr, hl']
    have es : ptrArr (fun l => im l && fm l) src ⟨l.val, l.isLt⟩ = some (src l) := by simp [ptrArr, hl']
    simp only [extract_lt _ l.isLt, Option.bind_some, ed, es]
    unfold memmoveU
    cases xe with
    | false => rfl
    | true =>
      simp only [if_true]
      by_cases hd : ((count l).signExtend 64).toNat ≤ (dst l - src l).toNat
      · rw [if_pos hd, if_pos hd, fwdVarying_eq hW count _ _ l h0 (2 ^ c) 0 _ s (by intro q; simp) (by omega)
          (by have := (count l).isLt; omega)]
        rw [(iters_eq (count l) h0).1]
        rfl
      · rw [if_neg hd, if_neg hd]
        rfl

/-- C35 in terms of the memory before the call: if no active instance's destination overlaps the source or destination of
another active instance, then after the varying `memmove` each of them finds its source bytes in its destination, and
every other byte is unchanged. -/
theorem memmove_varying_disjoint (hW : W ≤ 64) (hc : c ≤ 64) (xe : Bool) (fm im : Mask W)
    (hact : ∃ l, im l = true ∧ fm l = true)
    (dst src : Vec W Addr) (count : Vec W (BitVec c)) (hcount : ∀ l, (im l && fm l) = true → 0 ≤ (count l).toInt)
    (hdis : ∀ l k, (im l && fm l) = true → (im k && fm k) = true → l ≠ k → ∀ p, InRange p (dst l) (count l).toNat →
      ¬ InRange p (dst k) (count k).toNat ∧ ¬ InRange p (src k) (count k).toNat)
    (m : BMem) :
    ∃ m', memmoveV xe fm im dst src count m = some m' ∧
      (∀ l, (im l && fm l) = true → ∀ k < (count l).toNat,
        m' (dst l + BitVec.ofNat 64 k) = m (src l + BitVec.ofNat 64 k)) ∧
      ∀ p, (∀ l, (im l && fm l) = true → ¬ InRange p (dst l) (count l).toNat) → m' p = m p := by
  rw [memmove_varying hW hc xe fm im hact dst src count hcount m]
  have hmem := (activeLanes_spec (fun l => im l && fm l)).1
  have hnd : (activeLanes fun l => im l && fm l).Nodup := nodup_activeLanes _
  have key : ∀ (ls : List (Fin W)), ls.Nodup → (∀ l ∈ ls, (im l && fm l) = true) → ∀ m : BMem,
      ∃ m', ls.foldlM (fun m l => memmoveU xe m (dst l) (src l) (count l)) m = some m' ∧
        (∀ l ∈ ls, ∀ k < (count l).toNat, m' (dst l + BitVec.ofNat 64 k) = m (src l + BitVec.ofNat 64 k)) ∧
        ∀ p, (∀ l ∈ ls, ¬ InRange p (dst l) (count l).toNat) → m' p = m p := by
    intro ls
    induction ls with
    | nil => intro _ _ m; exact ⟨m, rfl, by simp, fun _ _ => rfl⟩
    | cons l ls ih =>
      intro hn hon m
      rw [List.nodup_cons] at hn
      obtain ⟨m1, e1, hc1, hu1⟩ := memmove_correct hc xe m (dst l) (src l) (count l) (hcount l (hon l (by simp)))
      obtain ⟨m2, e2, hc2, hu2⟩ := ih hn.2 (fun k hk => hon k (by simp [hk])) m1
      refine ⟨m2, by rw [List.foldlM_cons, e1]; exact e2, ?_, ?_⟩
      · intro k hk i hi
        rcases List.mem_cons.1 hk with rfl | hk'
        · rw [hu2, hc1 i hi]
          intro q hq
          have hne : k ≠ q := fun e => hn.1 (e ▸ hq)
          exact (hdis k q (hon k (by simp)) (hon q (by simp [hq])) hne _ ⟨i, hi, rfl⟩).1
        · rw [hc2 k hk' i hi]
          apply hu1
          intro hin
          have hne : l ≠ k := fun e => hn.1 (e ▸ hk')
          exact (hdis l k (hon l (by simp)) (hon k (by simp [hk'])) hne _ hin).2 ⟨i, hi, rfl⟩
      · intro p hp
        rw [hu2 p fun k hk => hp k (by simp [hk]), hu1 p (hp l (by simp))]
  obtain ⟨m', h1, h2, h3⟩ := key _ hnd (fun l hl => (hmem l).1 hl) m
  exact ⟨m', h1, fun l hl => h2 l ((hmem l).2 hl), fun p hp => h3 p fun l hl => hp l ((hmem l).1 hl)⟩

-- instances 0 and 2 active, instance 1 has a wild pointer and a negative count
example : (memmoveV (W := 3) true (fun _ => true) (fun l => decide (l.val ≠ 1))
    (fun l => BitVec.ofNat 64 (100 + 10 * l.val)) (fun l => BitVec.ofNat 64 (101 + 10 * l.val))
    (fun l => if l.val = 1 then -5#8 else 2#8) (fun p => p.setWidth 8)).map (fun m => [m 100, m 101, m 110, m 120, m 121]) =
    some [101, 102, 110, 121, 122] := by decide +kernel

end Ispc.MemOps
