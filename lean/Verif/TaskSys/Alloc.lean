import Mathlib.Data.List.Pairwise
import Mathlib.Tactic.IntervalCases
import Mathlib.Tactic.Common

/-!
# C26: memory for task arguments

`TaskGroupBase::AllocMemory` and `Reset` (examples/common/tasksys.cpp:244-248, 276-297), which serve
`ISPCAlloc`.  Addresses are 64-bit values, `int` arithmetic wraps at 32 bits where the code converts to `int`.
-/

namespace Ispc.Alloc

/-- Conversion to a 32-bit `int`. -/
def toInt32 (x : Int) : Int := x.bmod 4294967296

/-- `(iptr + (alignment - 1)) & ~(alignment - 1)`, `alignment` an `int32_t`
    (examples/common/tasksys.cpp:279). -/
def alignUp (x : BitVec 64) (al : BitVec 32) : BitVec 64 :=
  (x + (al - 1).signExtend 64) &&& (~~~(al - 1)).signExtend 64

/-- `curMemBuffer`, `curMemBufferOffset`, `memBufferSize`, `memBuffers` (as addresses)
    (examples/common/tasksys.cpp:215-217). -/
structure St where
  cur : Nat
  off : Int
  size : Nat → Int
  base : Nat → Nat

/-- `TaskGroupBase::TaskGroupBase`: buffer 0 is the 256 byte array `mem` at address `b`
    (examples/common/tasksys.cpp:224-231). -/
def init (b : Nat) : St := ⟨0, 0, fun i => if i = 0 then 256 else 0, fun i => if i = 0 then b else 0⟩

/-- `TaskGroupBase::Reset` (examples/common/tasksys.cpp:244-248). -/
def reset (s : St) : St := { s with cur := 0, off := 0 }

/-- Size of a new buffer (examples/common/tasksys.cpp:291-292). -/
def newSize (cur : Nat) (sz : Int) (al : BitVec 32) : Int :=
  max (toInt32 (sz + al.toInt)) (2 ^ (12 + cur))

/-- `++curMemBuffer` and the new buffer, which `new char[allocSize]` puts at address `nb`
    (examples/common/tasksys.cpp:287-295). -/
def grow (s : St) (sz : Int) (al : BitVec 32) (nb : Nat) : St :=
  { cur := s.cur + 1
    off := 0
    size := fun i => if i = s.cur + 1 then newSize (s.cur + 1) sz al else s.size i
    base := fun i => if i = s.cur + 1 then nb else s.base i }

/-- `AllocMemory(size, alignment)` (examples/common/tasksys.cpp:276-297).  The first argument bounds the depth
    of its recursion; `none` is a failed `assert(curMemBuffer < NUM_MEM_BUFFERS)` (289), or the bound reached
    (which `alloc_defined` excludes). -/
def alloc : Nat → St → Int → BitVec 32 → Nat → Option (Nat × St)
  | 0, _, _, _, _ => none
  | fuel + 1, s, sz, al, nb =>
    let iptr := alignUp (BitVec.ofInt 64 (s.base s.cur + s.off)) al
    let newOffset := toInt32 (iptr.toInt - s.base s.cur + sz)
    if newOffset < s.size s.cur then some (iptr.toNat, { s with off := newOffset })
    else if s.cur + 1 < 16 then alloc fuel (grow s sz al nb) sz al nb
    else none

/-! ## Specification -/

/-- A block handed out: address, size, and the alignment asked for. -/
structure Block where
  addr : Nat
  len : Nat
  al : Nat

def Block.Disjoint (x y : Block) : Prop := x.addr + x.len ≤ y.addr ∨ y.addr + y.len ≤ x.addr

/-- What `new char[n]` guarantees about address `nb`: it does not overlap the buffers the group still uses,
    and the range lies in the lower half of the address space. -/
def Fresh (s : St) (nb : Nat) (n : Int) : Prop :=
  (nb : Int) + n ≤ 2 ^ 62 ∧ ∀ j, j ≤ s.cur → (s.base j : Int) + s.size j ≤ nb ∨ (nb : Int) + n ≤ s.base j

/-- Histories of a task group: allocations of `sz` bytes at alignment `2^k` and resets (at `sync`), with the
    blocks handed out since the last reset. -/
inductive Hist : St → List Block → Prop where
  | init (b : Nat) : b + 256 ≤ 2 ^ 62 → Hist (init b) []
  | reset (s bs) : Hist s bs → Hist (reset s) []
  | alloc (s bs s') (sz k nb p : Nat) : Hist s bs → k ≤ 29 → sz + 2 ^ k ≤ 2 ^ 30 →
      Fresh s nb (newSize (s.cur + 1) sz (BitVec.ofNat 32 (2 ^ k))) →
      alloc 2 s sz (BitVec.ofNat 32 (2 ^ k)) nb = some (p, s') → Hist s' (⟨p, sz, 2 ^ k⟩ :: bs)

/-! ## Proofs -/

theorem mask_bits (k : Nat) (hk : k ≤ 29) :
    ((BitVec.ofNat 32 (2 ^ k) - 1).signExtend 64).toNat = 2 ^ k - 1 ∧
    (~~~(BitVec.ofNat 32 (2 ^ k) - 1)).signExtend 64 = BitVec.ofNat 64 (2 ^ 64 - 2 ^ k) := by
  interval_cases k <;> decide

theorem clear_low (x : BitVec 64) (k : Nat) (hk : k ≤ 29) :
    (x &&& BitVec.ofNat 64 (2 ^ 64 - 2 ^ k)).toNat = x.toNat / 2 ^ k * 2 ^ k := by
  have e : BitVec.ofNat 64 (2 ^ 64 - 2 ^ k) = (BitVec.allOnes 64) <<< k := by
    interval_cases k <;> decide
  have h2 : x &&& BitVec.ofNat 64 (2 ^ 64 - 2 ^ k) = (x >>> k) <<< k := by
    rw [e]
    apply BitVec.eq_of_getLsbD_eq
    intro i hi
    simp only [BitVec.getLsbD_and, BitVec.getLsbD_shiftLeft, BitVec.getLsbD_allOnes, BitVec.getLsbD_ushiftRight]
    by_cases h : i < k
    · simp [h]
    · have : k + (i - k) = i := by omega
      have h' : i - k < 64 := by omega
      simp [h, this, hi, h']
  rw [h2, BitVec.toNat_shiftLeft, BitVec.toNat_ushiftRight, Nat.shiftLeft_eq, Nat.shiftRight_eq_div_pow]
  apply Nat.mod_eq_of_lt
  have := Nat.div_mul_le_self x.toNat (2 ^ k)
  have := x.isLt
  omega

theorem alignUp_toNat (x : BitVec 64) (k : Nat) (hk : k ≤ 29) (hx : x.toNat + 2 ^ k ≤ 2 ^ 64) :
    (alignUp x (BitVec.ofNat 32 (2 ^ k))).toNat = (x.toNat + (2 ^ k - 1)) / 2 ^ k * 2 ^ k := by
  obtain ⟨h1, h2⟩ := mask_bits k hk
  rw [alignUp, h2, clear_low _ k hk, BitVec.toNat_add, h1, Nat.mod_eq_of_lt]
  have : 0 < 2 ^ k := Nat.two_pow_pos k
  omega

theorem roundUp_bounds (x k : Nat) :
    x ≤ (x + (2 ^ k - 1)) / 2 ^ k * 2 ^ k ∧ (x + (2 ^ k - 1)) / 2 ^ k * 2 ^ k < x + 2 ^ k ∧
    2 ^ k ∣ (x + (2 ^ k - 1)) / 2 ^ k * 2 ^ k := by
  have hp : 0 < 2 ^ k := Nat.two_pow_pos k
  have := Nat.div_add_mod (x + (2 ^ k - 1)) (2 ^ k)
  have := Nat.mod_lt (x + (2 ^ k - 1)) hp
  refine ⟨?_, ?_, Nat.dvd_mul_left _ _⟩ <;> rw [Nat.mul_comm] <;> omega

theorem toInt32_id (x : Int) (h0 : 0 ≤ x) (h : x < 2 ^ 31) : toInt32 x = x := by
  rw [toInt32, Int.bmod_def, Int.emod_eq_of_lt h0 (by omega), if_pos (by omega)]

theorem al_toInt (k : Nat) (hk : k ≤ 29) : (BitVec.ofNat 32 (2 ^ k)).toInt = 2 ^ k := by
  interval_cases k <;> decide

theorem pow_le_29 (k : Nat) (hk : k ≤ 29) : 2 ^ k ≤ 2 ^ 29 := Nat.pow_le_pow_right (by omega) hk

/-- The state between calls. -/
structure Ok (s : St) : Prop where
  cur : s.cur < 16
  off : 0 ≤ s.off ∧ s.off < s.size s.cur
  size : ∀ j, j ≤ s.cur → 0 < s.size j ∧ s.size j ≤ 2 ^ 30
  base : ∀ j, j ≤ s.cur → (s.base j : Int) + s.size j ≤ 2 ^ 62
  mem : s.size 0 = 256
  apart : ∀ i j, i < j → j ≤ s.cur →
    (s.base i : Int) + s.size i ≤ s.base j ∨ (s.base j : Int) + s.size j ≤ s.base i

/-- A block lies in a used part of the buffers. -/
def Inside (s : St) (x : Block) : Prop :=
  ∃ j, j ≤ s.cur ∧ s.base j ≤ x.addr ∧ (x.addr + x.len : Int) ≤ s.base j + s.size j ∧
    (j = s.cur → (x.addr + x.len : Int) ≤ s.base j + s.off)

/-- The address computed, and the new offset before conversion. -/
theorem iptr_spec (s : St) (hs : Ok s) (k : Nat) (hk : k ≤ 29) :
    ∃ p : Nat, alignUp (BitVec.ofInt 64 (s.base s.cur + s.off)) (BitVec.ofNat 32 (2 ^ k)) = BitVec.ofNat 64 p ∧
      (BitVec.ofNat 64 p).toNat = p ∧ (BitVec.ofNat 64 p).toInt = p ∧ 2 ^ k ∣ p ∧
      (s.base s.cur : Int) + s.off ≤ p ∧ (p : Int) < s.base s.cur + s.off + 2 ^ k := by
  obtain ⟨o, ho⟩ := Int.eq_ofNat_of_zero_le hs.off.1
  have hb := hs.base s.cur (Nat.le_refl _)
  have hl := hs.off.2
  have hp := pow_le_29 k hk
  have e : BitVec.ofInt 64 (s.base s.cur + s.off) = BitVec.ofNat 64 (s.base s.cur + o) := by
    rw [ho]
    have : ((s.base s.cur : Int) + (o : Int)) = ((s.base s.cur + o : Nat) : Int) := by push_cast; rfl
    rw [this, BitVec.ofInt_natCast]
  have hlt : s.base s.cur + o < 2 ^ 62 := by omega
  have hto : (BitVec.ofNat 64 (s.base s.cur + o)).toNat = s.base s.cur + o := by
    rw [BitVec.toNat_ofNat, Nat.mod_eq_of_lt (by omega)]
  have ha := alignUp_toNat (BitVec.ofNat 64 (s.base s.cur + o)) k hk (by rw [hto]; omega)
  rw [hto] at ha
  obtain ⟨r1, r2, r3⟩ := roundUp_bounds (s.base s.cur + o) k
  have hpow : ((2 ^ k : Nat) : Int) = 2 ^ k := by push_cast; rfl
  generalize (s.base s.cur + o + (2 ^ k - 1)) / 2 ^ k * 2 ^ k = p at *
  refine ⟨p, ?_, ?_, ?_, r3, ?_, ?_⟩
  · rw [e, ← ha, BitVec.ofNat_toNat, BitVec.setWidth_eq]
  · rw [BitVec.toNat_ofNat, Nat.mod_eq_of_lt (by omega)]
  · rw [BitVec.toInt_eq_toNat_of_lt]
    · rw [BitVec.toNat_ofNat, Nat.mod_eq_of_lt (by omega)]
    · rw [BitVec.toNat_ofNat, Nat.mod_eq_of_lt (by omega)]; omega
  · rw [ho]; omega
  · rw [ho]; omega

/-- One level of `AllocMemory`: the block fits in the current buffer, or the buffer is too small for it. -/
theorem alloc_here (fuel : Nat) (s : St) (hs : Ok s) (sz k nb : Nat) (hk : k ≤ 29) (hsz : sz + 2 ^ k ≤ 2 ^ 30) :
    ∃ p : Nat, 2 ^ k ∣ p ∧ (s.base s.cur : Int) + s.off ≤ p ∧ (p : Int) < s.base s.cur + s.off + 2 ^ k ∧
      alloc (fuel + 1) s sz (BitVec.ofNat 32 (2 ^ k)) nb =
        if (p : Int) - s.base s.cur + sz < s.size s.cur then
          some (p, { s with off := (p : Int) - s.base s.cur + sz })
        else if s.cur + 1 < 16 then alloc fuel (grow s sz (BitVec.ofNat 32 (2 ^ k)) nb) sz (BitVec.ofNat 32 (2 ^ k)) nb
        else none := by
  obtain ⟨p, h1, h2, h3, h4, h5, h6⟩ := iptr_spec s hs k hk
  refine ⟨p, h4, h5, h6, ?_⟩
  have hsize := (hs.size s.cur (Nat.le_refl _)).2
  have hoff := hs.off
  have hpow : ((2 ^ k : Nat) : Int) = 2 ^ k := by push_cast; rfl
  simp only [alloc]
  rw [h1, h2, h3, toInt32_id _ (by omega) (by omega)]

theorem newSize_spec (c sz k : Nat) (hc : c < 16) (hk : k ≤ 29) (hsz : sz + 2 ^ k ≤ 2 ^ 30) :
    (sz : Int) + 2 ^ k ≤ newSize c sz (BitVec.ofNat 32 (2 ^ k)) ∧
    newSize c sz (BitVec.ofNat 32 (2 ^ k)) ≤ 2 ^ 30 ∧ 0 < newSize c sz (BitVec.ofNat 32 (2 ^ k)) := by
  have hpow : ((2 ^ k : Nat) : Int) = 2 ^ k := by push_cast; rfl
  have hp : 0 < 2 ^ k := Nat.two_pow_pos k
  have hc2 : (2 : Int) ^ (12 + c) ≤ 2 ^ 27 := by
    interval_cases c <;> decide
  have hc3 : (0 : Int) < 2 ^ (12 + c) := by
    interval_cases c <;> decide
  rw [newSize, al_toInt k hk, toInt32_id _ (by omega) (by omega)]
  refine ⟨?_, ?_, ?_⟩ <;> omega

theorem grow_ok (s : St) (hs : Ok s) (sz k nb : Nat) (hk : k ≤ 29) (hsz : sz + 2 ^ k ≤ 2 ^ 30)
    (hc : s.cur + 1 < 16) (hf : Fresh s nb (newSize (s.cur + 1) sz (BitVec.ofNat 32 (2 ^ k)))) :
    Ok (grow s sz (BitVec.ofNat 32 (2 ^ k)) nb) := by
  obtain ⟨n1, n2, n3⟩ := newSize_spec (s.cur + 1) sz k hc hk hsz
  obtain ⟨f1, f2⟩ := hf
  have o := hs.off
  have hc' : (grow s sz (BitVec.ofNat 32 (2 ^ k)) nb).cur = s.cur + 1 := rfl
  have hb' : ∀ i, (grow s sz (BitVec.ofNat 32 (2 ^ k)) nb).base i = if i = s.cur + 1 then nb else s.base i :=
    fun _ => rfl
  have hs' : ∀ i, (grow s sz (BitVec.ofNat 32 (2 ^ k)) nb).size i =
      if i = s.cur + 1 then newSize (s.cur + 1) sz (BitVec.ofNat 32 (2 ^ k)) else s.size i := fun _ => rfl
  have ho' : (grow s sz (BitVec.ofNat 32 (2 ^ k)) nb).off = 0 := rfl
  generalize grow s sz (BitVec.ofNat 32 (2 ^ k)) nb = s' at *
  generalize newSize (s.cur + 1) sz (BitVec.ofNat 32 (2 ^ k)) = N at *
  refine ⟨by omega, ?_, ?_, ?_, ?_, ?_⟩
  · rw [ho', hs', hc', if_pos rfl]; exact ⟨Int.le_refl _, n3⟩
  · intro j hj
    rw [hs']
    split
    · exact ⟨n3, n2⟩
    · exact hs.size j (by omega)
  · intro j hj
    rw [hs', hb']
    split
    · exact f1
    · exact hs.base j (by omega)
  · rw [hs', if_neg (by omega)]; exact hs.mem
  · intro i j hij hj
    rw [hs', hs', hb', hb', if_neg (by omega : ¬ i = s.cur + 1), if_neg (by omega : ¬ i = s.cur + 1)]
    split
    · exact f2 i (by omega)
    · exact hs.apart i j hij (by omega)

/-- What one call does. -/
theorem alloc_spec (s : St) (hs : Ok s) (sz k nb : Nat) (hk : k ≤ 29) (hsz : sz + 2 ^ k ≤ 2 ^ 30)
    (hf : Fresh s nb (newSize (s.cur + 1) sz (BitVec.ofNat 32 (2 ^ k)))) :
    (∃ p : Nat, 2 ^ k ∣ p ∧ (s.base s.cur : Int) + s.off ≤ p ∧ (p : Int) - s.base s.cur + sz < s.size s.cur ∧
      alloc 2 s sz (BitVec.ofNat 32 (2 ^ k)) nb = some (p, { s with off := (p : Int) - s.base s.cur + sz })) ∨
    (s.cur + 1 < 16 ∧ ∃ (p : Nat) (s' : St), s' = grow s sz (BitVec.ofNat 32 (2 ^ k)) nb ∧ Ok s' ∧ 2 ^ k ∣ p ∧
      (s'.base s'.cur : Int) ≤ p ∧ (p : Int) - s'.base s'.cur + sz < s'.size s'.cur ∧
      alloc 2 s sz (BitVec.ofNat 32 (2 ^ k)) nb = some (p, { s' with off := (p : Int) - s'.base s'.cur + sz })) ∨
    (s.cur = 15 ∧ alloc 2 s sz (BitVec.ofNat 32 (2 ^ k)) nb = none) := by
  obtain ⟨p, h1, h2, h3, h4⟩ := alloc_here 1 s hs sz k nb hk hsz
  split at h4
  · exact Or.inl ⟨p, h1, h2, by assumption, h4⟩
  · split at h4
    · rename_i hc
      right; left
      have hg := grow_ok s hs sz k nb hk hsz hc hf
      obtain ⟨p', g1, g2, g3, g4⟩ := alloc_here 0 _ hg sz k nb hk hsz
      have ho : (grow s sz (BitVec.ofNat 32 (2 ^ k)) nb).off = 0 := rfl
      have hsz' : (grow s sz (BitVec.ofNat 32 (2 ^ k)) nb).size (grow s sz (BitVec.ofNat 32 (2 ^ k)) nb).cur =
          newSize (s.cur + 1) sz (BitVec.ofNat 32 (2 ^ k)) := by simp [grow]
      obtain ⟨n1, n2, n3⟩ := newSize_spec (s.cur + 1) sz k hc hk hsz
      rw [ho] at g2 g3
      have hlt : (p' : Int) - (grow s sz (BitVec.ofNat 32 (2 ^ k)) nb).base (grow s sz (BitVec.ofNat 32 (2 ^ k)) nb).cur
          + sz < (grow s sz (BitVec.ofNat 32 (2 ^ k)) nb).size (grow s sz (BitVec.ofNat 32 (2 ^ k)) nb).cur := by
        rw [hsz']; omega
      rw [if_pos hlt] at g4
      exact ⟨hc, p', _, rfl, hg, g1, by omega, hlt, by rw [h4, g4]⟩
    · right; right
      have := hs.cur
      exact ⟨by omega, h4⟩

/-- The recursion of `AllocMemory` ends after one new buffer; the call fails only when all 16 buffers have
    been used up. -/
theorem alloc_defined (s : St) (hs : Ok s) (sz k nb : Nat) (hk : k ≤ 29) (hsz : sz + 2 ^ k ≤ 2 ^ 30)
    (hf : Fresh s nb (newSize (s.cur + 1) sz (BitVec.ofNat 32 (2 ^ k)))) (hc : s.cur < 15) :
    (alloc 2 s sz (BitVec.ofNat 32 (2 ^ k)) nb).isSome := by
  rcases alloc_spec s hs sz k nb hk hsz hf with ⟨p, _, _, _, h⟩ | ⟨_, p, s', _, _, _, _, _, h⟩ | ⟨h, _⟩
  · rw [h]; rfl
  · rw [h]; rfl
  · omega

theorem hist_inv {s : St} {bs : List Block} (h : Hist s bs) :
    Ok s ∧ (∀ x ∈ bs, Inside s x ∧ x.al ∣ x.addr) ∧ bs.Pairwise Block.Disjoint := by
  induction h with
  | init b hb =>
    refine ⟨⟨by simp [init], by simp [init], ?_, ?_, rfl, ?_⟩, by simp, List.Pairwise.nil⟩
    · intro j hj
      have : j = 0 := by simpa [init] using hj
      subst this
      simp [init]
    · intro j hj
      have : j = 0 := by simpa [init] using hj
      subst this
      simp only [init, if_true]
      omega
    · intro i j hij hj
      simp only [init] at hj
      omega
  | reset s bs _ ih =>
    obtain ⟨hs, _, _⟩ := ih
    refine ⟨⟨by simp [reset], ?_, ?_, ?_, hs.mem, ?_⟩, by simp, List.Pairwise.nil⟩
    · simp only [reset, hs.mem]; omega
    · intro j hj; exact hs.size j (by simp only [reset] at hj; omega)
    · intro j hj; exact hs.base j (by simp only [reset] at hj; omega)
    · intro i j hij hj; simp only [reset] at hj; omega
  | alloc s bs s' sz k nb p _ hk hsz hf he ih =>
    obtain ⟨hs, hb, hd⟩ := ih
    rcases alloc_spec s hs sz k nb hk hsz hf with ⟨q, q1, q2, q3, h⟩ | ⟨hc, q, t, ht, hok, q1, q2, q3, h⟩ | ⟨_, h⟩
    · rw [h] at he
      obtain ⟨rfl, rfl⟩ := Prod.mk.inj (Option.some.inj he)
      have ho := hs.off
      refine ⟨⟨hs.cur, ⟨?_, q3⟩, hs.size, hs.base, hs.mem, hs.apart⟩, ?_, ?_⟩
      · show (0 : Int) ≤ (q : Int) - s.base s.cur + sz
        omega
      · intro x hx
        rcases List.mem_cons.1 hx with rfl | hx
        · refine ⟨⟨s.cur, Nat.le_refl _, ?_, ?_, ?_⟩, q1⟩
          · show s.base s.cur ≤ q; omega
          · show (q : Int) + sz ≤ s.base s.cur + s.size s.cur; omega
          · intro _
            show (q : Int) + sz ≤ s.base s.cur + ((q : Int) - s.base s.cur + sz); omega
        · obtain ⟨⟨j, j1, j2, j3, j4⟩, ha⟩ := hb x hx
          refine ⟨⟨j, j1, j2, j3, ?_⟩, ha⟩
          intro hj
          have := j4 hj
          show (x.addr + x.len : Int) ≤ s.base j + ((q : Int) - s.base s.cur + sz)
          have hj' : j = s.cur := hj
          subst hj'
          omega
      · refine List.Pairwise.cons ?_ hd
        intro x hx
        obtain ⟨⟨j, j1, j2, j3, j4⟩, ha⟩ := hb x hx
        show q + sz ≤ x.addr ∨ x.addr + x.len ≤ q
        by_cases hj : j = s.cur
        · have := j4 hj
          subst hj
          omega
        · have := hs.apart j s.cur (by omega) (Nat.le_refl _)
          omega
    · rw [h] at he
      obtain ⟨rfl, rfl⟩ := Prod.mk.inj (Option.some.inj he)
      have hcur : t.cur = s.cur + 1 := by rw [ht]; rfl
      have hbase : ∀ j, j ≤ s.cur → t.base j = s.base j ∧ t.size j = s.size j := by
        intro j hj
        rw [ht]
        simp only [grow]
        rw [if_neg (by omega), if_neg (by omega)]
        exact ⟨rfl, rfl⟩
      clear ht
      have ho := hok.off
      refine ⟨⟨hok.cur, ⟨?_, q3⟩, hok.size, hok.base, hok.mem, hok.apart⟩, ?_, ?_⟩
      · show (0 : Int) ≤ (q : Int) - t.base t.cur + sz
        omega
      · intro x hx
        rcases List.mem_cons.1 hx with rfl | hx
        · refine ⟨⟨t.cur, Nat.le_refl _, ?_, ?_, ?_⟩, q1⟩
          · show t.base t.cur ≤ q; omega
          · show (q : Int) + sz ≤ t.base t.cur + t.size t.cur; omega
          · intro _
            show (q : Int) + sz ≤ t.base t.cur + ((q : Int) - t.base t.cur + sz); omega
        · obtain ⟨⟨j, j1, j2, j3, j4⟩, ha⟩ := hb x hx
          obtain ⟨b1, b2⟩ := hbase j j1
          refine ⟨⟨j, by show j ≤ t.cur; omega, ?_, ?_, ?_⟩, ha⟩
          · show t.base j ≤ x.addr; rw [b1]; exact j2
          · show (x.addr + x.len : Int) ≤ t.base j + t.size j; rw [b1, b2]; exact j3
          · intro hj
            have hj' : j = t.cur := hj
            omega
      · refine List.Pairwise.cons ?_ hd
        intro x hx
        obtain ⟨⟨j, j1, j2, j3, j4⟩, ha⟩ := hb x hx
        obtain ⟨b1, b2⟩ := hbase j j1
        show q + sz ≤ x.addr ∨ x.addr + x.len ≤ q
        have := hok.apart j t.cur (by omega) (Nat.le_refl _)
        rw [b1, b2] at this
        omega
    · rw [h] at he; simp at he

/-- Blocks handed out since the last `sync` are aligned as asked for, lie inside a buffer of the group and do
    not overlap, for every history of allocations of up to 2^30 bytes. -/
theorem blocks_ok_partial {s : St} {bs : List Block} (h : Hist s bs) :
    (∀ x ∈ bs, x.al ∣ x.addr ∧ ∃ j, s.base j ≤ x.addr ∧ (x.addr + x.len : Int) ≤ s.base j + s.size j) ∧
    bs.Pairwise Block.Disjoint := by
  obtain ⟨_, h2, h3⟩ := hist_inv h
  refine ⟨fun x hx => ?_, h3⟩
  obtain ⟨⟨j, _, j2, j3, _⟩, ha⟩ := h2 x hx
  exact ⟨ha, j, j2, j3⟩

/-- The limit on the size is needed: `int(...)` truncates, and after a request of 2^32 bytes the next request
    gets the same address. -/
theorem oversize_overlap :
    ∃ s1 s2 p, alloc 2 (init 4096) (2 ^ 32) 16 0 = some (p, s1) ∧ alloc 2 s1 8 16 0 = some (p, s2) := by
  refine ⟨{ init 4096 with off := 0 }, { init 4096 with off := 8 }, 4096, ?_, ?_⟩
  · simp only [alloc]
    rw [show alignUp (BitVec.ofInt 64 ((init 4096).base (init 4096).cur + (init 4096).off)) 16 = 4096#64 by decide]
    rw [show toInt32 ((4096#64).toInt - (init 4096).base (init 4096).cur + 2 ^ 32) = 0 by decide]
    rfl
  · simp only [alloc]
    rw [show alignUp (BitVec.ofInt 64 (({ init 4096 with off := 0 } : St).base ({ init 4096 with off := 0 } : St).cur +
      ({ init 4096 with off := 0 } : St).off)) 16 = 4096#64 by decide]
    rfl

/-- Non-trivial: three blocks, the last one in a second buffer. -/
example : ∃ s, Hist s [⟨100032, 1000, 2 ^ 6⟩, ⟨4224, 40, 2 ^ 5⟩, ⟨4112, 100, 2 ^ 4⟩] ∧ s.cur = 1 := by
  have h0 := Hist.init 4097 (by decide)
  have fr : ∀ (o : Int) (N : Int), N ≤ 8192 → Fresh { init 4097 with off := o } 100000 N := by
    intro o N hN
    refine ⟨by omega, ?_⟩
    intro j hj
    have : j = 0 := by simpa [init] using hj
    subst this
    left
    simp [init]
  have h1 := Hist.alloc _ _ { init 4097 with off := 115 } 100 4 100000 4112 h0 (by decide) (by decide)
    (fr 0 _ (by decide)) (by rfl)
  have h2 := Hist.alloc _ _ { init 4097 with off := 167 } 40 5 100000 4224 h1 (by decide) (by decide)
    (fr 115 _ (by decide)) (by rfl)
  have h3 := Hist.alloc _ _ { grow { init 4097 with off := 167 } 1000 (BitVec.ofNat 32 (2 ^ 6)) 100000 with off := 1032 }
    1000 6 100000 100032 h2 (by decide) (by decide) (fr 167 _ (by decide)) (by rfl)
  exact ⟨_, h3, rfl⟩

end Ispc.Alloc
