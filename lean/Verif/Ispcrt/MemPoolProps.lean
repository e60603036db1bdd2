import Verif.Ispcrt.MemPool
import Mathlib.Tactic.Ring
import Mathlib.Algebra.Order.Ring.Nat
import Mathlib.Data.List.Nodup

/-!
# C52: what the memory pools guarantee

The specification is `Answers`, `Holds` and the statements of the theorems in the last section.
-/

namespace Ispc.MemPool

/-- Level Zero hands out memory that is not null, aligned as asked (64 bytes), and apart from everything that is
    still allocated. -/
def Fresh (l : Live) (a n : Nat) : Prop :=
  a ≠ 0 ∧ 64 ∣ a ∧ l a = none ∧ ∀ b m, l b = some m → a + n ≤ b ∨ b + m ≤ a

/-- The assumption about Level Zero, at one moment: any memory it would hand out is fresh. -/
def FreshNow (drv : Driver) (w : World) : Prop := ∀ n a, drv w.time w.live n = some a → Fresh w.live a n

/-- The assumption about Level Zero, for a history: what it answers is fresh each time. -/
def Answers (drv : Driver) : World → List Op → Prop
  | _, [] => True
  | w, op :: ops => FreshNow drv w ∧ Answers drv (step drv w op).1 ops

/-- The view `v` exists and has memory that the runtime got for it, at `a`. -/
def Holds (w : World) (id : Nat) (v : View) (a : Nat) : Prop :=
  w.views id = some v ∧ v.dev = some a ∧ v.hint ≠ .appManaged

theorem upd_same {α : Type} (f : Nat → α) (k : Nat) (v : α) : upd f k v k = v := by simp [upd]
theorem upd_ne {α : Type} (f : Nat → α) {k x : Nat} (v : α) (h : x ≠ k) : upd f k v x = f x := by simp [upd, h]

/-! ## Rounding -/

theorem roundUp_spec {x : Nat} (h : 2 ≤ x) (hx : x ≤ 2 ^ 63) :
    ∃ k, roundUpPow2 x = 2 ^ k ∧ x ≤ 2 ^ k ∧ 2 ^ k < 2 * x ∧ k ≤ 63 := by
  have h1 : ¬ x < 2 := by omega
  have hs : (x - 1).size ≤ 63 := Nat.size_le.2 (by omega)
  refine ⟨(x - 1).size, ?_, ?_, ?_, hs⟩
  · simp only [roundUpPow2, h1, if_false, clz]
    congr 1; omega
  · have := Nat.lt_size_self (x - 1); omega
  · have h0 : 0 < (x - 1).size := Nat.size_pos.2 (by omega)
    have h2 : 2 ^ ((x - 1).size - 1) ≤ x - 1 := Nat.lt_size.1 (by omega)
    have h3 : 2 ^ (x - 1).size = 2 * 2 ^ ((x - 1).size - 1) := by
      rw [← pow_succ']; congr 1; omega
    omega

theorem roundUp_pow (k : Nat) (hk : k ≤ 63) : roundUpPow2 (2 ^ k) = 2 ^ k := by
  rcases Nat.eq_zero_or_pos k with rfl | h
  · rfl
  · have h2 : 2 ≤ 2 ^ k := by
      calc 2 = 2 ^ 1 := rfl
        _ ≤ 2 ^ k := Nat.pow_le_pow_right (by norm_num) h
    have h3 : 2 ^ k ≤ 2 ^ 63 := Nat.pow_le_pow_right (by norm_num) hk
    obtain ⟨j, e, h4, h5, _⟩ := roundUp_spec h2 h3
    rw [e]
    have a1 : k ≤ j := (Nat.pow_le_pow_iff_right (by norm_num)).1 h4
    have a2 : j < k + 1 := by
      rw [← pow_succ'] at h5
      exact (Nat.pow_lt_pow_iff_right (by norm_num)).1 h5
    congr 1; omega

/-! ## Bulks -/

/-- What always holds of a bulk. -/
structure BInv (b : Bulk) : Prop where
  pos : 0 < b.chunk
  num : b.num = b.size / b.chunk
  le : b.init ≤ b.num
  nodup : b.free.Nodup
  lt : ∀ i ∈ b.free, i < b.init
  nomem : b.mem = none → b.init = 0
  used : ∀ p i, b.used p = some i ↔ ∃ m, b.mem = some m ∧ p = m + b.chunk * i ∧ i < b.init ∧ i ∉ b.free

theorem BInv.new {c n : Nat} (h : 0 < c) : BInv (Bulk.new c n) :=
  { pos := h, num := rfl, le := Nat.zero_le _, nodup := List.nodup_nil, lt := by simp [Bulk.new]
    nomem := fun _ => rfl, used := by simp [Bulk.new] }

/-- The chunk with index `i` lies in the hunk. -/
theorem BInv.inside {b : Bulk} (h : BInv b) {i : Nat} (hi : i < b.init) : b.chunk * i + b.chunk ≤ b.size := by
  have h1 : i + 1 ≤ b.size / b.chunk := by have := h.le; rw [← h.num]; omega
  calc b.chunk * i + b.chunk = b.chunk * (i + 1) := by ring
    _ ≤ b.chunk * (b.size / b.chunk) := Nat.mul_le_mul_left _ h1
    _ ≤ b.size := Nat.mul_div_le _ _

theorem BInv.ptr_inj {b : Bulk} (h : BInv b) {m i j : Nat} (e : m + b.chunk * i = m + b.chunk * j) : i = j := by
  have := h.pos
  exact Nat.eq_of_mul_eq_mul_left this (by omega)

/-- Taking a chunk: a chunk that was not in use is, and nothing else changes. -/
theorem BInv.take {b : Bulk} (h : BInv b) {m : Nat} (hm : b.mem = some m) (hf : b.full = false) :
    ∃ a i, (b.take m).2 = .ok a ∧ BInv (b.take m).1 ∧ b.used a = none ∧ a = m + b.chunk * i ∧
      (b.take m).1.used = upd b.used a (some i) ∧ (b.take m).1.mem = b.mem ∧ (b.take m).1.chunk = b.chunk ∧
      (b.take m).1.size = b.size := by
  unfold Bulk.take
  by_cases hc : b.free.isEmpty ∧ b.init < b.num
  · rw [if_pos hc]
    have hfe : b.free = [] := List.isEmpty_iff.1 hc.1
    have hu : b.used (b.chunkPtr m b.init) = none := by
      rcases hx : b.used (b.chunkPtr m b.init) with _ | i
      · rfl
      · obtain ⟨m', hm', e, hi, _⟩ := (h.used _ _).1 hx
        rw [hm] at hm'; cases hm'
        have := h.ptr_inj (show m + b.chunk * b.init = m + b.chunk * i from e)
        omega
    refine ⟨_, b.init, rfl, ?_, hu, rfl, rfl, rfl, rfl, rfl⟩
    refine { pos := h.pos, num := h.num, le := hc.2, nodup := h.nodup, lt := by simp [hfe]
             nomem := by simp [hm], used := ?_ }
    intro p i
    by_cases hp : p = b.chunkPtr m b.init
    · subst hp
      simp only [upd_same, Option.some.injEq]
      constructor
      · rintro rfl
        exact ⟨m, hm, rfl, Nat.lt_succ_self _, by simp [hfe]⟩
      · rintro ⟨m', hm', e, _, _⟩
        rw [hm] at hm'; cases hm'
        exact h.ptr_inj e
    · simp only [upd_ne _ _ hp, h.used]
      constructor
      · rintro ⟨m', h1, h2, h3, h4⟩
        exact ⟨m', h1, h2, Nat.lt_succ_of_lt h3, h4⟩
      · rintro ⟨m', h1, h2, h3, h4⟩
        refine ⟨m', h1, h2, ?_, h4⟩
        rcases Nat.lt_succ_iff_lt_or_eq.1 h3 with h5 | h5
        · exact h5
        · exfalso; apply hp
          rw [hm] at h1; cases h1
          rw [h2, h5]; rfl
  · rw [if_neg hc]
    rcases hfr : b.free with _ | ⟨i, rest⟩
    · exfalso
      rw [hfr] at hc
      simp [Bulk.full, hfr] at hf
      simp at hc
      omega
    · have hi : i < b.init := h.lt i (by simp [hfr])
      have hnd := h.nodup
      rw [hfr, List.nodup_cons] at hnd
      have hu : b.used (b.chunkPtr m i) = none := by
        rcases hx : b.used (b.chunkPtr m i) with _ | j
        · rfl
        · obtain ⟨m', hm', e, _, hj⟩ := (h.used _ _).1 hx
          rw [hm] at hm'; cases hm'
          have := h.ptr_inj (show m + b.chunk * i = m + b.chunk * j from e)
          subst this
          simp [hfr] at hj
      refine ⟨_, i, rfl, ?_, hu, rfl, rfl, rfl, rfl, rfl⟩
      refine { pos := h.pos, num := h.num, le := h.le, nodup := hnd.2
               lt := fun j hj => h.lt j (by simp [hfr, hj]), nomem := h.nomem, used := ?_ }
      intro p j
      by_cases hp : p = b.chunkPtr m i
      · subst hp
        simp only [upd_same, Option.some.injEq]
        constructor
        · rintro rfl
          exact ⟨m, hm, rfl, hi, hnd.1⟩
        · rintro ⟨m', hm', e, _, _⟩
          rw [hm] at hm'; cases hm'
          exact h.ptr_inj e
      · simp only [upd_ne _ _ hp, h.used]
        constructor
        · rintro ⟨m', h1, h2, h3, h4⟩
          exact ⟨m', h1, h2, h3, fun hx => h4 (by simp [hfr, hx])⟩
        · rintro ⟨m', h1, h2, h3, h4⟩
          refine ⟨m', h1, h2, h3, ?_⟩
          rw [hfr]
          intro hx
          rcases List.mem_cons.1 hx with h5 | h5
          · apply hp
            rw [hm] at h1; cases h1
            rw [h2, h5]; rfl
          · exact h4 h5

theorem BInv.freeChunk {b : Bulk} (h : BInv b) {p i : Nat} (hu : b.used p = some i) :
    ∃ b', b.freeChunk p = some b' ∧ BInv b' ∧ b'.used = upd b.used p none ∧ b'.mem = b.mem ∧
      b'.chunk = b.chunk ∧ b'.size = b.size ∧ b'.full = false := by
  obtain ⟨m, hm, e, hi, hnf⟩ := (h.used p i).1 hu
  refine ⟨{ b with free := b.free ++ [i], used := upd b.used p none }, by simp [Bulk.freeChunk, hu], ?_, rfl, rfl,
    rfl, rfl, by simp [Bulk.full]⟩
  refine { pos := h.pos, num := h.num, le := h.le, nodup := ?_, lt := ?_, nomem := h.nomem, used := ?_ }
  · rw [List.nodup_append]
    refine ⟨h.nodup, by simp, ?_⟩
    intro a ha c hc
    simp at hc
    rintro rfl
    exact hnf (hc ▸ ha)
  · intro j hj
    rcases List.mem_append.1 hj with h1 | h1
    · exact h.lt j h1
    · simp at h1; subst h1; exact hi
  · intro q j
    by_cases hq : q = p
    · subst hq
      simp only [upd_same]
      constructor
      · intro hx; cases hx
      · rintro ⟨m', hm', e', _, hj⟩
        rw [hm] at hm'; cases hm'
        have := h.ptr_inj (e.symm.trans e')
        subst this
        simp at hj
    · simp only [upd_ne _ _ hq, h.used]
      constructor
      · rintro ⟨m', h1, h2, h3, h4⟩
        refine ⟨m', h1, h2, h3, ?_⟩
        simp only [List.mem_append, List.mem_singleton, not_or]
        refine ⟨h4, ?_⟩
        rintro rfl
        apply hq
        rw [hm] at h1; cases h1
        rw [h2, e]
      · rintro ⟨m', h1, h2, h3, h4⟩
        exact ⟨m', h1, h2, h3, fun hx => h4 (List.mem_append_left _ hx)⟩

/-- Every chunk of a full bulk with memory is in use. -/
theorem BInv.full_used {b : Bulk} (h : BInv b) (hf : b.full = true) {m : Nat} (hm : b.mem = some m) {i : Nat}
    (hi : i < b.num) : b.used (m + b.chunk * i) = some i := by
  simp [Bulk.full] at hf
  exact (h.used _ _).2 ⟨m, hm, rfl, by omega, by simp [hf.2]⟩

/-! ## Pools -/

/-- What always holds of a pool, given what Level Zero has allocated. -/
structure PInv (l : Live) (p : Pool) : Prop where
  range : 1 ≤ p.minPow ∧ p.minPow ≤ p.maxPow ∧ p.maxPow ≤ 30
  bulk : ∀ i < p.next, BInv (p.store i)
  size : ∀ i < p.next, (p.store i).size = 2 ^ p.maxPow
  chunk : ∀ i < p.next, ∃ k, p.minPow ≤ k ∧ k ≤ p.maxPow ∧ (p.store i).chunk = 2 ^ k
  lists : ∀ c i, i ∈ p.lists c ↔ i < p.next ∧ (p.store i).chunk = c
  live : ∀ i < p.next, ∀ a, (p.store i).mem = some a → l a = some (2 ^ p.maxPow)
  apart : ∀ i < p.next, ∀ j < p.next, ∀ a b, (p.store i).mem = some a → (p.store j).mem = some b → i ≠ j → a ≠ b
  alloc : ∀ a id, p.allocated a = some id ↔ id < p.next ∧ ∃ i, (p.store id).used a = some i

/-- Allocations do not overlap. -/
def Apart (l : Live) : Prop := ∀ a b n m, l a = some n → l b = some m → a ≠ b → a + n ≤ b ∨ b + m ≤ a

theorem rotate_spec (full : Nat → Bool) : ∀ n l, (∀ i, i ∈ (rotate full n l).1 ↔ i ∈ l) ∧
    ((rotate full n l).2 = false → ∃ b t, (rotate full n l).1 = b :: t ∧ full b = false) := by
  intro n
  induction n with
  | zero => intro l; simp [rotate]
  | succ n ih =>
    intro l
    cases l with
    | nil => simp [rotate]
    | cons b t =>
      by_cases hb : full b = true
      · rw [rotate, if_pos hb]
        refine ⟨fun i => ?_, (ih _).2⟩
        rw [(ih _).1 i]
        simp [or_comm]
      · rw [rotate, if_neg hb]
        exact ⟨fun i => Iff.rfl, fun _ => ⟨b, t, rfl, by simpa using hb⟩⟩

/-- If the search ends with "all full", all are full. -/
theorem rotate_all (full : Nat → Bool) : ∀ l r, (rotate full l.length (l ++ r)).2 = true → ∀ i ∈ l, full i = true := by
  intro l
  induction l with
  | nil => intro r _ i hi; cases hi
  | cons b t ih =>
    intro r h i hi
    by_cases hb : full b = true
    · rw [List.length_cons, List.cons_append, rotate, if_pos hb, List.append_assoc] at h
      rcases List.mem_cons.1 hi with rfl | hi
      · exact hb
      · exact ih _ h i hi
    · rw [List.length_cons, List.cons_append, rotate, if_neg hb] at h
      cases h

/-- A new pool. -/
theorem PInv.new {minPow maxPow : Nat} {p : Pool} (h : Pool.new minPow maxPow = some p) (l : Live) : PInv l p := by
  unfold Pool.new at h
  split_ifs at h with h1 h2
  cases h
  refine { range := by simp; omega, bulk := ?_, size := ?_, chunk := ?_, lists := ?_, live := ?_, apart := ?_, alloc := ?_ }
  · intro i _; exact BInv.new (Nat.pos_of_ne_zero (by simp))
  · intro i _; rfl
  · intro i hi
    simp only at hi ⊢
    exact ⟨minPow + i, by omega, by omega, rfl⟩
  · intro c i
    simp only [Pool.firstLists, Bulk.new]
    split_ifs with hc
    · simp only [List.mem_singleton]
      constructor
      · rintro rfl
        refine ⟨by omega, ?_⟩
        conv_rhs => rw [hc.2.2]
        congr 1; omega
      · rintro ⟨hi, e⟩
        have : c.log2 = minPow + i := by rw [← e, Nat.log2_two_pow]
        omega
    · simp only [List.not_mem_nil, false_iff, not_and]
      rintro hi rfl
      apply hc
      rw [Nat.log2_two_pow]
      exact ⟨by omega, by omega, rfl⟩
  · intro i _ a ha; cases ha
  · intro i _ j _ a b ha; cases ha
  · intro a id
    simp [Bulk.new]

/-- The pools do not depend on allocations other than their own. -/
theorem PInv.mono {l l' : Live} {p : Pool} (h : PInv l p)
    (hl : ∀ i < p.next, ∀ a, (p.store i).mem = some a → l' a = l a) : PInv l' p :=
  { h with live := fun i hi a ha => (hl i hi a ha).trans (h.live i hi a ha) }

/-- Choosing a bulk: it is not full, and nothing else has changed. -/
theorem PInv.choose {l : Live} {p : Pool} (h : PInv l p) {k : Nat} (h1 : p.minPow ≤ k) (h2 : k ≤ p.maxPow) :
    ∃ q id, p.choose (2 ^ k) (rotate (fun i => (p.store i).full) (p.lists (2 ^ k)).length (p.lists (2 ^ k))) = (q, id) ∧
      PInv l q ∧ id < q.next ∧ (q.store id).chunk = 2 ^ k ∧ (q.store id).full = false ∧
      q.minPow = p.minPow ∧ q.maxPow = p.maxPow ∧ q.allocated = p.allocated ∧ p.next ≤ q.next ∧
      (∀ i < p.next, q.store i = p.store i) ∧ (∀ i, p.next ≤ i → i < q.next → (q.store i).mem = none) ∧
      (p.next ≤ id → ∀ i < p.next, (p.store i).chunk = 2 ^ k → (p.store i).full = true) ∧
      (q.next = p.next ∨ (q.next = p.next + 1 ∧ id = p.next)) := by
  have hr := rotate_spec (fun i => (p.store i).full) (p.lists (2 ^ k)).length (p.lists (2 ^ k))
  have hall := rotate_all (fun i => (p.store i).full) (p.lists (2 ^ k)) []
  rw [List.append_nil] at hall
  generalize rotate (fun i => (p.store i).full) (p.lists (2 ^ k)).length (p.lists (2 ^ k)) = r at hr hall
  have hpos : (0 : Nat) < 2 ^ k := Nat.pos_of_ne_zero (by simp)
  rcases hb : r.2 with _ | _
  · obtain ⟨b, t, e, hbf⟩ := hr.2 hb
    have hbm : b ∈ p.lists (2 ^ k) := (hr.1 b).1 (by simp [e])
    have hbl := (h.lists _ _).1 hbm
    refine ⟨{ p with lists := upd p.lists (2 ^ k) r.1 }, b, by simp [Pool.choose, hb, e], ?_, hbl.1, hbl.2, hbf, rfl, rfl,
      rfl, le_refl _, fun _ _ => rfl, fun i a b => absurd a (by simp at b; omega), fun hx => absurd hx (by omega),
      Or.inl rfl⟩
    refine { h with lists := ?_ }
    intro c i
    by_cases hc : c = 2 ^ k
    · subst hc; simp only [upd_same]; rw [hr.1, h.lists]
    · simp only [upd_ne _ _ hc]; exact h.lists c i
  · have hfull := hall hb
    refine ⟨{ p with store := upd p.store p.next (Bulk.new (2 ^ k) p.maxChunk), next := p.next + 1,
                     lists := upd p.lists (2 ^ k) (r.1 ++ [p.next]) }, p.next,
      by simp only [Pool.choose, hb, if_true], ?_, Nat.lt_succ_self _, by simp [upd, Bulk.new], ?_, rfl, rfl,
      rfl, Nat.le_succ _, ?_, ?_, ?_, Or.inr ⟨rfl, rfl⟩⟩
    · refine { range := h.range, bulk := ?_, size := ?_, chunk := ?_, lists := ?_, live := ?_, apart := ?_, alloc := ?_ }
      · intro i hi
        by_cases hx : i = p.next
        · subst hx; simp only [upd_same]; exact BInv.new hpos
        · simp only [upd_ne _ _ hx]; exact h.bulk i (by simp at hi; omega)
      · intro i hi
        by_cases hx : i = p.next
        · subst hx; simp only [upd_same]; rfl
        · simp only [upd_ne _ _ hx]; exact h.size i (by simp at hi; omega)
      · intro i hi
        by_cases hx : i = p.next
        · subst hx; simp only [upd_same]; exact ⟨k, h1, h2, rfl⟩
        · simp only [upd_ne _ _ hx]; exact h.chunk i (by simp at hi; omega)
      · intro c i
        by_cases hc : c = 2 ^ k
        · subst hc
          simp only [upd_same, List.mem_append, List.mem_singleton, hr.1, h.lists]
          by_cases hx : i = p.next
          · subst hx; simp [upd_same, Bulk.new]
          · simp only [upd_ne _ _ hx, hx, or_false]
            constructor
            · rintro ⟨a, b⟩; exact ⟨by omega, b⟩
            · rintro ⟨a, b⟩; exact ⟨by omega, b⟩
        · simp only [upd_ne _ _ hc, h.lists]
          by_cases hx : i = p.next
          · subst hx; simp [upd_same, Bulk.new, Ne.symm hc]
          · simp only [upd_ne _ _ hx]
            constructor
            · rintro ⟨a, b⟩; exact ⟨by omega, b⟩
            · rintro ⟨a, b⟩; exact ⟨by omega, b⟩
      · intro i hi a ha
        by_cases hx : i = p.next
        · subst hx; simp [upd_same, Bulk.new] at ha
        · simp only [upd_ne _ _ hx] at ha; exact h.live i (by simp at hi; omega) a ha
      · intro i hi j hj a b ha hb'
        by_cases hx : i = p.next
        · subst hx; simp [upd_same, Bulk.new] at ha
        · by_cases hy : j = p.next
          · subst hy; simp [upd_same, Bulk.new] at hb'
          · simp only [upd_ne _ _ hx] at ha; simp only [upd_ne _ _ hy] at hb'
            exact h.apart i (by simp at hi; omega) j (by simp at hj; omega) a b ha hb'
      · intro a id
        simp only [h.alloc]
        by_cases hx : id = p.next
        · subst hx; simp [upd_same, Bulk.new]
        · simp only [upd_ne _ _ hx]
          constructor
          · rintro ⟨a, b⟩; exact ⟨by omega, b⟩
          · rintro ⟨a, b⟩; exact ⟨by omega, b⟩
    · simp only [upd_same, Bulk.full, Bulk.new]
      have : 0 < p.maxChunk / 2 ^ k :=
        Nat.div_pos (Nat.pow_le_pow_right (by norm_num) h2) hpos
      simp [this]
    · intro i hi; simp only [upd_ne _ _ (show i ≠ p.next by omega)]
    · intro i a b
      have : i = p.next := by simp at b; omega
      subst this; simp [upd_same, Bulk.new]
    · intro _ i hi hc
      exact hfull i ((h.lists _ _).2 ⟨hi, hc⟩)

/-- What taking a chunk does to a pool and to the allocations: `hunk` is the memory taken from Level Zero, if any. -/
structure Took (l l' : Live) (p p' : Pool) (a : Nat) (id : Nat) (hunk : Option Nat) : Prop where
  inv : PInv l' p'
  idlt : id < p'.next
  fresh : p.allocated a = none
  alloc : p'.allocated = upd p.allocated a (some id)
  pows : p'.minPow = p.minPow ∧ p'.maxPow = p.maxPow
  next : p.next ≤ p'.next
  chunks : ∀ i < p.next, (p'.store i).chunk = (p.store i).chunk
  live : match hunk with
    | none => l' = l ∧ (∀ i < p'.next, ∀ m, (p'.store i).mem = some m → i < p.next ∧ (p.store i).mem = some m)
    | some m => l' = upd l m (some (2 ^ p.maxPow)) ∧ Fresh l m (2 ^ p.maxPow) ∧ (p'.store id).mem = some m ∧
        (∀ i < p'.next, i ≠ id → ∀ m', (p'.store i).mem = some m' → i < p.next ∧ (p.store i).mem = some m')
  keep : ∀ i < p.next, ∀ m, (p.store i).mem = some m → (p'.store i).mem = some m
  grow : p'.next = p.next ∨ (p'.next = p.next + 1 ∧ id = p.next)

/-- Chunks of different bulks are at different places. -/
theorem PInv.used_apart {l : Live} {p : Pool} (h : PInv l p) (hl : Apart l) {i j : Nat} (hi : i < p.next)
    (hj : j < p.next) {a x y : Nat} (h1 : (p.store i).used a = some x) (h2 : (p.store j).used a = some y) : i = j := by
  by_contra hne
  obtain ⟨m, hm, e, hx, _⟩ := ((h.bulk i hi).used a x).1 h1
  obtain ⟨n, hn, f, hy, _⟩ := ((h.bulk j hj).used a y).1 h2
  have d := hl m n _ _ (h.live i hi m hm) (h.live j hj n hn) (h.apart i hi j hj m n hm hn hne)
  have q1 := (h.bulk i hi).inside hx
  have q2 := (h.bulk j hj).inside hy
  rw [h.size i hi] at q1; rw [h.size j hj] at q2
  have := (h.bulk i hi).pos
  have := (h.bulk j hj).pos
  omega

/-- Replacing a bulk by one with the same hunk and one more chunk in use. -/
theorem PInv.put {l : Live} {p : Pool} (h : PInv l p) (hl : Apart l) {id : Nat} (hid : id < p.next) {b : Bulk}
    (hb : BInv b) (h1 : b.mem = (p.store id).mem) (h2 : b.chunk = (p.store id).chunk)
    (h3 : b.size = (p.store id).size) {a i : Nat} (h4 : b.used = upd (p.store id).used a (some i))
    (h5 : (p.store id).used a = none) :
    p.allocated a = none ∧
      PInv l { p with store := upd p.store id b, allocated := upd p.allocated a (some id) } := by
  have hfree : p.allocated a = none := by
    rcases hx : p.allocated a with _ | j
    · rfl
    · exfalso
      obtain ⟨hj, y, hy⟩ := (h.alloc a j).1 hx
      have hne : j ≠ id := by rintro rfl; rw [h5] at hy; cases hy
      -- the chunk is in the hunk of `id`, and in that of `j`
      obtain ⟨m, hm, e, hxi, _⟩ := (hb.used a i).1 (by rw [h4, upd_same])
      obtain ⟨n, hn, f, hyi, _⟩ := ((h.bulk j hj).used a y).1 hy
      rw [h1] at hm
      have d := hl m n _ _ (h.live id hid m hm) (h.live j hj n hn) (h.apart id hid j hj m n hm hn (Ne.symm hne))
      have q1 := hb.inside hxi
      have q2 := (h.bulk j hj).inside hyi
      rw [h3, h.size id hid] at q1; rw [h.size j hj] at q2
      have := hb.pos
      have := (h.bulk j hj).pos
      omega
  refine ⟨hfree, ?_⟩
  refine { range := h.range, bulk := ?_, size := ?_, chunk := ?_, lists := ?_, live := ?_, apart := ?_, alloc := ?_ }
  · intro j hj
    by_cases hx : j = id
    · subst hx; simp only [upd_same]; exact hb
    · simp only [upd_ne _ _ hx]; exact h.bulk j hj
  · intro j hj
    by_cases hx : j = id
    · subst hx; simp only [upd_same]; rw [h3]; exact h.size j hj
    · simp only [upd_ne _ _ hx]; exact h.size j hj
  · intro j hj
    by_cases hx : j = id
    · subst hx; simp only [upd_same]; rw [h2]; exact h.chunk j hj
    · simp only [upd_ne _ _ hx]; exact h.chunk j hj
  · intro c j
    by_cases hx : j = id
    · subst hx; simp only [upd_same]; rw [h2]; exact h.lists c j
    · simp only [upd_ne _ _ hx]; exact h.lists c j
  · intro j hj m hm
    by_cases hx : j = id
    · subst hx; simp only [upd_same] at hm; rw [h1] at hm; exact h.live j hj m hm
    · simp only [upd_ne _ _ hx] at hm; exact h.live j hj m hm
  · intro j hj k hk m n hm hn
    have e1 : ∀ x, (upd p.store id b x).mem = (p.store x).mem := by
      intro x
      by_cases hx : x = id
      · subst hx; simp only [upd_same]; exact h1
      · simp only [upd_ne _ _ hx]
    simp only [e1] at hm hn
    exact h.apart j hj k hk m n hm hn
  · intro a' j
    by_cases ha : a' = a
    · subst ha
      simp only [upd_same, Option.some.injEq]
      constructor
      · rintro rfl
        exact ⟨hid, i, by simp only [upd_same]; rw [h4, upd_same]⟩
      · rintro ⟨hj, y, hy⟩
        by_contra hx
        simp only [upd_ne _ _ (Ne.symm hx)] at hy
        have := (h.alloc a' j).2 ⟨hj, y, hy⟩
        rw [hfree] at this; cases this
    · simp only [upd_ne _ _ ha, h.alloc]
      by_cases hx : j = id
      · subst hx; simp only [upd_same]; rw [h4, upd_ne _ _ ha]
      · simp only [upd_ne _ _ hx]

/-- Giving a bulk its hunk. -/
theorem PInv.give {l : Live} {p : Pool} (h : PInv l p) {id : Nat} (hid : id < p.next)
    (h0 : (p.store id).mem = none) {m : Nat} (hf : Fresh l m (2 ^ p.maxPow)) :
    PInv (upd l m (some (2 ^ p.maxPow))) { p with store := upd p.store id { p.store id with mem := some m } } := by
  have hb := h.bulk id hid
  have hne : ∀ j < p.next, ∀ a, (p.store j).mem = some a → a ≠ m := by
    rintro j hj a ha rfl
    have := h.live j hj a ha
    rw [hf.2.2.1] at this; cases this
  refine { range := h.range, bulk := ?_, size := ?_, chunk := ?_, lists := ?_, live := ?_, apart := ?_, alloc := ?_ }
  · intro j hj
    by_cases hx : j = id
    · subst hx; simp only [upd_same]
      have hi := hb.nomem h0
      have hfr : (p.store j).free = [] := by
        rcases hq : (p.store j).free with _ | ⟨x, t⟩
        · rfl
        · have := hb.lt x (by simp [hq]); omega
      refine { pos := hb.pos, num := hb.num, le := hb.le, nodup := hb.nodup, lt := hb.lt, nomem := by simp, used := ?_ }
      intro q i
      simp only [hb.used, h0]
      constructor
      · rintro ⟨_, hx, _⟩; cases hx
      · rintro ⟨_, _, _, hx, _⟩; omega
    · simp only [upd_ne _ _ hx]; exact h.bulk j hj
  · intro j hj
    by_cases hx : j = id
    · subst hx; simp only [upd_same]; exact h.size j hj
    · simp only [upd_ne _ _ hx]; exact h.size j hj
  · intro j hj
    by_cases hx : j = id
    · subst hx; simp only [upd_same]; exact h.chunk j hj
    · simp only [upd_ne _ _ hx]; exact h.chunk j hj
  · intro c j
    by_cases hx : j = id
    · subst hx; simp only [upd_same]; exact h.lists c j
    · simp only [upd_ne _ _ hx]; exact h.lists c j
  · intro j hj a ha
    by_cases hx : j = id
    · subst hx; simp only [upd_same, Option.some.injEq] at ha; subst ha; simp only [upd_same]
    · simp only [upd_ne _ _ hx] at ha
      rw [upd_ne _ _ (hne j hj a ha)]
      exact h.live j hj a ha
  · intro j hj k hk a b ha hb' hjk
    by_cases hx : j = id
    · subst hx
      simp only [upd_same, Option.some.injEq] at ha
      simp only [upd_ne _ _ (Ne.symm hjk)] at hb'
      rintro rfl
      exact hne k hk a hb' ha.symm
    · simp only [upd_ne _ _ hx] at ha
      by_cases hy : k = id
      · subst hy
        simp only [upd_same, Option.some.injEq] at hb'
        rintro rfl
        exact hne j hj a ha hb'.symm
      · simp only [upd_ne _ _ hy] at hb'
        exact h.apart j hj k hk a b ha hb' hjk
  · intro a j
    simp only [h.alloc]
    by_cases hx : j = id
    · subst hx; simp only [upd_same]
    · simp only [upd_ne _ _ hx]

/-- Fresh memory keeps allocations apart. -/
theorem Apart.fresh {l : Live} (h : Apart l) {m n : Nat} (hf : Fresh l m n) : Apart (upd l m (some n)) := by
  intro a b x y ha hb hne
  by_cases h1 : a = m
  · subst h1
    rw [upd_same] at ha; cases ha
    rw [upd_ne _ _ (Ne.symm hne)] at hb
    exact hf.2.2.2 b y hb
  · rw [upd_ne _ _ h1] at ha
    by_cases h2 : b = m
    · subst h2
      rw [upd_same] at hb; cases hb
      exact (hf.2.2.2 a x ha).symm
    · rw [upd_ne _ _ h2] at hb
      exact h a b x y ha hb hne

theorem Apart.free {l : Live} (h : Apart l) (m : Nat) : Apart (upd l m none) := by
  intro a b x y ha hb hne
  have h1 : a ≠ m := by rintro rfl; rw [upd_same] at ha; cases ha
  have h2 : b ≠ m := by rintro rfl; rw [upd_same] at hb; cases hb
  rw [upd_ne _ _ h1] at ha; rw [upd_ne _ _ h2] at hb
  exact h a b x y ha hb hne

/-- What the pool does on a request. -/
theorem PInv.allocate {l : Live} {p : Pool} (h : PInv l p) (hl : Apart l) {ask : Live → Nat → Option Nat}
    (hask : ∀ n a, ask l n = some a → Fresh l a n) {k : Nat} (h1 : p.minPow ≤ k) (h2 : k ≤ p.maxPow) :
    (∃ l' p' a id hunk, p.allocate ask l (2 ^ k) = (l', p', .ok a) ∧ Took l l' p p' a id hunk ∧
        (p'.store id).chunk = 2 ^ k ∧ (∃ i, (p'.store id).used a = some i) ∧
        (hunk ≠ none →
          (p.next ≤ id ∧ ∀ i < p.next, (p.store i).chunk = 2 ^ k → (p.store i).full = true) ∨
          (id < p.next ∧ (p.store id).chunk = 2 ^ k ∧ (p.store id).mem = none))) ∨
    (∃ p', p.allocate ask l (2 ^ k) = (l, p', .threw) ∧ PInv l p' ∧ p'.allocated = p.allocated ∧
        p'.minPow = p.minPow ∧ p'.maxPow = p.maxPow ∧ p.next ≤ p'.next ∧ (∀ i < p.next, p'.store i = p.store i) ∧
        (∀ i, p.next ≤ i → i < p'.next → (p'.store i).mem = none) ∧ ask l (2 ^ p.maxPow) = none) := by
  obtain ⟨q, id, e, hq, hid, hc, hf, m1, m2, m3, m4, m5, m6, m7, m8⟩ := h.choose h1 h2
  have hsz : ¬ ¬ (2 ^ k = roundUpPow2 (2 ^ k) ∧ 2 ^ k ≤ p.maxChunk ∧ 2 ^ k ≥ p.minChunk) := by
    rw [not_not]
    exact ⟨(roundUp_pow k (by have := h.range; omega)).symm, Nat.pow_le_pow_right (by norm_num) h2,
      Nat.pow_le_pow_right (by norm_num) h1⟩
  have e0 : p.allocate ask l (2 ^ k) = q.takeFrom ask l id := by
    unfold Pool.allocate
    rw [if_neg hsz]
    simp only [e]
  rw [e0]
  have hold : ∀ i < q.next, ∀ m, (q.store i).mem = some m → i < p.next ∧ (p.store i).mem = some m := by
    intro i hi m hm
    by_cases hx : i < p.next
    · rw [m5 i hx] at hm; exact ⟨hx, hm⟩
    · rw [m6 i (by omega) hi] at hm; cases hm
  have hkeep : ∀ i < p.next, ∀ m, (p.store i).mem = some m → (q.store i).mem = some m := by
    intro i hi m hm; rw [m5 i hi]; exact hm
  rcases hmem : (q.store id).mem with _ | m
  · -- no hunk yet
    rcases ha : ask l (q.store id).size with _ | m
    · right
      refine ⟨{ q with store := upd q.store id (q.store id) }, by
        simp [Pool.takeFrom, Bulk.allocChunk, Bulk.ensure, hmem, ha], ?_, m3, m1, m2, m4, ?_, ?_,
        by rw [← m2, ← hq.size id hid]; exact ha⟩
      · have : upd q.store id (q.store id) = q.store := by
          funext x
          by_cases hx : x = id
          · subst hx; rw [upd_same]
          · rw [upd_ne _ _ hx]
        rw [this]; exact hq
      · intro i hi
        simp only
        by_cases hx : i = id
        · subst hx; rw [upd_same]; exact m5 i hi
        · rw [upd_ne _ _ hx]; exact m5 i hi
      · intro i hi hj
        simp only
        by_cases hx : i = id
        · subst hx; rw [upd_same]; exact hmem
        · rw [upd_ne _ _ hx]; exact m6 i hi hj
    · left
      have ha' := ha
      rw [hq.size id hid] at ha'
      have hfr := hask _ _ ha'
      have hg := hq.give hid hmem hfr
      have hl' := hl.fresh hfr
      have hb' := hg.bulk id hid
      simp only [upd_same] at hb'
      obtain ⟨a, i, t1, t2, t3, t4, t5, t6, t7, t8⟩ := hb'.take (m := m) rfl (by simpa [Bulk.full] using hf)
      obtain ⟨u1, u2⟩ := hg.put hl' (id := id) hid t2 (by simp only [upd_same]; exact t6)
        (by simp only [upd_same]; exact t7) (by simp only [upd_same]; exact t8)
        (a := a) (i := i) (by simp only [upd_same]; exact t5) (by simp only [upd_same]; exact t3)
      simp only at u1 u2
      have hupd : ∀ b b' : Bulk, upd (upd q.store id b) id b' = upd q.store id b' := by
        intro b b'; funext x
        by_cases hx : x = id
        · subst hx; simp only [upd_same]
        · simp only [upd_ne _ _ hx]
      rw [hupd] at u2
      have hs := hq.size id hid
      refine ⟨upd l m (some (2 ^ q.maxPow)), _, a, id, some m, ?_, ⟨u2, hid, m3 ▸ u1, by rw [← m3], ⟨m1, m2⟩, m4, ?_, ?_, ?_, m8⟩, ?_, ?_, ?_⟩
      · simp only [Pool.takeFrom, Bulk.allocChunk, Bulk.ensure, hmem, ha, t1]
        rw [hs]
      · intro j hj
        by_cases hx : j = id
        · subst hx; simp only [upd_same]; rw [t7, m5 j hj]
        · simp only [upd_ne _ _ hx]; rw [m5 j hj]
      · refine ⟨by rw [← m2], by rw [← m2]; exact hfr, by simp only [upd_same]; exact t6, ?_⟩
        intro j hj hx m' hm'
        simp only [upd_ne _ _ hx] at hm'
        exact hold j hj m' hm'
      · intro j hj m' hm'
        have := hkeep j hj m' hm'
        by_cases hx : j = id
        · subst hx; rw [hmem] at this; cases this
        · simp only [upd_ne _ _ hx]; exact this
      · simp only [upd_same]; rw [t7]; exact hc
      · exact ⟨i, by simp only [upd_same]; rw [t5, upd_same]⟩
      · intro _
        by_cases hx : id < p.next
        · right; exact ⟨hx, by rw [← m5 id hx]; exact hc, by rw [← m5 id hx]; exact hmem⟩
        · left; exact ⟨by omega, m7 (by omega)⟩
  · left
    obtain ⟨a, i, t1, t2, t3, t4, t5, t6, t7, t8⟩ := (hq.bulk id hid).take hmem hf
    obtain ⟨u1, u2⟩ := hq.put hl hid t2 t6 t7 t8 t5 t3
    refine ⟨l, _, a, id, none, ?_, ⟨u2, hid, m3 ▸ u1, by rw [← m3], ⟨m1, m2⟩, m4, ?_, ?_, ?_, m8⟩, ?_, ?_, by simp⟩
    · simp [Pool.takeFrom, Bulk.allocChunk, Bulk.ensure, hmem, t1]
    · intro j hj
      by_cases hx : j = id
      · subst hx; simp only [upd_same]; rw [t7, m5 j hj]
      · simp only [upd_ne _ _ hx]; rw [m5 j hj]
    · refine ⟨rfl, ?_⟩
      intro j hj m' hm'
      by_cases hx : j = id
      · subst hx; simp only [upd_same] at hm'; rw [t6] at hm'; exact hold j hj m' hm'
      · simp only [upd_ne _ _ hx] at hm'; exact hold j hj m' hm'
    · intro j hj m' hm'
      have := hkeep j hj m' hm'
      by_cases hx : j = id
      · subst hx; simp only [upd_same]; rw [t6]; exact this
      · simp only [upd_ne _ _ hx]; exact this
    · simp only [upd_same]; rw [t7]; exact hc
    · exact ⟨i, by simp only [upd_same]; rw [t5, upd_same]⟩

/-- What the pool does when memory comes back. -/
theorem PInv.deallocate {l : Live} {p : Pool} (h : PInv l p) (hl : Apart l) {a id : Nat} (ha : p.allocated a = some id) :
    ∃ p', p.deallocate a = (p', .done) ∧ PInv l p' ∧ p'.allocated = upd p.allocated a none ∧ p'.next = p.next ∧
      p'.minPow = p.minPow ∧ p'.maxPow = p.maxPow ∧
      (∀ i, (p'.store i).mem = (p.store i).mem ∧ (p'.store i).chunk = (p.store i).chunk) ∧
      (p'.store id).full = false := by
  obtain ⟨hid, i, hu⟩ := (h.alloc a id).1 ha
  obtain ⟨b, e, hb, t1, t2, t3, t4, t5⟩ := (h.bulk id hid).freeChunk hu
  have e1 : ∀ x, (upd p.store id b x).mem = (p.store x).mem ∧ (upd p.store id b x).chunk = (p.store x).chunk ∧
      (upd p.store id b x).size = (p.store x).size := by
    intro x
    by_cases hx : x = id
    · subst hx; simp only [upd_same]; exact ⟨t2, t3, t4⟩
    · rw [upd_ne _ _ hx]; exact ⟨rfl, rfl, rfl⟩
  refine ⟨{ p with store := upd p.store id b, allocated := upd p.allocated a none }, by simp [Pool.deallocate, ha, e], ?_, rfl,
    rfl, rfl, rfl, fun x => ⟨(e1 x).1, (e1 x).2.1⟩, by simp only [upd_same]; exact t5⟩
  refine { range := h.range, bulk := ?_, size := ?_, chunk := ?_, lists := ?_, live := ?_, apart := ?_, alloc := ?_ }
  · intro j hj
    by_cases hx : j = id
    · subst hx; simp only [upd_same]; exact hb
    · simp only [upd_ne _ _ hx]; exact h.bulk j hj
  · intro j hj; simp only [(e1 j).2.2]; exact h.size j hj
  · intro j hj; simp only [(e1 j).2.1]; exact h.chunk j hj
  · intro c j; simp only [(e1 j).2.1]; exact h.lists c j
  · intro j hj m hm; simp only [(e1 j).1] at hm; exact h.live j hj m hm
  · intro j hj k hk m n hm hn; simp only [(e1 _).1] at hm hn; exact h.apart j hj k hk m n hm hn
  · intro a' j
    by_cases hq : a' = a
    · subst hq
      simp only [upd_same]
      constructor
      · intro hx; cases hx
      · rintro ⟨hj, y, hy⟩
        by_cases hx : j = id
        · subst hx; simp only [upd_same] at hy; rw [t1, upd_same] at hy; cases hy
        · simp only [upd_ne _ _ hx] at hy
          exact absurd (h.used_apart hl hj hid hy hu) hx
    · simp only [upd_ne _ _ hq, h.alloc]
      by_cases hx : j = id
      · subst hx; simp only [upd_same]; rw [t1, upd_ne _ _ hq]
      · simp only [upd_ne _ _ hx]

/-! ## The whole state -/

/-- The size a pool with smallest chunks of `2^N` gives to a request. -/
theorem poolSize_spec {p : Pool} (h : p.minPow ≤ p.maxPow ∧ p.maxPow ≤ 30) {r : Nat} (hr : r ≤ 2 ^ p.maxPow) :
    ∃ k, poolSize p r = 2 ^ k ∧ p.minPow ≤ k ∧ k ≤ p.maxPow ∧ r ≤ 2 ^ k ∧ (2 ^ k < 2 * r ∨ 2 ^ k = p.minChunk) := by
  have hM : 2 ^ p.maxPow ≤ 2 ^ 30 := Nat.pow_le_pow_right (by norm_num) h.2
  unfold poolSize
  by_cases hlt : roundUpPow2 r < p.minChunk
  · rw [if_pos hlt]
    refine ⟨p.minPow, rfl, le_refl _, h.1, ?_, Or.inr rfl⟩
    by_cases h2 : 2 ≤ r
    · obtain ⟨k, e, h3, _, _⟩ := roundUp_spec h2 (by omega)
      rw [e] at hlt
      exact le_trans h3 (le_of_lt hlt)
    · have : 1 ≤ 2 ^ p.minPow := Nat.one_le_two_pow
      omega
  · rw [if_neg hlt]
    by_cases h2 : 2 ≤ r
    · obtain ⟨k, e, h3, h4, _⟩ := roundUp_spec h2 (by omega)
      rw [e] at hlt ⊢
      refine ⟨k, rfl, ?_, ?_, h3, Or.inl h4⟩
      · exact (Nat.pow_le_pow_iff_right (by norm_num)).1 (not_lt.1 hlt)
      · by_contra hk
        have : 2 ^ (p.maxPow + 1) ≤ 2 ^ k := Nat.pow_le_pow_right (by norm_num) (by omega)
        rw [pow_succ] at this
        omega
    · have e : roundUpPow2 r = r := by simp [roundUpPow2, show r < 2 by omega]
      rw [e] at hlt ⊢
      have h0 : 1 ≤ 2 ^ p.minPow := Nat.one_le_two_pow
      have h1 : r = 1 := by unfold Pool.minChunk at hlt; omega
      subst h1
      have : p.minPow = 0 := by
        by_contra hne
        have : 2 ^ 1 ≤ 2 ^ p.minPow := Nat.pow_le_pow_right (by norm_num) (by omega)
        unfold Pool.minChunk at hlt; omega
      exact ⟨0, rfl, by omega, by omega, by simp, Or.inl (by norm_num)⟩

theorem poolSize_congr {p q : Pool} (h : p.minPow = q.minPow) (r : Nat) : poolSize p r = poolSize q r := by
  unfold poolSize Pool.minChunk
  rw [h]

/-- The view has its memory from pool `s`. -/
def Pooled (M : Nat) (v : View) (s : Bool) : Prop :=
  v.shared = true ∧ v.usePool = true ∧ v.memPool = some s ∧ v.size ≤ 2 ^ M

/-- What always holds of a view. -/
structure VInv (M : Nat) (w : World) (v : View) : Prop where
  use : v.usePool = true → v.hint ≠ .readWrite ∧ v.hint ≠ .appManaged
  size : v.size = v.requested ∨ ∃ s, Pooled M v s ∧ v.requested ≤ 2 ^ M ∧ v.size = poolSize (w.pool s) v.requested
  pool : ∀ s a, Pooled M v s → v.dev = some a →
    v.requested ≤ v.size ∧ ∃ b, (w.pool s).allocated a = some b ∧ ((w.pool s).store b).chunk = v.size
  direct : ∀ a, (∀ s, ¬ Pooled M v s) → v.hint ≠ .appManaged → v.dev = some a →
    w.live a = some v.size ∧ ∀ s, ∀ i < (w.pool s).next, ((w.pool s).store i).mem ≠ some a
  broken : v.shared = true → v.usePool = true → v.memPool = none → v.dev = none

/-- What always holds.  `G` says that no application-managed view has a null pointer. -/
structure WInv (G : Prop) (N M : Nat) (w : World) : Prop where
  pows : ∀ s, (w.pool s).minPow = N ∧ (w.pool s).maxPow = M
  pools : ∀ s, PInv w.live (w.pool s)
  apart : Apart w.live
  al : ∀ m n, w.live m = some n → m ≠ 0 ∧ 64 ∣ m
  cross : ∀ i < (w.pool false).next, ∀ j < (w.pool true).next, ∀ a b, ((w.pool false).store i).mem = some a →
    ((w.pool true).store j).mem = some b → a ≠ b
  ids : ∀ id v, w.views id = some v → id < w.nextView
  views : ∀ id v, w.views id = some v → VInv M w v
  inj : ∀ id v id' v' a, Holds w id v a → Holds w id' v' a → id = id'
  owner : ∀ s a b, (w.pool s).allocated a = some b → ∃ id v, Holds w id v a ∧ Pooled M v s
  nonull : G → ∀ id v, w.views id = some v → v.hint = .appManaged → v.dev ≠ none
  owned : G → ∀ a n, w.live a = some n →
    (∃ s, ∃ i < (w.pool s).next, ((w.pool s).store i).mem = some a) ∨
    (∃ id v, Holds w id v a ∧ ∀ s, ¬ Pooled M v s)

/-- Hunks of different pools, or different hunks of one pool, are at different places. -/
theorem WInv.hunks {G : Prop} {N M : Nat} {w : World} (h : WInv G N M w) {s t : Bool} {i j a : Nat} (hi : i < (w.pool s).next)
    (hj : j < (w.pool t).next) (ha : ((w.pool s).store i).mem = some a) (hb : ((w.pool t).store j).mem = some a) :
    s = t ∧ i = j := by
  have hst : s = t := by
    cases s <;> cases t
    · rfl
    · exact absurd rfl (h.cross i hi j hj a a ha hb)
    · exact absurd rfl (h.cross j hj i hi a a hb ha)
    · rfl
  subst hst
  refine ⟨rfl, ?_⟩
  by_contra hne
  exact (h.pools s).apart i hi j hj a a ha hb hne rfl

/-- Where a chunk in use lies. -/
theorem WInv.chunk_in {G : Prop} {N M : Nat} {w : World} (h : WInv G N M w) {s : Bool} {a b : Nat}
    (hb : (w.pool s).allocated a = some b) :
    b < (w.pool s).next ∧ ∃ m i, ((w.pool s).store b).mem = some m ∧ a = m + ((w.pool s).store b).chunk * i ∧
      w.live m = some (2 ^ M) ∧ m ≤ a ∧ a + ((w.pool s).store b).chunk ≤ m + 2 ^ M ∧ 0 < ((w.pool s).store b).chunk ∧
      ((w.pool s).store b).used a = some i := by
  obtain ⟨hlt, i, hu⟩ := ((h.pools s).alloc a b).1 hb
  obtain ⟨m, hm, e, hi, _⟩ := (((h.pools s).bulk b hlt).used a i).1 hu
  have q := ((h.pools s).bulk b hlt).inside hi
  rw [(h.pools s).size b hlt, (h.pows s).2] at q
  have hl := (h.pools s).live b hlt m hm
  rw [(h.pows s).2] at hl
  exact ⟨hlt, m, i, hm, e, hl, by omega, by omega, ((h.pools s).bulk b hlt).pos, hu⟩

/-- Chunks of the two pools are at different places. -/
theorem WInv.chunk_cross {G : Prop} {N M : Nat} {w : World} (h : WInv G N M w) {s t : Bool} {a b c : Nat}
    (hb : (w.pool s).allocated a = some b) (hc : (w.pool t).allocated a = some c) : s = t := by
  obtain ⟨h1, m, i, hm, e, hl, q1, q2, q3, _⟩ := h.chunk_in hb
  obtain ⟨h2, n, j, hn, f, hl', q4, q5, q6, _⟩ := h.chunk_in hc
  by_cases hmn : m = n
  · subst hmn
    exact (h.hunks h1 h2 hm hn).1
  · have := h.apart m n _ _ hl hl' hmn
    omega

/-- A chunk is not where a view's own allocation starts. -/
theorem WInv.chunk_direct {G : Prop} {N M : Nat} {w : World} (h : WInv G N M w) {s : Bool} {a b n : Nat}
    (hb : (w.pool s).allocated a = some b) (hl : w.live a = some n)
    (hn : ∀ s, ∀ i < (w.pool s).next, ((w.pool s).store i).mem ≠ some a) : False := by
  obtain ⟨h1, m, i, hm, e, hl', q1, q2, q3, _⟩ := h.chunk_in hb
  have hne : m ≠ a := by rintro rfl; exact hn s b h1 hm
  have := h.apart m a _ _ hl' hl hne
  omega

theorem pooled_or (M : Nat) (v : View) : (∃ s, Pooled M v s) ∨ (∀ s, ¬ Pooled M v s) := by
  by_cases hx : ∃ s, Pooled M v s
  · exact Or.inl hx
  · right
    intro s hs
    exact hx ⟨s, hs⟩

/-- The start. -/
theorem WInv.init {G : Prop} {N M : Nat} {w : World} (h : init N M = some w) : WInv G N M w := by
  unfold Ispc.MemPool.init at h
  rcases hp : Pool.new N M with _ | p
  · rw [hp] at h; cases h
  · rw [hp] at h
    simp only [Option.map_some, Option.some.injEq] at h
    have hmem : ∀ i, (p.store i).mem = none ∧ p.allocated i = none ∧ p.minPow = N ∧ p.maxPow = M := by
      unfold Pool.new at hp
      split_ifs at hp
      cases hp
      intro i; exact ⟨rfl, rfl, rfl, rfl⟩
    subst h
    refine { pows := fun _ => (hmem 0).2.2, pools := fun _ => PInv.new hp _, apart := ?_, al := ?_, cross := ?_, ids := ?_,
             views := ?_, inj := ?_, owner := ?_, nonull := ?_, owned := ?_ }
    · intro a b n m ha; cases ha
    · intro m n hm; cases hm
    · intro i _ j _ a b ha; rw [(hmem i).1] at ha; cases ha
    · intro id v hv; cases hv
    · intro id v hv; cases hv
    · rintro id v id' v' a ⟨hv, _⟩; cases hv
    · intro s a b hb; simp only [(hmem a).2.1] at hb; cases hb
    · intro _ id v hv; cases hv
    · intro _ a n hn; cases hn

/-- A view without memory of ours may be added or replaced by another, or taken away. -/
theorem WInv.view {G : Prop} {N M : Nat} {w : World} (h : WInv G N M w) (id : Nat) (o : Option View) (n : Nat) (t : Nat)
    (hn : w.nextView ≤ n) (h1 : ∀ v, w.views id = some v → v.dev = none ∨ v.hint = .appManaged)
    (h2 : ∀ v, o = some v → id < n ∧ VInv M w v ∧ (v.dev = none ∨ v.hint = .appManaged))
    (h3 : G → ∀ v, o = some v → v.hint = .appManaged → v.dev ≠ none) :
    WInv G N M { w with views := upd w.views id o, nextView := n, time := t } := by
  have hold : ∀ i v a, Holds w i v a → i ≠ id := by
    rintro i v a ⟨e1, e2, e3⟩ rfl
    rcases h1 v e1 with hx | hx
    · rw [hx] at e2; cases e2
    · exact e3 hx
  have hnew : ∀ i v a, Holds { w with views := upd w.views id o, nextView := n, time := t } i v a ↔ Holds w i v a := by
    intro i v a
    constructor
    · rintro ⟨e1, e2, e3⟩
      by_cases hi : i = id
      · subst hi
        simp only [upd_same] at e1
        obtain ⟨_, _, hx | hx⟩ := h2 v e1
        · rw [hx] at e2; cases e2
        · exact absurd hx e3
      · simp only [upd_ne _ _ hi] at e1; exact ⟨e1, e2, e3⟩
    · intro hx
      have hi := hold i v a hx
      exact ⟨by simp only [upd_ne _ _ hi]; exact hx.1, hx.2⟩
  refine { pows := h.pows, pools := h.pools, apart := h.apart, al := h.al, cross := h.cross, ids := ?_, views := ?_, inj := ?_,
           owner := ?_, nonull := ?_, owned := ?_ }
  · intro i v hv
    by_cases hi : i = id
    · subst hi; simp only [upd_same] at hv; exact (h2 v hv).1
    · simp only [upd_ne _ _ hi] at hv; exact lt_of_lt_of_le (h.ids i v hv) hn
  · intro i v hv
    have : VInv M w v := by
      by_cases hi : i = id
      · subst hi; simp only [upd_same] at hv; exact (h2 v hv).2.1
      · simp only [upd_ne _ _ hi] at hv; exact h.views i v hv
    exact { use := this.use, size := this.size, pool := this.pool, direct := this.direct, broken := this.broken }
  · intro i v i' v' a ha hb
    exact h.inj i v i' v' a ((hnew _ _ _).1 ha) ((hnew _ _ _).1 hb)
  · intro s a b hb
    obtain ⟨i, v, hx, hy⟩ := h.owner s a b hb
    exact ⟨i, v, (hnew _ _ _).2 hx, hy⟩
  · intro g i v hv
    by_cases hi : i = id
    · subst hi; simp only [upd_same] at hv; exact h3 g v hv
    · simp only [upd_ne _ _ hi] at hv; exact h.nonull g i v hv
  · intro g a n' hn'
    rcases h.owned g a n' hn' with hx | ⟨i, v, hx, hy⟩
    · exact Or.inl hx
    · exact Or.inr ⟨i, v, (hnew _ _ _).2 hx, hy⟩

/-- A view gets memory of its own. -/
theorem WInv.direct {G : Prop} {N M : Nat} {w : World} (h : WInv G N M w) {id : Nat} {v : View} (hv : w.views id = some v)
    (hd : v.dev = none) (hp : ∀ s, ¬ Pooled M v s) (hb : ¬ (v.shared = true ∧ v.usePool = true ∧ v.memPool = none))
    {a : Nat} (hf : Fresh w.live a v.size) :
    WInv G N M { w with live := upd w.live a (some v.size), views := upd w.views id (some { v with dev := some a }) } := by
  have hne : ∀ b n, w.live b = some n → b ≠ a := by
    rintro b n hn rfl
    rw [hf.2.2.1] at hn; cases hn
  have hmem : ∀ s, ∀ i < (w.pool s).next, ((w.pool s).store i).mem ≠ some a := by
    intro s i hi hx
    exact hne a _ ((h.pools s).live i hi a hx) rfl
  have hidlt := h.ids id v hv
  have hv0 := h.views id v hv
  -- nobody holds an address equal to `a`
  have hno : ∀ i u, Holds w i u a → False := by
    rintro i u ⟨e1, e2, e3⟩
    have hu := h.views i u e1
    rcases pooled_or M u with ⟨s, hs⟩ | hs
    · obtain ⟨_, b, hb1, hb2⟩ := hu.pool s a hs e2
      obtain ⟨_, m, j, hm, e, hl, q1, q2, q3, _⟩ := h.chunk_in hb1
      have hma := hne m _ hl
      have := hf.2.2.2 m _ hl
      omega
    · exact hne a _ (hu.direct a hs e3 e2).1 rfl
  have hh : ∀ i u b, Holds { w with live := upd w.live a (some v.size), views := upd w.views id (some { v with dev := some a }) } i u b →
      (i = id ∧ u = { v with dev := some a } ∧ b = a) ∨ (i ≠ id ∧ Holds w i u b) := by
    rintro i u b ⟨e1, e2, e3⟩
    by_cases hi : i = id
    · subst hi
      simp only [upd_same, Option.some.injEq] at e1
      subst e1
      simp only [Option.some.injEq] at e2
      exact Or.inl ⟨rfl, rfl, e2.symm⟩
    · simp only [upd_ne _ _ hi] at e1; exact Or.inr ⟨hi, e1, e2, e3⟩
  have hh' : ∀ i u b, Holds w i u b →
      Holds { w with live := upd w.live a (some v.size), views := upd w.views id (some { v with dev := some a }) } i u b := by
    rintro i u b ⟨e1, e2, e3⟩
    have hi : i ≠ id := by
      rintro rfl
      rw [hv] at e1; cases e1
      rw [hd] at e2; cases e2
    exact ⟨by simp only [upd_ne _ _ hi]; exact e1, e2, e3⟩
  refine { pows := h.pows, pools := ?_, apart := h.apart.fresh hf, al := ?al, cross := h.cross, ids := ?_, views := ?_, inj := ?_,
           owner := ?_, nonull := ?_, owned := ?_ }
  case al =>
    intro m n hm
    by_cases hma : m = a
    · subst hma; exact ⟨hf.1, hf.2.1⟩
    · simp only [upd_ne _ _ hma] at hm; exact h.al m n hm
  · intro s
    refine (h.pools s).mono ?_
    intro i hi b hb
    simp only
    rw [upd_ne]
    exact hne b _ ((h.pools s).live i hi b hb)
  · intro i u hu
    by_cases hi : i = id
    · subst hi; exact hidlt
    · simp only [upd_ne _ _ hi] at hu; exact h.ids i u hu
  · intro i u hu
    by_cases hi : i = id
    · subst hi
      simp only [upd_same, Option.some.injEq] at hu
      subst hu
      refine { use := hv0.use, size := ?_, pool := ?_, direct := ?_, broken := ?_ }
      · rcases hv0.size with hx | ⟨s, hs, _⟩
        · exact Or.inl hx
        · exact absurd hs (hp s)
      · intro s b hs _
        exact absurd hs (hp s)
      · intro b _ _ hb
        simp only [Option.some.injEq] at hb
        subst hb
        exact ⟨by simp only [upd_same], hmem⟩
      · intro x1 x2 x3
        exact absurd ⟨x1, x2, x3⟩ hb
    · simp only [upd_ne _ _ hi] at hu
      have hu0 := h.views i u hu
      refine { use := hu0.use, size := hu0.size, pool := hu0.pool, direct := ?_, broken := hu0.broken }
      intro b q1 q2 q3
      have q := hu0.direct b q1 q2 q3
      exact ⟨by simp only [upd_ne _ _ (hne b _ q.1)]; exact q.1, q.2⟩
  · intro i u i' u' b hx hy
    rcases hh i u b hx with ⟨e1, _, e3⟩ | ⟨e1, hx'⟩ <;> rcases hh i' u' b hy with ⟨f1, _, f3⟩ | ⟨f1, hy'⟩
    · rw [e1, f1]
    · subst e3; exact absurd hy' (hno _ _)
    · subst f3; exact absurd hx' (hno _ _)
    · exact h.inj i u i' u' b hx' hy'
  · intro s b c hc
    obtain ⟨i, u, hx, hy⟩ := h.owner s b c hc
    exact ⟨i, u, hh' _ _ _ hx, hy⟩
  · intro g i u hu
    by_cases hi : i = id
    · subst hi
      simp only [upd_same, Option.some.injEq] at hu
      subst hu
      intro _ hx; cases hx
    · simp only [upd_ne _ _ hi] at hu; exact h.nonull g i u hu
  · intro g b n hn
    by_cases hba : b = a
    · subst hba
      have happ : v.hint ≠ .appManaged := fun hx => h.nonull g id v hv hx hd
      exact Or.inr ⟨id, { v with dev := some b }, ⟨by simp only [upd_same], rfl, happ⟩, hp⟩
    · simp only [upd_ne _ _ hba] at hn
      rcases h.owned g b n hn with hx | ⟨i, u, hx, hy⟩
      · exact Or.inl hx
      · exact Or.inr ⟨i, u, hh' _ _ _ hx, hy⟩

/-- A pool changes but no view gets or loses memory (a request that failed). -/
theorem WInv.failed {G : Prop} {N M : Nat} {w : World} (h : WInv G N M w) {s : Bool} {p' : Pool} (hp : PInv w.live p')
    (h1 : p'.allocated = (w.pool s).allocated) (h2 : p'.minPow = (w.pool s).minPow) (h3 : p'.maxPow = (w.pool s).maxPow)
    (h4 : (w.pool s).next ≤ p'.next) (h5 : ∀ i < (w.pool s).next, p'.store i = (w.pool s).store i)
    (h6 : ∀ i, (w.pool s).next ≤ i → i < p'.next → (p'.store i).mem = none) :
    WInv G N M { w with pool := fun x => if x = s then p' else w.pool x } := by
  have hmem : ∀ t, ∀ i < (if t = s then p' else w.pool t).next, ∀ a, ((if t = s then p' else w.pool t).store i).mem = some a →
      i < (w.pool t).next ∧ ((w.pool t).store i).mem = some a := by
    intro t i hi a ha
    split_ifs at hi ha with hts
    · subst hts
      by_cases hx : i < (w.pool t).next
      · rw [h5 i hx] at ha; exact ⟨hx, ha⟩
      · rw [h6 i (by omega) hi] at ha; cases ha
    · exact ⟨hi, ha⟩
  have hall : ∀ t, (if t = s then p' else w.pool t).allocated = (w.pool t).allocated := by
    intro t; split_ifs with hts
    · subst hts; exact h1
    · rfl
  have hpow : ∀ t, (if t = s then p' else w.pool t).minPow = (w.pool t).minPow ∧
      (if t = s then p' else w.pool t).maxPow = (w.pool t).maxPow := by
    intro t; split_ifs with hts
    · subst hts; exact ⟨h2, h3⟩
    · exact ⟨rfl, rfl⟩
  have hst : ∀ t, ∀ i < (w.pool t).next, (if t = s then p' else w.pool t).store i = (w.pool t).store i ∧
      i < (if t = s then p' else w.pool t).next := by
    intro t i hi; split_ifs with hts
    · subst hts; exact ⟨h5 i hi, by omega⟩
    · exact ⟨rfl, hi⟩
  refine { pows := ?_, pools := ?_, apart := h.apart, al := h.al, cross := ?_, ids := h.ids, views := ?_, inj := h.inj,
           owner := ?_, nonull := h.nonull, owned := ?_ }
  · intro t; simp only [(hpow t).1, (hpow t).2]; exact h.pows t
  · intro t
    simp only
    split_ifs with hts
    · exact hp
    · exact h.pools t
  · intro i hi j hj a b ha hb
    obtain ⟨x1, x2⟩ := hmem false i hi a ha
    obtain ⟨y1, y2⟩ := hmem true j hj b hb
    exact h.cross i x1 j y1 a b x2 y2
  · intro id v hv
    have hv0 := h.views id v hv
    refine { use := hv0.use, size := ?_, pool := ?_, direct := ?_, broken := hv0.broken }
    · rcases hv0.size with hx | ⟨t, y1, y2, y3⟩
      · exact Or.inl hx
      · refine Or.inr ⟨t, y1, y2, ?_⟩
        exact y3.trans (poolSize_congr (hpow t).1.symm _)
    · intro t a x1 x2
      obtain ⟨y1, b, y2, y3⟩ := hv0.pool t a x1 x2
      refine ⟨y1, b, by simp only [hall t]; exact y2, ?_⟩
      have := (((h.pools t).alloc a b).1 y2).1
      simp only [(hst t b this).1]; exact y3
    · intro a x1 x2 x3
      obtain ⟨y1, y2⟩ := hv0.direct a x1 x2 x3
      refine ⟨y1, ?_⟩
      intro t i hi hx
      obtain ⟨z1, z2⟩ := hmem t i hi a hx
      exact y2 t i z1 z2
  · intro t a b hb
    simp only [hall t] at hb
    exact h.owner t a b hb
  · intro g a n hn
    rcases h.owned g a n hn with ⟨t, i, hi, ha⟩ | hx
    · exact Or.inl ⟨t, i, (hst t i hi).2, by simp only [(hst t i hi).1]; exact ha⟩
    · exact Or.inr hx

/-- A view gets a chunk. -/
theorem WInv.took {G : Prop} {N M : Nat} {w : World} (h : WInv G N M w) {id : Nat} {v : View} (hv : w.views id = some v)
    (hd : v.dev = none) {s : Bool} (hp : Pooled M v s) {l' : Live} {p' : Pool} {a b size : Nat} {hunk : Option Nat}
    (ht : Took w.live l' (w.pool s) p' a b hunk) (hc : (p'.store b).chunk = size) (hs : size ≤ 2 ^ M)
    (hr : v.requested ≤ 2 ^ M) (hr' : v.requested ≤ size) (he : size = poolSize (w.pool s) v.requested) :
    WInv G N M { w with live := l', pool := fun x => if x = s then p' else w.pool x
                        views := upd w.views id (some { v with size := size, dev := some a }) } := by
  have hMs := (h.pows s).2
  have hidlt := h.ids id v hv
  have hv0 := h.views id v hv
  have hhint := (hv0.use hp.2.1).2
  have hP : Pooled M { v with size := size, dev := some a } s := ⟨hp.1, hp.2.1, hp.2.2.1, hs⟩
  -- old allocations stay
  have hlold : ∀ m n, w.live m = some n → l' m = some n := by
    intro m n hm
    have := ht.live
    rcases hunk with _ | m'
    · rw [this.1]; exact hm
    · rw [this.1, upd_ne]
      · exact hm
      · rintro rfl; rw [this.2.1.2.2.1] at hm; cases hm
  have hlnew : ∀ m n, l' m = some n → w.live m = some n ∨ (hunk = some m ∧ n = 2 ^ M ∧ (p'.store b).mem = some m) := by
    intro m n hm
    have := ht.live
    rcases hunk with _ | m'
    · rw [this.1] at hm; exact Or.inl hm
    · rw [this.1] at hm
      by_cases hx : m = m'
      · subst hx; rw [upd_same] at hm; cases hm; rw [hMs]; exact Or.inr ⟨rfl, rfl, this.2.2.1⟩
      · rw [upd_ne _ _ hx] at hm; exact Or.inl hm
  have hapart : Apart l' := by
    have := ht.live
    rcases hunk with _ | m'
    · rw [this.1]; exact h.apart
    · rw [this.1]; exact h.apart.fresh this.2.1
  -- a hunk of the new pool is one of the old pool, or new
  have hmem : ∀ i < p'.next, ∀ m, (p'.store i).mem = some m →
      (i < (w.pool s).next ∧ ((w.pool s).store i).mem = some m) ∨ (w.live m = none) := by
    intro i hi m hm
    have := ht.live
    rcases hunk with _ | m'
    · exact Or.inl (this.2 i hi m hm)
    · by_cases hx : i = b
      · subst hx
        rw [this.2.2.1] at hm; cases hm
        exact Or.inr this.2.1.2.2.1
      · exact Or.inl (this.2.2.2 i hi hx m hm)
  -- nobody holds `a`
  obtain ⟨hab, ia, hua⟩ := (ht.inv.alloc a b).1 (by rw [ht.alloc, upd_same])
  obtain ⟨m, hm, ea, hia, _⟩ := ((ht.inv.bulk b hab).used a ia).1 hua
  have hins := (ht.inv.bulk b hab).inside hia
  have hpos := (ht.inv.bulk b hab).pos
  rw [ht.inv.size b hab, ht.pows.2, hMs] at hins
  have hlm : l' m = some (2 ^ M) := by rw [ht.inv.live b hab m hm, ht.pows.2, hMs]
  have hno : ∀ i u, Holds w i u a → False := by
    rintro i u ⟨e1, e2, e3⟩
    have hu := h.views i u e1
    rcases pooled_or M u with ⟨t, hs'⟩ | hs'
    · obtain ⟨_, c, hb1, hb2⟩ := hu.pool t a hs' e2
      by_cases hts : t = s
      · subst hts
        rw [ht.fresh] at hb1; cases hb1
      · obtain ⟨q0, n, j, hn, e, hl, q1, q2, q3, _⟩ := h.chunk_in hb1
        have hmn : m ≠ n := by
          rintro rfl
          rcases hmem b hab m hm with ⟨z1, z2⟩ | z
          · exact hts (h.hunks q0 z1 hn z2).1
          · rw [hl] at z; cases z
        have := hapart m n _ _ hlm (hlold n _ hl) hmn
        omega
    · obtain ⟨q1, q2⟩ := hu.direct a hs' e3 e2
      have hma : m ≠ a := by
        rintro rfl
        rcases hmem b hab m hm with ⟨z1, z2⟩ | z
        · exact q2 s b z1 z2
        · rw [q1] at z; cases z
      have := hapart m a _ _ hlm (hlold a _ q1) hma
      omega
  have hh : ∀ i u c, Holds { w with live := l', pool := fun x => if x = s then p' else w.pool x
                                    views := upd w.views id (some { v with size := size, dev := some a }) } i u c →
      (i = id ∧ u = { v with size := size, dev := some a } ∧ c = a) ∨ (i ≠ id ∧ Holds w i u c) := by
    rintro i u c ⟨e1, e2, e3⟩
    by_cases hi : i = id
    · subst hi
      simp only [upd_same, Option.some.injEq] at e1
      subst e1
      simp only [Option.some.injEq] at e2
      exact Or.inl ⟨rfl, rfl, e2.symm⟩
    · simp only [upd_ne _ _ hi] at e1; exact Or.inr ⟨hi, e1, e2, e3⟩
  have hh' : ∀ i u c, Holds w i u c →
      Holds { w with live := l', pool := fun x => if x = s then p' else w.pool x
                     views := upd w.views id (some { v with size := size, dev := some a }) } i u c := by
    rintro i u c ⟨e1, e2, e3⟩
    have hi : i ≠ id := by
      rintro rfl
      rw [hv] at e1; cases e1
      rw [hd] at e2; cases e2
    exact ⟨by simp only [upd_ne _ _ hi]; exact e1, e2, e3⟩
  have hpow : ∀ t, (if t = s then p' else w.pool t).minPow = (w.pool t).minPow ∧
      (if t = s then p' else w.pool t).maxPow = (w.pool t).maxPow := by
    intro t; split_ifs with hts
    · subst hts; exact ht.pows
    · exact ⟨rfl, rfl⟩
  refine { pows := ?_, pools := ?_, apart := hapart, al := ?al, cross := ?_, ids := ?_, views := ?_, inj := ?_,
           owner := ?_, nonull := ?_, owned := ?_ }
  case al =>
    intro c n hn
    rcases hlnew c n hn with hx | ⟨hx, _, _⟩
    · exact h.al c n hx
    · have := ht.live
      rw [hx] at this
      exact ⟨this.2.1.1, this.2.1.2.1⟩
  · intro t; simp only [(hpow t).1, (hpow t).2]; exact h.pows t
  · intro t
    simp only
    split_ifs with hts
    · exact ht.inv
    · refine (h.pools t).mono ?_
      intro i hi n hn
      have := (h.pools t).live i hi n hn
      rw [hlold n _ this, this]
  · intro i hi j hj n n' hn hn'
    rintro rfl
    cases s
    · simp only [if_true] at hi hn
      simp only [Bool.true_eq_false, if_false] at hj hn'
      rcases hmem i hi n hn with ⟨z1, z2⟩ | z
      · exact h.cross i z1 j hj n n z2 hn' rfl
      · rw [(h.pools true).live j hj n hn'] at z; cases z
    · simp only [if_true] at hj hn'
      simp only [Bool.false_eq_true, if_false] at hi hn
      rcases hmem j hj n hn' with ⟨z1, z2⟩ | z
      · exact h.cross i hi j z1 n n hn z2 rfl
      · rw [(h.pools false).live i hi n hn] at z; cases z
  · intro i u hu
    by_cases hi : i = id
    · subst hi; exact hidlt
    · simp only [upd_ne _ _ hi] at hu; exact h.ids i u hu
  · intro i u hu
    by_cases hi : i = id
    · subst hi
      simp only [upd_same, Option.some.injEq] at hu
      subst hu
      refine { use := hv0.use, size := ?_, pool := ?_, direct := ?_, broken := ?_ }
      · refine Or.inr ⟨s, hP, hr, ?_⟩
        refine he.trans (poolSize_congr ?_ _)
        exact (hpow s).1.symm
      · intro t c x1 x2
        simp only [Option.some.injEq] at x2
        subst x2
        have : t = s := by
          have y1 := x1.2.2.1; have y2 := hP.2.2.1
          rw [y1] at y2; exact Option.some.inj y2
        subst this
        refine ⟨hr', b, ?_, ?_⟩
        · simp only [if_true]; rw [ht.alloc, upd_same]
        · simp only [if_true]; exact hc
      · intro c x1; exact absurd hP (x1 s)
      · intro _ _ x3
        have y2 := hP.2.2.1
        rw [x3] at y2; cases y2
    · simp only [upd_ne _ _ hi] at hu
      have hu0 := h.views i u hu
      refine { use := hu0.use, size := ?_, pool := ?_, direct := ?_, broken := hu0.broken }
      · rcases hu0.size with hx | ⟨t, y1, y2, y3⟩
        · exact Or.inl hx
        · refine Or.inr ⟨t, y1, y2, ?_⟩
          exact y3.trans (poolSize_congr (hpow t).1.symm _)
      · intro t c x1 x2
        obtain ⟨y1, d, y2, y3⟩ := hu0.pool t c x1 x2
        refine ⟨y1, d, ?_, ?_⟩
        · simp only
          split_ifs with hts
          · subst hts
            rw [ht.alloc, upd_ne]
            · exact y2
            · rintro rfl; rw [ht.fresh] at y2; cases y2
          · exact y2
        · simp only
          split_ifs with hts
          · subst hts
            rw [ht.chunks d (((h.pools t).alloc c d).1 y2).1]; exact y3
          · exact y3
      · intro c x1 x2 x3
        obtain ⟨y1, y2⟩ := hu0.direct c x1 x2 x3
        refine ⟨hlold c _ y1, ?_⟩
        intro t j hj hx
        simp only at hj hx
        split_ifs at hj hx with hts
        · rcases hmem j hj c hx with ⟨z1, z2⟩ | z
          · exact y2 s j z1 z2
          · rw [y1] at z; cases z
        · exact y2 t j hj hx
  · intro i u i' u' c hx hy
    rcases hh i u c hx with ⟨e1, _, e3⟩ | ⟨e1, hx'⟩ <;> rcases hh i' u' c hy with ⟨f1, _, f3⟩ | ⟨f1, hy'⟩
    · rw [e1, f1]
    · subst e3; exact absurd hy' (hno _ _)
    · subst f3; exact absurd hx' (hno _ _)
    · exact h.inj i u i' u' c hx' hy'
  · intro t c d hc'
    simp only at hc'
    split_ifs at hc' with hts
    · subst hts
      by_cases hca : c = a
      · subst hca
        exact ⟨id, { v with size := size, dev := some c }, ⟨by simp only [upd_same], rfl, hhint⟩, hP⟩
      · rw [ht.alloc, upd_ne _ _ hca] at hc'
        obtain ⟨i, u, hx, hy⟩ := h.owner t c d hc'
        exact ⟨i, u, hh' _ _ _ hx, hy⟩
    · obtain ⟨i, u, hx, hy⟩ := h.owner t c d hc'
      exact ⟨i, u, hh' _ _ _ hx, hy⟩
  · intro g i u hu
    by_cases hi : i = id
    · subst hi
      simp only [upd_same, Option.some.injEq] at hu
      subst hu
      intro _ hx; cases hx
    · simp only [upd_ne _ _ hi] at hu; exact h.nonull g i u hu
  · intro g c n hn
    rcases hlnew c n hn with hn | ⟨_, _, hx⟩
    · rcases h.owned g c n hn with ⟨t, i, hi, hx⟩ | ⟨i, u, hx, hy⟩
      · refine Or.inl ⟨t, i, ?_, ?_⟩
        · simp only
          split_ifs with hts
          · subst hts; exact lt_of_lt_of_le hi ht.next
          · exact hi
        · simp only
          split_ifs with hts
          · subst hts; exact ht.keep i hi c hx
          · exact hx
      · exact Or.inr ⟨i, u, hh' _ _ _ hx, hy⟩
    · exact Or.inl ⟨s, b, by simp only [if_true]; exact hab, by simp only [if_true]; exact hx⟩

/-- A view gives back memory of its own. -/
theorem WInv.freed {G : Prop} {N M : Nat} {w : World} (h : WInv G N M w) {id : Nat} {v : View} {a : Nat}
    (hv : Holds w id v a) (hp : ∀ s, ¬ Pooled M v s) :
    WInv G N M { w with live := upd w.live a none, views := upd w.views id none } := by
  have hv0 := h.views id v hv.1
  obtain ⟨hla, hna⟩ := hv0.direct a hp hv.2.2 hv.2.1
  have hh : ∀ i u b, Holds { w with live := upd w.live a none, views := upd w.views id none } i u b ↔
      i ≠ id ∧ Holds w i u b := by
    intro i u b
    by_cases hi : i = id
    · subst hi
      constructor
      · rintro ⟨e1, _⟩; simp [upd_same] at e1
      · rintro ⟨e1, _⟩; exact absurd rfl e1
    · constructor
      · rintro ⟨e1, e2⟩; simp only [upd_ne _ _ hi] at e1; exact ⟨hi, e1, e2⟩
      · rintro ⟨_, e1, e2⟩; exact ⟨by simp only [upd_ne _ _ hi]; exact e1, e2⟩
  refine { pows := h.pows, pools := ?_, apart := h.apart.free a, al := ?al, cross := h.cross, ids := ?_, views := ?_,
           inj := ?_, owner := ?_, nonull := ?_, owned := ?_ }
  case al =>
    intro m n hm
    have hma : m ≠ a := by rintro rfl; simp [upd_same] at hm
    simp only [upd_ne _ _ hma] at hm; exact h.al m n hm
  · intro s
    refine (h.pools s).mono ?_
    intro i hi b hb
    simp only
    rw [upd_ne]
    rintro rfl
    exact hna s i hi hb
  · intro i u hu
    by_cases hi : i = id
    · subst hi; simp [upd_same] at hu
    · simp only [upd_ne _ _ hi] at hu; exact h.ids i u hu
  · intro i u hu
    by_cases hi : i = id
    · subst hi; simp [upd_same] at hu
    · simp only [upd_ne _ _ hi] at hu
      have hu0 := h.views i u hu
      refine { use := hu0.use, size := hu0.size, pool := hu0.pool, direct := ?_, broken := hu0.broken }
      intro b q1 q2 q3
      have q := hu0.direct b q1 q2 q3
      refine ⟨?_, q.2⟩
      simp only
      rw [upd_ne]
      · exact q.1
      · rintro rfl
        exact hi (h.inj i u id v b ⟨hu, q3, q2⟩ hv)
  · intro i u i' u' b hx hy
    exact h.inj i u i' u' b ((hh _ _ _).1 hx).2 ((hh _ _ _).1 hy).2
  · intro s b c hc
    obtain ⟨i, u, hx, hy⟩ := h.owner s b c hc
    refine ⟨i, u, (hh _ _ _).2 ⟨?_, hx⟩, hy⟩
    rintro rfl
    have e := hx.1.symm.trans hv.1
    cases e
    exact hp s hy
  · intro g i u hu
    by_cases hi : i = id
    · subst hi; simp [upd_same] at hu
    · simp only [upd_ne _ _ hi] at hu; exact h.nonull g i u hu
  · intro g b n hn
    have hba : b ≠ a := by rintro rfl; simp [upd_same] at hn
    simp only [upd_ne _ _ hba] at hn
    rcases h.owned g b n hn with hx | ⟨i, u, hx, hy⟩
    · exact Or.inl hx
    · refine Or.inr ⟨i, u, (hh _ _ _).2 ⟨?_, hx⟩, hy⟩
      rintro rfl
      have e := hx.1.symm.trans hv.1
      cases e
      have e2 := hx.2.1.symm.trans hv.2.1
      cases e2
      exact hba rfl

/-- A view gives back a chunk. -/
theorem WInv.gave {G : Prop} {N M : Nat} {w : World} (h : WInv G N M w) {id : Nat} {v : View} {a : Nat}
    (hv : Holds w id v a) {s : Bool} (hs : Pooled M v s) {p' : Pool} (hp : PInv w.live p')
    (h1 : p'.allocated = upd (w.pool s).allocated a none) (h2 : p'.next = (w.pool s).next)
    (h3 : p'.minPow = (w.pool s).minPow) (h4 : p'.maxPow = (w.pool s).maxPow)
    (h5 : ∀ i, (p'.store i).mem = ((w.pool s).store i).mem ∧ (p'.store i).chunk = ((w.pool s).store i).chunk) :
    WInv G N M { w with pool := fun x => if x = s then p' else w.pool x, views := upd w.views id none } := by
  have hv0 := h.views id v hv.1
  have hh : ∀ i u b, Holds { w with pool := fun x => if x = s then p' else w.pool x, views := upd w.views id none } i u b ↔
      i ≠ id ∧ Holds w i u b := by
    intro i u b
    by_cases hi : i = id
    · subst hi
      constructor
      · rintro ⟨e1, _⟩; simp [upd_same] at e1
      · rintro ⟨e1, _⟩; exact absurd rfl e1
    · constructor
      · rintro ⟨e1, e2⟩; simp only [upd_ne _ _ hi] at e1; exact ⟨hi, e1, e2⟩
      · rintro ⟨_, e1, e2⟩; exact ⟨by simp only [upd_ne _ _ hi]; exact e1, e2⟩
  have hpow : ∀ t, (if t = s then p' else w.pool t).minPow = (w.pool t).minPow ∧
      (if t = s then p' else w.pool t).maxPow = (w.pool t).maxPow := by
    intro t; split_ifs with hts
    · subst hts; exact ⟨h3, h4⟩
    · exact ⟨rfl, rfl⟩
  have hst : ∀ t i, ((if t = s then p' else w.pool t).store i).mem = ((w.pool t).store i).mem ∧
      ((if t = s then p' else w.pool t).store i).chunk = ((w.pool t).store i).chunk ∧
      (if t = s then p' else w.pool t).next = (w.pool t).next := by
    intro t i; split_ifs with hts
    · subst hts; exact ⟨(h5 i).1, (h5 i).2, h2⟩
    · exact ⟨rfl, rfl, rfl⟩
  refine { pows := ?_, pools := ?_, apart := h.apart, al := h.al, cross := ?_, ids := ?_, views := ?_, inj := ?_,
           owner := ?_, nonull := ?_, owned := ?_ }
  · intro t; simp only [(hpow t).1, (hpow t).2]; exact h.pows t
  · intro t
    simp only
    split_ifs with hts
    · exact hp
    · exact h.pools t
  · intro i hi j hj b c hb hc
    simp only [(hst _ 0).2.2] at hi hj
    simp only [(hst _ _).1] at hb hc
    exact h.cross i hi j hj b c hb hc
  · intro i u hu
    by_cases hi : i = id
    · subst hi; simp [upd_same] at hu
    · simp only [upd_ne _ _ hi] at hu; exact h.ids i u hu
  · intro i u hu
    by_cases hi : i = id
    · subst hi; simp [upd_same] at hu
    · simp only [upd_ne _ _ hi] at hu
      have hu0 := h.views i u hu
      refine { use := hu0.use, size := ?_, pool := ?_, direct := ?_, broken := hu0.broken }
      · rcases hu0.size with hx | ⟨t, y1, y2, y3⟩
        · exact Or.inl hx
        · exact Or.inr ⟨t, y1, y2, y3.trans (poolSize_congr (hpow t).1.symm _)⟩
      · intro t c x1 x2
        obtain ⟨y1, d, y2, y3⟩ := hu0.pool t c x1 x2
        refine ⟨y1, d, ?_, by simp only [(hst t d).2.1]; exact y3⟩
        simp only
        split_ifs with hts
        · subst hts
          rw [h1, upd_ne]
          · exact y2
          · rintro rfl
            exact hi (h.inj i u id v c ⟨hu, x2, (hu0.use x1.2.1).2⟩ hv)
        · exact y2
      · intro b q1 q2 q3
        have q := hu0.direct b q1 q2 q3
        refine ⟨q.1, ?_⟩
        intro t j hj
        simp only [(hst _ 0).2.2] at hj
        simp only [(hst _ _).1]
        exact q.2 t j hj
  · intro i u i' u' b hx hy
    exact h.inj i u i' u' b ((hh _ _ _).1 hx).2 ((hh _ _ _).1 hy).2
  · intro t b c hc
    have hc' : (w.pool t).allocated b = some c ∧ (t = s → b ≠ a) := by
      simp only at hc
      split_ifs at hc with hts
      · subst hts
        have hba : b ≠ a := by rintro rfl; rw [h1, upd_same] at hc; cases hc
        rw [h1, upd_ne _ _ hba] at hc
        exact ⟨hc, fun _ => hba⟩
      · exact ⟨hc, fun x => absurd x hts⟩
    obtain ⟨i, u, hx, hy⟩ := h.owner t b c hc'.1
    refine ⟨i, u, (hh _ _ _).2 ⟨?_, hx⟩, hy⟩
    rintro rfl
    have e := hx.1.symm.trans hv.1
    cases e
    have e2 := hx.2.1.symm.trans hv.2.1
    cases e2
    have e3 : t = s := by
      have y1 := hy.2.2.1; rw [hs.2.2.1] at y1; exact (Option.some.inj y1).symm
    exact hc'.2 e3 rfl
  · intro g i u hu
    by_cases hi : i = id
    · subst hi; simp [upd_same] at hu
    · simp only [upd_ne _ _ hi] at hu; exact h.nonull g i u hu
  · intro g b n hn
    rcases h.owned g b n hn with ⟨t, i, hi, hx⟩ | ⟨i, u, hx, hy⟩
    · exact Or.inl ⟨t, i, by simp only [(hst t 0).2.2]; exact hi, by simp only [(hst t i).1]; exact hx⟩
    · refine Or.inr ⟨i, u, (hh _ _ _).2 ⟨?_, hx⟩, hy⟩
      rintro rfl
      have e := hx.1.symm.trans hv.1
      cases e
      exact hy s hs

/-! ## The calls -/

/-- A view made from a device that uses a pool: it has none (`m_memPool` is null). -/
def Poolless (v : View) : Prop := v.shared = true ∧ v.usePool = true ∧ v.memPool = none

/-- What one call gives, and when it fails. -/
theorem WInv.call {G : Prop} {N M : Nat} {w : World} (h : WInv G N M w) {ask : Live → Nat → Option Nat}
    (hask : ∀ n a, ask w.live n = some a → Fresh w.live a n) (op : Op)
    (hG : G → ∀ p, op = .new p → p.hint = .appManaged → p.appMem ≠ none) :
    WInv G N M (call ask w op).1 ∧
    ((call ask w op).2 = .crash → ∃ id v, op = .devicePtr id ∧ w.views id = some v ∧ v.dev = none ∧ Poolless v) := by
  cases op with
  | new p =>
    simp only [Ispc.MemPool.call]
    rcases hn : newView p with _ | v
    · exact ⟨h, by simp⟩
    · refine ⟨?_, by simp⟩
      have hnv : ∀ v, w.views w.nextView = some v → False := fun v hv => lt_irrefl _ (h.ids _ v hv)
      have hv : (v.usePool = true → v.hint ≠ .readWrite ∧ v.hint ≠ .appManaged) ∧ v.size = v.requested ∧
          (v.dev = none ∨ v.hint = .appManaged) ∧ (v.hint = .appManaged → v.dev = p.appMem ∧ p.hint = .appManaged) := by
        unfold newView at hn
        have huse : usesPool p = true → p.hint ≠ .readWrite ∧ p.hint ≠ .appManaged := by
          simp only [usesPool, Bool.and_eq_true, decide_eq_true_eq]
          rintro ⟨⟨_, a⟩, b⟩; exact ⟨a, b⟩
        split_ifs at hn with _ _ hx
        · cases hn
          exact ⟨huse, rfl, Or.inr hx, fun _ => ⟨rfl, hx⟩⟩
        · cases hn
          exact ⟨huse, rfl, Or.inl rfl, fun hy => absurd hy hx⟩
      refine h.view w.nextView (some v) (w.nextView + 1) w.time (by omega) (fun u hu => absurd hu (fun x => hnv u x)) ?_ ?_
      · intro u hu
        cases hu
        refine ⟨by omega, ⟨hv.1, Or.inl hv.2.1, ?_, ?_, ?_⟩, hv.2.2.1⟩
        · intro s a hs ha
          rcases hv.2.2.1 with hx | hx
          · rw [hx] at ha; cases ha
          · exact absurd hx (hv.1 hs.2.1).2
        · intro a _ hx ha
          rcases hv.2.2.1 with hy | hy
          · rw [hy] at ha; cases ha
          · exact absurd hy hx
        · intro _ hu _
          rcases hv.2.2.1 with hy | hy
          · exact hy
          · exact absurd hy (hv.1 hu).2
      · intro g u hu
        cases hu
        intro hx
        obtain ⟨e1, e2⟩ := hv.2.2.2 hx
        rw [e1]
        exact hG g p rfl e2
  | devicePtr id =>
    simp only [Ispc.MemPool.call]
    rcases hv : w.views id with _ | v
    · exact ⟨h, by simp⟩
    · simp only [Ispc.MemPool.devicePtr]
      rcases hd : v.dev with _ | a
      · simp only [Ispc.MemPool.allocate]
        -- memory of its own
        have hdir : (∀ s, ¬ Pooled M v s) → ¬ (v.shared = true ∧ v.usePool = true ∧ v.memPool = none) →
            WInv G N M (allocDirect ask w id v).1 ∧ (allocDirect ask w id v).2 ≠ .crash := by
          intro hp hb
          unfold allocDirect
          rcases ha : ask w.live v.size with _ | a
          · exact ⟨h, by simp⟩
          · exact ⟨h.direct hv hd hp hb (hask _ _ ha), by simp⟩
        by_cases hs : v.shared = true
        · rw [if_pos hs]
          by_cases hu : v.usePool = true
          · rw [if_pos hu]
            rcases hm : v.memPool with _ | s
            · refine ⟨h, fun _ => ⟨id, v, rfl, hv, hd, hs, hu, hm⟩⟩
            · have hMs := (h.pows s).2
              simp only
              by_cases hsz : v.size ≤ (w.pool s).maxChunk
              · rw [if_pos hsz]
                have hsz' : v.size ≤ 2 ^ M := by rw [← hMs]; exact hsz
                have hP : Pooled M v s := ⟨hs, hu, hm, hsz'⟩
                have hr : v.requested ≤ 2 ^ M := by
                  rcases (h.views id v hv).size with hx | ⟨_, _, hx, _⟩
                  · rw [← hx]; exact hsz'
                  · exact hx
                have hrng := (h.pools s).range
                obtain ⟨k, e, k1, k2, k3, k4⟩ := poolSize_spec (p := w.pool s) ⟨hrng.2.1, hrng.2.2⟩ (r := v.requested)
                  (by rw [hMs]; exact hr)
                unfold allocPooled
                simp only
                have hk2 : 2 ^ k ≤ 2 ^ M := Nat.pow_le_pow_right (by norm_num) (by omega)
                rcases (h.pools s).allocate h.apart hask k1 k2 with ⟨l', p', a, b, hunk, q1, q2, q3, _, _⟩ |
                  ⟨p', q1, q2, q3, q4, q5, q6, q7, q8, _⟩
                · rw [e, q1]
                  simp only
                  exact ⟨h.took hv hd hP q2 q3 hk2 hr k3 e.symm, by simp⟩
                · rw [e, q1]
                  simp only
                  refine ⟨?_, by simp⟩
                  have hf := h.failed q2 q3 q4 q5 q6 q7 q8
                  have hv0 := hf.views id v hv
                  have hP' : Pooled M { v with size := 2 ^ k } s := ⟨hs, hu, hm, hk2⟩
                  refine hf.view id (some { v with size := 2 ^ k }) w.nextView w.time (le_refl _)
                    (fun u hu' => by rw [hv] at hu'; cases hu'; exact Or.inl hd) ?_ ?_
                  · intro u hu'
                    cases hu'
                    refine ⟨h.ids id v hv, ⟨hv0.use, Or.inr ⟨s, hP', hr, ?_⟩, ?_, ?_, ?_⟩, Or.inl hd⟩
                    · simp only [if_true]
                      exact e.symm.trans (poolSize_congr q4.symm _)
                    · intro t a _ ha; rw [hd] at ha; cases ha
                    · intro a _ _ ha; rw [hd] at ha; cases ha
                    · intro _ _ _; exact hd
                  · intro g u hu'
                    cases hu'
                    intro hx
                    exact absurd hx (hv0.use hu).2
              · rw [if_neg hsz]
                have hnp : ∀ t, ¬ Pooled M v t := by
                  intro t ht
                  have : t = s := by
                    have y1 := ht.2.2.1; rw [hm] at y1; exact (Option.some.inj y1).symm
                  subst this
                  apply hsz
                  show v.size ≤ 2 ^ _
                  rw [hMs]; exact ht.2.2.2
                obtain ⟨z1, z2⟩ := hdir hnp (by rw [hm]; simp)
                exact ⟨z1, fun hx => absurd hx z2⟩
          · rw [if_neg hu]
            obtain ⟨z1, z2⟩ := hdir (fun t ht => hu ht.2.1) (fun hx => hu hx.2.1)
            exact ⟨z1, fun hx => absurd hx z2⟩
        · rw [if_neg hs]
          obtain ⟨z1, z2⟩ := hdir (fun t ht => hs ht.1) (fun hx => hs hx.1)
          exact ⟨z1, fun hx => absurd hx z2⟩
      · exact ⟨h, by simp⟩
  | destroy id =>
    simp only [Ispc.MemPool.call]
    rcases hv : w.views id with _ | v
    · exact ⟨h, by simp⟩
    · simp only [Ispc.MemPool.destroy]
      have hgone : v.dev = none ∨ v.hint = .appManaged → WInv G N M { w with views := upd w.views id none } := by
        intro hx
        refine h.view id none w.nextView w.time (le_refl _) ?_ (by simp) (by simp)
        intro u hu
        rw [hv] at hu; cases hu; exact hx
      rcases hd : v.dev with _ | a
      · exact ⟨hgone (Or.inl hd), by simp⟩
      · simp only
        by_cases happ : v.hint = .appManaged
        · rw [if_pos happ]; exact ⟨hgone (Or.inr happ), by simp⟩
        · rw [if_neg happ]
          have hH : Holds w id v a := ⟨hv, hd, happ⟩
          by_cases hsu : (v.shared && v.usePool) = true
          · rw [if_pos hsu]
            obtain ⟨hs, hu⟩ := Bool.and_eq_true_iff.1 hsu
            rcases hm : v.memPool with _ | s
            · exfalso
              have := (h.views id v hv).broken hs hu hm
              rw [hd] at this; cases this
            · have hMs := (h.pows s).2
              simp only
              by_cases hsz : v.size ≤ (w.pool s).maxChunk
              · rw [if_pos hsz]
                have hP : Pooled M v s := ⟨hs, hu, hm, by rw [← hMs]; exact hsz⟩
                obtain ⟨_, b, hb, _⟩ := (h.views id v hv).pool s a hP hd
                obtain ⟨p', q1, q2, q3, q4, q5, q6, q7, _⟩ := (h.pools s).deallocate h.apart hb
                simp only [q1]
                exact ⟨h.gave hH hP q2 q3 q4 q5 q6 q7, by simp⟩
              · rw [if_neg hsz]
                have hnp : ∀ t, ¬ Pooled M v t := by
                  intro t ht
                  have : t = s := by
                    have y1 := ht.2.2.1; rw [hm] at y1; exact (Option.some.inj y1).symm
                  subst this
                  apply hsz
                  show v.size ≤ 2 ^ _
                  rw [hMs]; exact ht.2.2.2
                exact ⟨h.freed hH hnp, by simp [freeDirect]⟩
          · rw [if_neg hsu]
            refine ⟨h.freed hH ?_, by simp [freeDirect]⟩
            intro t ht
            exact hsu (by simp [ht.1, ht.2.1])

theorem WInv.time {G : Prop} {N M : Nat} {w : World} (h : WInv G N M w) (t : Nat) : WInv G N M { w with time := t } :=
  { pows := h.pows, pools := h.pools, apart := h.apart, al := h.al, cross := h.cross, ids := h.ids
    views := fun id v hv =>
      let q := h.views id v hv
      { use := q.use, size := q.size, pool := q.pool, direct := q.direct, broken := q.broken }
    inj := fun id v id' v' a x y => h.inj id v id' v' a x y
    owner := fun s a b hb => h.owner s a b hb
    nonull := h.nonull, owned := fun g a n hn => h.owned g a n hn }

theorem WInv.step {G : Prop} {N M : Nat} {w : World} (h : WInv G N M w) {drv : Driver} (hd : FreshNow drv w) (op : Op)
    (hG : G → ∀ p, op = .new p → p.hint = .appManaged → p.appMem ≠ none) : WInv G N M (step drv w op).1 :=
  (h.call hd op hG).1.time _

theorem WInv.run {G : Prop} {N M : Nat} {drv : Driver} : ∀ (ops : List Op) {w : World}, Answers drv w ops →
    WInv G N M w → (G → ∀ p, .new p ∈ ops → p.hint = .appManaged → p.appMem ≠ none) → WInv G N M (run drv w ops) := by
  intro ops
  induction ops with
  | nil => intro w _ h _; exact h
  | cons op ops ih =>
    intro w hd h hG
    refine ih hd.2 (h.step hd.1 op ?_) ?_
    · intro g p e; exact hG g p (by simp [e])
    · intro g p e; exact hG g p (List.mem_cons_of_mem _ e)

theorem reach {N M : Nat} {w : World} {drv : Driver} {ops : List Op} (h : init N M = some w) (hd : Answers drv w ops) :
    WInv False N M (run drv w ops) :=
  WInv.run ops hd (WInv.init h) (fun g => g.elim)

/-! ## The theorems

`w` is the state of a new context, whose pools have chunks of `2^N` to `2^M` bytes; `ops` is any sequence of calls;
Level Zero answers as it likes, also with errors, but what it hands out is fresh. -/

/-- The memory of two memory views never overlaps, nor does it start at the same place. -/
theorem views_apart {N M : Nat} {w : World} {drv : Driver} {ops : List Op} (h : init N M = some w)
    (hd : Answers drv w ops) {i j : Nat} {u v : View} {a b : Nat} (hu : Holds (run drv w ops) i u a)
    (hv : Holds (run drv w ops) j v b) (hij : i ≠ j) :
    a ≠ b ∧ (a + u.numBytes ≤ b ∨ b + v.numBytes ≤ a) := by
  have W := reach h hd
  generalize run drv w ops = x at W hu hv
  have hab : a ≠ b := by
    rintro rfl
    exact hij (W.inj i u j v a hu hv)
  refine ⟨hab, ?_⟩
  unfold View.numBytes
  have U := W.views i u hu.1
  have V := W.views j v hv.1
  rcases pooled_or M u with ⟨s, hs⟩ | hs <;> rcases pooled_or M v with ⟨t, ht⟩ | ht
  · obtain ⟨_, c, c1, c2⟩ := U.pool s a hs hu.2.1
    obtain ⟨_, d, d1, d2⟩ := V.pool t b ht hv.2.1
    obtain ⟨p1, m, k, p2, p3, p4, p5, p6, p7, p8⟩ := W.chunk_in c1
    obtain ⟨q1, n, l, q2, q3, q4, q5, q6, q7, q8⟩ := W.chunk_in d1
    rw [c2] at p3 p6; rw [d2] at q3 q6
    by_cases hmn : m = n
    · subst hmn
      obtain ⟨e1, e2⟩ := W.hunks p1 q1 p2 q2
      subst e1; subst e2
      have e3 : u.size = v.size := c2.symm.trans d2
      rw [e3] at p3 ⊢
      have hkl : k ≠ l := by rintro rfl; exact hab (p3.trans q3.symm)
      rcases Nat.lt_or_gt_of_ne hkl with hlt | hlt
      · left
        have : v.size * (k + 1) ≤ v.size * l := Nat.mul_le_mul_left _ hlt
        rw [Nat.mul_succ] at this; omega
      · right
        have : v.size * (l + 1) ≤ v.size * k := Nat.mul_le_mul_left _ hlt
        rw [Nat.mul_succ] at this; omega
    · have := W.apart m n _ _ p4 q4 hmn
      omega
  · obtain ⟨_, c, c1, c2⟩ := U.pool s a hs hu.2.1
    obtain ⟨d1, d2⟩ := V.direct b ht hv.2.2 hv.2.1
    obtain ⟨p1, m, k, p2, p3, p4, p5, p6, p7, p8⟩ := W.chunk_in c1
    rw [c2] at p6
    have hmb : m ≠ b := by rintro rfl; exact d2 s c p1 p2
    have := W.apart m b _ _ p4 d1 hmb
    omega
  · obtain ⟨d1, d2⟩ := U.direct a hs hu.2.2 hu.2.1
    obtain ⟨_, c, c1, c2⟩ := V.pool t b ht hv.2.1
    obtain ⟨p1, m, k, p2, p3, p4, p5, p6, p7, p8⟩ := W.chunk_in c1
    rw [c2] at p6
    have hma : m ≠ a := by rintro rfl; exact d2 t c p1 p2
    have := W.apart m a _ _ p4 d1 hma
    omega
  · obtain ⟨d1, _⟩ := U.direct a hs hu.2.2 hu.2.1
    obtain ⟨c1, _⟩ := V.direct b ht hv.2.2 hv.2.1
    exact W.apart a b _ _ d1 c1 hab

/-- The memory of a memory view is part of one allocation that Level Zero has not got back, and there is at least as
    much of it as was asked for; its pointer is not null. -/
theorem view_backed {N M : Nat} {w : World} {drv : Driver} {ops : List Op} (h : init N M = some w)
    (hd : Answers drv w ops) {i : Nat} {u : View} {a : Nat} (hu : Holds (run drv w ops) i u a) :
    a ≠ 0 ∧ u.requested ≤ u.numBytes ∧
      ∃ m n, (run drv w ops).live m = some n ∧ m ≤ a ∧ a + u.numBytes ≤ m + n := by
  have W := reach h hd
  generalize run drv w ops = x at W hu
  have U := W.views i u hu.1
  unfold View.numBytes
  rcases pooled_or M u with ⟨s, hs⟩ | hs
  · obtain ⟨c0, c, c1, c2⟩ := U.pool s a hs hu.2.1
    obtain ⟨p1, m, k, p2, p3, p4, p5, p6, p7, p8⟩ := W.chunk_in c1
    rw [c2] at p6
    exact ⟨by have := (W.al m _ p4).1; omega, c0, m, _, p4, p5, p6⟩
  · obtain ⟨d1, _⟩ := U.direct a hs hu.2.2 hu.2.1
    refine ⟨(W.al a _ d1).1, ?_, a, _, d1, le_refl _, le_refl _⟩
    rcases U.size with e | ⟨s, e, _⟩
    · exact le_of_eq e.symm
    · exact absurd e (hs s)

/-- The size the API reports for a view: the one asked for; or, if a pool serves the view and it has been asked for
    its pointer, a power of two that is less than twice as large, or the smallest chunk. -/
theorem numBytes_spec {N M : Nat} {w : World} {drv : Driver} {ops : List Op} (h : init N M = some w)
    (hd : Answers drv w ops) {i : Nat} {u : View} (hu : (run drv w ops).views i = some u) :
    u.numBytes = u.requested ∨
      (u.usePool = true ∧ ∃ k, u.numBytes = 2 ^ k ∧ N ≤ k ∧ k ≤ M ∧ u.requested ≤ 2 ^ k ∧
        (2 ^ k < 2 * u.requested ∨ k = N)) := by
  have W := reach h hd
  generalize run drv w ops = x at W hu
  rcases (W.views i u hu).size with e | ⟨s, e1, e2, e3⟩
  · exact Or.inl e
  · right
    have hr := (W.pools s).range
    obtain ⟨k, f1, f2, f3, f4, f5⟩ := poolSize_spec (p := x.pool s) ⟨hr.2.1, hr.2.2⟩ (r := u.requested)
      (by rw [(W.pows s).2]; exact e2)
    rw [(W.pows s).1] at f2
    rw [(W.pows s).2] at f3
    refine ⟨e1.2.1, k, e3.trans f1, f2, f3, f4, ?_⟩
    rcases f5 with f5 | f5
    · exact Or.inl f5
    · right
      have f6 : 2 ^ k = 2 ^ N := by rw [f5, Pool.minChunk, (W.pows s).1]
      exact Nat.pow_right_injective (le_refl 2) f6

/-- Memory views are at addresses that are multiples of 64, as Level Zero's own allocations are, if the smallest
    chunk has 64 bytes or more (as it has by default). -/
theorem view_aligned {N M : Nat} (hN : 6 ≤ N) {w : World} {drv : Driver} {ops : List Op} (h : init N M = some w)
    (hd : Answers drv w ops) {i : Nat} {u : View} {a : Nat} (hu : Holds (run drv w ops) i u a) : 64 ∣ a := by
  have W := reach h hd
  have hl : ∀ m n, (run drv w ops).live m = some n → 64 ∣ m := fun m n hm => (W.al m n hm).2
  generalize run drv w ops = x at W hu hl
  have U := W.views i u hu.1
  rcases pooled_or M u with ⟨s, hs⟩ | hs
  · obtain ⟨c0, c, c1, c2⟩ := U.pool s a hs hu.2.1
    obtain ⟨p1, m, k, p2, p3, p4, p5, p6, p7, p8⟩ := W.chunk_in c1
    obtain ⟨e, e1, e2, e3⟩ := (W.pools s).chunk c p1
    rw [(W.pows s).1] at e1
    rw [p3, e3]
    refine (Nat.dvd_add_right (hl m _ p4)).2 (Dvd.dvd.mul_right ?_ _)
    exact (pow_dvd_pow 2 (show 6 ≤ e by omega) : 2 ^ 6 ∣ 2 ^ e)
  · exact hl a _ (U.direct a hs hu.2.2 hu.2.1).1

/-- The only call that fails an `assert` or follows a null pointer: asking for the pointer of a shared view that was
    made from a device, not from a context, with a hint other than the default one, while the pools are enabled. -/
theorem crash_iff {N M : Nat} {w : World} {drv : Driver} {ops : List Op} (h : init N M = some w)
    (hd : Answers drv w ops) (hn : FreshNow drv (run drv w ops)) (op : Op) :
    (step drv (run drv w ops) op).2 = .crash ↔
      ∃ id v, op = .devicePtr id ∧ (run drv w ops).views id = some v ∧ v.dev = none ∧ Poolless v := by
  have W := reach h hd
  constructor
  · exact (W.call hn op (fun g => g.elim)).2
  · rintro ⟨id, v, rfl, hv, hd', h1, h2, h3⟩
    simp [step, Ispc.MemPool.call, hv, devicePtr, hd', allocate, h1, h2, h3]

/-- Once a view has a pointer, it keeps it until it is destroyed. -/
theorem pointer_stays {drv : Driver} {w : World} {ops : List Op} {id : Nat} {v : View} {a : Nat}
    (hv : w.views id = some v) (ha : v.dev = some a) (hid : id < w.nextView) (hops : .destroy id ∉ ops) :
    (run drv w ops).views id = some v ∧ (step drv (run drv w ops) (.devicePtr id)).2 = .ok a := by
  have key : ∀ ops : List Op, .destroy id ∉ ops → ∀ w : World, w.views id = some v → id < w.nextView →
      (run drv w ops).views id = some v := by
    intro ops
    induction ops with
    | nil => intro _ w hv _; exact hv
    | cons op ops ih =>
      intro hno w hv hid
      have hno' : .destroy id ∉ ops := fun hx => hno (List.mem_cons_of_mem _ hx)
      have hne : op ≠ .destroy id := fun hx => hno (by simp [hx])
      have hst : (step drv w op).1.views id = some v ∧ id < (step drv w op).1.nextView := by
        cases op with
        | new p =>
          simp only [step, Ispc.MemPool.call]
          rcases newView p with _ | u
          · exact ⟨hv, hid⟩
          · exact ⟨by simp only [upd_ne _ _ (show id ≠ w.nextView by omega)]; exact hv, by simp only; omega⟩
        | devicePtr j =>
          simp only [step, Ispc.MemPool.call]
          rcases hj : w.views j with _ | u
          · exact ⟨hv, hid⟩
          · simp only [devicePtr]
            rcases hu : u.dev with _ | b
            · have hij : id ≠ j := by
                rintro rfl
                rw [hv] at hj; cases hj
                rw [ha] at hu; cases hu
              have hdir : (allocDirect (drv w.time) w j u).1.views id = some v ∧
                  (allocDirect (drv w.time) w j u).1.nextView = w.nextView := by
                unfold allocDirect
                split
                · exact ⟨hv, rfl⟩
                · exact ⟨by simp only [upd_ne _ _ hij]; exact hv, rfl⟩
              have hpool : ∀ s, (allocPooled (drv w.time) w j u s).1.views id = some v ∧
                  (allocPooled (drv w.time) w j u s).1.nextView = w.nextView := by
                intro s
                unfold allocPooled
                simp only
                split
                · exact ⟨by simp only [upd_ne _ _ hij]; exact hv, rfl⟩
                · exact ⟨by simp only [upd_ne _ _ hij]; exact hv, rfl⟩
              simp only [allocate]
              split_ifs
              · split
                · exact ⟨hv, hid⟩
                · split_ifs
                  · exact ⟨(hpool _).1, by rw [(hpool _).2]; exact hid⟩
                  · exact ⟨hdir.1, by rw [hdir.2]; exact hid⟩
              · exact ⟨hdir.1, by rw [hdir.2]; exact hid⟩
              · exact ⟨hdir.1, by rw [hdir.2]; exact hid⟩
            · exact ⟨hv, hid⟩
        | destroy j =>
          have hij : id ≠ j := by rintro rfl; exact hne rfl
          simp only [step, Ispc.MemPool.call]
          rcases hj : w.views j with _ | u
          · exact ⟨hv, hid⟩
          · have e : (destroy w j u).1.views id = some v ∧ (destroy w j u).1.nextView = w.nextView := by
              unfold destroy freeDirect
              split
              · exact ⟨by simp only [upd_ne _ _ hij]; exact hv, rfl⟩
              · split_ifs
                · exact ⟨by simp only [upd_ne _ _ hij]; exact hv, rfl⟩
                · split
                  · exact ⟨hv, rfl⟩
                  · split_ifs
                    · exact ⟨by simp only [upd_ne _ _ hij]; exact hv, rfl⟩
                    · exact ⟨by simp only [upd_ne _ _ hij]; exact hv, rfl⟩
                · exact ⟨by simp only [upd_ne _ _ hij]; exact hv, rfl⟩
            exact ⟨e.1, by simp only; rw [e.2]; exact hid⟩
      exact ih hno' _ hst.1 hst.2
  have := key ops hops w hv hid
  exact ⟨this, by simp [step, Ispc.MemPool.call, this, devicePtr, ha]⟩

/-- Nothing leaks: when all memory views are destroyed and the context is, Level Zero has everything back; unless an
    application-managed view was given the null pointer (see `null_leaks`). -/
theorem no_leak_partial {N M : Nat} {w : World} {drv : Driver} {ops : List Op} (h : init N M = some w)
    (hd : Answers drv w ops) (hnull : ∀ p, .new p ∈ ops → p.hint = .appManaged → p.appMem ≠ none)
    (hall : ∀ id, (run drv w ops).views id = none) (a : Nat) : endContext (run drv w ops) a = none := by
  have W : WInv True N M (run drv w ops) := WInv.run ops hd (WInv.init h) (fun _ => hnull)
  generalize run drv w ops = x at W hall
  rcases hl : x.live a with _ | n
  · unfold endContext Pool.release
    simp [hl]
  · rcases W.owned trivial a n hl with ⟨s, i, hi, hm⟩ | ⟨id, v, hv, _⟩
    · have hrel : ∀ l, (x.pool s).release l a = none := by
        intro l
        unfold Pool.release
        obtain ⟨k, k1, k2, k3⟩ := (W.pools s).chunk i hi
        rw [if_pos]
        simp only [List.any_eq_true, List.mem_range, beq_iff_eq]
        exact ⟨k, by omega, i, ((W.pools s).lists _ _).2 ⟨hi, k3⟩, hm⟩
      unfold endContext
      cases s
      · have h1 := hrel x.live
        show (if _ then none else (x.pool false).release x.live a) = none
        rw [h1]
        exact ite_self none
      · exact hrel _
    · have := hv.1
      rw [hall id] at this; cases this

/-! ### Memory that comes back is used again -/

/-- Level Zero has hunk `m` from pool `s`, for chunks of `c` bytes. -/
def HunkOf (w : World) (s : Bool) (c m : Nat) : Prop :=
  ∃ i < (w.pool s).next, ((w.pool s).store i).chunk = c ∧ ((w.pool s).store i).mem = some m

/-- A bulk without memory is the only one for its size. -/
def Tidy (p : Pool) : Prop :=
  ∀ i < p.next, (p.store i).mem = none → ∀ j < p.next, (p.store j).chunk = (p.store i).chunk → j = i

theorem Tidy.took {l l' : Live} {p p' : Pool} (h : Tidy p) (hp : PInv l p) {a id k : Nat} {hunk : Option Nat}
    (ht : Took l l' p p' a id hunk) (hc : (p'.store id).chunk = 2 ^ k) (hk : k ≤ p.maxPow)
    (hh : hunk ≠ none → (p.next ≤ id ∧ ∀ i < p.next, (p.store i).chunk = 2 ^ k → (p.store i).full = true) ∨
      (id < p.next ∧ (p.store id).chunk = 2 ^ k ∧ (p.store id).mem = none)) : Tidy p' := by
  have hback : ∀ i < p.next, (p'.store i).mem = none → (p.store i).mem = none := by
    intro i hi hn
    rcases hx : (p.store i).mem with _ | m
    · rfl
    · rw [ht.keep i hi m hx] at hn; cases hn
  rcases ht.grow with hg | ⟨hg, hid⟩
  · intro i hi hn j hj hcj
    rw [hg] at hi hj
    rw [ht.chunks i hi, ht.chunks j hj] at hcj
    exact h i hi (hback i hi hn) j hj hcj
  · -- a new bulk
    have hhunk : hunk ≠ none := by
      intro hx
      have hl := ht.live
      rw [hx] at hl
      have hidlt := ht.idlt
      obtain ⟨_, ia, hua⟩ := (ht.inv.alloc a id).1 (by rw [ht.alloc, upd_same])
      obtain ⟨m, hm, _⟩ := ((ht.inv.bulk id hidlt).used a ia).1 hua
      have := (hl.2 id hidlt m hm).1
      omega
    have hfull : ∀ i < p.next, (p.store i).chunk = 2 ^ k → (p.store i).full = true := by
      rcases hh hhunk with hx | ⟨hx, _⟩
      · exact hx.2
      · omega
    have hmem : (p'.store id).mem ≠ none := by
      obtain ⟨h1, ia, hua⟩ := (ht.inv.alloc a id).1 (by rw [ht.alloc, upd_same])
      obtain ⟨m, hm, _⟩ := ((ht.inv.bulk id h1).used a ia).1 hua
      rw [hm]; simp
    have hnofull : ∀ i < p.next, (p.store i).mem = none → (p.store i).chunk = 2 ^ k → False := by
      intro i hi hn hci
      have hf := hfull i hi hci
      have hb := hp.bulk i hi
      have h0 := hb.nomem hn
      have h1 := hb.num
      rw [hp.size i hi, hci] at h1
      have : 0 < 2 ^ p.maxPow / 2 ^ k :=
        Nat.div_pos (Nat.pow_le_pow_right (by norm_num) hk) (Nat.pos_of_ne_zero (by simp))
      simp [Bulk.full] at hf
      omega
    intro i hi hn j hj hcj
    have hine : i ≠ id := by rintro rfl; exact hmem hn
    have hi' : i < p.next := by omega
    have hni := hback i hi' hn
    by_cases hjid : j = id
    · exfalso
      subst hjid
      rw [hc, ht.chunks i hi'] at hcj
      exact hnofull i hi' hni hcj.symm
    · have hj' : j < p.next := by omega
      rw [ht.chunks i hi', ht.chunks j hj'] at hcj
      exact h i hi' hni j hj' hcj

/-- With a Level Zero that does not refuse, the pools stay tidy. -/
theorem tidy_call {G : Prop} {N M : Nat} {w : World} (h : WInv G N M w) {ask : Live → Nat → Option Nat}
    (hask : ∀ n a, ask w.live n = some a → Fresh w.live a n) (hyes : ask w.live (2 ^ M) ≠ none)
    (ht : ∀ s, Tidy (w.pool s)) (op : Op) : ∀ s, Tidy ((call ask w op).1.pool s) := by
  cases op with
  | new p =>
    simp only [Ispc.MemPool.call]
    rcases newView p with _ | v <;> exact ht
  | devicePtr id =>
    simp only [Ispc.MemPool.call]
    rcases hv : w.views id with _ | v
    · exact ht
    · simp only [devicePtr]
      rcases hd : v.dev with _ | a
      · have hdir : ∀ s, Tidy ((allocDirect ask w id v).1.pool s) := by
          unfold allocDirect
          split <;> exact ht
        simp only [allocate]
        by_cases hs : v.shared = true
        · rw [if_pos hs]
          by_cases hu : v.usePool = true
          · rw [if_pos hu]
            rcases hm : v.memPool with _ | s
            · exact ht
            · simp only
              by_cases hsz : v.size ≤ (w.pool s).maxChunk
              · rw [if_pos hsz]
                have hMs := (h.pows s).2
                have hsz' : v.size ≤ 2 ^ M := by rw [← hMs]; exact hsz
                have hr : v.requested ≤ 2 ^ M := by
                  rcases (h.views id v hv).size with hx | ⟨_, _, hx, _⟩
                  · rw [← hx]; exact hsz'
                  · exact hx
                have hrng := (h.pools s).range
                obtain ⟨k, e, k1, k2, k3, k4⟩ := poolSize_spec (p := w.pool s) ⟨hrng.2.1, hrng.2.2⟩ (r := v.requested)
                  (by rw [hMs]; exact hr)
                unfold allocPooled
                simp only
                rcases (h.pools s).allocate h.apart hask k1 k2 with ⟨l', p', a, b, hunk, q1, q2, q3, _, q5⟩ |
                  ⟨p', q1, q2, q3, q4, q5, q6, q7, q8, q9⟩
                · rw [e, q1]
                  simp only
                  intro t
                  split_ifs with hts
                  · exact (ht s).took (h.pools s) q2 q3 k2 q5
                  · exact ht t
                · rw [hMs] at q9; exact absurd q9 hyes
              · rw [if_neg hsz]; exact hdir
          · rw [if_neg hu]; exact hdir
        · rw [if_neg hs]; exact hdir
      · exact ht
  | destroy id =>
    simp only [Ispc.MemPool.call]
    rcases hv : w.views id with _ | v
    · exact ht
    · simp only [destroy, freeDirect]
      split
      · exact ht
      · split_ifs
        · exact ht
        · split
          · exact ht
          · rename_i a _ _ _ _ s _
            split_ifs
            · intro t
              simp only
              split_ifs with hts
              · subst hts
                rcases hb : (w.pool t).allocated a with _ | b
                · simp only [Pool.deallocate, hb]; exact ht t
                · obtain ⟨p', q1, q2, q3, q4, q5, q6, q7, _⟩ := (h.pools t).deallocate h.apart hb
                  rw [q1]
                  intro i hi hn j hj hcj
                  simp only at hi hn hj hcj
                  rw [(q7 _).1] at hn
                  rw [(q7 _).2, (q7 _).2] at hcj
                  rw [q4] at hi hj
                  exact ht t i hi hn j hj hcj
              · exact ht t
            · exact ht
        · exact ht

/-- Memory that comes back to a pool is used again: the pool takes more memory from Level Zero only when all of the
    chunks it has for that size are held by memory views.  For a Level Zero that does not refuse; see
    `reuse_after_failure` for what happens otherwise. -/
theorem reuse_partial {N M : Nat} {w : World} {drv : Driver} {ops : List Op} (h : init N M = some w)
    (hd : Answers drv w ops) (hn : FreshNow drv (run drv w ops)) (hyes : ∀ t l, drv t l (2 ^ M) ≠ none)
    {id : Nat} {v : View} (hv : (run drv w ops).views id = some v) (hdev : v.dev = none) {s : Bool} (hp : Pooled M v s)
    (htook : (step drv (run drv w ops) (.devicePtr id)).1.live ≠ (run drv w ops).live) {m : Nat}
    (hm : HunkOf (run drv w ops) s (poolSize ((run drv w ops).pool s) v.requested) m) {k : Nat}
    (hk : k < 2 ^ M / poolSize ((run drv w ops).pool s) v.requested) :
    ∃ j u, Holds (run drv w ops) j u (m + poolSize ((run drv w ops).pool s) v.requested * k) := by
  have W := reach h hd
  have T : ∀ s, Tidy ((run drv w ops).pool s) := by
    have key : ∀ (ops : List Op) (w : World), Answers drv w ops → WInv False N M w → (∀ s, Tidy (w.pool s)) →
        ∀ s, Tidy ((run drv w ops).pool s) := by
      intro ops
      induction ops with
      | nil => intro w _ _ ht; exact ht
      | cons op ops ih =>
        intro w hd hw ht
        exact ih _ hd.2 (hw.step hd.1 op (fun g => g.elim)) (tidy_call hw hd.1 (hyes _ _) ht op)
    refine key ops w hd (WInv.init h) ?_
    unfold Ispc.MemPool.init at h
    rcases hq : Pool.new N M with _ | p
    · rw [hq] at h; cases h
    · rw [hq] at h
      simp only [Option.map_some, Option.some.injEq] at h
      subst h
      intro s i hi _ j hj hc
      unfold Pool.new at hq
      split_ifs at hq
      cases hq
      simp only [Bulk.new] at hc
      have := Nat.pow_right_injective (le_refl 2) hc
      omega
  generalize run drv w ops = x at W T hn hv htook hm hk ⊢
  have hMs := (W.pows s).2
  have hr : v.requested ≤ 2 ^ M := by
    rcases (W.views id v hv).size with hx | ⟨_, _, hx, _⟩
    · rw [← hx]; exact hp.2.2.2
    · exact hx
  have hrng := (W.pools s).range
  obtain ⟨e, f1, f2, f3, f4, f5⟩ := poolSize_spec (p := x.pool s) ⟨hrng.2.1, hrng.2.2⟩ (r := v.requested)
    (by rw [hMs]; exact hr)
  rw [f1] at hm hk ⊢
  obtain ⟨i, hi, hci, hmi⟩ := hm
  have hst : (step drv x (.devicePtr id)).1.live = (allocPooled (drv x.time) x id v s).1.live := by
    have : v.size ≤ (x.pool s).maxChunk := by show _ ≤ 2 ^ _; rw [hMs]; exact hp.2.2.2
    simp [step, Ispc.MemPool.call, hv, devicePtr, hdev, allocate, hp.1, hp.2.1, hp.2.2.1, this]
  rw [hst] at htook
  unfold allocPooled at htook
  simp only [f1] at htook
  rcases (W.pools s).allocate W.apart (ask := drv x.time) hn f2 f3 with ⟨l', p', a, b, hunk, q1, q2, q3, _, q5⟩ |
    ⟨p', q1, _, _, _, _, _, _, _, q9⟩
  · rw [q1] at htook
    simp only at htook
    have hhunk : hunk ≠ none := by
      intro hx
      have := q2.live
      rw [hx] at this
      exact htook this.1
    have hfull : ((x.pool s).store i).full = true := by
      rcases q5 hhunk with ⟨_, hx⟩ | ⟨hb, hcb, hbn⟩
      · exact hx i hi hci
      · exfalso
        have := T s b hb hbn i hi (by rw [hci, hcb])
        subst this
        rw [hbn] at hmi; cases hmi
    have hnum : k < ((x.pool s).store i).num := by
      rw [((W.pools s).bulk i hi).num, (W.pools s).size i hi, hci, hMs]; exact hk
    have hu := ((W.pools s).bulk i hi).full_used hfull hmi hnum
    rw [hci] at hu
    have ha := ((W.pools s).alloc (m + 2 ^ e * k) i).2 ⟨hi, _, hu⟩
    obtain ⟨j, u, hj, _⟩ := W.owner s _ _ ha
    exact ⟨j, u, hj⟩
  · rw [hMs] at q9; exact absurd q9 (hyes _ _)

/-! ### What a view is made from, and failures -/

/-- A view that exists was made by a call, with the size, the kind and the hint given there; memory given by the
    application is used as it is. -/
theorem view_made {N M : Nat} {w : World} {drv : Driver} {ops : List Op} (h : init N M = some w) {id : Nat} {u : View}
    (hu : (run drv w ops).views id = some u) :
    ∃ p, .new p ∈ ops ∧ u.requested = p.bytes ∧ u.ctx = p.ctx ∧ u.shared = p.shared ∧ u.hint = p.hint ∧
      (u.usePool = true ↔ p.env = true ∧ p.hint ≠ .readWrite ∧ p.hint ≠ .appManaged) ∧
      (∀ a, p.hint = .appManaged → p.appMem = some a → u.dev = some a ∧ u.numBytes = p.bytes) := by
  let Q (ops : List Op) (u : View) : Prop := ∃ p, .new p ∈ ops ∧ u.requested = p.bytes ∧ u.ctx = p.ctx ∧
      u.shared = p.shared ∧ u.hint = p.hint ∧
      (u.usePool = true ↔ p.env = true ∧ p.hint ≠ .readWrite ∧ p.hint ≠ .appManaged) ∧
      (∀ a, p.hint = .appManaged → p.appMem = some a → u.dev = some a ∧ u.numBytes = p.bytes)
  have hcall : ∀ (ask : Live → Nat → Option Nat) (w : World) (op : Op) (j : Nat) (u : View),
      (call ask w op).1.views j = some u →
      (∃ v, w.views j = some v ∧ (u = v ∨ (v.dev = none ∧ u.requested = v.requested ∧ u.ctx = v.ctx ∧
        u.shared = v.shared ∧ u.hint = v.hint ∧ u.usePool = v.usePool))) ∨ ∃ p, op = .new p ∧ newView p = some u := by
    intro ask w op j u hu
    cases op with
    | new p =>
      simp only [Ispc.MemPool.call] at hu
      rcases hp : newView p with _ | v
      · rw [hp] at hu; exact Or.inl ⟨u, hu, Or.inl rfl⟩
      · rw [hp] at hu
        simp only at hu
        by_cases hj : j = w.nextView
        · subst hj
          rw [upd_same] at hu; cases hu
          exact Or.inr ⟨p, rfl, hp⟩
        · rw [upd_ne _ _ hj] at hu; exact Or.inl ⟨u, hu, Or.inl rfl⟩
    | devicePtr id =>
      left
      simp only [Ispc.MemPool.call] at hu
      rcases hv : w.views id with _ | v
      · rw [hv] at hu; exact ⟨u, hu, Or.inl rfl⟩
      · rw [hv] at hu
        simp only [devicePtr] at hu
        rcases hd : v.dev with _ | a
        · rw [hd] at hu
          have hdir : (allocDirect ask w id v).1.views j = some u → ∃ v, w.views j = some v ∧ (u = v ∨ (v.dev = none ∧
              u.requested = v.requested ∧ u.ctx = v.ctx ∧ u.shared = v.shared ∧ u.hint = v.hint ∧
              u.usePool = v.usePool)) := by
            intro hx
            unfold allocDirect at hx
            split at hx
            · exact ⟨u, hx, Or.inl rfl⟩
            · simp only at hx
              by_cases hj : j = id
              · subst hj; rw [upd_same] at hx; cases hx
                exact ⟨v, hv, Or.inr ⟨hd, rfl, rfl, rfl, rfl, rfl⟩⟩
              · rw [upd_ne _ _ hj] at hx; exact ⟨u, hx, Or.inl rfl⟩
          have hpool : ∀ s, (allocPooled ask w id v s).1.views j = some u → ∃ v, w.views j = some v ∧ (u = v ∨
              (v.dev = none ∧ u.requested = v.requested ∧ u.ctx = v.ctx ∧ u.shared = v.shared ∧ u.hint = v.hint ∧
              u.usePool = v.usePool)) := by
            intro s hx
            unfold allocPooled at hx
            simp only at hx
            split at hx
            all_goals
              simp only at hx
              by_cases hj : j = id
              · subst hj; rw [upd_same] at hx; cases hx
                exact ⟨v, hv, Or.inr ⟨hd, rfl, rfl, rfl, rfl, rfl⟩⟩
              · rw [upd_ne _ _ hj] at hx; exact ⟨u, hx, Or.inl rfl⟩
          simp only [allocate] at hu
          split_ifs at hu
          · split at hu
            · exact ⟨u, hu, Or.inl rfl⟩
            · split_ifs at hu
              · exact hpool _ hu
              · exact hdir hu
          · exact hdir hu
          · exact hdir hu
        · rw [hd] at hu; exact ⟨u, hu, Or.inl rfl⟩
    | destroy id =>
      left
      simp only [Ispc.MemPool.call] at hu
      have hgone : ∀ {o : World}, o.views = upd w.views id none → o.views j = some u → ∃ v, w.views j = some v ∧ (u = v ∨
              (v.dev = none ∧ u.requested = v.requested ∧ u.ctx = v.ctx ∧ u.shared = v.shared ∧ u.hint = v.hint ∧
              u.usePool = v.usePool)) := by
        intro o ho hx
        rw [ho] at hx
        by_cases hj : j = id
        · subst hj; rw [upd_same] at hx; cases hx
        · rw [upd_ne _ _ hj] at hx; exact ⟨u, hx, Or.inl rfl⟩
      rcases hv : w.views id with _ | v
      · rw [hv] at hu; exact ⟨u, hu, Or.inl rfl⟩
      · rw [hv] at hu
        simp only [destroy, freeDirect] at hu
        split at hu
        · exact hgone rfl hu
        · split_ifs at hu
          · exact hgone rfl hu
          · split at hu
            · exact ⟨u, hu, Or.inl rfl⟩
            · split_ifs at hu
              · exact hgone rfl hu
              · exact hgone rfl hu
          · exact hgone rfl hu
  have key : ∀ (ops pre : List Op) (w : World), (∀ j u, w.views j = some u → Q pre u) →
      ∀ j u, (run drv w ops).views j = some u → Q (pre ++ ops) u := by
    intro ops
    induction ops with
    | nil => intro pre w hw j u hu; simpa using hw j u hu
    | cons op ops ih =>
      intro pre w hw j u hu
      have := ih (pre ++ [op]) (step drv w op).1 ?_ j u hu
      · simpa using this
      · intro j u hu
        rcases hcall (drv w.time) w op j u hu with ⟨v, hv, hx⟩ | ⟨p, hp, hn⟩
        · obtain ⟨p, q1, q2, q3, q4, q5, q6, q7⟩ := hw j v hv
          rcases hx with rfl | ⟨e0, e1, e2, e3, e4, e5⟩
          · exact ⟨p, by simp [q1], q2, q3, q4, q5, q6, q7⟩
          · refine ⟨p, by simp [q1], e1.trans q2, e2.trans q3, e3.trans q4, e4.trans q5, by rw [e5]; exact q6, ?_⟩
            intro a ha hb
            have := (q7 a ha hb).1
            rw [e0] at this; cases this
        · subst hp
          refine ⟨p, by simp, ?_⟩
          unfold newView at hn
          split_ifs at hn with c1 c2
          all_goals
            cases hn
            refine ⟨rfl, rfl, rfl, rfl, ?_, ?_⟩
            · simp [usesPool, and_assoc]
            · intro a ha hb
              first
                | exact ⟨hb, rfl⟩
                | contradiction
  have h0 : ∀ j u, w.views j = some u → Q [] u := by
    intro j u hu
    unfold Ispc.MemPool.init at h
    rcases hq : Pool.new N M with _ | p
    · rw [hq] at h; cases h
    · rw [hq] at h; cases h; cases hu
  simpa using key ops [] w h0 id u hu

/-- Making a view fails only for device memory asked of a context, and for a hint no pool serves. -/
theorem new_fails_iff {drv : Driver} {w : World} {p : Params} :
    (step drv w (.new p)).2 = .threw ↔
      p.ctx = true ∧ (p.shared = false ∨ (p.env = true ∧ p.hint = .unknown)) := by
  simp only [step, Ispc.MemPool.call]
  obtain ⟨c, s, hint, b, m, e⟩ := p
  cases c <;> cases s <;> cases hint <;> cases e <;> simp [newView, usesPool, poolOf]

/-- A context can be made exactly when the two settings are in range. -/
theorem init_iff {N M : Nat} : (∃ w, init N M = some w) ↔ 1 ≤ N ∧ N ≤ M ∧ M ≤ 30 := by
  unfold Ispc.MemPool.init Pool.new
  constructor
  · rintro ⟨w, hw⟩
    split_ifs at hw <;> simp at hw
    omega
  · intro hx
    rw [if_neg (by omega), if_neg (by omega)]
    exact ⟨_, rfl⟩

/-- A request that Level Zero refuses changes nothing for other views and leaves no memory behind; the view still has
    none. -/
theorem refused {N M : Nat} {w : World} {drv : Driver} {ops : List Op} (h : init N M = some w)
    (hd : Answers drv w ops) (hn : FreshNow drv (run drv w ops)) {id : Nat}
    (ht : (step drv (run drv w ops) (.devicePtr id)).2 = .threw) :
    (step drv (run drv w ops) (.devicePtr id)).1.live = (run drv w ops).live ∧
    (∀ j, j ≠ id → (step drv (run drv w ops) (.devicePtr id)).1.views j = (run drv w ops).views j) ∧
    (∀ a v, ¬ Holds (step drv (run drv w ops) (.devicePtr id)).1 id v a) ∧
    ∃ n, drv (run drv w ops).time (run drv w ops).live n = none := by
  have W := reach h hd
  generalize run drv w ops = x at W hn ht ⊢
  simp only [step, Ispc.MemPool.call] at ht ⊢
  rcases hv : x.views id with _ | v
  · rw [hv] at ht; cases ht
  · rw [hv] at ht
    simp only [devicePtr] at ht ⊢
    rcases hdv : v.dev with _ | a
    · rw [hdv] at ht
      have hdir : (allocDirect (drv x.time) x id v).2 = .threw →
          (allocDirect (drv x.time) x id v).1 = x ∧ drv x.time x.live v.size = none := by
        unfold allocDirect
        rcases hq : drv x.time x.live v.size with _ | a
        · simp
        · simp
      have hsame : (allocDirect (drv x.time) x id v).2 = .threw →
          (allocDirect (drv x.time) x id v).1.live = x.live ∧
          (∀ j, j ≠ id → (allocDirect (drv x.time) x id v).1.views j = x.views j) ∧
          (∀ a u, ¬ Holds { (allocDirect (drv x.time) x id v).1 with
              time := (allocDirect (drv x.time) x id v).1.time + 1 } id u a) ∧
          ∃ n, drv x.time x.live n = none := by
        intro hx
        obtain ⟨e1, e2⟩ := hdir hx
        rw [e1]
        refine ⟨rfl, fun _ _ => rfl, ?_, _, e2⟩
        rintro a u ⟨g1, g2, _⟩
        simp only at g1
        rw [hv] at g1; cases g1
        rw [hdv] at g2; cases g2
      have hpool : ∀ s, v.size ≤ (x.pool s).maxChunk → Pooled M v s → (allocPooled (drv x.time) x id v s).2 = .threw →
          (allocPooled (drv x.time) x id v s).1.live = x.live ∧
          (∀ j, j ≠ id → (allocPooled (drv x.time) x id v s).1.views j = x.views j) ∧
          (∀ a u, ¬ Holds { (allocPooled (drv x.time) x id v s).1 with
              time := (allocPooled (drv x.time) x id v s).1.time + 1 } id u a) ∧
          ∃ n, drv x.time x.live n = none := by
        intro s hsz hP hx
        have hMs := (W.pows s).2
        have hr : v.requested ≤ 2 ^ M := by
          rcases (W.views id v hv).size with hx | ⟨_, _, hx, _⟩
          · rw [← hx]; exact hP.2.2.2
          · exact hx
        have hrng := (W.pools s).range
        obtain ⟨k, e, k1, k2, k3, k4⟩ := poolSize_spec (p := x.pool s) ⟨hrng.2.1, hrng.2.2⟩ (r := v.requested)
          (by rw [hMs]; exact hr)
        unfold allocPooled at hx ⊢
        simp only [e] at hx ⊢
        rcases (W.pools s).allocate W.apart (ask := drv x.time) hn k1 k2 with ⟨l', p', a, b, hunk, q1, q2, q3, _, q5⟩ |
          ⟨p', q1, _, _, _, _, _, _, _, q9⟩
        · rw [q1] at hx; cases hx
        · rw [q1]
          refine ⟨rfl, fun j hj => by simp only [upd_ne _ _ hj], ?_, _, q9⟩
          rintro a u ⟨g1, g2, _⟩
          simp only [upd_same, Option.some.injEq] at g1
          subst g1
          simp only at g2
          rw [hdv] at g2; cases g2
      simp only [allocate] at ht ⊢
      split_ifs at ht ⊢ with c1 c2
      · rcases hm : v.memPool with _ | s
        · rw [hm] at ht; cases ht
        · rw [hm] at ht
          simp only at ht ⊢
          split_ifs at ht ⊢ with c3
          · exact hpool s c3 ⟨c1, c2, hm, by have := c3; unfold Pool.maxChunk at this; rw [(W.pows s).2] at this; exact this⟩ ht
          · exact hsame ht
      · exact hsame ht
      · exact hsame ht
    · rw [hdv] at ht; cases ht

/-! ### A Level Zero that meets the assumption, and the cases that go wrong -/

/-- Level Zero that hands out memory at ever higher addresses and refuses requests above 2^40 bytes. -/
def bump : Driver := fun t _ n => if n ≤ 2 ^ 40 then some ((t + 1) * 2 ^ 40) else none

/-- Memory appears only as an answer of Level Zero. -/
theorem call_live (ask : Live → Nat → Option Nat) (w : World) (op : Op) (b m : Nat)
    (hb : (call ask w op).1.live b = some m) : w.live b = some m ∨ ask w.live m = some b := by
  have hdir : ∀ id v, (allocDirect ask w id v).1.live b = some m → w.live b = some m ∨ ask w.live m = some b := by
    intro id v hb
    unfold allocDirect at hb
    split at hb
    · exact Or.inl hb
    · rename_i a ha
      simp only at hb
      by_cases hba : b = a
      · subst hba; rw [upd_same] at hb; cases hb; exact Or.inr ha
      · rw [upd_ne _ _ hba] at hb; exact Or.inl hb
  have hens : ∀ (c : Bulk), (c.ensure ask w.live).1 b = some m → w.live b = some m ∨ ask w.live m = some b := by
    intro c hb
    unfold Bulk.ensure at hb
    split at hb
    · exact Or.inl hb
    · split at hb
      · exact Or.inl hb
      · rename_i a ha
        simp only at hb
        by_cases hba : b = a
        · subst hba; rw [upd_same] at hb; cases hb; exact Or.inr ha
        · rw [upd_ne _ _ hba] at hb; exact Or.inl hb
  have htake : ∀ (p : Pool) (i : Nat), (p.takeFrom ask w.live i).1 = ((p.store i).ensure ask w.live).1 := by
    intro p i
    unfold Pool.takeFrom Bulk.allocChunk
    rcases (p.store i).ensure ask w.live with ⟨l, b, _ | m⟩
    · rfl
    · simp only
      rcases b.take m with ⟨c, r⟩
      cases r <;> rfl
  have hpool : ∀ id v s, (allocPooled ask w id v s).1.live b = some m → w.live b = some m ∨ ask w.live m = some b := by
    intro id v s hb
    have e : (allocPooled ask w id v s).1.live =
        ((w.pool s).allocate ask w.live (poolSize (w.pool s) v.requested)).1 := by
      unfold allocPooled
      simp only
      split <;> simp_all
    rw [e] at hb
    unfold Pool.allocate at hb
    split_ifs at hb
    · simp only at hb
      rw [htake] at hb
      exact hens _ hb
    · exact Or.inl hb
  cases op with
  | new p =>
    simp only [Ispc.MemPool.call] at hb
    split at hb <;> exact Or.inl hb
  | devicePtr id =>
    simp only [Ispc.MemPool.call] at hb
    rcases hv : w.views id with _ | v
    · rw [hv] at hb; exact Or.inl hb
    · rw [hv] at hb
      simp only [devicePtr] at hb
      rcases hd : v.dev with _ | a
      · rw [hd] at hb
        simp only [allocate] at hb
        split_ifs at hb
        · split at hb
          · exact Or.inl hb
          · split_ifs at hb
            · exact hpool _ _ _ hb
            · exact hdir _ _ hb
        · exact hdir _ _ hb
        · exact hdir _ _ hb
      · rw [hd] at hb; exact Or.inl hb
  | destroy id =>
    left
    have hfree : ∀ a, upd w.live a none b = some m → w.live b = some m := by
      intro a hx
      by_cases hba : b = a
      · subst hba; rw [upd_same] at hx; cases hx
      · rwa [upd_ne _ _ hba] at hx
    simp only [Ispc.MemPool.call] at hb
    rcases hv : w.views id with _ | v
    · rw [hv] at hb; exact hb
    · rw [hv] at hb
      simp only [destroy, freeDirect] at hb
      split at hb
      · exact hb
      · split_ifs at hb
        · exact hb
        · split at hb
          · exact hb
          · split_ifs at hb
            · exact hb
            · exact hfree _ hb
        · exact hfree _ hb

/-- Whatever is asked of it, `bump` meets the assumption about Level Zero. -/
theorem bump_answers {N M : Nat} {w : World} (h : init N M = some w) (ops : List Op) : Answers bump w ops := by
  have htime : ∀ (ask : Live → Nat → Option Nat) (w : World) (op : Op), (call ask w op).1.time = w.time := by
    intro ask w op
    cases op with
    | new p =>
      simp only [Ispc.MemPool.call]
      rcases newView p with _ | v <;> rfl
    | devicePtr id =>
      simp only [Ispc.MemPool.call, devicePtr, allocate, allocDirect, allocPooled]
      repeat' (first | rfl | split)
    | destroy id =>
      simp only [Ispc.MemPool.call, destroy, freeDirect]
      repeat' (first | rfl | split)
  have key : ∀ (ops : List Op) (w : World), (∀ b m, w.live b = some m → b < (w.time + 1) * 2 ^ 40 ∧ b + m ≤ (w.time + 1) * 2 ^ 40) →
      Answers bump w ops := by
    intro ops
    induction ops with
    | nil => intro _ _; trivial
    | cons op ops ih =>
      intro w hw
      refine ⟨?_, ih _ ?_⟩
      · intro n a ha
        unfold bump at ha
        split_ifs at ha with hn
        cases ha
        refine ⟨by omega, Dvd.dvd.mul_left ⟨2 ^ 34, by norm_num⟩ _, ?_, ?_⟩
        · rcases hl : w.live ((w.time + 1) * 2 ^ 40) with _ | m
          · rfl
          · have := (hw _ _ hl).1
            omega
        · intro b m hb; exact Or.inr (hw b m hb).2
      · intro b m hb
        simp only [step] at hb ⊢
        rw [htime]
        rcases call_live _ _ _ _ _ hb with hx | hx
        · have := hw b m hx
          have hle : (w.time + 1) * 2 ^ 40 ≤ (w.time + 1 + 1) * 2 ^ 40 := Nat.mul_le_mul_right _ (Nat.le_succ _)
          exact ⟨lt_of_lt_of_le this.1 hle, le_trans this.2 hle⟩
        · unfold bump at hx
          split_ifs at hx with hn
          cases hx
          rw [Nat.succ_mul (w.time + 1)]
          exact ⟨Nat.lt_add_of_pos_right (by norm_num), Nat.add_le_add_left hn _⟩
  refine key ops w ?_
  intro b m hb
  unfold Ispc.MemPool.init at h
  rcases hq : Pool.new N M with _ | p
  · rw [hq] at h; cases h
  · rw [hq] at h; cases h; cases hb

/-- Level Zero with room for one allocation. -/
def tight : Driver := fun _ l _ => if l (2 ^ 40) = none then some (2 ^ 40) else none

theorem tight_answers {N M : Nat} {w : World} (h : init N M = some w) (ops : List Op) : Answers tight w ops := by
  have key : ∀ (ops : List Op) (w : World), (∀ b m, w.live b = some m → b = 2 ^ 40) → Answers tight w ops := by
    intro ops
    induction ops with
    | nil => intro _ _; trivial
    | cons op ops ih =>
      intro w hw
      refine ⟨?_, ih _ ?_⟩
      · intro n a ha
        unfold tight at ha
        split_ifs at ha with hn
        cases ha
        refine ⟨by norm_num, ⟨2 ^ 34, by norm_num⟩, hn, ?_⟩
        intro b m hb
        have := hw b m hb
        subst this
        rw [hn] at hb; cases hb
      · intro b m hb
        rcases call_live _ _ _ _ _ hb with hx | hx
        · exact hw b m hx
        · unfold tight at hx
          split_ifs at hx
          cases hx; rfl
  refine key ops w ?_
  intro b m hb
  unfold Ispc.MemPool.init at h
  rcases hq : Pool.new N M with _ | p
  · rw [hq] at h; cases h
  · rw [hq] at h; cases h; cases hb

/-- A shared view of a context, for data the host writes, with the pools enabled. -/
def pooledParams (bytes : Nat) : Params :=
  { ctx := true, shared := true, hint := .hostWriteDeviceRead, bytes := bytes, appMem := none, env := true }

/-- A context with the default settings. -/
def w0 : World :=
  { live := fun _ => none
    pool := fun _ =>
      { minPow := 6, maxPow := 21, store := fun i => Bulk.new (2 ^ (6 + i)) (2 ^ 21), next := 16
        lists := Pool.firstLists 6 21, allocated := fun _ => none }
    views := fun _ => none, nextView := 0, time := 0 }

theorem w0_init : init 6 21 = some w0 := rfl

/-- Three views: two from the pool, one too large for it; one is destroyed. -/
def someOps : List Op :=
  [.new (pooledParams 100), .devicePtr 0, .new (pooledParams 65), .devicePtr 1, .new (pooledParams (2 ^ 22)),
   .devicePtr 2, .new (pooledParams 128), .destroy 0, .devicePtr 3]

example : Answers bump w0 someOps := bump_answers w0_init _
-- the views have memory: two neighbouring chunks of one hunk (the first one used again), and one allocation
example : ((run bump w0 someOps).views 1).map (fun v => (v.dev, v.size)) = some (some (2 * 2 ^ 40 + 128), 128) ∧
    ((run bump w0 someOps).views 3).map (fun v => (v.dev, v.size)) = some (some (2 * 2 ^ 40), 128) ∧
    ((run bump w0 someOps).views 2).map (fun v => (v.dev, v.size)) = some (some (6 * 2 ^ 40), 2 ^ 22) ∧
    ((run bump w0 someOps).views 0).isNone = true := by decide +kernel
-- the hypotheses of `reuse_partial` are met: with all chunks of 2^21 bytes taken, the next view takes new memory
example : ∃ v, (run bump w0 [.new (pooledParams (2 ^ 21)), .devicePtr 0, .new (pooledParams (2 ^ 21))]).views 1 = some v ∧
    v.dev = none ∧ Pooled 21 v false ∧ HunkOf (run bump w0 [.new (pooledParams (2 ^ 21)), .devicePtr 0,
      .new (pooledParams (2 ^ 21))]) false (2 ^ 21) (2 * 2 ^ 40) ∧
    (step bump (run bump w0 [.new (pooledParams (2 ^ 21)), .devicePtr 0, .new (pooledParams (2 ^ 21))])
      (.devicePtr 1)).1.live (4 * 2 ^ 40) = some (2 ^ 21) :=
  ⟨_, rfl, rfl, by unfold Pooled; decide +kernel, ⟨15, by decide +kernel, by decide +kernel, by decide +kernel⟩, by decide +kernel⟩
example : ∀ t l, bump t l (2 ^ 21) ≠ none := fun _ _ => by simp [bump]

/-- The size that the API reports for a view changes when its pointer is first asked for. -/
theorem size_changes : ∃ w ops, init 6 21 = some w ∧ Answers bump w ops ∧
    ((run bump w ops).views 0).map View.numBytes = some 100 ∧
    ((run bump w (ops ++ [.devicePtr 0])).views 0).map View.numBytes = some 128 :=
  ⟨w0, [.new (pooledParams 100)], w0_init, bump_answers w0_init _, by decide +kernel, by decide +kernel⟩

/-- With the smallest chunk set below 64 bytes, addresses are no longer aligned as Level Zero's are. -/
theorem misaligned : ∃ w ops v a, init 1 21 = some w ∧ Answers bump w ops ∧ Holds (run bump w ops) 1 v a ∧ ¬ 64 ∣ a := by
  refine ⟨_, [.new (pooledParams 2), .new (pooledParams 2), .devicePtr 0, .devicePtr 1], _, 3 * 2 ^ 40 + 2, rfl,
    bump_answers (N := 1) (M := 21) rfl _, ⟨rfl, rfl, by decide⟩, by decide +kernel⟩

/-- A shared view made from a device, with the pools enabled and a hint: asking for its pointer crashes. -/
theorem crash_reachable : ∃ w ops, init 6 21 = some w ∧ Answers bump w ops ∧
    (step bump (run bump w ops) (.devicePtr 0)).2 = .crash :=
  ⟨w0, [.new { pooledParams 100 with ctx := false }], w0_init, bump_answers w0_init _, by decide +kernel⟩

/-- A view for memory managed by the application, given the null pointer, gets memory when it is asked for its
    pointer, and never gives it back. -/
theorem null_leaks : ∃ w ops a, init 6 21 = some w ∧ Answers bump w ops ∧ (∀ id, (run bump w ops).views id = none) ∧
    endContext (run bump w ops) a ≠ none := by
  have hA := bump_answers w0_init
    [.new { pooledParams 100 with hint := .appManaged }, .devicePtr 0, .destroy 0]
  refine ⟨w0, _, 2 * 2 ^ 40, w0_init, hA, ?_, by decide +kernel⟩
  intro id
  by_cases h : id = 0
  · subst h; decide +kernel
  · rcases hv : (run bump w0 _).views id with _ | v
    · rfl
    · have := (reach w0_init hA).ids id v hv
      have e : (run bump w0 [.new { pooledParams 100 with hint := .appManaged }, .devicePtr 0, .destroy 0]).nextView = 1 := by
        decide +kernel
      omega

/-- After Level Zero has refused memory, chunks that come back are not used: the pool has a hunk for the size of the
    view, no view holds any of it, and still the request fails. -/
theorem reuse_after_failure : ∃ w ops m v, init 6 21 = some w ∧ Answers tight w ops ∧
    (run tight w ops).views 1 = some v ∧ Pooled 21 v false ∧
    HunkOf (run tight w ops) false (poolSize ((run tight w ops).pool false) v.requested) m ∧
    (∀ j u a, ¬ Holds (run tight w ops) j u a) ∧
    (step tight (run tight w ops) (.devicePtr 1)).2 = .threw := by
  have hA := tight_answers w0_init
    [.new (pooledParams (2 ^ 21)), .new (pooledParams (2 ^ 21)), .devicePtr 0, .devicePtr 1, .devicePtr 1, .destroy 0]
  refine ⟨w0, _, 2 ^ 40, _, w0_init, hA, rfl, by unfold Pooled; decide +kernel,
    ⟨15, by decide +kernel, by decide +kernel, by decide +kernel⟩, ?_, by decide +kernel⟩
  rintro j u a ⟨h1, h2, _⟩
  have hj := (reach w0_init hA).ids j u h1
  have e : (run tight w0 [.new (pooledParams (2 ^ 21)), .new (pooledParams (2 ^ 21)), .devicePtr 0, .devicePtr 1,
    .devicePtr 1, .destroy 0]).nextView = 2 := by decide +kernel
  rw [e] at hj
  have h0 : (run tight w0 [.new (pooledParams (2 ^ 21)), .new (pooledParams (2 ^ 21)), .devicePtr 0, .devicePtr 1,
    .devicePtr 1, .destroy 0]).views 0 = none := by decide +kernel
  have h3 : ((run tight w0 [.new (pooledParams (2 ^ 21)), .new (pooledParams (2 ^ 21)), .devicePtr 0, .devicePtr 1,
    .devicePtr 1, .destroy 0]).views 1).bind View.dev = none := by decide +kernel
  rcases (show j = 0 ∨ j = 1 by omega) with rfl | rfl
  · rw [h0] at h1; cases h1
  · rw [h1] at h3
    simp only [Option.bind_some] at h3
    rw [h3] at h2; cases h2

end Ispc.MemPool
