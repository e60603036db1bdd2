import Verif.Builtins.Gather
import Mathlib.Tactic.Linarith

/-!
# C14: gathers, scatters and masked accesses touch exactly what the active instances ask for
-/

namespace Ispc.Gather

open Ispc.Vec Ispc.PerLane
open Ispc.ForeachActive (Mask movmsk activeLanes activeLanes_spec movmsk_bit one_shl_bit)

variable {W n : Nat}

/-! ## Specification -/

/-- `r` is a correct result of reading, for every active instance `l`, the element at `addr l`: that instance has the
element, and nothing is said about the others. -/
def Gathered (m : Mem) (addr : Fin W → Addr) (mask : Mask W) (r : Res W n) : Prop :=
  ∀ l, mask l = true → r l = some (m.elt n (addr l))

/-- `x` is one of the `n` bytes from `a` on. -/
def Within (n : Nat) (a x : Addr) : Prop := (x - a).toNat < n

/-- `m'` is a correct memory after every active instance `l` has written `vals l` at `addr l`: a byte that an active
instance writes has the value written by the highest such instance, and any other byte is unchanged. -/
def Scattered (m m' : Mem) (addr : Fin W → Addr) (vals : Vec W (Elt n)) (mask : Mask W) : Prop :=
  m'.mapped = m.mapped ∧ ∀ x,
    (∃ l, mask l = true ∧ (∃ h : Within n (addr l) x, m'.byte x = vals l ⟨(x - addr l).toNat, h⟩) ∧
      ∀ l', mask l' = true → l < l' → ¬ Within n (addr l') x) ∨
    ((∀ l, mask l = true → ¬ Within n (addr l) x) ∧ m'.byte x = m.byte x)

/-- The active instances' elements can all be accessed. -/
def AllAccessible (m : Mem) (n : Nat) (addr : Fin W → Addr) (mask : Mask W) : Prop :=
  ∀ l, mask l = true → m.accessible n (addr l)

/-! ## Folds -/

theorem foldlM_load (m : Mem) (addr : Fin W → Addr) :
    ∀ (ls : List (Fin W)) (r : Res W n),
      ls.foldlM (fun ret l => (m.load n (addr l)).bind fun val => insert ret l.val (some val)) r =
        if ∀ l ∈ ls, m.accessible n (addr l) then
          some fun l => if l ∈ ls then some (m.elt n (addr l)) else r l else none := by
  intro ls
  induction ls with
  | nil => intro r; simp
  | cons a ls ih =>
    intro r
    rw [List.foldlM_cons]
    by_cases ha : m.accessible n (addr a)
    · rw [show (m.load n (addr a)).bind (fun val => insert r a.val (some val)) =
          some fun l => if l.val = a.val then some (m.elt n (addr a)) else r l by
        simp [Mem.load, ha, insert_lt]]
      simp only [Option.bind_eq_bind, Option.bind_some]
      rw [ih]
      by_cases hls : ∀ l ∈ ls, m.accessible n (addr l)
      · rw [if_pos hls, if_pos (by simpa [ha] using hls)]
        congr 1
        funext l
        by_cases h1 : l ∈ ls
        · simp [h1]
        · by_cases h2 : l = a
          · subst h2; simp [h1]
          · have : ¬ l.val = a.val := fun h => h2 (Fin.ext h)
            simp [h1, h2, this]
      · rw [if_neg hls, if_neg (by simpa [ha] using hls)]
    · rw [if_neg (by intro h; exact ha (h a (by simp)))]
      simp [Mem.load, ha]

theorem put_accessible (m : Mem) {k : Nat} (a b : Addr) (v : Elt k) :
    (m.put a v).accessible n b ↔ m.accessible n b := Iff.rfl

/-- Storing one element after another, for a list of instances. -/
def ScatteredList (m m' : Mem) (addr : Fin W → Addr) (vals : Vec W (Elt n)) (ls : List (Fin W)) : Prop :=
  m'.mapped = m.mapped ∧ ∀ x,
    (∃ l ∈ ls, (∃ h : Within n (addr l) x, m'.byte x = vals l ⟨(x - addr l).toNat, h⟩) ∧
      ∀ l' ∈ ls, l < l' → ¬ Within n (addr l') x) ∨
    ((∀ l ∈ ls, ¬ Within n (addr l) x) ∧ m'.byte x = m.byte x)

theorem foldlM_store (addr : Fin W → Addr) (vals : Vec W (Elt n)) :
    ∀ (ls : List (Fin W)), ls.Pairwise (fun a b => a.val < b.val) → ∀ m : Mem,
      ((∀ l ∈ ls, m.accessible n (addr l)) →
        ∃ m', ls.foldlM (fun m l => m.store (addr l) (vals l)) m = some m' ∧ ScatteredList m m' addr vals ls) ∧
      ((¬ ∀ l ∈ ls, m.accessible n (addr l)) → ls.foldlM (fun m l => m.store (addr l) (vals l)) m = none) := by
  intro ls
  induction ls with
  | nil => intro _ m; exact ⟨fun _ => ⟨m, rfl, rfl, fun x => .inr ⟨by simp, rfl⟩⟩, fun h => absurd (by simp) h⟩
  | cons a ls ih =>
    intro hp m
    rw [List.pairwise_cons] at hp
    obtain ⟨i1, i2⟩ := ih hp.2 (m.put (addr a) (vals a))
    by_cases ha : m.accessible n (addr a)
    · have hs : m.store (addr a) (vals a) = some (m.put (addr a) (vals a)) := if_pos ha
      rw [List.foldlM_cons, hs]
      simp only [Option.bind_eq_bind, Option.bind_some]
      refine ⟨fun h => ?_, fun h => i2 fun h' => h ?_⟩
      · obtain ⟨m', e, hm, hx⟩ := i1 fun l hl => h l (List.mem_cons_of_mem _ hl)
        refine ⟨m', e, hm, fun x => ?_⟩
        rcases hx x with ⟨l, hl, hv, hlast⟩ | ⟨hno, hsame⟩
        · refine .inl ⟨l, List.mem_cons_of_mem _ hl, hv, fun l' hl' hlt => ?_⟩
          rcases List.mem_cons.1 hl' with rfl | hl'
          · exact absurd (hp.1 l hl) (by have := Fin.lt_def.1 hlt; omega)
          · exact hlast l' hl' hlt
        · by_cases hw : Within n (addr a) x
          · refine .inl ⟨a, by simp, ⟨hw, ?_⟩, fun l' hl' hlt => ?_⟩
            · rw [hsame]
              exact dif_pos hw
            · rcases List.mem_cons.1 hl' with rfl | hl'
              · exact absurd hlt (lt_irrefl _)
              · exact hno l' hl'
          · refine .inr ⟨fun l hl => ?_, ?_⟩
            · rcases List.mem_cons.1 hl with rfl | hl
              · exact hw
              · exact hno l hl
            · rw [hsame]
              exact dif_neg hw
      · intro l hl
        rcases List.mem_cons.1 hl with rfl | hl
        · exact ha
        · exact h' l hl
    · have hs : m.store (addr a) (vals a) = none := if_neg ha
      rw [List.foldlM_cons, hs]
      exact ⟨fun h => absurd (h a (by simp)) ha, fun _ => rfl⟩

theorem forLoop_all {S : Type} (code : Nat → S → Option S) (s : S) :
    forLoop code 0 W s = (List.finRange W).foldlM (fun s l => code l.val s) s := by
  rw [forLoop_foldlM (W := W) code W 0 s (by omega)]
  congr 1
  rw [List.filter_eq_self]
  intro l _
  simp

/-- A gather of the lanes that are on, one after the other. -/
theorem gather_fold (m : Mem) (addr : Fin W → Addr) (mask : Mask W) :
    (activeLanes mask).foldlM
        (fun (ret : Res W n) l => (m.load n (addr l)).bind fun val => insert ret l.val (some val)) (fun _ => none) =
      if ∀ l, mask l = true → m.accessible n (addr l) then
        some fun l => if mask l then some (m.elt n (addr l)) else none else none := by
  rw [foldlM_load]
  have hm := (activeLanes_spec mask).1
  by_cases h : ∀ l, mask l = true → m.accessible n (addr l)
  · rw [if_pos h, if_pos fun l hl => h l ((hm l).1 hl)]
    simp only [hm]
  · rw [if_neg h, if_neg fun h' => h fun l hl => h' l ((hm l).2 hl)]

/-- The same for stores. -/
theorem scatter_fold (m : Mem) (addr : Fin W → Addr) (vals : Vec W (Elt n)) (mask : Mask W) :
    (AllAccessible m n addr mask → ∃ m', (activeLanes mask).foldlM (fun m l => m.store (addr l) (vals l)) m = some m' ∧
      Scattered m m' addr vals mask) ∧
    (¬ AllAccessible m n addr mask → (activeLanes mask).foldlM (fun m l => m.store (addr l) (vals l)) m = none) := by
  obtain ⟨hm, hp⟩ := activeLanes_spec mask
  obtain ⟨h1, h2⟩ := foldlM_store addr vals _ hp m
  refine ⟨fun h => ?_, fun h => h2 fun h' => h fun l hl => h' l ((hm l).2 hl)⟩
  obtain ⟨m', e, hmap, hx⟩ := h1 fun l hl => h l ((hm l).1 hl)
  refine ⟨m', e, hmap, fun x => ?_⟩
  simpa only [hm] using hx x

/-! ## Gathers -/

/-- **C14.** A gather through a vector of pointers reads the element of every active instance and of no other: it
faults exactly if one of those is not accessible. -/
theorem gather_ptrs {k : Nat} (known : Bool) (m : Mem) (ptrs : Vec W (BitVec k)) (mask : Mask W) (hW : W ≤ 64) :
    (AllAccessible m n (fun l => (ptrs l).setWidth 64) mask →
      ∃ r, gatherPtrs known m n ptrs mask = some r ∧ Gathered m (fun l => (ptrs l).setWidth 64) mask r) ∧
    (¬ AllAccessible m n (fun l => (ptrs l).setWidth 64) mask → gatherPtrs known m n ptrs mask = none) := by
  have e : gatherPtrs known m n ptrs mask = (activeLanes mask).foldlM (fun (ret : Res W n) l =>
      (m.load n ((ptrs l).setWidth 64)).bind fun val => insert ret l.val (some val)) (fun _ => none) := by
    rw [gatherPtrs, perLane_eq hW]
    congr 1
    funext ret l
    simp [extract_lt]
  rw [e, gather_fold m (fun l => (ptrs l).setWidth 64) mask]
  refine ⟨fun h => ⟨_, if_pos h, fun l hl => by simp [hl]⟩, fun h => if_neg h⟩

/-- The gather with a common base, for any way of computing an address from offset, scale and delta that gives the base
when the two vectors are zero. -/
theorem gatherFactored_eq {k : Nat} (addr : Addr → BitVec k → BitVec 32 → BitVec k → Addr)
    (h0 : ∀ b s, addr b 0 s 0 = b) (m : Mem) (base : Addr) (offsets : Vec W (BitVec k)) (scale : BitVec 32)
    (delta : Vec W (BitVec k)) (mask : Mask W) :
    gatherFactored addr m n base offsets scale delta mask =
      if ∀ l : Fin W, m.accessible n (if mask l then addr base (offsets l) scale (delta l) else base) then
        some fun l => some (m.elt n (if mask l then addr base (offsets l) scale (delta l) else base)) else none := by
  have ha : ∀ l : Fin W, addr base (zeroOff mask offsets l) scale (zeroOff mask delta l) =
      if mask l then addr base (offsets l) scale (delta l) else base := by
    intro l
    unfold zeroOff
    by_cases hl : mask l = true
    · simp [hl]
    · simp only [hl]
      exact h0 base scale
  rw [gatherFactored, forLoop_all]
  have e : (fun (ret : Res W n) (l : Fin W) => do
      let o ← extract (zeroOff mask offsets) l.val
      let d ← extract (zeroOff mask delta) l.val
      let val ← m.load n (addr base o scale d)
      insert ret l.val (some val)) = fun ret l =>
        (m.load n (if mask l then addr base (offsets l) scale (delta l) else base)).bind fun val =>
          insert ret l.val (some val) := by
    funext ret l
    simp only [extract_lt _ l.isLt, Option.bind_eq_bind, Option.bind_some]
    rw [ha l]
  rw [e, foldlM_load m (fun l => if mask l then addr base (offsets l) scale (delta l) else base)]
  simp

/-- **C14.** The address of an element with 32-bit offsets: base, plus offset times scale, plus constant offset, all signed
numbers, modulo `2 ^ 64`. -/
theorem addr32_value (base : Addr) (offset scale delta : BitVec 32) :
    addr32 base offset scale delta = base + BitVec.ofInt 64 (offset.toInt * scale.toInt + delta.toInt) := by
  unfold addr32
  rw [BitVec.ofInt_add, BitVec.ofInt_mul, BitVec.add_assoc]
  simp only [BitVec.signExtend]

/-- **C14.** The same with 64-bit offsets. -/
theorem addr64_value (base : Addr) (offset : BitVec 64) (scale : BitVec 32) (delta : BitVec 64) :
    addr64 base offset scale delta = base + BitVec.ofInt 64 (offset.toInt * scale.toInt + delta.toInt) := by
  unfold addr64
  rw [BitVec.ofInt_add, BitVec.ofInt_mul, BitVec.add_assoc, BitVec.ofInt_toInt, BitVec.ofInt_toInt]
  simp only [BitVec.signExtend]

/-- **C14.** A gather with 32-bit offsets from a common base: if the element at the base and those of the active
instances are accessible, each active instance gets its own. -/
theorem gather_factored32 (m : Mem) (base : Addr) (offsets : Vec W (BitVec 32)) (scale : BitVec 32)
    (delta : Vec W (BitVec 32)) (mask : Mask W) (hb : (∃ l, mask l = false) → m.accessible n base)
    (ha : AllAccessible m n (fun l => addr32 base (offsets l) scale (delta l)) mask) :
    ∃ r, gatherFactored addr32 m n base offsets scale delta mask = some r ∧
      Gathered m (fun l => addr32 base (offsets l) scale (delta l)) mask r := by
  rw [gatherFactored_eq _ (fun b s => by simp [addr32])]
  refine ⟨_, if_pos fun l => ?_, fun l hl => by simp [hl]⟩
  by_cases hl : mask l = true
  · simpa [hl] using ha l hl
  · simpa [hl] using hb ⟨l, by simpa using hl⟩

/-- **C14.** The same with 64-bit offsets. -/
theorem gather_factored64 (m : Mem) (base : Addr) (offsets : Vec W (BitVec 64)) (scale : BitVec 32)
    (delta : Vec W (BitVec 64)) (mask : Mask W) (hb : (∃ l, mask l = false) → m.accessible n base)
    (ha : AllAccessible m n (fun l => addr64 base (offsets l) scale (delta l)) mask) :
    ∃ r, gatherFactored addr64 m n base offsets scale delta mask = some r ∧
      Gathered m (fun l => addr64 base (offsets l) scale (delta l)) mask r := by
  rw [gatherFactored_eq _ (fun b s => by simp [addr64])]
  refine ⟨_, if_pos fun l => ?_, fun l hl => by simp [hl]⟩
  by_cases hl : mask l = true
  · simpa [hl] using ha l hl
  · simpa [hl] using hb ⟨l, by simpa using hl⟩

/-- **The property fails for gathers with a common base.** With some instance off and the element at the base not
accessible, the gather faults whatever the active instances ask for: even when none is active. -/
theorem gather_factored_reads_base (m : Mem) (base : Addr) (offsets : Vec W (BitVec 64)) (scale : BitVec 32)
    (delta : Vec W (BitVec 64)) (mask : Mask W) (hoff : ∃ l, mask l = false) (hb : ¬ m.accessible n base) :
    gatherFactored addr64 m n base offsets scale delta mask = none := by
  rw [gatherFactored_eq _ (fun b s => by simp [addr64])]
  obtain ⟨l, hl⟩ := hoff
  exact if_neg fun h => hb (by simpa [hl] using h l)

/-- The 32-bit product of scale and offset is the product. -/
def ScaleFits (scale offset : BitVec 32) : Prop :=
  -2 ^ 31 ≤ scale.toInt * offset.toInt ∧ scale.toInt * offset.toInt < 2 ^ 31

theorem scaled32 (base : Addr) (scale offset : BitVec 32) (h : ScaleFits scale offset) :
    addr32 base (scale * offset) 1 0 = addr32 base offset scale 0 := by
  obtain ⟨h1, h2⟩ := h
  have e : (scale * offset).signExtend 64 = offset.signExtend 64 * scale.signExtend 64 := by
    apply BitVec.eq_of_toInt_eq
    rw [BitVec.toInt_mul, BitVec.toInt_signExtend_of_le (by omega), BitVec.toInt_signExtend_of_le (by omega),
      BitVec.toInt_signExtend_of_le (by omega), BitVec.toInt_mul, Int.mul_comm offset.toInt]
    rw [Int.bmod_eq_of_le (by omega) (by omega), Int.bmod_eq_of_le (by omega) (by omega)]
  unfold addr32
  rw [e]
  simp

/-- **C14.** A gather with one 32-bit offset vector and a scale. -/
theorem gather_base32 (m : Mem) (base : Addr) (scale : BitVec 32) (offsets : Vec W (BitVec 32)) (mask : Mask W)
    (hfit : ∀ l, mask l = true → ScaleFits scale (offsets l)) (hb : (∃ l, mask l = false) → m.accessible n base)
    (ha : AllAccessible m n (fun l => addr32 base (offsets l) scale 0) mask) :
    ∃ r, gatherBase32 m n base scale offsets mask = some r ∧
      Gathered m (fun l => addr32 base (offsets l) scale 0) mask r := by
  have e : ∀ l, mask l = true → addr32 base (scale * offsets l) 1 0 = addr32 base (offsets l) scale 0 :=
    fun l hl => scaled32 base scale _ (hfit l hl)
  obtain ⟨r, hr, hg⟩ := gather_factored32 (n := n) m base (fun l => scale * offsets l) 1 (fun _ => 0) mask hb
    (fun l hl => by simpa only [e l hl] using ha l hl)
  exact ⟨r, hr, fun l hl => (hg l hl).trans (by simp only [e l hl])⟩

/-- **C14.** A gather with one 64-bit offset vector and a scale, which is not negative. -/
theorem gather_base64 (m : Mem) (base : Addr) (scale : BitVec 32) (offsets : Vec W (BitVec 64)) (mask : Mask W)
    (hs : scale.msb = false) (hb : (∃ l, mask l = false) → m.accessible n base)
    (ha : AllAccessible m n (fun l => addr64 base (offsets l) scale 0) mask) :
    ∃ r, gatherBase64 m n base scale offsets mask = some r ∧
      Gathered m (fun l => addr64 base (offsets l) scale 0) mask r := by
  have e : ∀ l, addr64 base (scale.setWidth 64 * offsets l) 1 0 = addr64 base (offsets l) scale 0 := by
    intro l
    unfold addr64
    rw [BitVec.signExtend_eq_setWidth_of_msb_false hs, BitVec.mul_comm (offsets l)]
    simp
  obtain ⟨r, hr, hg⟩ := gather_factored64 (n := n) m base (fun l => scale.setWidth 64 * offsets l) 1 (fun _ => 0) mask hb
    (fun l hl => by simpa only [e l] using ha l hl)
  exact ⟨r, hr, fun l hl => (hg l hl).trans (by simp only [e l])⟩

/-! ## Scatters -/

/-- **C14.** A scatter through a vector of pointers writes the elements of the active instances and nothing else. -/
theorem scatter_ptrs {k : Nat} (known : Bool) (m : Mem) (ptrs : Vec W (BitVec k)) (vals : Vec W (Elt n)) (mask : Mask W)
    (hW : W ≤ 64) :
    (AllAccessible m n (fun l => (ptrs l).setWidth 64) mask →
      ∃ m', scatterPtrs known m ptrs vals mask = some m' ∧
        Scattered m m' (fun l => (ptrs l).setWidth 64) vals mask) ∧
    (¬ AllAccessible m n (fun l => (ptrs l).setWidth 64) mask → scatterPtrs known m ptrs vals mask = none) := by
  have e : scatterPtrs known m ptrs vals mask =
      (activeLanes mask).foldlM (fun m l => m.store ((ptrs l).setWidth 64) (vals l)) m := by
    rw [scatterPtrs, perLane_eq hW]
    congr 1
    funext m l
    simp [extract_lt]
  rw [e]
  exact scatter_fold m (fun l => (ptrs l).setWidth 64) vals mask

/-- **C14.** The same for a scatter with offsets from a common base, here for any computation of the address: those of
the 32-bit and of the 64-bit functions are `addr32` and `addr64`. -/
theorem scatter_factored {k : Nat} (addr : Addr → BitVec k → BitVec 32 → BitVec k → Addr) (known : Bool) (m : Mem)
    (base : Addr) (offsets : Vec W (BitVec k)) (scale : BitVec 32) (delta : Vec W (BitVec k)) (vals : Vec W (Elt n))
    (mask : Mask W) (hW : W ≤ 64) :
    (AllAccessible m n (fun l => addr base (offsets l) scale (delta l)) mask →
      ∃ m', scatterFactored addr known m base offsets scale delta vals mask = some m' ∧
        Scattered m m' (fun l => addr base (offsets l) scale (delta l)) vals mask) ∧
    (¬ AllAccessible m n (fun l => addr base (offsets l) scale (delta l)) mask →
      scatterFactored addr known m base offsets scale delta vals mask = none) := by
  have e : scatterFactored addr known m base offsets scale delta vals mask =
      (activeLanes mask).foldlM (fun m l => m.store (addr base (offsets l) scale (delta l)) (vals l)) m := by
    rw [scatterFactored, perLane_eq hW]
    congr 1
    funext m l
    simp [extract_lt]
  rw [e]
  exact scatter_fold m (fun l => addr base (offsets l) scale (delta l)) vals mask

/-! ## Vectors under a mask -/

theorem storeVec_eq (m : Mem) (ptr : Addr) (vals : Vec W (Elt n)) :
    storeVec m ptr vals = (List.finRange W).foldlM (fun m l => m.store (laneAddr n ptr l.val) (vals l)) m := by
  rw [storeVec, forLoop_all]
  congr 1
  funext m l
  simp [extract_lt]

theorem loadVec_eq (m : Mem) (ptr : Addr) :
    (loadVec m n ptr : Option (Res W n)) = if ∀ l : Fin W, m.accessible n (laneAddr n ptr l.val) then
      some fun l => some (m.elt n (laneAddr n ptr l.val)) else none := by
  rw [loadVec, forLoop_all]
  refine (foldlM_load m (fun l => laneAddr n ptr l.val) _ _).trans ?_
  simp

/-- **C14.** A masked store writes the lanes of the active instances and nothing else. -/
theorem masked_store (known : Bool) (m : Mem) (ptr : Addr) (vals : Vec W (Elt n)) (mask : Mask W) (hW : W ≤ 64) :
    (AllAccessible m n (fun l => laneAddr n ptr l.val) mask →
      ∃ m', maskedStore known m ptr vals mask = some m' ∧ Scattered m m' (fun l => laneAddr n ptr l.val) vals mask) ∧
    (¬ AllAccessible m n (fun l => laneAddr n ptr l.val) mask → maskedStore known m ptr vals mask = none) := by
  have e : maskedStore known m ptr vals mask =
      (activeLanes mask).foldlM (fun m l => m.store (laneAddr n ptr l.val) (vals l)) m := by
    rw [maskedStore, perLane_eq hW]
    congr 1
    funext m l
    simp [extract_lt]
  rw [e]
  exact scatter_fold m (fun l => laneAddr n ptr l.val) vals mask

/-- Memory is mapped in pages of 4096 bytes. -/
def Paged (m : Mem) : Prop := ∀ a b : Addr, a.toNat / 4096 = b.toNat / 4096 → m.mapped a = m.mapped b

theorem laneByte_toNat {ptr : Addr} {l i : Nat} (hl : l < W) (hi : i < n) (hwrap : ptr.toNat + W * n ≤ 2 ^ 64) :
    (laneAddr n ptr l + BitVec.ofNat 64 i).toNat = ptr.toNat + l * n + i ∧ l * n + i < W * n := by
  have h : l * n + i < W * n := by
    calc l * n + i < l * n + n := by omega
      _ = (l + 1) * n := by ring
      _ ≤ W * n := Nat.mul_le_mul_right n hl
  refine ⟨?_, h⟩
  unfold laneAddr
  rw [BitVec.toNat_add, BitVec.toNat_add, BitVec.toNat_ofNat, BitVec.toNat_ofNat]
  omega

/-- If the first and the last lane can be accessed, so can those in between. -/
theorem between_accessible {m : Mem} {ptr : Addr} (hpg : Paged m) (hsize : W * n ≤ 4096)
    (hwrap : ptr.toNat + W * n ≤ 2 ^ 64) (hW : 0 < W) (hfirst : m.accessible n (laneAddr n ptr 0))
    (hlast : m.accessible n (laneAddr n ptr (W - 1))) (l : Fin W) : m.accessible n (laneAddr n ptr l.val) := by
  intro i
  have hi := i.isLt
  obtain ⟨e, hlt⟩ := laneByte_toNat (ptr := ptr) l.isLt hi hwrap
  obtain ⟨e0, _⟩ := laneByte_toNat (ptr := ptr) (l := 0) (i := 0) hW (by omega : 0 < n) hwrap
  obtain ⟨e1, _⟩ := laneByte_toNat (ptr := ptr) (l := W - 1) (i := n - 1) (by omega) (by omega : n - 1 < n) hwrap
  have ew : (W - 1) * n + (n - 1) + 1 = W * n := by
    have : (W - 1) * n + n = W * n := by
      rw [← Nat.succ_mul]; congr 1; omega
    omega
  have hor : (ptr.toNat + l.val * n + i.val) / 4096 = (ptr.toNat + 0 * n + 0) / 4096 ∨
      (ptr.toNat + l.val * n + i.val) / 4096 = (ptr.toNat + (W - 1) * n + (n - 1)) / 4096 := by omega
  rcases hor with h | h
  · exact (hpg _ _ (by rw [e, e0, h])).trans (hfirst ⟨0, by omega⟩)
  · exact (hpg _ _ (by rw [e, e1, h])).trans (hlast ⟨n - 1, by omega⟩)

theorem canVload_spec (mask : Mask W) (hW : 0 < W) (hW' : W ≤ 64) :
    ((movmsk mask &&& 1#64).getLsbD 0 && ((movmsk mask &&& maskHighBitOn W) >>> (W - 1)).getLsbD 0) = true ↔
      mask ⟨0, hW⟩ = true ∧ mask ⟨W - 1, by omega⟩ = true := by
  have h0 : (movmsk mask).getLsbD 0 = mask ⟨0, hW⟩ := by
    rw [Bool.eq_iff_iff, movmsk_bit mask hW']
    exact ⟨fun ⟨_, h⟩ => h, fun h => ⟨hW, h⟩⟩
  have h1 : (movmsk mask).getLsbD (W - 1) = mask ⟨W - 1, by omega⟩ := by
    rw [Bool.eq_iff_iff, movmsk_bit mask hW']
    exact ⟨fun ⟨_, h⟩ => h, fun h => ⟨by omega, h⟩⟩
  rw [BitVec.getLsbD_and, BitVec.getLsbD_ushiftRight, BitVec.getLsbD_and, maskHighBitOn, one_shl_bit]
  simp only [Nat.add_zero, h0, h1]
  have : W - 1 < 64 := by omega
  simp [this]

/-- **C14.** A masked load of a vector gives each active instance its own element and faults exactly if one of those is
not accessible, although it may read the lanes in between: memory is mapped in pages, and a vector is no longer than
one. -/
theorem masked_load (m : Mem) (ptr : Addr) (mask : Mask W) (hpg : Paged m) (hW : 0 < W) (hW' : W ≤ 64)
    (hsize : W * n ≤ 4096) (hwrap : ptr.toNat + W * n ≤ 2 ^ 64) :
    (AllAccessible m n (fun l => laneAddr n ptr l.val) mask →
      ∃ r, maskedLoad false m n ptr mask = some r ∧ Gathered m (fun l => laneAddr n ptr l.val) mask r) ∧
    (¬ AllAccessible m n (fun l => laneAddr n ptr l.val) mask → maskedLoad false m n ptr mask = none) := by
  have hbr : maskedLoad false m n ptr mask =
      if mask ⟨0, hW⟩ = true ∧ mask ⟨W - 1, by omega⟩ = true then loadVec m n ptr
      else maskedLoadIntrinsic m n ptr mask := by
    have := canVload_spec mask hW hW'
    rw [maskedLoad, Bool.false_or]
    split <;> split <;> simp_all
  rw [hbr]
  by_cases hc : mask ⟨0, hW⟩ = true ∧ mask ⟨W - 1, by omega⟩ = true
  · rw [if_pos hc, loadVec_eq]
    obtain ⟨h0, h1⟩ := hc
    refine ⟨fun h => ?_, fun h => if_neg fun h' => h fun l _ => h' l⟩
    have a0 : m.accessible n (laneAddr n ptr 0) := h ⟨0, hW⟩ h0
    have a1 : m.accessible n (laneAddr n ptr (W - 1)) := h ⟨W - 1, by omega⟩ h1
    rw [if_pos (between_accessible hpg hsize hwrap hW a0 a1)]
    exact ⟨_, rfl, fun l _ => rfl⟩
  · rw [if_neg hc, maskedLoadIntrinsic]
    simp only [Option.bind_eq_bind]
    rw [gather_fold m (fun l => laneAddr n ptr l.val) mask]
    exact ⟨fun h => ⟨_, if_pos h, fun l hl => by simp [hl]⟩, fun h => if_neg h⟩

/-- With `--opt=fast-masked-vload` the whole vector is read: a vector that is not accessible makes the load fault even
with no instance active. -/
theorem fast_masked_load (m : Mem) (ptr : Addr) (mask : Mask W) (l : Fin W)
    (h : ¬ m.accessible n (laneAddr n ptr l.val)) : maskedLoad true m n ptr mask = none := by
  unfold maskedLoad
  simp only [Bool.true_or, if_true]
  rw [loadVec_eq]
  exact if_neg fun h' => h (h' l)

/-- There is only one correct memory after a scatter. -/
theorem scattered_unique {m m1 m2 : Mem} {addr : Fin W → Addr} {vals : Vec W (Elt n)} {mask : Mask W}
    (h1 : Scattered m m1 addr vals mask) (h2 : Scattered m m2 addr vals mask) : m1 = m2 := by
  have hb : m1.byte = m2.byte := by
    funext x
    rcases h1.2 x with ⟨l, hl, ⟨hw, e⟩, hmax⟩ | ⟨hno, e⟩ <;> rcases h2.2 x with ⟨l', hl', ⟨hw', e'⟩, hmax'⟩ | ⟨hno', e'⟩
    · rcases lt_trichotomy l l' with h | h | h
      · exact absurd hw' (hmax l' hl' h)
      · subst h; rw [e, e']
      · exact absurd hw (hmax' l hl h)
    · exact absurd hw (hno' l hl)
    · exact absurd hw' (hno l' hl')
    · rw [e, e']
  cases m1; cases m2
  have hm := h1.1.trans h2.1.symm
  simp_all

theorem lanes_disjoint {ptr x : Addr} {l l' : Fin W} (hsize : W * n ≤ 2 ^ 64) (h : Within n (laneAddr n ptr l.val) x)
    (h' : Within n (laneAddr n ptr l'.val) x) : l = l' := by
  have key : ∀ k : Fin W, Within n (laneAddr n ptr k.val) x →
      k.val * n ≤ (x - ptr).toNat ∧ (x - ptr).toNat < k.val * n + n := by
    intro k hk
    unfold Within laneAddr at hk
    have hkn : k.val * n + n ≤ W * n := by
      rw [← Nat.succ_mul]; exact Nat.mul_le_mul_right n k.isLt
    have e : x - (ptr + BitVec.ofNat 64 (k.val * n)) = (x - ptr) - BitVec.ofNat 64 (k.val * n) := by
      grind
    rw [e] at hk
    generalize x - ptr = y at hk ⊢
    rw [BitVec.toNat_sub, BitVec.toNat_ofNat] at hk
    have := y.isLt
    by_cases hn : n = 0
    · omega
    have : k.val * n < 2 ^ 64 := by omega
    rw [Nat.mod_eq_of_lt this] at hk
    by_cases hle : k.val * n ≤ y.toNat
    · rw [show 2 ^ 64 - k.val * n + y.toNat = y.toNat - k.val * n + 2 ^ 64 by omega, Nat.add_mod_right,
        Nat.mod_eq_of_lt (by omega)] at hk
      omega
    · rw [Nat.mod_eq_of_lt (by omega)] at hk
      omega
  obtain ⟨a1, a2⟩ := key l h
  obtain ⟨b1, b2⟩ := key l' h'
  apply Fin.ext
  by_contra hne
  rcases Nat.lt_or_gt_of_ne hne with hlt | hlt
  · have : (l.val + 1) * n ≤ l'.val * n := Nat.mul_le_mul_right n hlt
    rw [Nat.succ_mul] at this
    omega
  · have : (l'.val + 1) * n ≤ l.val * n := Nat.mul_le_mul_right n hlt
    rw [Nat.succ_mul] at this
    omega

/-- **C14.** Loading the vector, blending and storing it again has the same effect as a masked store, if the whole
vector is accessible (and, which a sequential model cannot show, no other thread writes to it meanwhile). -/
theorem masked_store_blend (known : Bool) (m : Mem) (ptr : Addr) (vals : Vec W (Elt n)) (mask : Mask W) (hW : W ≤ 64)
    (hsize : W * n ≤ 2 ^ 64) (ha : ∀ l : Fin W, m.accessible n (laneAddr n ptr l.val)) :
    ∃ m', maskedStoreBlend m ptr vals mask = some m' ∧ maskedStore known m ptr vals mask = some m' ∧
      Scattered m m' (fun l => laneAddr n ptr l.val) vals mask := by
  have e : maskedStoreBlend m ptr vals mask =
      storeVec m ptr (fun l => if mask l then vals l else m.elt n (laneAddr n ptr l.val)) := by
    unfold maskedStoreBlend
    rw [loadVec_eq, if_pos ha]
    simp only [Option.bind_eq_bind, Option.bind_some]
    rw [storeVec_eq, storeVecPoison, forLoop_all]
    congr 1
    funext m' l
    simp only [extract_lt _ l.isLt, Option.bind_eq_bind, Option.bind_some, select]
    by_cases hl : mask l = true <;> simp [hl]
  obtain ⟨m2, h2, hs2⟩ := (masked_store known m ptr vals mask hW).1 fun l _ => ha l
  have hall : activeLanes (fun _ : Fin W => true) = List.finRange W := by simp [activeLanes]
  obtain ⟨m1, h1, hs1⟩ := (scatter_fold m (fun l => laneAddr n ptr l.val)
    (fun l => if mask l then vals l else m.elt n (laneAddr n ptr l.val)) (fun _ => true)).1 fun l _ => ha l
  rw [hall, ← storeVec_eq, ← e] at h1
  have hs1' : Scattered m m1 (fun l => laneAddr n ptr l.val) vals mask := by
    refine ⟨hs1.1, fun x => ?_⟩
    rcases hs1.2 x with ⟨l, _, ⟨hw, hv⟩, hmax⟩ | ⟨hno, hv⟩
    · by_cases hl : mask l = true
      · exact .inl ⟨l, hl, ⟨hw, by simpa [hl] using hv⟩, fun l' _ hlt => hmax l' rfl hlt⟩
      · refine .inr ⟨fun l' hl' hw' => hl (lanes_disjoint hsize hw hw' ▸ hl'), ?_⟩
        rw [hv]
        simp only [hl, Bool.false_eq_true, if_false, Mem.elt]
        rw [BitVec.ofNat_toNat, BitVec.setWidth_eq]
        congr 1
        grind
    · exact .inr ⟨fun l _ => hno l rfl, hv⟩
  exact ⟨m1, h1, scattered_unique hs1' hs2 ▸ h2, hs1'⟩

/-! ## Examples -/

/-- Two pages, at 4096 and 8192, whose bytes tell their address modulo 256. -/
def twoPages : Mem := ⟨fun a => a.toNat / 4096 == 1 || a.toNat / 4096 == 2, fun a => a.setWidth 8⟩

example : Paged twoPages := by
  intro a b h
  simp [twoPages, h]

/-- A vector of four 4-byte elements across the boundary of the two pages, with the second lane off. -/
def someOn : Mask 4 := fun l => decide (l.val ≠ 1)

example : (maskedLoad false twoPages 4 8184#64 someOn).map (fun r => (r 0).map (fun e => e 0)) = some (some 248#8) := by
  decide +kernel

/-- Lanes 2 and 3 have the same address; lane 3 wins. -/
example : ((scatterPtrs false twoPages (fun l : Fin 4 => if l.val < 2 then BitVec.ofNat 64 (4096 + 8 * l.val) else 4200#64)
    (fun l (_ : Fin 2) => BitVec.ofNat 8 l.val) someOn).map
      fun m => [m.byte 4096#64, m.byte 4105#64, m.byte 4200#64, m.byte 4201#64, m.byte 4202#64]) =
    some [0#8, 9#8, 3#8, 3#8, 106#8] := by decide +kernel

/-- An active lane outside of the pages faults; switched off, it does not. -/
example : (gatherPtrs false twoPages 4 (fun l : Fin 4 => BitVec.ofNat 64 (4096 * l.val)) someOn).isSome = false ∧
    (gatherPtrs false twoPages 4 (fun l : Fin 4 => BitVec.ofNat 64 (4096 * l.val)) fun l => decide (l.val = 1 ∨ l.val = 2)).isSome =
      true := by decide +kernel

/-- The base of this gather is not accessible: it works with all instances on, and faults with one off. -/
example : (gatherFactored addr64 twoPages 4 0#64 (fun l : Fin 4 => BitVec.ofNat 64 l.val) 4#32 (fun _ => 4096#64)
      fun _ => true).isSome = true ∧
    (gatherFactored addr64 twoPages 4 0#64 (fun l : Fin 4 => BitVec.ofNat 64 l.val) 4#32 (fun _ => 4096#64)
      someOn).isSome = false := by decide +kernel

end Ispc.Gather
