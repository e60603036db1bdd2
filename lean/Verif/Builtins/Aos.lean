import Verif.Builtins.Scan

/-!
# Array-of-structures and structure-of-arrays transposes (C17)

`builtins/generic.ispc:2534-2697` under the wrappers of `stdlib/stdlib.ispc:1136-1240`.  The source has one copy for 2, 3
and 4 fields; the model is one function for every number `N` of fields.  The `int32` and `int64` wrappers reinterpret
the bits as `float`/`double`, which is the identity on cells here.
-/

namespace Ispc.Aos

open Ispc.Vec
open Ispc.Scan (Mem Mem.set)

variable {W N : Nat} {α : Type}

/-! ## Model -/

/-- `*(varying T *)p = v`: one cell per instance. -/
def storeVec (m : Mem α) (p : Int) (v : Vec W α) : Mem α := fun q =>
  if h : p ≤ q ∧ q < p + W then v ⟨(q - p).toNat, by omega⟩ else m q

/-- The inner statements of the loop of `__aos_to_soaN` (generic.ispc:2541-2544, 2590-2595, 2653-2657): field `f` of lane
`i` is read from `ptr[f + i * N]`. -/
def readFields (m : Mem α) (a : Int) (i : Nat) : List (Fin N) → (Fin N → Vec W α) → Option (Fin N → Vec W α)
  | [], x => some x
  | f :: fs, x => do
    let xf ← insert (x f) i (m (a + (f.val + i * N : Nat)))
    readFields m a i fs fun g => if g = f then xf else x g

/-- `__aos_to_soa2/3/4` (generic.ispc:2534-2549, 2579-2604, 2644-2664): read everything, then store the fields in order. -/
def aosToSoa (zero : α) (m : Mem α) (a : Int) (v : Fin N → Int) : Option (Mem α) := do
  let x ← forLoop (fun i x => readFields (W := W) m a i (List.finRange N) x) 0 W fun _ _ => zero
  some ((List.finRange N).foldl (fun m f => storeVec m (v f) (x f)) m)

/-- The inner statements of the loops of `__soa_to_aosN`: `x[N*j + f] = __extract(v_f, j)`. -/
def writeFields (a : Int) (v : Fin N → Vec W α) (j : Nat) : List (Fin N) → Mem α → Option (Mem α)
  | [], m => some m
  | f :: fs, m => do
    let x ← extract (v f) j
    writeFields a v j fs (m.set (a + (N * j + f.val : Nat)) x)

/-- `__soa_to_aos2/3/4` (generic.ispc:2558-2569, 2618-2632, 2676-2690), with its redundant inner loop. -/
def soaToAos (m : Mem α) (a : Int) (v : Fin N → Vec W α) : Option (Mem α) :=
  forLoop (fun j m => forLoop (fun _ m => writeFields a v j (List.finRange N) m) 0 N m) 0 W m

/-! ## Proofs -/

theorem readFields_eq (m : Mem α) (a : Int) {i : Nat} (hi : i < W) : ∀ (fs : List (Fin N)) (x : Fin N → Vec W α), fs.Nodup →
    ∃ y, readFields m a i fs x = some y ∧
      (∀ f ∈ fs, y f = fun l => if l.val = i then m (a + (f.val + i * N : Nat)) else x f l) ∧ ∀ f ∉ fs, y f = x f := by
  intro fs
  induction fs with
  | nil => intro x _; exact ⟨x, rfl, by simp, fun _ _ => rfl⟩
  | cons f fs ih =>
    intro x hn
    rw [List.nodup_cons] at hn
    rw [readFields, insert_lt _ hi]
    simp only [Option.bind_eq_bind, Option.bind_some]
    obtain ⟨y, hy, h1, h2⟩ := ih (fun g => if g = f then fun l => if l.val = i then m (a + (f.val + i * N : Nat)) else x f l
      else x g) hn.2
    refine ⟨y, hy, ?_, ?_⟩
    · intro g hg
      rcases List.mem_cons.1 hg with rfl | hg'
      · rw [h2 g hn.1, if_pos rfl]
      · have hne : g ≠ f := fun e => hn.1 (e ▸ hg')
        rw [h1 g hg', if_neg hne]
    · intro g hg
      rw [List.mem_cons, not_or] at hg
      rw [h2 g hg.2, if_neg hg.1]

theorem storeVec_in (m : Mem α) (p : Int) (v : Vec W α) (l : Fin W) : storeVec m p v (p + l.val) = v l := by
  unfold storeVec
  rw [dif_pos (by have := l.isLt; omega)]
  congr 1
  apply Fin.ext
  simp only
  omega

theorem storeVec_out (m : Mem α) (p : Int) (v : Vec W α) {q : Int} (h : q < p ∨ p + W ≤ q) : storeVec m p v q = m q := by
  unfold storeVec
  rw [dif_neg (by omega)]

theorem stores_eq (v : Fin N → Int) (x : Fin N → Vec W α)
    (hd : ∀ f g, f ≠ g → v f + W ≤ v g ∨ v g + W ≤ v f) : ∀ (fs : List (Fin N)) (m : Mem α), fs.Nodup →
    (∀ f ∈ fs, ∀ l : Fin W, fs.foldl (fun m f => storeVec m (v f) (x f)) m (v f + l.val) = x f l) ∧
    ∀ q, (∀ f ∈ fs, q < v f ∨ v f + W ≤ q) → fs.foldl (fun m f => storeVec m (v f) (x f)) m q = m q := by
  intro fs
  induction fs with
  | nil => intro m _; exact ⟨by simp, fun _ _ => rfl⟩
  | cons f fs ih =>
    intro m hn
    rw [List.nodup_cons] at hn
    obtain ⟨h1, h2⟩ := ih (storeVec m (v f) (x f)) hn.2
    simp only [List.foldl_cons]
    refine ⟨?_, ?_⟩
    · intro g hg l
      rcases List.mem_cons.1 hg with rfl | hg'
      · rw [h2 _ (fun k hk => by
          have hne : g ≠ k := fun e => hn.1 (e ▸ hk)
          have := hd g k hne
          have := l.isLt
          omega)]
        exact storeVec_in _ _ _ _
      · exact h1 g hg' l
    · intro q hq
      rw [h2 q fun k hk => hq k (List.mem_cons_of_mem _ hk)]
      exact storeVec_out _ _ _ (hq f List.mem_cons_self)

/-- C17: `aos_to_soa`: instance `l` of vector `f` receives field `f` of element `l`; nothing else changes.  The source array
may overlap the destinations, which must be pairwise disjoint. -/
theorem aos_to_soa_spec (zero : α) (m : Mem α) (a : Int) (v : Fin N → Int)
    (hd : ∀ f g, f ≠ g → v f + W ≤ v g ∨ v g + W ≤ v f) :
    ∃ m', aosToSoa (W := W) zero m a v = some m' ∧
      (∀ (f : Fin N) (l : Fin W), m' (v f + l.val) = m (a + (N * l.val + f.val : Nat))) ∧
      ∀ q, (∀ f, q < v f ∨ v f + W ≤ q) → m' q = m q := by
  unfold aosToSoa
  obtain ⟨x, hx, hI⟩ := forLoop_inv (body := fun i x => readFields (W := W) m a i (List.finRange N) x)
    (fun i (x : Fin N → Vec W α) => ∀ f (l : Fin W), l.val < i → x f l = m (a + (N * l.val + f.val : Nat))) W 0
    (fun _ _ => zero) (by intro f l h; omega)
    (by
      intro i x _ hi hI
      obtain ⟨y, hy, h1, _⟩ := readFields_eq m a (by omega : i < W) (List.finRange N) x (List.nodup_finRange N)
      refine ⟨y, hy, ?_⟩
      intro f l hl
      rw [h1 f (List.mem_finRange f)]
      by_cases h : l.val = i
      · simp only [h, if_true]
        congr 2
        rw [Nat.add_comm, Nat.mul_comm]
      · simp only [h, if_false]
        exact hI f l (by omega))
  rw [hx]
  obtain ⟨h1, h2⟩ := stores_eq v x hd (List.finRange N) m (List.nodup_finRange N)
  refine ⟨_, rfl, ?_, ?_⟩
  · intro f l
    rw [h1 f (List.mem_finRange f) l]
    exact hI f l (by have := l.isLt; omega)
  · intro q hq
    exact h2 q fun f _ => hq f

theorem writeFields_eq (a : Int) (v : Fin N → Vec W α) {j : Nat} (hj : j < W) : ∀ (fs : List (Fin N)) (m : Mem α), fs.Nodup →
    ∃ m', writeFields a v j fs m = some m' ∧
      (∀ f ∈ fs, m' (a + (N * j + f.val : Nat)) = v f ⟨j, hj⟩) ∧
      ∀ q, (∀ f ∈ fs, q ≠ a + (N * j + f.val : Nat)) → m' q = m q := by
  intro fs
  induction fs with
  | nil => intro m _; exact ⟨m, rfl, by simp, fun _ _ => rfl⟩
  | cons f fs ih =>
    intro m hn
    rw [List.nodup_cons] at hn
    rw [writeFields, extract_lt _ hj]
    simp only [Option.bind_eq_bind, Option.bind_some]
    obtain ⟨m', hm', h1, h2⟩ := ih (m.set (a + (N * j + f.val : Nat)) (v f ⟨j, hj⟩)) hn.2
    refine ⟨m', hm', ?_, ?_⟩
    · intro g hg
      rcases List.mem_cons.1 hg with rfl | hg'
      · rw [h2 _ (fun k hk e => hn.1 (by
          have : g.val = k.val := by omega
          rw [Fin.ext this]; exact hk))]
        simp [Mem.set]
      · exact h1 g hg'
    · intro q hq
      rw [h2 q fun k hk => hq k (List.mem_cons_of_mem _ hk)]
      unfold Mem.set
      rw [if_neg (hq f List.mem_cons_self)]

/-- C17: `soa_to_aos`: field `f` of element `l` receives instance `l` of vector `f`; nothing else changes. -/
theorem soa_to_aos_spec (m : Mem α) (a : Int) (v : Fin N → Vec W α) :
    ∃ m', soaToAos m a v = some m' ∧
      (∀ (f : Fin N) (l : Fin W), m' (a + (N * l.val + f.val : Nat)) = v f l) ∧
      ∀ q, q < a ∨ a + (N * W : Nat) ≤ q → m' q = m q := by
  unfold soaToAos
  obtain ⟨m', hm', h1, h2⟩ := forLoop_inv
    (body := fun j m => forLoop (fun _ m => writeFields a v j (List.finRange N) m) 0 N m)
    (fun j (m' : Mem α) => (∀ (f : Fin N) (l : Fin W), l.val < j → m' (a + (N * l.val + f.val : Nat)) = v f l) ∧
      ∀ q, q < a ∨ a + (N * j : Nat) ≤ q → m' q = m q) W 0 m
    ⟨fun f l h => absurd h (by omega), fun _ _ => rfl⟩
    (by
      rintro j m1 _ hj ⟨hI1, hI2⟩
      have hj : j < W := by omega
      -- the redundant inner loop
      obtain ⟨m2, hm2, h3, h4⟩ := forLoop_inv (body := fun _ m => writeFields a v j (List.finRange N) m)
        (fun i (m2 : Mem α) => (0 < i → ∀ f : Fin N, m2 (a + (N * j + f.val : Nat)) = v f ⟨j, hj⟩) ∧
          ∀ q, (∀ f : Fin N, q ≠ a + (N * j + f.val : Nat)) → m2 q = m1 q) N 0 m1
        ⟨fun h => absurd h (by omega), fun _ _ => rfl⟩
        (by
          rintro i m2 _ _ ⟨_, hb⟩
          obtain ⟨m3, hm3, h5, h6⟩ := writeFields_eq a v hj (List.finRange N) m2 (List.nodup_finRange N)
          refine ⟨m3, hm3, fun _ f => h5 f (List.mem_finRange f), ?_⟩
          intro q hq
          rw [h6 q fun f _ => hq f]
          exact hb q hq)
      refine ⟨m2, hm2, ?_, ?_⟩
      · intro f l hl
        have hN : 0 < N := Nat.zero_lt_of_lt f.isLt
        by_cases h : l.val = j
        · have : l = ⟨j, hj⟩ := Fin.ext h
          subst this
          exact h3 (by omega) f
        · rw [h4 _ (fun g => by
            have h7 : l.val + 1 ≤ j := by omega
            have h8 : N * (l.val + 1) ≤ N * j := Nat.mul_le_mul_left N h7
            rw [Nat.mul_add, Nat.mul_one] at h8
            have := f.isLt
            omega)]
          exact hI1 f l (by omega)
      · intro q hq
        have e : N * (j + 1) = N * j + N := by ring
        rw [h4 q (fun f => by have := f.isLt; omega)]
        exact hI2 q (by omega))
  refine ⟨m', hm', ?_, ?_⟩
  · intro f l; exact h1 f l (by have := l.isLt; omega)
  · intro q hq; exact h2 q (by rw [Nat.zero_add]; exact hq)

/-- C17: the two are inverse: writing vectors as structures and reading them back restores every vector. -/
theorem soa_aos_roundtrip (zero : α) (m : Mem α) (a : Int) (x : Fin N → Vec W α) (v : Fin N → Int)
    (hd : ∀ f g, f ≠ g → v f + W ≤ v g ∨ v g + W ≤ v f) :
    ∃ m', (soaToAos m a x).bind (fun m => aosToSoa (W := W) zero m a v) = some m' ∧
      ∀ f (l : Fin W), m' (v f + l.val) = x f l := by
  obtain ⟨m1, h1, h2, _⟩ := soa_to_aos_spec m a x
  obtain ⟨m2, h3, h4, _⟩ := aos_to_soa_spec (W := W) zero m1 a v hd
  refine ⟨m2, by rw [h1, Option.bind_some, h3], ?_⟩
  intro f l
  rw [h4, h2]

/-- C17: and the other way round: reading structures into vectors and writing the vectors back leaves the array as it was. -/
theorem aos_soa_roundtrip (zero : α) (m : Mem α) (a : Int) (v : Fin N → Int)
    (hd : ∀ f g, f ≠ g → v f + W ≤ v g ∨ v g + W ≤ v f) :
    ∃ m' m'', aosToSoa (W := W) zero m a v = some m' ∧
      soaToAos m' a (fun (f : Fin N) (l : Fin W) => m' (v f + l.val)) = some m'' ∧
      ∀ k < N * W, m'' (a + k) = m (a + k) := by
  obtain ⟨m1, h1, h2, _⟩ := aos_to_soa_spec (W := W) zero m a v hd
  obtain ⟨m2, h3, h4, _⟩ := soa_to_aos_spec m1 a (fun (f : Fin N) (l : Fin W) => m1 (v f + l.val))
  refine ⟨m1, m2, h1, h3, ?_⟩
  intro k hk
  have hN : 0 < N := by rcases Nat.eq_zero_or_pos N with h | h; · subst h; simp at hk
                        · exact h
  have hlt : k / N < W := by rw [Nat.div_lt_iff_lt_mul hN, Nat.mul_comm]; exact hk
  have := h4 ⟨k % N, Nat.mod_lt _ hN⟩ ⟨k / N, hlt⟩
  simp only at this
  rw [Nat.div_add_mod] at this
  have h5 := h2 ⟨k % N, Nat.mod_lt _ hN⟩ ⟨k / N, hlt⟩
  simp only at h5
  rw [Nat.div_add_mod] at h5
  rw [this, h5]

/-! ## Non-vacuity: the example of the source comment, three fields, a gang of four -/

example : ((aosToSoa (W := 4) (N := 3) 0 (fun q => q) 100 (fun f => 1000 + 4 * f.val)).map fun m =>
    (List.range 12).map fun k => m (1000 + k)) = some [100, 103, 106, 109, 101, 104, 107, 110, 102, 105, 108, 111] := by
  decide +kernel

end Ispc.Aos
