import Verif.Front.OutFiles
import Mathlib.Tactic.Common
import Mathlib.Data.List.Infix
import Mathlib.Data.List.Nodup

/-!
# C86: theorems about the files of a compilation
-/

namespace Ispc.OutFiles

open Ispc.Targets (Target)

/-! ## Names -/

theorem lastDot_none (p : Path) : lastDot p = none ↔ '.' ∉ p := by
  induction p with
  | nil => simp [lastDot]
  | cons c cs ih =>
    cases h : lastDot cs with
    | none =>
      have := ih.1 h
      by_cases hc : c = '.' <;> simp [lastDot, h, hc, this, eq_comm]
    | some n =>
      have : '.' ∈ cs := by
        by_contra hh
        rw [ih.2 hh] at h; cases h
      simp [lastDot, h, this]

theorem lastDot_split (a e : Path) (h : '.' ∉ e) : lastDot (a ++ '.' :: e) = some a.length := by
  induction a with
  | nil => simp [lastDot, (lastDot_none e).2 h]
  | cons c cs ih => simp [lastDot, ih]

/-- Every name has no dot, or a last one. -/
theorem dot_cases (p : Path) : '.' ∉ p ∨ ∃ a e, p = a ++ '.' :: e ∧ '.' ∉ e := by
  induction p with
  | nil => left; simp
  | cons c cs ih =>
    rcases ih with h | ⟨a, e, rfl, he⟩
    · by_cases hc : c = '.'
      · right; exact ⟨[], cs, by simp [hc], h⟩
      · left; simp [h, Ne.symm hc]
    · right; exact ⟨c :: a, e, by simp, he⟩

/-- The name of the instruction set comes before the suffix. -/
theorem mangle_suffix (a e isa : Path) (h : '.' ∉ e) :
    mangle (a ++ '.' :: e) isa = a ++ '_' :: isa ++ '.' :: e := by
  simp [mangle, lastDot_split a e h]

/-- Without a suffix it comes at the end. -/
theorem mangle_plain (p isa : Path) (h : '.' ∉ p) : mangle p isa = p ++ '_' :: isa := by
  simp [mangle, (lastDot_none p).2 h]

example : mangle "build/foo.o".toList Isa.avx2.name = "build/foo_avx2.o".toList := by decide +kernel
example : mangle "build/foo".toList Isa.skx.name = "build/foo_avx512skx".toList := by decide +kernel

theorem name_chars (i : Isa) : '/' ∉ i.name ∧ '.' ∉ i.name := by
  cases i <;> decide +kernel

/-- The file for a target is in the directory of the file asked for, whenever this one has a suffix or its directory
    has no dots. -/
theorem mangle_directory_partial (p dir file : Path) (i : Isa) (h : Splits p dir file)
    (hd : '.' ∈ file ∨ '.' ∉ dir) :
    ∃ stem ext, file = stem ++ ext ∧ '.' ∉ ext.tail ∧ (ext = [] ∨ ext.head? = some '.') ∧
      Splits (mangle p i.name) dir (stem ++ '_' :: i.name ++ ext) := by
  obtain ⟨rfl, hf, hdir⟩ := h
  have hn := name_chars i
  rcases dot_cases file with hnd | ⟨a, e, rfl, he⟩
  · have hdd : '.' ∉ dir := by rcases hd with h | h; exact absurd h hnd; exact h
    refine ⟨file, [], by simp, by simp, Or.inl rfl, ?_, ?_, hdir⟩
    · rw [mangle_plain _ _ (by simp [hdd, hnd])]; simp
    · simp [hf, hn.1]
  · refine ⟨a, '.' :: e, rfl, by simpa using he, Or.inr rfl, ?_, ?_, hdir⟩
    · rw [← List.append_assoc, mangle_suffix _ _ _ he]; simp
    · simp at hf ⊢; exact ⟨hf.1, hn.1, hf.2⟩

example : ∃ stem ext, "foo.o".toList = stem ++ ext ∧ '.' ∉ ext.tail ∧ (ext = [] ∨ ext.head? = some '.') ∧
    Splits (mangle "../build.d/foo.o".toList Isa.avx.name) "../build.d/".toList (stem ++ '_' :: Isa.avx.name ++ ext) :=
  mangle_directory_partial _ "../build.d/".toList _ .avx
    ⟨by decide +kernel, by decide +kernel, Or.inr ⟨"../build.d".toList, by decide +kernel⟩⟩
    (Or.inl (by decide +kernel))

/-- **The directory changes when it has a dot and the file has no suffix.** -/
theorem mangle_directory_wrong :
    mangle "../foo".toList Isa.avx2.name = "._avx2./foo".toList ∧
      mangle "build.d/foo".toList Isa.avx2.name = "build_avx2.d/foo".toList := by decide +kernel

theorem name_no_suffix (i j : Isa) : ('_' :: i.name) <:+ ('_' :: j.name) → i.name = j.name := by
  cases i <;> cases j <;> decide +kernel

/-- **No two files and instruction sets share a name.** -/
theorem mangle_injective (p q : Path) (i j : Isa) (h : mangle p i.name = mangle q j.name) :
    p = q ∧ i.name = j.name := by
  have key : ∀ (a b : Path), a ++ '_' :: i.name = b ++ '_' :: j.name → a = b ∧ i.name = j.name := by
    intro a b hab
    have hi : ('_' :: i.name) <:+ (b ++ '_' :: j.name) := hab ▸ List.suffix_append a _
    have hj : ('_' :: j.name) <:+ (b ++ '_' :: j.name) := List.suffix_append b _
    have hn : i.name = j.name := by
      rcases List.suffix_or_suffix_of_suffix hi hj with h | h
      · exact name_no_suffix i j h
      · exact (name_no_suffix j i h).symm
    refine ⟨?_, hn⟩
    rw [hn] at hab
    exact List.append_cancel_right hab
  have hi := (name_chars i).2
  have hj := (name_chars j).2
  rcases dot_cases p with hp | ⟨a, e, rfl, he⟩ <;> rcases dot_cases q with hq | ⟨b, f, rfl, hf⟩
  · rw [mangle_plain _ _ hp, mangle_plain _ _ hq] at h
    exact key p q h
  · rw [mangle_plain _ _ hp, mangle_suffix _ _ _ hf] at h
    have : '.' ∈ p ++ '_' :: i.name := by rw [h]; simp
    simp [hp, hi] at this
  · rw [mangle_suffix _ _ _ he, mangle_plain _ _ hq] at h
    have : '.' ∈ q ++ '_' :: j.name := by rw [← h]; simp
    simp [hq, hj] at this
  · rw [mangle_suffix _ _ _ he, mangle_suffix _ _ _ hf] at h
    have h1 := lastDot_split (a ++ '_' :: i.name) e he
    rw [h, lastDot_split (b ++ '_' :: j.name) f hf] at h1
    have hl := List.append_inj h (by simpa using h1.symm)
    obtain ⟨h2, h3⟩ := hl
    have := key a b h2
    simp only [List.cons.injEq, true_and] at h3
    exact ⟨by rw [this.1, h3], this.2⟩

/-- The file for a target is never the file asked for. -/
theorem mangle_differs (p isa : Path) : mangle p isa ≠ p := by
  intro h
  have : (mangle p isa).length = p.length := by rw [h]
  rcases dot_cases p with hp | ⟨a, e, rfl, he⟩
  · rw [mangle_plain _ _ hp] at this; simp at this
  · rw [mangle_suffix _ _ _ he] at this; simp at this; omega

theorem mangle_ne_nil (p isa : Path) : mangle p isa ≠ [] := by
  rcases dot_cases p with hp | ⟨a, e, rfl, he⟩
  · rw [mangle_plain _ _ hp]; simp
  · rw [mangle_suffix _ _ _ he]; simp

/-! ## The check of the targets -/

theorem lookup_isSome (m : List (Isa × Nat)) (i : Isa) : (m.lookup i).isSome ↔ i ∈ m.map Prod.fst := by
  induction m with
  | nil => simp
  | cons x m ih =>
    obtain ⟨a, k⟩ := x
    by_cases h : i = a
    · simp [List.lookup, h]
    · have : (i == a) = false := by simpa using h
      simp only [List.lookup, this, ih, List.map_cons, List.mem_cons]
      simp [h]

theorem name_shared (i j : Isa) : i.name = j.name ↔
    i = j ∨ (i = .sse42 ∧ j = .sse41) ∨ (i = .sse41 ∧ j = .sse42) := by
  cases i <;> cases j <;> decide +kernel

theorem fill_spec (is : List Isa) : ∀ (m : List (Isa × Nat)) (k : Nat), (m.map (·.1.name)).Nodup →
    ((fillIndices m k is).isSome ↔ (is.map Isa.name).Nodup ∧ ∀ i ∈ is, i.name ∉ m.map (·.1.name)) := by
  induction is with
  | nil => intro m k _; simp [fillIndices]
  | cons i is ih =>
    intro m k hm
    have hcond : ((m.lookup i).isSome ∨ ((i = .sse42 ∧ (m.lookup .sse41).isSome) ∨
        (i = .sse41 ∧ (m.lookup .sse42).isSome))) ↔ i.name ∈ m.map (·.1.name) := by
      simp only [lookup_isSome, List.mem_map]
      constructor
      · rintro (⟨a, ha, rfl⟩ | ⟨rfl, a, ha, h⟩ | ⟨rfl, a, ha, h⟩)
        · exact ⟨a, ha, rfl⟩
        · exact ⟨a, ha, by rw [h]; decide +kernel⟩
        · exact ⟨a, ha, by rw [h]; decide +kernel⟩
      · rintro ⟨a, ha, h⟩
        rcases (name_shared a.1 i).1 h with h | ⟨h, h'⟩ | ⟨h, h'⟩
        · exact Or.inl ⟨a, ha, h⟩
        · exact Or.inr (Or.inr ⟨h', a, ha, h⟩)
        · exact Or.inr (Or.inl ⟨h', a, ha, h⟩)
    by_cases hin : i.name ∈ m.map (·.1.name)
    · have : fillIndices m k (i :: is) = none := by
        rcases hcond.2 hin with h | h
        · simp only [fillIndices]; rw [if_pos h]
        · simp only [fillIndices]
          by_cases h' : (m.lookup i).isSome
          · rw [if_pos h']
          · rw [if_neg h', if_pos h]
      rw [this]
      simp only [Option.isSome_none, Bool.false_eq_true, false_iff, not_and]
      intro _ h
      exact h i (by simp) hin
    · have hn := mt hcond.1 hin
      rw [not_or] at hn
      have : fillIndices m k (i :: is) = fillIndices ((i, k) :: m) (k + 1) is := by
        simp only [fillIndices]; rw [if_neg hn.1, if_neg hn.2]
      rw [this, ih _ _ (by simpa using ⟨by simpa using hin, hm⟩)]
      simp only [List.map_cons, List.nodup_cons, List.mem_cons, List.mem_map, not_or] at *
      constructor
      · rintro ⟨h1, h2⟩
        refine ⟨⟨?_, h1⟩, ?_⟩
        · rintro ⟨j, hj, h⟩; exact (h2 j hj).1 h
        · rintro j (rfl | hj)
          · exact hin
          · exact (h2 j hj).2
      · rintro ⟨⟨h1, h2⟩, h3⟩
        exact ⟨h2, fun j hj => ⟨fun h => h1 ⟨j, hj, h⟩, h3 j (Or.inr hj)⟩⟩

theorem fill_contents (is : List Isa) : ∀ (m m' : List (Isa × Nat)) (k : Nat), fillIndices m k is = some m' →
    ∀ i n, (i, n) ∈ m' ↔ (i, n) ∈ m ∨ ∃ d, is[d]? = some i ∧ n = k + d := by
  induction is with
  | nil => intro m m' k h i n; simp [fillIndices] at h; subst h; simp
  | cons a is ih =>
    intro m m' k h i n
    simp only [fillIndices] at h
    by_cases h1 : (m.lookup a).isSome
    · rw [if_pos h1] at h; cases h
    rw [if_neg h1] at h
    by_cases h2 : (a = .sse42 ∧ (m.lookup .sse41).isSome) ∨ (a = .sse41 ∧ (m.lookup .sse42).isSome)
    · rw [if_pos h2] at h; cases h
    rw [if_neg h2] at h
    rw [ih _ _ _ h i n]
    simp only [List.mem_cons, Prod.mk.injEq]
    constructor
    · rintro ((⟨rfl, rfl⟩ | h) | ⟨d, hd, rfl⟩)
      · exact Or.inr ⟨0, by simp, by simp⟩
      · exact Or.inl h
      · exact Or.inr ⟨d + 1, by simpa using hd, by omega⟩
    · rintro (h | ⟨d, hd, rfl⟩)
      · exact Or.inl (Or.inr h)
      · cases d with
        | zero => left; left; simpa [eq_comm] using hd
        | succ d => right; exact ⟨d, by simpa using hd, by omega⟩

theorem lookup_mem (m : List (Isa × Nat)) (i : Isa) (k : Nat) (h : m.lookup i = some k) : (i, k) ∈ m := by
  induction m with
  | nil => cases h
  | cons x m ih =>
    obtain ⟨a, n⟩ := x
    by_cases hi : i = a
    · subst hi; simp [List.lookup] at h; simp [h]
    · have : (i == a) = false := by simpa using hi
      simp only [List.lookup, this] at h
      exact List.mem_cons_of_mem _ (ih h)

theorem all_complete (i : Isa) : i ∈ Isa.all := by cases i <;> decide +kernel

/-- **A list of targets is accepted exactly when there are some, and no two of them share the name that their files
    have.** -/
theorem check_accepts (is : List Isa) : (checkIsas is).isSome ↔ is ≠ [] ∧ (is.map Isa.name).Nodup := by
  have hs := fill_spec is [] 0 (by simp)
  simp only [List.map_nil, List.not_mem_nil, not_false_eq_true, implies_true, and_true] at hs
  unfold checkIsas
  cases h : fillIndices [] 0 is with
  | none =>
    rw [h] at hs
    simp only [Option.isSome_none, Bool.false_eq_true, false_iff] at hs ⊢
    exact fun hh => hs hh.2
  | some m =>
    rw [h] at hs
    simp only [Option.isSome_some, true_iff] at hs
    have hc := fill_contents is _ _ _ h
    simp only [List.findSome?_isSome_iff, Option.isSome_map]
    constructor
    · rintro ⟨i, -, hi⟩
      refine ⟨?_, hs⟩
      rintro rfl
      rw [lookup_isSome] at hi
      obtain ⟨⟨a, n⟩, ha, -⟩ := List.mem_map.1 hi
      have := (hc a n).1 ha
      simp at this
    · rintro ⟨hne, -⟩
      cases is with
      | nil => exact absurd rfl hne
      | cons a is =>
        refine ⟨a, all_complete a, ?_⟩
        rw [lookup_isSome]
        exact List.mem_map.2 ⟨(a, 0), (hc a 0).2 (Or.inr ⟨0, by simp, by simp⟩), rfl⟩

example : (checkIsas [.avx2, .sse42, .skx]).isSome ∧ ¬ (checkIsas [.sse41, .sse42]).isSome := by decide +kernel

/-- **The common instruction set is the first of those in the list, and the index is its place.** -/
theorem check_lowest (is : List Isa) (i : Isa) (k : Nat) (h : checkIsas is = some (i, k)) :
    is[k]? = some i ∧ ∀ j ∈ is, Isa.all.idxOf i ≤ Isa.all.idxOf j := by
  unfold checkIsas at h
  cases hf : fillIndices [] 0 is with
  | none => rw [hf] at h; cases h
  | some m =>
    rw [hf] at h
    have hc := fill_contents is _ _ _ hf
    obtain ⟨l1, a, l2, hl, ha, hno⟩ := List.findSome?_eq_some_iff.1 h
    obtain ⟨n, hn, hk⟩ := Option.map_eq_some_iff.1 ha
    simp only [Prod.mk.injEq] at hk
    obtain ⟨rfl, rfl⟩ := hk
    have hmem := (hc _ _).1 (lookup_mem m _ _ hn)
    simp only [List.not_mem_nil, false_or, Nat.zero_add] at hmem
    obtain ⟨d, hd, rfl⟩ := hmem
    refine ⟨hd, ?_⟩
    intro j hj
    obtain ⟨e, he⟩ := List.getElem?_of_mem hj
    have hjm : (j, 0 + e) ∈ m := (hc _ _).2 (Or.inr ⟨e, he, rfl⟩)
    have hjl : j ∉ l1 := by
      intro hin
      have := hno j hin
      have hs : (m.lookup j).isSome := (lookup_isSome m j).2 (List.mem_map.2 ⟨_, hjm, rfl⟩)
      rw [Option.map_eq_none_iff] at this
      rw [this] at hs; cases hs
    rw [hl]
    have hal : a ∉ l1 := by
      intro hin
      have := hno a hin
      rw [Option.map_eq_none_iff, hn] at this; cases this
    rw [List.idxOf_append_of_notMem hal, List.idxOf_append_of_notMem hjl]
    simp

example : checkIsas [.avx2, .sse42, .skx] = some (.sse42, 1) := by decide +kernel

/-! ## The files of several targets -/

theorem mem_writeIf (p : Path) (w : What) (x : Dest × What) : x ∈ writeIf p w ↔ p ≠ [] ∧ x = (.file p, w) := by
  unfold writeIf
  split_ifs with h <;> simp [h]

theorem mem_target_writes (o : Output) (isa src : Path) (k : Nat) (deps : List Path) (x : Dest × What) :
    x ∈ writeOutputFiles (targetOutput o isa) src k deps ↔
      (o.out ≠ [] ∧ x = (.file (mangle o.out isa), .code k)) ∨
      (o.header ≠ [] ∧ x = (.file (mangle o.header isa), .header k)) ∨
      (o.nbWrap ≠ [] ∧ x = (.file o.nbWrap, .wrapper k)) := by
  simp only [writeOutputFiles, List.mem_append, mem_writeIf, writeDeps, targetOutput]
  have h1 : ∀ q : Path, ((if q ≠ [] then mangle q isa else q) ≠ []) ↔ q ≠ [] := by
    intro q; by_cases h : q = [] <;> simp [h, mangle_ne_nil]
  rw [h1, h1]
  by_cases ho : o.out = [] <;> by_cases hh : o.header = [] <;> simp [ho, hh, or_assoc]

theorem mem_loop (o : Output) (src : Path) (cs : List Comp) : ∀ k, (compileLoop o src k cs).2 = true → ∀ x,
    (x ∈ (compileLoop o src k cs).1 ↔ ∃ n c i, cs[n]? = some c ∧ isaOf c.target = some i ∧
      x ∈ writeOutputFiles (targetOutput o i.name) src (k + n) (depsOf c.seen)) := by
  induction cs with
  | nil => intro k _ x; simp [compileLoop]
  | cons c cs ih =>
    intro k h x
    cases hi : isaOf c.target with
    | none => simp [compileLoop, hi] at h
    | some i =>
      by_cases ho : c.ok = true
      · simp only [compileLoop, hi, ho, if_true] at h ⊢
        rw [List.mem_append, ih (k + 1) h x]
        constructor
        · rintro (hx | ⟨n, c', i', h1, h2, h3⟩)
          · exact ⟨0, c, i, by simp, hi, by simpa using hx⟩
          · exact ⟨n + 1, c', i', by simpa using h1, h2, by
              rw [show k + (n + 1) = k + 1 + n by omega]; exact h3⟩
        · rintro ⟨n, c', i', h1, h2, h3⟩
          cases n with
          | zero =>
            simp only [List.getElem?_cons_zero, Option.some.injEq] at h1
            subst h1
            rw [hi] at h2; cases h2
            left; simpa using h3
          | succ n =>
            right
            exact ⟨n, c', i', by simpa using h1, h2, by
              rw [show k + 1 + n = k + (n + 1) by omega]; exact h3⟩
      · simp [compileLoop, hi, ho] at h

theorem loop_ok (o : Output) (src : Path) (cs : List Comp) : ∀ k, (compileLoop o src k cs).2 = true ↔
    ∀ c ∈ cs, c.ok = true ∧ (isaOf c.target).isSome := by
  induction cs with
  | nil => intro k; simp [compileLoop]
  | cons c cs ih =>
    intro k
    cases hi : isaOf c.target with
    | none => simp [compileLoop, hi]
    | some i =>
      by_cases ho : c.ok = true
      · simp [compileLoop, hi, ho, ih (k + 1)]
      · simp [compileLoop, hi, ho]

theorem isas_get (cs : List Comp) (h : ∀ c ∈ cs, (isaOf c.target).isSome) : ∀ (k : Nat) (i : Isa),
    ((cs.filterMap fun c => isaOf c.target)[k]? = some i ↔ ∃ c, cs[k]? = some c ∧ isaOf c.target = some i) := by
  induction cs with
  | nil => intro k i; simp
  | cons c cs ih =>
    intro k i
    obtain ⟨j, hj⟩ := Option.isSome_iff_exists.1 (h c (by simp))
    rw [List.filterMap_cons_some (f := fun c : Comp => isaOf c.target) hj]
    cases k with
    | zero => simp [hj]
    | succ k => simpa using ih (fun c hc => h c (by simp [hc])) k i

theorem compile_parts (o : Output) (src : Path) (cpu : Bool) (cs : List Comp) (ws : Writes)
    (h : compileMultiple o src cpu cs = (ws, true)) :
    (compileLoop o src 0 cs).2 = true ∧ ∃ i k, checkIsas (cs.filterMap fun c => isaOf c.target) = some (i, k) ∧
      ws = (compileLoop o src 0 cs).1 ++ (generateDispatch o src cs).1 := by
  unfold compileMultiple at h
  by_cases h0 : src = ['-'] ∨ cpu = true ∨ o.out = ['-']
  · rw [if_pos h0] at h; cases h
  rw [if_neg h0] at h
  dsimp only at h
  by_cases h1 : (compileLoop o src 0 cs).2 = true
  · rw [if_pos h1] at h
    injection h with h2 h3
    refine ⟨h1, ?_⟩
    cases hc : checkIsas (cs.filterMap fun c => isaOf c.target) with
    | none => simp [generateDispatch, hc] at h3
    | some p => exact ⟨p.1, p.2, rfl, h2.symm⟩
  · rw [if_neg h1] at h
    rw [h] at h1; exact absurd rfl h1

/-- **A compilation for several targets succeeds exactly when the source is a file, no processor is named, the output
    is not the terminal, every target compiles, and no two targets would write the same file.** -/
theorem multi_succeeds (o : Output) (src : Path) (cpu : Bool) (cs : List Comp) :
    (compileMultiple o src cpu cs).2 = true ↔
      src ≠ ['-'] ∧ cpu = false ∧ o.out ≠ ['-'] ∧ cs ≠ [] ∧ (∀ c ∈ cs, c.ok = true ∧ (isaOf c.target).isSome) ∧
        (cs.map fun c => (isaOf c.target).map Isa.name).Nodup := by
  have hmap : (∀ c ∈ cs, c.ok = true ∧ (isaOf c.target).isSome) →
      (cs.map fun c => (isaOf c.target).map Isa.name) = ((cs.filterMap fun c => isaOf c.target).map Isa.name).map some ∧
      ((cs.filterMap fun c => isaOf c.target) = [] ↔ cs = []) := by
    intro hok
    induction cs with
    | nil => simp
    | cons c cs ih =>
      obtain ⟨i, hi⟩ := Option.isSome_iff_exists.1 (hok c (by simp)).2
      rw [List.filterMap_cons_some (f := fun c : Comp => isaOf c.target) hi]
      refine ⟨?_, by simp⟩
      simp only [List.map_cons, hi, Option.map_some, List.cons.injEq, true_and]
      exact (ih (fun c hc => hok c (by simp [hc]))).1
  unfold compileMultiple
  by_cases h0 : src = ['-'] ∨ cpu = true ∨ o.out = ['-']
  · rw [if_pos h0]
    constructor
    · intro h; cases h
    · rintro ⟨h1, h2, h3, -⟩
      rcases h0 with h | h | h
      · exact absurd h h1
      · rw [h] at h2; cases h2
      · exact absurd h h3
  rw [if_neg h0]
  simp only [not_or, Bool.not_eq_true] at h0
  dsimp only
  by_cases h1 : (compileLoop o src 0 cs).2 = true
  · rw [if_pos h1]
    have hok := (loop_ok o src cs 0).1 h1
    obtain ⟨e1, e2⟩ := hmap hok
    have hca := check_accepts (cs.filterMap fun c => isaOf c.target)
    have hnd : (cs.map fun c => (isaOf c.target).map Isa.name).Nodup ↔
        ((cs.filterMap fun c => isaOf c.target).map Isa.name).Nodup := by
      rw [e1]; exact ⟨List.Nodup.of_map _, fun h => h.map (fun a b h => Option.some.inj h)⟩
    have hd : (generateDispatch o src cs).2 = (checkIsas (cs.filterMap fun c => isaOf c.target)).isSome := by
      unfold generateDispatch
      cases checkIsas (cs.filterMap fun c => isaOf c.target) with
      | none => rfl
      | some p => rfl
    rw [hd, hca, hnd, Ne, e2]
    exact ⟨fun h => ⟨h0.1, h0.2.1, h0.2.2, h.1, hok, h.2⟩, fun h => ⟨h.2.2.2.1, h.2.2.2.2.2⟩⟩
  · rw [if_neg h1]
    constructor
    · intro h; exact absurd h h1
    · rintro ⟨-, -, -, -, h, -⟩
      exact absurd ((loop_ok o src cs 0).2 h) h1

/-- **What a successful compilation for several targets leaves.** Every target has its object file and its header, under
    the name asked for with the name of the instruction set; the file and the header asked for dispatch; the
    dependencies are those of a target whose instruction set is the lowest. Nothing else is written besides the
    wrapper, and no file is written twice with different contents. -/
theorem multi_files_partial (o : Output) (src : Path) (cpu : Bool) (cs : List Comp) (ws : Writes)
    (h : compileMultiple o src cpu cs = (ws, true)) (hsep : Separate o) :
    (∀ (k : Nat) c, cs[k]? = some c → ∃ i, isaOf c.target = some i ∧
      (o.out ≠ [] → Holds ws (mangle o.out i.name) (.code k)) ∧
      (o.header ≠ [] → Holds ws (mangle o.header i.name) (.header k))) ∧
    (o.out ≠ [] → Holds ws o.out .dispatchCode) ∧
    (o.header ≠ [] → Holds ws o.header .dispatchHeader) ∧
    (o.deps ≠ [] → ∃ c ∈ cs, (∀ d ∈ cs, ∀ i j, isaOf c.target = some i → isaOf d.target = some j →
        Isa.all.idxOf i ≤ Isa.all.idxOf j) ∧ Holds ws o.deps (.deps (depsText o src (depsOf c.seen)))) ∧
    (∀ p w, (Dest.file p, w) ∈ ws → p ∈ requested o ∨
      ∃ c ∈ cs, ∃ i, isaOf c.target = some i ∧ (p = mangle o.out i.name ∨ p = mangle o.header i.name)) := by
  obtain ⟨h1, ci, ck, hchk, hws⟩ := compile_parts o src cpu cs ws h
  have hok := (loop_ok o src cs 0).1 h1
  have hget := isas_get cs (fun c hc => (hok c hc).2)
  have hlow := check_lowest _ _ _ hchk
  have hnd : ((cs.filterMap fun c => isaOf c.target).map Isa.name).Nodup :=
    ((check_accepts _).1 (by rw [hchk]; rfl)).2
  obtain ⟨cc, hcc, hcci⟩ := (hget ck ci).1 hlow.1
  have hdisp : (generateDispatch o src cs).1 = writeIf o.header .dispatchHeader ++ writeIf o.out .dispatchCode ++
      writeDeps o src (depsOf cc.seen) := by
    unfold generateDispatch; rw [hchk]; simp only [hcc]
  -- everything that is written
  have hmem : ∀ x, x ∈ ws ↔
      (∃ (n : Nat) (c : Comp) (i : Isa), cs[n]? = some c ∧ isaOf c.target = some i ∧
        ((o.out ≠ [] ∧ x = (.file (mangle o.out i.name), .code n)) ∨
         (o.header ≠ [] ∧ x = (.file (mangle o.header i.name), .header n)) ∨
         (o.nbWrap ≠ [] ∧ x = (.file o.nbWrap, .wrapper n)))) ∨
      (o.header ≠ [] ∧ x = (.file o.header, .dispatchHeader)) ∨
      (o.out ≠ [] ∧ x = (.file o.out, .dispatchCode)) ∨
      ((o.deps ≠ [] ∨ o.toStdout = true) ∧ x = (depsDest o, .deps (depsText o src (depsOf cc.seen)))) := by
    intro x
    rw [hws, List.mem_append, mem_loop o src cs 0 h1 x, hdisp]
    simp only [List.mem_append, mem_writeIf, mem_target_writes, writeDeps, Nat.zero_add, or_assoc]
    by_cases hd : o.deps ≠ [] ∨ o.toStdout = true
    · rw [if_pos hd]; simp [hd]
    · rw [if_neg hd]; simp [hd]
  have hinj : ∀ (n n' : Nat) (c c' : Comp) (i i' : Isa), cs[n]? = some c → cs[n']? = some c' →
      isaOf c.target = some i → isaOf c'.target = some i' → i.name = i'.name → n = n' := by
    intro n n' c c' i i' h1 h2 h3 h4 h5
    have a := (hget n i).2 ⟨c, h1, h3⟩
    have b := (hget n' i').2 ⟨c', h2, h4⟩
    have a' : ((cs.filterMap fun c => isaOf c.target).map Isa.name)[n]? = some i.name := by simp [a]
    have b' : ((cs.filterMap fun c => isaOf c.target).map Isa.name)[n']? = some i.name := by simp [b, h5]
    have hlt : n < ((cs.filterMap fun c => isaOf c.target).map Isa.name).length := by
      by_contra hh
      rw [List.getElem?_eq_none (by omega)] at a'; cases a'
    exact (List.getElem?_inj hlt hnd).1 (a'.trans b'.symm)
  obtain ⟨hnod, hsp⟩ := hsep
  have rq : ∀ p, p ∈ requested o ↔ (p = o.out ∨ p = o.header ∨ p = o.nbWrap ∨ p = o.deps) ∧ p ≠ [] := by
    intro p; simp [requested]
  have hdiff : (o.out ≠ [] → o.out ≠ o.header ∧ o.out ≠ o.nbWrap ∧ o.out ≠ o.deps) ∧
      (o.header ≠ [] → o.header ≠ o.nbWrap ∧ o.header ≠ o.deps) ∧ (o.nbWrap ≠ [] → o.nbWrap ≠ o.deps) := by
    unfold requested at hnod
    by_cases a : o.out = [] <;> by_cases b : o.header = [] <;> by_cases c : o.nbWrap = [] <;>
      by_cases d : o.deps = [] <;> simp [a, b, c, d] at hnod ⊢ <;> simp_all
  have hdd : o.deps ≠ [] → depsDest o = .file o.deps := fun hd => by simp [depsDest, hd]
  have hdfile : ∀ p, depsDest o = .file p → p = o.deps ∧ o.deps ≠ [] := by
    intro p hp
    unfold depsDest at hp
    by_cases hd : o.deps = []
    · simp [hd] at hp
    · simp [hd] at hp; exact ⟨hp.symm, hd⟩
  have qo : o.out ≠ [] → o.out ∈ requested o := fun h => (rq _).2 ⟨Or.inl rfl, h⟩
  have qh : o.header ≠ [] → o.header ∈ requested o := fun h => (rq _).2 ⟨Or.inr (Or.inl rfl), h⟩
  have qn : o.nbWrap ≠ [] → o.nbWrap ∈ requested o := fun h => (rq _).2 ⟨Or.inr (Or.inr (Or.inl rfl)), h⟩
  have qd : o.deps ≠ [] → o.deps ∈ requested o := fun h => (rq _).2 ⟨Or.inr (Or.inr (Or.inr rfl)), h⟩
  refine ⟨?_, ?_, ?_, ?_, ?_⟩
  · intro k c hk
    obtain ⟨i, hi⟩ := Option.isSome_iff_exists.1 (hok c (List.mem_of_getElem? hk)).2
    refine ⟨i, hi, ?_, ?_⟩
    · intro ho
      refine ⟨(hmem _).2 (Or.inl ⟨k, c, i, hk, hi, Or.inl ⟨ho, rfl⟩⟩), ?_⟩
      intro w' hw'
      rcases (hmem _).1 hw' with ⟨n, c', i', e1, e2, ⟨-, e⟩ | ⟨g, e⟩ | ⟨g, e⟩⟩ | ⟨g, e⟩ | ⟨g, e⟩ | ⟨g, e⟩ <;>
        simp only [Prod.mk.injEq, Dest.file.injEq] at e
      · rw [e.2, hinj n k c' c i' i e1 hk e2 hi (mangle_injective _ _ _ _ e.1).2.symm]
      · exact absurd (mangle_injective _ _ _ _ e.1).1 (hdiff.1 ho).1
      · exact absurd e.1.symm (hsp _ (qn g) _ (qo ho) i)
      · exact absurd e.1.symm (hsp _ (qh g) _ (qo ho) i)
      · exact absurd e.1 (mangle_differs _ _)
      · obtain ⟨e3, e4⟩ := hdfile _ e.1.symm
        exact absurd e3.symm (hsp _ (qd e4) _ (qo ho) i)
    · intro ho
      refine ⟨(hmem _).2 (Or.inl ⟨k, c, i, hk, hi, Or.inr (Or.inl ⟨ho, rfl⟩)⟩), ?_⟩
      intro w' hw'
      rcases (hmem _).1 hw' with ⟨n, c', i', e1, e2, ⟨g, e⟩ | ⟨-, e⟩ | ⟨g, e⟩⟩ | ⟨g, e⟩ | ⟨g, e⟩ | ⟨g, e⟩ <;>
        simp only [Prod.mk.injEq, Dest.file.injEq] at e
      · exact absurd (mangle_injective _ _ _ _ e.1).1.symm (hdiff.1 g).1
      · rw [e.2, hinj n k c' c i' i e1 hk e2 hi (mangle_injective _ _ _ _ e.1).2.symm]
      · exact absurd e.1.symm (hsp _ (qn g) _ (qh ho) i)
      · exact absurd e.1 (mangle_differs _ _)
      · exact absurd e.1.symm (hsp _ (qo g) _ (qh ho) i)
      · obtain ⟨e3, e4⟩ := hdfile _ e.1.symm
        exact absurd e3.symm (hsp _ (qd e4) _ (qh ho) i)
  · intro ho
    refine ⟨(hmem _).2 (Or.inr (Or.inr (Or.inl ⟨ho, rfl⟩))), ?_⟩
    intro w' hw'
    rcases (hmem _).1 hw' with ⟨n, c', i', e1, e2, ⟨g, e⟩ | ⟨g, e⟩ | ⟨g, e⟩⟩ | ⟨g, e⟩ | ⟨g, e⟩ | ⟨g, e⟩ <;>
      simp only [Prod.mk.injEq, Dest.file.injEq] at e
    · exact absurd e.1 (hsp _ (qo ho) _ (qo ho) i')
    · exact absurd e.1 (hsp _ (qo ho) _ (qh g) i')
    · exact absurd e.1 (hdiff.1 ho).2.1
    · exact absurd e.1 (hdiff.1 ho).1
    · exact e.2
    · exact absurd (hdfile _ e.1.symm).1 (hdiff.1 ho).2.2
  · intro ho
    refine ⟨(hmem _).2 (Or.inr (Or.inl ⟨ho, rfl⟩)), ?_⟩
    intro w' hw'
    rcases (hmem _).1 hw' with ⟨n, c', i', e1, e2, ⟨g, e⟩ | ⟨g, e⟩ | ⟨g, e⟩⟩ | ⟨g, e⟩ | ⟨g, e⟩ | ⟨g, e⟩ <;>
      simp only [Prod.mk.injEq, Dest.file.injEq] at e
    · exact absurd e.1 (hsp _ (qh ho) _ (qo g) i')
    · exact absurd e.1 (hsp _ (qh ho) _ (qh ho) i')
    · exact absurd e.1 (hdiff.2.1 ho).1
    · exact e.2
    · exact absurd e.1.symm (hdiff.1 g).1
    · exact absurd (hdfile _ e.1.symm).1 (hdiff.2.1 ho).2
  · intro ho
    refine ⟨cc, List.mem_of_getElem? hcc, ?_, ?_, ?_⟩
    · intro d hd i j hi hj
      rw [hcci] at hi; cases hi
      obtain ⟨n, hn⟩ := List.getElem?_of_mem hd
      exact hlow.2 j (List.mem_of_getElem? ((hget n j).2 ⟨d, hn, hj⟩))
    · rw [← hdd ho]
      exact (hmem _).2 (Or.inr (Or.inr (Or.inr ⟨Or.inl ho, rfl⟩)))
    · intro w' hw'
      rcases (hmem _).1 hw' with ⟨n, c', i', e1, e2, ⟨g, e⟩ | ⟨g, e⟩ | ⟨g, e⟩⟩ | ⟨g, e⟩ | ⟨g, e⟩ | ⟨g, e⟩ <;>
        simp only [Prod.mk.injEq, Dest.file.injEq] at e
      · exact absurd e.1 (hsp _ (qd ho) _ (qo g) i')
      · exact absurd e.1 (hsp _ (qd ho) _ (qh g) i')
      · exact absurd e.1.symm (hdiff.2.2 g)
      · exact absurd e.1.symm (hdiff.2.1 g).2
      · exact absurd e.1.symm (hdiff.1 g).2.2
      · exact e.2
  · intro p w hp
    rcases (hmem _).1 hp with ⟨n, c', i', e1, e2, ⟨g, e⟩ | ⟨g, e⟩ | ⟨g, e⟩⟩ | ⟨g, e⟩ | ⟨g, e⟩ | ⟨g, e⟩ <;>
      simp only [Prod.mk.injEq, Dest.file.injEq] at e
    · exact Or.inr ⟨c', List.mem_of_getElem? e1, i', e2, Or.inl e.1⟩
    · exact Or.inr ⟨c', List.mem_of_getElem? e1, i', e2, Or.inr e.1⟩
    · exact Or.inl (e.1 ▸ qn g)
    · exact Or.inl (e.1 ▸ qh g)
    · exact Or.inl (e.1 ▸ qo g)
    · obtain ⟨e3, e4⟩ := hdfile _ e.1.symm
      exact Or.inl (e3 ▸ qd e4)

/-- **On the terminal there are the dependencies of the lowest target, once, when they were asked for without a
    file; and nothing else.** -/
theorem multi_stdout (o : Output) (src : Path) (cpu : Bool) (cs : List Comp) (ws : Writes)
    (h : compileMultiple o src cpu cs = (ws, true)) :
    ∃ c ∈ cs, (∀ d ∈ cs, ∀ i j, isaOf c.target = some i → isaOf d.target = some j →
        Isa.all.idxOf i ≤ Isa.all.idxOf j) ∧
      ws.filter (·.1 = Dest.stdout) =
        if o.deps = [] ∧ o.toStdout = true then [(.stdout, .deps (depsText o src (depsOf c.seen)))] else [] := by
  obtain ⟨h1, ci, ck, hchk, hws⟩ := compile_parts o src cpu cs ws h
  have hok := (loop_ok o src cs 0).1 h1
  have hget := isas_get cs (fun c hc => (hok c hc).2)
  have hlow := check_lowest _ _ _ hchk
  obtain ⟨cc, hcc, hcci⟩ := (hget ck ci).1 hlow.1
  refine ⟨cc, List.mem_of_getElem? hcc, ?_, ?_⟩
  · intro d hd i j hi hj
    rw [hcci] at hi; cases hi
    obtain ⟨n, hn⟩ := List.getElem?_of_mem hd
    exact hlow.2 j (List.mem_of_getElem? ((hget n j).2 ⟨d, hn, hj⟩))
  · have hl : (compileLoop o src 0 cs).1.filter (·.1 = Dest.stdout) = [] := by
      rw [List.filter_eq_nil_iff]
      intro x hx
      obtain ⟨n, c, i, -, -, hx⟩ := (mem_loop o src cs 0 h1 x).1 hx
      rcases (mem_target_writes _ _ _ _ _ _).1 hx with ⟨-, rfl⟩ | ⟨-, rfl⟩ | ⟨-, rfl⟩ <;> simp
    have hw : ∀ p w, (writeIf p w).filter (·.1 = Dest.stdout) = [] := by
      intro p w; unfold writeIf; split_ifs <;> simp
    have hdisp : (generateDispatch o src cs).1 = writeIf o.header .dispatchHeader ++ writeIf o.out .dispatchCode ++
        writeDeps o src (depsOf cc.seen) := by
      unfold generateDispatch; rw [hchk]; simp only [hcc]
    rw [hws, hdisp, List.filter_append, List.filter_append, List.filter_append, hl, hw, hw]
    simp only [List.nil_append, writeDeps, depsDest]
    by_cases hd : o.deps = [] <;> by_cases ht : o.toStdout = true <;> simp [hd, ht]

/-- Two targets, an object file, a header and a rule for make. -/
def sampleOut : Output :=
  { out := "d/f.o".toList, header := "d/f.h".toList, deps := "d/f.d".toList, makeRule := true }

def sampleComps : List Comp :=
  [⟨.avx2_i32x8, true, ["f.ispc".toList, "wide.isph".toList]⟩, ⟨.sse4_i32x4, true, ["f.ispc".toList, "a.isph".toList]⟩]

theorem sample_separate : Separate sampleOut := by
  constructor
  · decide +kernel
  · intro a ha b hb i
    simp only [requested, sampleOut, List.mem_filter, List.mem_cons, List.not_mem_nil, or_false] at ha hb
    obtain ⟨ha, ha'⟩ := ha
    obtain ⟨hb, hb'⟩ := hb
    rcases ha with rfl | rfl | rfl | rfl <;> first | (exact absurd ha' (by decide)) | skip
    all_goals
      rcases hb with rfl | rfl | rfl | rfl <;> first | (exact absurd hb' (by decide)) | (cases i <;> decide +kernel)

example : (compileMultiple sampleOut "f.ispc".toList false sampleComps).2 = true ∧
    Holds (compileMultiple sampleOut "f.ispc".toList false sampleComps).1 "d/f_sse4.o".toList (.code 1) := by
  have h : compileMultiple sampleOut "f.ispc".toList false sampleComps =
      ((compileMultiple sampleOut "f.ispc".toList false sampleComps).1, true) := by rfl
  refine ⟨rfl, ?_⟩
  obtain ⟨i, hi, ho, -⟩ := (multi_files_partial _ _ _ _ _ h sample_separate).1 1 _ rfl
  cases hi
  exact ho (by decide)

example : (compileMultiple { sampleOut with deps := [], toStdout := true } "f.ispc".toList false sampleComps).2 = true :=
  rfl

/-- **Files that only another target includes are missing from the dependencies.** Here the header `wide.isph` is
    included for `avx2` only. -/
theorem deps_missing_wrong :
    (Dest.file "d/f.d".toList, What.deps "d/f.o: f.ispc \\\n a.isph\n".toList) ∈
      (compileMultiple sampleOut "f.ispc".toList false sampleComps).1 ∧
    (∀ x ∈ (compileMultiple sampleOut "f.ispc".toList false sampleComps).1,
      ∀ t, x.2 = .deps t → t = "d/f.o: f.ispc \\\n a.isph\n".toList) ∧
    ("wide.isph".toList ∈ depsOf (sampleComps.map (·.seen)).flatten) := by
  have e : (compileMultiple sampleOut "f.ispc".toList false sampleComps).1 =
      [(.file "d/f_avx2.o".toList, .code 0), (.file "d/f_avx2.h".toList, .header 0),
       (.file "d/f_sse4.o".toList, .code 1), (.file "d/f_sse4.h".toList, .header 1),
       (.file "d/f.h".toList, .dispatchHeader), (.file "d/f.o".toList, .dispatchCode),
       (.file "d/f.d".toList, .deps "d/f.o: f.ispc \\\n a.isph\n".toList)] := by decide +kernel
  rw [e]
  refine ⟨by simp, ?_, by decide +kernel⟩
  intro x hx t ht
  simp only [List.mem_cons, List.not_mem_nil, or_false] at hx
  rcases hx with rfl | rfl | rfl | rfl | rfl | rfl | rfl <;> simp at ht ⊢ <;> exact ht.symm

/-- **Two variants of an instruction set are rejected only after both have written the same file.** -/
theorem variants_overwrite_wrong :
    compileMultiple { out := "f.o".toList } "f.ispc".toList false
        [⟨.avx2_i32x8, true, []⟩, ⟨.avx2_i32x16, true, []⟩] =
      ([(.file "f_avx2.o".toList, .code 0), (.file "f_avx2.o".toList, .code 1)], false) := by decide +kernel

/-- **Every target writes its wrapper for Python to the same file.** -/
theorem wrapper_overwritten_wrong :
    compileMultiple { nbWrap := "w.cpp".toList } "f.ispc".toList false
        [⟨.avx2_i32x8, true, []⟩, ⟨.sse4_i32x4, true, []⟩] =
      ([(.file "w.cpp".toList, .wrapper 0), (.file "w.cpp".toList, .wrapper 1)], true) := by decide +kernel

/-- A compilation that fails leaves no dispatch code, no dispatch header and no dependencies. -/
theorem failed_leaves (o : Output) (src : Path) (cpu : Bool) (cs : List Comp)
    (h : (compileMultiple o src cpu cs).2 = false) :
    ∀ x ∈ (compileMultiple o src cpu cs).1, x.2 ≠ .dispatchCode ∧ x.2 ≠ .dispatchHeader ∧ ∀ t, x.2 ≠ .deps t := by
  have hloop : ∀ (cs : List Comp) (k : Nat), ∀ x ∈ (compileLoop o src k cs).1,
      x.2 ≠ .dispatchCode ∧ x.2 ≠ .dispatchHeader ∧ ∀ t, x.2 ≠ .deps t := by
    intro cs
    induction cs with
    | nil => intro k x hx; simp [compileLoop] at hx
    | cons c cs ih =>
      intro k x hx
      cases hi : isaOf c.target with
      | none => simp [compileLoop, hi] at hx
      | some i =>
        by_cases ho : c.ok = true
        · simp only [compileLoop, hi, ho, if_true, List.mem_append, mem_target_writes] at hx
          rcases hx with (⟨-, rfl⟩ | ⟨-, rfl⟩ | ⟨-, rfl⟩) | hx
          · simp
          · simp
          · simp
          · exact ih _ x hx
        · simp [compileLoop, hi, ho] at hx
  intro x hx
  unfold compileMultiple at h hx
  by_cases h0 : src = ['-'] ∨ cpu = true ∨ o.out = ['-']
  · rw [if_pos h0] at hx; cases hx
  rw [if_neg h0] at h hx
  dsimp only at h hx
  by_cases h1 : (compileLoop o src 0 cs).2 = true
  · rw [if_pos h1] at h hx
    have : (generateDispatch o src cs).1 = [] := by
      unfold generateDispatch at h ⊢
      cases hc : checkIsas (cs.filterMap fun c => isaOf c.target) with
      | none => rfl
      | some p => rw [hc] at h; cases h
    dsimp only at hx
    rw [this, List.append_nil] at hx
    exact hloop cs 0 x hx
  · rw [if_neg h1] at hx
    exact hloop cs 0 x hx

example : (compileMultiple { out := "f.o".toList } "f.ispc".toList false
    [⟨.avx2_i32x8, true, []⟩, ⟨.sse4_i32x4, false, []⟩]).2 = false := by decide +kernel

/-! ## Dependency files -/

/-- The files that are not listed. -/
def Pseudo (f : Path) : Prop :=
  f.head? = some '<' ∨ f = "stdlib.ispc".toList ∨ f = "/core.isph".toList ∨ f = "/stdlib.isph".toList

/-- **The dependencies are the files seen that are not part of the compiler, each once.** -/
theorem deps_exact (seen : List Path) :
    (depsOf seen).Nodup ∧ ∀ f, f ∈ depsOf seen ↔ f ∈ seen ∧ ¬ Pseudo f := by
  have key : ∀ (seen acc : List Path), acc.Nodup → (seen.foldl register acc).Nodup ∧
      ∀ f, f ∈ seen.foldl register acc ↔ f ∈ acc ∨ (f ∈ seen ∧ ¬ Pseudo f) := by
    intro seen
    induction seen with
    | nil => intro acc h; simp [h]
    | cons a seen ih =>
      intro acc h
      rw [List.foldl_cons]
      by_cases hp : Pseudo a
      · have : register acc a = acc := by
          unfold register; rw [if_neg]; unfold Pseudo at hp
          rintro ⟨h1, h2, h3, h4⟩
          rcases hp with h | h | h | h
          · exact h1 h
          · exact h2 h
          · exact h3 h
          · exact h4 h
        rw [this]
        obtain ⟨i1, i2⟩ := ih acc h
        refine ⟨i1, fun f => ?_⟩
        rw [i2 f]
        simp only [List.mem_cons]
        constructor
        · rintro (h | ⟨h, h'⟩)
          · exact Or.inl h
          · exact Or.inr ⟨Or.inr h, h'⟩
        · rintro (h | ⟨rfl | h, h'⟩)
          · exact Or.inl h
          · exact absurd hp h'
          · exact Or.inr ⟨h, h'⟩
      · have : register acc a = if a ∈ acc then acc else acc ++ [a] := by
          unfold register; rw [if_pos]
          unfold Pseudo at hp
          simpa only [not_or] using hp
        rw [this]
        by_cases hin : a ∈ acc
        · rw [if_pos hin]
          obtain ⟨i1, i2⟩ := ih acc h
          refine ⟨i1, fun f => ?_⟩
          rw [i2 f]
          simp only [List.mem_cons]
          constructor
          · rintro (h | ⟨h, h'⟩)
            · exact Or.inl h
            · exact Or.inr ⟨Or.inr h, h'⟩
          · rintro (h | ⟨rfl | h, h'⟩)
            · exact Or.inl h
            · exact Or.inl hin
            · exact Or.inr ⟨h, h'⟩
        · rw [if_neg hin]
          obtain ⟨i1, i2⟩ := ih (acc ++ [a]) (by
            rw [List.nodup_append]
            refine ⟨h, by simp, ?_⟩
            intro x hx y hy e
            simp only [List.mem_singleton] at hy
            exact hin (hy ▸ e ▸ hx))
          refine ⟨i1, fun f => ?_⟩
          rw [i2 f]
          simp only [List.mem_append, List.mem_cons, List.not_mem_nil, or_false]
          constructor
          · rintro ((h | rfl) | ⟨h, h'⟩)
            · exact Or.inl h
            · exact Or.inr ⟨Or.inl rfl, hp⟩
            · exact Or.inr ⟨Or.inr h, h'⟩
          · rintro (h | ⟨rfl | h, h'⟩)
            · exact Or.inl (Or.inl h)
            · exact Or.inl (Or.inr rfl)
            · exact Or.inr ⟨h, h'⟩
  have := key seen [] (by simp)
  simpa [depsOf] using this

example : depsOf ["a.ispc".toList, "<built-in>".toList, "b.isph".toList, "a.ispc".toList] =
    ["a.ispc".toList, "b.isph".toList] := by decide +kernel

/-- **A file of the user that is called `stdlib.ispc` is not listed.** -/
theorem stdlib_name_wrong : depsOf ["stdlib.ispc".toList] = [] := by decide +kernel

/-- **The names that the preprocessor prints are read back**, whatever backslashes are in them. -/
theorem unescape_escape (p : Path) : unescape (escape p) = p := by
  induction p with
  | nil => rfl
  | cons c r ih =>
    by_cases hc : c = '\\'
    · subst hc
      have : escape ('\\' :: r) = '\\' :: '\\' :: escape r := by simp [escape]
      rw [this]
      simp [unescape, escapeOf, ih]
    · have h1 : escape (c :: r) = c :: escape r := by simp [escape, hc]
      rw [h1]
      cases hr : escape r with
      | nil => rw [hr] at ih; rw [← ih]; rfl
      | cons d s => rw [hr] at ih; simp [unescape, hc, ih]

theorem joinLines_name (n rest : List Char) (h1 : '\n' ∉ n) (h2 : n.getLast? ≠ some '\\') :
    joinLines (n ++ rest) = n ++ joinLines rest := by
  induction n with
  | nil => rfl
  | cons c n ih =>
    cases n with
    | nil =>
      have hc : c ≠ '\\' := by simpa using h2
      cases rest with
      | nil => rfl
      | cons d r => simp [joinLines, hc]
    | cons d n =>
      have hd : d ≠ '\n' := by simp at h1; exact fun e => h1.2.1 e.symm
      have := ih (by simp at h1 ⊢; exact h1.2) (by simpa [List.getLast?_cons_cons] using h2)
      rw [List.cons_append, List.cons_append, joinLines, if_neg (by simp [hd]), ← List.cons_append, this]
      simp

theorem words_name (n cur rest : List Char) (h1 : ' ' ∉ n) (h2 : '\n' ∉ n) :
    words cur (n ++ rest) = words (cur ++ n) rest := by
  induction n generalizing cur with
  | nil => simp
  | cons c n ih =>
    simp only [List.mem_cons, not_or] at h1 h2
    rw [List.cons_append, words, if_neg (by
      rintro (e | e)
      · exact h1.1 e.symm
      · exact h2.1 e.symm), ih _ h1.2 h2.2]
    simp

theorem words_blank (n rest : List Char) (h : n ≠ []) (c : Char) (hc : c = ' ' ∨ c = '\n') :
    words n (c :: rest) = n :: words [] rest := by
  rw [words, if_pos hc, if_neg h]

/-- **Make reads the rule as intended**: the target, then the source, then every other dependency once, under the
    names of the files, if make reads each name as one word. -/
theorem rule_reads_partial (o : Output) (src : Path) (files : List Path) (ho : o.makeRule = true)
    (hs : src ≠ ['-']) (ht : ':' ∉ depsTargetName o src) (hcs : Clean src) (hf : ∀ f ∈ files, Clean f) :
    readRule (depsText o src (files.map escape)) =
      (depsTargetName o src, src :: files.filter (· ≠ src)) := by
  have htext : depsText o src (files.map escape) = depsTargetName o src ++ ':' :: (' ' :: src ++
      ((files.filter (· ≠ src)).map fun f => ' ' :: '\\' :: '\n' :: ' ' :: f).flatten ++ ['\n']) := by
    simp only [depsText, ho, if_true, ne_eq, hs, not_false_eq_true, List.append_assoc, List.cons_append]
    congr 4
    congr 1
    clear ht hf
    induction files with
    | nil => rfl
    | cons f files ih =>
      simp only [List.map_cons, List.flatten_cons, ih, ruleEntry, unescape_escape, ne_eq, hs, not_false_eq_true,
        true_and]
      by_cases hfs : f = src
      · simp [hfs]
      · have : ¬ src = f := fun e => hfs e.symm
        simp [hfs, this]
  have hw : ∀ (fs : List Path), (∀ f ∈ fs, Clean f) → ∀ cur : Path, cur ≠ [] →
      words cur (joinLines ((fs.map fun f => ' ' :: '\\' :: '\n' :: ' ' :: f).flatten ++ ['\n'])) = cur :: fs := by
    intro fs
    induction fs with
    | nil => intro _ cur hcur; simp [joinLines, words, hcur]
    | cons f fs ih =>
      intro hfs cur hcur
      obtain ⟨c1, c2, c3, c4⟩ := hfs f (by simp)
      simp only [List.map_cons, List.flatten_cons, List.cons_append, List.append_assoc]
      rw [joinLines, if_neg (by simp), joinLines, if_pos ⟨rfl, rfl⟩]
      rw [words_blank _ _ hcur _ (Or.inl rfl)]
      have h5 : joinLines (' ' :: (f ++ ((fs.map fun f => ' ' :: '\\' :: '\n' :: ' ' :: f).flatten ++ ['\n']))) =
          ' ' :: (f ++ joinLines ((fs.map fun f => ' ' :: '\\' :: '\n' :: ' ' :: f).flatten ++ ['\n'])) := by
        rw [← List.cons_append, joinLines_name (' ' :: f) _ (by simp [c3])]
        · simp
        · cases f with
          | nil => exact absurd rfl c1
          | cons a f => rw [List.getLast?_cons_cons]; exact c4
      rw [h5]
      rw [words, if_pos (Or.inl rfl), if_pos rfl, words, if_pos (Or.inl rfl), if_pos rfl, words_name _ _ _ c2 c3,
        List.nil_append, ih (fun g hg => hfs g (by simp [hg])) f c1]
  obtain ⟨c1, c2, c3, c4⟩ := hcs
  have htw : ∀ (a r : List Char), ':' ∉ a → (a ++ ':' :: r).takeWhile (· ≠ ':') = a ∧
      (a ++ ':' :: r).dropWhile (· ≠ ':') = ':' :: r := by
    intro a r ha
    induction a with
    | nil => simp
    | cons c a ih =>
      simp only [List.mem_cons, not_or] at ha
      have hc : c ≠ ':' := fun e => ha.1 e.symm
      have := ih ha.2
      simp [hc] at this ⊢
      exact this
  obtain ⟨e1, e2⟩ := htw (depsTargetName o src) (' ' :: src ++
      ((files.filter (· ≠ src)).map fun f => ' ' :: '\\' :: '\n' :: ' ' :: f).flatten ++ ['\n']) ht
  unfold readRule
  rw [htext, e1, e2, List.tail_cons]
  congr 1
  rw [List.append_assoc, joinLines_name (' ' :: src) _ (by simp [c3])]
  · rw [List.cons_append, words, if_pos (Or.inl rfl), if_pos rfl, words_name _ _ _ c2 c3, List.nil_append,
      hw _ (fun f hf' => hf f (List.mem_filter.1 hf').1) src c1]
  · cases src with
    | nil => exact absurd rfl c1
    | cons a f => rw [List.getLast?_cons_cons]; exact c4

example : readRule (depsText { out := "f.o".toList, makeRule := true } "f.ispc".toList
    (["f.ispc".toList, "d\\a.isph".toList].map escape)) =
      ("f.o".toList, ["f.ispc".toList, "d\\a.isph".toList]) := by
  refine (rule_reads_partial _ _ _ rfl (by decide) (by decide +kernel) ?_ ?_).trans (by decide +kernel)
  · refine ⟨by decide, ?_, ?_, ?_⟩ <;> decide +kernel
  · intro f hf
    simp only [List.mem_cons, List.not_mem_nil, or_false] at hf
    rcases hf with rfl | rfl <;> refine ⟨by decide, ?_, ?_, ?_⟩ <;> decide +kernel

/-- **A blank in a name makes two files of it.** -/
theorem rule_blank_wrong :
    readRule (depsText { out := "f.o".toList, makeRule := true } "f.ispc".toList ["my file.isph".toList]) =
      ("f.o".toList, ["f.ispc".toList, "my".toList, "file.isph".toList]) := by decide +kernel

/-- The plain list has a line for each dependency, as the preprocessor prints it. -/
theorem flat_lines (o : Output) (src : Path) (deps : List Path) (ho : o.makeRule = false)
    (hd : ∀ f ∈ deps, ' ' ∉ f ∧ '\n' ∉ f ∧ f ≠ []) : words [] (depsText o src deps) = deps := by
  simp only [depsText, ho, Bool.false_eq_true, if_false]
  induction deps with
  | nil => simp [words]
  | cons f fs ih =>
    obtain ⟨h1, h2, h3⟩ := hd f (by simp)
    simp only [List.map_cons, List.flatten_cons, List.append_assoc, List.cons_append, List.nil_append]
    rw [words_name _ _ _ h1 h2, List.nil_append, words_blank _ _ h3 _ (Or.inr rfl),
      ih (fun g hg => hd g (by simp [hg]))]

example : words [] (depsText {} "f.ispc".toList ["f.ispc".toList, "a.isph".toList]) =
    ["f.ispc".toList, "a.isph".toList] := by decide +kernel

/-- **The plain list leaves the backslashes of a name doubled.** -/
theorem flat_escaped_wrong :
    depsText {} "f.ispc".toList [escape "d\\a.isph".toList] = "d\\\\a.isph\n".toList := by decide +kernel

/-- **With both `-M` and `-MMM` a rule is written, though the warning says that `-MMM` takes precedence.** -/
theorem both_formats_wrong : settleDeps true true = (false, true) ∧
    depsText { out := "f.o".toList, makeRule := (settleDeps true true).2 } "f.ispc".toList [] =
      "f.o: f.ispc\n".toList := by decide +kernel

/-- **The target of the rule**: as asked for, else the output, else the source with the suffix of an object file. -/
theorem deps_target (o : Output) (src : Path) :
    (o.depsTarget ≠ [] → depsTargetName o src = o.depsTarget) ∧
    (o.depsTarget = [] → o.out ≠ [] → depsTargetName o src = o.out) ∧
    (o.depsTarget = [] → o.out = [] → ∀ a e, src = a ++ '.' :: e → '.' ∉ e → depsTargetName o src = a ++ ".o".toList) ∧
    (o.depsTarget = [] → o.out = [] → src ≠ ['-'] → '.' ∉ src → depsTargetName o src = src ++ ".o".toList) := by
  refine ⟨fun h => by simp [depsTargetName, h], fun h h' => by simp [depsTargetName, h, h'], ?_, ?_⟩
  · rintro h h' a e rfl he
    have : a ++ '.' :: e ≠ ['-'] := by
      intro hh
      have : '.' ∈ ['-'] := by rw [← hh]; simp
      exact absurd this (by decide)
    simp [depsTargetName, h, h', this, lastDot_split a e he]
  · intro h h' hs hd
    simp [depsTargetName, h, h', hs, (lastDot_none src).2 hd]

example : depsTargetName {} "d/f.ispc".toList = "d/f.o".toList := by decide +kernel

/-- **A dot in a directory is taken for the suffix of a source without one.** -/
theorem deps_target_wrong : depsTargetName {} "../d/f".toList = "..o".toList := by decide +kernel

end Ispc.OutFiles
