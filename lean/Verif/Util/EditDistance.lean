import Mathlib.Data.List.Basic
import Mathlib.Tactic.Common
import Mathlib.Tactic.IntervalCases

/-!
# C37: the edit distance behind "did you mean"

`StringEditDistance` and `MatchStrings` of `src/util.cpp`.  Strings are lists over any alphabet; the `int`
arithmetic is over the naturals, which is right for strings shorter than 2^31 and a bound `maxDist ≥ 0` (the
callers pass 3).
-/

namespace Ispc.EditDistance

variable {α : Type} [DecidableEq α]
set_option linter.unusedSectionVars false

/-! ## Specification -/

/-- One edit: insert, delete or replace a character anywhere. -/
inductive Edit : List α → List α → Prop
  | ins (p q : List α) (c : α) : Edit (p ++ q) (p ++ c :: q)
  | del (p q : List α) (c : α) : Edit (p ++ c :: q) (p ++ q)
  | rep (p q : List α) (c d : α) : Edit (p ++ c :: q) (p ++ d :: q)

/-- `Edits n s t`: `n` edits turn `s` into `t`. -/
inductive Edits : Nat → List α → List α → Prop
  | done (s : List α) : Edits 0 s s
  | more {n : Nat} {s t u : List α} : Edit s t → Edits n t u → Edits (n + 1) s u

/-- `d` is the least number of edits that turn `s` into `t`. -/
def IsDistance (s t : List α) (d : Nat) : Prop := Edits d s t ∧ ∀ n, Edits n s t → d ≤ n

/-! ## Model -/

/-- `f[i] = v`. -/
def set (f : Nat → Nat) (i v : Nat) : Nat → Nat := fun j => if j = i then v else f j

/-- The inner loop (src/util.cpp:500-504), from column `x` on, for `k` columns. -/
def row (c : α) (s2 : List α) (prev : Nat → Nat) : Nat → Nat → (Nat → Nat) × Nat → (Nat → Nat) × Nat
  | 0, _, cb => cb
  | k + 1, x, (cur, best) =>
    let v := min (prev (x - 1) + (if some c = s2[x - 1]? then 0 else 1)) (min (cur (x - 1)) (prev x) + 1)
    row c s2 prev k (x + 1) (set cur x v, min best v)

/-- The outer loop (src/util.cpp:496-511): `rest` are the characters of `str1` not yet used, `y` the number of
    the next row; `prev` and `cur` are the two arrays, which change roles after each row. -/
def rows (s2 : List α) (maxDist : Nat) : List α → Nat → (Nat → Nat) → (Nat → Nat) → Nat
  | [], _, prev, _ => prev s2.length
  | c :: rest, y, prev, cur =>
    let r := row c s2 prev s2.length 1 (set cur 0 y, y)
    if maxDist ≠ 0 ∧ r.2 > maxDist then maxDist + 1 else rows s2 maxDist rest (y + 1) r.1 prev

/-- Filling `previous` (src/util.cpp:492-494); `junk` is what `alloca` left there. -/
def fill (junk : Nat → Nat) : Nat → Nat → (Nat → Nat)
  | 0, _ => junk
  | k + 1, i => set (fill junk k (i + 1)) i i

/-- `StringEditDistance` (src/util.cpp:478-514); `junk1`, `junk2` are the initial contents of the arrays. -/
def stringEditDistance (junk1 junk2 : Nat → Nat) (s1 s2 : List α) (maxDist : Nat) : Nat :=
  if s1 = s2 then maxDist else rows s2 maxDist s1 1 (fill junk1 (s2.length + 1) 0) junk2

/-- `MatchStrings` (src/util.cpp:516-543), with `maxDelta = 2`. -/
def matchStrings (alpha : α → Bool) (junk1 junk2 : Nat → Nat) (str : List α) (options : List (List α)) :
    List (List α) :=
  match str with
  | [] => []
  | c :: cs =>
    if cs = [] ∧ !alpha c then [] else
    let matches_ := fun d => options.filter fun o => stringEditDistance junk1 junk2 str o (2 + 1) = d
    if matches_ 0 ≠ [] then matches_ 0
    else if matches_ 1 ≠ [] then matches_ 1
    else if matches_ 2 ≠ [] then matches_ 2
    else []

/-! ## The recursive distance -/

/-- Levenshtein distance by recursion on the first characters. -/
def lev : List α → List α → Nat
  | [], t => t.length
  | s, [] => s.length
  | a :: s, b :: t => min (lev s t + (if a = b then 0 else 1)) (min (lev (a :: s) t) (lev s (b :: t)) + 1)
termination_by s t => s.length + t.length

@[simp] theorem lev_nil_left (t : List α) : lev [] t = t.length := by cases t <;> simp [lev]
@[simp] theorem lev_nil_right (s : List α) : lev s [] = s.length := by cases s <;> simp [lev]
theorem lev_cons (a b : α) (s t : List α) : lev (a :: s) (b :: t) =
    min (lev s t + (if a = b then 0 else 1)) (min (lev (a :: s) t) (lev s (b :: t)) + 1) := by
  rw [lev]

theorem lev_self (s : List α) : lev s s = 0 := by
  induction s with
  | nil => simp
  | cons a s ih => simp [lev_cons, ih]

theorem lev_comm (s t : List α) : lev s t = lev t s := by
  induction s generalizing t with
  | nil => simp
  | cons a s ih =>
    induction t with
    | nil => simp
    | cons b t iht =>
      rw [lev_cons, lev_cons, ih t, iht, ih (b :: t)]
      have : (if a = b then 0 else 1) = if b = a then 0 else 1 := by simp [eq_comm]
      omega

/-- Adding a character in front costs at most one. -/
theorem lev_cons_le (a : α) (s t : List α) : lev (a :: s) t ≤ lev s t + 1 := by
  cases t with
  | nil => simp
  | cons b t => rw [lev_cons]; omega

theorem lev_cons_right_le (a : α) (s t : List α) : lev s (a :: t) ≤ lev s t + 1 := by
  rw [lev_comm, lev_comm s t]; exact lev_cons_le a t s

/-- And removing it too. -/
theorem lev_le_cons (a : α) (s t : List α) : lev s t ≤ lev (a :: s) t + 1 := by
  induction t with
  | nil => simp; omega
  | cons b t ih =>
    have h1 := lev_cons_right_le b s t
    rw [lev_cons]
    omega

theorem lev_rep (a b : α) (s t : List α) : lev (a :: s) t ≤ lev (b :: s) t + 1 := by
  induction t with
  | nil => simp
  | cons c t ih =>
    rw [lev_cons, lev_cons]
    split <;> split <;> omega

theorem lev_congr (a : α) (s s' : List α) (h : ∀ t, lev s t ≤ lev s' t + 1) (t : List α) :
    lev (a :: s) t ≤ lev (a :: s') t + 1 := by
  induction t with
  | nil => simpa using h []
  | cons c t ih =>
    rw [lev_cons, lev_cons]
    have h1 := h t
    have h2 := h (c :: t)
    omega

theorem lev_edit {s s' : List α} (h : Edit s s') (t : List α) : lev s t ≤ lev s' t + 1 := by
  have pre : ∀ (p : List α) {s s' : List α}, (∀ t, lev s t ≤ lev s' t + 1) →
      ∀ t, lev (p ++ s) t ≤ lev (p ++ s') t + 1 := by
    intro p
    induction p with
    | nil => intro s s' h; simpa using h
    | cons a p ih => intro s s' h t; exact lev_congr a _ _ (ih h) t
  cases h with
  | ins p q c => exact pre p (fun t => lev_le_cons c q t) t
  | del p q c => exact pre p (fun t => lev_cons_le c q t) t
  | rep p q c d => exact pre p (fun t => lev_rep c d q t) t

/-- No path of edits is shorter than `lev`. -/
theorem lev_le_of_edits {n : Nat} {s t : List α} (h : Edits n s t) : lev s t ≤ n := by
  induction h with
  | done s => rw [lev_self]
  | more h1 _ ih => exact (lev_edit h1 _).trans (by omega)

theorem Edit.cons {s t : List α} (a : α) (h : Edit s t) : Edit (a :: s) (a :: t) := by
  cases h with
  | ins p q c => exact .ins (a :: p) q c
  | del p q c => exact .del (a :: p) q c
  | rep p q c d => exact .rep (a :: p) q c d

theorem Edits.cons {n : Nat} {s t : List α} (a : α) (h : Edits n s t) : Edits n (a :: s) (a :: t) := by
  induction h with
  | done s => exact .done _
  | more h1 _ ih => exact .more (h1.cons a) ih

/-- There is a path of `lev` edits. -/
theorem edits_lev (s t : List α) : Edits (lev s t) s t := by
  induction s generalizing t with
  | nil =>
    induction t with
    | nil => simpa using Edits.done []
    | cons b t ih =>
      simp only [lev_nil_left, List.length_cons] at ih ⊢
      exact .more (.ins [] [] b) (ih.cons b)
  | cons a s ih =>
    induction t with
    | nil =>
      have := ih []
      simp only [lev_nil_right, List.length_cons] at this ⊢
      exact .more (.del [] s a) this
    | cons b t iht =>
      have h1 : Edits (lev s t + if a = b then 0 else 1) (a :: s) (b :: t) := by
        split
        · subst a; exact (ih t).cons b
        · exact .more (.rep [] s a b) ((ih t).cons b)
      have h2 : Edits (lev (a :: s) t + 1) (a :: s) (b :: t) := .more (.ins [] (a :: s) b) (iht.cons b)
      have h3 : Edits (lev s (b :: t) + 1) (a :: s) (b :: t) := .more (.del [] s a) (ih (b :: t))
      rw [lev_cons]
      rcases Nat.le_total (lev s t + if a = b then 0 else 1) (min (lev (a :: s) t) (lev s (b :: t)) + 1) with h | h
      · rwa [Nat.min_eq_left h]
      · rw [Nat.min_eq_right h]
        rcases Nat.le_total (lev (a :: s) t) (lev s (b :: t)) with h' | h'
        · rwa [Nat.min_eq_left h']
        · rwa [Nat.min_eq_right h']

theorem isDistance_lev (s t : List α) : IsDistance s t (lev s t) :=
  ⟨edits_lev s t, fun _ h => lev_le_of_edits h⟩

theorem IsDistance.eq_lev {s t : List α} {d : Nat} (h : IsDistance s t d) : d = lev s t :=
  Nat.le_antisymm (h.2 _ (edits_lev s t)) (lev_le_of_edits h.1)

/-! ## Reversing: the table goes over prefixes -/

theorem Edit.reverse {s t : List α} (h : Edit s t) : Edit s.reverse t.reverse := by
  cases h with
  | ins p q c => simpa using Edit.ins q.reverse p.reverse c
  | del p q c => simpa using Edit.del q.reverse p.reverse c
  | rep p q c d => simpa using Edit.rep q.reverse p.reverse c d

theorem Edits.reverse {n : Nat} {s t : List α} (h : Edits n s t) : Edits n s.reverse t.reverse := by
  induction h with
  | done s => exact .done _
  | more h1 _ ih => exact .more h1.reverse ih

theorem lev_reverse (s t : List α) : lev s.reverse t.reverse = lev s t := by
  refine Nat.le_antisymm (lev_le_of_edits (edits_lev s t).reverse) ?_
  have := lev_le_of_edits (edits_lev s.reverse t.reverse).reverse
  simpa using this

/-- Distance of a prefix of `str1` (given reversed) and the first `x` characters of `str2`. -/
def D (p s2 : List α) (x : Nat) : Nat := lev p (s2.take x).reverse

theorem take_succ_reverse (s2 : List α) (x : Nat) (h : x < s2.length) :
    (s2.take (x + 1)).reverse = s2[x] :: (s2.take x).reverse := by
  rw [List.take_add_one, List.getElem?_eq_getElem h]; simp

theorem D_zero (p s2 : List α) : D p s2 0 = p.length := by simp [D]

theorem D_succ (c : α) (p s2 : List α) (x : Nat) (h : x < s2.length) :
    D (c :: p) s2 (x + 1) = min (D p s2 x + (if some c = s2[x]? then 0 else 1))
      (min (D (c :: p) s2 x) (D p s2 (x + 1)) + 1) := by
  simp only [D, take_succ_reverse s2 x h, lev_cons, List.getElem?_eq_getElem h, Option.some.injEq]

/-- What the inner loop computes. -/
theorem row_spec (c : α) (p s2 : List α) (prev : Nat → Nat) (hprev : ∀ x, x ≤ s2.length → prev x = D p s2 x) :
    ∀ (k x : Nat) (cur : Nat → Nat) (best : Nat), 1 ≤ x → x + k = s2.length + 1 →
      (∀ z, z < x → cur z = D (c :: p) s2 z) → (∀ z, z < x → best ≤ D (c :: p) s2 z) →
      (∃ z, z < x ∧ best = D (c :: p) s2 z) →
      (∀ z, z ≤ s2.length → (row c s2 prev k x (cur, best)).1 z = D (c :: p) s2 z) ∧
      (∀ z, z ≤ s2.length → (row c s2 prev k x (cur, best)).2 ≤ D (c :: p) s2 z) ∧
      ∃ z, z ≤ s2.length ∧ (row c s2 prev k x (cur, best)).2 = D (c :: p) s2 z := by
  intro k
  induction k with
  | zero =>
    intro x cur best hx hk hc hb ⟨z, hz, he⟩
    simp only [row]
    exact ⟨fun z hz => hc z (by omega), fun z hz => hb z (by omega), z, by omega, he⟩
  | succ k ih =>
    intro x cur best hx hk hc hb ⟨z0, hz0, he0⟩
    simp only [row]
    obtain ⟨y, rfl⟩ : ∃ y, x = y + 1 := ⟨x - 1, by omega⟩
    have hv : min (prev (y + 1 - 1) + (if some c = s2[y + 1 - 1]? then 0 else 1))
        (min (cur (y + 1 - 1)) (prev (y + 1)) + 1) = D (c :: p) s2 (y + 1) := by
      rw [D_succ c p s2 y (by omega), Nat.add_sub_cancel, hprev y (by omega), hprev (y + 1) (by omega),
        hc y (by omega)]
    rw [hv]
    apply ih (y + 1 + 1) _ _ (by omega) (by omega)
    · intro z hz
      unfold set
      split
      · next h => rw [h]
      · exact hc z (by omega)
    · intro z hz
      by_cases h : z = y + 1
      · subst h; omega
      · have := hb z (by omega); omega
    · rcases Nat.le_total best (D (c :: p) s2 (y + 1)) with h | h
      · exact ⟨z0, by omega, by rw [Nat.min_eq_left h, he0]⟩
      · exact ⟨y + 1, by omega, by rw [Nat.min_eq_right h]⟩

/-- Row minima do not decrease. -/
theorem row_mono (c : α) (p s2 : List α) (k : Nat) (h : ∀ x, x ≤ s2.length → k ≤ D p s2 x) :
    ∀ x, x ≤ s2.length → k ≤ D (c :: p) s2 x := by
  intro x
  induction x with
  | zero =>
    intro _
    have := h 0 (by omega)
    rw [D_zero] at this ⊢
    simp only [List.length_cons]; omega
  | succ x ih =>
    intro hx
    rw [D_succ c p s2 x (by omega)]
    have h1 := h x (by omega)
    have h2 := h (x + 1) (by omega)
    have h3 := ih (by omega)
    omega

theorem rows_mono (q p s2 : List α) (k : Nat) (h : ∀ x, x ≤ s2.length → k ≤ D p s2 x) :
    k ≤ D (q.reverse ++ p) s2 s2.length := by
  induction q generalizing p with
  | nil => simpa using h _ (le_refl _)
  | cons c q ih =>
    have := ih (c :: p) (row_mono c p s2 k h)
    simpa using this

theorem rows_spec (s2 : List α) (maxDist : Nat) : ∀ (rest p : List α) (prev cur : Nat → Nat),
    (∀ x, x ≤ s2.length → prev x = D p s2 x) →
    let r := rows s2 maxDist rest (p.length + 1) prev cur
    let d := D (rest.reverse ++ p) s2 s2.length
    r = d ∨ (maxDist ≠ 0 ∧ maxDist < d ∧ r = maxDist + 1) := by
  intro rest
  induction rest with
  | nil => intro p prev cur h; left; simpa [rows] using h _ (le_refl _)
  | cons c rest ih =>
    intro p prev cur h
    have hr := row_spec c p s2 prev h s2.length 1 (set cur 0 (p.length + 1)) (p.length + 1) (le_refl _)
      (by omega)
      (by intro z hz; obtain rfl : z = 0 := by omega
          simp [set, D_zero])
      (by intro z hz; obtain rfl : z = 0 := by omega
          simp [D_zero])
      ⟨0, by omega, by simp [D_zero]⟩
    simp only [rows]
    split
    · next hm =>
      right
      refine ⟨hm.1, ?_, rfl⟩
      have := rows_mono rest (c :: p) s2 (maxDist + 1) (fun x hx => by
        have := hr.2.1 x hx
        omega)
      simpa [Nat.lt_iff_add_one_le] using this
    · have := ih (c :: p) _ prev hr.1
      simpa using this

theorem fill_spec (junk : Nat → Nat) : ∀ (k i x : Nat), i ≤ x → x < i + k → fill junk k i x = x := by
  intro k
  induction k with
  | zero => intro i x h1 h2; omega
  | succ k ih =>
    intro i x h1 h2
    simp only [fill, set]
    split
    · next h => exact h.symm
    · exact ih (i + 1) x (by omega) (by omega)

/-! ## The properties -/

/-- **C37, distance.**  For two different strings, `StringEditDistance` returns their edit distance if that is
    within the bound, and a number above the bound otherwise; with bound 0 it always returns the distance. -/
theorem distance_spec (junk1 junk2 : Nat → Nat) (s1 s2 : List α) (maxDist d : Nat) (hne : s1 ≠ s2)
    (hd : IsDistance s1 s2 d) :
    (d ≤ maxDist ∨ maxDist = 0 → stringEditDistance junk1 junk2 s1 s2 maxDist = d) ∧
    (maxDist < d → maxDist < stringEditDistance junk1 junk2 s1 s2 maxDist) := by
  have h := rows_spec s2 maxDist s1 [] (fill junk1 (s2.length + 1) 0) junk2
    (by intro x hx; rw [fill_spec _ _ _ _ (by omega) (by omega)]; simp [D]; omega)
  simp only [List.append_nil, List.length_nil, Nat.zero_add, D, List.take_length, lev_reverse,
    ← hd.eq_lev] at h
  simp only [stringEditDistance, if_neg hne]
  omega

/-- For equal strings it returns the bound, so that a name is not suggested in place of itself. -/
theorem distance_self (junk1 junk2 : Nat → Nat) (s : List α) (maxDist : Nat) :
    stringEditDistance junk1 junk2 s s maxDist = maxDist := by simp [stringEditDistance]

/-- **C37, suggestions.**  What is suggested for `str` (a string of at least two characters, or one letter) are
    exactly the options, in order, that differ from it and are nearest to it, provided they are at most two
    edits away. -/
theorem suggestions_spec (alpha : α → Bool) (junk1 junk2 : Nat → Nat) (str : List α)
    (options : List (List α)) (h : 2 ≤ str.length ∨ ∃ c, str = [c] ∧ alpha c = true) (o : List α) :
    o ∈ matchStrings alpha junk1 junk2 str options ↔
      o ∈ options ∧ o ≠ str ∧ ∃ d, d ≤ 2 ∧ IsDistance str o d ∧
        ∀ o' ∈ options, o' ≠ str → ∀ d', IsDistance str o' d' → d ≤ d' := by
  have key : ∀ o' k, k ≤ 2 → (stringEditDistance junk1 junk2 str o' (2 + 1) = k ↔
      o' ≠ str ∧ IsDistance str o' k) := by
    intro o' k hk
    by_cases he : str = o'
    · subst he; simp [distance_self]; omega
    · have := distance_spec junk1 junk2 str o' (2 + 1) _ he (isDistance_lev str o')
      constructor
      · intro h1
        refine ⟨fun h => he h.symm, ?_⟩
        have : lev str o' = k := by omega
        rw [← this]; exact isDistance_lev _ _
      · rintro ⟨_, h2⟩
        have := h2.eq_lev
        omega
  have hm : matchStrings alpha junk1 junk2 str options =
      (let m := fun d => options.filter fun o => stringEditDistance junk1 junk2 str o (2 + 1) = d
       if m 0 ≠ [] then m 0 else if m 1 ≠ [] then m 1 else if m 2 ≠ [] then m 2 else []) := by
    rcases h with h | ⟨c, rfl, hc⟩
    · match str, h with
      | a :: b :: cs, _ => simp [matchStrings]
    · simp [matchStrings, hc]
  have mem : ∀ k, k ≤ 2 → ∀ o', o' ∈ (options.filter fun o => stringEditDistance junk1 junk2 str o (2 + 1) = k) ↔
      o' ∈ options ∧ o' ≠ str ∧ IsDistance str o' k := by
    intro k hk o'
    simp [List.mem_filter, key o' k hk]
  rw [hm]
  generalize hM : (fun d => options.filter fun o => stringEditDistance junk1 junk2 str o (2 + 1) = d) = M at *
  show o ∈ (if M 0 ≠ [] then M 0 else if M 1 ≠ [] then M 1 else if M 2 ≠ [] then M 2 else []) ↔ _
  have mem' : ∀ k, k ≤ 2 → ∀ o', o' ∈ M k ↔ o' ∈ options ∧ o' ≠ str ∧ IsDistance str o' k := by
    intro k hk o'; rw [← hM]; exact mem k hk o'
  have uniq : ∀ o' d d', IsDistance str o' d → IsDistance str o' d' → d = d' := fun o' d d' h1 h2 => by
    rw [h1.eq_lev, h2.eq_lev]
  have main : ∀ k, k ≤ 2 → M k ≠ [] → (∀ j, j < k → M j = []) → (o ∈ M k ↔
      o ∈ options ∧ o ≠ str ∧ ∃ d, d ≤ 2 ∧ IsDistance str o d ∧
        ∀ o' ∈ options, o' ≠ str → ∀ d', IsDistance str o' d' → d ≤ d') := by
    intro k hk hne hlt
    obtain ⟨w, hw⟩ := List.exists_mem_of_ne_nil _ hne
    rw [mem' k hk] at hw
    have low : ∀ o' ∈ options, o' ≠ str → ∀ d', IsDistance str o' d' → k ≤ d' := by
      intro o' ho' hne' d' hd'
      by_contra hlt'
      have : o' ∈ M d' := (mem' d' (by omega) o').mpr ⟨ho', hne', hd'⟩
      rw [hlt d' (by omega)] at this
      cases this
    rw [mem' k hk]
    constructor
    · rintro ⟨h1, h2, h3⟩; exact ⟨h1, h2, k, hk, h3, low⟩
    · rintro ⟨h1, h2, d, hd, h3, h4⟩
      have e : d = k := Nat.le_antisymm (h4 w hw.1 hw.2.1 k hw.2.2) (low o h1 h2 d h3)
      subst e
      exact ⟨h1, h2, h3⟩
  by_cases h0 : M 0 = []
  · by_cases h1 : M 1 = []
    · by_cases h2 : M 2 = []
      · simp only [h0, h1, h2, ne_eq, not_true_eq_false, if_false, List.not_mem_nil, false_iff]
        rintro ⟨ho, hs, d, hd, h3, _⟩
        have : o ∈ M d := (mem' d hd o).mpr ⟨ho, hs, h3⟩
        interval_cases d <;> simp_all
      · rw [if_neg (by simp [h0]), if_neg (by simp [h1]), if_pos h2]
        exact main 2 (by omega) h2 (by intro j hj; interval_cases j <;> assumption)
    · rw [if_neg (by simp [h0]), if_pos h1]
      exact main 1 (by omega) h1 (by intro j hj; interval_cases j; assumption)
  · rw [if_pos h0]
    exact main 0 (by omega) h0 (by intro j hj; omega)

/-- The order of the options is kept. -/
theorem suggestions_sublist (alpha : α → Bool) (junk1 junk2 : Nat → Nat) (str : List α)
    (options : List (List α)) : (matchStrings alpha junk1 junk2 str options).Sublist options := by
  unfold matchStrings
  split
  · simp
  · split
    · simp
    · simp only
      split
      · exact List.filter_sublist
      · split
        · exact List.filter_sublist
        · split
          · exact List.filter_sublist
          · simp

/-- kitten and sitting are three edits apart; with bound 2 the search stops early. -/
example : stringEditDistance (fun _ => 7) (fun _ => 9) "kitten".toList "sitting".toList 3 = 3 ∧
    IsDistance "kitten".toList "sitting".toList 3 := by
  have h : lev "kitten".toList "sitting".toList = 3 := by
    have := distance_spec (fun _ => 7) (fun _ => 9) "kitten".toList "sitting".toList 0 _ (by decide)
      (isDistance_lev _ _)
    rw [← this.1 (.inr rfl)]
    decide +kernel
  exact ⟨by decide +kernel, h ▸ isDistance_lev _ _⟩

example : matchStrings Char.isAlpha (fun _ => 0) (fun _ => 0) "uniforn".toList
    ["varying".toList, "uniform".toList, "unform".toList, "uniforn".toList] = ["uniform".toList] := by
  decide +kernel

end Ispc.EditDistance
