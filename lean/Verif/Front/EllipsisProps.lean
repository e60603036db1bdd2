import Verif.Front.Ellipsis

/-!
# C91: theorems about spaces before ranges
-/

namespace Ispc.Ellipsis

/-! ## Specification -/

/-- The text is `d...n`, where `n` begins like an identifier. -/
def Range (t d n : List Char) : Prop := t = d ++ ['.', '.', '.'] ++ n ∧ ∃ c r, n = c :: r ∧ isStart c = true

/-- What becomes of a piece: the first range to a name in a number gets a space, and all else stays. -/
def Spaced (p : Piece) (t' : List Char) : Prop :=
  (p.1 = true ∧ ∃ d n, Range p.2 d n ∧ (∀ d' n', Range p.2 d' n' → d.length ≤ d'.length) ∧
    t' = d ++ ' ' :: '.' :: '.' :: '.' :: n) ∨
  (t' = p.2 ∧ (p.1 = false ∨ ∀ d n, ¬ Range p.2 d n))

/-! ## The place of the space -/

theorem dots_iff (s : List Char) : dots s = true ↔ ∃ r, s = '.' :: '.' :: '.' :: r := by
  unfold dots
  split
  · simp
  · rename_i h
    simp only [Bool.false_eq_true, false_iff]
    rintro ⟨r, rfl⟩
    exact h r rfl

/-- There is a range to a name at this place. -/
def Hit (s : List Char) (p : Nat) : Prop := dots (s.drop p) = true ∧ ∃ c, s[p + 3]? = some c ∧ isStart c = true

theorem hit_range (s : List Char) (p : Nat) (h : Hit s p) : Range s (s.take p) (s.drop (p + 3)) := by
  obtain ⟨h1, c, hc, hs⟩ := h
  obtain ⟨r, hr⟩ := (dots_iff _).1 h1
  have e : s.drop (p + 3) = r := by
    rw [← List.drop_drop, hr]; rfl
  refine ⟨?_, c, s.drop (p + 4), ?_, hs⟩
  · conv_lhs => rw [← List.take_append_drop p s, hr]
    rw [e]; simp
  · have hlt := (List.getElem?_eq_some_iff.1 hc).1
    rw [List.drop_eq_getElem_cons hlt, (List.getElem?_eq_some_iff.1 hc).2]

theorem range_hit (s d n : List Char) (h : Range s d n) : Hit s d.length := by
  obtain ⟨rfl, c, r, rfl, hc⟩ := h
  refine ⟨?_, c, ?_, hc⟩
  · simp [dots]
  · simp

theorem find_some (s : List Char) (start p : Nat) (h : find s start = some p) :
    start ≤ p ∧ dots (s.drop p) = true ∧ ∀ q, start ≤ q → q < p → dots (s.drop q) = false := by
  unfold find at h
  rw [List.find?_range_eq_some] at h
  obtain ⟨h1, h2, h3⟩ := h
  simp only [Bool.and_eq_true, decide_eq_true_eq] at h1
  refine ⟨h1.1, h1.2, ?_⟩
  intro q hq hqp
  have := h3 q hqp
  simpa [hq] using this

theorem dots_lt (s : List Char) (p : Nat) (h : dots (s.drop p) = true) : p < s.length := by
  by_contra hc
  rw [List.drop_eq_nil_of_le (by omega)] at h
  simp [dots] at h

theorem find_none (s : List Char) (start : Nat) (h : find s start = none) (q : Nat) (hq : start ≤ q) :
    dots (s.drop q) = false := by
  unfold find at h
  rw [List.find?_eq_none] at h
  cases hd : dots (s.drop q) with
  | false => rfl
  | true =>
    have := h q (List.mem_range.2 (dots_lt s q hd))
    simp [hq, hd] at this

theorem scan_spec (s : List Char) (fuel : Nat) : ∀ start, (∀ q < start, ¬ Hit s q) → s.length + 1 ≤ start + fuel →
    match scan s fuel (find s start) with
    | some p => Hit s p ∧ ∀ q < p, ¬ Hit s q
    | none => ∀ q, ¬ Hit s q := by
  induction fuel with
  | zero =>
    intro start hb hf
    simp only [scan]
    intro q hq
    have := dots_lt s q hq.1
    exact hb q (by omega) hq
  | succ fuel ih =>
    intro start hb hf
    cases hfd : find s start with
    | none =>
      simp only [scan]
      intro q hq
      by_cases hqs : q < start
      · exact hb q hqs hq
      · have := find_none s start hfd q (by omega)
        rw [hq.1] at this; cases this
    | some p =>
      obtain ⟨h1, h2, h3⟩ := find_some s start p hfd
      have hbefore : ∀ q < p, ¬ Hit s q := by
        intro q hq hh
        by_cases hqs : q < start
        · exact hb q hqs hh
        · have := h3 q (by omega) hq
          rw [hh.1] at this; cases this
      simp only [scan]
      by_cases hc : (p + 3 < s.length && ((s[p + 3]?).map isStart == some true)) = true
      · rw [if_pos hc]
        simp only [Bool.and_eq_true, decide_eq_true_eq, beq_iff_eq, Option.map_eq_some_iff] at hc
        obtain ⟨-, c, hc1, hc2⟩ := hc
        exact ⟨⟨h2, c, hc1, hc2⟩, hbefore⟩
      · rw [if_neg hc]
        apply ih (p + 1) _ (by omega)
        intro q hq hh
        rcases Nat.lt_or_ge q p with hlt | hge
        · exact hbefore q hlt hh
        · obtain rfl : q = p := by omega
          obtain ⟨-, c, hc1, hc2⟩ := hh
          apply hc
          have hlt := (List.getElem?_eq_some_iff.1 hc1).1
          simp only [hc1, Option.map_some, hc2, beq_self_eq_true, Bool.and_true, decide_eq_true_eq]
          exact hlt

theorem place_some (s : List Char) (p : Nat) (h : place s = some p) : Hit s p ∧ ∀ q < p, ¬ Hit s q := by
  have := scan_spec s (s.length + 1) 0 (by simp) (by omega)
  unfold place at h
  rw [h] at this
  exact this

theorem place_none (s : List Char) (h : place s = none) (q : Nat) : ¬ Hit s q := by
  have := scan_spec s (s.length + 1) 0 (by simp) (by omega)
  unfold place at h
  rw [h] at this
  exact this q

/-! ## The text with the spaces -/

/-- What becomes of a piece, as a function. -/
def spaced (p : Piece) : List Char :=
  if p.1 then
    match place p.2 with
    | some k => p.2.take k ++ ' ' :: p.2.drop k
    | none => p.2
  else p.2

theorem build_spaced (ps : List Piece) : ∀ (pre : List Char) (pos : Nat), pos ≤ pre.length →
    build (pre ++ ps.flatMap (·.2)) (insertions ps pre.length) pos = pre.drop pos ++ ps.flatMap spaced := by
  induction ps with
  | nil => intro pre pos _; simp [insertions, build]
  | cons q ps ih =>
    intro pre pos hpos
    obtain ⟨num, t⟩ := q
    have same : insertions ((num, t) :: ps) pre.length = insertions ps (pre ++ t).length → spaced (num, t) = t →
        build (pre ++ ((num, t) :: ps).flatMap (·.2)) (insertions ((num, t) :: ps) pre.length) pos =
          pre.drop pos ++ ((num, t) :: ps).flatMap spaced := by
      intro h1 h2
      rw [h1, List.flatMap_cons, ← List.append_assoc, ih (pre ++ t) pos (by simp; omega), List.flatMap_cons, h2,
        List.drop_append_of_le_length hpos, List.append_assoc]
    cases num with
    | false => exact same (by simp [insertions]) (by simp [spaced])
    | true =>
      cases hp : place t with
      | none => exact same (by simp [insertions, hp]) (by simp [spaced, hp])
      | some k =>
        obtain ⟨⟨hd, c, hc, -⟩, -⟩ := place_some t k hp
        have hlt := (List.getElem?_eq_some_iff.1 hc).1
        have hins : insertions ((true, t) :: ps) pre.length = (pre.length + k) :: insertions ps (pre ++ t).length := by
          simp [insertions, hp]
        rw [hins]
        simp only [build, List.flatMap_cons]
        rw [← List.append_assoc pre, ih (pre ++ t) (pre.length + k + 3) (by simp; omega)]
        have e1 : (((pre ++ t) ++ ps.flatMap (·.2)).drop pos).take (pre.length + k - pos) = pre.drop pos ++ t.take k := by
          rw [List.append_assoc, List.drop_append_of_le_length hpos, List.take_append, List.length_drop,
            List.take_of_length_le (by simp; omega), show pre.length + k - pos - (pre.length - pos) = k by omega,
            List.take_append_of_le_length (by omega)]
        have e2 : (((pre ++ t) ++ ps.flatMap (·.2)).drop (pre.length + k)).take 3 = (t.drop k).take 3 := by
          rw [List.append_assoc, ← List.drop_drop, List.drop_left, List.drop_append_of_le_length (by omega),
            List.take_append_of_le_length (by simp; omega)]
        have e3 : (pre ++ t).drop (pre.length + k + 3) = (t.drop k).drop 3 := by
          rw [Nat.add_assoc, ← List.drop_drop, List.drop_left, List.drop_drop]
        rw [e1, e2, e3]
        simp only [spaced, hp, if_true]
        conv_rhs => rw [← List.take_append_drop 3 (t.drop k)]
        simp

theorem fix_eq (ps : List Piece) : fix ps = ps.flatMap spaced := by
  have h := build_spaced ps [] 0 (by simp)
  simp only [List.nil_append, List.length_nil, List.drop_nil] at h
  unfold fix
  simp only
  split_ifs with hc
  · rw [← h, hc]; simp [build]
  · exact h

theorem spaced_spec (p : Piece) : Spaced p (spaced p) := by
  obtain ⟨num, t⟩ := p
  cases num with
  | false => exact Or.inr ⟨by simp [spaced], Or.inl rfl⟩
  | true =>
    cases hp : place t with
    | none => exact Or.inr ⟨by simp [spaced, hp], Or.inr fun d n h => place_none t hp _ (range_hit t d n h)⟩
    | some k =>
      obtain ⟨hh, hmin⟩ := place_some t k hp
      obtain ⟨r, hr⟩ := (dots_iff _).1 hh.1
      have hk := dots_lt t k hh.1
      refine Or.inl ⟨rfl, t.take k, t.drop (k + 3), hit_range t k hh, ?_, ?_⟩
      · intro d' n' h'
        have := mt (hmin d'.length) (not_not.2 (range_hit t d' n' h'))
        simp; omega
      · have e : t.drop (k + 3) = r := by rw [← List.drop_drop, hr]; rfl
        simp [spaced, hp, hr, e]

/-- **The first range to a name in every number gets a space, and nothing else changes**: the text is made of the
    pieces, in order, each of which is as before or has that one space. -/
theorem fix_spaced (ps : List Piece) : ∃ ts, List.Forall₂ Spaced ps ts ∧ fix ps = ts.flatten := by
  refine ⟨ps.map spaced, ?_, by rw [fix_eq, List.flatMap_def]⟩
  induction ps with
  | nil => exact .nil
  | cons p ps ih => exact .cons (spaced_spec p) ih

/-- **What is not a number stays**: comments, strings and names do not change. -/
theorem fix_other (ps : List Piece) (h : ∀ p ∈ ps, p.1 = false) : fix ps = ps.flatMap (·.2) := by
  rw [fix_eq]
  induction ps with
  | nil => rfl
  | cons p ps ih =>
    simp only [List.flatMap_cons]
    rw [ih fun q hq => h q (List.mem_cons_of_mem _ hq)]
    simp [spaced, h p (by simp)]

/-- **Only spaces are added**: the text before is left if they are taken out. -/
theorem fix_only_spaces (ps : List Piece) :
    (fix ps).filter (· ≠ ' ') = (ps.flatMap (·.2)).filter (· ≠ ' ') ∧ (ps.flatMap (·.2)).Sublist (fix ps) := by
  rw [fix_eq]
  have one : ∀ p : Piece, (spaced p).filter (· ≠ ' ') = p.2.filter (· ≠ ' ') ∧ p.2.Sublist (spaced p) := by
    intro p
    unfold spaced
    split
    · split
      · rename_i k _
        constructor
        · conv_rhs => rw [← List.take_append_drop k p.2]
          simp only [List.filter_append, List.filter_cons]
          simp
        · conv_lhs => rw [← List.take_append_drop k p.2]
          exact (List.Sublist.refl _).append (List.sublist_cons_self _ _)
      · exact ⟨rfl, List.Sublist.refl _⟩
    · exact ⟨rfl, List.Sublist.refl _⟩
  induction ps with
  | nil => simp
  | cons p ps ih =>
    simp only [List.flatMap_cons, List.filter_append]
    exact ⟨by rw [(one p).1, ih.1], (one p).2.append ih.2⟩

/-! ## What the preprocessor sees -/

theorem munch_append (d : List Char) : ∀ (prev : Char) (x y : List Char), munch prev (d ++ x) = (d ++ x, []) →
    munch prev (d ++ ' ' :: y) = (d, ' ' :: y) := by
  induction d with
  | nil =>
    intro prev x y _
    have : (isBody ' ' || ' ' == '.' || ((' ' == '+' || ' ' == '-') &&
        (prev == 'e' || prev == 'E' || prev == 'p' || prev == 'P'))) = false := by
      have h1 : isBody ' ' = false := by decide
      simp [h1]
    simp only [List.nil_append, munch, this]
    rfl
  | cons c d ih =>
    intro prev x y h
    simp only [List.cons_append, munch] at h ⊢
    split_ifs at h ⊢ with hc
    · simp only [Prod.mk.injEq, List.cons.injEq, true_and] at h
      have := ih c x y (Prod.ext h.1 h.2)
      rw [this]
    · simp at h

/-- **The name of a range is a token of its own**: a number `d...n` becomes `d`, three dots and the name, whatever
    follows, so that a macro with this name is expanded. -/
theorem range_tokens (t d n : List Char) (ht : lexOne t = some (.number, t, [])) (h : Range t d n)
    (rest : List Char) : ∃ name more, n ++ rest = name ++ more ∧ name ≠ [] ∧
      lexOne (d ++ ' ' :: '.' :: '.' :: '.' :: n ++ rest) = some (.number, d, ' ' :: '.' :: '.' :: '.' :: n ++ rest) ∧
      lexOne (' ' :: '.' :: '.' :: '.' :: n ++ rest) = some (.space, [' '], '.' :: '.' :: '.' :: n ++ rest) ∧
      lexOne ('.' :: '.' :: '.' :: n ++ rest) = some (.ellipsis, ['.', '.', '.'], n ++ rest) ∧
      lexOne (n ++ rest) = some (.ident, name, more) ∧ (∀ a ∈ name, isBody a = true) ∧
      ∀ a, more.head? = some a → isBody a = false := by
  obtain ⟨rfl, c, r, rfl, hc⟩ := h
  have hcd : c.isDigit = false := by
    unfold isStart at hc
    simp only [Char.isAlpha, Char.isUpper, Char.isLower, Bool.or_eq_true, Bool.and_eq_true, decide_eq_true_eq,
      beq_iff_eq] at hc
    simp only [Char.isDigit, Bool.and_eq_false_iff, decide_eq_false_iff_not]
    rcases hc with (⟨h1, h2⟩ | ⟨h1, h2⟩) | rfl
    · right; intro h3; have := UInt32.le_trans h1 h3; revert this; decide
    · right; intro h3; have := UInt32.le_trans h1 h3; revert this; decide
    · right; decide
  have hcdot : c ≠ '.' := by rintro rfl; revert hc; decide
  refine ⟨c :: (r ++ rest).takeWhile isBody, (r ++ rest).dropWhile isBody, ?_, by simp, ?_, ?_, ?_, ?_, ?_, ?_⟩
  · simp
  · cases d with
    | nil => simp [lexOne, dots] at ht
    | cons a d =>
      simp only [List.cons_append, List.append_assoc, lexOne] at ht ⊢
      have key : munch a (d ++ (['.', '.', '.'] ++ c :: r)) = (d ++ (['.', '.', '.'] ++ c :: r), []) →
          munch a (d ++ ' ' :: '.' :: '.' :: '.' :: c :: (r ++ rest)) = (d, ' ' :: '.' :: '.' :: '.' :: c :: (r ++ rest)) :=
        fun h => munch_append d a _ _ h
      by_cases h1 : a.isDigit = true
      · rw [if_pos h1] at ht ⊢
        simp only [Option.some.injEq, Prod.mk.injEq, List.cons.injEq, true_and] at ht
        have := key (Prod.ext (by simpa using ht.1) ht.2)
        rw [this]
      · rw [if_neg h1] at ht ⊢
        cases d with
        | nil =>
          simp only [List.nil_append, List.cons_append, List.head?_cons] at ht
          have : ('.' : Char).isDigit = false := by decide
          simp [this] at ht
          split_ifs at ht <;> simp at ht
        | cons b d =>
          simp only [List.cons_append, List.head?_cons] at ht ⊢
          by_cases h2 : (a == '.' && (Option.map Char.isDigit (some b) == some true)) = true
          · rw [if_pos h2] at ht ⊢
            simp only [Option.some.injEq, Prod.mk.injEq, List.cons.injEq, true_and] at ht
            have := key (Prod.ext (by simpa using ht.1) ht.2)
            simp only [List.cons_append] at this
            rw [this]
          · rw [if_neg h2] at ht
            split_ifs at ht <;> simp at ht
  · have h1 : (' ' : Char).isDigit = false := by decide
    have h2 : isStart ' ' = false := by decide
    simp [lexOne, dots, h1, h2]
  · have h1 : ('.' : Char).isDigit = false := by decide
    simp [lexOne, dots, h1]
  · have h3 : dots (c :: (r ++ rest)) = false := by
      unfold dots; split
      · rename_i heq; simp at heq; exact absurd heq.1 hcdot
      · rfl
    simp [lexOne, hcd, hcdot, h3, hc]
  · intro a ha
    rcases List.mem_cons.1 ha with rfl | ha
    · simp [isBody, hc]
    · exact List.all_eq_true.1 (List.all_takeWhile (l := r ++ rest) (p := isBody)) a ha
  · intro a ha
    cases hb : isBody a with
    | false => rfl
    | true =>
      have := List.head?_dropWhile_not isBody (r ++ rest)
      rw [ha] at this
      simp [hb] at this

/-- Without the space the number takes the name. -/
example : lexOne "0...MAXI)".toList = some (.number, "0...MAXI".toList, [')']) := by decide +kernel

example : fix [(false, "for(i=".toList), (true, "0...MAXI".toList), (false, ")//0...A".toList)] =
    "for(i=0 ...MAXI)//0...A".toList := by decide +kernel

example : fix [(true, "0....M...N".toList), (true, "1...5".toList)] = "0. ...M...N1...5".toList := by decide +kernel

example : Range "0...MAXI".toList "0".toList "MAXI".toList := ⟨by decide, 'M', "AXI".toList, by decide, by decide⟩

end Ispc.Ellipsis
