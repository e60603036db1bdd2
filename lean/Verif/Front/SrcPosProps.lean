import Verif.Front.SrcPos
import Mathlib.Tactic.ByContra
import Mathlib.Tactic.SplitIfs

/-!
# Messages name the place they are about (C83)
-/

namespace Ispc.SrcPos

/-! ## Specification -/

/-- The place of the character behind the text `t` that begins at `p`: lines are separated by new line characters, and
columns are counted from one. -/
def place (p : Pos) (t : List Char) : Pos :=
  t.foldl (fun p c => if c = '\n' then ⟨p.line + 1, 1, p.name⟩ else ⟨p.line, p.col + 1, p.name⟩) p

/-- Steps that are neither line markers nor reported as illegal characters or as unknown or undefined pragmas; no token has a
new line character in it. -/
def Plain : Did → Prop
  | .comment | .newline | .blanks => True
  | .marker _ _ | .illegal _ => False
  | .pragma p => p ≠ .unknown ∧ p ≠ .ignore .undefined
  | .token t => '\n' ∉ t

/-- Some steps of the lexer, all of the kind `P`. -/
inductive Steps (tok : List Char → Nat) (P : Lx → Did → Prop) : Lx → Lx → Prop where
  | refl (x) : Steps tok P x x
  | tail (x y z d) : Steps tok P x y → step tok y = .go d z → P y d → Steps tok P x z

/-! ## Places -/

theorem place_append (p : Pos) (t u : List Char) : place p (t ++ u) = place (place p t) u := by
  simp [place, List.foldl_append]

theorem place_line {t : List Char} (h : '\n' ∉ t) (p : Pos) : place p t = p.adv t.length := by
  induction t generalizing p with
  | nil => rfl
  | cons c t ih =>
    rw [List.mem_cons, not_or] at h
    have hc : c ≠ '\n' := fun e => h.1 e.symm
    show place (if c = '\n' then _ else _) t = _
    rw [if_neg hc, ih h.2]
    simp only [Pos.adv, List.length_cons, Pos.mk.injEq, true_and, and_true]
    omega

theorem cComment_place (prev : Option Char) (p : Pos) (s : List Char) :
    ∃ used, s = used ++ (cComment prev p s).2.1 ∧ (cComment prev p s).1 = place p used := by
  induction s generalizing prev p with
  | nil => exact ⟨[], rfl, rfl⟩
  | cons c s ih =>
    simp only [cComment]
    have e : ∀ used, place p (c :: used) = place (if c = '\n' then p.nl else p.adv 1) used := fun used => rfl
    split
    · exact ⟨[c], rfl, (e []).symm⟩
    · obtain ⟨used, h1, h2⟩ := ih (some c) (if c = '\n' then p.nl else p.adv 1)
      exact ⟨c :: used, by rw [List.cons_append, ← h1], by rw [e, h2]⟩

theorem cppComment_place (p : Pos) (s : List Char) (h : (cppComment p s).2 ≠ []) :
    ∃ used, s = used ++ (cppComment p s).2 ∧ ∀ n, (cppComment p s).1 = place (p.adv n) used := by
  induction s with
  | nil => exact absurd rfl h
  | cons c s ih =>
    simp only [cppComment] at h ⊢
    split at h
    · rename_i hc
      rw [if_pos hc]
      refine ⟨[c], rfl, fun n => ?_⟩
      simp [place, hc, Pos.nl, Pos.adv]
    · rename_i hc
      rw [if_neg hc]
      obtain ⟨used, h1, h2⟩ := ih h
      refine ⟨c :: used, by rw [List.cons_append, ← h1], fun n => ?_⟩
      rw [h2 (n + 1)]
      show _ = place (if c = '\n' then _ else _) used
      rw [if_neg hc]
      rfl

theorem splitLine_eq {s t r : List Char} (h : splitLine s = some (t, r)) : s = t ++ '\n' :: r ∧ '\n' ∉ t := by
  induction s generalizing t with
  | nil => simp [splitLine] at h
  | cons c s ih =>
    simp only [splitLine] at h
    split at h
    · rename_i hc
      cases h
      exact ⟨by rw [hc]; rfl, by simp⟩
    · rename_i hc
      rw [Option.map_eq_some_iff] at h
      obtain ⟨⟨t', r'⟩, h1, h2⟩ := h
      cases h2
      obtain ⟨e1, e2⟩ := ih h1
      refine ⟨by rw [e1]; rfl, ?_⟩
      rw [List.mem_cons, not_or]
      exact ⟨fun e => hc e.symm, e2⟩

theorem blanks_line (s : List Char) : '\n' ∉ s.takeWhile blank := by
  induction s with
  | nil => simp
  | cons c s ih =>
    rw [List.takeWhile_cons]
    split
    · rename_i hc
      rw [List.mem_cons, not_or]
      refine ⟨fun e => ?_, ih⟩
      subst e
      revert hc
      decide
    · simp

theorem adv_adv (p : Pos) (m n : Nat) : (p.adv m).adv n = p.adv (m + n) := by
  simp [Pos.adv, Nat.add_assoc]

theorem step_place {tok : List Char → Nat} {x x' : Lx} {d : Did} (h : step tok x = .go d x') (hd : Plain d) (hne : x'.inp ≠ []) :
    ∃ used, x.inp = used ++ x'.inp ∧ x'.pos = place x.pos used := by
  obtain ⟨pos, inp, off⟩ := x
  have hlit : ∀ (t : List Char), '\n' ∉ t → ∀ u, place pos (t ++ u) = place (pos.adv t.length) u := by
    intro t ht u
    rw [place_append, place_line ht]
  unfold step at h
  split at h
  · cases h
  · rename_i r hr
    cases h
    exact ⟨['\n'], hr, rfl⟩
  · rename_i r hr
    cases h
    obtain ⟨used, h1, h2⟩ := cComment_place none (pos.adv 2) r
    refine ⟨['/', '*'] ++ used, ?_, ?_⟩
    · show inp = _
      rw [show inp = '/' :: '*' :: r from hr]
      show _ = '/' :: '*' :: (used ++ _)
      rw [← h1]
    · rw [hlit _ (by decide)]
      exact h2
  · rename_i r hr
    cases h
    obtain ⟨used, h1, h2⟩ := cppComment_place (pos.adv 2) r hne
    refine ⟨['/', '/'] ++ used, ?_, ?_⟩
    · show inp = _
      rw [show inp = '/' :: '/' :: r from hr]
      show _ = '/' :: '/' :: (used ++ _)
      rw [← h1]
    · rw [hlit _ (by decide)]
      exact h2 0
  · rename_i c r _ _ _ hr
    split at h
    · cases h
      refine ⟨(c :: r).takeWhile blank, ?_, ?_⟩
      · show inp = _ ++ (c :: r).dropWhile blank
        rw [List.takeWhile_append_dropWhile]
        exact hr
      · rw [place_line (blanks_line _)]
    · split at h
      · rename_i hp
        unfold pragmaStep at h
        split at h
        · cases h
        · rename_i t rest hs
          cases h
          obtain ⟨e1, e2⟩ := splitLine_eq hs
          have hc : (classify t).counted = true := by
            obtain ⟨h1, h2⟩ := hd
            revert h1 h2
            generalize classify t = p
            intro h1 h2
            cases p with
            | unknown => exact absurd rfl h1
            | ignore r => cases r <;> first | rfl | exact absurd rfl h2
            | _ => rfl
          refine ⟨wPragma ++ (t ++ ['\n']), ?_, ?_⟩
          · show inp = _ ++ rest
            rw [show inp = c :: r from hr, List.append_assoc, List.append_assoc, List.singleton_append, ← e1]
            conv => rhs; arg 1; rw [← hp]
            exact (List.take_append_drop _ _).symm
          · show (if _ then _ else _) = _
            rw [if_pos hc, hlit _ (by decide), place_append, place_line e2]
            rfl
      · split at h
        · split at h
          · cases h
          · cases h
            exact hd.elim
        · dsimp only at h
          split at h
          · cases h
            exact hd.elim
          · cases h
            refine ⟨(c :: r).take (tok (c :: r)), ?_, ?_⟩
            · show inp = _ ++ (c :: r).drop _
              rw [List.take_append_drop]
              exact hr
            · show pos.adv _ = _
              rw [place_line hd]
              have hle : ¬ (c :: r).length < tok (c :: r) := by
                intro hlt
                exact hne (List.drop_eq_nil_of_le (by omega))
              rw [List.length_take, Nat.min_eq_left (by omega)]

/-- **The place of what the lexer meets next is the place of that character in the text:** the lines and columns of the
characters passed since, without line markers and reported errors. -/
theorem token_place {tok : List Char → Nat} {x y : Lx} (h : Steps tok (fun _ d => Plain d) x y) (hne : y.inp ≠ []) :
    ∃ used, x.inp = used ++ y.inp ∧ y.pos = place x.pos used := by
  induction h with
  | refl => exact ⟨[], rfl, rfl⟩
  | tail y z d _ hs hd ih =>
    obtain ⟨u2, e1, e2⟩ := step_place hs hd hne
    have hy : y.inp ≠ [] := by
      rw [e1]
      intro h
      rw [List.append_eq_nil_iff] at h
      exact hne h.2
    obtain ⟨u1, e3, e4⟩ := ih hy
    exact ⟨u1 ++ u2, by rw [e3, e1, List.append_assoc], by rw [e2, e4, place_append]⟩

theorem step_hash (tok : List Char → Nat) (x : Lx) (r : List Char) (h : x.inp = '#' :: r) : step tok x =
    if ('#' :: r).take wPragma.length = wPragma then pragmaStep x (('#' :: r).drop wPragma.length)
    else
      match marker? ('#' :: r) with
      | some (n, name, rest) =>
        if '\n' ∈ name then .crash
        else .go (.marker n name) { x with pos := ⟨n - 1, 1, name⟩, inp := rest }
      | none =>
        let n := tok ('#' :: r)
        if n = 0 then .go (.illegal '#') { x with pos := x.pos.adv 2, inp := r }
        else .go (.token (('#' :: r).take n)) { x with pos := x.pos.adv n, inp := ('#' :: r).drop n } := by
  obtain ⟨pos, inp, off⟩ := x
  dsimp only at h
  subst h
  rfl

theorem takeWhile_stop {p : Char → Bool} {t : List Char} {c : Char} (h : ∀ x ∈ t, p x = true) (hc : p c = false) (r : List Char) :
    (t ++ c :: r).takeWhile p = t ∧ (t ++ c :: r).dropWhile p = c :: r := by
  induction t with
  | nil => simp [hc]
  | cons x t ih =>
    have hx := h x (by simp)
    obtain ⟨e1, e2⟩ := ih fun y hy => h y (by simp [hy])
    simp [hx, e1, e2]

theorem strEnd_plain {f : List Char} (h : ∀ c ∈ f, c ≠ '"' ∧ c ≠ '\\') (r : List Char) : strEnd (f ++ '"' :: r) = some r := by
  induction f with
  | nil => rfl
  | cons c f ih =>
    obtain ⟨h1, h2⟩ := h c (by simp)
    have := ih fun d hd => h d (by simp [hd])
    rw [List.cons_append]
    unfold strEnd
    split <;> simp_all

/-- **Behind the line marker `# n "f"` of the preprocessor the next line is line `n` of the file `f`.** -/
theorem after_marker (tok : List Char → Nat) (p : Pos) (off : Int × List Char → Option Bool) {ds f flags : List Char}
    (hds : ds ≠ []) (hdig : ∀ c ∈ ds, c.isDigit = true) (hf : ∀ c ∈ f, c ≠ '"' ∧ c ≠ '\\' ∧ c ≠ '\n') (hfl : '\n' ∉ flags)
    (rest : List Char) :
    ∃ y, step tok ⟨p, '#' :: ' ' :: (ds ++ ' ' :: '"' :: (f ++ '"' :: (flags ++ '\n' :: rest))), off⟩ = .go (.marker (decimal ds) f) y ∧
      step tok y = .go .newline ⟨⟨decimal ds, 1, f⟩, rest, off⟩ := by
  have h1 := takeWhile_stop (p := Char.isDigit) hdig (c := ' ') (by decide) ('"' :: (f ++ '"' :: (flags ++ '\n' :: rest)))
  have h2 := strEnd_plain (fun c hc => ⟨(hf c hc).1, (hf c hc).2.1⟩) (flags ++ '\n' :: rest)
  have h3 := takeWhile_stop (p := fun c => decide (c ≠ '"')) (t := f) (fun c hc => by simp [(hf c hc).1]) (c := '"') (by simp)
    (flags ++ '\n' :: rest)
  have h4 := takeWhile_stop (p := fun c => decide (c ≠ '\n')) (t := flags) (fun c hc => by
    have : c ≠ '\n' := fun e => hfl (e ▸ hc)
    simp [this]) (c := '\n') (by simp) rest
  have h5 : '\n' ∉ f := fun h => (hf _ h).2.2 rfl
  refine ⟨⟨⟨decimal ds - 1, 1, f⟩, '\n' :: rest, off⟩, ?_, ?_⟩
  · have hm : marker? ('#' :: ' ' :: (ds ++ ' ' :: '"' :: (f ++ '"' :: (flags ++ '\n' :: rest)))) =
        some (decimal ds, f, '\n' :: rest) := by
      simp only [marker?]
      rw [if_neg (by simp [List.take])]
      simp only [h1.1, h1.2, if_neg hds, h2, Option.map_some]
      rw [h3.1, h4.2]
    rw [step_hash tok _ _ rfl, if_neg (by simp [wPragma]), hm]
    simp only
    rw [if_neg h5]
  · simp [step, Pos.nl]

/-- **The place of a token in the source files:** with `token_place`, every token is named by the file of the last line marker,
the line that it gives plus the lines since, and the column in that line. -/
theorem token_place_marker (tok : List Char → Nat) (p : Pos) (off : Int × List Char → Option Bool) {ds f flags : List Char}
    (hds : ds ≠ []) (hdig : ∀ c ∈ ds, c.isDigit = true) (hf : ∀ c ∈ f, c ≠ '"' ∧ c ≠ '\\' ∧ c ≠ '\n') (hfl : '\n' ∉ flags)
    (rest : List Char) {y : Lx} (h : Steps tok (fun _ d => Plain d) ⟨⟨decimal ds, 1, f⟩, rest, off⟩ y) (hne : y.inp ≠ []) :
    Steps tok (fun _ _ => True) ⟨p, '#' :: ' ' :: (ds ++ ' ' :: '"' :: (f ++ '"' :: (flags ++ '\n' :: rest))), off⟩ y ∧
      ∃ used, rest = used ++ y.inp ∧ y.pos = place ⟨decimal ds, 1, f⟩ used := by
  obtain ⟨z, h1, h2⟩ := after_marker tok p off hds hdig hf hfl rest
  refine ⟨?_, token_place h hne⟩
  have base : Steps tok (fun _ _ => True) ⟨p, '#' :: ' ' :: (ds ++ ' ' :: '"' :: (f ++ '"' :: (flags ++ '\n' :: rest))), off⟩
      ⟨⟨decimal ds, 1, f⟩, rest, off⟩ := .tail _ _ _ _ (.tail _ _ _ _ (.refl _) h1 trivial) h2 trivial
  clear h1 h2 hne
  induction h with
  | refl => exact base
  | tail y z d _ hs _ ih => exact .tail _ _ _ _ ih hs trivial

/-- The hypotheses are met: a marker, a comment of two lines, a pragma, and the token `int` in line 10, column 3. -/
example : ∃ y, Steps (fun _ => 3) (fun _ d => Plain d)
    ⟨⟨decimal ['7'], 1, ['a']⟩, ['/', '*', '\n', '*', '/', '#', 'p', 'r', 'a', 'g', 'm', 'a', '\n', '/', '/', '#', '\n',
      ' ', ' ', 'i', 'n', 't'], fun _ => none⟩ y ∧ y.inp = ['i', 'n', 't'] ∧ y.pos = ⟨10, 3, ['a']⟩ := by
  refine ⟨⟨⟨10, 3, ['a']⟩, ['i', 'n', 't'], fun _ => none⟩, ?_, rfl, rfl⟩
  refine .tail _ _ _ .blanks (.tail _ _ _ .comment (.tail _ _ _ (.pragma .nothing) (.tail _ _ _ .comment (.refl _)
    rfl trivial) rfl ⟨by simp, by simp⟩) rfl trivial) rfl trivial

/-! ### Where the place is wrong -/

/-- Behind an unknown pragma, which is ignored with a warning, every place is one line too early. -/
theorem unknown_pragma_place_wrong :
    ∃ x y : Lx, Steps (fun _ => 1) (fun _ _ => True) x y ∧ y.inp ≠ [] ∧
      (∃ used, x.inp = used ++ y.inp ∧ place x.pos used = ⟨2, 1, []⟩) ∧ y.pos.line = 1 := by
  refine ⟨⟨⟨1, 1, []⟩, wPragma ++ [' ', 'o', 'n', 'c', 'e', '\n', 'x'], fun _ => none⟩, ⟨⟨1, 10, []⟩, ['x'], fun _ => none⟩,
    .tail _ _ _ (.pragma .unknown) (.refl _) rfl trivial, by simp, ⟨wPragma ++ [' ', 'o', 'n', 'c', 'e', '\n'], rfl, rfl⟩, rfl⟩

/-- A string literal over two lines is one token, and every place behind it is one line too early. -/
theorem long_string_place_wrong :
    ∃ (tok : List Char → Nat) (x y : Lx), tok x.inp = 4 ∧ x.inp.take 4 = ['"', 'a', '\n', '"'] ∧
      step tok x = .go (.token ['"', 'a', '\n', '"']) y ∧ (place x.pos ['"', 'a', '\n', '"']).line = 2 ∧ y.pos.line = 1 :=
  ⟨fun _ => 4, ⟨⟨1, 1, []⟩, ['"', 'a', '\n', '"', ';'], fun _ => none⟩, ⟨⟨1, 5, []⟩, [';'], fun _ => none⟩, rfl, rfl, rfl, rfl, rfl⟩

/-- Behind an illegal character every column of the line is one too large. -/
theorem illegal_column_wrong (x : Lx) (tok : List Char → Nat) (h : x.inp = ['$', 'x']) (ht : tok ['$', 'x'] = 0) :
    ∃ y, step tok x = .go (.illegal '$') y ∧ y.pos.col = (place x.pos ['$']).col + 1 := by
  obtain ⟨pos, inp, off⟩ := x
  dsimp only at h
  subst h
  refine ⟨⟨pos.adv 2, ['x'], off⟩, ?_, rfl⟩
  have : step tok ⟨pos, ['$', 'x'], off⟩ = (let n := tok ['$', 'x']
      if n = 0 then Out.go (.illegal '$') ⟨pos.adv 2, ['x'], off⟩
      else .go (.token (['$', 'x'].take n)) ⟨pos.adv n, ['$', 'x'].drop n, off⟩) := rfl
  rw [this, ht]
  rfl

/-- A pragma in a last line that has no new line character (possible with `--nocpp`) makes the compiler loop without end. -/
theorem pragma_at_end_hangs (tok : List Char → Nat) (p : Pos) (off : Int × List Char → Option Bool) {t : List Char} (h : '\n' ∉ t) :
    step tok ⟨p, wPragma ++ t, off⟩ = .hang := by
  have e : splitLine t = none := by
    cases hs : splitLine t with
    | none => rfl
    | some r =>
      obtain ⟨e, -⟩ := splitLine_eq (t := r.1) (r := r.2) (by rw [hs])
      exact absurd (by rw [e]; simp) h
  rw [step_hash tok _ (wPragma.tail ++ t) rfl, if_pos (by simp [wPragma])]
  show pragmaStep _ (List.drop wPragma.length (wPragma ++ t)) = _
  rw [List.drop_left]
  simp only [pragmaStep, e]

/-! ## Pragmas -/

def Blanks (b : List Char) : Prop := ∀ c ∈ b, c = ' ' ∨ c = '\t' ∨ c = '\r'

/-- The text behind `ignore warning` is nothing, or the word in parentheses; blanks may stand anywhere, but the character behind
the word is no tab. -/
def Form (w t : List Char) : Prop :=
  ∃ b₁ b₂ b₃ b₄, Blanks b₁ ∧ Blanks b₂ ∧ Blanks b₃ ∧ Blanks b₄ ∧ (b₃ = [] ∨ b₃.head? = some ' ') ∧
    t = b₁ ++ '(' :: (b₂ ++ (w ++ (b₃ ++ ')' :: b₄)))

theorem blank_iff (c : Char) : blank c = true ↔ c = ' ' ∨ c = '\t' ∨ c = '\r' := by
  simp [blank, or_assoc]

theorem skip_eq (t : List Char) : ∃ b, Blanks b ∧ t = b ++ skip t := by
  refine ⟨t.takeWhile blank, ?_, (List.takeWhile_append_dropWhile).symm⟩
  intro c hc
  rw [← blank_iff]
  induction t with
  | nil => cases hc
  | cons d t ih =>
    rw [List.takeWhile_cons] at hc
    split at hc
    · rcases List.mem_cons.1 hc with rfl | h
      · assumption
      · exact ih h
    · cases hc

theorem skip_blanks {b : List Char} (h : Blanks b) (t : List Char) : skip (b ++ t) = skip t := by
  induction b with
  | nil => rfl
  | cons c b ih =>
    have := (blank_iff c).2 (h c (by simp))
    show List.dropWhile blank (c :: (b ++ t)) = _
    rw [List.dropWhile_cons, if_pos this]
    exact ih fun d hd => h d (by simp [hd])

theorem skip_stop {c : Char} (h : blank c = false) (t : List Char) : skip (c :: t) = c :: t := by
  show List.dropWhile blank (c :: t) = _
  rw [List.dropWhile_cons, h]
  rfl

theorem skip_nil {t : List Char} (h : skip t = []) : Blanks t := by
  obtain ⟨b, hb, e⟩ := skip_eq t
  rw [h, List.append_nil] at e
  rwa [e]

/-- A word of the documented kind: it begins with no blank, and has neither spaces nor parentheses. -/
def Word (w : List Char) : Prop := (∀ c ∈ w, c ≠ ' ' ∧ c ≠ ')') ∧ ∀ c ∈ w.head?, blank c = false

theorem ignore_form {w t : List Char} (hw : Word w) (h : Form w t) :
    ignoreText t = if w = ['p', 'e', 'r', 'f'] then .perf else if w = ['a', 'l', 'l'] then .all else .badArg := by
  obtain ⟨b₁, b₂, b₃, b₄, h1, h2, h3, h4, h5, rfl⟩ := h
  unfold ignoreText
  rw [skip_blanks h1, skip_stop (by decide)]
  show ignorePar _ = _
  have e : skip (b₂ ++ (w ++ (b₃ ++ ')' :: b₄))) = w ++ (b₃ ++ ')' :: b₄) ∨ (w = [] ∧ skip (b₂ ++ (w ++ (b₃ ++ ')' :: b₄))) = ')' :: b₄) := by
    rw [skip_blanks h2]
    cases w with
    | nil =>
      right
      refine ⟨rfl, ?_⟩
      rw [List.nil_append, skip_blanks h3, skip_stop (by decide)]
    | cons c w => exact .inl (skip_stop (hw.2 c rfl) _)
  have hw1 : ∀ c ∈ w, (decide (c ≠ ' ') && decide (c ≠ ')')) = true := by
    intro c hc
    simp [hw.1 c hc]
  have hskip : skip (b₃ ++ ')' :: b₄) = ')' :: b₄ := by rw [skip_blanks h3, skip_stop (by decide)]
  have h4' : skip b₄ = [] := by
    have := skip_blanks h4 []
    rw [List.append_nil] at this
    exact this
  have hend : ignoreEnd w (')' :: b₄) = if w = ['p', 'e', 'r', 'f'] then .perf else if w = ['a', 'l', 'l'] then .all else .badArg := by
    simp only [ignoreEnd, h4', if_true]
  rcases e with e | ⟨rfl, e⟩
  · unfold ignorePar
    dsimp only
    rw [e]
    obtain ⟨c, q, hq, hc⟩ : ∃ c q, b₃ ++ ')' :: b₄ = c :: q ∧ (decide (c ≠ ' ') && decide (c ≠ ')')) = false := by
      cases b₃ with
      | nil => exact ⟨')', b₄, rfl, by decide⟩
      | cons c b =>
        rcases h5 with h | h
        · cases h
        · cases h
          exact ⟨' ', _, rfl, by decide⟩
    rw [hq] at hskip ⊢
    obtain ⟨e1, e2⟩ := takeWhile_stop (p := fun c => decide (c ≠ ' ') && decide (c ≠ ')')) hw1 hc q
    rw [e1, e2, if_neg (by simp), hskip]
    exact hend
  · unfold ignorePar
    dsimp only
    rw [e]
    obtain ⟨e1, e2⟩ := takeWhile_stop (p := fun c => decide (c ≠ ' ') && decide (c ≠ ')')) (t := []) (by simp) (c := ')') (by decide) b₄
    rw [List.nil_append] at e1 e2
    rw [e1, e2, if_neg (by simp), skip_stop (by decide)]
    exact hend

theorem ignore_of_form {t : List Char} (h : ignoreText t = .all ∨ ignoreText t = .perf) :
    (Blanks t ∧ ignoreText t = .all) ∨ (Form ['a', 'l', 'l'] t ∧ ignoreText t = .all) ∨ (Form ['p', 'e', 'r', 'f'] t ∧ ignoreText t = .perf) := by
  obtain ⟨b₁, h1, e1⟩ := skip_eq t
  revert h
  unfold ignoreText
  split
  · rename_i hs
    intro _
    exact .inl ⟨skip_nil hs, rfl⟩
  · rename_i c r hs
    split_ifs with hc
    · subst hc
      obtain ⟨b₂, h2, e2⟩ := skip_eq r
      unfold ignorePar
      dsimp only
      split_ifs with hq
      · intro h; rcases h with h | h <;> cases h
      · obtain ⟨b₃, h3, e3⟩ := skip_eq ((skip r).dropWhile fun c => decide (c ≠ ' ') && decide (c ≠ ')'))
        generalize hq' : skip ((skip r).dropWhile fun c => decide (c ≠ ' ') && decide (c ≠ ')')) = z at e3
        unfold ignoreEnd
        split
        · intro h; rcases h with h | h <;> cases h
        · rename_i d q'
          have hb3 : b₃ = [] ∨ b₃.head? = some ' ' := by
            cases b₃ with
            | nil => exact .inl rfl
            | cons c b =>
              right
              have hc := List.head?_dropWhile_not (fun c => decide (c ≠ ' ') && decide (c ≠ ')')) (skip r)
              rw [e3] at hc
              have hcb := h3 c (by simp)
              simp only [List.cons_append, List.head?_cons] at hc ⊢
              rcases hcb with rfl | rfl | rfl
              · rfl
              · revert hc; decide
              · revert hc; decide
          have form : ∀ w, d = ')' → ((skip r).takeWhile fun c => decide (c ≠ ' ') && decide (c ≠ ')')) = w → skip q' = [] → Form w t := by
            intro w hd hw hq4
            refine ⟨b₁, b₂, b₃, q', h1, h2, h3, skip_nil hq4, hb3, ?_⟩
            rw [hd] at e3
            rw [← e3, ← hw, List.takeWhile_append_dropWhile, ← e2, ← hs]
            exact e1
          split_ifs with g0 g1 g2 g3
          · intro _; exact .inr (.inr ⟨form _ g0 g2 g1, rfl⟩)
          · intro _; exact .inr (.inl ⟨form _ g0 g3 g1, rfl⟩)
          · intro h; rcases h with h | h <;> cases h
          · intro h; rcases h with h | h <;> cases h
          · intro h; rcases h with h | h <;> cases h
    · intro h; rcases h with h | h <;> cases h

/-- **`#pragma ignore warning` and `#pragma ignore warning(all)` turn off all warnings,** and nothing else does. -/
theorem ignore_all_iff (t : List Char) : ignoreText t = .all ↔ Blanks t ∨ Form ['a', 'l', 'l'] t := by
  constructor
  · intro h
    rcases ignore_of_form (.inl h) with h' | h' | h'
    · exact .inl h'.1
    · exact .inr h'.1
    · rw [h] at h'; exact absurd h'.2 (by simp)
  · rintro (h | h)
    · have := skip_blanks h []
      rw [List.append_nil] at this
      unfold ignoreText
      rw [this]
      rfl
    · rw [ignore_form (by constructor <;> simp [blank]) h]; rfl

/-- **`#pragma ignore warning(perf)` turns off performance warnings,** and nothing else does. -/
theorem ignore_perf_iff (t : List Char) : ignoreText t = .perf ↔ Form ['p', 'e', 'r', 'f'] t := by
  constructor
  · intro h
    rcases ignore_of_form (.inr h) with h' | h' | h'
    · rw [h] at h'; exact absurd h'.2 (by simp)
    · rw [h] at h'; exact absurd h'.2 (by simp)
    · exact h'.1
  · intro h
    rw [ignore_form (by constructor <;> simp [blank]) h]; rfl

example : ignoreText [' ', '(', ' ', 'a', 'l', 'l', ' ', ')'] = .all ∧ ignoreText ['(', 'a', 'l', 'l', '\t', ')'] = .badArg := by
  decide +kernel

theorem splitLine_append {t : List Char} (h : '\n' ∉ t) (r : List Char) : splitLine (t ++ '\n' :: r) = some (t, r) := by
  induction t with
  | nil => rfl
  | cons c t ih =>
    rw [List.mem_cons, not_or] at h
    rw [List.cons_append]
    simp only [splitLine]
    rw [if_neg (fun e => h.1 e.symm), ih h.2]
    rfl

/-- **A pragma is its line,** and the lexer goes on behind the new line character. -/
theorem pragma_step (tok : List Char → Nat) (p : Pos) (off : Int × List Char → Option Bool) {b t : List Char} (hb : Blanks b)
    (ht : '\n' ∉ t) (r : List Char) :
    step tok ⟨p, wPragma ++ (b ++ (wIgnore ++ (t ++ '\n' :: r))), off⟩ =
      .go (.pragma (.ignore (ignoreText t)))
        ⟨if ignoreText t = .undefined then p.adv (8 + b.length) else p.nl, r, turnOff p off (.ignore (ignoreText t))⟩ := by
  have hn : '\n' ∉ b ++ (wIgnore ++ t) := by
    rw [List.mem_append, List.mem_append, not_or, not_or]
    refine ⟨fun h => ?_, by decide, ht⟩
    have := hb _ h
    revert this
    decide
  have hs := splitLine_append hn r
  rw [List.append_assoc, List.append_assoc] at hs
  have hsk : skip (b ++ (wIgnore ++ t)) = wIgnore ++ t := by
    rw [skip_blanks hb]
    exact skip_stop (by decide) _
  have hc : classify (b ++ (wIgnore ++ t)) = .ignore (ignoreText t) := by
    simp only [classify, hsk]
    rw [if_neg (by simp [wIgnore]), if_neg (by simp [wIgnore, wUnroll]), if_neg (by simp [wIgnore, wNounroll]), if_pos (by simp),
      List.drop_left]
  have hb' : ((b ++ (wIgnore ++ t)).takeWhile blank).length = b.length := by
    have := takeWhile_stop (p := blank) (t := b) (fun c hc => (blank_iff c).2 (hb c hc)) (c := 'i') (by decide) (wIgnore.tail ++ t)
    rw [show b ++ (wIgnore ++ t) = b ++ 'i' :: (wIgnore.tail ++ t) from rfl, this.1]
  rw [step_hash tok _ (wPragma.tail ++ (b ++ (wIgnore ++ (t ++ '\n' :: r)))) rfl, if_pos (by simp [wPragma])]
  show pragmaStep _ (List.drop wPragma.length (wPragma ++ (b ++ (wIgnore ++ (t ++ '\n' :: r))))) = _
  rw [List.drop_left]
  simp only [pragmaStep, hs, hc, hb']
  congr 2
  cases ignoreText t <;> rfl

/-! ## The table -/

/-- The step is a pragma that concerns line `k.1` of the file `k.2`: it stands in the line before. -/
def Concerns (k : Int × List Char) (x : Lx) (d : Did) (perf : Bool) : Prop :=
  d = .pragma (.ignore (if perf then .perf else .all)) ∧ k = (x.pos.line + 1, x.pos.name)

theorem turnOff_eq (p : Pos) (off : Int × List Char → Option Bool) (q : Pragma) (k : Int × List Char) (b : Bool) :
    turnOff p off q k = some b ↔
      (q = .ignore (if b then .perf else .all) ∧ k = (p.line + 1, p.name)) ∨
        ((∀ c : Bool, ¬ (q = .ignore (if c then .perf else .all) ∧ k = (p.line + 1, p.name))) ∧ off k = some b) := by
  cases q with
  | ignore r => cases r <;> cases b <;> by_cases hk : k = (p.line + 1, p.name) <;> simp [turnOff, hk]
  | _ => simp [turnOff]

theorem step_off {tok : List Char → Nat} {x y : Lx} {d : Did} (h : step tok x = .go d y) (k : Int × List Char) (b : Bool) :
    y.off k = some b ↔ Concerns k x d b ∨ ((∀ c, ¬ Concerns k x d c) ∧ x.off k = some b) := by
  have other : y.off = x.off → (∀ q, d ≠ .pragma q) →
      (y.off k = some b ↔ Concerns k x d b ∨ ((∀ c, ¬ Concerns k x d c) ∧ x.off k = some b)) := by
    intro e hd
    have : ∀ c, ¬ Concerns k x d c := fun c hc => hd _ hc.1
    rw [e]
    simp [this]
  unfold step at h
  split at h
  · cases h
  · cases h; exact other rfl (by simp)
  · cases h; exact other rfl (by simp)
  · cases h; exact other rfl (by simp)
  · split at h
    · cases h; exact other rfl (by simp)
    · split at h
      · unfold pragmaStep at h
        split at h
        · cases h
        · cases h
          rename_i t _ _
          simp only [Concerns, turnOff_eq, Did.pragma.injEq]
      · split at h
        · split at h
          · cases h
          · cases h; exact other rfl (by simp)
        · dsimp only at h
          split at h
          · cases h; exact other rfl (by simp)
          · cases h; exact other rfl (by simp)

/-- **Warnings are off for a line exactly if a pragma in the line before it says so;** when the lexer has passed several lines of
that number and file, the last counts. -/
theorem off_iff {tok : List Char → Nat} {x y : Lx} (h : Steps tok (fun _ _ => True) x y) (hx : ∀ k, x.off k = none)
    (k : Int × List Char) (b : Bool) :
    y.off k = some b ↔ ∃ u v d, Steps tok (fun _ _ => True) x u ∧ step tok u = .go d v ∧ Concerns k u d b ∧
      Steps tok (fun z e => ∀ c, ¬ Concerns k z e c) v y := by
  induction h with
  | refl =>
    constructor
    · intro h; rw [hx] at h; cases h
    · rintro ⟨u, v, d, h1, h2, h3, h4⟩
      -- the table of `v` has the entry, and it stays
      exact keep h2 h3 h4
  | tail y z d hxy hs _ ih =>
    rw [step_off hs]
    constructor
    · rintro (h | ⟨h1, h2⟩)
      · exact ⟨y, z, d, hxy, hs, h, .refl _⟩
      · obtain ⟨u, v, e, g1, g2, g3, g4⟩ := ih.1 h2
        exact ⟨u, v, e, g1, g2, g3, .tail _ _ _ _ g4 hs h1⟩
    · rintro ⟨u, v, e, g1, g2, g3, g4⟩
      rw [← step_off hs]
      exact keep g2 g3 g4
where
  keep {tok : List Char → Nat} {k : Int × List Char} {b : Bool} {u v y : Lx} {d : Did} (h2 : step tok u = .go d v)
      (h3 : Concerns k u d b) (h4 : Steps tok (fun z e => ∀ c, ¬ Concerns k z e c) v y) : y.off k = some b := by
    induction h4 with
    | refl => exact (step_off h2 k b).2 (.inl h3)
    | tail y z d' _ hs hn ih => exact (step_off hs k b).2 (.inr ⟨hn, ih⟩)

/-- The hypotheses are met: the line behind the pragma is without warnings, and the pragma stands in line 4. -/
example : ∃ y, Steps (fun _ => 1) (fun _ _ => True) ⟨⟨4, 1, ['a']⟩, wPragma ++ ([' '] ++ (wIgnore ++ ([] ++ '\n' :: ['x']))), fun _ => none⟩ y ∧
    y.off (5, ['a']) = some false ∧ y.pos = ⟨5, 1, ['a']⟩ :=
  ⟨_, .tail _ _ _ _ (.refl _) (pragma_step (fun _ => 1) ⟨4, 1, ['a']⟩ (fun _ => none) (b := [' ']) (t := []) (by simp [Blanks]) (by simp) ['x'])
    trivial, rfl, rfl⟩

/-! ## Messages -/

/-- A warning about a place is silenced: its last line follows a pragma for all warnings. -/
def Silenced (off : Int × List Char → Option Bool) (p : Range) : Prop := off (p.lastLine, p.name) = some false

/-- A performance warning about a place is silenced: its last line follows a pragma. -/
def PerfSilenced (off : Int × List Char → Option Bool) (p : Range) : Prop := off (p.lastLine, p.name) ≠ none

/-- What makes the compilation fail. -/
def Fails (o : Opts) (off : Int × List Char → Option Bool) (m : Msg) : Prop :=
  m.kind = .error ∨
  (m.kind = .warning ∧ o.werror = true ∧ ¬ Silenced off m.pos) ∨
  (m.kind = .perf ∧ o.werror = true ∧ o.perf = true ∧ o.quiet = false ∧ ¬ wStdlib <:+ m.pos.name ∧ ¬ PerfSilenced off m.pos)

/-- What is written, if there is no limit to the number of errors. -/
def Shown (o : Opts) (off : Int × List Char → Option Bool) (m : Msg) : Prop :=
  o.quiet = false ∧
  (m.kind = .error ∨
  (m.kind = .warning ∧ o.woff = false ∧ ¬ Silenced off m.pos) ∨
  (m.kind = .perf ∧ o.perf = true ∧ ¬ wStdlib <:+ m.pos.name ∧ ¬ PerfSilenced off m.pos))

theorem print_errors (r : Rep) (m : Msg) : (r.print m).errors = r.errors := by
  unfold Rep.print
  split <;> rfl

theorem print_written (r : Rep) (m m' : Msg) : m' ∈ (r.print m).written ↔ m' = m ∨ m' ∈ r.written := by
  unfold Rep.print
  split
  · constructor
    · exact .inr
    · rintro (rfl | h) <;> assumption
  · simp

theorem report_errors (o : Opts) (off : Int × List Char → Option Bool) (r : Rep) (m : Msg) :
    ((report o off r m).errors = r.errors + 1 ∧ Fails o off m) ∨ ((report o off r m).errors = r.errors ∧ ¬ Fails o off m) := by
  obtain ⟨k, p, t⟩ := m
  cases k with
  | error =>
    left
    refine ⟨?_, .inl rfl⟩
    simp only [report]
    split_ifs <;> simp [print_errors]
  | warning =>
    simp only [report, Fails, Silenced]
    split_ifs <;> simp_all [print_errors]
  | perf =>
    simp only [report, Fails, PerfSilenced]
    split_ifs <;> simp_all [print_errors]; grind

theorem report_written (o : Opts) (ho : o.limit = none) (off : Int × List Char → Option Bool) (r : Rep) (m m' : Msg) :
    m' ∈ (report o off r m).written ↔ (m' = m ∧ Shown o off m) ∨ m' ∈ r.written := by
  obtain ⟨k, p, t⟩ := m
  cases k with
  | error =>
    simp only [report, Shown, ho, Option.any_none]
    split_ifs <;> simp_all [print_written]
  | warning =>
    simp only [report, Shown, Silenced]
    split_ifs <;> simp_all [print_written] <;> grind
  | perf =>
    simp only [report, Shown, PerfSilenced]
    split_ifs <;> simp_all [print_written]; grind

theorem foldl_errors (o : Opts) (off : Int × List Char → Option Bool) (ms : List Msg) (r : Rep) :
    0 < (ms.foldl (report o off) r).errors ↔ 0 < r.errors ∨ ∃ m ∈ ms, Fails o off m := by
  induction ms generalizing r with
  | nil => simp
  | cons m ms ih =>
    rw [List.foldl_cons, ih]
    rcases report_errors o off r m with ⟨h1, h2⟩ | ⟨h1, h2⟩ <;> simp [h1, h2]

/-- **A compilation fails exactly if an error was found, or, with `--werror`, a warning that is not silenced.** -/
theorem fails_iff (o : Opts) (off : Int × List Char → Option Bool) (ms : List Msg) :
    0 < (reports o off ms).errors ↔ ∃ m ∈ ms, Fails o off m := by
  unfold reports
  rw [foldl_errors]
  simp

/-- **A message is written exactly if the options and the pragmas allow it;** every message once. -/
theorem written_iff (o : Opts) (ho : o.limit = none) (off : Int × List Char → Option Bool) (ms : List Msg) (m : Msg) :
    m ∈ (reports o off ms).written ↔ m ∈ ms ∧ Shown o off m := by
  have : ∀ r : Rep, m ∈ (ms.foldl (report o off) r).written ↔ m ∈ r.written ∨ (m ∈ ms ∧ Shown o off m) := by
    induction ms with
    | nil => simp
    | cons a ms ih =>
      intro r
      rw [List.foldl_cons, ih, report_written o ho, List.mem_cons]
      constructor
      · rintro ((⟨rfl, h⟩ | h) | h)
        · exact .inr ⟨.inl rfl, h⟩
        · exact .inl h
        · exact .inr ⟨.inr h.1, h.2⟩
      · rintro (h | ⟨rfl | h, h'⟩)
        · exact .inl (.inr h)
        · exact .inl (.inl ⟨rfl, h'⟩)
        · exact .inr ⟨h, h'⟩
  unfold reports
  rw [this]
  simp

theorem written_once (o : Opts) (off : Int × List Char → Option Bool) (ms : List Msg) : (reports o off ms).written.Nodup := by
  have hp : ∀ (r : Rep) (m : Msg), r.written.Nodup → (r.print m).written.Nodup := by
    intro r m h
    unfold Rep.print
    split
    · exact h
    · rename_i hm
      exact List.nodup_cons.2 ⟨hm, h⟩
  have hr : ∀ (r : Rep) (m : Msg), r.written.Nodup → (report o off r m).written.Nodup := by
    intro r m h
    unfold report
    split
    · dsimp only
      split_ifs
      · exact h
      · exact h
      · exact hp _ _ h
    · dsimp only
      split_ifs
      all_goals first | exact h | exact hp _ _ h
    · dsimp only
      split_ifs
      all_goals first | exact h | exact hp _ _ h
  have : ∀ r : Rep, r.written.Nodup → (ms.foldl (report o off) r).written.Nodup := by
    induction ms with
    | nil => exact fun r h => h
    | cons m ms ih => exact fun r h => ih _ (hr r m h)
  exact this _ List.nodup_nil

/-- With `--error-limit=n` the first `n` errors are written, if nothing else counts as an error. -/
theorem limit_errors (o : Opts) (n : Nat) (ho : o.limit = some n) (hq : o.quiet = false) (off : Int × List Char → Option Bool)
    (ms : List Msg) (hk : ∀ m ∈ ms, m.kind = .error) (m : Msg) : m ∈ (reports o off ms).written ↔ m ∈ ms.take n := by
  have : ∀ r : Rep, m ∈ (ms.foldl (report o off) r).written ↔ m ∈ r.written ∨ m ∈ ms.take (n - r.errors) := by
    induction ms with
    | nil => simp
    | cons a ms ih =>
      intro r
      have ha := hk a (by simp)
      rw [List.foldl_cons, ih fun b hb => hk b (by simp [hb])]
      have e : report o off r a = if n ≤ r.errors then { r with errors := r.errors + 1 }
          else Rep.print { r with errors := r.errors + 1 } a := by
        unfold report
        rw [ha]
        simp only [ho, Option.any_some, hq, Nat.add_sub_cancel, decide_eq_true_eq]
        rfl
      rw [e]
      split
      · rename_i h
        simp [Nat.sub_eq_zero_of_le h, Nat.sub_eq_zero_of_le (Nat.le_succ_of_le h)]
      · rename_i h
        obtain ⟨d, hd⟩ : ∃ d, n - r.errors = d + 1 := ⟨n - r.errors - 1, by omega⟩
        rw [hd, List.take_succ_cons, print_written, print_errors, List.mem_cons]
        have : n - (r.errors + 1) = d := by omega
        rw [this]
        constructor
        · rintro ((h | h) | h) <;> simp [h]
        · rintro (h | h | h) <;> simp [h]
  unfold reports
  rw [this]
  simp

/-- A warning about line 5, an error about line 6, and a performance warning: with a pragma before line 5 and `--werror` only the
last two count. -/
example :
    let off : Int × List Char → Option Bool := fun k => if k = (5, ['a']) then some false else none
    let ms : List Msg := [⟨.warning, ⟨['a'], 5, 1, 5, 4⟩, ['w']⟩, ⟨.error, ⟨['a'], 6, 1, 6, 4⟩, ['e']⟩, ⟨.perf, ⟨['a'], 7, 1, 7, 4⟩, ['p']⟩]
    (reports { werror := true } off ms).errors = 2 ∧ (reports { werror := true } off ms).written.length = 2 := by
  decide +kernel

/-- With `--woff` and `--werror` a compilation can fail without any message. -/
theorem silent_failure :
    ∃ (o : Opts) (ms : List Msg), o.quiet = false ∧ o.limit = none ∧ 0 < (reports o (fun _ => none) ms).errors ∧
      (reports o (fun _ => none) ms).written = [] :=
  ⟨{ werror := true, woff := true, perf := false }, [⟨.warning, ⟨['a'], 5, 1, 5, 4⟩, ['w']⟩], rfl, rfl, by decide, rfl⟩

/-- A pragma silences the line in which the text that the warning is about ends.  The warning that names line 5 is written though
the pragma stands in line 4, when the text goes on in line 6. -/
theorem first_line_silenced_wrong :
    ∃ (off : Int × List Char → Option Bool) (m : Msg), m.kind = .warning ∧ off (m.pos.firstLine, m.pos.name) = some false ∧
      m ∈ (reports {} off [m]).written :=
  ⟨fun k => if k = (5, ['a']) then some false else none, ⟨.warning, ⟨['a'], 5, 1, 6, 4⟩, ['w']⟩, rfl, rfl, by decide +kernel⟩

/-- **A warning about text within one line is silenced exactly by a pragma in the line before.** -/
theorem one_line_silenced {tok : List Char → Nat} {x y : Lx} (h : Steps tok (fun _ _ => True) x y) (hx : ∀ k, x.off k = none)
    (m : Msg) (hk : m.kind = .warning) (hm : m.pos.firstLine = m.pos.lastLine) (ms : List Msg) (hin : m ∈ ms) :
    m ∈ (reports {} y.off ms).written ↔
      ¬ ∃ u v d, Steps tok (fun _ _ => True) x u ∧ step tok u = .go d v ∧
        (d = .pragma (.ignore .all) ∧ u.pos.line + 1 = m.pos.firstLine ∧ u.pos.name = m.pos.name) ∧
        Steps tok (fun z e => ∀ c, ¬ Concerns (m.pos.firstLine, m.pos.name) z e c) v y := by
  rw [written_iff {} rfl]
  have := off_iff h hx (m.pos.lastLine, m.pos.name) false
  simp only [Shown, hk, hin, Silenced, this, true_and, reduceCtorEq, false_and, false_or, or_false, hm]
  rw [not_iff_not]
  constructor
  · rintro ⟨u, v, d, g1, g2, ⟨g3, g4⟩, g5⟩
    rw [Prod.mk.injEq] at g4
    exact ⟨u, v, d, g1, g2, ⟨g3, g4.1.symm, g4.2.symm⟩, g5⟩
  · rintro ⟨u, v, d, g1, g2, ⟨g3, g4, g5⟩, g6⟩
    exact ⟨u, v, d, g1, g2, ⟨g3, by rw [Prod.mk.injEq]; exact ⟨g4.symm, g5.symm⟩⟩, g6⟩

/-! ## Ranges -/

/-- The place `(l, c)` is not before the beginning of the range. -/
def Range.StartsBy (r : Range) (l c : Int) : Prop := r.firstLine < l ∨ (r.firstLine = l ∧ r.firstCol ≤ c)

/-- The union of two ranges that begin in the same line begins where the first of them does. -/
theorem union_one_line {p q : Range} (hn : p.name = q.name) (hl : p.firstLine = q.firstLine) :
    ((p.union q).firstLine, (p.union q).firstCol) = (p.firstLine, p.firstCol) ∧ p.firstCol ≤ q.firstCol ∨
    ((p.union q).firstLine, (p.union q).firstCol) = (q.firstLine, q.firstCol) ∧ q.firstCol ≤ p.firstCol := by
  unfold Range.union
  rw [if_neg (by simp [hn])]
  simp only [Prod.mk.injEq]
  omega

/-- The union begins before both ranges, but, when they are in different lines, perhaps where neither of them does. -/
theorem union_starts {p q : Range} (hn : p.name = q.name) :
    (p.union q).StartsBy p.firstLine p.firstCol ∧ (p.union q).StartsBy q.firstLine q.firstCol := by
  unfold Range.union Range.StartsBy
  rw [if_neg (by simp [hn])]
  dsimp only
  constructor <;> omega

theorem union_place_wrong :
    ∃ p q : Range, p.name = q.name ∧ p.StartsBy q.firstLine q.firstCol ∧
      ((p.union q).firstLine, (p.union q).firstCol) ≠ (p.firstLine, p.firstCol) ∧
      ((p.union q).firstLine, (p.union q).firstCol) ≠ (q.firstLine, q.firstCol) :=
  ⟨⟨[], 3, 20, 3, 25⟩, ⟨[], 4, 5, 4, 9⟩, rfl, .inl (by decide), by decide, by decide⟩

/-! ## `#pragma unroll` -/

/-- **`#pragma unroll n`, with or without parentheses, asks for `n`.** -/
theorem unroll_count (d : Char) (ds b₁ b₂ b₃ : List Char) (n : Nat) (hd : ∀ c ∈ d :: ds, c.isDigit = true) (hz : d ≠ '0')
    (hv : Literal.scanDigits 10 (d :: ds) 0 = (n, [])) (hn : n < 2 ^ 31) (hp : 0 < n) (h1 : Blanks b₁) (h2 : Blanks b₂) (h3 : Blanks b₃) :
    unrollText (b₁ ++ (d :: ds ++ b₂)) = (.count (BitVec.ofNat 32 n), []) ∧
    unrollText (b₁ ++ '(' :: (b₃ ++ (d :: ds ++ (b₂ ++ [')'])))) = (.count (BitVec.ofNat 32 n), []) := by
  have hscan : ∀ (r : List Char), (∀ c ∈ r.head?, Literal.digitOf c = none) → Literal.scanDigits 10 (d :: ds ++ r) 0 = (n, r) := by
    intro r hr
    have gen : ∀ (l : List Char) (v m : Nat), Literal.scanDigits 10 l v = (m, []) → Literal.scanDigits 10 (l ++ r) v = (m, r) := by
      intro l
      induction l with
      | nil =>
        intro v m h
        cases h
        cases r with
        | nil => rfl
        | cons c r => simp only [List.nil_append, Literal.scanDigits, hr c rfl]
      | cons c l ih =>
        intro v m h
        rw [List.cons_append]
        unfold Literal.scanDigits at h ⊢
        cases hc : Literal.digitOf c with
        | none => rw [hc] at h; simp at h
        | some x =>
          rw [hc] at h
          dsimp only at h ⊢
          split at h
          · rename_i hx; rw [if_pos hx]; exact ih _ _ h
          · simp at h
    exact gen _ _ _ hv
  have hnum : ∀ (r : List Char), (∀ c ∈ r.head?, Literal.digitOf c = none) →
      Literal.strtoull (d :: ds ++ r) = (BitVec.ofNat 64 n, r) := by
    intro r hr
    have : Literal.scanNumber (d :: ds ++ r) = (n, r) := by
      rw [← hscan r hr, List.cons_append]
      unfold Literal.scanNumber
      split
      · rename_i h; exact absurd (List.cons.inj h).1 hz
      · rename_i h; exact absurd (List.cons.inj h).1 hz
      · rfl
    simp only [Literal.strtoull, this]
    rw [if_pos (by omega)]
  have hdd : d.isDigit = true := hd d (by simp)
  have hdg : 48 ≤ d.toNat ∧ d.toNat ≤ 57 := by
    have := hdd
    simp only [Char.isDigit, Bool.and_eq_true, decide_eq_true_eq] at this
    exact ⟨this.1, this.2⟩
  have hne : ∀ c : Char, ¬ (48 ≤ c.toNat ∧ c.toNat ≤ 57) → d ≠ c := fun c hc e => hc (e ▸ hdg)
  have hbl : blank d = false := by
    cases hb : blank d with
    | false => rfl
    | true =>
      rw [blank_iff] at hb
      rcases hb with rfl | rfl | rfl <;> exact absurd hdg (by decide)
  have hst : ∀ (b r : List Char), Blanks b → (∀ c ∈ r.head?, Literal.digitOf c = none) →
      strtoull (b ++ (d :: ds ++ r)) = (BitVec.ofNat 64 n, r) := by
    intro b r hb hr
    have hdrop : (b ++ (d :: ds ++ r)).dropWhile (fun c => blank c || c == '\x0b' || c == '\x0c') = d :: (ds ++ r) := by
      have := (takeWhile_stop (p := fun c => blank c || c == '\x0b' || c == '\x0c') (t := b) (fun c hc => by
        simp [(blank_iff c).2 (hb c hc)]) (c := d) (by simp [hbl, hne '\x0b' (by decide), hne '\x0c' (by decide)]) (ds ++ r)).2
      exact this
    have := hnum r hr
    unfold strtoull
    dsimp only
    rw [hdrop]
    split
    · rename_i h; exact absurd (List.cons.inj h).1 (hne _ (by decide))
    · rename_i h; exact absurd (List.cons.inj h).1 (hne _ (by decide))
    · rename_i h
      obtain ⟨rfl, rfl⟩ := List.cons.inj h
      rw [if_pos hdd]
      exact this
    · rename_i h; cases h
  have hcnt : (BitVec.ofNat 64 n).setWidth 32 = BitVec.ofNat 32 n := by
    apply BitVec.eq_of_toNat_eq
    simp only [BitVec.toNat_setWidth, BitVec.toNat_ofNat]
    omega
  have hc0 : BitVec.ofNat 32 n ≠ 0 := by
    intro h
    have := congrArg BitVec.toNat h
    simp only [BitVec.toNat_ofNat, BitVec.ofNat_eq_ofNat, Nat.zero_mod] at this
    omega
  have hnd : ∀ b : List Char, Blanks b → ∀ r, (∀ c ∈ List.head? r, Literal.digitOf c = none) →
      ∀ c ∈ (b ++ r).head?, Literal.digitOf c = none := by
    intro b hb r hr c hc
    cases b with
    | nil => exact hr c hc
    | cons x b =>
      simp only [List.cons_append, List.head?_cons, Option.mem_some_iff] at hc
      subst hc
      rcases hb x (by simp) with rfl | rfl | rfl <;> decide
  constructor
  · unfold unrollText
    rw [skip_blanks h1, List.cons_append, skip_stop hbl]
    have e := hst [] b₂ (by simp [Blanks]) (by
      have := hnd b₂ h2 [] (by simp)
      rwa [List.append_nil] at this)
    rw [List.nil_append, List.cons_append] at e
    have hp' : d ≠ '(' := hne _ (by decide)
    simp only [hp', decide_false, Bool.false_eq_true, if_false, e, hcnt, hc0, false_and, List.append_nil]
  · unfold unrollText
    rw [skip_blanks h1, skip_stop (by decide)]
    have e := hst b₃ (b₂ ++ [')']) h3 (hnd b₂ h2 [')'] (by
      intro c hc
      simp only [List.head?_cons, Option.mem_some_iff] at hc
      subst hc
      decide))
    have e2 : skip (b₂ ++ [')']) = [')'] := by rw [skip_blanks h2]; exact skip_stop (by decide) _
    simp only [decide_true, if_true, e, hcnt, hc0, false_and, if_false, e2, List.head?_cons, ne_eq, not_true_eq_false, and_false,
      List.append_nil]

example : unrollText [' ', '(', '1', '2', ' ', ')'] = (.count 12, []) := by decide +kernel

/-- A count of zero is an error, but text that is no number is taken as the count 0 without one; negative numbers and text behind
the number are accepted. -/
theorem unroll_text_wrong :
    unrollText [' ', '0'] = (.count 0, [.zero]) ∧ unrollText [' ', 'N'] = (.count 0, []) ∧
      unrollText ['(', '-', '3', ')'] = (.count (-3), []) ∧ unrollText [' ', '4', ' ', 'x'] = (.count 4, []) := by
  decide +kernel

end Ispc.SrcPos
