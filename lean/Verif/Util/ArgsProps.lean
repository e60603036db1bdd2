import Verif.Util.Args

/-!
# Arguments from ISPC_ARGS and @files

docs/ispc.rst:1821-1838.  `Words` is what the documentation says, `Reads` what the
code does with quotation marks, `Expands` the replacement of `@file` arguments.
-/

namespace Ispc.Args

/-! ## The specification -/

/-- Nothing but white space. -/
def Blank (s : List Char) : Prop := ∀ c ∈ s, isSpace c = true

/-- `s` consists of the words `ws` separated by white space. -/
inductive Words : List Char → List (List Char) → Prop
  | blank {s} : Blank s → Words s []
  | last {sp w} : Blank sp → w ≠ [] → (∀ c ∈ w, isSpace c = false) → Words (sp ++ w) [w]
  | cons {sp w c r ws} : Blank sp → w ≠ [] → (∀ c ∈ w, isSpace c = false) → isSpace c = true → Words r ws →
      Words (sp ++ (w ++ c :: r)) (w :: ws)

/-- A quotation mark. -/
def IsQuote (c : Char) : Prop := c = '"' ∨ c = '\''

/-- The text of an argument and its value: bare characters, and text between quotation marks of the same
kind. -/
inductive Arg : List Char → List Char → Prop
  | nil : Arg [] []
  | bare {c s v} : isSpace c = false → ¬ IsQuote c → Arg s v → Arg (c :: s) (c :: v)
  | quoted {q t s v} : IsQuote q → q ∉ t → Arg s v → Arg (q :: (t ++ q :: s)) (t ++ v)

/-- `s` consists of arguments with these values, separated by white space; a quotation mark that is not
closed reaches to the end. -/
inductive Reads : List Char → List (List Char) → Prop
  | blank {s} : Blank s → Reads s []
  | last {sp s v} : Blank sp → s ≠ [] → Arg s v → Reads (sp ++ s) [v]
  | unclosed {sp s v q t} : Blank sp → Arg s v → IsQuote q → q ∉ t → Reads (sp ++ (s ++ q :: t)) [v ++ t]
  | cons {sp s v c r vs} : Blank sp → s ≠ [] → Arg s v → isSpace c = true → Reads r vs →
      Reads (sp ++ (s ++ c :: r)) (v :: vs)

mutual
/-- The arguments that take the place of an argument, with files nested at most `d` deep. -/
inductive Expands (files : List Char → Option (List Char)) : Nat → List Char → List (List Char) → Prop
  | plain {d a} : a.head? ≠ some '@' → Expands files d a [a]
  | missing {d name} : files name = none → Expands files d ('@' :: name) ['@' :: name]
  | file {d name text args as} : files name = some text → '\x00' ∉ text → Reads text args → ExpandsAll files d args as →
      Expands files (d + 1) ('@' :: name) as
/-- The same for a list of arguments, in order. -/
inductive ExpandsAll (files : List Char → Option (List Char)) : Nat → List (List Char) → List (List Char) → Prop
  | nil {d} : ExpandsAll files d [] []
  | cons {d a as bs cs} : Expands files d a bs → ExpandsAll files d as cs → ExpandsAll files d (a :: as) (bs ++ cs)
end

/-! ## Splitting -/

theorem nul_not_space : isSpace '\x00' = false := by decide

theorem skip_blank : ∀ (sp : List Char) {s : List Char}, Blank sp → skip (sp ++ s) = skip s
  | [], _, _ => rfl
  | c :: sp, s, h => by
    rw [List.cons_append, skip, if_pos (h c List.mem_cons_self)]
    exact skip_blank sp fun x hx => h x (List.mem_cons_of_mem _ hx)

theorem quote_not_space {q : Char} (h : IsQuote q) : isSpace q = false := by
  rcases h with h | h <;> subst h <;> decide

theorem quote_not_nul {q : Char} (h : IsQuote q) : (q == '\x00') = false := by
  rcases h with h | h <;> subst h <;> decide

/-- Inside quotation marks. -/
def inside (q : Char) : Bool × Bool := (q == '"', q == '\'')

theorem collect_inside {q : Char} (hq : IsQuote q) : ∀ (t : List Char) {s : List Char}, q ∉ t → '\x00' ∉ t →
    collect (inside q).1 (inside q).2 (t ++ s) =
      (t ++ (collect (inside q).1 (inside q).2 s).1, (collect (inside q).1 (inside q).2 s).2)
  | [], _, _, _ => rfl
  | c :: t, s, h, h0 => by
    have hc : q ≠ c := fun e => h (e ▸ List.mem_cons_self)
    have hn : c ≠ '\x00' := fun e => h0 (e ▸ List.mem_cons_self)
    have ih := collect_inside hq t (s := s) (fun e => h (List.mem_cons_of_mem _ e)) (fun e => h0 (List.mem_cons_of_mem _ e))
    rcases hq with rfl | rfl
    · have hc' : (c == '"') = false := by simp [Ne.symm hc]
      have hn' : (c == '\x00') = false := by simp [hn]
      simp only [inside, List.cons_append] at *
      rw [collect, hn', hc']
      simp at ih ⊢
      simp [ih]
    · have hc' : (c == '\'') = false := by simp [Ne.symm hc]
      have hn' : (c == '\x00') = false := by simp [hn]
      simp only [inside, List.cons_append] at *
      rw [collect, hn', hc']
      simp at ih ⊢
      simp [ih]

theorem collect_close {q : Char} (hq : IsQuote q) (s : List Char) :
    collect (inside q).1 (inside q).2 (q :: s) = collect false false s := by
  rcases hq with rfl | rfl <;> simp [inside, collect, isSpace]

theorem collect_open {q : Char} (hq : IsQuote q) (s : List Char) :
    collect false false (q :: s) = collect (inside q).1 (inside q).2 s := by
  rcases hq with rfl | rfl <;> simp [inside, collect, isSpace]

theorem collect_bare {c : Char} (hs : isSpace c = false) (hq : ¬ IsQuote c) (hn : c ≠ '\x00') (s : List Char) :
    collect false false (c :: s) = (c :: (collect false false s).1, (collect false false s).2) := by
  have h1 : (c == '"') = false := by simp only [beq_eq_false_iff_ne]; exact fun e => hq (.inl e)
  have h2 : (c == '\'') = false := by simp only [beq_eq_false_iff_ne]; exact fun e => hq (.inr e)
  have h3 : (c == '\x00') = false := by simp [hn]
  rw [collect, h1, h2, h3, hs]; simp

theorem collect_arg {s v : List Char} (h : Arg s v) (h0 : '\x00' ∉ s) (r : List Char) :
    collect false false (s ++ r) = (v ++ (collect false false r).1, (collect false false r).2) := by
  induction h with
  | nil => rfl
  | @bare c s v hs hq ha ih =>
    rw [List.cons_append, collect_bare hs hq (fun e => h0 (e ▸ List.mem_cons_self)),
      ih (fun e => h0 (List.mem_cons_of_mem _ e))]
    rfl
  | @quoted q t s v hq ht ha ih =>
    have hts : '\x00' ∉ t := fun e => h0 (by simp [e])
    have hss : '\x00' ∉ s := fun e => h0 (by simp [e])
    rw [List.cons_append, List.append_assoc, List.cons_append, collect_open hq, collect_inside hq t ht hts,
      collect_close hq, ih hss]
    simp

theorem collect_space {c : Char} (hc : isSpace c = true) (r : List Char) : collect false false (c :: r) = ([], r) := by
  have hn : (c == '\x00') = false := by
    simp only [beq_eq_false_iff_ne]; intro e; subst e; simp [nul_not_space] at hc
  rw [collect, hn, hc]; rfl

theorem collect_shorter : ∀ (s : List Char) (dq sq : Bool), (collect dq sq s).2.length ≤ s.length
  | [], _, _ => by simp [collect]
  | c :: cs, dq, sq => by
    rw [collect]
    split
    · simp
    · split
      · simp
      · split
        · exact Nat.le_succ_of_le (collect_shorter cs _ _)
        · split
          · exact Nat.le_succ_of_le (collect_shorter cs _ _)
          · exact Nat.le_succ_of_le (collect_shorter cs _ _)

theorem skip_shorter : ∀ s : List Char, (skip s).length ≤ s.length
  | [] => by simp [skip]
  | c :: cs => by
    rw [skip]; split
    · exact Nat.le_succ_of_le (skip_shorter cs)
    · simp

/-- Not white space, so at least one character is used. -/
theorem collect_uses {c : Char} (hs : isSpace c = false) (cs : List Char) :
    (collect false false (c :: cs)).2.length ≤ cs.length := by
  rw [collect, hs]
  split
  · simp
  · simp only [Bool.false_and, Bool.false_eq_true, if_false]
    split
    · exact collect_shorter cs _ _
    · split
      · exact collect_shorter cs _ _
      · exact collect_shorter cs _ _

theorem skip_head : ∀ {s : List Char} {c : Char} {cs : List Char}, skip s = c :: cs → isSpace c = false
  | [], _, _, h => by simp [skip] at h
  | d :: ds, c, cs, h => by
    rw [skip] at h
    split at h
    · exact skip_head h
    · rename_i hd; cases h; simpa using hd

theorem nextArg_uses {s a r : List Char} (h : nextArg s = some (a, r)) : r.length < s.length := by
  unfold nextArg at h
  split at h
  · cases h
  · rename_i c cs hk
    split at h
    · cases h
    · simp only [Option.some.injEq] at h
      have h1 := skip_shorter s
      have h2 := collect_uses (skip_head hk) cs
      rw [h, ] at h2
      rw [hk] at h1
      simp only [List.length_cons] at h1
      simp only at h2
      omega

/-- More rounds than characters make no difference. -/
theorem splitUpTo_enough : ∀ (k : Nat) (s : List Char), s.length ≤ k → splitUpTo k s = split s
  | 0, s, h => by
    have : s = [] := List.eq_nil_of_length_eq_zero (by omega)
    subst this; rfl
  | k + 1, s, h => by
    unfold split
    cases s with
    | nil => simp [splitUpTo, nextArg, skip]
    | cons c cs =>
      simp only [List.length_cons, splitUpTo]
      cases hn : nextArg (c :: cs) with
      | none => rfl
      | some p =>
        obtain ⟨a, r⟩ := p
        have hr := nextArg_uses hn
        simp only [List.length_cons] at hr h
        simp only []
        rw [splitUpTo_enough k r (by omega), splitUpTo_enough cs.length r (by omega)]

theorem split_eq (s : List Char) : split s = match nextArg s with
    | none => []
    | some (a, r) => a :: split r := by
  conv => lhs; rw [← splitUpTo_enough (s.length + 1) s (by omega)]
  rw [splitUpTo]
  cases hn : nextArg s with
  | none => rfl
  | some p =>
    obtain ⟨a, r⟩ := p
    have hr := nextArg_uses hn
    simp only []
    rw [splitUpTo_enough s.length r (by omega)]

theorem skip_arg {s v : List Char} (h : Arg s v) (hs : s ≠ []) (r : List Char) : skip (s ++ r) = s ++ r := by
  cases h with
  | nil => exact absurd rfl hs
  | bare hc _ _ => rw [List.cons_append, skip, hc]; rfl
  | quoted hq _ _ => rw [List.cons_append, skip, quote_not_space hq]; rfl

theorem nextArg_of {s c cs} (h : skip s = c :: cs) (hn : c ≠ '\x00') : nextArg s = some (collect false false (c :: cs)) := by
  unfold nextArg; rw [h]; simp [hn]

theorem nextArg_append {sp s r : List Char} (hb : Blank sp) (hs : s ≠ []) (h0 : '\x00' ∉ s) (hk : skip (s ++ r) = s ++ r) :
    nextArg (sp ++ (s ++ r)) = some (collect false false (s ++ r)) := by
  cases s with
  | nil => exact absurd rfl hs
  | cons c cs =>
    have hc : c ≠ '\x00' := fun e => h0 (e ▸ List.mem_cons_self)
    rw [nextArg_of (c := c) (cs := cs ++ r) (by rw [skip_blank sp hb, hk]; rfl) hc]; rfl

theorem reads_sound {s : List Char} {vs : List (List Char)} (h : Reads s vs) : '\x00' ∉ s → split s = vs := by
  induction h with
  | @blank s hb =>
    intro _
    have hk : skip s = [] := by
      have := skip_blank s (s := []) hb
      rwa [List.append_nil] at this
    rw [split_eq]; simp [nextArg, hk]
  | @last sp s v hb hs ha =>
    intro h0
    have h0s : '\x00' ∉ s := fun e => h0 (by simp [e])
    have hk := skip_arg ha hs []
    have hn := nextArg_append (r := []) hb hs h0s hk
    rw [List.append_nil] at hn
    have hc := collect_arg ha h0s []
    rw [List.append_nil] at hc
    rw [split_eq, hn, hc]
    simp [collect, split, splitUpTo]
  | @unclosed sp s v q t hb ha hq ht =>
    intro h0
    have h0s : '\x00' ∉ s := fun e => h0 (by simp [e])
    have h0t : '\x00' ∉ t := fun e => h0 (by simp [e])
    have h0q : '\x00' ∉ s ++ q :: t := fun e => h0 (by simp only [List.mem_append] at *; exact .inr e)
    have hk : skip (s ++ q :: t) = s ++ q :: t := by
      by_cases hs : s = []
      · subst hs; rw [List.nil_append, skip, quote_not_space hq]; rfl
      · exact skip_arg ha hs _
    have hn := nextArg_append (s := s ++ q :: t) (r := []) hb (by simp) h0q (by rw [List.append_nil]; exact hk)
    rw [List.append_nil] at hn
    have hi := collect_inside hq t (s := []) ht h0t
    rw [List.append_nil] at hi
    rw [split_eq, hn, collect_arg ha h0s, collect_open hq, hi]
    simp [collect, split, splitUpTo]
  | @cons sp s v c r vs hb hs ha hc hr ih =>
    intro h0
    have h0s : '\x00' ∉ s := fun e => h0 (by simp [e])
    have h0r : '\x00' ∉ r := fun e => h0 (by simp [e])
    rw [split_eq, nextArg_append hb hs h0s (skip_arg ha hs _), collect_arg ha h0s, collect_space hc]
    simp [ih h0r]

/-- White space first, then the rest. -/
theorem skip_parts : ∀ s : List Char, ∃ sp, Blank sp ∧ s = sp ++ skip s
  | [] => ⟨[], by simp [Blank], rfl⟩
  | c :: cs => by
    rw [skip]
    by_cases hc : isSpace c = true
    · obtain ⟨sp, hb, he⟩ := skip_parts cs
      refine ⟨c :: sp, ?_, ?_⟩
      · intro x hx
        rcases List.mem_cons.1 hx with rfl | hx
        · exact hc
        · exact hb x hx
      · rw [if_pos hc, List.cons_append, ← he]
    · exact ⟨[], by simp [Blank], by rw [if_neg hc]; rfl⟩

/-- Up to the next such character, if there is one. -/
theorem upTo (q : Char) : ∀ s : List Char, q ∉ s ∨ ∃ t r, q ∉ t ∧ s = t ++ q :: r
  | [] => .inl (by simp)
  | c :: cs => by
    by_cases hc : c = q
    · exact .inr ⟨[], cs, by simp, by rw [hc]; rfl⟩
    · rcases upTo q cs with h | ⟨t, r, ht, he⟩
      · exact .inl (by simp [h, Ne.symm hc])
      · exact .inr ⟨c :: t, r, by simp [ht, Ne.symm hc], by rw [he]; rfl⟩

/-- Every text begins with an argument (possibly without characters), and then comes the end, white space, or a
quotation mark that is not closed. -/
theorem arg_parts : ∀ (n : Nat) (s : List Char), s.length ≤ n → ∃ a v r, Arg a v ∧ s = a ++ r ∧
    (r = [] ∨ (∃ c r', isSpace c = true ∧ r = c :: r') ∨ ∃ q t, IsQuote q ∧ q ∉ t ∧ r = q :: t)
  | _, [], _ => ⟨[], [], [], .nil, rfl, .inl rfl⟩
  | 0, c :: cs, h => by simp at h
  | n + 1, c :: cs, h => by
    simp only [List.length_cons] at h
    by_cases hs : isSpace c = true
    · exact ⟨[], [], c :: cs, .nil, rfl, .inr (.inl ⟨c, cs, hs, rfl⟩)⟩
    · have hs : isSpace c = false := by simpa using hs
      by_cases hq : IsQuote c
      · rcases upTo c cs with hc | ⟨t, r, ht, he⟩
        · exact ⟨[], [], c :: cs, .nil, rfl, .inr (.inr ⟨c, cs, hq, hc, rfl⟩)⟩
        · have hl : cs.length = t.length + (r.length + 1) := by rw [he]; simp
          obtain ⟨a, v, r', ha, hr, hd⟩ := arg_parts n r (by omega)
          exact ⟨c :: (t ++ c :: a), t ++ v, r', .quoted hq ht ha, by rw [he, hr]; simp, hd⟩
      · obtain ⟨a, v, r', ha, hr, hd⟩ := arg_parts n cs (by omega)
        exact ⟨c :: a, c :: v, r', .bare hs hq ha, by rw [hr]; rfl, hd⟩

theorem reads_total : ∀ (n : Nat) (s : List Char), s.length ≤ n → ∃ vs, Reads s vs
  | n, s, hn => by
    obtain ⟨sp, hb, he⟩ := skip_parts s
    obtain ⟨a, v, r, ha, hr, hd⟩ := arg_parts (skip s).length (skip s) (Nat.le_refl _)
    rcases hd with rfl | ⟨c, r', hc, rfl⟩ | ⟨q, t, hq, ht, rfl⟩
    · by_cases hs : a = []
      · subst hs
        rw [hr] at he
        exact ⟨[], .blank (by rw [he]; simpa using hb)⟩
      · refine ⟨[v], ?_⟩
        rw [he, hr, List.append_nil]
        exact .last hb hs ha
    · have hs : a ≠ [] := by
        rintro rfl
        have := skip_head (s := s) (c := c) (cs := r') (by rw [hr]; rfl)
        rw [this] at hc; cases hc
      have hl : s.length = sp.length + (a.length + (r'.length + 1)) := by rw [he, hr]; simp
      match n with
      | 0 => omega
      | n + 1 =>
        obtain ⟨vs, hvs⟩ := reads_total n r' (by omega)
        exact ⟨v :: vs, by rw [he, hr]; exact .cons hb hs ha hc hvs⟩
    · exact ⟨[v ++ t], by rw [he, hr]; exact .unclosed hb ha hq ht⟩

/-- What splitting does, quotation marks included, for every text without NUL characters. -/
theorem reads_iff {s : List Char} (h0 : '\x00' ∉ s) (vs : List (List Char)) : split s = vs ↔ Reads s vs := by
  constructor
  · intro h
    obtain ⟨ws, hw⟩ := reads_total _ s (Nat.le_refl _)
    rw [reads_sound hw h0] at h
    exact h ▸ hw
  · intro h; exact reads_sound h h0

example : split ['a', '"', ' ', '\'', '"', '\t', '\'', 'b'] = [['a', ' ', '\''], ['b']] := by decide +kernel

/-! ## As documented -/

theorem arg_bare : ∀ {w : List Char}, (∀ c ∈ w, isSpace c = false) → (∀ c ∈ w, ¬ IsQuote c) → Arg w w
  | [], _, _ => .nil
  | c :: _, hs, hq => .bare (hs c List.mem_cons_self) (hq c List.mem_cons_self)
      (arg_bare (fun x hx => hs x (List.mem_cons_of_mem _ hx)) fun x hx => hq x (List.mem_cons_of_mem _ hx))

theorem bare_arg {s v : List Char} (h : Arg s v) : (∀ c ∈ s, ¬ IsQuote c) → v = s ∧ ∀ c ∈ s, isSpace c = false := by
  induction h with
  | nil => intro _; exact ⟨rfl, by simp⟩
  | bare hs _ _ ih =>
    intro hq
    obtain ⟨h1, h2⟩ := ih fun x hx => hq x (List.mem_cons_of_mem _ hx)
    refine ⟨by rw [h1], ?_⟩
    intro x hx
    rcases List.mem_cons.1 hx with rfl | hx
    · exact hs
    · exact h2 x hx
  | quoted hq' _ _ _ => intro hq; exact absurd hq' (hq _ List.mem_cons_self)

/-- Text without quotation marks is split into the words that white space separates.  Missing: text with quotation
marks, which the documentation does not give a meaning to (`quoting_wrong`), and NUL characters. -/
theorem words_partial {s : List Char} (h0 : '\x00' ∉ s) (hq : ∀ c ∈ s, ¬ IsQuote c) (ws : List (List Char)) :
    split s = ws ↔ Words s ws := by
  rw [reads_iff h0]
  constructor
  · intro h
    clear h0
    induction h with
    | blank hb => exact .blank hb
    | @last sp s v hb hs ha =>
      obtain ⟨rfl, h2⟩ := bare_arg ha fun c hc => hq c (by simp [hc])
      exact .last hb hs h2
    | @unclosed sp s v q t hb ha hq' ht => exact absurd hq' (hq q (by simp))
    | @cons sp s v c r vs hb hs ha hc hr ih =>
      obtain ⟨rfl, h2⟩ := bare_arg ha fun c hc => hq c (by simp [hc])
      exact .cons hb hs h2 hc (ih fun c hc => hq c (by simp [hc]))
  · intro h
    clear h0
    induction h with
    | blank hb => exact .blank hb
    | @last sp w hb hs h2 => exact .last hb hs (arg_bare h2 fun c hc => hq c (by simp [hc]))
    | @cons sp w c r ws hb hs h2 hc hr ih =>
      exact .cons hb hs (arg_bare h2 fun c hc => hq c (by simp [hc])) hc (ih fun c hc => hq c (by simp [hc]))

/-- `-O2 \t--pic`. -/
example : split ['-', 'O', '2', ' ', '\t', '-', '-', 'p', 'i', 'c', '\n'] =
    [['-', 'O', '2'], ['-', '-', 'p', 'i', 'c']] := by decide +kernel

/-- The documentation says that there is no means of quoting.  There is: quotation marks keep white space together, and
are themselves removed, so `-DNAME="x"` loses them. -/
theorem quoting_wrong : split ['"', 'a', ' ', 'b', '"'] = [['a', ' ', 'b']] ∧
    split ['-', 'D', 'N', '=', '"', 'x', '"'] = [['-', 'D', 'N', '=', 'x']] ∧
    ¬ Words ['"', 'a', ' ', 'b', '"'] [['a', ' ', 'b']] := by
  refine ⟨by decide +kernel, by decide +kernel, ?_⟩
  intro h
  have : ∀ s ws, Words s ws → ∀ w ∈ ws, ∀ c ∈ w, isSpace c = false := by
    intro s ws h
    induction h with
    | blank _ => simp
    | last _ _ h => simpa using h
    | cons _ _ h _ _ ih =>
      intro w hw
      rcases List.mem_cons.1 hw with rfl | hw
      · exact h
      · exact ih w hw
  have := this _ _ h ['a', ' ', 'b'] (by simp) ' ' (by simp)
  simp [isSpace] at this

/-! ## Every list of arguments can be written -/

/-- One character in quotation marks of the other kind. -/
def quoteChar (c : Char) : List Char := if c = '"' then ['\'', '"', '\''] else ['"', c, '"']

/-- An argument in quotation marks. -/
def quoteArg (a : List Char) : List Char := '"' :: '"' :: a.flatMap quoteChar

/-- Arguments in quotation marks, one after the other with a space in between. -/
def quoteAll : List (List Char) → List Char
  | [] => []
  | a :: as => quoteArg a ++ ' ' :: quoteAll as

theorem quoteArg_arg (a : List Char) : Arg (quoteArg a) a := by
  have h : Arg (a.flatMap quoteChar) a := by
    induction a with
    | nil => exact .nil
    | cons c a ih =>
      rw [List.flatMap_cons]
      by_cases hc : c = '"'
      · subst hc
        exact Arg.quoted (q := '\'') (t := ['"']) (.inr rfl) (by simp) ih
      · rw [quoteChar, if_neg hc]
        exact Arg.quoted (q := '"') (t := [c]) (.inl rfl) (by simpa using Ne.symm hc) ih
  exact Arg.quoted (q := '"') (t := []) (.inl rfl) (by simp) h

/-- Whatever the arguments are, empty ones and white space and quotation marks included, they can be written in
ISPC_ARGS or a file so that exactly they come out. -/
theorem round_trip (as : List (List Char)) (h0 : ∀ a ∈ as, '\x00' ∉ a) : split (quoteAll as) = as := by
  have hr : Reads (quoteAll as) as := by
    clear h0
    induction as with
    | nil => exact .blank (by simp [Blank, quoteAll])
    | cons a as ih => exact Reads.cons (sp := []) (by simp [Blank]) (by simp [quoteArg]) (quoteArg_arg a) (by decide) ih
  refine reads_sound hr ?_
  clear hr
  induction as with
  | nil => simp [quoteAll]
  | cons a as ih =>
    have h1 : '\x00' ∉ quoteArg a := by
      have := h0 a List.mem_cons_self
      simp only [quoteArg, List.mem_cons, List.mem_flatMap, not_or, not_exists, not_and]
      refine ⟨by decide, by decide, ?_⟩
      intro c hc h
      have hne : c ≠ '\x00' := fun e => this (e ▸ hc)
      unfold quoteChar at h
      split at h <;> simp at h
      exact hne h.symm
    have h2 := ih fun b hb => h0 b (List.mem_cons_of_mem _ hb)
    simp only [quoteAll, List.mem_append, List.mem_cons, not_or]
    exact ⟨h1, by decide, h2⟩

example : split (quoteAll [[], ['a', ' ', '"'], ['\'']]) = [[], ['a', ' ', '"'], ['\'']] := by decide +kernel

/-! ## Files -/

mutual
theorem expands_ok {files : List Char → Option (List Char)} : ∀ {d : Nat} {a : List Char} {as : List (List Char)},
    Expands files d a as → ∀ {fds : Nat}, d ≤ fds → addArg files fds a = as
  | _, a, _, .plain h, 0, _ => rfl
  | _, a, _, .plain h, fds + 1, _ => by
    rw [addArg]
    intro name e
    subst e
    simp at h
  | _, _, _, .missing h, 0, _ => rfl
  | _, _, _, .missing h, fds + 1, _ => by rw [addArg]; simp [h]
  | _, _, _, .file h h0 hr hs, fds, hd => by
    match fds, hd with
    | fds + 1, hd =>
      rw [addArg]; simp only [h, reads_sound hr h0]
      exact expandsAll_ok hs (by omega)
theorem expandsAll_ok {files : List Char → Option (List Char)} : ∀ {d : Nat} {as bs : List (List Char)},
    ExpandsAll files d as bs → ∀ {fds : Nat}, d ≤ fds → as.flatMap (addArg files fds) = bs
  | _, _, _, .nil, _, _ => rfl
  | _, _, _, .cons h hs, fds, hd => by
    rw [List.flatMap_cons, expands_ok h hd, expandsAll_ok hs hd]
end

/-- The arguments are those of the command line in order, then those of ISPC_ARGS in order, with every `@file` that can
be opened replaced, in its place, by the arguments in the file, and so on inside it.  Missing: files nested deeper than
the process can have files open, and files that include themselves. -/
theorem all_args_partial {files : List Char → Option (List Char)} {d fds : Nat} {argv as : List (List Char)}
    {env : List Char} {es bs : List (List Char)} (ha : ExpandsAll files d argv as) (h0 : '\x00' ∉ env) (he : Reads env es)
    (hb : ExpandsAll files d es bs)
    (hd : d ≤ fds) : allArgs files fds argv (some env) = as ++ bs ∧ allArgs files fds argv none = as := by
  simp only [allArgs, reads_sound he h0, expandsAll_ok ha hd, expandsAll_ok hb hd, List.append_nil, and_self]

/-- A file `x` with the text `-g @y`, and no file `y`. -/
def demoFiles (name : List Char) : Option (List Char) :=
  if name = ['x'] then some ['-', 'g', '\n', '@', 'y'] else none

example : ExpandsAll demoFiles 1 [['a'], ['@', 'x'], ['b']] [['a'], ['-', 'g'], ['@', 'y'], ['b']] ∧
    allArgs demoFiles 9 [['a'], ['@', 'x'], ['b']] (some ['-', 'O', '0', ' ', '@', 'x']) =
      [['a'], ['-', 'g'], ['@', 'y'], ['b'], ['-', 'O', '0'], ['-', 'g'], ['@', 'y']] := by
  constructor
  · have hx : split ['-', 'g', '\n', '@', 'y'] = [['-', 'g'], ['@', 'y']] := by decide +kernel
    have h2 : ExpandsAll demoFiles 0 [['-', 'g'], ['@', 'y']] ([['-', 'g']] ++ ([['@', 'y']] ++ [])) := by
      exact .cons (.plain (by decide)) (.cons (.missing (by decide)) .nil)
    exact .cons (bs := [['a']]) (.plain (by decide)) (.cons (bs := [['-', 'g'], ['@', 'y']]) (.file rfl (by decide) ((reads_iff (by decide) _).1 hx) h2)
      (.cons (bs := [['b']]) (.plain (by decide)) .nil))
  · decide +kernel

theorem split_word {w : List Char} (h0 : '\x00' ∉ w) (hq : ∀ c ∈ w, ¬ IsQuote c) (hs : ∀ c ∈ w, isSpace c = false)
    (hw : w ≠ []) : split w = [w] :=
  (words_partial h0 hq [w]).2 (Words.last (sp := []) (by simp [Blank]) hw hs)

/-- A file that includes itself is read again and again until no more files can be opened; then `@file` stays as an
argument, as if the file were not there. -/
theorem cycle_wrong {files : List Char → Option (List Char)} {name : List Char} (h0 : '\x00' ∉ name)
    (hq : ∀ c ∈ name, ¬ IsQuote c) (hs : ∀ c ∈ name, isSpace c = false) (hf : files name = some ('@' :: name)) :
    (∀ fds, addArg files fds ('@' :: name) = ['@' :: name]) ∧ ∀ d as, ¬ Expands files d ('@' :: name) as := by
  have hsp : split ('@' :: name) = ['@' :: name] := by
    refine split_word ?_ ?_ ?_ (by simp)
    · simp only [List.mem_cons, not_or]; exact ⟨by decide, h0⟩
    · intro c hc
      rcases List.mem_cons.1 hc with rfl | hc
      · simp [IsQuote]
      · exact hq c hc
    · intro c hc
      rcases List.mem_cons.1 hc with rfl | hc
      · decide
      · exact hs c hc
  constructor
  · intro fds
    induction fds with
    | zero => rfl
    | succ fds ih => rw [addArg]; simp [hf, hsp, ih]
  · intro d
    induction d with
    | zero =>
      intro as h
      cases h with
      | plain h => simp at h
      | missing h => rw [hf] at h; cases h
    | succ d ih =>
      intro as h
      cases h with
      | plain h => simp at h
      | missing h => rw [hf] at h; cases h
      | file h h0 hr hs =>
        rw [hf] at h; cases h
        have := reads_sound hr h0
        rw [hsp] at this; subst this
        cases hs with
        | cons h _ => exact ih _ h

/-- A file that includes itself twice doubles the arguments with every file that can be open. -/
theorem double_wrong {files : List Char → Option (List Char)} (hf : files ['x'] = some ['@', 'x', ' ', '@', 'x']) :
    ∀ fds, (addArg files fds ['@', 'x']).length = 2 ^ fds
  | 0 => rfl
  | fds + 1 => by
    have hsp : split ['@', 'x', ' ', '@', 'x'] = [['@', 'x'], ['@', 'x']] := by decide +kernel
    rw [addArg]
    simp only [hf, hsp, List.flatMap_cons, List.flatMap_nil, List.append_nil, List.length_append, double_wrong hf fds]
    omega

example : (fun name => if name = ['x'] then some ['@', 'x', ' ', '@', 'x'] else none : List Char → Option (List Char)) ['x'] =
    some ['@', 'x', ' ', '@', 'x'] := rfl

end Ispc.Args
