import Verif.Front.Places

/-!
# Reading, writing and taking the address mean the same place

docs/ispc.rst:3187-3227.  `Denotes` and `Points` say, as in C, which object an expression denotes and what its value points
to; whether a pointer is uniform or varying makes no difference to that.  Each program instance has its own
part of a varying object (`object`).
-/

namespace Ispc.Places

/-! ## The specification -/

/-- The part of program instance `l` of the object of type `t` at `a`. -/
def object (l : Nat) (t : Ty) (a : Int) : Int := if varying t then a + l else a

mutual
/-- For program instance `l`, the expression denotes the object of this type at this address. -/
inductive Denotes (s : Env) (l : Nat) : E → Ty → Int → Prop
  | var (x) : Denotes s l (.var x) (s.ty x) (s.addr x)
  | ref (x) : Denotes s l (.ref x) (s.ty x) (s.mem (s.addr x))
  | deref {e t p} : Points s l e t p → Denotes s l (.deref e) t p
  | indexPtr {e t p} (i) : Points s l e t p → Denotes s l (.index e i) t (p + i.at l * size s.W t)
  | indexArr {e n t a} (i) : Denotes s l e (.arr n t) a → Denotes s l (.index e i) t (a + i.at l * size s.W t)
  | arrowFst {e t u p} : Points s l e (.pair t u) p → Denotes s l (.mem true false e) t p
  | arrowSnd {e t u p} : Points s l e (.pair t u) p → Denotes s l (.mem true true e) u (p + size s.W t)
  | dotFst {e t u a} : Denotes s l e (.pair t u) a → Denotes s l (.mem false false e) t a
  | dotSnd {e t u a} : Denotes s l e (.pair t u) a → Denotes s l (.mem false true e) u (a + size s.W t)
/-- For program instance `l`, the value of the expression is the address of an object of this type. -/
inductive Points (s : Env) (l : Nat) : E → Ty → Int → Prop
  | read {e v t a} : Denotes s l e (.ptr v t) a → Points s l e t (s.mem (object l (.ptr v t) a))
  | addr {e t a} : Denotes s l e t a → Points s l (.addr e) t a
  | add {e t p} (i) : Points s l e t p → Points s l (.add e i) t (p + i.at l * size s.W t)
  | cast {e t p} (v t') : Points s l e t p → Points s l (.cast v t' e) t' p
end

/-- `*e`. -/
def isDeref : E → Bool
  | .deref _ => true
  | _ => false

/-- The expression denotes a varying scalar or pointer behind a varying pointer. -/
def Crossed (s : Env) (e : E) : Prop := ∃ T t, types s e = some (T, some (true, t)) ∧ varying t = true

/-- Nowhere is the address taken of an element or member that is a varying object behind a varying pointer. -/
def Plain (s : Env) : E → Prop
  | .var _ | .ref _ => True
  | .deref e | .index e _ | .mem _ _ e | .add e _ | .cast _ _ e => Plain s e
  | .addr e => Plain s e ∧ (isDeref e = true ∨ ¬ Crossed s e)

/-! ## Types -/

theorem asVarying_idem : ∀ t, asVarying (asVarying t) = asVarying t
  | .sc _ => rfl
  | .ptr _ _ => rfl
  | .arr _ t => by simp [asVarying, asVarying_idem t]
  | .pair a b => by simp [asVarying, asVarying_idem a, asVarying_idem b]

/-- The type of what is read: varying behind a varying pointer. -/
def through (v : Bool) (t : Ty) : Ty := if v then asVarying t else t

theorem through_ptr {v v' t} : ∃ w, through v (.ptr v' t) = .ptr w t := by
  cases v
  · exact ⟨v', rfl⟩
  · exact ⟨true, rfl⟩

theorem through_arr {v n t} : through v (.arr n t) = .arr n (through v t) := by cases v <;> rfl

theorem through_pair {v a b} : through v (.pair a b) = .pair (through v a) (through v b) := by cases v <;> rfl

theorem through_through {v w t} : (if w then asVarying (through v t) else through v t) = through (v || w) t := by
  cases v <;> cases w <;> simp [through, asVarying_idem]

theorem cell_offs (l v t a) : cell l v t (offs l v t a) = object l t a := by
  cases v <;> simp [cell, offs, object]

theorem load_offs (s l v t a) (h : basic t = true) : load s l v t (offs l v t a) = some (s.mem (object l t a)) := by
  simp [load, h, cell_offs]

/-- Where the code places the object: except for `*e` the offset of the program instance is already added. -/
def lplace (l : Nat) (e : E) (v : Bool) (t : Ty) (a : Int) : Int := if isDeref e then a else offs l v t a

mutual
theorem denotes_ok {s : Env} {l : Nat} : ∀ {e : E} {t : Ty} {a : Int}, Denotes s l e t a → ∀ {T L},
    types s e = some (T, L) → Plain s e → ∃ v, L = some (v, t) ∧ T = through v t ∧
      (emit s l e).1 = some (lplace l e v t a) ∧ (basic t = true → (emit s l e).2 = some (s.mem (object l t a)))
  | _, _, _, .var x, T, L, hT, _ => by
    simp only [types, Option.some.injEq, Prod.mk.injEq] at hT
    obtain ⟨rfl, rfl⟩ := hT
    exact ⟨false, rfl, rfl, by simp [emit, lplace, isDeref, offs], fun hb => by simp [emit, load, hb, cell, object]⟩
  | _, _, _, .ref x, T, L, hT, _ => by
    simp only [types, Option.some.injEq, Prod.mk.injEq] at hT
    obtain ⟨rfl, rfl⟩ := hT
    exact ⟨false, rfl, rfl, by simp [emit, lplace, isDeref, offs], fun hb => by simp [emit, load, hb, cell, object]⟩
  | _, _, _, .deref (e := e) (t := t) (p := p) h, T, L, hT, hp => by
    rw [types] at hT
    cases he : types s e with
    | none => simp [he] at hT
    | some r =>
      obtain ⟨T', L'⟩ := r
      obtain ⟨v, rfl, hv⟩ := points_ok h he hp
      simp only [he, Option.some.injEq, Prod.mk.injEq] at hT
      obtain ⟨rfl, rfl⟩ := hT
      refine ⟨v, rfl, rfl, ?_, ?_⟩
      · rw [emit]; simp [he, hv, lplace, isDeref]
      · intro hb
        rw [emit]; simp [he, hv, load_offs s l v t p hb]
  | _, _, _, .indexPtr (e := e) (t := t) (p := p) i h, T, L, hT, hp => by
    rw [types] at hT
    cases he : types s e with
    | none => simp [he] at hT
    | some r =>
      obtain ⟨T', L'⟩ := r
      obtain ⟨v, rfl, hv⟩ := points_ok h he hp
      simp only [he, Option.some.injEq, Prod.mk.injEq] at hT
      obtain ⟨rfl, rfl⟩ := hT
      refine ⟨v || i.varying, rfl, rfl, ?_, ?_⟩
      · rw [emit]; simp [he, hv, lplace, isDeref]
      · intro hb
        rw [emit]; simp [he, hv, load_offs s l _ t _ hb]
  | _, _, _, .indexArr (e := e) (n := n) (t := t) (a := a) i h, T, L, hT, hp => by
    rw [types] at hT
    cases he : types s e with
    | none => simp [he] at hT
    | some r =>
      obtain ⟨T', L'⟩ := r
      obtain ⟨v, rfl, rfl, hl, _⟩ := denotes_ok h he hp
      have hla : lplace l e v (.arr n t) a = a := by simp [lplace, offs, varying]
      rw [hla] at hl
      rw [through_arr] at he
      simp only [he, Option.some.injEq, Prod.mk.injEq] at hT
      obtain ⟨rfl, rfl⟩ := hT
      refine ⟨v || i.varying, rfl, through_through, ?_, ?_⟩
      · rw [emit]; simp [he, hl, lplace, isDeref]
      · intro hb
        rw [emit]; simp [he, hl, load_offs s l _ t _ hb]
  | _, _, _, .arrowFst (e := e) (t := t) (u := u) (p := p) h, T, L, hT, hp => by
    rw [types] at hT
    cases he : types s e with
    | none => simp [he] at hT
    | some r =>
      obtain ⟨T', L'⟩ := r
      obtain ⟨v, rfl, hv⟩ := points_ok h he hp
      simp only [he, Option.some.injEq, Prod.mk.injEq] at hT
      obtain ⟨rfl, rfl⟩ := hT
      refine ⟨v, rfl, rfl, ?_, ?_⟩
      · rw [emit]; simp [he, hv, lplace, isDeref, offset]
      · intro hb
        rw [emit]; simp [he, hv, load_offs s l _ t _ hb, offset]
  | _, _, _, .arrowSnd (e := e) (t := t) (u := u) (p := p) h, T, L, hT, hp => by
    rw [types] at hT
    cases he : types s e with
    | none => simp [he] at hT
    | some r =>
      obtain ⟨T', L'⟩ := r
      obtain ⟨v, rfl, hv⟩ := points_ok h he hp
      simp only [he, Option.some.injEq, Prod.mk.injEq] at hT
      obtain ⟨rfl, rfl⟩ := hT
      refine ⟨v, rfl, rfl, ?_, ?_⟩
      · rw [emit]; simp [he, hv, lplace, isDeref, offset]
      · intro hb
        rw [emit]; simp [he, hv, load_offs s l _ u _ hb, offset]
  | _, _, _, .dotFst (e := e) (t := t) (u := u) (a := a) h, T, L, hT, hp => by
    rw [types] at hT
    cases he : types s e with
    | none => simp [he] at hT
    | some r =>
      obtain ⟨T', L'⟩ := r
      obtain ⟨v, rfl, rfl, hl, _⟩ := denotes_ok h he hp
      have hla : lplace l e v (.pair t u) a = a := by simp [lplace, offs, varying]
      rw [hla] at hl
      rw [through_pair] at he
      simp only [he, Option.some.injEq, Prod.mk.injEq] at hT
      obtain ⟨rfl, rfl⟩ := hT
      refine ⟨v, rfl, rfl, ?_, ?_⟩
      · rw [emit]; simp [he, hl, lplace, isDeref, offset]
      · intro hb
        rw [emit]; simp [he, hl, load_offs s l _ t _ hb, offset]
  | _, _, _, .dotSnd (e := e) (t := t) (u := u) (a := a) h, T, L, hT, hp => by
    rw [types] at hT
    cases he : types s e with
    | none => simp [he] at hT
    | some r =>
      obtain ⟨T', L'⟩ := r
      obtain ⟨v, rfl, rfl, hl, _⟩ := denotes_ok h he hp
      have hla : lplace l e v (.pair t u) a = a := by simp [lplace, offs, varying]
      rw [hla] at hl
      rw [through_pair] at he
      simp only [he, Option.some.injEq, Prod.mk.injEq] at hT
      obtain ⟨rfl, rfl⟩ := hT
      refine ⟨v, rfl, rfl, ?_, ?_⟩
      · rw [emit]; simp [he, hl, lplace, isDeref, offset]
      · intro hb
        rw [emit]; simp [he, hl, load_offs s l _ u _ hb, offset]
theorem points_ok {s : Env} {l : Nat} : ∀ {e : E} {t : Ty} {p : Int}, Points s l e t p → ∀ {T L},
    types s e = some (T, L) → Plain s e → ∃ v, T = .ptr v t ∧ (emit s l e).2 = some p
  | _, _, _, .read h, T, L, hT, hp => by
    obtain ⟨v, rfl, rfl, _, hv⟩ := denotes_ok h hT hp
    obtain ⟨w, hw⟩ := through_ptr (v := v)
    exact ⟨w, hw, hv rfl⟩
  | _, _, _, .addr (e := e) (t := t) (a := a) h, T, L, hT, hp => by
    rw [types] at hT
    cases he : types s e with
    | none => simp [he] at hT
    | some r =>
      obtain ⟨T', L'⟩ := r
      obtain ⟨v, rfl, rfl, hl, _⟩ := denotes_ok h he hp.1
      simp only [he, Option.some.injEq, Prod.mk.injEq] at hT
      obtain ⟨rfl, rfl⟩ := hT
      refine ⟨v, rfl, ?_⟩
      rw [emit]; simp only [hl]
      congr 1
      unfold lplace
      split
      · rfl
      · rcases hp.2 with hd | hc
        · contradiction
        · unfold offs
          split
          · next hv =>
            simp only [Bool.and_eq_true] at hv
            exact absurd ⟨_, t, by rw [he, hv.1], hv.2⟩ hc
          · rfl
  | _, _, _, .add (e := e) (t := t) (p := p) i h, T, L, hT, hp => by
    rw [types] at hT
    cases he : types s e with
    | none => simp [he] at hT
    | some r =>
      obtain ⟨T', L'⟩ := r
      obtain ⟨v, rfl, hv⟩ := points_ok h he hp
      simp only [he, Option.some.injEq, Prod.mk.injEq] at hT
      obtain ⟨rfl, rfl⟩ := hT
      exact ⟨_, rfl, by rw [emit]; simp [he, hv]⟩
  | _, _, _, .cast (e := e) (t := t) (p := p) v t' h, T, L, hT, hp => by
    rw [types] at hT
    cases he : types s e with
    | none => simp [he] at hT
    | some r =>
      obtain ⟨T', L'⟩ := r
      obtain ⟨v', rfl, hv⟩ := points_ok h he hp
      simp only [he] at hT
      split at hT
      · cases hT
      · simp only [Option.some.injEq, Prod.mk.injEq] at hT
        obtain ⟨rfl, rfl⟩ := hT
        exact ⟨_, rfl, by rw [emit]; simp [hv]⟩
end

/-! ## The theorems -/

/-- Reading gives the contents of the program instance's own part of the object that the expression denotes.
Missing: expressions in which the address of a varying element or member is taken through a varying pointer
(`address_wrong`). -/
theorem read_partial {s : Env} {l : Nat} {e : E} {t : Ty} {a : Int} (h : Denotes s l e t a)
    (hT : types s e ≠ none) (hp : Plain s e) (hb : basic t = true) : value s l e = some (s.mem (object l t a)) := by
  cases he : types s e with
  | none => exact absurd he hT
  | some r =>
    obtain ⟨T, L⟩ := r
    obtain ⟨v, _, _, _, h⟩ := denotes_ok h he hp
    exact h hb

/-- An assignment writes the program instance's own part of the object that the left side denotes.  Missing:
besides the expressions missing from `read_partial`, `*e = …` where `e` is a varying pointer to a varying object
(`write_wrong`). -/
theorem write_partial {s : Env} {l : Nat} {e : E} {t : Ty} {a : Int} (h : Denotes s l e t a)
    (hT : types s e ≠ none) (hp : Plain s e) (hb : basic t = true) (hd : isDeref e = false ∨ ¬ Crossed s e) :
    written s l e = some (object l t a) := by
  cases he : types s e with
  | none => exact absurd he hT
  | some r =>
    obtain ⟨T, L⟩ := r
    obtain ⟨v, rfl, rfl, hl, _⟩ := denotes_ok h he hp
    unfold written
    simp only [he, hl, hb, if_true]
    congr 1
    cases hde : isDeref e with
    | false => simp [lplace, hde, cell_offs]
    | true =>
      have hnc : ¬ (v = true ∧ varying t = true) := by
        rintro ⟨rfl, hv⟩
        rcases hd with hd | hd
        · rw [hde] at hd; cases hd
        · exact hd ⟨_, t, he, hv⟩
      simp only [lplace, hde, if_true]
      unfold cell object
      cases v <;> simp_all

/-- Pointers that are computed point where they should; in particular `&e` is the address of the object that `e` denotes.
Missing: the expressions missing from `read_partial`. -/
theorem address_partial {s : Env} {l : Nat} {e : E} {t : Ty} {p : Int} (h : Points s l e t p)
    (hT : types s e ≠ none) (hp : Plain s e) : value s l e = some p := by
  cases he : types s e with
  | none => exact absurd he hT
  | some r =>
    obtain ⟨T, L⟩ := r
    obtain ⟨v, _, h⟩ := points_ok h he hp
    exact h

theorem ne_none_of {s : Env} {e : E} {r} (h : types s e = some r) : types s e ≠ none := by rw [h]; simp

/-- Four program instances; variable 0 is `varying int a[8]` at 100, variable 1 is `varying int * varying p` at 200,
variable 2 is `varying int * uniform q` at 300, variable 3 is `struct { varying int; uniform int[5]; } r` at 400; `q` points to
`a[2]`, and so does `p` for all program instances. -/
def demo : Env where
  W := 4
  addr x := 100 * (x + 1)
  ty x :=
    match x with
    | 0 => .arr 8 (.sc true)
    | 1 => .ptr true (.sc true)
    | 2 => .ptr false (.sc true)
    | _ => .pair (.sc true) (.arr 5 (.sc false))
  mem a := if 200 ≤ a ∧ a < 301 then 108 else a

/-- The value and the address of `a[i]` with `i` being the number of the program instance, and `r.second[i]`. -/
example (l : Nat) : Denotes demo l (.index (.var 0) (.var fun l => l)) (.sc true) (100 + (l : Int) * 4) ∧
    types demo (.index (.var 0) (.var fun l => l)) ≠ none ∧ Plain demo (.index (.var 0) (.var fun l => l)) ∧
    Denotes demo l (.index (.mem false true (.var 3)) (.uni 2)) (.sc false) (400 + 4 + 2 * 1) ∧
    types demo (.addr (.index (.mem false true (.var 3)) (.uni 2))) ≠ none ∧
    Plain demo (.addr (.index (.mem false true (.var 3)) (.uni 2))) := by
  refine ⟨.indexArr (n := 8) (t := .sc true) (a := 100) _ (.var 0), by simp [types, demo], trivial,
    .indexArr (n := 5) (t := .sc false) (a := 404) (.uni 2) (.dotSnd (t := .sc true) (a := 400) (.var 3)),
    by simp [types, demo, Ix.varying], trivial, .inr ?_⟩
  rintro ⟨T, t, h, -⟩
  simp [types, demo, Ix.varying] at h

/-- Without varying pointers to varying objects everything is as specified: `*q`, where `q` is uniform. -/
example (l : Nat) : Denotes demo l (.deref (.var 2)) (.sc true) 108 ∧ ¬ Crossed demo (.deref (.var 2)) := by
  constructor
  · have := Points.read (s := demo) (l := l) (e := .var 2) (v := false) (t := .sc true) (.var 2)
    have h : demo.mem (object l (.ptr false (.sc true)) (demo.addr 2)) = 108 := by simp [demo, object, varying]
    rw [h] at this
    exact .deref this
  · rintro ⟨T, t, h, -⟩
    simp [types, demo] at h

/-! ## Uniform values -/

theorem varying_through {v t} (h : basic t = true) : varying (through v t) = (v || varying t) := by
  cases v <;> cases t <;> simp_all [through, varying, asVarying, basic]

theorem basic_through {v t} : basic (through v t) = basic t := by
  cases v <;> cases t <;> simp [through, asVarying, basic]

/-- For an expression that denotes memory, the type of the value belongs to the pointer's and the object's. -/
theorem types_through {s : Env} : ∀ {e : E} {T L}, types s e = some (T, L) →
    (∃ v t, L = some (v, t) ∧ T = through v t) ∨ ∃ v t, T = .ptr v t
  | .var x, T, L, h => by
    simp only [types, Option.some.injEq, Prod.mk.injEq] at h
    obtain ⟨rfl, rfl⟩ := h
    exact .inl ⟨false, _, rfl, rfl⟩
  | .ref x, T, L, h => by
    simp only [types, Option.some.injEq, Prod.mk.injEq] at h
    obtain ⟨rfl, rfl⟩ := h
    exact .inl ⟨false, _, rfl, rfl⟩
  | .deref e, T, L, h => by
    rw [types] at h
    split at h
    · simp only [Option.some.injEq, Prod.mk.injEq] at h
      obtain ⟨rfl, rfl⟩ := h
      exact .inl ⟨_, _, rfl, rfl⟩
    · cases h
  | .index e i, T, L, h => by
    rw [types] at h
    split at h
    · simp only [Option.some.injEq, Prod.mk.injEq] at h
      obtain ⟨rfl, rfl⟩ := h
      exact .inl ⟨_, _, rfl, rfl⟩
    · next he =>
      simp only [Option.some.injEq, Prod.mk.injEq] at h
      obtain ⟨rfl, rfl⟩ := h
      rcases types_through he with ⟨v, t, h1, h2⟩ | ⟨v, t, h2⟩
      · cases h1
        rw [through_arr] at h2
        cases h2
        exact .inl ⟨_, _, rfl, through_through⟩
      · cases h2
    · cases h
  | .mem true second e, T, L, h => by
    rw [types] at h
    split at h
    · simp only [Option.some.injEq, Prod.mk.injEq] at h
      obtain ⟨rfl, rfl⟩ := h
      exact .inl ⟨_, _, rfl, rfl⟩
    · cases h
  | .mem false second e, T, L, h => by
    rw [types] at h
    split at h
    · simp only [Option.some.injEq, Prod.mk.injEq] at h
      obtain ⟨rfl, rfl⟩ := h
      exact .inl ⟨_, _, rfl, rfl⟩
    · cases h
  | .addr e, T, L, h => by
    rw [types] at h
    split at h
    · simp only [Option.some.injEq, Prod.mk.injEq] at h
      obtain ⟨rfl, rfl⟩ := h
      exact .inr ⟨_, _, rfl⟩
    · cases h
  | .add e i, T, L, h => by
    rw [types] at h
    split at h
    · simp only [Option.some.injEq, Prod.mk.injEq] at h
      obtain ⟨rfl, rfl⟩ := h
      exact .inr ⟨_, _, rfl⟩
    · cases h
  | .cast v t e, T, L, h => by
    rw [types] at h
    split at h
    · split at h
      · cases h
      · simp only [Option.some.injEq, Prod.mk.injEq] at h
        obtain ⟨rfl, rfl⟩ := h
        exact .inr ⟨_, _, rfl⟩
    · cases h

theorem load_same {s : Env} {l l' : Nat} {v t} (h : basic t = true → varying (through v t) = false) (a : Int) :
    load s l v t (offs l v t a) = load s l' v t (offs l' v t a) := by
  unfold load
  cases hb : basic t with
  | false => rfl
  | true =>
    have := h hb
    rw [varying_through hb] at this
    simp only [Bool.or_eq_false_iff] at this
    simp [cell, offs, this.1, this.2]

/-- What has a uniform type is the same for all program instances: values of uniform scalar and pointer type, and addresses of
places behind uniform pointers. -/
theorem uniform_same {s : Env} (l l' : Nat) : ∀ {e : E} {T L}, types s e = some (T, L) →
    (∀ t, L = some (false, t) → (emit s l e).1 = (emit s l' e).1) ∧
      (basic T = true → varying T = false → (emit s l e).2 = (emit s l' e).2)
  | .var x, T, L, h => by
    simp only [types, Option.some.injEq, Prod.mk.injEq] at h
    obtain ⟨rfl, rfl⟩ := h
    refine ⟨fun _ _ => rfl, fun hb hv => ?_⟩
    simp [emit, load, hb, cell, hv]
  | .ref x, T, L, h => by
    simp only [types, Option.some.injEq, Prod.mk.injEq] at h
    obtain ⟨rfl, rfl⟩ := h
    refine ⟨fun _ _ => rfl, fun hb hv => ?_⟩
    simp [emit, load, hb, cell, hv]
  | .deref e, T, L, h => by
    rw [types] at h
    split at h
    · next v t L' he =>
      simp only [Option.some.injEq, Prod.mk.injEq] at h
      obtain ⟨rfl, rfl⟩ := h
      have ih := (uniform_same l l' he).2 rfl
      constructor
      · intro t' ht
        cases ht
        rw [emit, emit]; simp only [he]
        exact ih rfl
      · intro hb hv
        have hb' : basic t = true := by rw [← basic_through (v := v)]; exact hb
        have hv' := hv
        change varying (through v t) = false at hv'
        rw [varying_through hb'] at hv'
        simp only [Bool.or_eq_false_iff] at hv'
        rw [emit, emit]; simp only [he, ih hv'.1]
        congr 1
        funext a
        exact load_same (fun _ => hv) a
    · cases h
  | .index e i, T, L, h => by
    rw [types] at h
    split at h
    · next v t L' he =>
      simp only [Option.some.injEq, Prod.mk.injEq] at h
      obtain ⟨rfl, rfl⟩ := h
      have ih := (uniform_same l l' he).2 rfl
      have hi : i.varying = false → i.at l = i.at l' := by cases i <;> simp [Ix.varying, Ix.at]
      constructor
      · intro t' ht
        simp only [Option.some.injEq, Prod.mk.injEq, Bool.or_eq_false_iff] at ht
        obtain ⟨⟨hv, hiv⟩, rfl⟩ := ht
        rw [emit, emit]; simp only [he, ih hv, hi hiv]
        simp [offs, hv, hiv]
      · intro hb hv
        have hb' : basic t = true := by rw [← basic_through (v := v || i.varying)]; exact hb
        have hv' := hv
        change varying (through (v || i.varying) t) = false at hv'
        rw [varying_through hb'] at hv'
        simp only [Bool.or_eq_false_iff] at hv'
        rw [emit, emit]; simp only [he, ih hv'.1.1, hi hv'.1.2, Option.bind_map]
        congr 1
        funext a
        exact load_same (fun _ => hv) _
    · next n t' v n' t he =>
      simp only [Option.some.injEq, Prod.mk.injEq] at h
      obtain ⟨rfl, rfl⟩ := h
      have ih := (uniform_same l l' he).1
      have hi : i.varying = false → i.at l = i.at l' := by cases i <;> simp [Ix.varying, Ix.at]
      have ht' : t' = through v t := by
        rcases types_through he with ⟨v', t'', h1, h2⟩ | ⟨v', t'', h2⟩
        · cases h1; rw [through_arr] at h2; cases h2; rfl
        · cases h2
      subst ht'
      constructor
      · intro t' ht
        simp only [Option.some.injEq, Prod.mk.injEq, Bool.or_eq_false_iff] at ht
        obtain ⟨⟨rfl, hiv⟩, rfl⟩ := ht
        rw [emit, emit]; simp only [he, ih _ rfl, hi hiv]
        simp [offs, hiv]
      · intro hb hv
        rw [through_through] at hb hv
        have hb' : basic t = true := by rw [← basic_through (v := v || i.varying)]; exact hb
        have hv' := hv
        rw [varying_through hb'] at hv'
        simp only [Bool.or_eq_false_iff] at hv'
        obtain ⟨⟨rfl, hiv⟩, hvt⟩ := hv'
        rw [emit, emit]; simp only [he, ih _ rfl, hi hiv, Option.bind_map]
        congr 1
        funext a
        exact load_same (fun _ => hv) _
    · cases h
  | .mem true second e, T, L, h => by
    rw [types] at h
    split at h
    · next v a b L' he =>
      simp only [Option.some.injEq, Prod.mk.injEq] at h
      obtain ⟨rfl, rfl⟩ := h
      have ih := (uniform_same l l' he).2 rfl
      constructor
      · intro t' ht
        simp only [Option.some.injEq, Prod.mk.injEq] at ht
        obtain ⟨rfl, -⟩ := ht
        rw [emit, emit]; simp only [he, ih rfl]
        simp [offs]
      · intro hb hv
        change basic (through v (if second then b else a)) = true at hb
        change varying (through v (if second then b else a)) = false at hv
        have hb' := hb
        rw [basic_through] at hb'
        have hv' := hv
        rw [varying_through hb'] at hv'
        simp only [Bool.or_eq_false_iff] at hv'
        rw [emit, emit]; simp only [he, ih hv'.1, Option.bind_map]
        congr 1
        funext a
        exact load_same (fun _ => hv) _
    · cases h
  | .mem false second e, T, L, h => by
    rw [types] at h
    split at h
    · next a' b' v a b he =>
      simp only [Option.some.injEq, Prod.mk.injEq] at h
      obtain ⟨rfl, rfl⟩ := h
      have ih := (uniform_same l l' he).1
      constructor
      · intro t' ht
        simp only [Option.some.injEq, Prod.mk.injEq] at ht
        obtain ⟨rfl, -⟩ := ht
        rw [emit, emit]; simp only [he, ih _ rfl]
        simp [offs]
      · intro hb hv
        change basic (through v (if second then b else a)) = true at hb
        change varying (through v (if second then b else a)) = false at hv
        have hb' := hb
        rw [basic_through] at hb'
        have hv' := hv
        rw [varying_through hb'] at hv'
        simp only [Bool.or_eq_false_iff] at hv'
        obtain ⟨rfl, _⟩ := hv'
        rw [emit, emit]; simp only [he, ih _ rfl, Option.bind_map]
        congr 1
        funext a
        exact load_same (fun _ => hv) _
    · cases h
  | .addr e, T, L, h => by
    rw [types] at h
    split at h
    · next t' v t he =>
      simp only [Option.some.injEq, Prod.mk.injEq] at h
      obtain ⟨rfl, rfl⟩ := h
      refine ⟨fun _ _ => rfl, fun _ hv => ?_⟩
      change v = false at hv
      subst hv
      exact (uniform_same l l' he).1 _ rfl
    · cases h
  | .add e i, T, L, h => by
    rw [types] at h
    split at h
    · next v t L' he =>
      simp only [Option.some.injEq, Prod.mk.injEq] at h
      obtain ⟨rfl, rfl⟩ := h
      refine ⟨fun _ _ => by rw [emit, emit]; simp [he], fun _ hv => ?_⟩
      change (v || i.varying) = false at hv
      simp only [Bool.or_eq_false_iff] at hv
      have hi : i.varying = false → i.at l = i.at l' := by cases i <;> simp [Ix.varying, Ix.at]
      rw [emit, emit]; simp only [he, (uniform_same l l' he).2 rfl hv.1, hi hv.2]
    · cases h
  | .cast v t e, T, L, h => by
    rw [types] at h
    split at h
    · next v' t' L' he =>
      split at h
      · cases h
      · next hv' =>
        simp only [Option.some.injEq, Prod.mk.injEq] at h
        obtain ⟨rfl, rfl⟩ := h
        have ih := (uniform_same l l' he).2 rfl
        have hvv : v = false → v' = false := by rintro rfl; simpa using hv'
        constructor
        · intro t'' ht
          simp only [Option.some.injEq, Prod.mk.injEq] at ht
          rw [emit, emit]
          exact ih (hvv ht.1)
        · intro _ hv
          rw [emit, emit]
          exact ih (hvv hv)
    · cases h

/-! ## Varying pointers to varying objects -/

/-- `*e = …` through a varying pointer to a varying object: reading `*e` reads the program instance's own part of the object
the pointer points to, but the assignment writes to the first part, for every program instance. -/
theorem write_wrong {s : Env} {l : Nat} {e : E} {t : Ty} {p : Int} {L} (h : Points s l e t p)
    (hT : types s e = some (.ptr true t, L)) (hp : Plain s e) (hb : basic t = true) (hv : varying t = true) :
    value s l (.deref e) = some (s.mem (p + l)) ∧ written s l (.deref e) = some p := by
  have ht : types s (.deref e) = some (asVarying t, some (true, t)) := by rw [types]; simp [hT]
  obtain ⟨v, hL, _, hl, hr⟩ := denotes_ok (.deref h) ht hp
  cases hL
  refine ⟨by rw [value, hr hb]; simp [object, hv], ?_⟩
  unfold written
  simp [ht, hl, hb, lplace, isDeref, cell]

/-- With `p` pointing to `a[2]`, program instance 3 reads cell 111 of `*p` and writes cell 108. -/
example : value demo 3 (.deref (.var 1)) = some 111 ∧ written demo 3 (.deref (.var 1)) = some 108 ∧
    written demo 3 (.index (.var 1) (.uni 0)) = some 111 := by decide +kernel

/-- `(*e)++` there reads one cell and writes another. -/
theorem step_wrong : stepped demo 3 (.deref (.var 1)) = some (demo.mem 111) ∧
    written demo 3 (.deref (.var 1)) = some 108 := by decide +kernel

/-- `e += …` changes the cell it reads, whatever `e` is. -/
theorem update_same (s : Env) (l : Nat) (e : E) : updated s l e = (written s l e).map s.mem := by
  unfold updated written
  split <;> rename_i h1 h2
  · unfold load
    split <;> rfl
  · simp_all

/-- The address of an element or member that is a varying object behind a varying pointer has the offset of the
program instance in it, so reading through it adds the offset again: `*&a[i]` is not `a[i]`. -/
theorem address_wrong {s : Env} {l : Nat} {e : E} {T t : Ty} {a : Int} (h : Denotes s l e t a)
    (hT : types s e = some (T, some (true, t))) (hp : Plain s e) (hd : isDeref e = false) (hb : basic t = true)
    (hv : varying t = true) :
    value s l (.addr e) = some (a + l) ∧ value s l e = some (s.mem (a + l)) ∧
      value s l (.deref (.addr e)) = some (s.mem (a + l + l)) := by
  obtain ⟨v, hL, _, hl, hr⟩ := denotes_ok h hT hp
  cases hL
  have h1 : value s l (.addr e) = some (a + l) := by rw [value, emit, hl]; simp [lplace, hd, offs, hv]
  refine ⟨h1, by rw [value, hr hb]; simp [object, hv], ?_⟩
  have ht : types s (.addr e) = some (.ptr true t, some (false, T)) := by rw [types]; simp [hT]
  rw [value] at h1 ⊢
  rw [emit]; simp only [ht, h1]
  simp [load, hb, offs, hv, cell]

/-- `a[i]`, with `i` the number of the program instance, and `*&a[i]`. -/
example : value demo 3 (.index (.var 0) (.var fun l => l)) = some 115 ∧
    value demo 3 (.deref (.addr (.index (.var 0) (.var fun l => l)))) = some 118 := by decide +kernel

/-- A pointer cast is taken for a place, namely for the object that the pointer points to: `(t *)e = …` overwrites
that object with the pointer, and `&(t *)e` is the pointer itself. -/
theorem cast_wrong {s : Env} {l : Nat} {e : E} {v : Bool} {t t' : Ty} {p : Int} {L} (h : Points s l e t' p)
    (hT : types s e = some (.ptr v t', L)) (hp : Plain s e) (hb : basic t = true) :
    types s (.cast v t e) = some (.ptr v t, some (v, t)) ∧ value s l (.addr (.cast v t e)) = some p ∧
      types s (.addr (.cast v t e)) = some (.ptr v t, some (false, .ptr v t)) ∧
      written s l (.cast v t e) = some (cell l v t p) := by
  obtain ⟨w, _, hv⟩ := points_ok h hT hp
  have ht : types s (.cast v t e) = some (.ptr v t, some (v, t)) := by rw [types]; cases v <;> simp [hT]
  refine ⟨ht, ?_, ?_, ?_⟩
  · rw [value, emit, emit]; simpa using hv
  · rw [types]; simp [ht]
  · unfold written
    simp [ht, emit, hv, hb]

/-- `(uniform int * uniform)q = …` writes to what `q` points to. -/
example : written demo 3 (.var 2) = some 300 ∧ written demo 3 (.cast false (.sc false) (.var 2)) = some 108 := by
  decide +kernel

end Ispc.Places
