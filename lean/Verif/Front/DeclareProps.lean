import Verif.Front.Declare

/-!
# Declarations mean what C's declarators and the documented defaults say

The specification.  As in C, a declaration looks like the use of the name:
`Uses d X T` says that if the name has type `X`, then the expression written
like the declarator `d` has the type `T` the declaration begins with.  The
defaults (docs/ispc.rst:3184-3186, 2450-2453) are stated place by place: a
place inside a type is a list of steps, every place keeps what was written
there, and an unwritten variability is uniform behind a pointer and varying
elsewhere.
-/

namespace Ispc.Declare

/-! ## Places inside a type -/

/-- A step into a type. -/
inductive Step
  | pointee | target | element | result | param (i : Nat)
deriving DecidableEq

/-- What is written at the outermost place of a type. -/
inductive Head
  | void (c : Bool)
  | base (k : Nat) (v : Vb) (c : Bool)
  | ptr (v : Vb) (c : Bool)
  | ref
  | arr (n : Nat)
  | fn (n : Nat)
deriving DecidableEq

/-- How many parameters. -/
def Tys.length : Tys → Nat
  | .nil => 0
  | .cons _ ts => ts.length + 1

/-- The outermost place. -/
def head : Ty → Head
  | .void c => .void c
  | .base k v c => .base k v c
  | .ptr _ v c => .ptr v c
  | .ref _ => .ref
  | .arr _ n => .arr n
  | .fn _ ps => .fn ps.length

mutual
/-- The type at a place. -/
def part : Ty → List Step → Option Ty
  | t, [] => some t
  | .ptr t _ _, .pointee :: p => part t p
  | .ref t, .target :: p => part t p
  | .arr t _, .element :: p => part t p
  | .fn r _, .result :: p => part r p
  | .fn _ ps, .param i :: p => partAt ps i p
  | _, _ :: _ => none
/-- The type at a place in a parameter. -/
def partAt : Tys → Nat → List Step → Option Ty
  | .nil, _, _ => none
  | .cons t _, 0, p => part t p
  | .cons _ ts, i + 1, p => partAt ts i p
end

/-- `R` is `T` with `f` done at every place. -/
def Relabel (f : List Step → Head → Head) (T R : Ty) : Prop :=
  ∀ p, (part R p).map head = (part T p).map fun x => f p (head x)

/-- An unwritten variability: uniform behind a pointer, `v` elsewhere. -/
def fill (v : Vb) (p : List Step) : Head → Head
  | .base k .unbound c => .base k (if Step.pointee ∈ p then .uniform else v) c
  | .ptr .unbound c => .ptr (if Step.pointee ∈ p then .uniform else v) c
  | h => h

/-- `R` is `T` with the unwritten variabilities filled in. -/
def Filled (v : Vb) (T R : Ty) : Prop := Relabel (fill v) T R

/-- Qualifiers in front of a type go to the type itself, or to the elements of an array or the target
of a reference: the variability becomes `w`, `const` is added. -/
def mark (w : Vb) (c : Bool) (p : List Step) (h : Head) : Head :=
  if p.all (fun s => s == .element || s == .target) then
    match h with
    | .void c' => .void (c || c')
    | .base k _ c' => .base k w (c || c')
    | .ptr _ c' => .ptr w (c || c')
    | h => h
  else h

/-! ## Declarations look like uses -/

/-- The qualifiers behind a star say that the pointer has variability `v`; both at once say nothing. -/
def Says (q : Quals) : Vb → Prop
  | .uniform => q.u = true ∧ q.v = false
  | .varying => q.v = true ∧ q.u = false
  | .unbound => q.u = false ∧ q.v = false

/-- `* q₁ * q₂ … e`, for `e` of type `U`, has type `T`. -/
inductive Derefs : List Quals → Ty → Ty → Prop
  | nil (U) : Derefs [] U U
  | cons {q qs U T v} : Says q v → Derefs qs U (.ptr T v q.c) → Derefs (q :: qs) U T

/-- An array parameter is a uniform pointer to the first element; other parameters are themselves.
Dimensions after the first must be given and there are no `void` parameters. -/
inductive Passed : Ty → Ty → Prop
  | arr {e n} : (∀ k e', part e (List.replicate k .element) = some e' → head e' ≠ .arr 0) →
      Passed (.arr e n) (.ptr e .uniform false)
  | same {t} : (∀ e n, t ≠ .arr e n) → (∀ c, t ≠ .void c) → Passed t t

/-- The specifiers ask for variability `v`: by a qualifier, or by a `typedef` name of a type that has
it. -/
def Asks (q : Quals) (td : Bool) (t : Ty) (v : Vb) : Prop :=
  match v with
  | .uniform => q.u = true ∨ (td = true ∧ isVoid t = false ∧ vbOf t = .uniform)
  | .varying => q.v = true ∨ (td = true ∧ vbOf t = .varying)
  | .unbound => False

/-- `B` is the type the specifiers stand for: `t` with the one variability asked for, or none, and
with `const` if that is there.  `void` takes no variability. -/
def Written (q : Quals) (td : Bool) (t B : Ty) : Prop :=
  ∃ w, (∀ v, Asks q td t v → v = w) ∧ (w = .unbound ∨ Asks q td t w) ∧ (w = .unbound ∨ isVoid t = false) ∧
    Relabel (mark w q.c) t B

/-- Where the type of the specifiers comes from: a name for a type other than `void`, or a basic type
or `void`. -/
def Source (td : Bool) (t : Ty) : Prop :=
  if td then isVoid t = false else (∃ k v c, t = .base k v c) ∨ ∃ c, t = .void c

mutual
/-- If the name has type `X`, the expression written like `d` has type `T`.  Not allowed are
references to references, arrays of references or of `void`, and functions that return functions; a
function's result gets the default variability. -/
inductive Uses : Src → Ty → Ty → Prop
  | leaf (X) : Uses .leaf X X
  | paren {d X T} : Uses d X T → Uses (.paren d) X T
  | arr {d n X T} : Uses d X (.arr T n) → isVoid T = false → isRef T = false → Uses (.arr d n) X T
  | amp {d X T} : Uses d X (.ref T) → isRef T = false → Uses (.amp d) X T
  | stars {q qs d X U T} : Uses d X U → Derefs (q :: qs) U T → Uses (.stars q qs d) X T
  | fn {d ps X T R ts} : Uses d X (.fn R ts) → Filled .varying T R → isFn T = false →
      ParamTypes ps ts → Uses (.fn d ps) X T
/-- The parameters have these types. -/
inductive ParamTypes : Params → Tys → Prop
  | nil : ParamTypes .nil .nil
  | cons {q td t p ps B Y Z X ts} : Written q td t B → ParamUses p Y B → Filled .varying Y Z →
      Passed Z X → ParamTypes ps ts → ParamTypes (.cons q td t p ps) (.cons X ts)
/-- A declarator of a parameter means the same with and without a name. -/
inductive ParamUses : Par → Ty → Ty → Prop
  | none (X) : ParamUses .none X X
  | named {d X T} : Uses d X T → ParamUses (.named d) X T
  | abstract {d X T} : Uses d X T → ParamUses (.abstract d) X T
end

mutual
/-- No declarator without a name that has stars in front of brackets or parentheses, or that is a
function. -/
def PlainN : Src → Prop
  | .leaf => True
  | .paren d => PlainN d
  | .arr d _ => PlainN d
  | .fn d ps => PlainN d ∧ PlainPs ps
  | .stars _ _ d => PlainN d
  | .amp d => PlainN d
/-- The same for a declarator that itself has no name. -/
def PlainA : Src → Prop
  | .leaf => True
  | .paren d => d ≠ .leaf ∧ PlainA d
  | .arr d _ => PlainA d
  | .fn d ps => d ≠ .leaf ∧ PlainA d ∧ PlainPs ps
  | .stars _ _ d => d = .leaf
  | .amp d => PlainA d
/-- The same for parameters. -/
def PlainPs : Params → Prop
  | .nil => True
  | .cons _ td t .none ps => Source td t ∧ PlainPs ps
  | .cons _ td t (.named d) ps => Source td t ∧ PlainN d ∧ PlainPs ps
  | .cons _ td t (.abstract d) ps => Source td t ∧ PlainA d ∧ PlainPs ps
end

/-! ## Types are determined by their places -/

theorem part_nil (t : Ty) : part t [] = some t := by cases t <;> rfl

mutual
theorem ext : ∀ (A B : Ty), (∀ p, (part A p).map head = (part B p).map head) → A = B
  | .void c, B, h => by
    have h0 := h []; rw [part_nil, part_nil] at h0
    cases B <;> simp_all [head]
  | .base k v c, B, h => by
    have h0 := h []; rw [part_nil, part_nil] at h0
    cases B <;> simp_all [head]
  | .ptr t v c, B, h => by
    have h0 := h []; rw [part_nil, part_nil] at h0
    cases B <;> simp only [Option.map_some, head, Option.some.injEq, Head.ptr.injEq, reduceCtorEq] at h0
    rename_i t' v' c'
    rw [ext t t' (fun p => by simpa [part] using h (.pointee :: p)), h0.1, h0.2]
  | .ref t, B, h => by
    have h0 := h []; rw [part_nil, part_nil] at h0
    cases B <;> simp only [Option.map_some, head, Option.some.injEq, reduceCtorEq] at h0
    rename_i t'
    rw [ext t t' (fun p => by simpa [part] using h (.target :: p))]
  | .arr t n, B, h => by
    have h0 := h []; rw [part_nil, part_nil] at h0
    cases B <;> simp only [Option.map_some, head, Option.some.injEq, Head.arr.injEq, reduceCtorEq] at h0
    rename_i t' n'
    rw [ext t t' (fun p => by simpa [part] using h (.element :: p)), h0]
  | .fn r ps, B, h => by
    have h0 := h []; rw [part_nil, part_nil] at h0
    cases B <;> simp only [Option.map_some, head, Option.some.injEq, Head.fn.injEq, reduceCtorEq] at h0
    rename_i r' ps'
    rw [ext r r' (fun p => by simpa [part] using h (.result :: p)),
      exts ps ps' h0 (fun i p => by simpa [part] using h (.param i :: p))]
theorem exts : ∀ (A B : Tys), A.length = B.length → (∀ i p, (partAt A i p).map head = (partAt B i p).map head) → A = B
  | .nil, .nil, _, _ => rfl
  | .nil, .cons _ _, h, _ => by simp [Tys.length] at h
  | .cons _ _, .nil, h, _ => by simp [Tys.length] at h
  | .cons t ts, .cons u us, h, hp => by
    rw [ext t u (fun p => by simpa [partAt] using hp 0 p),
      exts ts us (by simpa [Tys.length] using h) (fun i p => by simpa [partAt] using hp (i + 1) p)]
end

/-- What is relabelled is determined. -/
theorem Relabel.unique {f : List Step → Head → Head} {T R R' : Ty} (h : Relabel f T R) (h' : Relabel f T R') :
    R = R' := ext R R' fun p => by rw [h p, h' p]

/-! ## Variabilities -/

theorem fill_pointee (v : Vb) (p : List Step) (h : Head) : fill v (.pointee :: p) h = fill .uniform p h := by
  cases h with
  | base k w c => cases w <;> simp [fill]
  | ptr w c => cases w <;> simp [fill]
  | _ => rfl

theorem fill_cons (v : Vb) (s : Step) (hs : s ≠ .pointee) (p : List Step) (h : Head) :
    fill v (s :: p) h = fill v p h := by
  have : (Step.pointee ∈ s :: p) ↔ (Step.pointee ∈ p) := by simp [Ne.symm hs]
  cases h with
  | base k w c => cases w <;> simp only [fill, this]
  | ptr w c => cases w <;> simp only [fill, this]
  | _ => rfl

theorem resolves_length (v : Vb) : ∀ ts : Tys, (resolves v ts).length = ts.length
  | .nil => rfl
  | .cons _ ts => by simp only [resolves, Tys.length, resolves_length v ts]

theorem resolve_head (v : Vb) (t : Ty) : head (resolve v t) = fill v [] (head t) := by
  cases t with
  | base k w c => cases w <;> simp [resolve, head, fill, Vb.orElse]
  | ptr t w c => cases w <;> simp [resolve, head, fill, Vb.orElse]
  | fn r ps => simp only [resolve, head, fill, resolves_length]
  | _ => simp [resolve, head, fill]

mutual
theorem resolve_filled : ∀ (t : Ty) (v : Vb) (p : List Step),
    (part (resolve v t) p).map head = (part t p).map fun x => fill v p (head x)
  | t, v, [] => by rw [part_nil, part_nil, Option.map_some, Option.map_some, resolve_head]
  | .void c, v, s :: p => by cases s <;> simp [resolve, part]
  | .base k w c, v, s :: p => by cases s <;> simp [resolve, part]
  | .ptr t w c, v, s :: p => by
    cases s <;> simp only [resolve, part, Option.map_none]
    rw [resolve_filled t .uniform p]; simp only [fill_pointee]
  | .ref t, v, s :: p => by
    cases s <;> simp only [resolve, part, Option.map_none]
    rw [resolve_filled t v p]; simp only [fill_cons v .target (by decide)]
  | .arr t n, v, s :: p => by
    cases s <;> simp only [resolve, part, Option.map_none]
    rw [resolve_filled t v p]; simp only [fill_cons v .element (by decide)]
  | .fn r ps, v, s :: p => by
    cases s <;> simp only [resolve, part, Option.map_none]
    · rw [resolve_filled r v p]; simp only [fill_cons v .result (by decide)]
    · rename_i i
      rw [resolves_filled ps v i p]; simp only [fill_cons v (.param i) (by simp)]
theorem resolves_filled : ∀ (ts : Tys) (v : Vb) (i : Nat) (p : List Step),
    (partAt (resolves v ts) i p).map head = (partAt ts i p).map fun x => fill v p (head x)
  | .nil, v, i, p => by simp [resolves, partAt]
  | .cons t ts, v, 0, p => by simp only [resolves, partAt]; exact resolve_filled t v p
  | .cons t ts, v, i + 1, p => by simp only [resolves, partAt]; exact resolves_filled ts v i p
end

/-- Defaults: exactly the unwritten variabilities are filled in, uniform behind a pointer and `v`
elsewhere. -/
theorem default_iff (v : Vb) (T R : Ty) : resolve v T = R ↔ Filled v T R :=
  ⟨fun h => h ▸ resolve_filled T v, fun h => Relabel.unique (resolve_filled T v) h⟩

/-- docs/ispc.rst:3184-3203: `float *ptr` is a varying pointer to uniform float, `varying float *
uniform pf` a uniform pointer to varying float. -/
example : resolve .varying (.ptr (.base 0 .unbound false) .unbound false) =
      .ptr (.base 0 .uniform false) .varying false ∧
    resolve .varying (.ptr (.base 0 .varying false) .uniform false) =
      .ptr (.base 0 .varying false) .uniform false ∧
    resolve .varying (.arr (.ptr (.ptr (.base 0 .unbound true) .unbound false) .unbound false) 3) =
      .arr (.ptr (.ptr (.base 0 .uniform true) .uniform false) .varying false) 3 := ⟨rfl, rfl, rfl⟩

/-! ## Specifiers -/

/-- The type with the qualifiers in front. -/
def marked (w : Vb) (c : Bool) : Ty → Ty
  | .void c' => .void (c || c')
  | .base k _ c' => .base k w (c || c')
  | .ptr t _ c' => .ptr t w (c || c')
  | .ref t => .ref (marked w c t)
  | .arr t n => .arr (marked w c t) n
  | .fn r ps => .fn r ps

theorem mark_out (w : Vb) (c : Bool) (s : Step) (hs : (s == .element || s == .target) = false) (p : List Step)
    (h : Head) : mark w c (s :: p) h = h := by
  simp only [mark, List.all_cons, hs, Bool.false_and]; rfl

theorem mark_in (w : Vb) (c : Bool) (s : Step) (hs : (s == .element || s == .target) = true) (p : List Step)
    (h : Head) : mark w c (s :: p) h = mark w c p h := by
  simp only [mark, List.all_cons, hs, Bool.true_and]

theorem marked_relabel (w : Vb) (c : Bool) : ∀ (t : Ty), Relabel (mark w c) t (marked w c t)
  | .void _, [] => rfl
  | .base _ _ _, [] => rfl
  | .ptr _ _ _, [] => rfl
  | .ref _, [] => rfl
  | .arr _ _, [] => rfl
  | .fn _ _, [] => rfl
  | .void c', s :: p => by cases s <;> simp [marked, part]
  | .base k _ c', s :: p => by cases s <;> simp [marked, part]
  | .ptr t _ _, s :: p => by
    cases s <;> simp only [marked, part, Option.map_none]
    simp only [mark_out w c .pointee rfl]
  | .ref t, s :: p => by
    cases s <;> simp only [marked, part, Option.map_none]
    rw [marked_relabel w c t p]; simp only [mark_in w c .target rfl]
  | .arr t n, s :: p => by
    cases s <;> simp only [marked, part, Option.map_none]
    rw [marked_relabel w c t p]; simp only [mark_in w c .element rfl]
  | .fn r ps, s :: p => by
    cases s <;> simp only [marked, part, Option.map_none]
    · simp only [mark_out w c .result rfl]
    · rename_i i
      simp only [mark_out w c (.param i) rfl]

theorem asConst_void (t : Ty) : isVoid (asConst t) = isVoid t := by cases t <;> rfl

theorem asConst_vb : ∀ t : Ty, vbOf (asConst t) = vbOf t
  | .void _ => rfl
  | .base _ _ _ => rfl
  | .ptr _ _ _ => rfl
  | .ref t => asConst_vb t
  | .arr t _ => asConst_vb t
  | .fn _ _ => rfl

theorem withVb_eq (w : Vb) : ∀ t : Ty, (w = .uniform ∨ vbOf t ≠ .uniform ∨ (∃ k v c, t = .base k v c)) →
    withVb w t = .ok (marked w false t)
  | .void _, _ => rfl
  | .base _ _ _, _ => by simp [withVb, marked]
  | .ptr _ _ _, _ => by simp [withVb, marked]
  | .ref t, h => by
    have h' : w = .uniform ∨ vbOf t ≠ .uniform ∨ (∃ k v c, t = .base k v c) := by
      rcases h with h | h | ⟨_, _, _, h⟩
      · exact .inl h
      · exact .inr (.inl h)
      · cases h
    simp [withVb, withVb_eq w t h', Out.bind, marked]
  | .arr t n, h => by
    have h' : w = .uniform ∨ vbOf t ≠ .uniform ∨ (∃ k v c, t = .base k v c) := by
      rcases h with h | h | ⟨_, _, _, h⟩
      · exact .inl h
      · exact .inr (.inl h)
      · cases h
    simp [withVb, withVb_eq w t h', Out.bind, marked]
  | .fn r ps, h => by
    rcases h with h | h | ⟨_, _, _, h⟩
    · simp [withVb, h, marked]
    · exact absurd rfl h
    · cases h

theorem marked_const (w : Vb) (c : Bool) : ∀ t : Ty, marked w false (if c then asConst t else t) = marked w c t := by
  intro t
  cases c with
  | false => rfl
  | true =>
    simp only [if_true]
    induction t using Ty.rec (motive_2 := fun _ => True) with
    | ref t ih => simp [asConst, marked, ih]
    | arr t n ih => simp [asConst, marked, ih]
    | nil => trivial
    | cons => trivial
    | _ => simp [asConst, marked]

theorem asks_uniform {q : Quals} {td : Bool} {t : Ty} (hs : Source td t) :
    Asks q td t .uniform ↔ (typedefQuals q td t).u = true := by
  cases td with
  | false => simp [Asks, typedefQuals]
  | true => simp only [Source, if_true] at hs; simp [Asks, typedefQuals, hs]

theorem asks_varying {q : Quals} {td : Bool} {t : Ty} : Asks q td t .varying ↔ (typedefQuals q td t).v = true := by
  cases td with
  | false => simp [Asks, typedefQuals]
  | true => simp [Asks, typedefQuals]

theorem typedef_c (q : Quals) (td : Bool) (t : Ty) : (typedefQuals q td t).c = q.c := by
  cases td <;> simp [typedefQuals]

/-- Without uniform asked for, the type can take another variability. -/
theorem not_fn {q : Quals} {td : Bool} {t : Ty} (hs : Source td t) (hv : isVoid t = false)
    (hu : (typedefQuals q td t).u = false) : vbOf t ≠ .uniform ∨ (∃ k v c, t = .base k v c) := by
  cases td with
  | false =>
    simp only [Source, Bool.false_eq_true, if_false] at hs
    rcases hs with h | ⟨c, h⟩
    · exact .inr h
    · rw [h] at hv; simp [isVoid] at hv
  | true =>
    simp only [typedefQuals, if_true, Bool.or_eq_false_iff, decide_eq_false_iff_not] at hu
    exact .inl hu.2

theorem const_void (c : Bool) (t : Ty) : isVoid (if c then asConst t else t) = isVoid t := by
  cases c <;> simp [asConst_void]

theorem const_ok {w : Vb} {c : Bool} {t : Ty}
    (h : w = .uniform ∨ vbOf t ≠ .uniform ∨ (∃ k v c, t = .base k v c)) :
    withVb w (if c then asConst t else t) = .ok (marked w c t) := by
  rw [withVb_eq w _ ?_, marked_const]
  cases c with
  | false => exact h
  | true =>
    simp only [if_true, asConst_vb]
    rcases h with h | h | ⟨k, v, c, h⟩
    · exact .inl h
    · exact .inr (.inl h)
    · exact .inr (.inr ⟨k, v, true, by rw [h]; rfl⟩)

/-- Specifiers stand for the type with the qualifiers written in front of it; uniform and varying
together, or either with `void`, are rejected, and nothing else is. -/
theorem specs_iff {q : Quals} {td : Bool} {t : Ty} (hs : Source td t) (B : Ty) :
    specs q td t = .ok B ↔ Written q td t B := by
  have hu := asks_uniform (q := q) hs
  have hv := asks_varying (q := q) (td := td) (t := t)
  have hn := fun h h' => not_fn (q := q) hs h h'
  have hq := typedef_c q td t
  unfold specs applyQuals
  simp only [hq, const_void]
  cases h1 : (typedefQuals q td t).u <;> cases h2 : (typedefQuals q td t).v <;> rw [h1] at hu <;> rw [h2] at hv
  · -- none
    simp only [Bool.false_eq_true, iff_false] at hu hv
    simp only [Bool.and_self, Bool.false_eq_true, if_false]
    have hw : Written q td t B ↔ Relabel (mark .unbound q.c) t B := by
      constructor
      · rintro ⟨w, _, h, _, hr⟩
        rcases h with h | h
        · rw [h] at hr; exact hr
        · cases w with
          | unbound => exact hr
          | uniform => exact absurd h hu
          | varying => exact absurd h hv
      · intro hr
        refine ⟨.unbound, ?_, .inl rfl, .inl rfl, hr⟩
        intro v hv'
        cases v with
        | unbound => rfl
        | uniform => exact absurd hv' hu
        | varying => exact absurd hv' hv
    rw [hw]
    cases hvo : isVoid t with
    | true =>
      simp only [if_true, Out.ok.injEq]
      have he : (if q.c then asConst t else t) = marked .unbound q.c t := by
        cases t <;> simp [isVoid] at hvo
        cases q.c <;> rfl
      rw [he]
      exact ⟨fun h => h ▸ marked_relabel _ _ _, fun h => Relabel.unique (marked_relabel _ _ _) h⟩
    | false =>
      simp only [Bool.false_eq_true, if_false]
      rw [const_ok (.inr (hn hvo h1)), Out.ok.injEq]
      exact ⟨fun h => h ▸ marked_relabel _ _ _, fun h => Relabel.unique (marked_relabel _ _ _) h⟩
  · -- varying
    simp only [Bool.false_eq_true, iff_false] at hu
    simp only [iff_true] at hv
    simp only [Bool.false_and, Bool.false_eq_true, if_false, if_true]
    have hw : Written q td t B ↔ isVoid t = false ∧ Relabel (mark .varying q.c) t B := by
      constructor
      · rintro ⟨w, ha, _, hvo, hr⟩
        have := ha _ hv
        subst this
        exact ⟨by simpa using hvo, hr⟩
      · rintro ⟨h, hr⟩
        refine ⟨.varying, ?_, .inr hv, .inr h, hr⟩
        intro v hv'
        cases v with
        | unbound => exact absurd hv' (by simp [Asks])
        | uniform => exact absurd hv' hu
        | varying => rfl
    rw [hw]
    cases hvo : isVoid t with
    | true => simp
    | false =>
      simp only [Bool.false_eq_true, if_false, true_and]
      rw [const_ok (.inr (hn hvo h1)), Out.ok.injEq]
      exact ⟨fun h => h ▸ marked_relabel _ _ _, fun h => Relabel.unique (marked_relabel _ _ _) h⟩
  · -- uniform
    simp only [Bool.false_eq_true, iff_false] at hv
    simp only [iff_true] at hu
    simp only [Bool.true_and, Bool.false_eq_true, if_false, if_true]
    have hw : Written q td t B ↔ isVoid t = false ∧ Relabel (mark .uniform q.c) t B := by
      constructor
      · rintro ⟨w, ha, _, hvo, hr⟩
        have := ha _ hu
        subst this
        exact ⟨by simpa using hvo, hr⟩
      · rintro ⟨h, hr⟩
        refine ⟨.uniform, ?_, .inr hu, .inr h, hr⟩
        intro v hv'
        cases v with
        | unbound => exact absurd hv' (by simp [Asks])
        | uniform => rfl
        | varying => exact absurd hv' hv
    rw [hw]
    cases hvo : isVoid t with
    | true => simp
    | false =>
      simp only [Bool.false_eq_true, if_false, true_and]
      rw [const_ok (.inl rfl), Out.ok.injEq]
      exact ⟨fun h => h ▸ marked_relabel _ _ _, fun h => Relabel.unique (marked_relabel _ _ _) h⟩
  · -- both
    simp only [iff_true] at hu hv
    simp only [Bool.and_self, if_true]
    constructor
    · intro h; cases h
    · rintro ⟨w, ha, _⟩
      have h1 := ha _ hu
      have h2 := ha _ hv
      rw [← h1] at h2; cases h2

/-- `const uniform float`, `varying` in front of a name for `float *[3]`, and a name for `uniform
float`. -/
example : specs ⟨true, false, true⟩ false (.base 0 .unbound false) = .ok (.base 0 .uniform true) ∧
    specs ⟨false, true, false⟩ true (.arr (.ptr (.base 0 .unbound false) .unbound false) 3) =
      .ok (.arr (.ptr (.base 0 .unbound false) .varying false) 3) ∧
    specs Quals.none true (.base 0 .uniform false) = .ok (.base 0 .uniform false) ∧
    specs ⟨false, true, false⟩ true (.base 0 .uniform false) = .error := ⟨rfl, rfl, rfl, rfl⟩

/-! ## Parameters -/

theorem unsized_iff : ∀ e : Ty, unsized e = false ↔
    ∀ k e', part e (List.replicate k .element) = some e' → head e' ≠ .arr 0
  | .arr t n => by
    simp only [unsized, Bool.or_eq_false_iff, decide_eq_false_iff_not, unsized_iff t]
    constructor
    · rintro ⟨hn, h⟩ k e' hk
      cases k with
      | zero => rw [List.replicate_zero, part_nil] at hk; cases hk; simp [head, hn]
      | succ k => rw [List.replicate_succ] at hk; exact h k e' (by simpa [part] using hk)
    · intro h
      refine ⟨fun hn => h 0 (.arr t n) (part_nil _) (by simp [head, hn]), fun k e' hk => h (k + 1) e' ?_⟩
      rw [List.replicate_succ]; simpa [part] using hk
  | .void c => by
    simp only [unsized, true_iff]
    intro k e' hk
    cases k with
    | zero => rw [List.replicate_zero, part_nil] at hk; cases hk; simp [head]
    | succ k => rw [List.replicate_succ] at hk; simp [part] at hk
  | .base _ _ _ => by
    simp only [unsized, true_iff]
    intro k e' hk
    cases k with
    | zero => rw [List.replicate_zero, part_nil] at hk; cases hk; simp [head]
    | succ k => rw [List.replicate_succ] at hk; simp [part] at hk
  | .ptr _ _ _ => by
    simp only [unsized, true_iff]
    intro k e' hk
    cases k with
    | zero => rw [List.replicate_zero, part_nil] at hk; cases hk; simp [head]
    | succ k => rw [List.replicate_succ] at hk; simp [part] at hk
  | .ref _ => by
    simp only [unsized, true_iff]
    intro k e' hk
    cases k with
    | zero => rw [List.replicate_zero, part_nil] at hk; cases hk; simp [head]
    | succ k => rw [List.replicate_succ] at hk; simp [part] at hk
  | .fn _ _ => by
    simp only [unsized, true_iff]
    intro k e' hk
    cases k with
    | zero => rw [List.replicate_zero, part_nil] at hk; cases hk; simp [head]
    | succ k => rw [List.replicate_succ] at hk; simp [part] at hk

/-- Parameters: the default variability, then arrays as uniform pointers to their elements. -/
theorem param_iff (t X : Ty) : paramTy t = .ok X ↔ ∃ Z, Filled .varying t Z ∧ Passed Z X := by
  have hz : (∃ Z, Filled .varying t Z ∧ Passed Z X) ↔ Passed (resolve .varying t) X := by
    constructor
    · rintro ⟨Z, hZ, h⟩; rwa [(default_iff _ _ _).2 hZ]
    · intro h; exact ⟨_, (default_iff _ _ _).1 rfl, h⟩
  rw [hz]; unfold paramTy
  generalize resolve .varying t = r
  cases r with
  | void c =>
    simp only [reduceCtorEq, false_iff]
    intro h
    cases h with
    | same _ h => exact h c rfl
  | arr e n =>
    cases hu : unsized e with
    | false =>
      simp only [hu, Bool.false_eq_true, if_false, Out.ok.injEq]
      constructor
      · intro h; subst h; exact .arr ((unsized_iff e).1 hu)
      · intro h
        cases h with
        | arr _ => rfl
        | same h _ => exact absurd rfl (h e n)
    | true =>
      simp only [hu, if_true, reduceCtorEq, false_iff]
      intro h
      cases h with
      | arr h => rw [(unsized_iff e).2 h] at hu; cases hu
      | same h _ => exact absurd rfl (h e n)
  | _ =>
    simp only [Out.ok.injEq]
    constructor
    · intro h; subst h; exact .same (by simp) (by simp)
    · intro h; cases h; rfl

/-- `float a[]` and `uniform float image[32][32]` (docs/ispc.rst:2490). -/
example : paramTy (.arr (.base 0 .unbound false) 0) = .ok (.ptr (.base 0 .varying false) .uniform false) ∧
    paramTy (.arr (.arr (.base 0 .uniform false) 32) 32) =
      .ok (.ptr (.arr (.base 0 .uniform false) 32) .uniform false) ∧
    paramTy (.arr (.arr (.base 0 .uniform false) 0) 32) = .error := ⟨rfl, rfl, rfl⟩

/-! ## Declarators -/

theorem bind_ok {α β : Type} {x : Out α} {f : α → Out β} {b : β} :
    x.bind f = .ok b ↔ ∃ a, x = .ok a ∧ f a = .ok b := by
  cases x <;> simp [Out.bind]

theorem says_iff {q : Quals} {v : Vb} : Says q v ↔ q.vb = some v := by
  obtain ⟨u, v', c⟩ := q
  cases u <;> cases v' <;> cases v <;> simp [Says, Quals.vb]

theorem chain_iff (X : Ty) : ∀ (qs : List Quals) (T : Ty), init (chain qs) T = .ok X ↔ Derefs qs X T
  | [], T => by
    simp only [chain, init, Out.ok.injEq]
    exact ⟨fun h => h ▸ .nil _, fun h => by cases h; rfl⟩
  | q :: qs, T => by
    simp only [chain, init]
    cases hq : q.vb with
    | none =>
      simp only [reduceCtorEq, false_iff]
      intro h
      cases h with
      | cons h _ => rw [says_iff, hq] at h; cases h
    | some v =>
      simp only []
      rw [chain_iff X qs]
      constructor
      · intro h; exact Derefs.cons (says_iff.2 hq) h
      · intro h
        cases h with
        | cons h h' => rw [says_iff, hq] at h; cases h; exact h'

theorem attach_iff {n : Node} (X : Ty) : ∀ (qs : List Quals) (q : Quals) (T : Ty),
    init (attach (chain (q :: qs)) n) T = .ok X ↔ ∃ U, Derefs (q :: qs) U T ∧ init n U = .ok X
  | [], q, T => by
    simp only [chain, attach, init]
    cases hq : q.vb with
    | none =>
      simp only [reduceCtorEq, false_iff]
      rintro ⟨U, h, _⟩
      cases h with
      | cons h _ => rw [says_iff, hq] at h; cases h
    | some v =>
      simp only []
      constructor
      · intro h; exact ⟨_, Derefs.cons (says_iff.2 hq) (.nil _), h⟩
      · rintro ⟨U, h, hi⟩
        cases h with
        | cons h h' => rw [says_iff, hq] at h; cases h; cases h'; exact hi
  | q' :: qs, q, T => by
    have ih := attach_iff (n := n) X qs q'
    have hat : attach (chain (q :: q' :: qs)) n = .ptr q (attach (chain (q' :: qs)) n) := by
      simp [chain, attach]
    rw [hat]
    simp only [init]
    cases hq : q.vb with
    | none =>
      simp only [reduceCtorEq, false_iff]
      rintro ⟨U, h, _⟩
      cases h with
      | cons h _ => rw [says_iff, hq] at h; cases h
    | some v =>
      simp only []
      rw [ih]
      constructor
      · rintro ⟨U, h, hi⟩; exact ⟨U, Derefs.cons (says_iff.2 hq) h, hi⟩
      · rintro ⟨U, h, hi⟩
        cases h with
        | cons h h' => rw [says_iff, hq] at h; cases h; exact ⟨U, h', hi⟩

theorem attach_present : ∀ (qs : List Quals) (q : Quals) (n : Node), (attach (chain (q :: qs)) n).isAbsent = false
  | [], _, _ => rfl
  | _ :: _, _, _ => rfl

theorem present_N : ∀ d : Src, (buildN d).isAbsent = false
  | .leaf => by simp [buildN, Node.isAbsent]
  | .paren d => by rw [buildN]; exact present_N d
  | .arr _ _ => by simp [buildN, Node.isAbsent]
  | .fn _ _ => by simp [buildN, Node.isAbsent]
  | .stars q qs d => by rw [buildN]; exact attach_present qs q _
  | .amp _ => by simp [buildN, Node.isAbsent]

theorem present_A : ∀ d : Src, PlainA d → d ≠ .leaf → (buildA d).isAbsent = false
  | .leaf, _, h => absurd rfl h
  | .paren d, hp, _ => by
    simp only [PlainA] at hp
    rw [buildA]; exact present_A d hp.2 hp.1
  | .arr _ _, _, _ => by simp [buildA, Node.isAbsent]
  | .fn _ _, _, _ => by simp [buildA, Node.isAbsent]
  | .stars q qs d, hp, _ => by
    simp only [PlainA] at hp
    subst hp
    simp [buildA, chain, Node.isAbsent]
  | .amp _, _, _ => by simp [buildA, Node.isAbsent]

mutual
theorem init_N : ∀ (d : Src), PlainN d → ∀ T X, init (buildN d) T = .ok X ↔ Uses d X T
  | .leaf, _, T, X => by
    simp only [buildN, init, Out.ok.injEq]
    exact ⟨fun h => h ▸ .leaf _, fun h => by cases h; rfl⟩
  | .paren d, hp, T, X => by
    simp only [PlainN] at hp
    rw [buildN, init_N d hp]
    exact ⟨.paren, fun h => by cases h; assumption⟩
  | .arr d n, hp, T, X => by
    simp only [PlainN] at hp
    simp only [buildN, init]
    cases h1 : isVoid T <;> cases h2 : isRef T <;>
      simp only [Bool.or_self, Bool.or_false, Bool.or_true, Bool.false_eq_true, if_true, if_false, reduceCtorEq, false_iff]
    · rw [init_N d hp]
      exact ⟨fun h => .arr h h1 h2, fun h => by cases h; assumption⟩
    all_goals
      intro h
      cases h with
      | arr _ h3 h4 => simp_all
  | .amp d, hp, T, X => by
    simp only [PlainN] at hp
    simp only [buildN, init]
    cases h2 : isRef T <;> simp only [Bool.false_eq_true, if_true, if_false, reduceCtorEq, false_iff]
    · rw [init_N d hp]
      exact ⟨fun h => .amp h h2, fun h => by cases h; assumption⟩
    · intro h
      cases h with
      | amp _ h4 => simp_all
  | .stars q qs d, hp, T, X => by
    simp only [PlainN] at hp
    rw [buildN, attach_iff]
    constructor
    · rintro ⟨U, hd, hi⟩; exact .stars ((init_N d hp _ _).1 hi) hd
    · intro h
      cases h with
      | stars hu hd => exact ⟨_, hd, (init_N d hp _ _).2 hu⟩
  | .fn d ps, hp, T, X => by
    simp only [PlainN] at hp
    simp only [buildN, init, bind_ok, present_N, Bool.false_eq_true, if_false]
    constructor
    · rintro ⟨ts, hts, h⟩
      cases hf : isFn T with
      | true => simp [hf] at h
      | false =>
        simp only [hf, Bool.false_eq_true, if_false] at h
        exact .fn ((init_N d hp.1 _ _).1 h) ((default_iff _ _ _).1 rfl) hf ((inits_iff ps hp.2 _).1 hts)
    · intro h
      cases h with
      | fn hu hd hf hts =>
        refine ⟨_, (inits_iff ps hp.2 _).2 hts, ?_⟩
        simp only [hf, Bool.false_eq_true, if_false]
        rw [(default_iff _ _ _).2 hd]
        exact (init_N d hp.1 _ _).2 hu
theorem init_A : ∀ (d : Src), PlainA d → ∀ T X, init (buildA d) T = .ok X ↔ Uses d X T
  | .leaf, _, T, X => by
    simp only [buildA, init, Out.ok.injEq]
    exact ⟨fun h => h ▸ .leaf _, fun h => by cases h; rfl⟩
  | .paren d, hp, T, X => by
    simp only [PlainA] at hp
    rw [buildA, init_A d hp.2]
    exact ⟨.paren, fun h => by cases h; assumption⟩
  | .arr d n, hp, T, X => by
    simp only [PlainA] at hp
    simp only [buildA, init]
    cases h1 : isVoid T <;> cases h2 : isRef T <;>
      simp only [Bool.or_self, Bool.or_false, Bool.or_true, Bool.false_eq_true, if_true, if_false, reduceCtorEq, false_iff]
    · rw [init_A d hp]
      exact ⟨fun h => .arr h h1 h2, fun h => by cases h; assumption⟩
    all_goals
      intro h
      cases h with
      | arr _ h3 h4 => simp_all
  | .amp d, hp, T, X => by
    simp only [PlainA] at hp
    simp only [buildA, init]
    cases h2 : isRef T <;> simp only [Bool.false_eq_true, if_true, if_false, reduceCtorEq, false_iff]
    · rw [init_A d hp]
      exact ⟨fun h => .amp h h2, fun h => by cases h; assumption⟩
    · intro h
      cases h with
      | amp _ h4 => simp_all
  | .stars q qs d, hp, T, X => by
    simp only [PlainA] at hp
    subst hp
    rw [buildA, chain_iff]
    constructor
    · intro h; exact .stars (.leaf _) h
    · intro h
      cases h with
      | stars hu hd => cases hu; exact hd
  | .fn d ps, hp, T, X => by
    simp only [PlainA] at hp
    simp only [buildA, init, bind_ok, present_A d hp.2.1 hp.1, Bool.false_eq_true, if_false]
    constructor
    · rintro ⟨ts, hts, h⟩
      cases hf : isFn T with
      | true => simp [hf] at h
      | false =>
        simp only [hf, Bool.false_eq_true, if_false] at h
        exact .fn ((init_A d hp.2.1 _ _).1 h) ((default_iff _ _ _).1 rfl) hf ((inits_iff ps hp.2.2 _).1 hts)
    · intro h
      cases h with
      | fn hu hd hf hts =>
        refine ⟨_, (inits_iff ps hp.2.2 _).2 hts, ?_⟩
        simp only [hf, Bool.false_eq_true, if_false]
        rw [(default_iff _ _ _).2 hd]
        exact (init_A d hp.2.1 _ _).2 hu
theorem inits_iff : ∀ (ps : Params), PlainPs ps → ∀ ts, inits (buildPs ps) = .ok ts ↔ ParamTypes ps ts
  | .nil, _, ts => by
    simp only [buildPs, inits, Out.ok.injEq]
    exact ⟨fun h => h ▸ .nil, fun h => by cases h; rfl⟩
  | .cons q td t .none ps, hp, ts => by
    simp only [PlainPs] at hp
    simp only [buildPs, inits, bind_ok, init, specs_iff hp.1, param_iff, inits_iff ps hp.2, Out.ok.injEq]
    constructor
    · rintro ⟨B, hB, _, rfl, X, ⟨Z, hZ, hX⟩, us, hus, rfl⟩
      exact .cons hB (.none _) hZ hX hus
    · intro h
      cases h with
      | cons hB hu hZ hX hts => cases hu; exact ⟨_, hB, _, rfl, _, ⟨_, hZ, hX⟩, _, hts, rfl⟩
  | .cons q td t (.named d) ps, hp, ts => by
    simp only [PlainPs] at hp
    simp only [buildPs, inits, bind_ok, init_N d hp.2.1, specs_iff hp.1, param_iff, inits_iff ps hp.2.2, Out.ok.injEq]
    constructor
    · rintro ⟨B, hB, _, hu, X, ⟨Z, hZ, hX⟩, us, hus, rfl⟩
      exact .cons hB (.named hu) hZ hX hus
    · intro h
      cases h with
      | cons hB hu hZ hX hts =>
        cases hu with
        | named hu => exact ⟨_, hB, _, hu, _, ⟨_, hZ, hX⟩, _, hts, rfl⟩
  | .cons q td t (.abstract d) ps, hp, ts => by
    simp only [PlainPs] at hp
    simp only [buildPs, inits, bind_ok, init_A d hp.2.1, specs_iff hp.1, param_iff, inits_iff ps hp.2.2, Out.ok.injEq]
    constructor
    · rintro ⟨B, hB, _, hu, X, ⟨Z, hZ, hX⟩, us, hus, rfl⟩
      exact .cons hB (.abstract hu) hZ hX hus
    · intro h
      cases h with
      | cons hB hu hZ hX hts =>
        cases hu with
        | abstract hu => exact ⟨_, hB, _, hu, _, ⟨_, hZ, hX⟩, _, hts, rfl⟩
end

/-- Declarations of variables: the type is the one whose use, written like the declarator, has the type
of the specifiers, with the defaults filled in; everything else is rejected.  Missing: declarators
that contain nameless parameters with stars in front of brackets or parentheses or of function
type. -/
theorem variable_partial {q : Quals} {td : Bool} {t : Ty} {d : Src} (hs : Source td t) (hp : PlainN d) (X : Ty) :
    variableTy q td t d = .ok X ↔
      ∃ B Y, Written q td t B ∧ Uses d Y B ∧ (∀ c, Y ≠ .void c) ∧ (∀ r ps, Y ≠ .fn r ps) ∧ Filled .varying Y X := by
  simp only [variableTy, bind_ok, specs_iff hs, init_N d hp]
  constructor
  · rintro ⟨B, hB, Y, hY, h⟩
    refine ⟨B, Y, hB, hY, ?_, ?_, ?_⟩
    · rintro c rfl; simp [isVoid] at h
    · rintro r ps rfl; simp [isFn] at h
    · split at h
      · cases h
      · cases h; exact (default_iff _ _ _).1 rfl
  · rintro ⟨B, Y, hB, hY, h1, h2, hX⟩
    refine ⟨B, hB, Y, hY, ?_⟩
    have hv : isVoid Y = false := by cases Y <;> simp [isVoid] at *
    have hf : isFn Y = false := by cases Y <;> simp [isFn] at *
    rw [if_neg (by simp [hv, hf]), (default_iff _ _ _).2 hX]

/-- Every declaration that means something means one thing. -/
theorem meaning_unique_partial {d : Src} (hp : PlainN d) {T X X' : Ty} (h : Uses d X T) (h' : Uses d X' T) : X = X' := by
  have a := (init_N d hp T X).2 h
  rw [(init_N d hp T X').2 h'] at a
  cases a; rfl

/-- Type names: the same reading for declarators without a name.  Missing: stars in front of brackets
or parentheses, and functions. -/
theorem type_name_partial {d : Src} (hp : PlainA d) (T X : Ty) : typeName T d = .ok X ↔ Uses d X T := init_A d hp T X

/-- `int *(*uniform f[3])(float)`: an array of three uniform pointers to functions from varying float
to varying pointers to uniform int. -/
def sample : Src :=
  .stars Quals.none [] (.fn (.paren (.stars ⟨true, false, false⟩ [] (.arr .leaf 3)))
    (.cons Quals.none false (.base 1 .unbound false) .none .nil))

example : PlainN sample ∧ Source false (.base 0 .unbound false) ∧
    variableTy Quals.none false (.base 0 .unbound false) sample =
      .ok (.arr (.ptr (.fn (.ptr (.base 0 .uniform false) .varying false)
        (.cons (.base 1 .varying false) .nil)) .uniform false) 3) :=
  ⟨⟨trivial, .inl ⟨_, _, _, rfl⟩, trivial⟩, .inl ⟨_, _, _, rfl⟩, rfl⟩

/-- `int (*)[3]`, a type name for a pointer to an array. -/
example : PlainA (.arr (.paren (.stars Quals.none [] .leaf)) 3) ∧
    typeName (.base 0 .uniform false) (.arr (.paren (.stars Quals.none [] .leaf)) 3) =
      .ok (.ptr (.arr (.base 0 .uniform false) 3) .unbound false) :=
  ⟨⟨by simp, rfl⟩, rfl⟩

/-! ## What goes wrong -/

/-- `float * uniform []` as a type name, or as a parameter without a name, is an array of *varying*
pointers: the qualifier is lost.  With a name it is kept. -/
theorem qualifier_lost_wrong :
    typeName (.base 0 .unbound false) (.stars ⟨true, false, false⟩ [] (.arr .leaf 0)) =
      .ok (.arr (.ptr (.base 0 .unbound false) .unbound false) 0) ∧
    Uses (.stars ⟨true, false, false⟩ [] (.arr .leaf 0)) (.arr (.ptr (.base 0 .unbound false) .uniform false) 0)
      (.base 0 .unbound false) :=
  ⟨rfl, .stars (U := .ptr (.base 0 .unbound false) .uniform false) (.arr (.leaf _) rfl rfl)
    (.cons (says_iff.2 rfl) (.nil _))⟩

/-- `int **[3]` as a type name is an array of pointers to `int`: a star is lost. -/
theorem star_lost_wrong :
    typeName (.base 0 .unbound false) (.stars Quals.none [Quals.none] (.arr .leaf 3)) =
      .ok (.arr (.ptr (.base 0 .unbound false) .unbound false) 3) ∧
    Uses (.stars Quals.none [Quals.none] (.arr .leaf 3))
      (.arr (.ptr (.ptr (.base 0 .unbound false) .unbound false) .unbound false) 3) (.base 0 .unbound false) :=
  ⟨rfl, .stars (U := .ptr (.ptr (.base 0 .unbound false) .unbound false) .unbound false) (.arr (.leaf _) rfl rfl)
    (.cons (says_iff.2 rfl) (.cons (says_iff.2 rfl) (.nil _)))⟩

/-- With stars in front of brackets or parentheses, how many stars there are and what qualifies them
makes no difference to a declarator without a name, for every rest of it. -/
theorem stars_ignored_wrong (q q' : Quals) (qs qs' : List Quals) {d : Src} (hd : d ≠ .leaf) (T : Ty) :
    typeName T (.stars q qs d) = typeName T (.stars q' qs' d) := by
  have h : ∀ q qs, buildA (.stars q qs d) = .ptr Quals.none (buildA d) := by
    intro q qs
    cases d <;> first | exact absurd rfl hd | simp [buildA]
  simp only [typeName, h]

/-- Leaving out the name of a parameter changes the type of the function: the prototype
`void f(float * uniform []);` and the definition `void f(float * uniform a[]) …` differ. -/
theorem prototype_wrong :
    init (buildN (.fn .leaf (.cons Quals.none false (.base 0 .unbound false)
        (.abstract (.stars ⟨true, false, false⟩ [] (.arr .leaf 0))) .nil))) (.void false) =
      .ok (.fn (.void false) (.cons (.ptr (.ptr (.base 0 .uniform false) .varying false) .uniform false) .nil)) ∧
    init (buildN (.fn .leaf (.cons Quals.none false (.base 0 .unbound false)
        (.named (.stars ⟨true, false, false⟩ [] (.arr .leaf 0))) .nil))) (.void false) =
      .ok (.fn (.void false) (.cons (.ptr (.ptr (.base 0 .uniform false) .uniform false) .uniform false) .nil)) :=
  ⟨rfl, rfl⟩

/-- A function type without a name, such as the parameter in `void f(int (float));`, ends in a failed
assertion, unless an error was reported first. -/
theorem function_crash_wrong {ps : Params} {ts : Tys} (h : inits (buildPs ps) = .ok ts) {T : Ty} (hT : isFn T = false) :
    typeName T (.fn .leaf ps) = .crash := by
  simp [typeName, buildA, init, h, Out.bind, hT, Node.isAbsent]

example : inits (buildPs (.cons Quals.none false (.base 1 .unbound false) .none .nil)) =
    .ok (.cons (.base 1 .varying false) .nil) := rfl

/-- After `typedef void name;` every declaration that begins with `void` is rejected. -/
theorem void_typedef_wrong : ∀ (ds : List VoidDecl), ∀ o ∈ (voidDecls false (.name :: ds)).tail, o = .error := by
  have hs : specs Quals.none true (.void false) = .error := rfl
  have h : ∀ ds, ∀ o ∈ voidDecls true ds, o = .error := by
    intro ds
    induction ds with
    | nil => simp [voidDecls]
    | cons d ds ih =>
      cases d with
      | name =>
        simp only [voidDecls, List.mem_cons, hs]
        rintro o (h | h)
        · exact h
        · exact ih o h
      | other d =>
        simp only [voidDecls, List.mem_cons, hs, Out.bind]
        rintro o (h | h)
        · exact h
        · exact ih o h
  intro ds o ho
  exact h ds o (by simpa [voidDecls] using ho)

/-- `void f();` by itself is accepted. -/
example : voidDecls false [.other (.fn .leaf .nil)] = [.ok (.fn (.void false) .nil)] := rfl

end Ispc.Declare
