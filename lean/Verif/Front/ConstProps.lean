import Verif.Front.Const
import Mathlib.Tactic.SplitIfs
import Mathlib.Tactic.Tauto

/-!
# What is declared `const` keeps its value

Claim C65.  The specification: a part of an object is `const` when its declared
type is, where the members of a `const` struct and the elements of an array of
`const` elements are `const` too.  In a history of statements that the compiler
takes without an error or a warning, such a part keeps the value it started
with.
-/

namespace Ispc.Constness

/-! ## Specification -/

/-- Some part of an object of the type is `const`. -/
def HoldsConst (Γ : Structs) (t : Ty) : Prop :=
  ∃ q u, typeAt Γ t q = some u ∧ u.isConst = true

/-- The structs held by value in an object of the type, not in a struct. -/
def holdsStruct : Ty → Option Nat
  | .struct s _ => some s
  | .arr e _ => holdsStruct e
  | _ => none

/-- A struct holds only structs defined before it. -/
def Ordered (Γ : Structs) : Prop :=
  ∀ s, ∀ t ∈ Γ s, ∀ m, holdsStruct t = some m → m < s

/-- No struct has a member that is an array of structs with `const` parts. -/
def NoConstInArrays (Γ : Structs) : Prop :=
  ∀ s, ∀ t ∈ Γ s, ∀ e n, t = .arr e n → t.isConst = false → ¬ HoldsConst Γ t

/-- A reference to `dst` that is bound to an object of type `src`: the same
type, or the type made `const`, or an array of another length. -/
def plainRef (src dst : Ty) : Bool :=
  dst = src || dst = src.asConst || match src, dst with
    | .arr e _, .arr e' _ => e' = e
    | _, _ => false

/-- Statements that are taken without a warning, and where references are
bound to objects of their own type. -/
def clean (Γ : Structs) (s : State) (c : Stmt) : Bool :=
  check Γ s.types c = .silent && match c with
    | .bind _ t l => match ltype Γ s.types l with
      | some lt => plainRef lt t
      | none => false
    | _ => true

/-- Statements that are taken without a warning. -/
def quiet (Γ : Structs) (s : State) (c : Stmt) : Bool := check Γ s.types c = .silent

/-- Statements that are taken. -/
def taken (Γ : Structs) (s : State) (c : Stmt) : Bool := check Γ s.types c ≠ .error

/-! ## Types and paths -/

theorem asConst_asConst (t : Ty) : t.asConst.asConst = t.asConst := by
  induction t <;> simp_all [Ty.asConst]

theorem isConst_asConst (t : Ty) : t.asConst.isConst = true := by
  induction t <;> simp_all [Ty.asConst, Ty.isConst]

theorem asConst_of_isConst (t : Ty) (h : t.isConst = true) : t.asConst = t := by
  induction t <;> simp_all [Ty.asConst, Ty.isConst]

theorem sel_asConst (Γ : Structs) (t : Ty) (s : Sel) :
    sel Γ t.asConst s = (sel Γ t s).map Ty.asConst := by
  cases t with
  | struct n c =>
    cases s with
    | mem k =>
      simp only [Ty.asConst, sel, Option.map_map]
      congr 1
      funext t
      cases c <;> simp [asConst_asConst]
    | idx i => rfl
  | _ => cases s <;> rfl

theorem typeAt_asConst (Γ : Structs) (q : List Sel) : ∀ t : Ty,
    typeAt Γ t.asConst q = (typeAt Γ t q).map Ty.asConst := by
  induction q with
  | nil => intro t; rfl
  | cons s q ih =>
    intro t
    simp only [typeAt, sel_asConst]
    cases h : sel Γ t s with
    | none => rfl
    | some u => simpa using ih u

theorem typeAt_append (Γ : Structs) (a b : List Sel) : ∀ t : Ty,
    typeAt Γ t (a ++ b) = (typeAt Γ t a).bind fun u => typeAt Γ u b := by
  induction a with
  | nil => intro t; rfl
  | cons s a ih =>
    intro t
    simp only [List.cons_append, typeAt]
    cases h : sel Γ t s with
    | none => rfl
    | some u => simpa using ih u

/-- **A part of a `const` object is `const`.** -/
theorem part_const (Γ : Structs) (q : List Sel) (t u : Ty) (ht : t.isConst = true)
    (h : typeAt Γ t q = some u) : u.isConst = true := by
  rw [← asConst_of_isConst t ht, typeAt_asConst] at h
  cases hq : typeAt Γ t q with
  | none => rw [hq] at h; cases h
  | some w => rw [hq] at h; cases h; exact isConst_asConst w

/-- The expression that names a part of what an expression names. -/
def part : LV → List Sel → LV
  | l, [] => l
  | l, .mem k :: q => part (.mem l k) q
  | l, .idx i :: q => part (.idx l i) q

theorem ltype_part (Γ : Structs) (σ : Nat → Option Ty) (q : List Sel) : ∀ l : LV,
    ltype Γ σ (part l q) = (ltype Γ σ l).bind fun t => typeAt Γ t q := by
  induction q with
  | nil => intro l; cases h : ltype Γ σ l <;> simp [part, typeAt, h]
  | cons s q ih =>
    intro l
    cases s <;> simp only [part, ih, ltype, typeAt] <;> cases h : ltype Γ σ l <;> simp

/-- **No part of a `const` object, however it is named, can be assigned to or
stepped.** -/
theorem named_rejected (Γ : Structs) (σ : Nat → Option Ty) (l : LV) (t : Ty) (q : List Sel)
    (hl : ltype Γ σ l = some t) (ht : t.isConst = true) (e : RV) (up : Bool) :
    check Γ σ (.assign (part l q) e) = .error ∧ check Γ σ (.opAssign (part l q) e) = .error ∧
      check Γ σ (.step (part l q) up) = .error := by
  have hp : ltype Γ σ (part l q) = typeAt Γ t q := by rw [ltype_part, hl]; rfl
  simp only [check, hp]
  cases h : typeAt Γ t q with
  | none => exact ⟨rfl, rfl, rfl⟩
  | some u =>
    have hu := part_const Γ q t u ht h
    refine ⟨?_, ?_, by simp [checkStep, hu]⟩ <;> cases rtype Γ σ e <;>
      simp [checkAssign, checkOpAssign, hu]

/-- `const S s[4]` with `struct S { int a; float v<3>; }`: `s[2].v.y = 1`. -/
example :
    check (fun _ => [.scalar 1 false, .vec 2 3 false])
      (fun _ => some (.arr (.struct 0 true) 4))
      (.assign (part (.var 0) [.idx 2, .mem 1, .idx 1]) (.num 2 1)) = .error :=
  (named_rejected (fun _ => [.scalar 1 false, .vec 2 3 false])
    (fun _ => some (.arr (.struct 0 true) 4)) (.var 0) _ _ rfl rfl _ true).1

/-- The same of a pointer to `const`: `p->v.y = 1`. -/
example :
    check (fun _ => [.scalar 1 false, .vec 2 3 false])
      (fun _ => some (.ptr (.struct 0 true) false))
      (.assign (part (.deref (.load (.var 0))) [.mem 1, .idx 1]) (.num 2 1)) = .error :=
  (named_rejected (fun _ => [.scalar 1 false, .vec 2 3 false])
    (fun _ => some (.ptr (.struct 0 true) false)) (.deref (.load (.var 0))) _ _ rfl rfl _ true).1

/-! ## The check on structs -/

theorem leaf_part (Γ : Structs) (t u : Ty) (q : List Sel) (ht : t.isConst = false)
    (hs : ∀ s c, t ≠ .struct s c) (ha : ∀ e n, t ≠ .arr e n) (h : typeAt Γ t q = some u) :
    u.isConst = false := by
  cases q with
  | nil => cases h; exact ht
  | cons s q =>
    cases t with
    | struct s c => exact absurd rfl (hs s c)
    | arr e n => exact absurd rfl (ha e n)
    | vec k n c =>
      cases s with
      | mem k => cases h
      | idx i =>
        cases q with
        | nil => cases h; exact ht
        | cons s q => cases s <;> cases h
    | _ => cases s <;> cases h

theorem member_of (Γ : Structs) (s : Nat) (x : Sel) (t : Ty)
    (h : sel Γ (.struct s false) x = some t) : t ∈ Γ s := by
  cases x with
  | idx i => cases h
  | mem k =>
    simp only [sel, Bool.false_eq_true, if_false, Option.map_id'] at h
    exact List.mem_of_getElem? h

theorem constMember_complete (Γ : Structs) (ho : Ordered Γ) (hn : NoConstInArrays Γ) (f : Nat) :
    ∀ s, s < f → constMember Γ f (Γ s) = false → ∀ q u,
      typeAt Γ (.struct s false) q = some u → u.isConst = false := by
  induction f with
  | zero => intro s h; omega
  | succ f ih =>
    intro s hs hc q u h
    cases q with
    | nil => cases h; rfl
    | cons x q =>
      simp only [typeAt] at h
      cases hx : sel Γ (.struct s false) x with
      | none => rw [hx] at h; cases h
      | some t =>
        rw [hx] at h
        have h : typeAt Γ t q = some u := h
        have hm := member_of Γ s x t hx
        simp only [constMember, List.any_eq_false] at hc
        have hc := hc t hm
        simp only [Bool.or_eq_true, not_or, Bool.not_eq_true] at hc
        obtain ⟨h1, h2⟩ := hc
        by_cases hst : ∃ m c, t = .struct m c
        · obtain ⟨m, c, rfl⟩ := hst
          cases c with
          | true => cases h1
          | false =>
            have := ho s _ hm m rfl
            exact ih m (by omega) h2 q u h
        · by_cases har : ∃ e n, t = .arr e n
          · obtain ⟨e, n, rfl⟩ := har
            have := hn s _ hm e n rfl h1
            cases hcu : u.isConst with
            | false => rfl
            | true => exact absurd ⟨q, u, h, hcu⟩ this
          · exact leaf_part Γ t u q h1 (fun s c hh => hst ⟨s, c, hh⟩)
              (fun e n hh => har ⟨e, n, hh⟩) h

theorem constMember_sound (Γ : Structs) (f : Nat) : ∀ s, constMember Γ f (Γ s) = true →
    HoldsConst Γ (.struct s false) := by
  induction f with
  | zero => intro s h; cases h
  | succ f ih =>
    intro s h
    simp only [constMember, List.any_eq_true] at h
    obtain ⟨t, hm, h⟩ := h
    obtain ⟨k, hk⟩ := List.getElem?_of_mem hm
    have hsel : sel Γ (.struct s false) (.mem k) = some t := by simp [sel, hk]
    simp only [Bool.or_eq_true] at h
    rcases h with h | h
    · exact ⟨[.mem k], t, by simp [typeAt, hsel], h⟩
    · cases t with
      | struct m c =>
        cases c with
        | true => exact ⟨[.mem k], .struct m true, by simp [typeAt, hsel], rfl⟩
        | false =>
          obtain ⟨q, u, hq, hu⟩ := ih m h
          exact ⟨.mem k :: q, u, by simp [typeAt, hsel, hq], hu⟩
      | _ => cases h

/-- **A struct can be assigned to exactly when no part of it is `const`**, for
programs where no struct has a member that is an array of structs with `const`
parts. -/
theorem struct_assign_iff_partial (Γ : Structs) (ho : Ordered Γ) (hn : NoConstInArrays Γ)
    (s : Nat) (c : Bool) :
    checkAssign Γ (.struct s c) (.struct s c) = .silent ↔ ¬ HoldsConst Γ (.struct s c) := by
  cases c with
  | true =>
    constructor
    · intro h; cases h
    · intro h; exact absurd ⟨[], _, rfl, rfl⟩ h
  | false =>
    have hv : checkAssign Γ (.struct s false) (.struct s false) =
        if constMember Γ (s + 1) (Γ s) then .error else .silent := by
      simp [checkAssign, Ty.isConst, convert]
    rw [hv]
    cases h : constMember Γ (s + 1) (Γ s) with
    | true => simpa using constMember_sound Γ (s + 1) s h
    | false =>
      simp only [Bool.false_eq_true, if_false, true_iff]
      rintro ⟨q, u, hq, hu⟩
      have := constMember_complete Γ ho hn (s + 1) s (by omega) h q u hq
      rw [this] at hu; cases hu

/-- `struct A { const int x; int y; }; struct B { int n; A a; };` and
`struct C { int n; int t[3]; };`. -/
def structs₁ : Structs
  | 0 => [.scalar 1 true, .scalar 1 false]
  | 1 => [.scalar 1 false, .struct 0 false]
  | 2 => [.scalar 1 false, .arr (.scalar 1 false) 3]
  | _ => []

theorem structs₁_ordered : Ordered structs₁ := by
  intro s t ht m hm
  match s with
  | 0 | 1 | 2 => simp [structs₁] at ht; rcases ht with rfl | rfl <;> simp_all [holdsStruct]
  | _ + 3 => cases ht

theorem structs₁_noConstInArrays : NoConstInArrays structs₁ := by
  intro s t ht e n he hc
  match s with
  | 0 | 1 => simp [structs₁] at ht; rcases ht with rfl | rfl <;> cases he
  | 2 =>
    simp [structs₁] at ht
    rcases ht with rfl | rfl
    · cases he
    · rintro ⟨q, u, hq, hu⟩
      match q with
      | [] => cases hq; cases hu
      | .mem _ :: _ => cases hq
      | [.idx _] => cases hq; cases hu
      | .idx _ :: .mem _ :: _ => cases hq
      | .idx _ :: .idx _ :: _ => cases hq
  | _ + 3 => cases ht

example : checkAssign structs₁ (.struct 1 false) (.struct 1 false) = .error := by decide
example : ¬ HoldsConst structs₁ (.struct 2 false) :=
  (struct_assign_iff_partial structs₁ structs₁_ordered structs₁_noConstInArrays 2 false).1
    (by decide)

/-! ## Views

The type by which an expression names an object is the declared type, perhaps
made `const`, perhaps of another length. -/

def View (t v : Ty) : Prop :=
  v = t ∨ v = t.asConst ∨ ∃ e n n', t = .arr e n ∧ (v = .arr e n' ∨ v = .arr e.asConst n')

theorem View.refl (t : Ty) : View t t := Or.inl rfl

theorem View.asConst {t v : Ty} (h : View t v) : View t v.asConst := by
  rcases h with rfl | rfl | ⟨e, n, n', rfl, rfl | rfl⟩
  · exact Or.inr (Or.inl rfl)
  · exact Or.inr (Or.inl (asConst_asConst _))
  · exact Or.inr (Or.inr ⟨e, n, n', rfl, Or.inr rfl⟩)
  · exact Or.inr (Or.inr ⟨e, n, n', rfl, Or.inr (by simp [Ty.asConst, asConst_asConst])⟩)

theorem View.resize {t e : Ty} {n : Nat} (h : View t (.arr e n)) (n' : Nat) :
    View t (.arr e n') := by
  rcases h with h | h | ⟨e', n₁, n₂, h, h' | h'⟩
  · exact Or.inr (Or.inr ⟨e, n, n', h.symm, Or.inl rfl⟩)
  · cases t with
    | arr e' m =>
      simp only [Ty.asConst, Ty.arr.injEq] at h
      exact Or.inr (Or.inr ⟨e', m, n', rfl, Or.inr (by rw [h.1])⟩)
    | _ => cases h
  · cases h'
    exact Or.inr (Or.inr ⟨_, n₁, n', h, Or.inl rfl⟩)
  · cases h'
    exact Or.inr (Or.inr ⟨_, n₁, n', h, Or.inr rfl⟩)

theorem View.sel {Γ : Structs} {t v u : Ty} {x : Sel} (h : View t v)
    (hs : Constness.sel Γ v x = some u) : ∃ w, Constness.sel Γ t x = some w ∧ View w u := by
  rcases h with rfl | rfl | ⟨e, n, n', rfl, rfl | rfl⟩
  · exact ⟨u, hs, View.refl u⟩
  · rw [sel_asConst] at hs
    cases hw : Constness.sel Γ t x with
    | none => rw [hw] at hs; cases hs
    | some w => rw [hw] at hs; cases hs; exact ⟨w, rfl, (View.refl w).asConst⟩
  · cases x with
    | mem k => cases hs
    | idx i => cases hs; exact ⟨_, rfl, View.refl _⟩
  · cases x with
    | mem k => cases hs
    | idx i => cases hs; exact ⟨_, rfl, (View.refl _).asConst⟩

theorem View.typeAt {Γ : Structs} {q : List Sel} : ∀ {t v u : Ty}, View t v →
    Constness.typeAt Γ v q = some u → ∃ w, Constness.typeAt Γ t q = some w ∧ View w u := by
  induction q with
  | nil => intro t v u h hu; cases hu; exact ⟨t, rfl, h⟩
  | cons x q ih =>
    intro t v u h hu
    simp only [Constness.typeAt] at hu ⊢
    cases hv : Constness.sel Γ v x with
    | none => rw [hv] at hu; cases hu
    | some v' =>
      rw [hv] at hu
      obtain ⟨t', ht', hv'⟩ := h.sel hv
      rw [ht']
      exact ih hv' hu

theorem View.ptr {t b : Ty} {c : Bool} (h : View t (.ptr b c)) : ∃ c', t = .ptr b c' := by
  rcases h with h | h | ⟨e, n, n', _, h | h⟩
  · exact ⟨c, h.symm⟩
  · cases t <;> simp_all [Ty.asConst]
  · cases h
  · cases h

theorem View.eq_of_nonconst {t v : Ty} (h : View t v) (hc : v.isConst = false)
    (ha : ∀ e n, v ≠ .arr e n) : t = v := by
  rcases h with h | h | ⟨e, n, n', _, h | h⟩
  · exact h.symm
  · rw [h, isConst_asConst] at hc; cases hc
  · exact absurd h (ha _ _)
  · exact absurd h (ha _ _)

/-! ## The invariant -/

/-- The place exists, and holds an object that the type is a view of. -/
def Good (Γ : Structs) (s : State) (l : Loc) (v : Ty) : Prop :=
  l.1 < s.next ∧ ∃ t, s.typeOf Γ l = some t ∧ View t v

/-- The value is fit for the type: the addresses in it lead to objects that the
types of the pointers are views of. -/
def Fits (Γ : Structs) (s : State) (f : List Sel → Val) (t : Ty) : Prop :=
  ∀ q b c, typeAt Γ t q = some (.ptr b c) → b.isVoid = false → ∀ l, f q = .addr l → Good Γ s l b

structure Inv (Γ : Structs) (s : State) : Prop where
  vars : ∀ x p t, s.vars x = some (p, t) → Good Γ s p t
  cells : ∀ o, o < s.next → Fits Γ s (s.mem o) (s.ty o)

theorem good_append {Γ : Structs} {s : State} {p : Loc} {v u : Ty} {x : Sel}
    (h : Good Γ s p v) (hs : sel Γ v x = some u) : Good Γ s (p.1, p.2 ++ [x]) u := by
  obtain ⟨h1, t, ht, hv⟩ := h
  obtain ⟨w, hw, hwu⟩ := hv.sel hs
  refine ⟨h1, w, ?_, hwu⟩
  simp only [State.typeOf] at ht ⊢
  rw [typeAt_append, ht]
  simp [typeAt, hw]

theorem sel_idx_const {Γ : Structs} {t u : Ty} {i : Nat} (j : Nat)
    (h : sel Γ t (.idx i) = some u) : sel Γ t (.idx j) = some u := by
  cases t <;> simp_all [sel]

theorem good_shift {Γ : Structs} {s : State} {l l' : Loc} {v : Ty} {i : Int}
    (h : Good Γ s l v) (hs : shift Γ s l i = some l') : Good Γ s l' v := by
  obtain ⟨h1, t, ht, hv⟩ := h
  obtain ⟨o, q⟩ := l
  simp only [shift] at hs
  split at hs
  case h_2 => cases hs
  case h_1 j hl =>
    split at hs
    case isFalse => cases hs
    case isTrue hb =>
      cases hs
      refine ⟨h1, t, ?_, hv⟩
      have hq : q = q.dropLast ++ [.idx j] := by
        have hne : q ≠ [] := by rintro rfl; cases hl
        have := List.dropLast_concat_getLast hne
        rw [List.getLast?_eq_some_getLast hne] at hl
        rw [Option.some.inj hl] at this
        exact this.symm
      simp only [State.typeOf] at ht ⊢
      rw [hq, typeAt_append] at ht
      rw [typeAt_append]
      cases hd : typeAt Γ (s.ty o) q.dropLast with
      | none => rw [hd] at ht; cases ht
      | some w =>
        rw [hd] at ht
        simp only [Option.bind_some, typeAt] at ht ⊢
        cases hw : sel Γ w (.idx j) with
        | none => rw [hw] at ht; cases ht
        | some u => rw [hw] at ht; rw [sel_idx_const _ hw]; exact ht

mutual

theorem lval_good {Γ : Structs} {s : State} (hi : Inv Γ s) : ∀ (l : LV) (t : Ty) (p : Loc),
    ltype Γ s.types l = some t → lval Γ s l = some p → Good Γ s p t
  | .var x, t, p, ht, hp => by
    simp only [ltype, State.types, lval] at ht hp
    cases hx : s.vars x with
    | none => rw [hx] at ht; cases ht
    | some y =>
      rw [hx] at ht hp
      cases ht; cases hp
      exact hi.vars x _ _ hx
  | .mem l k, t, p, ht, hp => by
    simp only [ltype, lval] at ht hp
    cases hl : ltype Γ s.types l with
    | none => rw [hl] at ht; cases ht
    | some t' =>
      cases hv : lval Γ s l with
      | none => rw [hv] at hp; cases hp
      | some p' =>
        rw [hl] at ht; rw [hv] at hp
        cases hp
        exact good_append (lval_good hi l t' p' hl hv) ht
  | .idx l i, t, p, ht, hp => by
    simp only [ltype, lval] at ht hp
    cases hl : ltype Γ s.types l with
    | none => rw [hl] at ht; cases ht
    | some t' =>
      cases hv : lval Γ s l with
      | none => rw [hv] at hp; cases hp
      | some p' =>
        rw [hl] at ht; rw [hv] at hp
        simp only [Option.bind_some] at hp ht
        split at hp
        · cases hp
          exact good_append (lval_good hi l t' p' hl hv) ht
        · cases hp
  | .deref e, t, p, ht, hp => by
    simp only [ltype, lval] at ht hp
    cases hl : rtype Γ s.types e with
    | none => rw [hl] at ht; cases ht
    | some t' =>
      cases hv : rval Γ s e with
      | none => rw [hv] at hp; cases hp
      | some f =>
        rw [hl] at ht; rw [hv] at hp
        simp only [Option.bind_some] at hp ht
        cases t' with
        | ptr b c =>
          simp only at ht
          cases hb : b.isVoid with
          | true => simp [hb] at ht
          | false =>
            simp only [hb, Bool.false_eq_true, if_false] at ht
            cases ht
            cases hf : f [] with
            | num n => rw [hf] at hp; cases hp
            | addr l' =>
              rw [hf] at hp; cases hp
              exact rval_fits hi e _ f hl hv [] _ c rfl hb _ hf
        | _ => cases ht

theorem rval_fits {Γ : Structs} {s : State} (hi : Inv Γ s) : ∀ (e : RV) (t : Ty)
    (f : List Sel → Val), rtype Γ s.types e = some t → rval Γ s e = some f → Fits Γ s f t
  | .num k n, t, f, ht, hf => by
    cases ht; cases hf
    intro q b c _ _ l hl
    cases hl
  | .load l, t, f, ht, hf => by
    simp only [rtype, rval] at ht hf
    cases hv : lval Γ s l with
    | none => rw [hv] at hf; cases hf
    | some p =>
      rw [hv] at hf; cases hf
      obtain ⟨h1, t', ht', hvw⟩ := lval_good hi l t p ht hv
      intro q b c hq hb l' hl'
      obtain ⟨w, hw, hvw'⟩ := hvw.typeAt hq
      obtain ⟨c', rfl⟩ := hvw'.ptr
      refine hi.cells p.1 h1 (p.2 ++ q) b c' ?_ hb l' hl'
      simp only [State.typeOf] at ht'
      rw [typeAt_append, ht']
      exact hw
  | .addr l, t, f, ht, hf => by
    simp only [rtype, rval] at ht hf
    cases hl : ltype Γ s.types l with
    | none => rw [hl] at ht; cases ht
    | some t' =>
      cases hv : lval Γ s l with
      | none => rw [hv] at hf; cases hf
      | some p =>
        rw [hl] at ht; rw [hv] at hf
        cases ht; cases hf
        intro q b c hq hb l' hl'
        cases hl'
        cases q with
        | nil => cases hq; exact lval_good hi l _ _ hl hv
        | cons x q => cases x <;> cases hq
  | .decay l, t, f, ht, hf => by
    simp only [rtype, rval] at ht hf
    cases hl : ltype Γ s.types l with
    | none => rw [hl] at ht; cases ht
    | some t' =>
      cases hv : lval Γ s l with
      | none => rw [hv] at hf; cases hf
      | some p =>
        rw [hl] at ht; rw [hv] at hf
        simp only [Option.bind_some] at ht hf
        cases t' with
        | arr e n =>
          cases ht
          split at hf
          · cases hf
            intro q b c hq hb l' hl'
            cases hl'
            cases q with
            | nil => cases hq; exact good_append (lval_good hi l _ _ hl hv) rfl
            | cons x q => cases x <;> cases hq
          · cases hf
        | _ => cases ht
  | .add e i, t, f, ht, hf => by
    simp only [rtype, rval] at ht hf
    cases hl : rtype Γ s.types e with
    | none => rw [hl] at ht; cases ht
    | some t' =>
      cases hv : rval Γ s e with
      | none => rw [hv] at hf; cases hf
      | some g =>
        rw [hl] at ht; rw [hv] at hf
        simp only [Option.bind_some] at ht hf
        cases t' with
        | ptr b c =>
          simp only at ht
          cases hb : b.isVoid with
          | true => simp [hb] at ht
          | false =>
            simp only [hb, Bool.false_eq_true, if_false] at ht
            cases ht
            cases hg : g [] with
            | num n => rw [hg] at hf; cases hf
            | addr a =>
              rw [hg] at hf
              simp only at hf
              cases hs : shift Γ s a i with
              | none => rw [hs] at hf; cases hf
              | some a' =>
                rw [hs] at hf; cases hf
                intro q b' c' hq hb' l' hl'
                cases hl'
                cases q with
                | nil =>
                  cases hq
                  exact good_shift (rval_fits hi e _ g hl hv [] _ _ rfl hb a hg) hs
                | cons x q => cases x <;> cases hq
        | _ => cases ht

end

/-! ## Conversions keep values fit -/

theorem asConst_ptr {t b : Ty} {c : Bool} (h : t.asConst = .ptr b c) : ∃ c', t = .ptr b c' := by
  cases t <;> simp_all [Ty.asConst]

theorem struct_ptr {Γ : Structs} {n : Nat} {c c' : Bool} {q : List Sel} {b : Ty} {k : Bool}
    (h : typeAt Γ (.struct n c) q = some (.ptr b k)) :
    ∃ k', typeAt Γ (.struct n c') q = some (.ptr b k') := by
  have e : typeAt Γ (.struct n true) q = (typeAt Γ (.struct n false) q).map Ty.asConst :=
    typeAt_asConst Γ q (.struct n false)
  cases c <;> cases c'
  · exact ⟨k, h⟩
  · exact ⟨true, by rw [e, h]; rfl⟩
  · rw [e] at h
    cases h' : typeAt Γ (.struct n false) q with
    | none => rw [h'] at h; cases h
    | some u =>
      rw [h'] at h
      obtain ⟨k', rfl⟩ := asConst_ptr (Option.some.inj h)
      exact ⟨k', rfl⟩
  · exact ⟨k, h⟩

theorem toNum_addr (v : Val) (l : Loc) : v.toNum ≠ .addr l := by cases v <;> simp [Val.toNum]

theorem noPtr_scalar {Γ : Structs} {k : Nat} {c : Bool} {q : List Sel} {b : Ty} {c' : Bool} :
    typeAt Γ (.scalar k c) q ≠ some (.ptr b c') := by
  cases q with
  | nil => intro h; cases h
  | cons x q => cases x <;> (intro h; cases h)

theorem noPtr_vec {Γ : Structs} {k n : Nat} {c : Bool} {q : List Sel} {b : Ty} {c' : Bool} :
    typeAt Γ (.vec k n c) q ≠ some (.ptr b c') := by
  cases q with
  | nil => intro h; cases h
  | cons x q =>
    cases x with
    | mem k => intro h; cases h
    | idx i => exact noPtr_scalar

theorem noPtr_void {Γ : Structs} {c : Bool} {q : List Sel} {b : Ty} {c' : Bool} :
    typeAt Γ (.void c) q ≠ some (.ptr b c') := by
  cases q with
  | nil => intro h; cases h
  | cons x q => cases x <;> (intro h; cases h)

theorem good_view {Γ : Structs} {s : State} {l : Loc} {b b' : Ty} (h : Good Γ s l b)
    (hb : b = b' ∨ b.asConst = b') : Good Γ s l b' := by
  obtain ⟨h1, t, ht, hv⟩ := h
  rcases hb with rfl | rfl
  · exact ⟨h1, t, ht, hv⟩
  · exact ⟨h1, t, ht, hv.asConst⟩

theorem convPtr_silent {b b' : Ty} {c : Bool} (h : convPtr b (.ptr b' c) = .silent)
    (hb : b'.isVoid = false) : b = b' ∨ b.asConst = b' := by
  simp only [convPtr, hb, Bool.false_eq_true, if_false] at h
  split at h
  case isTrue hh => simpa using hh
  case isFalse => split at h <;> cases h

theorem convert_ptr {rt b : Ty} {c : Bool} (h : convert rt (.ptr b c) = .silent) :
    (∃ b₀ c₀, rt = .ptr b₀ c₀ ∧ (b.isVoid = true ∨ b₀ = b ∨ b₀.asConst = b)) ∨
      ∃ e n, rt = .arr e n ∧ (b.isVoid = true ∨ e = b ∨ e.asConst = b) := by
  unfold convert at h
  split at h
  case isTrue he => subst he; exact Or.inl ⟨b, c, rfl, Or.inr (Or.inl rfl)⟩
  case isFalse he =>
    split at h
    case isTrue => cases h
    case isFalse =>
      cases hb : b.isVoid with
      | true =>
        cases rt with
        | ptr b₀ c₀ => exact Or.inl ⟨b₀, c₀, rfl, Or.inl rfl⟩
        | arr e n => exact Or.inr ⟨e, n, rfl, Or.inl rfl⟩
        | _ => simp [convValue, Ty.eqIC, Ty.asNonConst] at h
      | false =>
        cases rt with
        | ptr b₀ c₀ =>
          exact Or.inl ⟨b₀, c₀, rfl, Or.inr (convPtr_silent h hb)⟩
        | arr e n =>
          refine Or.inr ⟨e, n, rfl, Or.inr ?_⟩
          simp only [hb, Bool.false_eq_true, if_false, Verdict.ofBool] at h
          by_cases hh : b = if b.isConst then e.asConst else e
          · split at hh
            · exact Or.inr hh.symm
            · exact Or.inl hh.symm
          · rw [beq_eq_false_iff_ne.2 hh] at h
            cases h
        | _ => simp [convValue, Ty.eqIC, Ty.asNonConst] at h

theorem convert_struct {rt : Ty} {n : Nat} {c : Bool} (h : convert rt (.struct n c) = .silent) :
    ∃ c', rt = .struct n c' := by
  unfold convert at h
  split at h
  case isTrue he => exact ⟨c, he.symm⟩
  case isFalse he =>
    split at h
    case isTrue => cases h
    case isFalse =>
      cases rt with
      | struct m c' =>
        refine ⟨c', ?_⟩
        by_cases hn : n = m
        · rw [hn]
        · simp [convValue, Ty.eqIC, Ty.asNonConst, hn, Verdict.ofBool] at h
      | _ => simp [convValue, convPtr, Ty.eqIC, Ty.asNonConst] at h

theorem valueAs_fits {Γ : Structs} {s : State} (hi : Inv Γ s) {e : RV} {rt dst : Ty}
    {v : List Sel → Val} (ha : ∀ e n, dst ≠ .arr e n) (ht : rtype Γ s.types e = some rt)
    (hc : convert rt dst = .silent) (hv : valueAs Γ s e rt dst = some v) : Fits Γ s v dst := by
  intro q b c hq hb l hl
  cases dst with
  | arr e n => exact absurd rfl (ha e n)
  | void c => exact absurd hq noPtr_void
  | scalar k c => exact absurd hq noPtr_scalar
  | vec k n c => exact absurd hq noPtr_vec
  | struct n c =>
    obtain ⟨c', rfl⟩ := convert_struct hc
    have hv : (rval Γ s e).map (cast (.struct n c') (.struct n c)) = some v := by
      cases e <;> exact hv
    cases hr : rval Γ s e with
    | none => rw [hr] at hv; cases hv
    | some f =>
      rw [hr] at hv; cases hv
      obtain ⟨k', hk⟩ := struct_ptr (c' := c') hq
      exact rval_fits hi e _ f ht hr q b k' hk hb l hl
  | ptr b₁ c₁ =>
    cases q with
    | cons x q => cases x <;> cases hq
    | nil =>
      cases hq
      rcases convert_ptr hc with ⟨b₀, c₀, rfl, h⟩ | ⟨e₀, n, rfl, h⟩
      · have hv : (rval Γ s e).map (cast (.ptr b₀ c₀) (.ptr b c)) = some v := by
          cases e <;> exact hv
        cases hr : rval Γ s e with
        | none => rw [hr] at hv; cases hv
        | some f =>
          rw [hr] at hv; cases hv
          rcases h with h | h
          · rw [h] at hb; cases hb
          · refine good_view (rval_fits hi e _ f ht hr [] b₀ c₀ rfl ?_ l hl) h
            rcases h with rfl | rfl
            · exact hb
            · cases b₀ <;> simp_all [Ty.isVoid, Ty.asConst]
      · rcases h with h | h
        · rw [h] at hb; cases hb
        · have hb₀ : e₀.isVoid = false := by
            rcases h with rfl | rfl
            · exact hb
            · cases e₀ <;> simp_all [Ty.isVoid, Ty.asConst]
          cases e with
          | load l₀ =>
            have hv : rval Γ s (.decay l₀) = some v := hv
            refine good_view (rval_fits hi (.decay l₀) (.ptr e₀ false) v ?_ hv [] e₀ false rfl
              hb₀ l hl) h
            simp only [rtype] at ht ⊢
            rw [ht]; rfl
          | _ =>
            simp only [valueAs] at hv
            exfalso
            revert hv
            generalize rval Γ s _ = r
            intro hv
            cases r with
            | none => cases hv
            | some f => cases hv; exact toNum_addr _ _ hl

/-! ## Stores and declarations -/

theorem good_store {Γ : Structs} {s : State} {p l : Loc} {v : List Sel → Val} {t : Ty} :
    Good Γ (store s p v) l t ↔ Good Γ s l t := Iff.rfl

theorem store_inv {Γ : Structs} {s : State} (hi : Inv Γ s) {p : Loc} {t : Ty}
    {v : List Sel → Val} (hg : Good Γ s p t) (hc : t.isConst = false) (ha : ∀ e n, t ≠ .arr e n)
    (hf : Fits Γ s v t) : Inv Γ (store s p v) := by
  refine ⟨hi.vars, fun o ho q b c hq hb l hl => ?_⟩
  simp only [store] at hl hq
  split at hl
  case isFalse => exact hi.cells o ho q b c hq hb l hl
  case isTrue h =>
    obtain ⟨rfl, r, rfl⟩ := h
    rw [List.drop_left] at hl
    obtain ⟨_, t', ht', hv⟩ := hg
    have := hv.eq_of_nonconst hc ha
    subst this
    simp only [State.typeOf] at ht'
    rw [typeAt_append, ht'] at hq
    exact hf r b c hq hb l hl

theorem store_keeps {Γ : Structs} {s : State} {p : Loc} {t : Ty} {v : List Sel → Val}
    (hg : Good Γ s p t) (hc : t.isConst = false) (ha : ∀ e n, t ≠ .arr e n)
    (hn : ¬ HoldsConst Γ t) {o : Nat} {q : List Sel} {u : Ty}
    (hq : typeAt Γ (s.ty o) q = some u) (hu : u.isConst = true) :
    (store s p v).mem o q = s.mem o q := by
  simp only [store]
  rw [if_neg]
  rintro ⟨rfl, r, rfl⟩
  obtain ⟨_, t', ht', hv⟩ := hg
  have := hv.eq_of_nonconst hc ha
  subst this
  simp only [State.typeOf] at ht'
  rw [typeAt_append, ht'] at hq
  exact hn ⟨r, u, hq, hu⟩

theorem good_declare {Γ : Structs} {s : State} {x : Nat} {t u : Ty} {v : List Sel → Val} {l : Loc}
    (h : Good Γ s l u) : Good Γ (declare s x t v) l u := by
  obtain ⟨h1, w, hw, hv⟩ := h
  refine ⟨Nat.lt_succ_of_lt h1, w, ?_, hv⟩
  simp only [State.typeOf, declare] at hw ⊢
  rw [if_neg (Nat.ne_of_lt h1)]
  exact hw

theorem declare_inv {Γ : Structs} {s : State} (hi : Inv Γ s) {x : Nat} {t : Ty}
    {v : List Sel → Val} (hf : Fits Γ s v t) : Inv Γ (declare s x t v) := by
  constructor
  · intro y p u hy
    simp only [declare] at hy
    split at hy
    · cases hy
      exact ⟨Nat.lt_succ_self _, t, by simp [State.typeOf, declare, typeAt], View.refl t⟩
    · exact good_declare (hi.vars y p u hy)
  · intro o ho q b c hq hb l hl
    simp only [declare] at hq hl ho
    by_cases h : o = s.next
    · rw [if_pos h] at hq hl
      exact good_declare (hf q b c hq hb l hl)
    · rw [if_neg h] at hq hl
      exact good_declare (hi.cells o (by omega) q b c hq hb l hl)

/-- What holds from one state to a later one. -/
def Keeps (Γ : Structs) (s s' : State) : Prop :=
  s.next ≤ s'.next ∧ ∀ o, o < s.next → s'.ty o = s.ty o ∧ ∀ q u,
    typeAt Γ (s.ty o) q = some u → u.isConst = true → s'.mem o q = s.mem o q

theorem declare_keeps (Γ : Structs) (s : State) (x : Nat) (t : Ty) (v : List Sel → Val) :
    Keeps Γ s (declare s x t v) := by
  refine ⟨Nat.le_succ _, fun o ho => ⟨?_, fun q u _ _ => ?_⟩⟩ <;>
    simp [declare, Nat.ne_of_lt ho]

theorem notHolds_of_leaf {Γ : Structs} {t : Ty} (hc : t.isConst = false)
    (hs : ∀ s c, t ≠ .struct s c) (ha : ∀ e n, t ≠ .arr e n) : ¬ HoldsConst Γ t := by
  rintro ⟨q, u, hq, hu⟩
  rw [leaf_part Γ t u q hc hs ha hq] at hu; cases hu

theorem store_step {Γ : Structs} {s : State} (hi : Inv Γ s) {p : Loc} {t : Ty}
    {v : List Sel → Val} (hg : Good Γ s p t) (hn : ¬ HoldsConst Γ t) (ha : ∀ e n, t ≠ .arr e n)
    (hf : Fits Γ s v t) : Inv Γ (store s p v) ∧ Keeps Γ s (store s p v) := by
  have hc : t.isConst = false := by
    cases h : t.isConst with
    | false => rfl
    | true => exact absurd ⟨[], t, rfl, h⟩ hn
  exact ⟨store_inv hi hg hc ha hf, Nat.le_refl _, fun o _ =>
    ⟨rfl, fun q u hq hu => store_keeps hg hc ha hn hq hu⟩⟩

theorem checkAssign_silent {Γ : Structs} (ho : Ordered Γ) (hn : NoConstInArrays Γ) {lt rt : Ty}
    (h : checkAssign Γ lt rt = .silent) :
    ¬ HoldsConst Γ lt ∧ (∀ e n, lt ≠ .arr e n) ∧ convert rt lt = .silent := by
  unfold checkAssign at h
  split at h
  case isTrue => cases h
  case isFalse hc =>
    simp only [Bool.not_eq_true] at hc
    cases lt with
    | arr e n => cases h
    | struct n c =>
      cases c with
      | true => cases hc
      | false =>
        simp only at h
        split at h
        case isTrue => cases h
        case isFalse hm =>
          simp only [Bool.not_eq_true] at hm
          refine ⟨?_, by simp, h⟩
          rintro ⟨q, u, hq, hu⟩
          rw [constMember_complete Γ ho hn (n + 1) n (by omega) hm q u hq] at hu; cases hu
    | _ => exact ⟨notHolds_of_leaf hc (by simp) (by simp), by simp, h⟩

theorem noAddr_fits {Γ : Structs} {s : State} {v : List Sel → Val} {t : Ty}
    (h : ∀ q l, v q ≠ .addr l) : Fits Γ s v t :=
  fun q _ _ _ _ l hl => absurd hl (h q l)

theorem addNum_addr (a b : Val) (l : Loc) : addNum a b ≠ .addr l := by
  cases a <;> cases b <;> simp [addNum]

theorem plainRef_view {t lt dst : Ty} (hv : View t lt) (h : plainRef lt dst = true) :
    View t dst := by
  simp only [plainRef, Bool.or_eq_true, decide_eq_true_eq, or_assoc] at h
  rcases h with rfl | rfl | h
  · exact hv
  · exact hv.asConst
  · split at h
    · simp only [decide_eq_true_eq] at h
      subst h
      exact hv.resize _
    · cases h

theorem shifted_fits {Γ : Structs} {s : State} (hi : Inv Γ s) {p a a' : Loc} {b : Ty} {c : Bool}
    {i : Int} (hg : Good Γ s p (.ptr b c)) (hb : b.isVoid = false)
    (hm : s.mem p.1 p.2 = .addr a) (hs : shift Γ s a i = some a') :
    Fits Γ s (fun _ => .addr a') (.ptr b c) := by
  intro q b' c' hq _ l hl
  cases hl
  cases q with
  | cons x q => cases x <;> cases hq
  | nil =>
    cases hq
    obtain ⟨h1, t, ht, hv⟩ := hg
    obtain ⟨c₀, rfl⟩ := hv.ptr
    exact good_shift (hi.cells p.1 h1 p.2 _ c₀ ht hb a hm) hs

theorem exec_step {Γ : Structs} (ho : Ordered Γ) (hn : NoConstInArrays Γ) {s s' : State}
    (hi : Inv Γ s) {c : Stmt} (hc : clean Γ s c = true) (h : exec Γ s c = some s') :
    Inv Γ s' ∧ Keeps Γ s s' := by
  simp only [clean, Bool.and_eq_true, decide_eq_true_eq] at hc
  obtain ⟨hk, hp⟩ := hc
  cases c with
  | decl x t f =>
    cases h
    exact ⟨declare_inv hi (noAddr_fits (by simp)), declare_keeps _ _ _ _ _⟩
  | init x t e =>
    simp only [exec] at h
    simp only [check] at hk
    cases hr : rtype Γ s.types e with
    | none => rw [hr] at h; cases h
    | some rt =>
      rw [hr] at h hk
      simp only [Option.bind_some] at h
      cases hv : valueAs Γ s e rt t with
      | none => rw [hv] at h; cases h
      | some v =>
        rw [hv] at h; cases h
        have ha : ∀ e n, t ≠ .arr e n := by rintro e n rfl; cases hk
        have hk : convert rt t = .silent := by cases t <;> first | exact hk | cases hk
        exact ⟨declare_inv hi (valueAs_fits hi ha hr hk hv), declare_keeps _ _ _ _ _⟩
  | bind x t l =>
    simp only [exec] at h
    simp only at hp
    cases hl : ltype Γ s.types l with
    | none => rw [hl] at hp; cases hp
    | some lt =>
      rw [hl] at hp
      cases hv : lval Γ s l with
      | none => rw [hv] at h; cases h
      | some p =>
        rw [hv] at h; cases h
        refine ⟨⟨?_, hi.cells⟩, Nat.le_refl _, fun o _ => ⟨rfl, fun _ _ _ _ => rfl⟩⟩
        intro y p' u hy
        simp only at hy
        split at hy
        · cases hy
          obtain ⟨h1, t', ht', hvw⟩ := lval_good hi l lt p hl hv
          exact ⟨h1, t', ht', plainRef_view hvw hp⟩
        · exact hi.vars y p' u hy
  | assign l e =>
    simp only [exec] at h
    simp only [check] at hk
    cases hl : ltype Γ s.types l with
    | none => rw [hl] at h; cases h
    | some lt =>
      cases hr : rtype Γ s.types e with
      | none => rw [hl, hr] at h; cases h
      | some rt =>
        rw [hl, hr] at h hk
        simp only [Option.bind_some] at h hk
        obtain ⟨h1, h2, h3⟩ := checkAssign_silent ho hn hk
        cases hp : lval Γ s l with
        | none => rw [hp] at h; cases h
        | some p =>
          rw [hp] at h
          simp only [Option.bind_some] at h
          cases hv : valueAs Γ s e rt lt with
          | none => rw [hv] at h; cases h
          | some v =>
            rw [hv] at h; cases h
            exact store_step hi (lval_good hi l lt p hl hp) h1 h2 (valueAs_fits hi h2 hr h3 hv)
  | opAssign l e =>
    simp only [exec] at h
    simp only [check] at hk
    cases hl : ltype Γ s.types l with
    | none => rw [hl] at h; cases h
    | some lt =>
      cases hr : rtype Γ s.types e with
      | none => rw [hl, hr] at hk; cases hk
      | some rt =>
        rw [hl] at h
        rw [hl, hr] at hk
        simp only [Option.bind_some] at h hk
        cases hp : lval Γ s l with
        | none => rw [hp] at h; cases h
        | some p =>
          cases hv : rval Γ s e with
          | none => rw [hp, hv] at h; cases h
          | some v =>
            rw [hp, hv] at h
            simp only [Option.bind_some] at h
            have hg := lval_good hi l lt p hl hp
            unfold checkOpAssign at hk
            split at hk
            case isTrue => cases hk
            case isFalse hcn =>
              simp only [Bool.not_eq_true] at hcn
              cases lt with
              | arr e n => cases hk
              | struct n c => cases hk
              | ptr b c =>
                simp only at h hk
                have hb : b.isVoid = false := by
                  cases hb : b.isVoid with
                  | false => rfl
                  | true => rw [hb] at hk; cases hk
                cases hm : s.mem p.1 p.2 with
                | num n => rw [hm] at h; cases h
                | addr a =>
                  cases hw : v [] with
                  | addr l => rw [hm, hw] at h; cases h
                  | num n =>
                    rw [hm, hw] at h
                    simp only at h
                    cases hs : shift Γ s a n with
                    | none => rw [hs] at h; cases h
                    | some a' =>
                      rw [hs] at h; cases h
                      exact store_step hi hg (notHolds_of_leaf hcn (by simp) (by simp))
                        (by simp) (shifted_fits hi hg hb hm hs)
              | _ =>
                cases h
                exact store_step hi hg (notHolds_of_leaf hcn (by simp) (by simp)) (by simp)
                  (noAddr_fits fun q l => addNum_addr _ _ l)
  | step l up =>
    simp only [exec] at h
    simp only [check] at hk
    cases hl : ltype Γ s.types l with
    | none => rw [hl] at h; cases h
    | some lt =>
      rw [hl] at h hk
      simp only [Option.bind_some] at h hk
      cases hp : lval Γ s l with
      | none => rw [hp] at h; cases h
      | some p =>
        rw [hp] at h
        simp only [Option.bind_some] at h
        have hg := lval_good hi l lt p hl hp
        unfold checkStep at hk
        split at hk
        case isTrue => cases hk
        case isFalse hcn =>
          simp only [Bool.not_eq_true] at hcn
          cases lt with
          | arr e n => cases hk
          | struct n c => cases hk
          | ptr b c =>
            simp only at h hk
            have hb : b.isVoid = false := by
              cases hb : b.isVoid with
              | false => rfl
              | true => rw [hb] at hk; cases hk
            cases hm : s.mem p.1 p.2 with
            | num n => rw [hm] at h; cases h
            | addr a =>
              rw [hm] at h
              simp only at h
              cases hs : shift Γ s a (if up then 1 else -1) with
              | none => rw [hs] at h; cases h
              | some a' =>
                rw [hs] at h; cases h
                exact store_step hi hg (notHolds_of_leaf hcn (by simp) (by simp))
                  (by simp) (shifted_fits hi hg hb hm hs)
          | _ =>
            cases h
            exact store_step hi hg (notHolds_of_leaf hcn (by simp) (by simp)) (by simp)
              (noAddr_fits fun q l => addNum_addr _ _ l)

theorem Keeps.trans {Γ : Structs} {a b c : State} (h : Keeps Γ a b) (h' : Keeps Γ b c) :
    Keeps Γ a c := by
  refine ⟨Nat.le_trans h.1 h'.1, fun o ho => ?_⟩
  obtain ⟨t1, m1⟩ := h.2 o ho
  obtain ⟨t2, m2⟩ := h'.2 o (Nat.lt_of_lt_of_le ho h.1)
  refine ⟨t2.trans t1, fun q u hq hu => ?_⟩
  rw [m2 q u (by rw [t1]; exact hq) hu, m1 q u hq hu]

theorem run_step {Γ : Structs} (ho : Ordered Γ) (hn : NoConstInArrays Γ) (cs : List Stmt) :
    ∀ {s s' : State}, Inv Γ s → run Γ (clean Γ) s cs = some s' → Inv Γ s' ∧ Keeps Γ s s' := by
  induction cs with
  | nil =>
    intro s s' hi h
    cases h
    exact ⟨hi, Nat.le_refl _, fun o _ => ⟨rfl, fun _ _ _ _ => rfl⟩⟩
  | cons c cs ih =>
    intro s s' hi h
    simp only [run] at h
    split at h
    case isFalse => cases h
    case isTrue hc =>
      cases he : exec Γ s c with
      | none => rw [he] at h; cases h
      | some s₁ =>
        rw [he] at h
        obtain ⟨i1, k1⟩ := exec_step ho hn hi hc he
        obtain ⟨i2, k2⟩ := ih i1 h
        exact ⟨i2, k1.trans k2⟩

theorem start_inv (Γ : Structs) : Inv Γ start :=
  ⟨fun _ _ _ h => (nomatch h), fun _ h => absurd h (Nat.not_lt_zero _)⟩

/-- **What is declared `const` keeps its value.**  After any history of
statements that are taken without a warning, any further such statements leave
every `const` part of every object there is as it is, whatever pointers and
references lead to it.  References are bound to objects of the same type, or
made `const`; no struct has a member that is an array of structs with `const`
parts.  Missing: the programs outside of these two conditions, where the claim
is false (`reference_wrong`, `array_member_wrong`). -/
theorem const_kept_partial (Γ : Structs) (ho : Ordered Γ) (hn : NoConstInArrays Γ)
    (before after : List Stmt) (s s' : State) (h : run Γ (clean Γ) start before = some s)
    (h' : run Γ (clean Γ) s after = some s') (o : Nat) (hlt : o < s.next) (q : List Sel) (u : Ty)
    (hq : typeAt Γ (s.ty o) q = some u) (hu : u.isConst = true) :
    s'.mem o q = s.mem o q :=
  ((run_step ho hn after (run_step ho hn before (start_inv Γ) h).1 h').2.2 o hlt).2 q u hq hu

/-- `const int x = 7; int y = 3; const int *p = &x; int *q = &y; const int *r = q;`
then `*q = 9; y++; p = r;` -/
def history₁ : List Stmt × List Stmt :=
  ([.decl 0 (.scalar 1 true) (fun _ => 7), .init 1 (.scalar 1 false) (.num 1 3),
    .init 2 (.ptr (.scalar 1 true) false) (.addr (.var 0)),
    .init 3 (.ptr (.scalar 1 false) false) (.addr (.var 1)),
    .init 4 (.ptr (.scalar 1 true) false) (.load (.var 3))],
   [.assign (.deref (.load (.var 3))) (.num 1 9), .step (.var 1) true,
    .assign (.var 2) (.load (.var 4))])

/-- Some history of statements that `ok` allows changes a `const` part. -/
def Changes (Γ : Structs) (ok : State → Stmt → Bool) : Prop :=
  ∃ before after s s' o q u, run Γ ok start before = some s ∧ run Γ ok s after = some s' ∧
    o < s.next ∧ typeAt Γ (s.ty o) q = some u ∧ u.isConst = true ∧ s'.mem o q ≠ s.mem o q

example : ∃ s s', run structs₁ (clean structs₁) start history₁.1 = some s ∧
    run structs₁ (clean structs₁) s history₁.2 = some s' ∧ 0 < s.next ∧
    typeAt structs₁ (s.ty 0) [] = some (.scalar 1 true) ∧
    s.mem 1 [] = .num 3 ∧ s'.mem 1 [] = .num 10 ∧ s'.mem 0 [] = .num 7 ∧
    s.mem 2 [] = .addr (0, []) ∧ s'.mem 2 [] = .addr (1, []) :=
  ⟨_, _, rfl, rfl, by decide, rfl, rfl, rfl, rfl, rfl, rfl⟩

/-- **The claim fails for structs in arrays in structs.**
`struct A { const int x; }; struct B { A a[2]; }; B b, c; b = c;` is taken
without a warning and changes `b.a[0].x`. -/
theorem array_member_wrong : ∃ Γ, Ordered Γ ∧ Changes Γ (clean Γ) := by
  refine ⟨fun | 0 => [.scalar 1 true] | 1 => [.arr (.struct 0 false) 2] | _ => [], ?_,
    [.decl 0 (.struct 1 false) (fun _ => 1), .decl 1 (.struct 1 false) (fun _ => 2)],
    [.assign (.var 0) (.load (.var 1))], _, _, 0, [.mem 0, .idx 0, .mem 0], _, rfl, rfl,
    by decide, rfl, rfl, by decide⟩
  intro s t ht m hm
  match s with
  | 0 | 1 =>
    simp only [List.mem_singleton] at ht
    subst ht
    simp_all [holdsStruct]
  | _ + 2 => cases ht

/-- **The claim fails for references to `const` pointers.**
`const int x = 1; const int *p = &x;` and a call that binds `p` to a parameter
`int * const &r` are taken without a warning, and `*r = 5` changes `x`. -/
theorem reference_wrong : Changes structs₁ (quiet structs₁) :=
  ⟨[.decl 0 (.scalar 1 true) (fun _ => 1), .init 1 (.ptr (.scalar 1 true) false) (.addr (.var 0)),
      .bind 2 (.ptr (.scalar 1 false) true) (.var 1)],
    [.assign (.deref (.load (.var 2))) (.num 1 5)], _, _, 0, [], _, rfl, rfl, by decide, rfl, rfl,
    by decide⟩

/-- **A pointer loses `const` with no more than a warning.**
`const int x = 1; int *p = &x; *p = 5;` is taken. -/
theorem pointer_wrong : Changes structs₁ (taken structs₁) :=
  ⟨[.decl 0 (.scalar 1 true) (fun _ => 1), .init 1 (.ptr (.scalar 1 false) false) (.addr (.var 0))],
    [.assign (.deref (.load (.var 1))) (.num 1 5)], _, _, 0, [], _, rfl, rfl, by decide, rfl, rfl,
    by decide⟩

/-- **The warning is given exactly for a pointer that would lose `const`**: of
the conversions between pointers to types that differ in `const` alone, those
that make no more than the object pointed to `const` are silent, the others
are warned about. -/
theorem warned_iff (b b' : Ty) (c c' : Bool) (hv : b.isVoid = false) (hb : b.eqIC b' = true) :
    (convert (.ptr b c) (.ptr b' c') = .silent ↔ b' = b ∨ b' = b.asConst) ∧
      (convert (.ptr b c) (.ptr b' c') = .warned ↔ ¬ (b' = b ∨ b' = b.asConst)) := by
  have hv' : b'.isVoid = false := by cases b <;> cases b' <;> simp_all [Ty.isVoid, Ty.eqIC]
  have hp : ∀ b c, (Ty.ptr b c).isVoid = false := fun _ _ => rfl
  by_cases h1 : b = b'
  · subst h1
    simp [convert, convPtr, hv, hp]
  · by_cases h2 : b.asConst = b'
    · simp [convert, convPtr, hv', hp, h1, h2, Ne.symm h1]
    · simp [convert, convPtr, hv', hp, h1, h2, Ne.symm h1, Ne.symm h2, hb]

/-- `int **` to `const int **` is warned about, to `int * const *` not. -/
example :
    convert (.ptr (.ptr (.scalar 1 false) false) false) (.ptr (.ptr (.scalar 1 true) false) false)
        = .warned ∧
      convert (.ptr (.ptr (.scalar 1 false) false) false)
        (.ptr (.ptr (.scalar 1 false) true) false) = .silent := by decide

/-- **A pointer to `const` is not converted to `void *`.** -/
theorem void_pointer (b : Ty) (c c' : Bool) (hb : b.isConst = true) :
    convert (.ptr b c) (.ptr (.void false) c') = .error := by
  have : b ≠ .void false := by rintro rfl; cases hb
  simp [convert, convPtr, Ty.isVoid, Ty.isConst, hb, this.symm, Verdict.ofBool]

example : convert (.ptr (.struct 1 true) false) (.ptr (.void false) false) = .error :=
  void_pointer _ _ _ rfl

/-- **A `const` array is converted to `void *`, without a warning.** -/
theorem void_array_wrong (e : Ty) (n : Nat) (c : Bool) :
    convert (.arr e n) (.ptr (.void false) c) = .silent := by
  simp [convert, Ty.isVoid]

example : (Ty.arr (.scalar 1 true) 4).isConst = true ∧
    convert (.arr (.scalar 1 true) 4) (.ptr (.void false) false) = .silent := by decide

/-- **An object without `const` parts can be assigned to**: the checks on
`const` turn away nothing else. -/
theorem assign_allowed (Γ : Structs) (lt rt : Ty) (hn : ¬ HoldsConst Γ lt)
    (ha : ∀ e n, lt ≠ .arr e n) : checkAssign Γ lt rt = convert rt lt := by
  have hc : lt.isConst = false := by
    cases h : lt.isConst with
    | false => rfl
    | true => exact absurd ⟨[], lt, rfl, h⟩ hn
  unfold checkAssign
  rw [if_neg (by simp [hc])]
  cases lt with
  | arr e n => exact absurd rfl (ha e n)
  | struct s c =>
    cases c with
    | true => cases hc
    | false =>
      simp only
      rw [if_neg]
      exact fun h => hn (constMember_sound Γ _ s h)
  | _ => rfl

example : checkAssign structs₁ (.struct 2 false) (.struct 2 true) = .silent := by decide

/-! ## What is bound to what -/

/-- The type with every `const` in it left out. -/
def bare : Ty → Ty
  | .void _ => .void false
  | .scalar k _ => .scalar k false
  | .vec k n _ => .vec k n false
  | .ptr b _ => .ptr (bare b) false
  | .arr e n => .arr (bare e) n
  | .struct s _ => .struct s false

theorem eqIC_iff (a b : Ty) : a.eqIC b = true ↔ bare a = bare b := by
  induction a generalizing b with
  | ptr a c ih => cases b <;> simp [Ty.eqIC, bare, ih]
  | arr e n ih => cases b <;> simp [Ty.eqIC, bare, ih]; tauto
  | _ => cases b <;> simp [Ty.eqIC, bare]

/-- **A pointer is not converted to a pointer to something else**: if the two
types pointed to differ in more than `const`, and neither is `void`, the
conversion is an error, however deep the difference lies. -/
theorem pointer_same (b b' : Ty) (c c' : Bool) (hv : b'.isVoid = false)
    (h : bare b ≠ bare b') : convert (.ptr b c) (.ptr b' c') = .error := by
  have h1 : b ≠ b' := fun e => h (e ▸ rfl)
  have h2 : b.asConst ≠ b' := by
    rintro rfl
    refine h ?_
    clear h hv h1
    induction b <;> simp_all [bare, Ty.asConst]
  have h3 : b.eqIC b' = false := by
    cases e : b.eqIC b' with
    | false => rfl
    | true => exact absurd ((eqIC_iff b b').1 e) h
  have hp : ∀ b c, (Ty.ptr b c).isVoid = false := fun _ _ => rfl
  simp [convert, convPtr, hp, hv, h1, h2, h3, Ne.symm h1]

example : convert (.ptr (.ptr (.scalar 1 false) false) false)
    (.ptr (.ptr (.scalar 2 false) false) false) = .error :=
  pointer_same _ _ _ _ rfl (by decide)

/-- **What an object is bound to as a reference**: a reference to its own type;
to its type made `const`; to a `const` type that differs from its own in
`const` alone, if the object is not `const`; an array to an array of the same
elements.  Nothing else is taken, and nothing with a warning. -/
theorem bind_iff (src dst : Ty) :
    (convRef src dst = .silent ↔ dst = src ∨ dst = src.asConst ∨
      (bare dst = bare src ∧ dst.isConst = true ∧ src.isConst = false) ∨
      ∃ e n n', src = .arr e n ∧ dst = .arr e n') ∧ convRef src dst ≠ .warned := by
  rw [← eqIC_iff]
  unfold convRef
  split_ifs with h1 h2 h3
  · simp [h1]
  · simp only [Bool.and_eq_true, Bool.not_eq_true'] at h2
    simp [h2]
  · simp [h3]
  · simp only [Bool.and_eq_true, Bool.not_eq_true'] at h2
    split
    · rename_i e n e' n'
      by_cases he : e = e'
      · subst he
        simp [Verdict.ofBool]
      · simp [Verdict.ofBool, he, h3]
        refine ⟨?_, ?_⟩
        · exact fun h => absurd h.symm he
        · refine ⟨?_, fun h => he h.symm⟩
          simpa using h2
    · rename_i hx
      simp only [h1, h3, false_or, reduceCtorEq, ne_eq, not_false_eq_true, and_true, false_iff]
      rintro (h | ⟨e, n, n', rfl, rfl⟩)
      · exact h2 ⟨⟨h.1, h.2.1⟩, h.2.2⟩
      · exact hx _ _ _ _ rfl rfl

/-- **A `const` object is bound to `const` references only.** -/
theorem bind_const (src dst : Ty) (h : convRef src dst ≠ .error) (hc : src.isConst = true) :
    dst.isConst = true := by
  have hs : convRef src dst = .silent := by
    cases hh : convRef src dst with
    | silent => rfl
    | warned => exact absurd hh (bind_iff src dst).2
    | error => exact absurd hh h
  rcases (bind_iff src dst).1.1 hs with rfl | rfl | h | ⟨e, n, n', rfl, rfl⟩
  · exact hc
  · exact isConst_asConst _
  · exact h.2.1
  · simpa [Ty.isConst] using hc

example : convRef (.arr (.scalar 1 true) 4) (.arr (.scalar 1 false) 4) = .error ∧
    convRef (.arr (.scalar 1 true) 4) (.arr (.scalar 1 true) 2) = .silent ∧
    convRef (.struct 1 true) (.struct 1 false) = .error ∧
    convRef (.struct 1 false) (.struct 1 true) = .silent := by decide

end Ispc.Constness
