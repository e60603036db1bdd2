import Verif.Front.Templates
import Mathlib.Tactic.Tauto

/-!
# The deduction of template arguments: specification and lemmas
-/

namespace Ispc.Templ

open Ispc.Types

/-! ## Specification -/

/-- Types of expressions: uniform or varying, no references, no frozen slices;
functions below pointers only. -/
def Plain : Ty → Prop
  | .atomic _ v _ => v = .uniform ∨ v = .varying
  | .enum _ _ v _ => v = .uniform ∨ v = .varying
  | .ptr b v _ _ f _ => (v = .uniform ∨ v = .varying) ∧ f = false ∧
    (Plain b ∨ ∃ fl r ps, b = .func fl r ps)
  | .array b _ => Plain b
  | .vec b _ => Plain b
  | .struct _ v _ => v = .uniform ∨ v = .varying
  | _ => False

/-- The same type, whether uniform or varying. -/
def Same (a b : Ty) : Prop := equal a.asUniform b.asUniform = true

/-- A value of type `t` is one of type `u`, or is uniform and `u` is the
varying version of its type. -/
def Up (t u : Ty) : Prop :=
  equal t u = true ∨ (t.isUniform = true ∧ equal t.asVarying u = true)

/-- The same, where `const` may be added. -/
def Receives (t u : Ty) : Prop := Up t u ∨ Up t.asConst u

/-- The type `a` of an argument and the type of a parameter have the same
form: below pointers and short vectors of the same size, one receives the
other.  (Whether pointers may be passed is for overload resolution to say.) -/
inductive Fits : Ty → Ty → Prop
  | leaf {t u : Ty} : Receives t u → Fits t u
  | ptr {t u : Ty} {v v' : Var} {c c' s s' f f' : Bool} {a a' : Nat} : Fits t u →
      Fits (.ptr t v c s f a) (.ptr u v' c' s' f' a')
  | vec {t u : Ty} {k : Nat} : Fits t u → Fits (.vec t k) (.vec u k)
  | ref {t u : Ty} {v v' : Var} {c c' : Bool} {a a' : Nat} : Fits t u →
      Fits (.ref t v c a) (.ref u v' c' a')

/-- The type of an argument that is passed by value: references are followed,
an array becomes a pointer to its elements, `const` is dropped. -/
inductive Value : Ty → Ty → Prop
  | ref {t u : Ty} {v : Var} {c : Bool} {a : Nat} : Value t u → Value (.ref t v c a) u
  | array {e : Ty} {n : Nat} : Value (.array e n) (uniformPtr e)
  | other {t : Ty} : (∀ e n, t ≠ .array e n) → (∀ u v c a, t ≠ .ref u v c a) →
      Value t t.asNonConst

/-- An argument of type `a` fits a parameter of type `s`: a reference takes the
argument itself, anything else its value. -/
inductive ArgFits : Ty → Ty → Prop
  | ref {a s : Ty} {v : Var} {c : Bool} {n : Nat} : Fits a.refTarget s → ArgFits a (.ref s v c n)
  | val {a a' s : Ty} : Value a a' → (∀ u v c n, s ≠ .ref u v c n) → Fits a' s → ArgFits a s

/-- How the parameter and the argument face each other: a reference parameter
binds to the argument itself, any other takes its value and its own `const`
does not matter. -/
inductive Passed : Par → Ty → Par → Ty → Prop
  | byRef {p : Par} {t : Ty} {v : Var} {c : Bool} {a : Nat} : Passed (.ref p) (.ref t v c a) p t
  | toRef {p : Par} {t : Ty} : (∀ u v c a, t ≠ .ref u v c a) → Passed (.ref p) t p t
  | parm {n : Name} {v : Var} {c : Bool} {a t : Ty} : Value a t →
      Passed (.parm n v c) a (.parm n v false) t
  | ptr {b : Par} {v : Var} {c : Bool} {a t : Ty} : Value a t →
      Passed (.ptr b v c) a (.ptr b v false) t
  | vec {n : Name} {v : Var} {c : Bool} {k : Count} {a t : Ty} : Value a t →
      Passed (.vec (.parm n v c) k) a (.vec (.parm n v false) k) t

/-- The type parameter `n`, written with variability `v` and with or without
`const`, faces the part `t` of an argument's type. -/
inductive Faces : Par → Ty → Name → Var → Bool → Ty → Prop
  | here {n : Name} {v : Var} {c : Bool} {t : Ty} : Faces (.parm n v c) t n v c t
  | ptr {b : Par} {w w' v : Var} {q q' s f c : Bool} {a : Nat} {n : Name} {t u : Ty} :
      Faces b u n v c t → Faces (.ptr b w q) (.ptr u w' q' s f a) n v c t
  | ref {b : Par} {w v : Var} {q c : Bool} {a : Nat} {n : Name} {t u : Ty} :
      Faces b u n v c t → Faces (.ref b) (.ref u w q a) n v c t

/-- The same for a parameter and an argument of a call, also in `T<N>`. -/
inductive Facing : Par → Ty → Name → Var → Bool → Ty → Prop
  | chain {p p' : Par} {a a' t : Ty} {n : Name} {v : Var} {c : Bool} : Passed p a p' a' →
      Faces p' a' n v c t → Facing p a n v c t
  | vec {p : Par} {a t : Ty} {n x : Name} {v : Var} {c : Bool} {k : Nat} :
      Passed p a (.vec (.parm n v c) (.sym x)) (.vec t k) → Facing p a n v c t

/-- What `T`, written with variability `v` and with or without `const`, is taken
to be when it faces `t`: the table of docs/ispc.rst, 5190-5217. -/
def Table (v : Var) (c : Bool) (t d : Ty) : Prop :=
  let t := if c && t.isConst then t.asNonConst else t
  match v with
  | .uniform => t.isUniform = true ∧ d = t.asVarying
  | .varying => d = t.asUniform
  | _ => d = t

/-- What one argument tells about the template's parameters. -/
inductive Yields (p : Par) (a : Ty) : List (Name × TArg) → Prop
  | chain {p' : Par} {a' t d : Ty} {n : Name} {v : Var} {c : Bool} : Passed p a p' a' →
      Faces p' a' n v c t → Table v c t d → Yields p a [(n, .ty d)]
  | vec {t d : Ty} {n x : Name} {v : Var} {c : Bool} {k : Nat} :
      Passed p a (.vec (.parm n v c) (.sym x)) (.vec t k) → Table v c t d →
      Yields p a [(n, .ty d), (x.take 15, .num .int32 k)]

/-- What all arguments tell, in order; only dependent parameters count. -/
inductive Tells : List Par → List Ty → List (Name × TArg) → Prop
  | nil {as : List Ty} : Tells [] as []
  | skip {p : Par} {ps : List Par} {as : List Ty} {ds : List (Name × TArg)} : p.dep = false →
      Tells ps as.tail ds → Tells (p :: ps) as ds
  | cons {p : Par} {ps : List Par} {a : Ty} {as : List Ty} {d ds : List (Name × TArg)} :
      p.dep = true → Yields p a d → Tells ps as ds → Tells (p :: ps) (a :: as) (d ++ ds)

/-- The names of type parameters in a parameter's type. -/
def Par.tyNames : Par → List Name
  | .con _ => []
  | .parm n _ _ => [n]
  | .ptr b _ _ => b.tyNames
  | .ref t => t.tyNames
  | .vec b _ => b.tyNames
  | .array b _ => b.tyNames

/-- The names of value parameters in a parameter's type. -/
def Par.valNames : Par → List Name
  | .con _ => []
  | .parm _ _ _ => []
  | .ptr b _ _ => b.valNames
  | .ref t => t.valNames
  | .vec b n => b.valNames ++ (match n with | .sym x => [x] | .fixed _ => [])
  | .array b n => b.valNames ++ (match n with | .sym x => [x] | .fixed _ => [])

/-- A template as it is after its declaration: its parameters have different
names, the types name no others, and the names of value parameters have no more
than 15 characters (see `long_name_wrong`). -/
structure WF (f : Template) : Prop where
  nodup : (f.tps.map TParam.name).Nodup
  tys : ∀ p ∈ f.ps, ∀ n ∈ p.1.tyNames, (⟨n, none⟩ : TParam) ∈ f.tps
  vals : ∀ p ∈ f.ps, ∀ n ∈ p.1.valNames, (∃ b, (⟨n, some b⟩ : TParam) ∈ f.tps) ∧ n.length ≤ 15

/-- Explicit arguments are types for type parameters and constants for value
parameters (see `kind_wrong`). -/
def KindsOk : List TParam → List TArg → Prop
  | p :: ps, a :: as => (p.value = none ↔ ∃ t, a = .ty t) ∧ KindsOk ps as
  | _, _ => True

/-- The arguments of the call are plain: so are the parts that face type
parameters, and short vectors have elements. -/
def ArgsOk (ps : List Par) (as : List Ty) : Prop :=
  ∀ (i : Nat) (p : Par) (a : Ty), ps[i]? = some p → as[i]? = some a → Plain a.refTarget ∧
    (∀ n v c t, Facing p a n v c t → Plain t) ∧
    (∀ q x t k, Passed p a (.vec q (.sym x)) (.vec t k) → 0 < k)

/-- No uniform type is deduced for a parameter after a varying type that is not
the same otherwise. -/
def Regular (ds : List (Name × TArg)) : Prop :=
  ds.Pairwise fun x y => ∀ n t u, x = (n, .ty t) → y = (n, .ty u) → t.isVarying = true →
    u.isUniform = true → Same t u

/-! ## Uniform and varying versions of types -/

theorem plain_bound : ∀ {t : Ty}, Plain t → t.variability = .uniform ∨ t.variability = .varying
  | .atomic .., h => h
  | .enum .., h => h
  | .ptr .., h => h.1
  | .array b _, h => plain_bound (t := b) h
  | .vec b _, h => plain_bound (t := b) h
  | .struct .., h => h

theorem plain_not_uniform {t : Ty} (h : Plain t) : t.isUniform = false ↔ t.isVarying = true := by
  rcases plain_bound h with h | h <;> simp [Ty.isUniform, Ty.isVarying, h]

theorem plain_not_varying {t : Ty} (h : Plain t) : t.isVarying = false ↔ t.isUniform = true := by
  rcases plain_bound h with h | h <;> simp [Ty.isUniform, Ty.isVarying, h]

theorem asUniform_self : ∀ {t : Ty}, Plain t → t.isUniform = true → t.asUniform = t
  | .atomic .., _, h => by have := of_decide_eq_true h; simp only [Ty.variability] at this; subst this; rfl
  | .enum .., _, h => by have := of_decide_eq_true h; simp only [Ty.variability] at this; subst this; rfl
  | .ptr .., _, h => by have := of_decide_eq_true h; simp only [Ty.variability] at this; subst this; rfl
  | .struct .., _, h => by have := of_decide_eq_true h; simp only [Ty.variability] at this; subst this; rfl
  | .array b _, _, h => by
    have h : b.isUniform = true := h
    simp [Ty.asUniform, h]
  | .vec b _, _, h => by
    have h : b.isUniform = true := h
    simp [Ty.asUniform, h]

theorem asVarying_self : ∀ {t : Ty}, Plain t → t.isVarying = true → t.asVarying = t
  | .atomic .., _, h => by have := of_decide_eq_true h; simp only [Ty.variability] at this; subst this; rfl
  | .enum .., _, h => by have := of_decide_eq_true h; simp only [Ty.variability] at this; subst this; rfl
  | .ptr .., _, h => by have := of_decide_eq_true h; simp only [Ty.variability] at this; subst this; rfl
  | .struct .., _, h => by have := of_decide_eq_true h; simp only [Ty.variability] at this; subst this; rfl
  | .array b _, _, h => by
    have h : b.isVarying = true := h
    simp [Ty.asVarying, h]
  | .vec b _, _, h => by
    have h : b.isVarying = true := h
    simp [Ty.asVarying, h]

theorem array_asUniform {b : Ty} (h : Plain b) (n : Nat) :
    (Ty.array b n).asUniform = .array b.asUniform n := by
  simp only [Ty.asUniform]
  split
  · rw [asUniform_self h ‹_›]
  · rfl

theorem vec_asUniform {b : Ty} (h : Plain b) (n : Nat) :
    (Ty.vec b n).asUniform = .vec b.asUniform n := by
  simp only [Ty.asUniform]
  split
  · rw [asUniform_self h ‹_›]
  · rfl

theorem array_asVarying {b : Ty} (h : Plain b) (n : Nat) :
    (Ty.array b n).asVarying = .array b.asVarying n := by
  simp only [Ty.asVarying]
  split
  · rw [asVarying_self h ‹_›]
  · rfl

theorem vec_asVarying {b : Ty} (h : Plain b) (n : Nat) :
    (Ty.vec b n).asVarying = .vec b.asVarying n := by
  simp only [Ty.asVarying]
  split
  · rw [asVarying_self h ‹_›]
  · rfl

theorem plain_asUniform : ∀ {t : Ty}, Plain t → Plain t.asUniform
  | .atomic .., _ => .inl rfl
  | .enum .., _ => .inl rfl
  | .ptr .., h => ⟨.inl rfl, h.2⟩
  | .struct .., _ => .inl rfl
  | .array b _, h => by
    have h : Plain b := h
    rw [array_asUniform h]; exact plain_asUniform h
  | .vec b _, h => by
    have h : Plain b := h
    rw [vec_asUniform h]; exact plain_asUniform h

theorem plain_asVarying : ∀ {t : Ty}, Plain t → Plain t.asVarying
  | .atomic .., _ => .inr rfl
  | .enum .., _ => .inr rfl
  | .ptr .., h => ⟨.inr rfl, h.2⟩
  | .struct .., _ => .inr rfl
  | .array b _, h => by
    have h : Plain b := h
    rw [array_asVarying h]; exact plain_asVarying h
  | .vec b _, h => by
    have h : Plain b := h
    rw [vec_asVarying h]; exact plain_asVarying h

theorem isUniform_asUniform : ∀ {t : Ty}, Plain t → t.asUniform.isUniform = true
  | .atomic .., _ => rfl
  | .enum .., _ => rfl
  | .ptr .., _ => rfl
  | .struct .., _ => rfl
  | .array b _, h => by
    have h : Plain b := h
    rw [array_asUniform h]; exact isUniform_asUniform (t := b) h
  | .vec b _, h => by
    have h : Plain b := h
    rw [vec_asUniform h]; exact isUniform_asUniform (t := b) h

theorem isVarying_asVarying : ∀ {t : Ty}, Plain t → t.asVarying.isVarying = true
  | .atomic .., _ => rfl
  | .enum .., _ => rfl
  | .ptr .., _ => rfl
  | .struct .., _ => rfl
  | .array b _, h => by
    have h : Plain b := h
    rw [array_asVarying h]; exact isVarying_asVarying (t := b) h
  | .vec b _, h => by
    have h : Plain b := h
    rw [vec_asVarying h]; exact isVarying_asVarying (t := b) h

theorem asVarying_asUniform : ∀ {t : Ty}, Plain t → t.asVarying.asUniform = t.asUniform
  | .atomic .., _ => rfl
  | .enum .., _ => rfl
  | .ptr .., _ => rfl
  | .struct .., _ => rfl
  | .array b _, h => by
    have h : Plain b := h
    rw [array_asVarying h, array_asUniform (plain_asVarying h), array_asUniform h,
      asVarying_asUniform h]
  | .vec b _, h => by
    have h : Plain b := h
    rw [vec_asVarying h, vec_asUniform (plain_asVarying h), vec_asUniform h,
      asVarying_asUniform h]

theorem asUniform_asVarying : ∀ {t : Ty}, Plain t → t.asUniform.asVarying = t.asVarying
  | .atomic .., _ => rfl
  | .enum .., _ => rfl
  | .ptr .., _ => rfl
  | .struct .., _ => rfl
  | .array b _, h => by
    have h : Plain b := h
    rw [array_asUniform h, array_asVarying (plain_asUniform h), array_asVarying h,
      asUniform_asVarying h]
  | .vec b _, h => by
    have h : Plain b := h
    rw [vec_asUniform h, vec_asVarying (plain_asUniform h), vec_asVarying h,
      asUniform_asVarying h]

theorem constOk_iff {a b : Ty} : constOk false a b = true ↔ a.isConst = b.isConst := by
  simp [constOk]

theorem array_equal {a b : Ty} {m n : Nat} :
    equal (.array a m) (.array b n) = true ↔ m = n ∧ equal a b = true := by
  simp only [equal, checkEq, checkEqBody, Bool.and_eq_true, decide_eq_true_eq, constOk_iff,
    Ty.isConst]
  tauto

theorem vec_equal {a b : Ty} {m n : Nat} :
    equal (.vec a m) (.vec b n) = true ↔ m = n ∧ equal a b = true := by
  simp only [equal, checkEq, checkEqBody, Bool.and_eq_true, decide_eq_true_eq, constOk_iff,
    Ty.isConst]
  tauto

/-- Two types are equal when they agree in variability and are the same
otherwise. -/
theorem equal_iff_same : ∀ {a b : Ty}, Plain a → Plain b →
    (equal a b = true ↔ a.isUniform = b.isUniform ∧ Same a b)
  | .atomic .., b, ha, hb => by
    cases b <;> simp only [Plain] at ha hb <;> rcases ha with rfl | rfl <;>
      first
      | (rcases hb with rfl | rfl <;>
          simp [Same, equal, checkEq, checkEqBody, constOk_iff, Ty.isConst, Ty.asUniform, Ty.isUniform, Ty.variability])
      | (simp only [Same, array_asUniform hb]; simp [equal, checkEq, checkEqBody, constOk_iff, Ty.isConst, Ty.asUniform]; done)
      | (simp only [Same, vec_asUniform hb]; simp [equal, checkEq, checkEqBody, constOk_iff, Ty.isConst, Ty.asUniform]; done)
      | simp [Same, equal, checkEq, checkEqBody, constOk_iff, Ty.isConst, Ty.asUniform]
  | .enum .., b, ha, hb => by
    cases b <;> simp only [Plain] at ha hb <;> rcases ha with rfl | rfl <;>
      first
      | (rcases hb with rfl | rfl <;>
          simp [Same, equal, checkEq, checkEqBody, constOk_iff, Ty.isConst, Ty.asUniform, Ty.isUniform, Ty.variability])
      | (simp only [Same, array_asUniform hb]; simp [equal, checkEq, checkEqBody, constOk_iff, Ty.isConst, Ty.asUniform]; done)
      | (simp only [Same, vec_asUniform hb]; simp [equal, checkEq, checkEqBody, constOk_iff, Ty.isConst, Ty.asUniform]; done)
      | simp [Same, equal, checkEq, checkEqBody, constOk_iff, Ty.isConst, Ty.asUniform]
  | .struct .., b, ha, hb => by
    cases b <;> simp only [Plain] at ha hb <;> rcases ha with rfl | rfl <;>
      first
      | (rcases hb with rfl | rfl <;>
          simp [Same, equal, checkEq, checkEqBody, constOk_iff, Ty.isConst, Ty.asUniform, Ty.isUniform, Ty.variability])
      | (simp only [Same, array_asUniform hb]; simp [equal, checkEq, checkEqBody, constOk_iff, Ty.isConst, Ty.asUniform]; done)
      | (simp only [Same, vec_asUniform hb]; simp [equal, checkEq, checkEqBody, constOk_iff, Ty.isConst, Ty.asUniform]; done)
      | simp [Same, equal, checkEq, checkEqBody, constOk_iff, Ty.isConst, Ty.asUniform]
  | .ptr .., b, ha, hb => by
    cases b <;> simp only [Plain] at ha hb <;> rcases ha with ⟨rfl | rfl, rfl, _⟩ <;>
      first
      | (rcases hb with ⟨rfl | rfl, rfl, _⟩ <;>
          simp [Same, equal, checkEq, checkEqBody, constOk_iff, Ty.isConst, Ty.asUniform, Ty.isUniform, Ty.variability])
      | (simp only [Same, array_asUniform hb]; simp [equal, checkEq, checkEqBody, constOk_iff, Ty.isConst, Ty.asUniform]; done)
      | (simp only [Same, vec_asUniform hb]; simp [equal, checkEq, checkEqBody, constOk_iff, Ty.isConst, Ty.asUniform]; done)
      | simp [Same, equal, checkEq, checkEqBody, constOk_iff, Ty.isConst, Ty.asUniform]
  | .array a _, b, ha, hb => by
    have ha : Plain a := ha
    cases b with
    | array b n =>
      have hb : Plain b := hb
      have := equal_iff_same ha hb
      simp only [Same, array_asUniform ha, array_asUniform hb, array_equal, this, Ty.isUniform,
        Ty.variability]
      tauto
    | vec b n =>
      have hb : Plain b := hb
      simp only [Same, array_asUniform ha, vec_asUniform hb]
      simp [equal, checkEq, checkEqBody]
    | _ => simp only [Same, array_asUniform ha]; simp [equal, checkEq, checkEqBody, Ty.asUniform, Plain] at hb ⊢
  | .vec a _, b, ha, hb => by
    have ha : Plain a := ha
    cases b with
    | vec b n =>
      have hb : Plain b := hb
      have := equal_iff_same ha hb
      simp only [Same, vec_asUniform ha, vec_asUniform hb, vec_equal, this, Ty.isUniform,
        Ty.variability]
      tauto
    | array b n =>
      have hb : Plain b := hb
      simp only [Same, vec_asUniform ha, array_asUniform hb]
      simp [equal, checkEq, checkEqBody]
    | _ => simp only [Same, vec_asUniform ha]; simp [equal, checkEq, checkEqBody, Ty.asUniform, Plain] at hb ⊢

theorem same_refl (a : Ty) : Same a a := Promote.equal_refl _
theorem same_symm {a b : Ty} (h : Same a b) : Same b a := Promote.equal_symm h
theorem same_trans {a b c : Ty} (h : Same a b) (h' : Same b c) : Same a c :=
  Promote.equal_trans h h'

theorem same_asVarying {a : Ty} (h : Plain a) : Same a.asVarying a := by
  rw [Same, asVarying_asUniform h]; exact Promote.equal_refl _

theorem same_asUniform {a : Ty} (h : Plain a) : Same a.asUniform a := by
  rw [Same, asUniform_self (plain_asUniform h) (isUniform_asUniform h)]
  exact Promote.equal_refl _

/-! ## Constness -/

theorem plain_asConst : ∀ {t : Ty}, Plain t → Plain t.asConst
  | .atomic .., h => h
  | .enum .., h => h
  | .ptr _ _ c _ _ _, h => by cases c <;> exact ⟨h.1, by simp_all [Plain], h.2.2⟩
  | .struct .., h => h
  | .array b _, h => plain_asConst (t := b) h
  | .vec b _, h => plain_asConst (t := b) h

theorem plain_asNonConst : ∀ {t : Ty}, Plain t → Plain t.asNonConst
  | .atomic .., h => h
  | .enum .., h => h
  | .ptr _ _ c _ _ _, h => by cases c <;> exact ⟨h.1, by simp_all [Plain], h.2.2⟩
  | .struct .., h => h
  | .array b _, h => plain_asNonConst (t := b) h
  | .vec b _, h => plain_asNonConst (t := b) h

theorem variability_asConst : ∀ {t : Ty}, Plain t → t.asConst.variability = t.variability
  | .atomic .., _ => rfl
  | .enum .., _ => rfl
  | .ptr _ _ c _ _ _, _ => by cases c <;> rfl
  | .struct .., _ => rfl
  | .array b _, h => variability_asConst (t := b) h
  | .vec b _, h => variability_asConst (t := b) h

theorem variability_asNonConst : ∀ {t : Ty}, Plain t → t.asNonConst.variability = t.variability
  | .atomic .., _ => rfl
  | .enum .., _ => rfl
  | .ptr _ _ c _ _ _, _ => by cases c <;> rfl
  | .struct .., _ => rfl
  | .array b _, h => variability_asNonConst (t := b) h
  | .vec b _, h => variability_asNonConst (t := b) h

theorem nonConst_const : ∀ {t : Ty}, Plain t → t.asNonConst.asConst = t.asConst
  | .atomic .., _ => rfl
  | .enum .., _ => rfl
  | .ptr _ _ c _ _ _, h => by cases c <;> simp_all [Plain, Ty.asNonConst, Ty.asConst]
  | .struct .., _ => rfl
  | .array b _, h => by
    simp only [Ty.asNonConst, Ty.asConst]; rw [nonConst_const (t := b) h]
  | .vec b _, h => by
    simp only [Ty.asNonConst, Ty.asConst]; rw [nonConst_const (t := b) h]

theorem const_nonConst : ∀ {t : Ty}, Plain t → t.isConst = false → t.asConst.asNonConst = t
  | .atomic .., _, h => by simp_all [Ty.asNonConst, Ty.asConst, Ty.isConst]
  | .enum .., _, h => by simp_all [Ty.asNonConst, Ty.asConst, Ty.isConst]
  | .ptr _ _ c _ _ _, h, h' => by
    cases c <;> simp_all [Plain, Ty.asNonConst, Ty.asConst, Ty.isConst]
  | .struct .., _, h => by simp_all [Ty.asNonConst, Ty.asConst, Ty.isConst]
  | .array b _, h, h' => by
    simp only [Ty.asNonConst, Ty.asConst]; rw [const_nonConst (t := b) h h']
  | .vec b _, h, h' => by
    simp only [Ty.asNonConst, Ty.asConst]; rw [const_nonConst (t := b) h h']

theorem isConst_asConst : ∀ {t : Ty}, Plain t → t.asConst.isConst = true
  | .atomic .., _ => rfl
  | .enum .., _ => rfl
  | .ptr _ _ c _ _ _, _ => by cases c <;> rfl
  | .struct .., _ => rfl
  | .array b _, h => isConst_asConst (t := b) h
  | .vec b _, h => isConst_asConst (t := b) h

theorem isConst_asUniform : ∀ {t : Ty}, Plain t → t.asUniform.isConst = t.isConst
  | .atomic .., _ => rfl
  | .enum .., _ => rfl
  | .ptr _ _ c _ _ _, _ => rfl
  | .struct .., _ => rfl
  | .array b _, h => by
    have h : Plain b := h
    rw [array_asUniform h]; exact isConst_asUniform (t := b) h
  | .vec b _, h => by
    have h : Plain b := h
    rw [vec_asUniform h]; exact isConst_asUniform (t := b) h

theorem isConst_asVarying : ∀ {t : Ty}, Plain t → t.asVarying.isConst = t.isConst
  | .atomic .., _ => rfl
  | .enum .., _ => rfl
  | .ptr _ _ c _ _ _, _ => rfl
  | .struct .., _ => rfl
  | .array b _, h => by
    have h : Plain b := h
    rw [array_asVarying h]; exact isConst_asVarying (t := b) h
  | .vec b _, h => by
    have h : Plain b := h
    rw [vec_asVarying h]; exact isConst_asVarying (t := b) h

theorem asConst_asVarying : ∀ {t : Ty}, Plain t → t.asConst.asVarying = t.asVarying.asConst
  | .atomic .., _ => rfl
  | .enum .., _ => rfl
  | .ptr _ _ c _ _ _, _ => by cases c <;> rfl
  | .struct .., _ => rfl
  | .array b _, h => by
    have h : Plain b := h
    rw [array_asVarying h]
    simp only [Ty.asConst]
    rw [array_asVarying (plain_asConst h), asConst_asVarying h]
  | .vec b _, h => by
    have h : Plain b := h
    rw [vec_asVarying h]
    simp only [Ty.asConst]
    rw [vec_asVarying (plain_asConst h), asConst_asVarying h]

theorem equal_asConst : ∀ {a b : Ty}, Plain a → Plain b → equal a b = true →
    equal a.asConst b.asConst = true
  | .atomic .., b, _, _, h => by
    cases b <;> simp_all [equal, checkEq, checkEqBody, constOk_iff, Ty.asConst, Ty.isConst]
  | .enum .., b, _, _, h => by
    cases b <;> simp_all [equal, checkEq, checkEqBody, constOk_iff, Ty.asConst, Ty.isConst]
  | .struct .., b, _, _, h => by
    cases b <;> simp_all [equal, checkEq, checkEqBody, constOk_iff, Ty.asConst, Ty.isConst]
  | .ptr _ _ c _ _ _, b, ha, hb, h => by
    cases b with
    | ptr _ _ c' _ _ _ =>
      cases c <;> cases c' <;>
        simp_all [equal, checkEq, checkEqBody, constOk_iff, Ty.asConst, Ty.isConst]
    | _ => simp_all [equal, checkEq, checkEqBody]
  | .array a _, b, ha, hb, h => by
    cases b with
    | array b n =>
      rw [array_equal] at h
      simp only [Ty.asConst, array_equal]
      exact ⟨h.1, equal_asConst (a := a) (b := b) ha hb h.2⟩
    | _ => simp_all [equal, checkEq, checkEqBody]
  | .vec a _, b, ha, hb, h => by
    cases b with
    | vec b n =>
      rw [vec_equal] at h
      simp only [Ty.asConst, vec_equal]
      exact ⟨h.1, equal_asConst (a := a) (b := b) ha hb h.2⟩
    | _ => simp_all [equal, checkEq, checkEqBody]

/-! ## Merging deductions -/

/-- The merging of two deductions in `compat`, as a function of the earlier
one. -/
def join : Option TArg → TArg → Option TArg
  | o, .ty t =>
    match o.map TArg.asTy with
    | none => some (.ty t)
    | some prev =>
      if equal prev t = true then o
      else if prev.isUniform = true ∧ t.isVarying = true ∧ equal prev.asVarying t = true then
        some (.ty t)
      else if prev.isVarying = true ∧ t.isUniform = true then o
      else none
  | some (.num b' k'), .num b k => if b' = b ∧ k' = k then some (.num b' k') else none
  | _, .num b k => some (.num b k)

theorem set_self {m : Map} {n : Name} {x : TArg} (h : m n = some x) : m.set n x = m := by
  funext k
  simp only [Map.set]
  split
  · subst k; exact h.symm
  · rfl

theorem compat_eq (m : Map) (n : Name) (d : TArg) :
    compat m n d = match join (m n) d with
      | some x => .ok (m.set n x)
      | none => .fail := by
  cases d with
  | ty t =>
    simp only [compat, join, Map.ty]
    cases hm : m n with
    | none => rfl
    | some x =>
      simp only [Option.map_some]
      split
      · simp only [set_self hm]
      · split
        · rfl
        · split
          · simp only [set_self hm]
          · rfl
  | num b k =>
    simp only [compat]
    cases hm : m n with
    | none => rfl
    | some x =>
      cases x with
      | ty t => rfl
      | num b' k' =>
        simp only [join]
        split
        · simp only [set_self hm]
        · rfl

/-- `compat` along a list. -/
def fold (m : Map) : List (Name × TArg) → Out Map
  | [] => .ok m
  | d :: ds =>
    match compat m d.1 d.2 with
    | .ok m => fold m ds
    | .fail => .fail
    | .null => .null
    | .outside => .outside

def joins (o : Option TArg) : List TArg → Option (Option TArg)
  | [] => some o
  | d :: ds =>
    match join o d with
    | some x => joins (some x) ds
    | none => none

/-- The deductions for one name. -/
def pick (n : Name) (ds : List (Name × TArg)) : List TArg :=
  ds.filterMap fun d => if d.1 = n then some d.2 else none

theorem fold_ok : ∀ {ds : List (Name × TArg)} {m m' : Map},
    fold m ds = .ok m' ↔ ∀ n, joins (m n) (pick n ds) = some (m' n)
  | [], m, m' => by
    simp only [fold, pick, List.filterMap_nil, joins, Out.ok.injEq, Option.some.injEq]
    exact funext_iff
  | (k, d) :: ds, m, m' => by
    simp only [fold, compat_eq]
    cases hj : join (m k) d with
    | none =>
      simp only [reduceCtorEq, false_iff]
      intro h
      have := h k
      simp [pick, joins, hj] at this
    | some x =>
      simp only
      rw [fold_ok]
      refine forall_congr' fun n => ?_
      by_cases hn : k = n
      · subst hn
        simp [pick, joins, hj, Map.set]
      · have hn' : ¬ n = k := fun h => hn h.symm
        simp [pick, Map.set, hn, hn']

theorem fold_append {m : Map} : ∀ {ds es : List (Name × TArg)} {m' : Map},
    fold m (ds ++ es) = .ok m' ↔ ∃ m1, fold m ds = .ok m1 ∧ fold m1 es = .ok m'
  | [], es, m' => by simp [fold]
  | d :: ds, es, m' => by
    simp only [List.cons_append, fold]
    cases compat m d.1 d.2 with
    | ok m1 => exact fold_append (m := m1)
    | fail => simp
    | null => simp
    | outside => simp

/-- Merging types: the rules for uniform and varying types. -/
def joinTy (p t : Ty) : Option Ty :=
  if equal p t = true then some p
  else if p.isUniform = true ∧ t.isVarying = true ∧ equal p.asVarying t = true then some t
  else if p.isVarying = true ∧ t.isUniform = true then some p
  else none

def joinTys (p : Ty) : List Ty → Option Ty
  | [] => some p
  | t :: ts =>
    match joinTy p t with
    | some x => joinTys x ts
    | none => none

theorem join_ty (p t : Ty) : join (some (.ty p)) (.ty t) = (joinTy p t).map .ty := by
  simp only [join, Option.map_some, TArg.asTy, joinTy]
  repeat' split
  all_goals simp_all

theorem joins_ty : ∀ (ts : List Ty) (p : Ty),
    joins (some (.ty p)) (ts.map .ty) = (joinTys p ts).map fun t => some (.ty t)
  | [], p => rfl
  | t :: ts, p => by
    simp only [List.map_cons, joins, join_ty, joinTys]
    cases joinTy p t with
    | none => rfl
    | some x => exact joins_ty ts x

/-- What a template parameter becomes when the types `l` have been deduced for
it, in this order: one of them; varying if one of them is; and the same type,
up to variability, as each of them, not counting uniform types that come after
a varying one. -/
structure Accept (l : List Ty) (r : Ty) : Prop where
  mem : r ∈ l
  var : r.isVarying = true ↔ ∃ t ∈ l, t.isVarying = true
  same : ∀ pre t post, l = pre ++ t :: post →
    (t.isVarying = true ∨ ∀ u ∈ pre, u.isVarying = false) → Same r t

theorem joinTy_same {p t : Ty} (hp : Plain p) (ht : Plain t)
    (h : Same p t ∨ (p.isVarying = true ∧ t.isVarying = false)) :
    joinTy p t = some (if p.isVarying = false ∧ t.isVarying = true then t else p) := by
  have e1 := equal_iff_same hp ht
  have e2 := equal_iff_same (plain_asVarying hp) ht
  have e3 : Same p.asVarying t ↔ Same p t :=
    ⟨fun h => same_trans (same_symm (same_asVarying hp)) h,
      fun h => same_trans (same_asVarying hp) h⟩
  have e4 : p.asVarying.isUniform = false :=
    (plain_not_uniform (plain_asVarying hp)).2 (isVarying_asVarying hp)
  have p1 := plain_not_uniform hp
  have p2 := plain_not_varying hp
  have t1 := plain_not_uniform ht
  have t2 := plain_not_varying ht
  simp only [joinTy, e1, e2, e3, e4]
  by_cases hs : Same p t
  · cases hpv : p.isVarying <;> cases htv : t.isVarying <;>
      cases hpu : p.isUniform <;> cases htu : t.isUniform <;> simp_all
  · cases hpv : p.isVarying <;> cases htv : t.isVarying <;>
      cases hpu : p.isUniform <;> cases htu : t.isUniform <;> simp_all

theorem joinTy_none {p t : Ty} (hp : Plain p) (ht : Plain t)
    (h : ¬ (Same p t ∨ (p.isVarying = true ∧ t.isVarying = false))) : joinTy p t = none := by
  have e1 := equal_iff_same hp ht
  have e2 := equal_iff_same (plain_asVarying hp) ht
  have e3 : Same p.asVarying t ↔ Same p t :=
    ⟨fun h => same_trans (same_symm (same_asVarying hp)) h,
      fun h => same_trans (same_asVarying hp) h⟩
  have p2 := plain_not_varying hp
  have t2 := plain_not_varying ht
  simp only [joinTy, e1, e2, e3]
  push Not at h
  cases hpv : p.isVarying <;> cases htv : t.isVarying <;>
      cases hpu : p.isUniform <;> cases htu : t.isUniform <;> simp_all

theorem accept_one (t : Ty) : Accept [t] t where
  mem := by simp
  var := by simp
  same := by
    intro pre x post h _
    rcases pre with _ | ⟨y, pre⟩
    · simp at h; rw [h.1]; exact same_refl _
    · simp at h

/-- The next deduction. -/
theorem accept_step {l : List Ty} {p t r : Ty} (hl : ∀ x ∈ l, Plain x) (ht : Plain t)
    (ha : Accept l p) (hj : joinTy p t = some r) : Accept (l ++ [t]) r := by
  have hp : Plain p := hl p ha.mem
  by_cases hs : Same p t ∨ (p.isVarying = true ∧ t.isVarying = false)
  · rw [joinTy_same hp ht hs] at hj
    have hj := (Option.some.inj hj).symm
    -- `r` is the same as `p`, except that a varying `t` replaces a uniform `p`
    have hrp : Same r p := by
      rw [hj]
      split
      · rcases hs with hs | hs
        · exact same_symm hs
        · simp_all
      · exact same_refl _
    refine ⟨?_, ?_, ?_⟩
    · rw [hj]
      split
      · simp
      · simp [ha.mem]
    · have hv := ha.var
      rw [hj]
      constructor
      · intro h
        split at h
        · exact ⟨t, by simp, h⟩
        · exact ⟨p, by simp [ha.mem], h⟩
      · rintro ⟨x, hx, hxv⟩
        simp only [List.mem_append, List.mem_singleton] at hx
        split
        · rename_i h
          exact h.2
        · rename_i h
          rcases hx with hx | rfl
          · exact hv.2 ⟨x, hx, hxv⟩
          · cases hpv : p.isVarying
            · exact absurd ⟨hpv, hxv⟩ h
            · rfl
    · intro pre x post he hc
      rcases List.eq_nil_or_concat post with rfl | ⟨post, y, rfl⟩
      · have := List.append_inj' he rfl
        simp only [List.cons.injEq, and_true] at this
        obtain ⟨rfl, rfl⟩ := this
        rcases hs with hs | ⟨h1, h2⟩
        · exact same_trans hrp hs
        · rcases hc with hc | hc
          · rw [h2] at hc; cases hc
          · have := hc p ha.mem
            rw [h1] at this; cases this
      · have he : l ++ [t] = (pre ++ x :: post) ++ [y] := by rw [he]; simp
        have := List.append_inj' he rfl
        exact same_trans hrp (ha.same pre x post this.1 hc)
  · rw [joinTy_none hp ht hs] at hj
    cases hj

theorem accept_next {l l' : List Ty} {p t r : Ty} (hl : ∀ x ∈ l, Plain x) (ht : Plain t)
    (ha : Accept l p) (hr : Accept (l ++ t :: l') r) : ∃ x, joinTy p t = some x := by
  have hp : Plain p := hl p ha.mem
  by_cases hs : Same p t ∨ (p.isVarying = true ∧ t.isVarying = false)
  · exact ⟨_, joinTy_same hp ht hs⟩
  · exfalso
    push Not at hs
    have hrt : Same r t := by
      refine hr.same l t l' rfl ?_
      cases htv : t.isVarying
      · right
        intro u hu
        cases huv : u.isVarying
        · rfl
        · exact absurd htv (hs.2 (ha.var.2 ⟨u, hu, huv⟩))
      · exact .inl rfl
    have hrp : Same r p := by
      obtain ⟨pre, post, he⟩ := List.append_of_mem ha.mem
      refine hr.same pre p (post ++ t :: l') (by rw [he]; simp) ?_
      cases hpv : p.isVarying
      · right
        intro u hu
        cases huv : u.isVarying
        · rfl
        · have := ha.var.2 ⟨u, by rw [he]; simp [hu], huv⟩
          rw [hpv] at this; cases this
      · exact .inl rfl
    exact hs.1 (same_trans (same_symm hrp) hrt)

theorem joinTys_accept : ∀ (l' : List Ty) {l : List Ty} {p : Ty}, (∀ x ∈ l ++ l', Plain x) →
    Accept l p → (∀ r, joinTys p l' = some r → Accept (l ++ l') r) ∧
      ((∃ r, Accept (l ++ l') r) → ∃ r, joinTys p l' = some r)
  | [], l, p, hl, ha => by
    refine ⟨?_, fun _ => ⟨p, rfl⟩⟩
    intro r h
    obtain rfl := Option.some.inj h
    simpa using ha
  | t :: l', l, p, hl, ha => by
    have hl0 : ∀ x ∈ l, Plain x := fun x hx => hl x (by simp [hx])
    have ht : Plain t := hl t (by simp)
    have hl1 : ∀ x ∈ (l ++ [t]) ++ l', Plain x := fun x hx => hl x (by simpa using hx)
    have e : (l ++ [t]) ++ l' = l ++ t :: l' := by simp
    constructor
    · intro r h
      simp only [joinTys] at h
      cases hj : joinTy p t with
      | none => rw [hj] at h; cases h
      | some x =>
        rw [hj] at h
        have := (joinTys_accept l' hl1 (accept_step hl0 ht ha hj)).1 r h
        rwa [e] at this
    · rintro ⟨r, hr⟩
      obtain ⟨x, hx⟩ := accept_next hl0 ht ha hr
      simp only [joinTys, hx]
      refine (joinTys_accept l' hl1 (accept_step hl0 ht ha hx)).2 ⟨r, ?_⟩
      rwa [e]

theorem joinTys_iff {p : Ty} {l : List Ty} (hl : ∀ x ∈ p :: l, Plain x) :
    (∀ r, joinTys p l = some r → Accept (p :: l) r) ∧
      ((∃ r, Accept (p :: l) r) → ∃ r, joinTys p l = some r) :=
  joinTys_accept l (l := [p]) hl (accept_one p)

/-! ## The steps of the deduction -/

theorem value_iff {a t : Ty} (h : Plain a.refTarget) : Value a t ↔ t = valueOf a := by
  have key : ∀ {b : Ty}, Plain b → (Value b t ↔ t = match b with
      | .array e _ =>
        (Ty.ptr e .uniform false (decide (0 < (Ty.array e 0).soaWidth)) false 0).asNonConst
      | b => b.asNonConst) := by
    intro b hb
    cases b with
    | array e n =>
      have hs : (Ty.array e 0).soaWidth = 0 := by
        have := plain_bound (t := .array e 0) hb
        rcases this with h | h <;> simp [Ty.soaWidth, h]
      simp only [hs, Nat.lt_irrefl, decide_false, Ty.asNonConst]
      constructor
      · intro h
        cases h with
        | array => rfl
        | other h => exact absurd rfl (h e n)
      · rintro rfl
        exact .array
    | ref => simp [Plain] at hb
    | func => simp [Plain] at hb
    | _ =>
      simp only
      constructor
      · intro h
        cases h with
        | other => rfl
      · rintro rfl
        exact .other (by simp) (by simp)
  cases a with
  | ref u v c n =>
    simp only [Ty.refTarget] at h
    rw [show (Value (.ref u v c n) t ↔ Value u t) from
      ⟨fun h => by cases h with
        | ref h => exact h
        | other _ h => exact absurd rfl (h u v c n), .ref⟩, key h]
    rfl
  | _ => exact key h

theorem adjust_passed {p p' : Par} {a a' : Ty} (ha : Plain a.refTarget) (h : Passed p a p' a') :
    adjust p a = (p', a') := by
  cases h with
  | byRef => rfl
  | toRef h =>
    cases a with
    | ref u v c n => exact absurd rfl (h u v c n)
    | _ => rfl
  | parm h => rw [value_iff ha] at h; subst h; rfl
  | ptr h => rw [value_iff ha] at h; subst h; rfl
  | vec h => rw [value_iff ha] at h; subst h; rfl

theorem passed_ref (p : Par) (a : Ty) : Passed (.ref p) a p a.refTarget := by
  cases a with
  | ref u v c n => exact .byRef
  | _ => exact .toRef (by simp)

theorem fromTable_ok {v : Var} {t d : Ty} (h : Plain t) :
    fromTable v t = .ok d ↔ match v with
      | .uniform => t.isUniform = true ∧ d = t.asVarying
      | .varying => d = t.asUniform
      | _ => d = t := by
  have h1 := plain_not_uniform h
  have h2 := plain_not_varying h
  cases v with
  | uniform =>
    simp only [fromTable, true_and, reduceCtorEq, false_and, if_false]
    cases hv : t.isVarying
    · have hu := h2.1 hv
      simp only [Bool.false_eq_true, if_false, hu, if_true, true_and]
      cases t with
      | func => simp [Plain] at h
      | _ => exact ⟨fun h => (Out.ok.inj h).symm, fun h => h ▸ rfl⟩
    · have hu := h1.2 hv
      simp [hu]
  | varying =>
    simp only [fromTable, true_and, reduceCtorEq, false_and, if_false]
    cases hv : t.isVarying
    · have hu := h2.1 hv
      simp only [Bool.false_eq_true, if_false, Out.ok.injEq, asUniform_self h hu]
      exact eq_comm
    · simp only [if_true, Out.ok.injEq]
      exact eq_comm
  | soa w => simp only [fromTable, reduceCtorEq, false_and, if_false, Out.ok.injEq]; exact eq_comm
  | unbound =>
    simp only [fromTable, reduceCtorEq, false_and, if_false, Out.ok.injEq]; exact eq_comm

theorem plain_not_ref {t : Ty} (h : Plain t) : Overload.isRef t = false := by
  cases t <;> simp_all [Plain, Overload.isRef]

theorem deduceParam_ok : ∀ {p : Par} {a : Ty} {n : Name} {d : Ty},
    (∀ n v c t, Faces p a n v c t → Plain t) →
    (deduceParam p a = .ok (n, d) ↔ ∃ v c t, Faces p a n v c t ∧ Table v c t d)
  | .parm k v c, a, n, d, h => by
    have ha := h k v c a .here
    have ht : Plain (if c && a.isConst then a.asNonConst else a) := by
      split
      · exact plain_asNonConst ha
      · exact ha
    simp only [deduceParam, plain_not_ref ha, Bool.not_false, Bool.and_true]
    constructor
    · intro hd
      split at hd
      · rename_i t hf
        obtain ⟨rfl, rfl⟩ := Prod.mk.inj (Out.ok.inj hd)
        exact ⟨v, c, a, .here, (fromTable_ok ht).1 hf⟩
      · cases hd
      · cases hd
      · cases hd
    · rintro ⟨v', c', t, hf, hT⟩
      cases hf
      rw [(fromTable_ok ht).2 hT]
  | .ptr b v c, a, n, d, h => by
    cases a with
    | ptr u w q s f as =>
      simp only [deduceParam]
      rw [deduceParam_ok fun n v c t hf => h n v c t (.ptr hf)]
      refine exists_congr fun _ => exists_congr fun _ => exists_congr fun _ => and_congr_left' ?_
      exact ⟨.ptr, fun h => by cases h; assumption⟩
    | _ =>
      simp only [deduceParam, reduceCtorEq, false_iff]
      rintro ⟨_, _, _, h, _⟩
      cases h
  | .ref b, a, n, d, h => by
    cases a with
    | ref u w q as =>
      simp only [deduceParam]
      rw [deduceParam_ok fun n v c t hf => h n v c t (.ref hf)]
      refine exists_congr fun _ => exists_congr fun _ => exists_congr fun _ => and_congr_left' ?_
      exact ⟨.ref, fun h => by cases h; assumption⟩
    | _ =>
      simp only [deduceParam, reduceCtorEq, false_iff]
      rintro ⟨_, _, _, h, _⟩
      cases h
  | .con t, a, n, d, h => by
    simp only [deduceParam, reduceCtorEq, false_iff]
    rintro ⟨_, _, _, h, _⟩
    cases h
  | .vec b k, a, n, d, h => by
    simp only [deduceParam, reduceCtorEq, false_iff]
    rintro ⟨_, _, _, h, _⟩
    cases h
  | .array b k, a, n, d, h => by
    simp only [deduceParam, reduceCtorEq, false_iff]
    rintro ⟨_, _, _, h, _⟩
    cases h

theorem fold_one {m m' : Map} {n : Name} {d : TArg} :
    fold m [(n, d)] = .ok m' ↔ compat m n d = .ok m' := by
  simp only [fold]
  cases compat m n d <;> simp

/-- `Passed` for the parameters that are dependent. -/
theorem adjust_cases (p : Par) (a : Ty) (ha : Plain a.refTarget) :
    Passed p a (adjust p a).1 (adjust p a).2 ∨
      (∀ p' a', ¬ Passed p a p' a') ∧ ((∃ t, p = .con t) ∨ (∃ b k, p = .vec b k ∧
        ∀ n v c, b ≠ .parm n v c) ∨ ∃ b k, p = .array b k) := by
  have hv := (value_iff (t := valueOf a) ha).2 rfl
  cases p with
  | ref p => exact .inl (passed_ref p a)
  | parm n v c => exact .inl (.parm hv)
  | ptr b v c => exact .inl (.ptr hv)
  | vec b k =>
    cases b with
    | parm n v c => exact .inl (.vec hv)
    | _ => exact .inr ⟨fun p' a' h => (by cases h), .inr (.inl ⟨_, _, rfl, by simp⟩)⟩
  | con t => exact .inr ⟨fun p' a' h => (by cases h), .inl ⟨t, rfl⟩⟩
  | array b k => exact .inr ⟨fun p' a' h => (by cases h), .inr (.inr ⟨b, k, rfl⟩)⟩

theorem deduceVector_ok {m m' : Map} {b : Par} {k : Count} {e : Ty} {j : Nat}
    (h : ∀ n v c, b = .parm n v c → Plain e) :
    deduceVector m b k e j = .ok m' ↔ ∃ n v c x d, b = .parm n v c ∧ k = .sym x ∧
      Table v c e d ∧ fold m [(n, .ty d), (x.take 15, .num .int32 j)] = .ok m' := by
  cases b with
  | parm n v c =>
    have he := h n v c rfl
    cases k with
    | fixed i => simp [deduceVector]
    | sym x =>
      have hf : ∀ n' v' c' t', Faces (.parm n v c) e n' v' c' t' → Plain t' := by
        intro n' v' c' t' hf
        cases hf
        exact he
      constructor
      · intro hd
        simp only [deduceVector] at hd
        split at hd
        · rename_i n' t hdp
          obtain ⟨v', c', t', hfa, hT⟩ := (deduceParam_ok hf).1 hdp
          cases hfa
          refine ⟨n, v, c, x, t, rfl, rfl, hT, ?_⟩
          simp only [fold]
          split at hd
          · rename_i m1 hc
            rw [hc]
            simp only
            rw [show compat m1 (x.take 15) (.num .int32 j) = .ok m' from hd]
          · cases hd
          · cases hd
          · cases hd
        · cases hd
        · cases hd
        · cases hd
      · rintro ⟨n', v', c', x', d, hb, hk, hT, hfold⟩
        cases hb
        cases hk
        simp only [deduceVector, (deduceParam_ok hf).2 ⟨v, c, e, .here, hT⟩]
        simp only [fold] at hfold
        split at hfold
        · rename_i m1 hc
          rw [hc]
          simp only [countString]
          split at hfold
          · rename_i m2 hc2
            rw [hc2, Out.ok.inj hfold]
          · cases hfold
          · cases hfold
          · cases hfold
        · cases hfold
        · cases hfold
        · cases hfold
  | _ => simp [deduceVector]

theorem deduceOne_ok {m m' : Map} {p : Par} {a : Ty} (ha : Plain a.refTarget)
    (h : ∀ n v c t, Facing p a n v c t → Plain t) :
    deduceOne m p a = .ok m' ↔ ∃ ds, Yields p a ds ∧ fold m ds = .ok m' := by
  rcases adjust_cases p a ha with hp | ⟨hno, hp⟩
  · cases hadj : adjust p a with
    | mk p' a' =>
    rw [hadj] at hp
    simp only at hp
    have chain : (∀ b k, p' ≠ .vec b k) →
        ((match deduceParam p' a' with
          | .ok (n, t) => compat m n (.ty t)
          | .fail => .fail
          | .null => .null
          | .outside => .outside) = .ok m' ↔ ∃ ds, Yields p a ds ∧ fold m ds = .ok m') := by
      intro hnv
      have hf : ∀ n v c t, Faces p' a' n v c t → Plain t :=
        fun n v c t hf => h n v c t (.chain hp hf)
      constructor
      · intro hd
        split at hd
        · rename_i n t hdp
          obtain ⟨v, c, t', hfa, hT⟩ := (deduceParam_ok hf).1 hdp
          exact ⟨_, .chain hp hfa hT, fold_one.2 hd⟩
        · cases hd
        · cases hd
        · cases hd
      · rintro ⟨ds, hY, hfold⟩
        cases hY with
        | chain hp' hfa hT =>
          have := adjust_passed ha hp'
          rw [hadj] at this
          cases this
          rw [(deduceParam_ok hf).2 ⟨_, _, _, hfa, hT⟩]
          exact fold_one.1 hfold
        | vec hp' hT =>
          have := adjust_passed ha hp'
          rw [hadj] at this
          cases this
          exact absurd rfl (hnv _ _)
    unfold deduceOne
    rw [hadj]
    cases p' with
    | vec b k =>
      cases a' with
      | vec e j =>
        simp only
        have he : ∀ n v c, b = .parm n v c → (∃ x, k = .sym x) → Plain e := by
          rintro n v c rfl ⟨x, rfl⟩
          exact h n v c e (.vec hp)
        by_cases hk : ∃ x, k = .sym x
        · rw [deduceVector_ok fun n v c hb => he n v c hb hk]
          constructor
          · rintro ⟨n, v, c, x, d, rfl, rfl, hT, hf⟩
            exact ⟨_, .vec hp hT, hf⟩
          · rintro ⟨ds, hY, hf⟩
            cases hY with
            | chain hp' hfa hT =>
              have := adjust_passed ha hp'
              rw [hadj] at this
              cases this
              cases hfa
            | vec hp' hT =>
              have := adjust_passed ha hp'
              rw [hadj] at this
              cases this
              exact ⟨_, _, _, _, _, rfl, rfl, hT, hf⟩
        · cases k with
          | sym x => exact absurd ⟨x, rfl⟩ hk
          | fixed i =>
            have : deduceVector m b (.fixed i) e j = .fail := by cases b <;> rfl
            rw [this]
            simp only [reduceCtorEq, false_iff]
            rintro ⟨ds, hY, hf⟩
            cases hY with
            | chain hp' hfa hT =>
              have := adjust_passed ha hp'
              rw [hadj] at this
              cases this
              cases hfa
            | vec hp' hT =>
              have := adjust_passed ha hp'
              rw [hadj] at this
              cases this
      | _ =>
        simp only [reduceCtorEq, false_iff]
        rintro ⟨ds, hY, hf⟩
        cases hY with
        | chain hp' hfa hT =>
          have := adjust_passed ha hp'
          rw [hadj] at this
          cases this
          cases hfa
        | vec hp' hT =>
          have := adjust_passed ha hp'
          rw [hadj] at this
          cases this
    | _ => exact chain (by simp)
  · have hnY : ¬ ∃ ds, Yields p a ds ∧ fold m ds = .ok m' := by
      rintro ⟨ds, hY, _⟩
      cases hY with
      | chain hp' => exact hno _ _ hp'
      | vec hp' => exact hno _ _ hp'
    simp only [hnY, iff_false]
    intro hd
    rcases hp with ⟨t, rfl⟩ | ⟨b, k, rfl, hb⟩ | ⟨b, k, rfl⟩
    · simp [deduceOne, adjust, Par.nonConst, deduceParam] at hd
    · simp only [deduceOne, adjust, Par.nonConst] at hd
      split at hd
      · rename_i b' c' e k' hq
        simp only [Prod.mk.injEq, Par.vec.injEq] at hq
        obtain ⟨⟨h1, h2⟩, h3⟩ := hq
        cases b with
        | parm n v c => exact hb n v c rfl
        | _ => subst h1; simp [Par.nonConst, deduceVector] at hd
      · cases hd
      · rename_i hno1 hno2 hq
        simp only [Prod.mk.injEq] at hq
        exact hno2 _ _ hq.1.symm
    · simp [deduceOne, adjust, Par.nonConst, deduceParam] at hd

theorem argsOk_tail {p : Par} {ps : List Par} {as : List Ty} (h : ArgsOk (p :: ps) as) :
    ArgsOk ps as.tail := by
  intro i q a hq ha
  refine h (i + 1) q a (by simpa using hq) ?_
  cases as <;> simp_all

theorem deduceAll_ok : ∀ {ps : List Par} {as : List Ty} {m m' : Map}, ArgsOk ps as →
    (deduceAll m ps as = .ok m' ↔ ∃ ds, Tells ps as ds ∧ fold m ds = .ok m')
  | [], as, m, m', _ => by
    simp only [deduceAll]
    constructor
    · intro h
      exact ⟨[], .nil, h⟩
    · rintro ⟨ds, h, h'⟩
      cases h
      exact h'
  | p :: ps, as, m, m', h => by
    simp only [deduceAll]
    by_cases hd : p.dep = true
    · simp only [hd, if_true]
      cases as with
      | nil =>
        simp only [reduceCtorEq, false_iff]
        rintro ⟨ds, h, _⟩
        cases h with
        | skip h' => rw [hd] at h'; cases h'
      | cons a as =>
        have h0 := h 0 p a rfl rfl
        have ht : ArgsOk ps as := argsOk_tail h
        simp only
        constructor
        · intro hr
          cases h1 : deduceOne m p a with
          | ok m1 =>
            rw [h1] at hr
            obtain ⟨d, hY, hf⟩ := (deduceOne_ok h0.1 h0.2.1).1 h1
            obtain ⟨ds, hT, hf'⟩ := (deduceAll_ok ht).1 hr
            exact ⟨d ++ ds, .cons hd hY hT, fold_append.2 ⟨m1, hf, hf'⟩⟩
          | fail => rw [h1] at hr; cases hr
          | null => rw [h1] at hr; cases hr
          | outside => rw [h1] at hr; cases hr
        · rintro ⟨ds, hT, hf⟩
          cases hT with
          | skip h' => rw [hd] at h'; cases h'
          | cons _ hY hT =>
            obtain ⟨m1, hf1, hf2⟩ := fold_append.1 hf
            rw [(deduceOne_ok h0.1 h0.2.1).2 ⟨_, hY, hf1⟩]
            exact (deduceAll_ok ht).2 ⟨_, hT, hf2⟩
    · have hd' : p.dep = false := by simpa using hd
      rw [if_neg hd, deduceAll_ok (argsOk_tail h)]
      constructor
      · rintro ⟨ds, hT, hf⟩
        exact ⟨ds, .skip hd' hT, hf⟩
      · rintro ⟨ds, hT, hf⟩
        cases hT with
        | skip _ hT => exact ⟨ds, hT, hf⟩
        | cons h' => exact absurd h' hd

/-! ## Names -/

theorem faces_resolve {m : Map} : ∀ {p : Par} {a t : Ty} {n : Name} {v : Var} {c : Bool},
    Faces (p.resolve m) a n v c t → p.resolve m = p ∧ p.tyNames = [n] ∧ p.valNames = [] ∧ m n = none
  | .con _, _, _, _, _, _, h => by cases h
  | .parm k w q, a, t, n, v, c, h => by
    simp only [Par.resolve] at h ⊢
    split at h
    · cases h
    · rename_i hm
      cases h
      exact ⟨rfl, rfl, rfl, by simpa [Map.ty] using hm⟩
  | .ptr b w q, a, t, n, v, c, h => by
    simp only [Par.resolve] at h
    cases h with
    | ptr h =>
      have := faces_resolve h
      exact ⟨by simp only [Par.resolve, this.1], this.2⟩
  | .ref b, a, t, n, v, c, h => by
    simp only [Par.resolve] at h
    cases h with
    | ref h =>
      have := faces_resolve h
      exact ⟨by simp only [Par.resolve, this.1], this.2⟩
  | .vec _ _, _, _, _, _, _, h => by cases h
  | .array _ _, _, _, _, _, _, h => by cases h

theorem count_sym {m : Map} {k : Count} {x : Name} (h : k.resolve m = .sym x) : k = .sym x := by
  cases k with
  | fixed i => cases h
  | sym y =>
    simp only [Count.resolve] at h
    split at h
    · split at h
      · cases h
      · exact h
    · exact h

theorem parm_resolve {m : Map} {b : Par} {n : Name} {v : Var} {c : Bool}
    (h : b.resolve m = .parm n v c) : b = .parm n v c ∧ m n = none := by
  cases b with
  | parm k w q =>
    simp only [Par.resolve] at h
    split at h
    · cases h
    · rename_i hm
      cases h
      exact ⟨rfl, by simpa [Map.ty] using hm⟩
  | _ => simp [Par.resolve] at h

/-- A parameter that tells something had nothing to resolve. -/
theorem yields_resolve {m : Map} {p : Par} {a : Ty} {ds : List (Name × TArg)}
    (h : Yields (p.resolve m) a ds) : p.resolve m = p ∧ ∀ d ∈ ds,
      (∃ t, d.2 = .ty t ∧ d.1 ∈ p.tyNames ∧ m d.1 = none) ∨
      (∃ x k, x ∈ p.valNames ∧ d = (x.take 15, .num .int32 k)) := by
  cases h with
  | @chain p' a' t d n v c hp hf hT =>
    have key : p.resolve m = p ∧ n ∈ p.tyNames ∧ m n = none := by
      cases p with
      | con t => simp only [Par.resolve] at hp; cases hp
      | parm k w q =>
        simp only [Par.resolve] at hp ⊢
        split at hp
        · cases hp
        · rename_i hm
          cases hp
          cases hf
          exact ⟨rfl, by simp [Par.tyNames], by simpa [Map.ty] using hm⟩
      | ptr b w q =>
        simp only [Par.resolve] at hp
        cases hp with
        | ptr hv =>
          cases hf with
          | ptr hf =>
            have := faces_resolve hf
            exact ⟨by simp only [Par.resolve, this.1], by simp [Par.tyNames, this.2.1], this.2.2.2⟩
      | ref b =>
        simp only [Par.resolve] at hp
        have : Faces (b.resolve m) a' n v c t := by cases hp <;> exact hf
        have := faces_resolve this
        exact ⟨by simp only [Par.resolve, this.1], by simp [Par.tyNames, this.2.1], this.2.2.2⟩
      | vec b k =>
        simp only [Par.resolve] at hp
        generalize hb : b.resolve m = b' at hp
        cases hp with
        | vec => cases hf
      | array b k => simp only [Par.resolve] at hp; cases hp
    refine ⟨key.1, fun x hx => ?_⟩
    simp only [List.mem_singleton] at hx
    subst hx
    exact .inl ⟨d, rfl, key.2⟩
  | @vec t d n x v c k hp hT =>
    have key : p.resolve m = p ∧ n ∈ p.tyNames ∧ m n = none ∧ x ∈ p.valNames := by
      cases p with
      | con t => simp only [Par.resolve] at hp; cases hp
      | parm k w q => 
        simp only [Par.resolve] at hp
        split at hp <;> cases hp
      | ptr b w q => simp only [Par.resolve] at hp; cases hp
      | ref b =>
        simp only [Par.resolve] at hp
        have hb : b.resolve m = .vec (.parm n v c) (.sym x) := by
          generalize b.resolve m = b' at hp
          cases hp <;> rfl
        cases b with
        | vec b k =>
          simp only [Par.resolve, Par.vec.injEq] at hb
          obtain ⟨rfl, hm⟩ := parm_resolve hb.1
          obtain rfl := count_sym hb.2
          refine ⟨?_, by simp [Par.tyNames], hm, by simp [Par.valNames]⟩
          show Par.ref (.vec (Par.resolve m (.parm n v c)) (Count.resolve m (.sym x))) = _
          rw [hb.1, hb.2]
        | parm k w q => simp only [Par.resolve] at hb; split at hb <;> cases hb
        | _ => simp [Par.resolve] at hb
      | vec b k =>
        simp only [Par.resolve] at hp
        generalize hb : b.resolve m = b' at hp
        generalize hk : k.resolve m = k' at hp
        cases hp with
        | vec =>
          obtain ⟨rfl, hm⟩ := parm_resolve hb
          obtain rfl := count_sym hk
          refine ⟨?_, by simp [Par.tyNames], hm, by simp [Par.valNames]⟩
          simp only [Par.resolve] at hb ⊢
          rw [hb, hk]
      | array b k => simp only [Par.resolve] at hp; cases hp
    refine ⟨key.1, fun y hy => ?_⟩
    simp only [List.mem_cons, List.not_mem_nil, or_false] at hy
    rcases hy with rfl | rfl
    · exact .inl ⟨d, rfl, key.2.1, key.2.2.1⟩
    · exact .inr ⟨x, k, key.2.2.2, rfl⟩

/-- Where the deductions come from. -/
theorem tells_mem : ∀ {ps : List Par} {as : List Ty} {ds : List (Name × TArg)}, Tells ps as ds →
    ∀ d ∈ ds, ∃ (i : Nat) (p : Par) (a : Ty) (e : List (Name × TArg)),
      ps[i]? = some p ∧ as[i]? = some a ∧ p.dep = true ∧ Yields p a e ∧ d ∈ e
  | _, _, _, .nil, d, hd => by cases hd
  | p :: ps, as, ds, .skip _ h, d, hd => by
    obtain ⟨i, q, a, e, h1, h2, h3⟩ := tells_mem h d hd
    refine ⟨i + 1, q, a, e, by simpa using h1, ?_, h3⟩
    cases as <;> simp_all
  | p :: ps, a :: as, _, .cons (d := e) hdep hY h, d, hd => by
    rcases List.mem_append.1 hd with hd | hd
    · exact ⟨0, p, a, e, rfl, rfl, hdep, hY, hd⟩
    · obtain ⟨i, q, a', e', h1, h2, h3⟩ := tells_mem h d hd
      exact ⟨i + 1, q, a', e', by simpa using h1, by simpa using h2, h3⟩

theorem tells_at : ∀ {ps : List Par} {as : List Ty} {ds : List (Name × TArg)}, Tells ps as ds →
    ∀ {i : Nat} {p : Par} {a : Ty}, ps[i]? = some p → as[i]? = some a → p.dep = true →
    ∃ e, Yields p a e ∧ ∀ d ∈ e, d ∈ ds
  | _, _, _, .nil, i, p, a, hp, _, _ => by simp at hp
  | q :: ps, as, ds, .skip hq h, i, p, a, hp, ha, hd => by
    cases i with
    | zero => simp at hp; subst hp; rw [hd] at hq; cases hq
    | succ i =>
      refine tells_at h (by simpa using hp) ?_ hd
      cases as <;> simp_all
  | q :: ps, b :: as, _, .cons (d := e) hdep hY h, i, p, a, hp, ha, hd => by
    cases i with
    | zero =>
      simp at hp ha
      subst hp ha
      exact ⟨e, hY, fun d hd => by simp [hd]⟩
    | succ i =>
      obtain ⟨e', h1, h2⟩ := tells_at h (by simpa using hp) (by simpa using ha) hd
      exact ⟨e', h1, fun d hd => by simp [h2 d hd]⟩

/-! ## The list of template arguments -/

theorem explicitMap_none {tps : List TParam} {n : Name} (h : ∀ p ∈ tps, p.name ≠ n) :
    ∀ {as : List TArg}, explicitMap tps as n = none := by
  induction tps with
  | nil => intro as; rfl
  | cons p ps ih =>
    intro as
    cases as with
    | nil => rfl
    | cons a as =>
      simp only [explicitMap]
      rw [if_neg fun h' => h p (by simp) h'.symm]
      exact ih fun q hq => h q (by simp [hq])

/-- The arguments of the instance: the explicit ones as they are, then what has
been deduced. -/
theorem complete_spec {m : Map} : ∀ {tps : List TParam} {ex targs : List TArg},
    (tps.map TParam.name).Nodup → complete m tps ex = some targs →
    (∀ n a, explicitMap tps ex n = some a → explicitMap tps targs n = some a) ∧
    (∀ p ∈ tps, explicitMap tps ex p.name = none →
      (p.value = none → ∃ a, m p.name = some a ∧
        explicitMap tps targs p.name = some (.ty a.asTy)) ∧
      (∀ b, p.value = some b → ∃ b' k, m p.name = some (.num b' k) ∧
        explicitMap tps targs p.name = some (.num b' k)))
  | [], ex, targs, _, h => by
    refine ⟨?_, by simp⟩
    intro n a hn
    simp [explicitMap] at hn
  | p :: ps, a :: as, targs, hnd, h => by
    simp only [complete, Option.map_eq_some_iff] at h
    obtain ⟨l, hl, rfl⟩ := h
    simp only [List.map_cons, List.nodup_cons] at hnd
    have ih := complete_spec hnd.2 hl
    constructor
    · intro n b
      simp only [explicitMap]
      split
      · exact id
      · exact ih.1 n b
    · intro q hq hn
      simp only [explicitMap] at hn ⊢
      split at hn
      · cases hn
      · rename_i hne
        rw [if_neg hne]
        rcases List.mem_cons.1 hq with rfl | hq
        · exact absurd rfl hne
        · exact ih.2 q hq hn
  | p :: ps, [], targs, hnd, h => by
    simp only [List.map_cons, List.nodup_cons] at hnd
    have hnone : ∀ n, explicitMap (p :: ps) [] n = none := fun n => rfl
    refine ⟨fun n a hn => by simp [explicitMap] at hn, fun q hq _ => ?_⟩
    have hne : ∀ r ∈ ps, r.name ≠ p.name := fun r hr he =>
      hnd.1 (by rw [← he]; exact List.mem_map_of_mem hr)
    simp only [complete] at h
    split at h
    · rename_i a hv hm
      simp only [Option.map_eq_some_iff] at h
      obtain ⟨l, hl, rfl⟩ := h
      have ih := complete_spec hnd.2 hl
      rcases List.mem_cons.1 hq with rfl | hq
      · refine ⟨fun _ => ⟨a, hm, by simp [explicitMap]⟩, fun b hb => ?_⟩
        rw [hv] at hb; cases hb
      · simp only [explicitMap]
        rw [if_neg (hne q hq)]
        refine ih.2 q hq ?_
        cases ps <;> rfl
    · rename_i b b' k hv hm
      simp only [Option.map_eq_some_iff] at h
      obtain ⟨l, hl, rfl⟩ := h
      have ih := complete_spec hnd.2 hl
      rcases List.mem_cons.1 hq with rfl | hq
      · refine ⟨fun h => ?_, fun _ _ => ⟨b', k, hm, by simp [explicitMap]⟩⟩
        rw [hv] at h; cases h
      · simp only [explicitMap]
        rw [if_neg (hne q hq)]
        refine ih.2 q hq ?_
        cases ps <;> rfl
    · cases h

theorem complete_exists {m : Map} : ∀ {tps : List TParam} {ex : List TArg},
    (∀ p ∈ tps.drop ex.length, (p.value = none → ∃ a, m p.name = some a) ∧
      (∀ b, p.value = some b → ∃ b' k, m p.name = some (.num b' k))) →
    ∃ targs, complete m tps ex = some targs
  | [], ex, _ => ⟨[], rfl⟩
  | p :: ps, a :: as, h => by
    obtain ⟨l, hl⟩ := complete_exists (tps := ps) (ex := as) (by simpa using h)
    exact ⟨a :: l, by simp [complete, hl]⟩
  | p :: ps, [], h => by
    have hp := h p (by simp)
    obtain ⟨l, hl⟩ := complete_exists (m := m) (tps := ps) (ex := [])
      (fun q hq => h q (by simp at hq ⊢; exact .inr hq))
    cases hv : p.value with
    | none =>
      obtain ⟨a, ha⟩ := hp.1 hv
      exact ⟨.ty a.asTy :: l, by simp [complete, hv, ha, hl]⟩
    | some b =>
      obtain ⟨b', k, ha⟩ := hp.2 b hv
      exact ⟨.num b' k :: l, by simp [complete, hv, ha, hl]⟩

theorem nodup_value : ∀ {tps : List TParam} {n : Name} {u w : Option Basic},
    (tps.map TParam.name).Nodup → (⟨n, u⟩ : TParam) ∈ tps → (⟨n, w⟩ : TParam) ∈ tps → u = w
  | p :: ps, n, u, w, hnd, hu, hw => by
    simp only [List.map_cons, List.nodup_cons] at hnd
    rcases List.mem_cons.1 hu with hu | hu' <;> rcases List.mem_cons.1 hw with hw | hw'
    · rw [← hu] at hw; cases hw; rfl
    · subst hu; exact hnd.1.elim (List.mem_map.2 ⟨⟨n, w⟩, hw', rfl⟩)
    · subst hw; exact hnd.1.elim (List.mem_map.2 ⟨⟨n, u⟩, hu', rfl⟩)
    · exact nodup_value hnd.2 hu' hw'

end Ispc.Templ
