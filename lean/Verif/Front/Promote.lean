import Mathlib.Algebra.Order.Field.Rat
import Mathlib.Algebra.Order.Field.Power
import Mathlib.Tactic.Linarith
import Mathlib.Tactic.NormNum
import Mathlib.Tactic.FieldSimp
import Verif.Front.Types

/-!
# C29: the common type of two operands

`Type::MoreGeneralType` picks the type to which the operands of a binary or
`?:` expression are converted.  The model is `moreGeneral`; the specification
is the precedence list in docs/ispc.rst:3052-3053, the sets of values of the
atomic types (`Holds`), and the uniform/varying rule.
-/

namespace Ispc.Promote
open Ispc.Types

/-! ## Lemmas on type equality -/

mutual
theorem checkEqBody_refl (ic : Bool) : ∀ t, checkEqBody ic t t = true
  | .atomic .. => by simp [checkEqBody]
  | .enum .. => by simp [checkEqBody]
  | .ptr b .. => by simp [checkEqBody, constOk, checkEqBody_refl ic b]
  | .array b n => by simp [checkEqBody, constOk, checkEqBody_refl ic b]
  | .vec b n => by simp [checkEqBody, constOk, checkEqBody_refl ic b]
  | .struct .. => by simp [checkEqBody]
  | .ref t .. => by simp [checkEqBody, constOk, checkEqBody_refl ic t]
  | .func fl r ps => by simp [checkEqBody, constOk, checkEqBody_refl ic r, checkEqs_refl ic ps]
theorem checkEqs_refl (ic : Bool) : ∀ ts, checkEqs ic ts ts = true
  | .nil => rfl
  | .cons t ts => by simp [checkEqs, constOk, checkEqBody_refl ic t, checkEqs_refl ic ts]
end

theorem constOk_symm {ic : Bool} {a b : Ty} (h : constOk ic a b = true) :
    constOk ic b a = true := by
  simp only [constOk, Bool.or_eq_true, decide_eq_true_eq] at *
  exact h.imp_right Eq.symm

theorem constOk_trans {ic : Bool} {a b c : Ty} (h : constOk ic a b = true)
    (h' : constOk ic b c = true) : constOk ic a c = true := by
  simp only [constOk, Bool.or_eq_true, decide_eq_true_eq] at *
  rcases h with h | h
  · exact Or.inl h
  · exact h'.imp_right h.trans

mutual
theorem checkEqBody_symm (ic : Bool) :
    ∀ a b, checkEqBody ic a b = true → checkEqBody ic b a = true
  | .atomic .., b, h => by cases b <;> simp_all [checkEqBody]
  | .enum .., b, h => by cases b <;> simp_all [checkEqBody]
  | .struct .., b, h => by cases b <;> simp_all [checkEqBody]
  | .ptr t .., b, h => by
    cases b <;> simp [checkEqBody] at h ⊢
    refine ⟨⟨⟨⟨?_, ?_⟩, ?_⟩, ?_⟩, constOk_symm h.2.1, checkEqBody_symm ic t _ h.2.2⟩
    · exact h.1.1.1.1.symm
    · exact h.1.1.1.2.symm
    · exact h.1.1.2.symm
    · exact h.1.2.symm
  | .array t .., b, h => by
    cases b <;> simp [checkEqBody] at h ⊢
    exact ⟨h.1.symm, constOk_symm h.2.1, checkEqBody_symm ic t _ h.2.2⟩
  | .vec t .., b, h => by
    cases b <;> simp [checkEqBody] at h ⊢
    exact ⟨h.1.symm, constOk_symm h.2.1, checkEqBody_symm ic t _ h.2.2⟩
  | .ref t .., b, h => by
    cases b <;> simp [checkEqBody] at h ⊢
    exact ⟨h.1.symm, constOk_symm h.2.1, checkEqBody_symm ic t _ h.2.2⟩
  | .func fl r ps, b, h => by
    cases b <;> simp [checkEqBody] at h ⊢
    exact ⟨⟨⟨constOk_symm h.1.1.1, checkEqBody_symm ic r _ h.1.1.2⟩, h.1.2.symm⟩,
      checkEqs_symm ic ps _ h.2⟩
theorem checkEqs_symm (ic : Bool) :
    ∀ a b, checkEqs ic a b = true → checkEqs ic b a = true
  | .nil, b, h => by cases b <;> simp_all [checkEqs]
  | .cons t ts, b, h => by
    cases b <;> simp [checkEqs] at h ⊢
    exact ⟨⟨constOk_symm h.1.1, checkEqBody_symm ic t _ h.1.2⟩, checkEqs_symm ic ts _ h.2⟩
end

mutual
theorem checkEqBody_trans (ic : Bool) : ∀ a b c,
    checkEqBody ic a b = true → checkEqBody ic b c = true → checkEqBody ic a c = true
  | .atomic .., b, c, h, h' => by cases b <;> cases c <;> simp_all [checkEqBody]
  | .enum .., b, c, h, h' => by cases b <;> cases c <;> simp_all [checkEqBody]
  | .struct .., b, c, h, h' => by cases b <;> cases c <;> simp_all [checkEqBody]
  | .ptr t .., b, c, h, h' => by
    cases b <;> simp [checkEqBody] at h
    cases c <;> simp [checkEqBody] at h' ⊢
    exact ⟨⟨⟨⟨h.1.1.1.1.trans h'.1.1.1.1, h.1.1.1.2.trans h'.1.1.1.2⟩, h.1.1.2.trans h'.1.1.2⟩,
      h.1.2.trans h'.1.2⟩, constOk_trans h.2.1 h'.2.1, checkEqBody_trans ic t _ _ h.2.2 h'.2.2⟩
  | .array t .., b, c, h, h' => by
    cases b <;> simp [checkEqBody] at h
    cases c <;> simp [checkEqBody] at h' ⊢
    exact ⟨h.1.trans h'.1, constOk_trans h.2.1 h'.2.1, checkEqBody_trans ic t _ _ h.2.2 h'.2.2⟩
  | .vec t .., b, c, h, h' => by
    cases b <;> simp [checkEqBody] at h
    cases c <;> simp [checkEqBody] at h' ⊢
    exact ⟨h.1.trans h'.1, constOk_trans h.2.1 h'.2.1, checkEqBody_trans ic t _ _ h.2.2 h'.2.2⟩
  | .ref t .., b, c, h, h' => by
    cases b <;> simp [checkEqBody] at h
    cases c <;> simp [checkEqBody] at h' ⊢
    exact ⟨h.1.trans h'.1, constOk_trans h.2.1 h'.2.1, checkEqBody_trans ic t _ _ h.2.2 h'.2.2⟩
  | .func fl r ps, b, c, h, h' => by
    cases b <;> simp [checkEqBody] at h
    cases c <;> simp [checkEqBody] at h' ⊢
    exact ⟨⟨⟨constOk_trans h.1.1.1 h'.1.1.1, checkEqBody_trans ic r _ _ h.1.1.2 h'.1.1.2⟩,
      h.1.2.trans h'.1.2⟩, checkEqs_trans ic ps _ _ h.2 h'.2⟩
theorem checkEqs_trans (ic : Bool) : ∀ a b c,
    checkEqs ic a b = true → checkEqs ic b c = true → checkEqs ic a c = true
  | .nil, b, c, h, h' => by cases b <;> cases c <;> simp_all [checkEqs]
  | .cons t ts, b, c, h, h' => by
    cases b <;> simp [checkEqs] at h
    cases c <;> simp [checkEqs] at h' ⊢
    exact ⟨⟨constOk_trans h.1.1 h'.1.1, checkEqBody_trans ic t _ _ h.1.2 h'.1.2⟩,
      checkEqs_trans ic ts _ _ h.2 h'.2⟩
end

mutual
theorem checkEqBody_mono : ∀ a b, checkEqBody false a b = true → checkEqBody true a b = true
  | .atomic .., b, h => by cases b <;> simp_all [checkEqBody]
  | .enum .., b, h => by cases b <;> simp_all [checkEqBody]
  | .struct .., b, h => by cases b <;> simp_all [checkEqBody]
  | .ptr t .., b, h => by
    cases b <;> simp [checkEqBody] at h ⊢
    exact ⟨h.1, by simp [constOk], checkEqBody_mono t _ h.2.2⟩
  | .array t .., b, h => by
    cases b <;> simp [checkEqBody] at h ⊢
    exact ⟨h.1, by simp [constOk], checkEqBody_mono t _ h.2.2⟩
  | .vec t .., b, h => by
    cases b <;> simp [checkEqBody] at h ⊢
    exact ⟨h.1, by simp [constOk], checkEqBody_mono t _ h.2.2⟩
  | .ref t .., b, h => by
    cases b <;> simp [checkEqBody] at h ⊢
    exact ⟨h.1, by simp [constOk], checkEqBody_mono t _ h.2.2⟩
  | .func fl r ps, b, h => by
    cases b <;> simp [checkEqBody] at h ⊢
    exact ⟨⟨⟨by simp [constOk], checkEqBody_mono r _ h.1.1.2⟩, h.1.2⟩, checkEqs_mono ps _ h.2⟩
theorem checkEqs_mono : ∀ a b, checkEqs false a b = true → checkEqs true a b = true
  | .nil, b, h => by cases b <;> simp_all [checkEqs]
  | .cons t ts, b, h => by
    cases b <;> simp [checkEqs] at h ⊢
    exact ⟨⟨by simp [constOk], checkEqBody_mono t _ h.1.2⟩, checkEqs_mono ts _ h.2⟩
end

theorem equal_refl (t : Ty) : equal t t = true := by
  simp [equal, checkEq, constOk, checkEqBody_refl]

theorem equalIC_refl (t : Ty) : equalIC t t = true := by
  simp [equalIC, checkEq, constOk, checkEqBody_refl]

theorem equal_symm {a b : Ty} (h : equal a b = true) : equal b a = true := by
  simp only [equal, checkEq, Bool.and_eq_true] at *
  exact ⟨constOk_symm h.1, checkEqBody_symm _ _ _ h.2⟩

theorem equalIC_symm {a b : Ty} (h : equalIC a b = true) : equalIC b a = true := by
  simp only [equalIC, checkEq, Bool.and_eq_true] at *
  exact ⟨constOk_symm h.1, checkEqBody_symm _ _ _ h.2⟩

theorem equal_comm (a b : Ty) : equal a b = equal b a :=
  Bool.eq_iff_iff.2 ⟨equal_symm, equal_symm⟩

theorem equalIC_comm (a b : Ty) : equalIC a b = equalIC b a :=
  Bool.eq_iff_iff.2 ⟨equalIC_symm, equalIC_symm⟩

theorem equalIC_trans {a b c : Ty} (h : equalIC a b = true) (h' : equalIC b c = true) :
    equalIC a c = true := by
  simp only [equalIC, checkEq, Bool.and_eq_true] at *
  exact ⟨constOk_trans h.1 h'.1, checkEqBody_trans _ _ _ _ h.2 h'.2⟩

theorem equal_trans {a b c : Ty} (h : equal a b = true) (h' : equal b c = true) :
    equal a c = true := by
  simp only [equal, checkEq, Bool.and_eq_true] at *
  exact ⟨constOk_trans h.1 h'.1, checkEqBody_trans _ _ _ _ h.2 h'.2⟩

theorem equal_equalIC {a b : Ty} (h : equal a b = true) : equalIC a b = true := by
  simp only [equal, equalIC, checkEq, Bool.and_eq_true] at *
  exact ⟨by simp [constOk], checkEqBody_mono _ _ h.2⟩

/-! ## The model -/

/-- Outcome of `MoreGeneralType`: a type, a compile error (`nullptr`), or a
failed assertion, which ends the compiler (src/util.h:114). -/
inductive Res
  | ok (t : Ty)
  | error
  | crash
  deriving DecidableEq, Repr

/-- The replacement of function types by pointers, src/type.cpp:3217-3227.
Once both are replaced, the recursive call does not enter that branch again. -/
def decay : Ty → Ty
  | .func fl r ps => uniformPtr (.func fl r ps)
  | t => t

/-- The promotion of both types to varying, src/type.cpp:3229-3234. -/
def promote (force : Bool) (t0 t1 : Ty) : Ty × Ty :=
  if t0.isVarying || t1.isVarying || force then (t0.asVarying, t1.asVarying) else (t0, t1)

/-- `lVectorConvert`, src/type.cpp:3188-3211; `none` is the error. -/
def vectorConvert (t : Ty) (vecSize : Nat) : Option Ty :=
  match t with
  | .vec b n => if n = vecSize then some (.vec b n) else none
  | .atomic b v c => some (.vec (.atomic b v c) vecSize)
  | _ => none

/-- The construction of the vector type from the common type of the elements,
src/type.cpp:3295-3304, 3311-3317 and 3322-3328. -/
def vecResult (n : Nat) : Res → Res
  | .ok (.atomic b v c) => .ok (.vec (.atomic b v c) n)
  | .ok _ => .crash
  | .error => .error
  | .crash => .crash

/-- The treatment of enums and atomic types, src/type.cpp:3333-3378. -/
def atomicOrEnum (t0 t1 : Ty) : Res :=
  match t0.refTarget, t1.refTarget with
  | .enum _ _ v0 _, .enum _ _ v1 _ =>
    if (v0 = .varying ↔ v1 = .varying) then
      .ok (.atomic .uint32 (if v0 = .varying then .varying else .uniform) false)
    else .crash
  | .enum .., .atomic b v c => .ok (.atomic b v c)
  | .enum .., _ => .error
  | .atomic b v c, .enum .. => .ok (.atomic b v c)
  | _, .enum .. => .error
  | .atomic b0 v0 c0, .atomic b1 v1 c1 =>
    if b0.ord ≥ b1.ord then .ok (.atomic b0 v0 c0) else .ok (.atomic b1 v1 c1)
  | _, _ => .error

/-- `MoreGeneralType` after the promotion to varying and to vectors,
src/type.cpp:3246-3378; `rec` is the recursive call on element types.  Neither
type is a function type here, so lines 3251-3258 are left out. -/
def tail (rec : Ty → Ty → Res) (t0 t1 : Ty) : Res :=
  if equal t0 t1 then .ok t0
  else if equalIC t0 t1 then .ok t0.asNonConst
  else match t0, t1 with
    | .ptr b0 v0 c0 s0 f0 a0, .ptr b1 v1 c1 s1 f1 a1 =>
      if isVoidPointer (.ptr b0 v0 c0 s0 f0 a0) then .ok (.ptr b1 v1 c1 s1 f1 a1)
      else if isVoidPointer (.ptr b1 v1 c1 s1 f1 a1) then .ok (.ptr b0 v0 c0 s0 f0 a0)
      else .error
    | t0, t1 =>
      match t0.refTarget, t1.refTarget with
      | .vec e0 n0, .vec e1 n1 => if n0 = n1 then vecResult n0 (rec e0 e1) else .error
      | .vec e0 n0, _ => vecResult n0 (rec e0 t1)
      | _, .vec e1 n1 => vecResult n1 (rec t0 e1)
      | _, _ => atomicOrEnum t0 t1

/-- The recursive calls of `MoreGeneralType` on element types (no `vecSize`).
`Nat` bounds the depth; `elem_fuel` shows that it is never reached. -/
def elem : Nat → Bool → Ty → Ty → Res
  | 0, _, _, _ => .crash
  | k + 1, force, t0, t1 =>
    tail (elem k force) (promote force (decay t0) (decay t1)).1
      (promote force (decay t0) (decay t1)).2

/-- How deeply vectors and references are nested. -/
def rank : Ty → Nat
  | .vec b _ => rank b + 1
  | .ref t _ _ _ => rank t + 1
  | _ => 0

/-- `Type::MoreGeneralType`, src/type.cpp:3213-3379.  Source positions and
error texts are left out. -/
def moreGeneral (force : Bool) (vecSize : Nat) (t0 t1 : Ty) : Res :=
  let p := promote force (decay t0) (decay t1)
  let k := rank t0 + rank t1 + 1
  if vecSize > 0 then
    match vectorConvert p.1 vecSize, vectorConvert p.2 vecSize with
    | some a, some b => tail (elem k force) a b
    | _, _ => .error
  else tail (elem k force) p.1 p.2


/-! ## Operand types -/

/-- Types an operand has once references are removed (`BinaryExpr::TypeCheck`
and `SelectExpr::TypeCheck` strip them): uniform or varying, not a frozen
slice.  What a pointer points to is not restricted.  Function names are
covered through `decay`. -/
def Operand : Ty → Prop
  | .atomic _ v _ => v = .uniform ∨ v = .varying
  | .enum _ _ v _ => v = .uniform ∨ v = .varying
  | .ptr _ v _ _ f _ => (v = .uniform ∨ v = .varying) ∧ f = false
  | .array b _ => Operand b
  | .vec b _ => Operand b
  | .struct _ v _ => v = .uniform ∨ v = .varying
  | .ref .. => False
  | .func .. => False

theorem operand_var : ∀ {t : Ty}, Operand t → t.variability = .uniform ∨ t.variability = .varying
  | .atomic .., h => h
  | .enum .., h => h
  | .ptr .., h => h.1
  | .array b _, h => operand_var (t := b) h
  | .vec b _, h => operand_var (t := b) h
  | .struct .., h => h

theorem operand_asVarying : ∀ {t : Ty}, Operand t →
    Operand t.asVarying ∧ t.asVarying.variability = .varying
  | .atomic .., _ => ⟨Or.inr rfl, rfl⟩
  | .enum .., _ => ⟨Or.inr rfl, rfl⟩
  | .ptr .., h => ⟨⟨Or.inr rfl, h.2⟩, rfl⟩
  | .array b _, h => by
    have ih := operand_asVarying (t := b) h
    by_cases hv : b.isVarying = true
    · simp only [Ty.asVarying, hv, if_true]
      exact ⟨h, by simpa [Ty.isVarying, Ty.variability] using hv⟩
    · simp only [Ty.asVarying, hv]
      exact ih
  | .vec b _, h => by
    have ih := operand_asVarying (t := b) h
    by_cases hv : b.isVarying = true
    · simp only [Ty.asVarying, hv, if_true]
      exact ⟨h, by simpa [Ty.isVarying, Ty.variability] using hv⟩
    · simp only [Ty.asVarying, hv]
      exact ih
  | .struct .., _ => ⟨Or.inr rfl, rfl⟩

theorem nonConst_equalIC : ∀ {t : Ty}, Operand t → equalIC t.asNonConst t = true
  | .atomic .., _ => by simp [Ty.asNonConst, equalIC, checkEq, constOk, checkEqBody]
  | .enum .., _ => by simp [Ty.asNonConst, equalIC, checkEq, constOk, checkEqBody]
  | .ptr b v c s f a, h => by
    have hf : f = false := h.2
    subst hf
    cases c <;>
      simp [Ty.asNonConst, equalIC, checkEq, constOk, checkEqBody, checkEqBody_refl]
  | .array b _, h => by
    have ih := nonConst_equalIC (t := b) h
    simpa [Ty.asNonConst, equalIC, checkEq, constOk, checkEqBody] using ih
  | .vec b _, h => by
    have ih := nonConst_equalIC (t := b) h
    simpa [Ty.asNonConst, equalIC, checkEq, constOk, checkEqBody] using ih
  | .struct .., _ => by simp [Ty.asNonConst, equalIC, checkEq, constOk, checkEqBody]

theorem nonConst_var : ∀ {t : Ty}, Operand t → t.asNonConst.variability = t.variability
  | .atomic .., _ => rfl
  | .enum .., _ => rfl
  | .ptr b v c s f a, _ => by cases c <;> rfl
  | .array b _, h => nonConst_var (t := b) h
  | .vec b _, h => nonConst_var (t := b) h
  | .struct .., _ => rfl

theorem promote_pair {force : Bool} {a b : Ty} (ha : Operand a) (hb : Operand b) :
    Operand (promote force a b).1 ∧ Operand (promote force a b).2 ∧
      (promote force a b).1.variability = (promote force a b).2.variability ∧
      (promote force a b).1.variability =
        if a.isVarying || b.isVarying || force then .varying else .uniform := by
  unfold promote
  have va := operand_var ha
  have vb := operand_var hb
  split
  · obtain ⟨h1, h2⟩ := operand_asVarying ha
    obtain ⟨h3, h4⟩ := operand_asVarying hb
    exact ⟨h1, h3, h2.trans h4.symm, h2⟩
  · rename_i h
    simp only [Bool.not_eq_true, Bool.or_eq_false_iff, Ty.isVarying, decide_eq_false_iff_not] at h
    have ea := va.resolve_right h.1.1
    have eb := vb.resolve_right h.1.2
    exact ⟨ha, hb, ea.trans eb.symm, ea⟩

theorem rank_asVarying : ∀ t : Ty, rank t.asVarying = rank t
  | .atomic .. => rfl
  | .enum .. => rfl
  | .ptr .. => rfl
  | .array b _ => by simp only [Ty.asVarying]; split <;> rfl
  | .vec b _ => by
    simp only [Ty.asVarying]
    split
    · rfl
    · simp [rank, rank_asVarying b]
  | .struct .. => rfl
  | .ref t .. => by
    simp only [Ty.asVarying]
    split
    · rfl
    · simp [rank, rank_asVarying t]
  | .func .. => rfl

theorem rank_decay (t : Ty) : rank (decay t) = rank t := by
  cases t <;> rfl

theorem rank_promote (force : Bool) (a b : Ty) :
    rank (promote force a b).1 = rank a ∧ rank (promote force a b).2 = rank b := by
  unfold promote
  split <;> simp [rank_asVarying]

theorem rank_refTarget (t : Ty) : rank t.refTarget ≤ rank t := by
  cases t <;> simp [Ty.refTarget, rank]

theorem tail_congr {r r' : Ty → Ty → Res} {a b : Ty}
    (h : ∀ x y, rank x + rank y < rank a + rank b → r x y = r' x y) :
    tail r a b = tail r' a b := by
  have ha := rank_refTarget a
  have hb := rank_refTarget b
  unfold tail
  split
  · rfl
  split
  · rfl
  split
  · rfl
  · split
    · rename_i e0 n0 e1 n1 h0 h1
      rw [h0] at ha; rw [h1] at hb
      simp only [rank] at ha hb
      rw [h e0 e1 (by omega)]
    · rename_i e0 n0 h0 _
      rw [h0] at ha
      simp only [rank] at ha
      rw [h e0 b (by omega)]
    · rename_i e1 n1 h1 _
      rw [h1] at hb
      simp only [rank] at hb
      rw [h a e1 (by omega)]
    · rfl

/-- The depth bound in `elem` does not matter. -/
theorem elem_fuel (force : Bool) : ∀ k t0 t1, rank t0 + rank t1 < k →
    elem k force t0 t1 = elem (k + 1) force t0 t1
  | 0, _, _, h => by omega
  | k + 1, t0, t1, h => by
    show tail (elem k force) _ _ = tail (elem (k + 1) force) _ _
    refine tail_congr fun x y hxy => ?_
    have h1 := rank_promote force (decay t0) (decay t1)
    rw [h1.1, h1.2, rank_decay, rank_decay] at hxy
    exact elem_fuel force k x y (by omega)

/-! ## Symmetry -/

/-- The same outcome, where types may differ in `const`. -/
def Sim : Res → Res → Prop
  | .ok a, .ok b => equalIC a b = true
  | .error, .error => True
  | .crash, .crash => True
  | _, _ => False

theorem sim_vecResult {n : Nat} {r r' : Res} (h : Sim r r') :
    Sim (vecResult n r) (vecResult n r') := by
  cases r with
  | error => cases r' <;> simp_all [Sim, vecResult]
  | crash => cases r' <;> simp_all [Sim, vecResult]
  | ok a =>
    cases r' with
    | error => simp [Sim] at h
    | crash => simp [Sim] at h
    | ok b =>
      simp only [Sim] at h
      cases a <;> cases b <;>
        simp_all [Sim, vecResult, equalIC, checkEq, checkEqBody, constOk]

theorem atomicOrEnum_comm {a b : Ty} (ha : Operand a) (hb : Operand b)
    (hv : a.variability = b.variability) (hne : equalIC a b = false) :
    Sim (atomicOrEnum a b) (atomicOrEnum b a) := by
  cases a <;> cases b <;>
    simp_all [atomicOrEnum, Ty.refTarget, Sim, Operand, Ty.variability,
      equalIC_refl]
  rename_i b0 v0 c0 b1 v1 c1
  rcases Nat.lt_trichotomy b0.ord b1.ord with h | h | h
  · simp [Nat.not_le.2 h, Nat.le_of_lt h, equalIC_refl]
  · exfalso
    have : b0 = b1 := by cases b0 <;> cases b1 <;> simp_all [Basic.ord]
    subst this
    simp [equalIC, checkEq, constOk, checkEqBody] at hne
  · simp [Nat.not_le.2 h, Nat.le_of_lt h, equalIC_refl]

theorem void_void {b0 b1 : Ty} {v0 v1 : Var} {c0 c1 s0 s1 f0 f1 : Bool} {a0 a1 : Nat}
    (hv : v0 = v1)
    (h0 : isVoidPointer (.ptr b0 v0 c0 s0 f0 a0) = true)
    (h1 : isVoidPointer (.ptr b1 v1 c1 s1 f1 a1) = true) :
    equalIC (.ptr b0 v0 c0 s0 f0 a0) (.ptr b1 v1 c1 s1 f1 a1) = true := by
  have h := equalIC_trans h0 (equalIC_symm h1)
  subst hv
  simpa [Ty.asUniform, equalIC, checkEq, constOk, checkEqBody] using h

theorem tail_comm {r : Ty → Ty → Res} {a b : Ty} (ha : Operand a) (hb : Operand b)
    (hv : a.variability = b.variability)
    (hr : ∀ x y, Operand x → Operand y → Sim (r x y) (r y x)) :
    Sim (tail r a b) (tail r b a) := by
  unfold tail
  rw [equal_comm b a, equalIC_comm b a]
  by_cases he : equal a b = true
  · simp only [he, if_true]
    exact equal_equalIC he
  · simp only [he]
    by_cases hi : equalIC a b = true
    · simp only [hi, if_true]
      exact equalIC_trans (nonConst_equalIC ha)
        (equalIC_trans hi (equalIC_symm (nonConst_equalIC hb)))
    · simp only [hi]
      have hn : equalIC a b = false := by simpa using hi
      have hat := atomicOrEnum_comm ha hb hv hn
      cases a <;> cases b <;>
        simp only [Ty.refTarget, Operand, Bool.false_eq_true, if_false] at * <;>
        first
        | exact hat
        | exact sim_vecResult (hr _ _ ha hb)
        | skip
      · rename_i b0 v0 c0 s0 f0 a0 b1 v1 c1 s1 f1 a1
        have hv' : v0 = v1 := hv
        by_cases h0 : isVoidPointer (.ptr b0 v0 c0 s0 f0 a0) = true
        · by_cases h1 : isVoidPointer (.ptr b1 v1 c1 s1 f1 a1) = true
          · exact absurd (void_void hv' h0 h1) hi
          · simp only [h0, h1, if_true, if_false, Bool.false_eq_true]
            exact equalIC_refl _
        · by_cases h1 : isVoidPointer (.ptr b1 v1 c1 s1 f1 a1) = true
          · simp only [h0, h1, if_true, if_false, Bool.false_eq_true]
            exact equalIC_refl _
          · simp only [h0, h1, if_false, Bool.false_eq_true]
            trivial
      · rename_i b0 n0 b1 n1
        by_cases hn : n0 = n1
        · subst hn
          simp only [if_true]
          exact sim_vecResult (hr _ _ ha hb)
        · rw [if_neg hn, if_neg (Ne.symm hn)]
          trivial

theorem sim_crash : Sim .crash .crash := trivial

theorem promote_swap (force : Bool) (a b : Ty) :
    promote force b a = ((promote force a b).2, (promote force a b).1) := by
  unfold promote
  rw [Bool.or_comm b.isVarying a.isVarying]
  split <;> rfl

theorem decay_operand {t : Ty} (h : Operand t) : decay t = t := by
  cases t <;> simp_all [Operand, decay]

theorem elem_comm (force : Bool) : ∀ k x y, Operand x → Operand y →
    Sim (elem k force x y) (elem k force y x)
  | 0, _, _, _, _ => trivial
  | k + 1, x, y, hx, hy => by
    simp only [elem, decay_operand hx, decay_operand hy, promote_swap force x y]
    obtain ⟨h1, h2, h3, _⟩ := promote_pair (force := force) hx hy
    exact tail_comm h1 h2 h3 (elem_comm force k)

theorem vectorConvert_some {t u : Ty} {n : Nat} (h : vectorConvert t n = some u)
    (ht : Operand t) : Operand u ∧ u.variability = t.variability := by
  cases t <;> simp [vectorConvert] at h
  · subst h; exact ⟨ht, rfl⟩
  · obtain ⟨_, rfl⟩ := h; exact ⟨ht, rfl⟩

/-- **C29, symmetry.**  Exchanging the operands gives the same common type, up
to `const`, and the same error; for any request of the caller to make the
result varying or a short vector. -/
theorem common_type_symm (force : Bool) (vecSize : Nat) (t0 t1 : Ty)
    (h0 : Operand (decay t0)) (h1 : Operand (decay t1)) :
    Sim (moreGeneral force vecSize t0 t1) (moreGeneral force vecSize t1 t0) := by
  unfold moreGeneral
  rw [promote_swap force (decay t0) (decay t1), Nat.add_comm (rank t1) (rank t0)]
  obtain ⟨ha, hb, hv, _⟩ := promote_pair (force := force) h0 h1
  dsimp only
  split
  · cases e0 : vectorConvert (promote force (decay t0) (decay t1)).1 vecSize with
    | none => cases vectorConvert (promote force (decay t0) (decay t1)).2 vecSize <;> trivial
    | some a =>
      cases e1 : vectorConvert (promote force (decay t0) (decay t1)).2 vecSize with
      | none => trivial
      | some b =>
        obtain ⟨p1, p2⟩ := vectorConvert_some e0 ha
        obtain ⟨q1, q2⟩ := vectorConvert_some e1 hb
        exact tail_comm p1 q1 (by rw [p2, q2, hv]) (elem_comm force _)
  · exact tail_comm ha hb hv (elem_comm force _)

/-- The hypotheses of `common_type_symm` hold for a short vector and a scalar,
and the common type exists. -/
example : Operand (decay (.vec (.atomic .float .uniform false) 3)) ∧
    Operand (decay (.atomic .int32 .varying true)) ∧
    moreGeneral false 0 (.vec (.atomic .float .uniform false) 3) (.atomic .int32 .varying true)
      = .ok (.vec (.atomic .float .varying false) 3) := by
  refine ⟨Or.inl rfl, Or.inr rfl, ?_⟩
  decide +kernel

/-! ## Idempotence -/

theorem asVarying_of_varying : ∀ {t : Ty}, t.isVarying = true → t.asVarying = t
  | .atomic b v c, h => by
    have : v = .varying := of_decide_eq_true h
    subst this; rfl
  | .enum n p v c, h => by
    have : v = .varying := of_decide_eq_true h
    subst this; rfl
  | .ptr b v c s f a, h => by
    have : v = .varying := of_decide_eq_true h
    subst this; rfl
  | .array b n, h => by
    have : b.isVarying = true := h
    simp [Ty.asVarying, this]
  | .vec b n, h => by
    have : b.isVarying = true := h
    simp [Ty.asVarying, this]
  | .struct n v c, h => by
    have : v = .varying := of_decide_eq_true h
    subst this; rfl
  | .ref t v c a, h => by
    have : v = .varying := of_decide_eq_true h
    simp [Ty.asVarying, this]
  | .func .., _ => rfl

/-- **C29, idempotence.**  Two operands of the same type keep it. -/
theorem common_type_self (t : Ty) : moreGeneral false 0 t t = .ok (decay t) := by
  have hp : promote false (decay t) (decay t) = (decay t, decay t) := by
    unfold promote
    split
    · rename_i h
      have : (decay t).isVarying = true := by simpa using h
      rw [asVarying_of_varying this]
    · rfl
  simp [moreGeneral, hp, tail, equal_refl]

/-! ## Uniform and varying -/

theorem atomicOrEnum_var {a b t : Ty} (ha : Operand a) (hb : Operand b)
    (hv : a.variability = b.variability) (h : atomicOrEnum a b = .ok t) :
    t.variability = a.variability := by
  cases a <;> cases b <;>
    simp_all [atomicOrEnum, Ty.refTarget, Operand, Ty.variability]
  · split at h <;> cases h <;> rfl
  · subst h; rfl
  · subst h; rfl
  · subst h
    show (if _ then Var.varying else Var.uniform) = _
    rcases hb with hb | hb <;> simp [hb]

theorem vecResult_var {n : Nat} {r : Res} {t : Ty} (h : vecResult n r = .ok t) :
    ∃ u, r = .ok u ∧ t.variability = u.variability := by
  cases r with
  | ok u => cases u <;> simp [vecResult] at h; subst h; exact ⟨_, rfl, rfl⟩
  | error => simp [vecResult] at h
  | crash => simp [vecResult] at h

theorem tail_var {r : Ty → Ty → Res} {a b t : Ty} (ha : Operand a) (hb : Operand b)
    (hv : a.variability = b.variability)
    (hr : ∀ x y u, Operand x → Operand y → x.variability = a.variability →
      y.variability = a.variability → r x y = .ok u → u.variability = a.variability)
    (h : tail r a b = .ok t) : t.variability = a.variability := by
  unfold tail at h
  split at h
  · cases h; rfl
  split at h
  · cases h; exact nonConst_var ha
  have hat := fun h => atomicOrEnum_var (t := t) ha hb hv h
  have hvec : ∀ n x y, Operand x → Operand y → x.variability = a.variability →
      y.variability = a.variability → vecResult n (r x y) = .ok t →
      t.variability = a.variability := by
    intro n x y hx hy ex ey hw
    obtain ⟨u, hu, e⟩ := vecResult_var hw
    exact e.trans (hr x y u hx hy ex ey hu)
  cases a <;> cases b <;> simp only [Ty.refTarget] at h <;>
    first
    | exact hat h
    | exact hvec _ _ _ (by exact ha) (by exact hb) (by rfl) (by exact hv.symm) h
    | exact absurd ha id
    | exact absurd hb id
    | skip
  · split at h
    · cases h; exact hv.symm
    · split at h
      · cases h; rfl
      · cases h
  · split at h
    · exact hvec _ _ _ (by exact ha) (by exact hb) (by rfl) (by exact hv.symm) h
    · cases h

theorem elem_var (force : Bool) : ∀ k x y u, Operand x → Operand y → elem k force x y = .ok u →
    u.variability = if x.isVarying || y.isVarying || force then .varying else .uniform
  | 0, _, _, _, _, _, h => by simp [elem] at h
  | k + 1, x, y, u, hx, hy, h => by
    simp only [elem, decay_operand hx, decay_operand hy] at h
    obtain ⟨h1, h2, h3, h4⟩ := promote_pair (force := force) hx hy
    rw [← h4]
    refine tail_var h1 h2 h3 (fun p q w hp hq ep eq hw => ?_) h
    have := elem_var force k p q w hp hq hw
    rw [this, h4]
    rw [h4] at ep eq
    simp only [Ty.isVarying, ep, eq]
    cases force <;> by_cases hc : (decide (x.variability = .varying) ||
      decide (y.variability = .varying)) = true <;> simp_all

/-- **C29, varying.**  The common type is varying exactly when an operand is
varying or the caller asks for it (`?:` with a varying test), and uniform
otherwise. -/
theorem common_type_varying (force : Bool) (vecSize : Nat) (t0 t1 t : Ty)
    (h0 : Operand (decay t0)) (h1 : Operand (decay t1))
    (h : moreGeneral force vecSize t0 t1 = .ok t) :
    t.variability =
      if (decay t0).variability = .varying ∨ (decay t1).variability = .varying ∨ force = true
      then .varying else .uniform := by
  obtain ⟨ha, hb, hv, h4⟩ := promote_pair (force := force) h0 h1
  have h4' : (promote force (decay t0) (decay t1)).1.variability =
      if (decay t0).variability = .varying ∨ (decay t1).variability = .varying ∨ force = true
      then .varying else .uniform := by
    rw [h4]; simp only [Ty.isVarying, Bool.or_eq_true, decide_eq_true_eq, or_assoc]
  rw [← h4']
  have hrec : ∀ (k : Nat) (a : Ty), a.variability = (promote force (decay t0) (decay t1)).1.variability →
      ∀ x y u, Operand x → Operand y → x.variability = a.variability →
      y.variability = a.variability → elem k force x y = .ok u →
      u.variability = a.variability := by
    intro k a hav x y u hx hy ex ey hu
    have := elem_var force k x y u hx hy hu
    rw [this]
    simp only [Ty.isVarying, ex, ey, hav, h4]
    cases force <;> by_cases hc : (decide ((decay t0).variability = .varying) ||
      decide ((decay t1).variability = .varying)) = true <;> simp_all
  unfold moreGeneral at h
  dsimp only at h
  split at h
  · cases e0 : vectorConvert (promote force (decay t0) (decay t1)).1 vecSize with
    | none => rw [e0] at h; simp at h
    | some a =>
      cases e1 : vectorConvert (promote force (decay t0) (decay t1)).2 vecSize with
      | none => rw [e0, e1] at h; simp at h
      | some b =>
        rw [e0, e1] at h
        obtain ⟨p1, p2⟩ := vectorConvert_some e0 ha
        obtain ⟨q1, q2⟩ := vectorConvert_some e1 hb
        rw [← p2]
        exact tail_var p1 q1 (by rw [p2, q2, hv]) (hrec _ a p2) h
  · exact tail_var ha hb hv (hrec _ _ rfl) h

/-- The hypotheses of `common_type_varying` hold for a varying `?:` on two
uniform pointers, one of them `void *`. -/
example :
    moreGeneral true 0 (.ptr (.atomic .void .uniform false) .uniform false false false 0)
      (.ptr (.atomic .float .varying false) .uniform false false false 0)
      = .ok (.ptr (.atomic .float .varying false) .varying false false false 0) := by
  decide +kernel

/-! ## Atomic types: the documented precedence -/

/-- The place in the list of docs/ispc.rst:3052-3053 (a higher number is "more
general").  `void` and `int1` are not in the list. -/
def docRank : Basic → Option Nat
  | .bool => some 0 | .int8 => some 1 | .uint8 => some 2 | .int16 => some 3
  | .uint16 => some 4 | .float16 => some 5 | .int32 => some 6 | .uint32 => some 7
  | .float => some 8 | .int64 => some 9 | .uint64 => some 10 | .double => some 11
  | .void => none | .int1 => none

/-- The basic type `MoreGeneralType` settles on. -/
def pick (b0 b1 : Basic) : Basic := if b0.ord ≥ b1.ord then b0 else b1

theorem elem_atomic (force : Bool) (k : Nat) (b0 b1 : Basic) (v0 v1 : Var) (c0 c1 : Bool)
    (h0 : v0 = .uniform ∨ v0 = .varying) (h1 : v1 = .uniform ∨ v1 = .varying) :
    ∃ c, elem (k + 1) force (.atomic b0 v0 c0) (.atomic b1 v1 c1) =
      .ok (.atomic (pick b0 b1)
        (if v0 = .varying ∨ v1 = .varying ∨ force = true then .varying else .uniform) c) := by
  have key : ∀ v, ∃ c, tail (elem k force) (.atomic b0 v c0) (.atomic b1 v c1) =
      .ok (.atomic (pick b0 b1) v c) := by
    intro v
    unfold tail
    split
    · rename_i h
      have : b0 = b1 := by
        simp [equal, checkEq, checkEqBody] at h; exact h.2
      subst this
      exact ⟨c0, by simp [pick]⟩
    split
    · rename_i h
      have : b0 = b1 := by
        simp [equalIC, checkEq, checkEqBody] at h; exact h.2
      subst this
      exact ⟨false, by simp [pick, Ty.asNonConst]⟩
    · simp only [Ty.refTarget, atomicOrEnum, pick]
      split
      · exact ⟨c0, rfl⟩
      · exact ⟨c1, rfl⟩
  simp only [elem, decay, promote, Ty.isVarying, Ty.variability, Ty.asVarying]
  rcases h0 with rfl | rfl <;> rcases h1 with rfl | rfl <;> cases force <;> simp [key]

/-- Two scalars of atomic type have a common type: the `pick`ed basic type,
varying if need be. -/
theorem atomic_common (force : Bool) (b0 b1 : Basic) (v0 v1 : Var) (c0 c1 : Bool)
    (h0 : v0 = .uniform ∨ v0 = .varying) (h1 : v1 = .uniform ∨ v1 = .varying) :
    ∃ c, moreGeneral force 0 (.atomic b0 v0 c0) (.atomic b1 v1 c1) =
      .ok (.atomic (pick b0 b1)
        (if v0 = .varying ∨ v1 = .varying ∨ force = true then .varying else .uniform) c) :=
  elem_atomic force 1 b0 b1 v0 v1 c0 c1 h0 h1

/-- **C29, precedence.**  The common type of two scalars, or of a short vector
and a scalar or another short vector of the same length, has the basic type of
one operand, and neither operand stands higher in the documented list.
Missing: `float16` together with `int32` or `uint32`, where the code does the
opposite (`float16_beats_int32`). -/
theorem precedence_partial (force : Bool) (b0 b1 : Basic) (r0 r1 : Nat)
    (h0 : docRank b0 = some r0) (h1 : docRank b1 = some r1)
    (hx : ¬ (b0 = .float16 ∧ (b1 = .int32 ∨ b1 = .uint32)))
    (hy : ¬ (b1 = .float16 ∧ (b0 = .int32 ∨ b0 = .uint32)))
    (v0 v1 : Var) (c0 c1 : Bool)
    (hv0 : v0 = .uniform ∨ v0 = .varying) (hv1 : v1 = .uniform ∨ v1 = .varying) :
    ∃ b v c r, docRank b = some r ∧ (b = b0 ∨ b = b1) ∧ r0 ≤ r ∧ r1 ≤ r ∧
      moreGeneral force 0 (.atomic b0 v0 c0) (.atomic b1 v1 c1) = .ok (.atomic b v c) := by
  obtain ⟨c, hc⟩ := atomic_common force b0 b1 v0 v1 c0 c1 hv0 hv1
  have hb : ∃ r, docRank (pick b0 b1) = some r ∧ r0 ≤ r ∧ r1 ≤ r := by
    revert h0 h1 hx hy
    cases b0 <;> cases b1 <;> simp [docRank, pick, Basic.ord] <;> omega
  obtain ⟨r, hr, hr0, hr1⟩ := hb
  refine ⟨_, _, c, r, hr, ?_, hr0, hr1, hc⟩
  unfold pick; split <;> simp

example : docRank .int64 = some 9 ∧ docRank .float = some 8 ∧
    moreGeneral false 0 (.atomic .int64 .uniform false) (.atomic .float .varying false)
      = .ok (.atomic .int64 .varying false) := by
  refine ⟨rfl, rfl, ?_⟩
  decide +kernel

/-- **C29 fails here**: the documentation puts `int32` above `float16`, but
`float16` is what an `int32` operand is converted to. -/
theorem float16_beats_int32 :
    (∃ r r', docRank .float16 = some r ∧ docRank .int32 = some r' ∧ r < r') ∧
    moreGeneral false 0 (.atomic .float16 .varying false) (.atomic .int32 .varying false)
      = .ok (.atomic .float16 .varying false) := by
  refine ⟨⟨5, 6, rfl, rfl, by omega⟩, ?_⟩
  decide +kernel

/-! ## Short vectors -/

theorem vec_tail {r : Ty → Ty → Res} {n : Nat} {b0 b1 : Basic} {v : Var} {c0 c1 : Bool}
    (hr : ∃ c, r (.atomic b0 v c0) (.atomic b1 v c1) = .ok (.atomic (pick b0 b1) v c)) :
    ∃ c, tail r (.vec (.atomic b0 v c0) n) (.vec (.atomic b1 v c1) n) =
      .ok (.vec (.atomic (pick b0 b1) v c) n) := by
  unfold tail
  split
  · rename_i h
    have : b0 = b1 := by
      simp [equal, checkEq, checkEqBody] at h; exact h.2.2
    subst this
    exact ⟨c0, by simp [pick]⟩
  split
  · rename_i h
    have : b0 = b1 := by
      simp [equalIC, checkEq, checkEqBody] at h; exact h.2.2
    subst this
    exact ⟨false, by simp [pick, Ty.asNonConst]⟩
  · obtain ⟨c, hc⟩ := hr
    exact ⟨c, by simp [Ty.refTarget, hc, vecResult]⟩

/-- The variability of the common type of two operands. -/
def joinVar (force : Bool) (v0 v1 : Var) : Var :=
  if v0 = .varying ∨ v1 = .varying ∨ force = true then .varying else .uniform

theorem joinVar_cases (force : Bool) (v0 v1 : Var) :
    (joinVar force v0 v1 = .uniform ∧ force = false) ∨ joinVar force v0 v1 = .varying := by
  unfold joinVar
  split
  · exact Or.inr rfl
  · rename_i h
    exact Or.inl ⟨rfl, by cases force <;> simp_all⟩

theorem elem_atomic_same (force : Bool) (k : Nat) (b0 b1 : Basic) (v0 v1 : Var) (c0 c1 : Bool) :
    ∃ c, elem (k + 1) force (.atomic b0 (joinVar force v0 v1) c0)
      (.atomic b1 (joinVar force v0 v1) c1) =
      .ok (.atomic (pick b0 b1) (joinVar force v0 v1) c) := by
  rcases joinVar_cases force v0 v1 with ⟨h, rfl⟩ | h
  · rw [h]; simpa using elem_atomic false k b0 b1 _ _ c0 c1 (Or.inl rfl) (Or.inl rfl)
  · rw [h]; simpa using elem_atomic force k b0 b1 _ _ c0 c1 (Or.inr rfl) (Or.inr rfl)

/-- Two short vectors of the same length combine element by element. -/
theorem vector_vector (force : Bool) (n : Nat) (b0 b1 : Basic) (v0 v1 : Var) (c0 c1 : Bool)
    (h0 : v0 = .uniform ∨ v0 = .varying) (h1 : v1 = .uniform ∨ v1 = .varying) :
    ∃ c, moreGeneral force 0 (.vec (.atomic b0 v0 c0) n) (.vec (.atomic b1 v1 c1) n) =
      .ok (.vec (.atomic (pick b0 b1) (joinVar force v0 v1) c) n) := by
  have hp : promote force (decay (.vec (.atomic b0 v0 c0) n)) (decay (.vec (.atomic b1 v1 c1) n))
      = (.vec (.atomic b0 (joinVar force v0 v1) c0) n,
         .vec (.atomic b1 (joinVar force v0 v1) c1) n) := by
    rcases h0 with rfl | rfl <;> rcases h1 with rfl | rfl <;> cases force <;> rfl
  have := vec_tail (n := n) (elem_atomic_same force 2 b0 b1 v0 v1 c0 c1)
  simpa [moreGeneral, hp, rank] using this

/-- A short vector and a scalar: the scalar is converted to the element type. -/
theorem vector_scalar (force : Bool) (n : Nat) (b0 b1 : Basic) (v0 v1 : Var) (c0 c1 : Bool)
    (h0 : v0 = .uniform ∨ v0 = .varying) (h1 : v1 = .uniform ∨ v1 = .varying) :
    ∃ c, moreGeneral force 0 (.vec (.atomic b0 v0 c0) n) (.atomic b1 v1 c1) =
      .ok (.vec (.atomic (pick b0 b1) (joinVar force v0 v1) c) n) := by
  have hp : promote force (decay (.vec (.atomic b0 v0 c0) n)) (decay (.atomic b1 v1 c1))
      = (.vec (.atomic b0 (joinVar force v0 v1) c0) n,
         .atomic b1 (joinVar force v0 v1) c1) := by
    rcases h0 with rfl | rfl <;> rcases h1 with rfl | rfl <;> cases force <;> rfl
  obtain ⟨c, hc⟩ := elem_atomic_same force 1 b0 b1 v0 v1 c0 c1
  refine ⟨c, ?_⟩
  simp only [moreGeneral, hp, rank]
  simp [tail, equal, equalIC, checkEq, checkEqBody, Ty.refTarget, hc, vecResult]

/-- Short vectors of different lengths have no common type. -/
theorem vector_lengths (force : Bool) (n m : Nat) (hnm : n ≠ m) (e0 e1 : Ty) :
    moreGeneral force 0 (.vec e0 n) (.vec e1 m) = .error := by
  have key : ∀ k a b, tail (elem k force) (.vec a n) (.vec b m) = .error := by
    intro k a b
    simp [tail, equal, equalIC, checkEq, checkEqBody, hnm, Ty.refTarget]
  have hv : ∀ e k, ∃ e', Ty.asVarying (.vec e k) = .vec e' k := by
    intro e k
    simp only [Ty.asVarying]
    split <;> exact ⟨_, rfl⟩
  obtain ⟨a, ha⟩ := hv e0 n
  obtain ⟨b, hb⟩ := hv e1 m
  have hp : ∃ a' b', promote force (.vec e0 n) (.vec e1 m) = (.vec a' n, .vec b' m) := by
    unfold promote
    split
    · exact ⟨a, b, by rw [ha, hb]⟩
    · exact ⟨e0, e1, rfl⟩
  obtain ⟨a', b', hp⟩ := hp
  simp [moreGeneral, decay, hp, key]

/-! ## Values -/

/-- The finite values of a basic type as rational numbers: an interval for
integers, `m * 2^e` with a bounded significand and exponent for floating
point.  The specification for "loses no value". -/
def Holds : Basic → ℚ → Prop
  | .int8, q => ∃ n : ℤ, q = n ∧ -2 ^ 7 ≤ n ∧ n < 2 ^ 7
  | .uint8, q => ∃ n : ℤ, q = n ∧ 0 ≤ n ∧ n < 2 ^ 8
  | .int16, q => ∃ n : ℤ, q = n ∧ -2 ^ 15 ≤ n ∧ n < 2 ^ 15
  | .uint16, q => ∃ n : ℤ, q = n ∧ 0 ≤ n ∧ n < 2 ^ 16
  | .int32, q => ∃ n : ℤ, q = n ∧ -2 ^ 31 ≤ n ∧ n < 2 ^ 31
  | .uint32, q => ∃ n : ℤ, q = n ∧ 0 ≤ n ∧ n < 2 ^ 32
  | .int64, q => ∃ n : ℤ, q = n ∧ -2 ^ 63 ≤ n ∧ n < 2 ^ 63
  | .uint64, q => ∃ n : ℤ, q = n ∧ 0 ≤ n ∧ n < 2 ^ 64
  | .float16, q => ∃ m e : ℤ, q = m * 2 ^ e ∧ |m| < 2 ^ 11 ∧ -24 ≤ e ∧ e ≤ 5
  | .float, q => ∃ m e : ℤ, q = m * 2 ^ e ∧ |m| < 2 ^ 24 ∧ -149 ≤ e ∧ e ≤ 104
  | .double, q => ∃ m e : ℤ, q = m * 2 ^ e ∧ |m| < 2 ^ 53 ∧ -1074 ≤ e ∧ e ≤ 971
  | .bool, q => q = 0 ∨ q = 1
  | .int1, q => q = 0 ∨ q = 1
  | .void, _ => False

/-- Signed integers, unsigned integers and floating-point types. -/
inductive Kind
  | signed | unsigned | floating | other
  deriving DecidableEq

/-- The kind of a basic type (specification). -/
def kind : Basic → Kind
  | .int8 => .signed | .int16 => .signed | .int32 => .signed | .int64 => .signed
  | .uint8 => .unsigned | .uint16 => .unsigned | .uint32 => .unsigned | .uint64 => .unsigned
  | .float16 => .floating | .float => .floating | .double => .floating
  | .bool => .other | .int1 => .other | .void => .other

theorem int_in {lo hi lo' hi' : ℤ} {q : ℚ} (h : ∃ n : ℤ, q = n ∧ lo ≤ n ∧ n < hi)
    (hlo : lo' ≤ lo) (hhi : hi ≤ hi') : ∃ n : ℤ, q = n ∧ lo' ≤ n ∧ n < hi' := by
  obtain ⟨n, rfl, h1, h2⟩ := h
  exact ⟨n, rfl, hlo.trans h1, h2.trans_le hhi⟩

theorem float_in {p p' : ℕ} {lo hi lo' hi' : ℤ} {q : ℚ}
    (h : ∃ m e : ℤ, q = m * 2 ^ e ∧ |m| < 2 ^ p ∧ lo ≤ e ∧ e ≤ hi)
    (hp : p ≤ p') (hlo : lo' ≤ lo) (hhi : hi ≤ hi') :
    ∃ m e : ℤ, q = m * 2 ^ e ∧ |m| < 2 ^ p' ∧ lo' ≤ e ∧ e ≤ hi' := by
  obtain ⟨m, e, rfl, h1, h2, h3⟩ := h
  exact ⟨m, e, rfl, h1.trans_le (pow_le_pow_right₀ (by norm_num) hp), hlo.trans h2, h3.trans hhi⟩

theorem int_in_float {p : ℕ} {lo hi lo' hi' : ℤ} {q : ℚ}
    (h : ∃ n : ℤ, q = n ∧ lo ≤ n ∧ n < hi) (h1 : -2 ^ p < lo) (h2 : hi ≤ 2 ^ p)
    (h3 : lo' ≤ 0) (h4 : 0 ≤ hi') :
    ∃ m e : ℤ, q = m * 2 ^ e ∧ |m| < 2 ^ p ∧ lo' ≤ e ∧ e ≤ hi' := by
  obtain ⟨n, rfl, a, b⟩ := h
  exact ⟨n, 0, by simp, abs_lt.2 ⟨h1.trans_le a, b.trans_le h2⟩, h3, h4⟩

/-- Every value of `a` is a value of `b`. -/
def Fits (a b : Basic) : Prop := ∀ q, Holds a q → Holds b q

/-- **C29, range.**  Among types of the same kind (signed, unsigned, floating
point) the common type holds every value of both operands. -/
theorem same_kind_keeps_values (b0 b1 : Basic) (hk : kind b0 = kind b1)
    (ho : kind b0 ≠ .other) (v0 v1 : Var) (c0 c1 : Bool)
    (hv0 : v0 = .uniform ∨ v0 = .varying) (hv1 : v1 = .uniform ∨ v1 = .varying) :
    ∃ b v c, moreGeneral false 0 (.atomic b0 v0 c0) (.atomic b1 v1 c1) = .ok (.atomic b v c) ∧
      Fits b0 b ∧ Fits b1 b := by
  obtain ⟨c, hc⟩ := atomic_common false b0 b1 v0 v1 c0 c1 hv0 hv1
  refine ⟨_, _, c, hc, ?_⟩
  cases b0 <;> cases b1 <;> simp [kind] at hk ho <;> simp only [pick, Basic.ord] <;>
    norm_num only <;> (try simp only [if_true, if_false]) <;>
    refine ⟨fun q hq => ?_, fun q hq => ?_⟩ <;>
    first
    | exact hq
    | exact int_in hq (by norm_num) (by norm_num)
    | exact float_in hq (by norm_num) (by norm_num) (by norm_num)

/-- Which conversions to a later type of the enumeration keep every value
(the claim of `fits_iff`). -/
def fitsTable : Basic → Basic → Bool
  | .int8, .int16 | .int8, .int32 | .int8, .int64 | .int8, .float16 | .int8, .float
  | .int8, .double => true
  | .uint8, .int16 | .uint8, .uint16 | .uint8, .int32 | .uint8, .uint32 | .uint8, .float16
  | .uint8, .float | .uint8, .int64 | .uint8, .uint64 | .uint8, .double => true
  | .int16, .int32 | .int16, .float | .int16, .int64 | .int16, .double => true
  | .uint16, .int32 | .uint16, .uint32 | .uint16, .float | .uint16, .int64 | .uint16, .uint64
  | .uint16, .double => true
  | .int32, .int64 | .int32, .double => true
  | .uint32, .int64 | .uint32, .uint64 | .uint32, .double => true
  | .float16, .float | .float16, .double => true
  | .float, .double => true
  | _, _ => false

theorem not_float {p : ℕ} {lo hi : ℤ} {n : ℤ} (hodd : n % 2 = 1) (hbig : 2 ^ p ≤ |n|) :
    ¬ ∃ m e : ℤ, (n : ℚ) = m * 2 ^ e ∧ |m| < 2 ^ p ∧ lo ≤ e ∧ e ≤ hi := by
  rintro ⟨m, e, h, hm, -, -⟩
  rcases le_or_gt e 0 with he | he
  · obtain ⟨k, rfl⟩ : ∃ k : ℕ, e = -k := ⟨(-e).toNat, by omega⟩
    have h2 : (n : ℚ) * 2 ^ k = m := by
      rw [h, zpow_neg, zpow_natCast]
      field_simp
    have h3 : n * 2 ^ k = m := by exact_mod_cast h2
    have h4 : |n| ≤ |m| := by
      rw [← h3, abs_mul]
      exact le_mul_of_one_le_right (abs_nonneg _) (by rw [abs_pow]; norm_num; exact one_le_pow₀ (by norm_num))
    omega
  · obtain ⟨k, rfl⟩ : ∃ k : ℕ, e = k + 1 := ⟨(e - 1).toNat, by omega⟩
    have h3 : n = m * 2 ^ (k + 1) := by
      have : (n : ℚ) = m * 2 ^ (k + 1) := by rw [h]; norm_cast
      exact_mod_cast this
    rw [h3, pow_succ, ← mul_assoc] at hodd
    omega

theorem int_holds {lo hi n : ℤ} (h : lo ≤ n ∧ n < hi) :
    ∃ k : ℤ, ((n : ℤ) : ℚ) = k ∧ lo ≤ k ∧ k < hi := ⟨n, rfl, h.1, h.2⟩

theorem not_int {lo hi n : ℤ} (h : n < lo ∨ hi ≤ n) :
    ¬ ∃ k : ℤ, ((n : ℤ) : ℚ) = k ∧ lo ≤ k ∧ k < hi := by
  rintro ⟨k, hk, h1, h2⟩
  have : n = k := by exact_mod_cast hk
  omega

theorem half_not_int {lo hi : ℤ} : ¬ ∃ k : ℤ, (1 / 2 : ℚ) = k ∧ lo ≤ k ∧ k < hi := by
  rintro ⟨k, hk, -, -⟩
  have : (2 * k : ℤ) = 1 := by
    have : (2 * k : ℚ) = 1 := by rw [← hk]; norm_num
    exact_mod_cast this
  omega

/-- Exactly which pairs keep every value: the earlier type of the enumeration
is converted to the later one. -/
theorem fits_iff (a b : Basic) (ha : kind a ≠ .other) (hb : kind b ≠ .other)
    (hlt : a.ord < b.ord) : Fits a b ↔ fitsTable a b = true := by
  cases a <;> cases b <;> simp [kind, Basic.ord] at ha hb hlt <;> simp only [fitsTable] <;>
    norm_num <;>
    first
    | (intro q hq; first
        | exact int_in hq (by norm_num) (by norm_num)
        | exact float_in hq (by norm_num) (by norm_num) (by norm_num)
        | exact int_in_float hq (by norm_num) (by norm_num) (by norm_num) (by norm_num))
    | (intro h; refine not_int (n := -1) ?_ (h _ (int_holds ?_)) <;> norm_num)
    | (intro h; refine not_float (n := 2 ^ 11 + 1) ?_ ?_ (h _ (int_holds ?_)) <;>
        first | (norm_num; done) | fail)
    | (intro h; refine not_float (n := 2 ^ 24 + 1) ?_ ?_ (h _ (int_holds ?_)) <;>
        first | (norm_num; done) | fail)
    | (intro h; refine not_float (n := 2 ^ 53 + 1) ?_ ?_ (h _ (int_holds ?_)) <;> norm_num)
    | (intro h; exact half_not_int (h (1 / 2) ⟨1, -1, by norm_num, by norm_num, by norm_num,
        by norm_num⟩))

/-- **C29, range, all pairs.**  Both operands keep all their values exactly
when the types are equal or the table allows the conversion of the earlier
type to the later one.  In particular `float` with `int64` is not in it. -/
theorem keeps_values_iff (b0 b1 : Basic) (h0 : kind b0 ≠ .other) (h1 : kind b1 ≠ .other) :
    (Fits b0 (pick b0 b1) ∧ Fits b1 (pick b0 b1)) ↔
      b0 = b1 ∨ fitsTable b0 b1 = true ∨ fitsTable b1 b0 = true := by
  rcases Nat.lt_trichotomy b0.ord b1.ord with h | h | h
  · have hp : pick b0 b1 = b1 := by simp [pick, Nat.not_le.2 h]
    have hne : b0 ≠ b1 := fun e => by subst e; omega
    have ht : fitsTable b1 b0 = false := by
      revert h; cases b0 <;> cases b1 <;> simp [Basic.ord, fitsTable]
    rw [hp, fits_iff b0 b1 h0 h1 h]
    simp [hne, ht, show Fits b1 b1 from fun _ h => h]
  · have he : b0 = b1 := by cases b0 <;> cases b1 <;> simp_all [Basic.ord]
    subst he
    simp [pick, show Fits b0 b0 from fun _ h => h]
  · have hp : pick b0 b1 = b0 := by simp [pick, Nat.le_of_lt h]
    have hne : b0 ≠ b1 := fun e => by subst e; omega
    have ht : fitsTable b0 b1 = false := by
      revert h; cases b0 <;> cases b1 <;> simp [Basic.ord, fitsTable]
    rw [hp, fits_iff b1 b0 h1 h0 h]
    simp [hne, ht, show Fits b0 b0 from fun _ h => h]

/-! ## What fails -/

/-- `uniform int * uniform`. -/
def intPtr : Ty := .ptr (.atomic .int32 .uniform false) .uniform false false false 0

/-- `const uniform int * uniform`. -/
def constIntPtr : Ty := .ptr (.atomic .int32 .uniform true) .uniform false false false 0

/-- **Exact symmetry fails**: with a pointer to `const` data and a pointer to
the same type without `const`, the common type is that of the first operand,
so `c ? p : q` may lose the `const` of `q`. -/
theorem const_depends_on_order :
    moreGeneral false 0 intPtr constIntPtr = .ok intPtr ∧
    moreGeneral false 0 constIntPtr intPtr = .ok constIntPtr ∧
    equal intPtr constIntPtr = false := by
  decide +kernel

/-- `E<3>` for an enum type `E`, which the grammar accepts for a struct member
(src/parse.yy:1471-1474 and 1635). -/
def enumVec : Ty := .vec (.enum ['E'] 1 .uniform false) 3

/-- Combining a short vector of an enum type with a scalar of the same enum
type stops the compiler with a failed assertion. -/
theorem enum_vector_crash :
    moreGeneral false 0 enumVec (.enum ['E'] 1 .uniform false) = .crash := by
  decide +kernel

/-- Vector elements are of atomic type, as `DeclSpecs::GetBaseType`
(src/decl.cpp:392-400) demands. -/
def AtomicElems : Ty → Prop
  | .vec (.atomic ..) _ => True
  | .vec .. => False
  | _ => True

theorem atomicOrEnum_no_crash {a b : Ty} (ha : Operand a) (hb : Operand b)
    (hv : a.variability = b.variability) : atomicOrEnum a b ≠ .crash := by
  cases a <;> cases b <;> simp_all [atomicOrEnum, Ty.refTarget, Operand, Ty.variability]
  split <;> simp

/-- A result that can be the element of a vector, or an error. -/
def Elementary (r : Res) : Prop := (∃ x y z, r = .ok (.atomic x y z)) ∨ r = .error

theorem elementary_ok (x : Basic) (y : Var) (z : Bool) : Elementary (.ok (.atomic x y z)) :=
  Or.inl ⟨x, y, z, rfl⟩

theorem elementary_error : Elementary .error := Or.inr rfl

theorem vecResult_no_crash {r : Res} (h : Elementary r) (n : Nat) : vecResult n r ≠ .crash := by
  rcases h with ⟨x, y, z, rfl⟩ | rfl <;> simp [vecResult]

theorem tail_atomic_left (r : Ty → Ty → Res) (b0 : Basic) (v : Var) (c0 : Bool) (b : Ty)
    (hb : Operand b) (hn : ∀ e n, b ≠ .vec e n) : Elementary (tail r (.atomic b0 v c0) b) := by
  cases b <;> simp_all [Operand, tail, atomicOrEnum, Ty.refTarget, equal, equalIC, checkEq,
    checkEqBody, Ty.asNonConst, elementary_ok, elementary_error]
  split
  · exact elementary_ok _ _ _
  · split
    · exact elementary_ok _ _ _
    · split <;> exact elementary_ok _ _ _

theorem tail_atomic_right (r : Ty → Ty → Res) (b0 : Basic) (v : Var) (c0 : Bool) (b : Ty)
    (hb : Operand b) (hn : ∀ e n, b ≠ .vec e n) : Elementary (tail r b (.atomic b0 v c0)) := by
  cases b <;> simp_all [Operand, tail, atomicOrEnum, Ty.refTarget, equal, equalIC, checkEq,
    checkEqBody, Ty.asNonConst, elementary_ok, elementary_error]
  split
  · exact elementary_ok _ _ _
  · split
    · exact elementary_ok _ _ _
    · split <;> exact elementary_ok _ _ _

theorem asVarying_not_vec {b : Ty} (h : ∀ e n, b ≠ .vec e n) (hb : Operand b) :
    ∀ e n, b.asVarying ≠ .vec e n := by
  intro e n
  cases b <;> simp_all [Ty.asVarying, Operand]
  split <;> simp_all

theorem elem_atomic_left (k : Nat) (force : Bool) (b0 : Basic) (v : Var) (c0 : Bool) (b : Ty)
    (hb : Operand b) (hn : ∀ e n, b ≠ .vec e n) :
    Elementary (elem (k + 1) force (.atomic b0 v c0) b) := by
  have hp : ∃ v' b', promote force (.atomic b0 v c0) b = (.atomic b0 v' c0, b') ∧ Operand b' ∧ ∀ e n, b' ≠ .vec e n := by
    unfold promote
    split
    · exact ⟨.varying, b.asVarying, rfl, (operand_asVarying hb).1, asVarying_not_vec hn hb⟩
    · exact ⟨v, b, rfl, hb, hn⟩
  obtain ⟨v', b', hp, h1, h2⟩ := hp
  have hd : decay (.atomic b0 v c0) = .atomic b0 v c0 := rfl
  rw [elem, decay_operand hb, hd, hp]
  exact tail_atomic_left _ _ _ _ _ h1 h2

theorem elem_atomic_right (k : Nat) (force : Bool) (b0 : Basic) (v : Var) (c0 : Bool) (b : Ty)
    (hb : Operand b) (hn : ∀ e n, b ≠ .vec e n) :
    Elementary (elem (k + 1) force b (.atomic b0 v c0)) := by
  have hp : ∃ v' b', promote force b (.atomic b0 v c0) = (b', .atomic b0 v' c0) ∧ Operand b' ∧ ∀ e n, b' ≠ .vec e n := by
    unfold promote
    split
    · exact ⟨.varying, b.asVarying, rfl, (operand_asVarying hb).1, asVarying_not_vec hn hb⟩
    · exact ⟨v, b, rfl, hb, hn⟩
  obtain ⟨v', b', hp, h1, h2⟩ := hp
  have hd : decay (.atomic b0 v c0) = .atomic b0 v c0 := rfl
  rw [elem, decay_operand hb, hd, hp]
  exact tail_atomic_right _ _ _ _ _ h1 h2

theorem tail_no_crash (k : Nat) (force : Bool) {a b : Ty} (ha : Operand a) (hb : Operand b)
    (hv : a.variability = b.variability) (ea : AtomicElems a) (eb : AtomicElems b) :
    tail (elem (k + 1) force) a b ≠ .crash := by
  unfold tail
  split
  · simp
  split
  · simp
  split
  · split
    · simp
    · split <;> simp
  · rename_i t0 t1 _ 
    split
    · rename_i e0 n0 e1 n1 h0 h1
      split
      · have h0' : a = .vec e0 n0 := by
          cases a <;> simp_all [Ty.refTarget, Operand]
        have h1' : b = .vec e1 n1 := by
          cases b <;> simp_all [Ty.refTarget, Operand]
        subst h0'; subst h1'
        cases e0 <;> simp [AtomicElems] at ea
        cases e1 <;> simp [AtomicElems] at eb
        exact vecResult_no_crash (elem_atomic_left _ _ _ _ _ _ (by exact hb) (by intro _ _ h; cases h)) _
      · simp
    · rename_i e0 n0 h0 h1
      have h0' : a = .vec e0 n0 := by
        cases a <;> simp_all [Ty.refTarget, Operand]
      subst h0'
      cases e0 <;> simp [AtomicElems] at ea
      refine vecResult_no_crash (elem_atomic_left _ _ _ _ _ _ hb ?_) _
      intro e n hc
      subst hc
      exact h1 _ _ rfl
    · rename_i e1 n1 h1 h0
      have h1' : b = .vec e1 n1 := by
        cases b <;> simp_all [Ty.refTarget, Operand]
      subst h1'
      cases e1 <;> simp [AtomicElems] at eb
      refine vecResult_no_crash (elem_atomic_right _ _ _ _ _ _ ha ?_) _
      intro e n hc
      subst hc
      exact h0 _ _ rfl
    · exact atomicOrEnum_no_crash ha hb hv

/-- **The compiler does not crash** on operands whose short vectors have
atomic elements: the common type exists or an error is reported. -/
theorem common_type_no_crash (force : Bool) (a b : Ty) (ha : Operand a) (hb : Operand b)
    (ea : AtomicElems a) (eb : AtomicElems b) : moreGeneral force 0 a b ≠ .crash := by
  have av : ∀ {t : Ty}, AtomicElems t → AtomicElems t.asVarying := by
    intro t ht
    cases t with
    | vec e n =>
      cases e with
      | atomic b v c => simp only [Ty.asVarying]; split <;> trivial
      | _ => exact ht.elim
    | array e n => simp only [Ty.asVarying]; split <;> trivial
    | ref => simp only [Ty.asVarying]; split <;> trivial
    | _ => simp [Ty.asVarying, AtomicElems]
  obtain ⟨h1, h2, h3, -⟩ := promote_pair (force := force) ha hb
  simp only [moreGeneral, gt_iff_lt, Nat.lt_irrefl, if_false, decay_operand ha, decay_operand hb]
  refine tail_no_crash _ _ h1 h2 h3 ?_ ?_
  · unfold promote; split
    · exact av ea
    · exact ea
  · unfold promote; split
    · exact av eb
    · exact eb

example : Operand (.vec (.atomic .int8 .uniform true) 4) ∧
    AtomicElems (.vec (.atomic .int8 .uniform true) 4) ∧
    moreGeneral false 0 (.vec (.atomic .int8 .uniform true) 4) (.enum ['E'] 1 .varying false) =
      .ok (.vec (.atomic .int8 .varying true) 4) := by
  refine ⟨Or.inl rfl, trivial, by decide +kernel⟩
end Ispc.Promote
