import Verif.Front.Operators
import Mathlib.Tactic.Common

/-!
# C87: theorems about operators on structs
-/

namespace Ispc.Operators

open Ispc.Types
open Ispc.Overload

/-- An operator applied to operands. -/
inductive Use where
  | un (op : UnOp) (a : Arg)
  | bin (op : BinOp) (a b : Arg)
  | asg (op : AsOp) (l r : Arg)

/-- The operands. -/
def Use.args : Use → List Arg
  | .un _ a => [a]
  | .bin _ a b => [a, b]
  | .asg _ l r => [l, r]

/-- What the type checker does. -/
def check (tab : Table) : Use → Res
  | .un op a => typeCheckUnary tab op a
  | .bin op a b => typeCheckBinary tab op a b
  | .asg op l r => typeCheckAssign tab op l r

/-- The function of an operator, as documented. -/
def Use.function : Use → String
  | .un .preInc _ => "operator++" | .un .postInc _ => "operator++"
  | .un .preDec _ => "operator--" | .un .postDec _ => "operator--"
  | .un .negate _ => "operator-" | .un .logicalNot _ => "operator!" | .un .bitNot _ => "operator~"
  | .bin .add .. => "operator+" | .bin .sub .. => "operator-" | .bin .mul .. => "operator*"
  | .bin .div .. => "operator/" | .bin .mod .. => "operator%" | .bin .shl .. => "operator<<"
  | .bin .shr .. => "operator>>" | .bin .lt .. => "operator<" | .bin .gt .. => "operator>"
  | .bin .le .. => "operator<=" | .bin .ge .. => "operator>=" | .bin .equal .. => "operator=="
  | .bin .notEqual .. => "operator!=" | .bin .bitAnd .. => "operator&" | .bin .bitXor .. => "operator^"
  | .bin .bitOr .. => "operator|" | .bin .logicalAnd .. => "operator&&" | .bin .logicalOr .. => "operator||"
  | .bin .comma .. => "operator,"
  | .asg .assign .. => "operator=" | .asg .mul .. => "operator*=" | .asg .div .. => "operator/="
  | .asg .mod .. => "operator%=" | .asg .add .. => "operator+=" | .asg .sub .. => "operator-="
  | .asg .shl .. => "operator<<=" | .asg .shr .. => "operator>>=" | .asg .and .. => "operator&="
  | .asg .xor .. => "operator^=" | .asg .or .. => "operator|="

/-- The arguments of the call: a postfix operator passes a number as well. -/
def Use.callArgs : Use → List Arg
  | .un .postInc a => [a, dummy]
  | .un .postDec a => [a, dummy]
  | u => u.args

/-- Some operand is a struct. -/
def Use.struct (u : Use) : Prop := ∃ a ∈ u.args, isStruct a.ty = true

/-- A unary operator can be applied to the operand at all: no `soa` type, and no constant for `++` and `--`. -/
def Use.applies : Use → Prop
  | .un op a => a.ty.soaWidth = 0 ∧ (op ∈ [UnOp.preInc, .preDec, .postInc, .postDec] → a.ty.isConst = false)
  | _ => True

theorem numeric_not_struct (t : Ty) (h : isStruct t = true) : isNumeric t.refTarget = false := by
  unfold isStruct at h
  cases hr : t.refTarget <;> simp [hr] at h ⊢
  simp [isNumeric]

theorem resolve_nonstruct (tab : Table) (s : String) (args : List Arg) (p : Bool)
    (h : ∀ a ∈ args, isStruct a.ty = false) : resolveOp tab s args p = .builtin := by
  have : args.any (fun a => isStruct a.ty) = false := by simpa using h
  simp [resolveOp, this]

/-- **Operators on built-in types do not depend on what is declared**, and call no function. -/
theorem builtin_unaffected (tab tab' : Table) (u : Use) (h : ¬ u.struct) :
    check tab u = check tab' u ∧ ∀ c, check tab u ≠ .call c := by
  have h' : ∀ a ∈ u.args, isStruct a.ty = false := by
    intro a ha
    by_contra hh
    exact h ⟨a, ha, by simpa using hh⟩
  cases u with
  | un op a =>
    have hr := fun t => resolve_nonstruct t op.text [a] (op = .postInc ∨ op = .postDec) h'
    simp only [check, typeCheckUnary, hr]
    refine ⟨trivial, fun c => ?_⟩
    split_ifs <;> simp
  | bin op a b =>
    have hr := fun t => resolve_nonstruct t op.text [a, b] false h'
    simp [check, typeCheckBinary, hr]
  | asg op a b =>
    have hr := fun t => resolve_nonstruct t op.text [a, b] false h'
    simp [check, typeCheckAssign, hr]

theorem resolve_struct (tab : Table) (s name : String) (args : List Arg) (p : Bool)
    (h : args.any (fun a => isStruct a.ty) = true) (hn : "operator" ++ s = name) :
    resolveOp tab s args p = if tab.funcs name ≠ [] ∨ tab.templates name = true then
        callByName tab name (if p ∧ args.length = 1 then args ++ [dummy] else args)
      else if name = "operator=" then .builtin else .error := by
  subst hn
  unfold resolveOp
  rw [if_neg (by simp [h])]

/-- What the code does for a struct operand. -/
theorem check_struct (tab : Table) (u : Use) (hs : u.struct) (ha : u.applies) :
    check tab u = if tab.funcs u.function ≠ [] ∨ tab.templates u.function = true then
        callByName tab u.function u.callArgs
      else if u.function = "operator=" then .builtin else .error := by
  have hany : (u.args.any fun a => isStruct a.ty) = true := by
    obtain ⟨c, hc, hst⟩ := hs
    exact List.any_eq_true.2 ⟨c, hc, hst⟩
  cases u with
  | un op a =>
    obtain ⟨b, hb, hst⟩ := hs
    simp only [Use.args, List.mem_singleton] at hb
    subst hb
    obtain ⟨h0, hc⟩ := ha
    have hn := numeric_not_struct _ hst
    have e : check tab (.un op b) = resolveOp tab op.text [b] (op = .postInc ∨ op = .postDec) := by
      simp only [check, typeCheckUnary, h0, hn, Nat.lt_irrefl, if_false, Bool.false_eq_true]
      by_cases ho : op = .preInc ∨ op = .preDec ∨ op = .postInc ∨ op = .postDec
      · rw [if_pos ho, hc (by simpa using ho)]; simp
      · rw [if_neg ho]
    rw [e, resolve_struct tab op.text (Use.un op b).function [b] _ hany (by cases op <;> simp [UnOp.text, BinOp.text, AsOp.text, Use.function])]
    congr 1
    cases op <;> rfl
  | bin op a b =>
    exact resolve_struct tab op.text (Use.bin op a b).function [a, b] false hany (by cases op <;> simp [UnOp.text, BinOp.text, AsOp.text, Use.function])
  | asg op a b =>
    exact resolve_struct tab op.text (Use.asg op a b).function [a, b] false hany (by cases op <;> simp [UnOp.text, BinOp.text, AsOp.text, Use.function])

/-- **An operator on a struct is the call of its function**, once a function or template of this name is declared. -/
theorem operator_is_call (tab : Table) (u : Use) (hs : u.struct) (ha : u.applies)
    (hd : tab.funcs u.function ≠ [] ∨ tab.templates u.function = true) :
    check tab u = callByName tab u.function u.callArgs := by
  rw [check_struct tab u hs ha, if_pos hd]

/-- **The function that takes exactly the operands is called**, if it is the only one and templates do not tie. -/
theorem exact_operator_called_partial (tab : Table) (u : Use) (hs : u.struct) (ha : u.applies) (f : Cand)
    (hf : f ∈ tab.funcs u.function) (hv : viable u.callArgs.length f = true) (hnd : (tab.funcs u.function).Nodup)
    (hx : Exact u.callArgs f)
    (hu : ∀ d ∈ tab.funcs u.function, viable u.callArgs.length d = true → Exact u.callArgs d → d = f)
    (ht : (matchesOf u.callArgs (tab.instances u.function u.callArgs)).length ≤ 1) :
    check tab u = .call f := by
  rw [operator_is_call tab u hs ha (Or.inl (List.ne_nil_of_mem hf)), callByName,
    exact_match_wins_partial _ _ _ f hf hv hnd hx hu ht]

/-- **What is called is declared under the name of the operator and has a parameter for each operand; parameters beyond
    them have default values.** -/
theorem called_takes_operands (tab : Table) (u : Use) (hs : u.struct) (ha : u.applies) (c : Cand)
    (h : check tab u = .call c) :
    (c ∈ tab.funcs u.function ∧ u.callArgs.length ≤ c.params.length ∧
      ∀ p, c.params[u.callArgs.length]? = some p → p.2 = true) ∨
    c ∈ tab.instances u.function u.callArgs := by
  rw [check_struct tab u hs ha] at h
  by_cases hd : tab.funcs u.function ≠ [] ∨ tab.templates u.function = true
  · rw [if_pos hd] at h
    unfold callByName at h
    cases hr : resolve false u.callArgs (tab.funcs u.function) (tab.instances u.function u.callArgs) with
    | chosen d =>
      rw [hr] at h
      injection h with h; subst h
      obtain ⟨-, -, -, -, -, hm⟩ := chosen_spec (explicit := false) hr
      rcases hm with ⟨hm, -⟩ | ⟨h1, -⟩
      · obtain ⟨h1, h2⟩ := List.mem_filter.1 hm
        left
        refine ⟨h1, ?_, ?_⟩
        · unfold viable at h2
          by_contra hh
          rw [if_pos (by omega)] at h2; cases h2
        · intro p hp
          unfold viable at h2
          split_ifs at h2
          rw [hp] at h2
          exact h2
      · right; exact h1
    | ambiguous => rw [hr] at h; cases h
    | noMatch => rw [hr] at h; cases h
  · rw [if_neg hd] at h
    split_ifs at h

/-- **Prefix and postfix operators, and unary and binary minus, never share a function without default values.** -/
theorem arities_apart (tab : Table) (u v : Use) (hu : u.struct) (hv : v.struct) (au : u.applies) (av : v.applies)
    (c : Cand) (h1 : check tab u = .call c) (h2 : check tab v = .call c) (hc : ∀ p ∈ c.params, p.2 = false)
    (hiu : ∀ n a, tab.instances n a = []) : u.callArgs.length = v.callArgs.length := by
  have key : ∀ w : Use, w.struct → w.applies → check tab w = .call c → w.callArgs.length = c.params.length := by
    intro w hw aw h
    rcases called_takes_operands tab w hw aw c h with ⟨-, hl, hd⟩ | hi
    · by_contra hne
      have hlt : w.callArgs.length < c.params.length := by omega
      have := hd _ (List.getElem?_eq_getElem hlt)
      rw [hc _ (List.getElem_mem hlt)] at this; cases this
    · rw [hiu] at hi; cases hi
  rw [key u hu au h1, key v hv av h2]

/-- **Different operators on the same number of operands have different functions.** -/
theorem functions_apart (u v : Use) (h : u.function = v.function) (hl : u.callArgs.length = v.callArgs.length) :
    (∃ op a b, u = .un op a ∧ v = .un op b) ∨ (∃ op a b a' b', u = .bin op a b ∧ v = .bin op a' b') ∨
      (∃ op a b a' b', u = .asg op a b ∧ v = .asg op a' b') := by
  cases u with
  | un op a =>
    cases v with
    | un op' b => cases op <;> cases op' <;> simp [Use.function, Use.callArgs, Use.args] at h hl ⊢
    | bin op' b c => cases op <;> cases op' <;> simp [Use.function, Use.callArgs, Use.args] at h hl
    | asg op' b c => cases op <;> cases op' <;> simp [Use.function, Use.callArgs, Use.args] at h hl
  | bin op a b =>
    cases v with
    | un op' b => cases op <;> cases op' <;> simp [Use.function, Use.callArgs, Use.args] at h hl
    | bin op' c d => cases op <;> cases op' <;> simp [Use.function] at h ⊢
    | asg op' c d => cases op <;> cases op' <;> simp [Use.function] at h
  | asg op a b =>
    cases v with
    | un op' b => cases op <;> cases op' <;> simp [Use.function, Use.callArgs, Use.args] at h hl
    | bin op' c d => cases op <;> cases op' <;> simp [Use.function] at h
    | asg op' c d => cases op <;> cases op' <;> simp [Use.function] at h ⊢

/-- **Every operator but the comma has a function that can be declared.** -/
theorem declarable_iff (u : Use) : u.function ∈ lexed ↔ ∀ a b, u ≠ .bin .comma a b := by
  cases u with
  | un op a => cases op <;> simp [Use.function, lexed]
  | bin op a b => cases op <;> simp [Use.function, lexed]
  | asg op a b => cases op <;> simp [Use.function, lexed]

/-- **Without a declaration an operator on a struct is an error, but assignment copies the struct.** -/
theorem undeclared (tab : Table) (u : Use) (hs : u.struct) (ha : u.applies) (h1 : tab.funcs u.function = [])
    (h2 : tab.templates u.function = false) :
    (∀ l r, u = .asg .assign l r → check tab u = .builtin) ∧
      ((∀ l r, u ≠ .asg .assign l r) → check tab u = .error) := by
  rw [check_struct tab u hs ha, if_neg (by simp [h1, h2])]
  constructor
  · rintro l r rfl; rfl
  · intro hne
    rw [if_neg]
    intro hf
    cases u with
    | un op a => cases op <;> simp [Use.function] at hf
    | bin op a b => cases op <;> simp [Use.function] at hf
    | asg op a b =>
      cases op <;> simp [Use.function] at hf
      exact hne a b rfl

/-! ## Examples and what fails -/

/-- A struct as an operand. -/
def st (name : String) : Ty := .struct name.toList .varying false

/-- `struct M &operator=(struct M &a, const struct F &b)` and `struct M operator+(struct M a, struct M b)`, with `++`
    before and behind. -/
def sample : Table where
  funcs n :=
    if n = "operator=" then [cand 1 [.ref (st "M") .varying false 0, .ref (.struct "F".toList .varying true) .varying true 0]]
    else if n = "operator+" then [cand 2 [st "M", st "M"]]
    else if n = "operator++" then
      [cand 3 [.ref (st "M") .varying false 0], cand 4 [.ref (st "M") .varying false 0, at_ .int32]]
    else []
  templates _ := false
  instances _ _ := []

example : check sample (.bin .add (arg (st "M")) (arg (st "M"))) = .call (cand 2 [st "M", st "M"]) ∧
    check sample (.bin .sub (arg (st "M")) (arg (st "M"))) = .error ∧
    check sample (.bin .add (arg (at_ .float)) (arg (at_ .int32))) = .builtin := by decide +kernel

example : (∃ c, check sample (.un .preInc (arg (st "M"))) = .call c ∧ c.id = 3) ∧
    (∃ c, check sample (.un .postInc (arg (st "M"))) = .call c ∧ c.id = 4) :=
  ⟨⟨_, rfl, rfl⟩, ⟨_, rfl, rfl⟩⟩

example : ∃ c, check sample (.asg .assign (arg (st "M")) (arg (st "F"))) = .call c ∧ c.id = 1 := ⟨_, rfl, rfl⟩

example : check sample (.bin .add (arg (st "M")) (arg (st "M"))) = .call (cand 2 [st "M", st "M"]) :=
  exact_operator_called_partial sample (.bin .add (arg (st "M")) (arg (st "M")))
    ⟨arg (st "M"), by simp [Use.args], rfl⟩ trivial (cand 2 [st "M", st "M"])
    (by decide +kernel) (by decide +kernel) (by decide +kernel)
    (cost_zero.1 (by decide +kernel)) (by
      intro d hd _ _
      have : d ∈ [cand 2 [st "M", st "M"]] := hd
      simpa using this) (by decide +kernel)

/-- **Once an assignment is declared, structs that it does not take can no longer be assigned**: neither another
    struct, nor the same struct to itself. -/
theorem assignment_lost_wrong :
    check sample (.asg .assign (arg (st "M")) (arg (st "M"))) = .error ∧
      check sample (.asg .assign (arg (st "T")) (arg (st "T"))) = .error ∧
      check ⟨fun _ => [], fun _ => false, fun _ _ => []⟩ (.asg .assign (arg (st "T")) (arg (st "T"))) = .builtin := by
  decide +kernel

/-- **A comma between expressions is an error if one of them is a struct**, and no function can be declared for it. -/
theorem comma_struct_wrong (tab : Table) (a b : Arg) (h : isStruct a.ty = true ∨ isStruct b.ty = true)
    (hl : ∀ n, n ∉ lexed → tab.funcs n = [] ∧ tab.templates n = false) :
    check tab (.bin .comma a b) = .error := by
  have hs : (Use.bin .comma a b).struct := by
    rcases h with h | h
    · exact ⟨a, by simp [Use.args], h⟩
    · exact ⟨b, by simp [Use.args], h⟩
  obtain ⟨h1, h2⟩ := hl "operator," (by decide +kernel)
  exact (undeclared tab _ hs trivial h1 h2).2 (by simp)

example : ∀ n, n ∉ lexed → sample.funcs n = [] ∧ sample.templates n = false := by
  intro n hn
  refine ⟨?_, rfl⟩
  have h1 : n ≠ "operator=" := by rintro rfl; exact hn (by decide +kernel)
  have h2 : n ≠ "operator+" := by rintro rfl; exact hn (by decide +kernel)
  have h3 : n ≠ "operator++" := by rintro rfl; exact hn (by decide +kernel)
  simp [sample, h1, h2, h3]

end Ispc.Operators
