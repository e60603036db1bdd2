import Mathlib.Data.Set.Basic

/-!
# Syntax of the modelled statement language

The statement forms are those of src/stmt.h that deal with control flow under the execution mask:
`IfStmt`, `ForStmt` (also `while`), `DoStmt`, `BreakStmt`, `ContinueStmt`, `SwitchStmt`/`CaseStmt`/
`DefaultStmt`, `ReturnStmt`, assignments, statement lists, and calls of ispc functions.
Not in the language: `foreach*`, `goto`, `unmasked`, tasks (modelled in other modules or not at all).
-/

namespace Ispc.Spmd

/-- Side-effect-free expressions.  Values are `Int`; the operators are arbitrary functions on `Int`, which
covers wrap-around machine arithmetic and comparisons alike.  `vload ext a i` reads element `i` of the
instance-private array `a`; `ext = false` is a local variable of the current function, `ext = true` is storage
that lives outside of it (globals, pointed-to data).  The distinction is the one made by `lMaskForSymbol`
(src/expr.cpp:1161-1178).  A scalar variable is element 0 of its array.
Simplification: memory is private to each program instance, so races between instances are not expressible;
short-circuit evaluation is modelled separately. -/
inductive Expr where
  | const (c : Int)
  | uvar (x : Nat)
  | lane
  | vload (ext : Bool) (a : Nat) (i : Expr)
  | un (f : Int → Int) (e : Expr)
  | bin (f : Int → Int → Int) (e₁ e₂ : Expr)

/-- The type checker's variability of an expression: `Type::IsUniformType` of the result (src/type.cpp,
`Type::MoreGeneralType`): an expression is uniform iff it mentions neither a varying variable nor
`programIndex`. -/
def Expr.isUniform : Expr → Bool
  | .const _ => true
  | .uvar _ => true
  | .lane => false
  | .vload _ _ _ => false
  | .un _ e => e.isUniform
  | .bin _ e₁ e₂ => e₁.isUniform && e₂.isUniform

/-- The uniform variables an expression reads. -/
def Expr.uvars : Expr → Set Nat
  | .const _ => ∅
  | .uvar x => {x}
  | .lane => ∅
  | .vload _ _ i => i.uvars
  | .un _ e => e.uvars
  | .bin _ e₁ e₂ => e₁.uvars ∪ e₂.uvars

/-- Value of an expression for one program instance: `u` is the uniform store, `m` the instance's own
(local and external) arrays, `l` its `programIndex`. -/
def Expr.eval (u : Nat → Int) (m : Bool → Nat → Int → Int) (l : Nat) : Expr → Int
  | .const c => c
  | .uvar x => u x
  | .lane => l
  | .vload ext a i => m ext a (i.eval u m l)
  | .un f e => f (e.eval u m l)
  | .bin f e₁ e₂ => f (e₁.eval u m l) (e₂.eval u m l)

/-- Statements.
* `ite e coh pred`: `coh` is `IfStmt::doAllCheck` (a `cif`); `pred` is the outcome of the compile-time decision
  "safe to run with the mask all off and cheap" of `IfStmt::emitVaryingIf` (src/stmt.cpp:712-731), taken here
  as an arbitrary flag so that results hold for every cost model.
* `loop e coh step body` is `for (; e; step) body` (`while` when `step` is `skip`); the initialiser is a
  statement sequenced before it.
* `seg lab chk s rest` is one labelled segment of a `switch` body (`lab = some v` for `case v:`, `none` for
  `default:`) followed by the remaining segments; `skip` ends the chain.  `chk` is the result of `lCheckMask`
  (src/stmt.cpp:2877-2889), again an arbitrary flag.  Labels inside nested statements are not modelled.
* `call dst f us vs`: call of ispc function `f` with uniform arguments `us` and varying arguments `vs`; the
  varying result is assigned to the local variable `dst`. -/
inductive Stmt where
  | skip
  | uassign (x : Nat) (e : Expr)
  | vassign (ext : Bool) (a : Nat) (i e : Expr)
  | seq (s₁ s₂ : Stmt)
  | ite (e : Expr) (coh pred : Bool) (s₁ s₂ : Stmt)
  | loop (e : Expr) (coh : Bool) (step body : Stmt)
  | doloop (body : Stmt) (e : Expr) (coh : Bool)
  | brk
  | cont
  | ret (e : Expr)
  | switch (e : Expr) (body : Stmt)
  | seg (lab : Option Int) (chk : Bool) (s rest : Stmt)
  | call (dst : Nat) (f : Nat) (us vs : List Expr)

/-- A function: its body and the compile-time decision to test the mask on entry
(`checkMask`, src/func.cpp:499-509). -/
structure Func where
  body : Stmt
  checkMask : Bool

/-- A program maps function names to definitions. -/
abbrev Prog := Nat → Func

/-- `lHasVaryingBreakOrContinue` (src/stmt.cpp:857-929) started at varying depth `d`: is there a `break` or
`continue` under a varying `if`, not looking into nested `for`/`do` loops? -/
def hasVBC (d : Nat) : Stmt → Bool
  | .brk => decide (0 < d)
  | .cont => decide (0 < d)
  | .seq s₁ s₂ => hasVBC d s₁ || hasVBC d s₂
  | .ite e _ _ s₁ s₂ =>
      if e.isUniform then hasVBC d s₁ || hasVBC d s₂ else hasVBC (d + 1) s₁ || hasVBC (d + 1) s₂
  | .switch _ b => hasVBC d b
  | .seg _ _ s r => hasVBC d s || hasVBC d r
  | _ => false

/-- Uniform variables a statement may assign (callees have their own uniform variables). -/
def Stmt.assigned : Stmt → Set Nat
  | .uassign x _ => {x}
  | .seq s₁ s₂ => s₁.assigned ∪ s₂.assigned
  | .ite _ _ _ s₁ s₂ => s₁.assigned ∪ s₂.assigned
  | .loop _ _ st b => st.assigned ∪ b.assigned
  | .doloop b _ _ => b.assigned
  | .switch _ b => b.assigned
  | .seg _ _ s r => s.assigned ∪ r.assigned
  | _ => ∅

/-- The `case` values of a switch body, in order (`SwitchVisitInfo::caseBlocks`, src/stmt.cpp:2991-3043). -/
def caseVals : Stmt → List Int
  | .seg (some v) _ _ r => v :: caseVals r
  | .seg none _ _ r => caseVals r
  | _ => []

/-- Number of `default` labels of a switch body. -/
def numDefaults : Stmt → Nat
  | .seg (some _) _ _ r => numDefaults r
  | .seg none _ _ r => numDefaults r + 1
  | _ => 0

/-- The part of a switch body starting at `case v:`, if there is one. -/
def findCase (v : Int) : Stmt → Option Stmt
  | .seg (some w) c s r => if w = v then some (.seg (some w) c s r) else findCase v r
  | .seg none _ _ r => findCase v r
  | _ => none

/-- The part of a switch body starting at `default:`, if there is one. -/
def findDefault : Stmt → Option Stmt
  | .seg (some _) _ _ r => findDefault r
  | .seg none c s r => some (.seg none c s r)
  | _ => none

/-- C's rule for where a switch on value `v` starts executing. -/
def switchEntry (v : Int) (body : Stmt) : Option Stmt :=
  match findCase v body with
  | some s => some s
  | none => findDefault body

/-- Is the statement a well-formed chain of labelled segments? -/
def isChain : Stmt → Bool
  | .skip => true
  | .seg _ _ _ r => isChain r
  | _ => false

/-- The labels of a switch body are legal: no duplicate case value, at most one default
(`lSwitchASTPreVisit`, src/stmt.cpp:3004-3024). -/
def switchOk (body : Stmt) : Bool :=
  isChain body && decide (caseVals body).Nodup && decide (numDefaults body ≤ 1)

/-- Simple statements: what the `step` of a `for` loop may be (an expression statement). -/
def isSimple : Stmt → Bool
  | .skip => true
  | .uassign _ _ => true
  | .vassign _ _ _ _ => true
  | .call _ _ _ _ => true
  | .seq a b => isSimple a && isSimple b
  | _ => false

end Ispc.Spmd
