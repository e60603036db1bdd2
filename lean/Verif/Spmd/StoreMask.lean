import Verif.Spmd.Machine

/-!
# Which program instances an assignment writes for

`Ispc.Spmd.run` masks every assignment.  The compiler does not: `lStoreAssignResult` (src/expr.cpp:1182-1200) drops
the mask when the assigned variable was declared at the current depth of varying control flow.  Here is the choice it
makes, for every kind of assigned place, and the gang machine with that choice made for one local variable.
-/

namespace Ispc.StoreMask

open Ispc.Spmd

variable {n : Nat}

/-- The type of a variable, as far as the choice of the mask looks at it (`CastType<PointerType>`,
`CastType<ReferenceType>`, src/expr.cpp:1166, 1187). -/
inductive Kind where
  | pointer
  | reference
  | other
  deriving DecidableEq

/-- What the choice of the mask looks at in a variable (`Symbol`, src/sym.h; src/expr.cpp:1161-1190):
* `mine`: is its `parentFunction` the function being compiled (set for parameters, src/func.cpp:160, and for
  variables that are not static, src/stmt.cpp:271; null for globals and for static variables),
* `depth`: its `varyingCFDepth` (0 at first, src/sym.cpp:29; set at the declaration in a function,
  src/stmt.cpp:127-132). -/
structure Sym where
  kind : Kind
  static : Bool
  mine : Bool
  depth : Nat

/-- Variables as they come about: a global variable has depth 0 and no function, and a variable declared static in a
function has no function either. -/
inductive Made : Sym → Prop
  | global (k : Kind) (static : Bool) : Made ⟨k, static, false, 0⟩
  | static (k : Kind) (d : Nat) : Made ⟨k, true, false, d⟩
  | variable_ (k : Kind) (d : Nat) : Made ⟨k, false, true, d⟩

/-- The left side of an assignment: a variable and what is applied to it.  `temporary` stands for every expression
that has no base symbol (src/expr.cpp:97-101), such as a call that returns a pointer or pointer arithmetic. -/
inductive Place where
  | var (s : Sym)
  | temporary
  | index (p : Place)
  | member (p : Place)
  | arrow (p : Place)
  | deref (p : Place)
  | cast (p : Place)

/-- `GetBaseSymbol` (src/expr.cpp:97-101, 5116, 6041, 8321, 8549, 9129). -/
def Place.base : Place → Option Sym
  | .var s => some s
  | .temporary => none
  | .index p => p.base
  | .member p => p.base
  | .arrow p => p.base
  | .deref p => p.base
  | .cast p => p.base

/-- `lMaskForSymbol` (src/expr.cpp:1161-1178): the internal mask or the full mask. -/
def maskFor (s : Option Sym) (c : Ctx n) (σ : St n) : Mask n :=
  match s with
  | none => full c σ
  | some s =>
    if s.kind = .pointer ∨ s.kind = .reference then full c σ
    else if s.mine ∧ ¬ s.static then σ.im
    else full c σ

/-- `lStoreAssignResult` (src/expr.cpp:1182-1200) with the default options: the mask of the store. -/
def storeMask (s : Option Sym) (c : Ctx n) (σ : St n) : Mask n :=
  match s with
  | none => maskFor none c σ
  | some s =>
    if s.depth = vdepth c.cf ∧ ¬ s.static ∧ s.kind ≠ .reference ∧ s.kind ≠ .pointer then allOn
    else maskFor (some s) c σ

/-- `FunctionEmitContext::StoreInst` (src/ctx.cpp:3343-3381) for varying data: a varying address is scattered to with
the full mask whatever the mask given; a uniform address takes the mask given. -/
def lanes (uniformAddress : Bool) (p : Place) (c : Ctx n) (σ : St n) : Mask n :=
  if uniformAddress then storeMask p.base c σ else full c σ

/-- Assign `v` to varying data that lives outside of the function: element `i` of the arrays `a` of
`Ispc.Spmd.St.ext`. -/
def assign (uniformAddress : Bool) (p : Place) (a : Nat) (i : Int) (v : Fin n → Int) (c : Ctx n) (σ : St n) : St n :=
  { σ with ext := fun l => if lanes uniformAddress p c σ l then upd2 (σ.ext l) a i (v l) else σ.ext l }

/-! ## The gang machine with the choice made for one local variable -/

/-- Assignment to the local array `b`, in a function whose variable `a` was declared at depth `d`.  The stores to the
other variables are masked as in `Ispc.Spmd.doVassign`; so is a store to `a` at a varying index (a scatter). -/
def assignLocal (d a : Nat) (c : Ctx n) (b : Nat) (i e : Expr) (σ : St n) : St n :=
  let m := if b = a ∧ i.isUniform then storeMask (some ⟨.other, false, true, d⟩) c σ else σ.im
  { σ with loc := fun l => if m l then upd2 (σ.loc l) b (σ.eval i l) (σ.eval e l) else σ.loc l }

/-- The result of a call is assigned to a local variable in the same way (`x = f(…)` is an `AssignExpr`,
src/expr.cpp:3438-3473). -/
def assignResult (d a : Nat) (c : Ctx n) (dst : Nat) (rv : Fin n → Int) (σ : St n) : Fin n → Nat → Int → Int :=
  let m := if dst = a then storeMask (some ⟨.other, false, true, d⟩) c σ else σ.im
  fun l => if m l then upd2 (σ.loc l) dst 0 (rv l) else σ.loc l

/-- `Ispc.Spmd.run` with the stores to the local variable `a`, declared at depth `d`, masked as the compiler masks
them.  Called functions have their own variables, so they are run by `run`. -/
def runOpt (P : Prog) (d a : Nat) : Nat → Stmt → Code n
  | 0, _, _, _ => none
  | k + 1, s, c, σ =>
    match s with
    | .skip => some (.normal, σ)
    | .uassign x e => some (.normal, { σ with u := upd1 σ.u x (σ.evalU e) })
    | .vassign true b i e => some (.normal, doVassign c true b i e σ)
    | .vassign false b i e => some (.normal, assignLocal d a c b i e σ)
    | .seq s₁ s₂ => andThen (runOpt P d a k s₁ c σ) fun σ => runOpt P d a k s₂ c σ
    | .ite e coh pred s₁ s₂ =>
      if e.isUniform then
        if σ.evalU e ≠ 0 then runOpt P d a k s₁ (c.pushIf true) σ else runOpt P d a k s₂ (c.pushIf true) σ
      else varyingIf c coh pred (σ.test e) (runOpt P d a k s₁) (runOpt P d a k s₂) σ
    | .loop e coh step body =>
      if !isSimple step then none
      else if loopUnif e body then wrapLoop true σ (forU c e (runOpt P d a k step) (runOpt P d a k body) k)
      else wrapLoop false σ (forV c e coh (runOpt P d a k step) (runOpt P d a k body) k)
    | .doloop body e coh =>
      if loopUnif e body then wrapLoop true σ (doU c e (runOpt P d a k body) k)
      else wrapLoop false σ (doV c e coh (runOpt P d a k body) k)
    | .brk => doBreak c σ
    | .cont => doContinue c σ
    | .ret e => doReturn c e σ
    | .switch e body =>
      if switchOk body then doSwitch c e body (fun c s σ => runOpt P d a k s c σ) σ else none
    | .seg _ _ _ _ => none
    | .call dst f us vs =>
      match funcBody (P f).checkMask (full c σ) (run P k (P f).body) (enterSt σ us vs) with
      | some (.normal, σ') | some (.ret, σ') =>
        some (.normal, { σ with ext := σ'.ext, loc := assignResult d a c dst σ'.rv σ })
      | _ => none

/-- Does the expression read the local array `a`? -/
def reads (a : Nat) : Expr → Bool
  | .const _ => false
  | .uvar _ => false
  | .lane => false
  | .vload ext b i => (!ext && b == a) || reads a i
  | .un _ e => reads a e
  | .bin _ e₁ e₂ => reads a e₁ || reads a e₂

/-- No call in the statement passes a varying argument that reads the local array `a`. -/
def argsAvoid (a : Nat) : Stmt → Bool
  | .seq s₁ s₂ => argsAvoid a s₁ && argsAvoid a s₂
  | .ite _ _ _ s₁ s₂ => argsAvoid a s₁ && argsAvoid a s₂
  | .loop _ _ st b => argsAvoid a st && argsAvoid a b
  | .doloop b _ _ => argsAvoid a b
  | .switch _ b => argsAvoid a b
  | .seg _ _ s r => argsAvoid a s && argsAvoid a r
  | .call _ _ _ vs => vs.all (fun e => !reads a e)
  | _ => true

end Ispc.StoreMask
