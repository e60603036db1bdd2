import Mathlib.Logic.Basic
import Mathlib.Tactic.Common

/-!
# Short-circuit evaluation: `&&`, `||` and `?:` with operands that have effects

The code emitted by `lEmitLogicalOp` and `SelectExpr::GetValue`, with the decision of
`SafeToRunWithMaskAllOff` whether to short-circuit at all.  Targets with a hardware mask
(Xe) and `?:` with a short vector as test are not modelled.
-/

namespace Ispc.Short

/-- What an instance does besides computing: reading an element of an array at a computed
index, dividing, calling a function. -/
inductive Event
  | read (a : Nat) (i : Int)
  | div (x y : Int)
  | call (f : Nat) (x : Int)
  deriving DecidableEq

/-- Memory of one instance: its variables that are local to the function, those that are
not, and what it has done so far, latest first. -/
structure Lane where
  loc : Nat → Int → Int
  ext : Nat → Int → Int
  log : List Event

/-- Memory of the gang: uniform variables, what was done once for the whole gang, and the
memories of the instances. -/
structure Gang (n : Nat) where
  u : Nat → Int → Int
  ulog : List Event
  lane : Fin n → Lane

/-- Expressions.  Operators are arbitrary functions on integers.
* `uvar x`, `var ext a k`: a variable, or its element with the constant index `k`; `ext` tells
  a variable that is not local to the function, as in `lMaskForSymbol`
  (src/expr.cpp:1161-1178);
* `uidx`, `idx`: an element with a computed index;
* `div`: integer division or remainder;
* `asg`: `x = e`; `asgop d`: `x op= e`, a division if `d`; `post`: `x++` and the like,
  `posti`: `x[i]++` and the like; `asgi`: `x[i] = e`; `uasg`: assignment to a uniform variable;
* `call f safe e`: call of a function with its mask parameter, whose type says that it is
  safe to call with the mask all off or not.

Simplification: one argument per call, memory that instances share is not modelled, nor are
types: a test is true if it is not zero. -/
inductive E
  | const (c : Int)
  | lane
  | uvar (x : Nat)
  | var (ext : Bool) (a : Nat) (k : Int)
  | un (f : Int → Int) (e : E)
  | bin (f : Int → Int → Int) (e₁ e₂ : E)
  | div (f : Int → Int → Int) (e₁ e₂ : E)
  | uidx (a : Nat) (i : E)
  | idx (ext : Bool) (a : Nat) (i : E)
  | asg (ext : Bool) (a : Nat) (e : E)
  | asgop (d ext : Bool) (a : Nat) (f : Int → Int → Int) (e : E)
  | post (ext : Bool) (a : Nat) (f : Int → Int)
  | posti (ext : Bool) (a : Nat) (i : E) (f : Int → Int)
  | asgi (ext : Bool) (a : Nat) (i e : E)
  | uasg (x : Nat) (e : E)
  | call (f : Nat) (safe : Bool) (e : E)
  | and (e₁ e₂ : E)
  | or (e₁ e₂ : E)
  | sel (t e₁ e₂ : E)

/-- Is the type of the expression uniform (`SelectExpr::GetTypeImpl`,
src/expr.cpp:3899-3927, `lEmitLogicalOp`'s `retType`)? -/
def E.isUniform : E → Bool
  | .const _ | .uvar _ | .uidx _ _ | .uasg _ _ => true
  | .un _ e => e.isUniform
  | .bin _ a b | .div _ a b | .and a b | .or a b => a.isUniform && b.isUniform
  | .sel t a b => t.isUniform && a.isUniform && b.isUniform
  | _ => false

/-- The type checker rejects varying indices and values where uniform ones are needed. -/
def E.Typed : E → Prop
  | .const _ | .lane | .uvar _ | .var _ _ _ | .post _ _ _ => True
  | .un _ e | .idx _ _ e | .asg _ _ e | .asgop _ _ _ _ e | .call _ _ e | .posti _ _ e _ => e.Typed
  | .bin _ a b | .div _ a b | .asgi _ _ a b | .and a b | .or a b => a.Typed ∧ b.Typed
  | .uidx _ e | .uasg _ e => e.isUniform = true ∧ e.Typed
  | .sel t a b => t.Typed ∧ a.Typed ∧ b.Typed

def E.isConst : E → Bool
  | .const _ => true
  | _ => false

/-- `EstimateCost`, src/ast.cpp:425-455, with the costs of the nodes from src/expr.cpp:1602-1608,
3170-3176, 3655-3664, 4095, 4563-4591 and 5413-5430 and the constants of src/ispc.h:979-1006.
Conversions, which cost one each, are not modelled. -/
def cost : E → Nat
  | .const _ | .lane | .uvar _ => 0
  | .var _ _ k => if k = 0 then 0 else 2
  | .un _ e => cost e + if e.isConst then 0 else 1
  | .bin _ a b | .and a b | .or a b =>
    cost a + cost b + if a.isConst && b.isConst then 0 else 1
  | .div _ a b => cost a + cost b + if a.isConst && b.isConst then 0 else 4
  | .uidx _ i => cost i + 2
  | .idx _ _ i => cost i + 8
  | .asg _ _ e => cost e + 1
  | .asgop d _ _ _ e => cost e + 1 + if d then 4 else 1
  | .post _ _ _ => 1
  | .posti _ _ i _ => cost i + 1 + 8
  | .asgi _ _ i e => cost i + cost e + 1 + 8
  | .uasg _ e => cost e + 1
  | .call _ _ e => cost e + 4
  | .sel t a b => cost t + cost a + cost b + 4

/-- The threshold `PREDICATE_SAFE_IF_STATEMENT_COST`, src/ispc.h:1009, as used at
src/expr.cpp:2010-2012 and 3825-3828. -/
def cheap (e : E) : Bool := decide (cost e ≤ 6)

/-- `SafeToRunWithMaskAllOff`, src/ast.cpp:457-618. -/
def safe : E → Bool
  | .const _ | .lane | .uvar _ | .var _ _ _ | .post _ _ _ => true
  | .un _ e | .asg _ _ e | .asgop _ _ _ _ e => safe e
  | .bin _ a b | .and a b | .or a b => safe a && safe b
  | .div _ _ _ | .uidx _ _ | .idx _ _ _ | .asgi _ _ _ _ | .posti _ _ _ _
  | .uasg _ _ => false
  | .call _ s e => s && safe e
  | .sel t a b => safe t && safe a && safe b

/-- `shortCircuit` of src/expr.cpp:2012 and 3827-3828.  The cost estimate is a
parameter, so that theorems can be about every estimate. -/
def sc (ch : E → Bool) (e : E) : Bool := !ch e || !safe e

/-! ## C semantics of one instance -/

/-- Truth values. -/
def b2i (b : Bool) : Int := if b then 1 else 0

def Lane.get (L : Lane) (ext : Bool) (a : Nat) (i : Int) : Int :=
  if ext then L.ext a i else L.loc a i

def put (m : Nat → Int → Int) (a : Nat) (i v : Int) : Nat → Int → Int :=
  fun b j => if b = a ∧ j = i then v else m b j

def Lane.set (L : Lane) (ext : Bool) (a : Nat) (i v : Int) : Lane :=
  if ext then { L with ext := put L.ext a i v } else { L with loc := put L.loc a i v }

def Lane.did (L : Lane) (ev : Event) : Lane := { L with log := ev :: L.log }

/-- What functions do to the memory outside of the caller, per instance. -/
abbrev Callee := Nat → Int → (Nat → Int → Int) → Int × (Nat → Int → Int)

/-- Specification: the value and the effects of an expression that assigns no uniform
variable, for the instance `l`, by the rules of C. -/
def ser (F : Callee) (u : Nat → Int → Int) (l : Nat) : E → Lane → Int × Lane
  | .const c, L => (c, L)
  | .lane, L => (l, L)
  | .uvar x, L => (u x 0, L)
  | .var ext a k, L => (L.get ext a k, L)
  | .un f e, L => let r := ser F u l e L; (f r.1, r.2)
  | .bin f a b, L =>
    let r := ser F u l a L
    let s := ser F u l b r.2
    (f r.1 s.1, s.2)
  | .div f a b, L =>
    let r := ser F u l a L
    let s := ser F u l b r.2
    (f r.1 s.1, if a.isUniform && b.isUniform then s.2 else s.2.did (.div r.1 s.1))
  | .uidx a i, L => let r := ser F u l i L; (u a r.1, r.2)
  | .idx ext a i, L =>
    let r := ser F u l i L
    (r.2.get ext a r.1, r.2.did (.read a r.1))
  | .asg ext a e, L => let r := ser F u l e L; (r.1, r.2.set ext a 0 r.1)
  | .asgop d ext a f e, L =>
    let r := ser F u l e L
    let x := r.2.get ext a 0
    (f x r.1, (if d then r.2.did (.div x r.1) else r.2).set ext a 0 (f x r.1))
  | .post ext a f, L => (L.get ext a 0, L.set ext a 0 (f (L.get ext a 0)))
  | .asgi ext a i e, L =>
    let r := ser F u l i L
    let s := ser F u l e r.2
    (s.1, s.2.set ext a r.1 s.1)
  | .posti ext a i f, L =>
    let r := ser F u l i L
    let x := r.2.get ext a r.1
    (x, (r.2.did (.read a r.1)).set ext a r.1 (f x))
  | .uasg _ e, L => ser F u l e L
  | .call f _ e, L =>
    let r := ser F u l e L
    let q := F f r.1 r.2.ext
    (q.1, { r.2 with ext := q.2 }.did (.call f r.1))
  | .and a b, L =>
    let r := ser F u l a L
    if r.1 ≠ 0 then let s := ser F u l b r.2; (b2i (s.1 != 0), s.2) else (0, r.2)
  | .or a b, L =>
    let r := ser F u l a L
    if r.1 ≠ 0 then (1, r.2) else let s := ser F u l b r.2; (b2i (s.1 != 0), s.2)
  | .sel t a b, L =>
    let r := ser F u l t L
    if r.1 ≠ 0 then ser F u l a r.2 else ser F u l b r.2

/-! ## The gang -/

abbrev Mask (n : Nat) := Fin n → Bool

def Mask.any {n} (m : Mask n) : Bool := decide (∃ l, m l = true)

variable {n : Nat}

/-- Apply an operation to the memories of the instances of a mask. -/
def Gang.upd (σ : Gang n) (m : Mask n) (g : Fin n → Lane → Lane) : Gang n :=
  { σ with lane := fun l => if m l then g l (σ.lane l) else σ.lane l }

/-- The instances where a test holds, or does not. -/
def yes (m : Mask n) (v : Fin n → Int) : Mask n := fun l => m l && v l != 0
def no (m : Mask n) (v : Fin n → Int) : Mask n := fun l => m l && v l == 0

/-- A value that is the same everywhere. -/
def uval [NeZero n] (v : Fin n → Int) : Int := v 0

/-- Operations whose effect does not depend on short-circuiting, for the mask of
variables that are local (`im`) and that of everything else (`fm` and `im`); `J` is what the
emitted code computes for instances that are off.  Integer division and remainder of
varying values is `VectorIntDivision`, src/ctx.cpp:1730-1783, element reads with
varying index are gathers, calls pass the full mask (src/ctx.cpp:3671-3684). -/
def Gang.store (σ : Gang n) (full im : Mask n) (ext : Bool) (a : Nat) (i v : Fin n → Int) :
    Gang n :=
  σ.upd (if ext then full else im) fun l L => L.set ext a (i l) (v l)

def Gang.log (σ : Gang n) (full : Mask n) (ev : Fin n → Event) : Gang n :=
  σ.upd full fun l L => L.did (ev l)

def pick (full : Mask n) (v j : Fin n → Int) : Fin n → Int := fun l => if full l then v l else j l

def Gang.call (σ : Gang n) (F : Callee) (full : Mask n) (f : Nat) (x : Fin n → Int) : Gang n :=
  σ.upd full fun l L => { L with ext := (F f (x l) L.ext).2 }.did (.call f (x l))

/-- Specification for the gang: the operand is evaluated for exactly the instances that need its
value, all together, and not at all if there are none.  This also says when uniform
variables are assigned. -/
def spec [NeZero n] (F : Callee) : E → Mask n → Gang n → (Fin n → Int) × Gang n
  | .const c, _, σ => (fun _ => c, σ)
  | .lane, _, σ => (fun l => l, σ)
  | .uvar x, _, σ => (fun _ => σ.u x 0, σ)
  | .var ext a k, _, σ => (fun l => (σ.lane l).get ext a k, σ)
  | .un f e, m, σ => let r := spec F e m σ; (fun l => f (r.1 l), r.2)
  | .bin f a b, m, σ =>
    let r := spec F a m σ
    let s := spec F b m r.2
    (fun l => f (r.1 l) (s.1 l), s.2)
  | .div f a b, m, σ =>
    let r := spec F a m σ
    let s := spec F b m r.2
    (fun l => f (r.1 l) (s.1 l),
      if a.isUniform && b.isUniform then
        { s.2 with ulog := .div (uval r.1) (uval s.1) :: s.2.ulog }
      else s.2.log m fun l => .div (r.1 l) (s.1 l))
  | .uidx a i, m, σ =>
    let r := spec F i m σ
    (fun l => r.2.u a (r.1 l), { r.2 with ulog := .read a (uval r.1) :: r.2.ulog })
  | .idx ext a i, m, σ =>
    let r := spec F i m σ
    (fun l => (r.2.lane l).get ext a (r.1 l), r.2.log m fun l => .read a (r.1 l))
  | .asg ext a e, m, σ =>
    let r := spec F e m σ
    (r.1, r.2.store m m ext a (fun _ => 0) r.1)
  | .asgop d ext a f e, m, σ =>
    let r := spec F e m σ
    let v := fun l => f ((r.2.lane l).get ext a 0) (r.1 l)
    (v, (if d then r.2.log m fun l => .div ((r.2.lane l).get ext a 0) (r.1 l) else r.2).store
      m m ext a (fun _ => 0) v)
  | .post ext a f, m, σ =>
    let v := fun l => (σ.lane l).get ext a 0
    (v, σ.store m m ext a (fun _ => 0) fun l => f (v l))
  | .asgi ext a i e, m, σ =>
    let r := spec F i m σ
    let s := spec F e m r.2
    (s.1, s.2.store m m ext a r.1 s.1)
  | .posti ext a i f, m, σ =>
    let r := spec F i m σ
    let v := fun l => (r.2.lane l).get ext a (r.1 l)
    (v, (r.2.log m fun l => .read a (r.1 l)).store m m ext a r.1 fun l => f (v l))
  | .uasg x e, m, σ =>
    let r := spec F e m σ
    (r.1, { r.2 with u := put r.2.u x 0 (uval r.1) })
  | .call f _ e, m, σ =>
    let r := spec F e m σ
    (fun l => (F f (r.1 l) (r.2.lane l).ext).1, r.2.call F m f r.1)
  | .and a b, m, σ =>
    let r := spec F a m σ
    if (yes m r.1).any then
      let s := spec F b (yes m r.1) r.2
      (fun l => if r.1 l ≠ 0 then b2i (s.1 l != 0) else 0, s.2)
    else (fun _ => 0, r.2)
  | .or a b, m, σ =>
    let r := spec F a m σ
    if (no m r.1).any then
      let s := spec F b (no m r.1) r.2
      (fun l => if r.1 l ≠ 0 then 1 else b2i (s.1 l != 0), s.2)
    else (fun _ => 1, r.2)
  | .sel t a b, m, σ =>
    let r := spec F t m σ
    let s := if (yes m r.1).any then spec F a (yes m r.1) r.2 else (fun _ => 0, r.2)
    let q := if (no m r.1).any then spec F b (no m r.1) s.2 else (fun _ => 0, s.2)
    (fun l => if r.1 l ≠ 0 then s.1 l else q.1 l, q.2)

/-- The full mask, `GetFullMask`, src/ctx.cpp:437-440. -/
def full (fm im : Mask n) : Mask n := fun l => im l && fm l

/-- The emitted code.  `fm` is the function's mask, `im` the internal mask; every case
restores the latter (src/expr.cpp:2221, 3855).  `J` gives the values found where the
code stores none: instances that are off, and memory that is not initialised.
`&&` and `||` are `lEmitLogicalOp`, src/expr.cpp:1998-2223, `?:` is
`SelectExpr::GetValue`, 3770-3859, with `lEmitSelectExprCode`, 3721-3740.  Assignments are
`AssignExpr::GetValue`, 3438-3504, and `lEmitOpAssign`, 3373-3431; `x[i]++` is
`lEmitPrePostIncDec`, 1205-1270, which takes both the lvalue and the value of `x[i]` and so
evaluates `i` twice. -/
def run [NeZero n] (ch : E → Bool) (F : Callee) (J : E → Gang n → Fin n → Int) (fm : Mask n) :
    E → Mask n → Gang n → (Fin n → Int) × Gang n
  | .const c, _, σ => (fun _ => c, σ)
  | .lane, _, σ => (fun l => l, σ)
  | .uvar x, _, σ => (fun _ => σ.u x 0, σ)
  | .var ext a k, _, σ => (fun l => (σ.lane l).get ext a k, σ)
  | .un f e, im, σ => let r := run ch F J fm e im σ; (fun l => f (r.1 l), r.2)
  | .bin f a b, im, σ =>
    let r := run ch F J fm a im σ
    let s := run ch F J fm b im r.2
    (fun l => f (r.1 l) (s.1 l), s.2)
  | .div f a b, im, σ =>
    let r := run ch F J fm a im σ
    let s := run ch F J fm b im r.2
    let v := fun l => f (r.1 l) (s.1 l)
    if a.isUniform && b.isUniform then
      (v, { s.2 with ulog := .div (uval r.1) (uval s.1) :: s.2.ulog })
    else (pick (full fm im) v (J (.div f a b) s.2),
      s.2.log (full fm im) fun l => .div (r.1 l) (s.1 l))
  | .uidx a i, im, σ =>
    let r := run ch F J fm i im σ
    (fun l => r.2.u a (r.1 l), { r.2 with ulog := .read a (uval r.1) :: r.2.ulog })
  | .idx ext a i, im, σ =>
    let r := run ch F J fm i im σ
    (pick (full fm im) (fun l => (r.2.lane l).get ext a (r.1 l)) (J (.idx ext a i) r.2),
      r.2.log (full fm im) fun l => .read a (r.1 l))
  | .asg ext a e, im, σ =>
    let r := run ch F J fm e im σ
    (r.1, r.2.store (full fm im) im ext a (fun _ => 0) r.1)
  | .asgop d ext a f e, im, σ =>
    let r := run ch F J fm e im σ
    let v := fun l => f ((r.2.lane l).get ext a 0) (r.1 l)
    let v := if d then pick (full fm im) v (J (.asgop d ext a f e) r.2) else v
    (v, (if d then r.2.log (full fm im) fun l => .div ((r.2.lane l).get ext a 0) (r.1 l)
        else r.2).store (full fm im) im ext a (fun _ => 0) v)
  | .post ext a f, im, σ =>
    let v := fun l => (σ.lane l).get ext a 0
    (v, σ.store (full fm im) im ext a (fun _ => 0) fun l => f (v l))
  | .asgi ext a i e, im, σ =>
    let r := run ch F J fm i im σ
    let s := run ch F J fm e im r.2
    (s.1, s.2.store (full fm im) im ext a r.1 s.1)
  | .posti ext a i f, im, σ =>
    let r := run ch F J fm i im σ
    let s := run ch F J fm i im r.2
    let v := pick (full fm im) (fun l => (s.2.lane l).get ext a (s.1 l)) (J (.posti ext a i f) s.2)
    (v, (s.2.log (full fm im) fun l => .read a (s.1 l)).store (full fm im) im ext a r.1
      fun l => f (v l))
  | .uasg x e, im, σ =>
    let r := run ch F J fm e im σ
    (r.1, { r.2 with u := put r.2.u x 0 (uval r.1) })
  | .call f s e, im, σ =>
    let r := run ch F J fm e im σ
    (pick (full fm im) (fun l => (F f (r.1 l) (r.2.lane l).ext).1) (J (.call f s e) r.2),
      r.2.call F (full fm im) f r.1)
  | .and a b, im, σ =>
    let r := run ch F J fm a im σ
    if !sc ch b then
      let s := run ch F J fm b im r.2
      (fun l => b2i (r.1 l != 0 && s.1 l != 0), s.2)
    else if a.isUniform then
      if uval r.1 ≠ 0 then
        let s := run ch F J fm b im r.2
        (fun l => b2i (s.1 l != 0), s.2)
      else (fun _ => 0, r.2)
    else if ∀ l, (r.1 l == 0 && full fm im l) = full fm im l then
      (fun l => b2i (r.1 l != 0), r.2)
    else
      let im' := yes im r.1
      let s := run ch F J fm b im' r.2
      (fun l => b2i ((r.1 l != 0 && full fm im l) && (s.1 l != 0 && im' l)), s.2)
  | .or a b, im, σ =>
    let r := run ch F J fm a im σ
    if !sc ch b then
      let s := run ch F J fm b im r.2
      (fun l => b2i (r.1 l != 0 || s.1 l != 0), s.2)
    else if a.isUniform then
      if uval r.1 ≠ 0 then (fun _ => 1, r.2)
      else
        let s := run ch F J fm b im r.2
        (fun l => b2i (s.1 l != 0), s.2)
    else if ∀ l, (r.1 l != 0 && full fm im l) = full fm im l then
      (fun l => b2i (r.1 l != 0), r.2)
    else
      let im' := no im r.1
      let s := run ch F J fm b im' r.2
      (fun l => b2i ((r.1 l != 0 && full fm im l) || (s.1 l != 0 && im' l)), s.2)
  | .sel t a b, im, σ =>
    let r := run ch F J fm t im σ
    if t.isUniform then
      if uval r.1 ≠ 0 then run ch F J fm a im r.2 else run ch F J fm b im r.2
    else
      let s := if sc ch a && !(yes (full fm im) r.1).any then (J a r.2, r.2)
        else run ch F J fm a (yes im r.1) r.2
      let q := if sc ch b && !(no (full fm im) r.1).any then (J b s.2, s.2)
        else run ch F J fm b (no im r.1) s.2
      (fun l => if r.1 l != 0 then s.1 l else q.1 l, q.2)

/-! ## Proofs -/

/-- No assignment and no call. -/
def effectFree : E → Bool
  | .const _ | .lane | .uvar _ | .var _ _ _ => true
  | .un _ e | .uidx _ e | .idx _ _ e => effectFree e
  | .bin _ a b | .div _ a b | .and a b | .or a b => effectFree a && effectFree b
  | .sel t a b => effectFree t && effectFree a && effectFree b
  | _ => false

/-- No assignment to a uniform variable. -/
def noUnif : E → Bool
  | .const _ | .lane | .uvar _ | .var _ _ _ | .post _ _ _ => true
  | .un _ e | .uidx _ e | .idx _ _ e | .asg _ _ e | .asgop _ _ _ _ e | .call _ _ e
  | .posti _ _ e _ => noUnif e
  | .bin _ a b | .div _ a b | .and a b | .or a b | .asgi _ _ a b => noUnif a && noUnif b
  | .sel t a b => noUnif t && noUnif a && noUnif b
  | .uasg _ _ => false

/-- The right operands of `&&` and `||` that the compiler decides to evaluate anyway neither
assign nor call, and neither do the indices of `x[i]++`. -/
def Tidy (ch : E → Bool) : E → Prop
  | .const _ | .lane | .uvar _ | .var _ _ _ | .post _ _ _ => True
  | .un _ e | .uidx _ e | .idx _ _ e | .asg _ _ e | .asgop _ _ _ _ e | .call _ _ e
  | .uasg _ e => Tidy ch e
  | .posti _ _ e _ => Tidy ch e ∧ effectFree e = true ∧ safe e = true
  | .bin _ a b | .div _ a b | .asgi _ _ a b => Tidy ch a ∧ Tidy ch b
  | .and a b | .or a b => Tidy ch a ∧ Tidy ch b ∧ (sc ch b = false → effectFree b = true)
  | .sel t a b => Tidy ch t ∧ Tidy ch a ∧ Tidy ch b

theorem ser_pure (F : Callee) (u : Nat → Int → Int) (l : Nat) {e : E} (hs : safe e = true)
    (hf : effectFree e = true) (L : Lane) : (ser F u l e L).2 = L := by
  induction e generalizing L <;> simp_all [safe, effectFree, ser] <;> (repeat' split) <;> simp_all

theorem spec_pure [NeZero n] (F : Callee) {e : E} (hs : safe e = true)
    (hf : effectFree e = true) (m : Mask n) (σ : Gang n) : (spec F e m σ).2 = σ := by
  induction e generalizing m σ <;> simp_all [safe, effectFree, spec] <;> (repeat' split) <;> simp_all

theorem noUnif_of_effectFree {e : E} (h : effectFree e = true) : noUnif e = true := by
  induction e <;> simp_all [effectFree, noUnif]

theorem spec_uniform [NeZero n] (F : Callee) {e : E} (ht : e.Typed) (hu : e.isUniform = true)
    (m : Mask n) (σ : Gang n) (l l' : Fin n) : (spec F e m σ).1 l = (spec F e m σ).1 l' := by
  induction e generalizing m σ <;> simp_all [E.isUniform, E.Typed, spec]
  all_goals repeat' split
  all_goals simp_all

theorem run_uniform [NeZero n] (ch : E → Bool) (F : Callee) (J : E → Gang n → Fin n → Int)
    (fm : Mask n) {e : E} (ht : e.Typed) (hu : e.isUniform = true) (im : Mask n) (σ : Gang n)
    (l l' : Fin n) : (run ch F J fm e im σ).1 l = (run ch F J fm e im σ).1 l' := by
  induction e generalizing im σ <;> simp_all [E.isUniform, E.Typed, run]
  all_goals repeat' split
  all_goals simp_all

/-- In the specification, every instance of the mask does what C says, the others nothing. -/
theorem spec_ser [NeZero n] (F : Callee) {e : E} (hn : noUnif e = true) (m : Mask n) (σ : Gang n) :
    (∀ l, m l = true → (spec F e m σ).1 l = (ser F σ.u l e (σ.lane l)).1 ∧
      (spec F e m σ).2.lane l = (ser F σ.u l e (σ.lane l)).2) ∧
    (∀ l, m l = false → (spec F e m σ).2.lane l = σ.lane l) ∧ (spec F e m σ).2.u = σ.u := by
  induction e generalizing m σ with
  | const c => simp [spec, ser]
  | lane => simp [spec, ser]
  | uvar x => simp [spec, ser]
  | var ext a k => simp [spec, ser]
  | un f e ih =>
    obtain ⟨h1, h2, h3⟩ := ih (by simpa [noUnif] using hn) m σ
    refine ⟨fun l h => ?_, fun l h => ?_, ?_⟩ <;> simp_all [spec, ser]
  | bin f a b iha ihb =>
    simp only [noUnif, Bool.and_eq_true] at hn
    obtain ⟨h1, h2, h3⟩ := iha hn.1 m σ
    obtain ⟨g1, g2, g3⟩ := ihb hn.2 m (spec F a m σ).2
    refine ⟨fun l h => ?_, fun l h => ?_, ?_⟩ <;> simp_all [spec, ser]
  | div f a b iha ihb =>
    simp only [noUnif, Bool.and_eq_true] at hn
    obtain ⟨h1, h2, h3⟩ := iha hn.1 m σ
    obtain ⟨g1, g2, g3⟩ := ihb hn.2 m (spec F a m σ).2
    refine ⟨fun l h => ?_, fun l h => ?_, ?_⟩ <;> simp only [spec, ser] <;> split <;>
      simp_all [Gang.log, Gang.upd]
  | uidx a i ih =>
    obtain ⟨h1, h2, h3⟩ := ih (by simpa [noUnif] using hn) m σ
    refine ⟨fun l h => ?_, fun l h => ?_, ?_⟩ <;> simp_all [spec, ser]
  | idx ext a i ih =>
    obtain ⟨h1, h2, h3⟩ := ih (by simpa [noUnif] using hn) m σ
    refine ⟨fun l h => ?_, fun l h => ?_, ?_⟩ <;> simp_all [spec, ser, Gang.log, Gang.upd]
  | asg ext a e ih =>
    obtain ⟨h1, h2, h3⟩ := ih (by simpa [noUnif] using hn) m σ
    refine ⟨fun l h => ?_, fun l h => ?_, ?_⟩ <;> simp_all [spec, ser, Gang.store, Gang.upd]
  | asgop d ext a f e ih =>
    obtain ⟨h1, h2, h3⟩ := ih (by simpa [noUnif] using hn) m σ
    refine ⟨fun l h => ?_, fun l h => ?_, ?_⟩ <;> cases d <;>
      simp_all [spec, ser, Gang.store, Gang.upd, Gang.log]
  | post ext a f =>
    refine ⟨fun l h => ?_, fun l h => ?_, ?_⟩ <;> simp_all [spec, ser, Gang.store, Gang.upd]
  | posti ext a i f ih =>
    obtain ⟨h1, h2, h3⟩ := ih (by simpa [noUnif] using hn) m σ
    refine ⟨fun l h => ?_, fun l h => ?_, ?_⟩ <;>
      simp_all [spec, ser, Gang.store, Gang.upd, Gang.log]
  | asgi ext a i e iha ihb =>
    simp only [noUnif, Bool.and_eq_true] at hn
    obtain ⟨h1, h2, h3⟩ := iha hn.1 m σ
    obtain ⟨g1, g2, g3⟩ := ihb hn.2 m (spec F i m σ).2
    refine ⟨fun l h => ?_, fun l h => ?_, ?_⟩ <;> simp_all [spec, ser, Gang.store, Gang.upd]
  | uasg x e ih => simp [noUnif] at hn
  | call f s e ih =>
    obtain ⟨h1, h2, h3⟩ := ih (by simpa [noUnif] using hn) m σ
    refine ⟨fun l h => ?_, fun l h => ?_, ?_⟩ <;> simp_all [spec, ser, Gang.call, Gang.upd]
  | and a b iha ihb =>
    simp only [noUnif, Bool.and_eq_true] at hn
    obtain ⟨h1, h2, h3⟩ := iha hn.1 m σ
    obtain ⟨g1, g2, g3⟩ := ihb hn.2 (yes m (spec F a m σ).1) (spec F a m σ).2
    refine ⟨fun l h => ?_, fun l h => ?_, ?_⟩
    · obtain ⟨p1, p2⟩ := h1 l h
      simp only [spec, ser]
      split
      · by_cases hz : (spec F a m σ).1 l = 0
        · simp_all [yes]
        · have hy : yes m (spec F a m σ).1 l = true := by simp [yes, h, hz]
          simp_all
      · rename_i hany
        have hz : (spec F a m σ).1 l = 0 := by
          by_contra hc
          exact hany (by simp only [Mask.any, decide_eq_true_eq]; exact ⟨l, by simp [yes, h, hc]⟩)
        simp_all
    · simp only [spec]
      split
      · simp_all [yes]
      · exact h2 l h
    · simp only [spec]
      split <;> simp_all
  | or a b iha ihb =>
    simp only [noUnif, Bool.and_eq_true] at hn
    obtain ⟨h1, h2, h3⟩ := iha hn.1 m σ
    obtain ⟨g1, g2, g3⟩ := ihb hn.2 (no m (spec F a m σ).1) (spec F a m σ).2
    refine ⟨fun l h => ?_, fun l h => ?_, ?_⟩
    · obtain ⟨p1, p2⟩ := h1 l h
      simp only [spec, ser]
      split
      · by_cases hz : (spec F a m σ).1 l = 0
        · have hy : no m (spec F a m σ).1 l = true := by simp [no, h, hz]
          simp_all
        · simp_all [no]
      · rename_i hany
        have hz : (spec F a m σ).1 l ≠ 0 := by
          intro hc
          exact hany (by simp only [Mask.any, decide_eq_true_eq]; exact ⟨l, by simp [no, h, hc]⟩)
        simp_all
    · simp only [spec]
      split
      · simp_all [no]
      · exact h2 l h
    · simp only [spec]
      split <;> simp_all
  | sel t a b iht iha ihb =>
    simp only [noUnif, Bool.and_eq_true] at hn
    obtain ⟨h1, h2, h3⟩ := iht hn.1.1 m σ
    simp only [spec, ser]
    generalize hr : spec F t m σ = r at *
    -- the branch taken where the test holds
    have ha : ∃ s, s = (if (yes m r.1).any then spec F a (yes m r.1) r.2 else (fun _ => 0, r.2)) ∧
        (∀ l, yes m r.1 l = true → s.1 l = (ser F r.2.u l a (r.2.lane l)).1 ∧
          s.2.lane l = (ser F r.2.u l a (r.2.lane l)).2) ∧
        (∀ l, yes m r.1 l = false → s.2.lane l = r.2.lane l) ∧ s.2.u = r.2.u := by
      refine ⟨_, rfl, ?_⟩
      split
      · exact iha hn.1.2 _ _
      · rename_i hany
        refine ⟨fun l h => ?_, fun l h => rfl, rfl⟩
        exact absurd (by simp only [Mask.any, decide_eq_true_eq]; exact ⟨l, h⟩) hany
    obtain ⟨s, hs, a1, a2, a3⟩ := ha
    rw [← hs]
    have hb : ∃ q, q = (if (no m r.1).any then spec F b (no m r.1) s.2 else (fun _ => 0, s.2)) ∧
        (∀ l, no m r.1 l = true → q.1 l = (ser F s.2.u l b (s.2.lane l)).1 ∧
          q.2.lane l = (ser F s.2.u l b (s.2.lane l)).2) ∧
        (∀ l, no m r.1 l = false → q.2.lane l = s.2.lane l) ∧ q.2.u = s.2.u := by
      refine ⟨_, rfl, ?_⟩
      split
      · exact ihb hn.2 _ _
      · rename_i hany
        refine ⟨fun l h => ?_, fun l h => rfl, rfl⟩
        exact absurd (by simp only [Mask.any, decide_eq_true_eq]; exact ⟨l, h⟩) hany
    obtain ⟨q, hq, b1, b2, b3⟩ := hb
    rw [← hq]
    clear hs hq iht iha ihb
    refine ⟨fun l h => ?_, fun l h => ?_, by rw [b3, a3, h3]⟩
    · obtain ⟨p1, p2⟩ := h1 l h
      by_cases hz : r.1 l = 0
      · have hy : no m r.1 l = true := by simp [no, h, hz]
        have hn : yes m r.1 l = false := by simp [yes, h, hz]
        have := b1 l hy
        have := a2 l hn
        simp_all
      · have hn : no m r.1 l = false := by simp [no, h, hz]
        have hy : yes m r.1 l = true := by simp [yes, h, hz]
        have := a1 l hy
        have := b2 l hn
        simp_all
    · rw [b2 l (by simp [no, h]), a2 l (by simp [yes, h]), h2 l h]

/-- The two memories differ at most in local variables of instances that are off in the
function's mask. -/
structure Sim (fm : Mask n) (σ τ : Gang n) : Prop where
  u : σ.u = τ.u
  ulog : σ.ulog = τ.ulog
  on : ∀ l, fm l = true → σ.lane l = τ.lane l
  ext : ∀ l, (σ.lane l).ext = (τ.lane l).ext
  log : ∀ l, (σ.lane l).log = (τ.lane l).log

theorem Sim.refl (fm : Mask n) (σ : Gang n) : Sim fm σ σ :=
  ⟨rfl, rfl, fun _ _ => rfl, fun _ => rfl, fun _ => rfl⟩

theorem Sim.trans {fm : Mask n} {σ τ ρ : Gang n} (h : Sim fm σ τ) (k : Sim fm τ ρ) :
    Sim fm σ ρ :=
  ⟨h.u.trans k.u, h.ulog.trans k.ulog, fun l hl => (h.on l hl).trans (k.on l hl),
    fun l => (h.ext l).trans (k.ext l), fun l => (h.log l).trans (k.log l)⟩

theorem full_fm {fm im : Mask n} {l : Fin n} (h : full fm im l = true) : fm l = true := by
  simp [full] at h; exact h.2

theorem Sim.store {fm im : Mask n} {σ τ : Gang n} (h : Sim fm σ τ) (ext : Bool) (a : Nat)
    {i i' v v' : Fin n → Int} (hi : ∀ l, full fm im l = true → i l = i' l)
    (hv : ∀ l, full fm im l = true → v l = v' l) :
    Sim fm (σ.store (full fm im) im ext a i v) (τ.store (full fm im) (full fm im) ext a i' v') := by
  refine ⟨h.u, h.ulog, fun l hl => ?_, fun l => ?_, fun l => ?_⟩
  · cases ext
    · by_cases hm : im l = true
      · have hf : full fm im l = true := by simp [full, hm, hl]
        simp [Gang.store, Gang.upd, hm, hf, h.on l hl, hi l hf, hv l hf]
      · have hf : full fm im l = false := by simp [full, hm]
        simp [Gang.store, Gang.upd, hm, hf, h.on l hl]
    · by_cases hf : full fm im l = true
      · simp [Gang.store, Gang.upd, hf, h.on l hl, hi l hf, hv l hf]
      · simp [Gang.store, Gang.upd, hf, h.on l hl]
  · cases ext
    · simp only [Gang.store, Gang.upd, Lane.set, Bool.false_eq_true, if_false]
      split <;> split <;> simp [h.ext l]
    · by_cases hf : full fm im l = true
      · simp [Gang.store, Gang.upd, hf, h.on l (full_fm hf), hi l hf, hv l hf]
      · simp [Gang.store, Gang.upd, hf, h.ext l]
  · cases ext
    · simp only [Gang.store, Gang.upd, Lane.set, Bool.false_eq_true, if_false]
      split <;> split <;> simp [h.log l]
    · simp only [Gang.store, Gang.upd, Lane.set, if_true]
      split <;> simp [h.log l]

theorem Sim.logs {fm im : Mask n} {σ τ : Gang n} (h : Sim fm σ τ) {ev ev' : Fin n → Event}
    (he : ∀ l, full fm im l = true → ev l = ev' l) :
    Sim fm (σ.log (full fm im) ev) (τ.log (full fm im) ev') := by
  refine ⟨h.u, h.ulog, fun l hl => ?_, fun l => ?_, fun l => ?_⟩ <;>
  · by_cases hf : full fm im l = true
    · simp [Gang.log, Gang.upd, hf, Lane.did, he l hf, h.on l (full_fm hf)]
    · first
      | simp [Gang.log, Gang.upd, hf, h.on l hl]
      | simp [Gang.log, Gang.upd, hf, h.ext l, h.log l]

theorem Sim.call {fm im : Mask n} {σ τ : Gang n} (h : Sim fm σ τ) (F : Callee) (f : Nat)
    {x x' : Fin n → Int} (he : ∀ l, full fm im l = true → x l = x' l) :
    Sim fm (σ.call F (full fm im) f x) (τ.call F (full fm im) f x') := by
  refine ⟨h.u, h.ulog, fun l hl => ?_, fun l => ?_, fun l => ?_⟩ <;>
  · by_cases hf : full fm im l = true
    · simp [Gang.call, Gang.upd, hf, Lane.did, he l hf, h.on l (full_fm hf)]
    · first
      | simp [Gang.call, Gang.upd, hf, h.on l hl]
      | simp [Gang.call, Gang.upd, hf, h.ext l, h.log l]

theorem Sim.off {fm im : Mask n} (hoff : ∀ l, full fm im l = false) (σ : Gang n) (ext : Bool)
    (a : Nat) (i v : Fin n → Int) : Sim fm (σ.store (full fm im) im ext a i v) σ := by
  refine ⟨rfl, rfl, fun l hl => ?_, fun l => ?_, fun l => ?_⟩
  · have : im l = false := by have := hoff l; simp_all [full]
    cases ext <;> simp [Gang.store, Gang.upd, this, hoff l]
  · cases ext
    · simp only [Gang.store, Gang.upd, Lane.set, Bool.false_eq_true, if_false]
      split <;> rfl
    · simp [Gang.store, Gang.upd, hoff l]
  · cases ext
    · simp only [Gang.store, Gang.upd, Lane.set, Bool.false_eq_true, if_false]
      split <;> rfl
    · simp [Gang.store, Gang.upd, hoff l]

theorem log_off {m : Mask n} (hoff : ∀ l, m l = false) (σ : Gang n) (ev : Fin n → Event) :
    σ.log m ev = σ := by
  simp [Gang.log, Gang.upd, hoff]

theorem call_off {m : Mask n} (hoff : ∀ l, m l = false) (σ : Gang n) (F : Callee) (f : Nat)
    (x : Fin n → Int) : σ.call F m f x = σ := by
  simp [Gang.call, Gang.upd, hoff]

theorem off_sub {fm im im' : Mask n} (hoff : ∀ l, full fm im l = false)
    (h : ∀ l, im' l = true → im l = true) : ∀ l, full fm im' l = false := by
  intro l
  have := hoff l
  have := h l
  simp only [full, Bool.and_eq_false_iff] at *
  cases hi : im' l <;> simp_all

theorem yes_sub {m : Mask n} {v : Fin n → Int} (l : Fin n) (h : yes m v l = true) : m l = true := by
  simp [yes] at h; exact h.1

theorem no_sub {m : Mask n} {v : Fin n → Int} (l : Fin n) (h : no m v l = true) : m l = true := by
  simp [no] at h; exact h.1

/-- What the compiler takes to be safe with the mask all off does nothing then. -/
theorem safe_off [NeZero n] (ch : E → Bool) (F : Callee) (J : E → Gang n → Fin n → Int)
    (fm : Mask n) {e : E} (hs : safe e = true) {im : Mask n} (hoff : ∀ l, full fm im l = false)
    (σ : Gang n) : Sim fm (run ch F J fm e im σ).2 σ := by
  induction e generalizing im σ with
  | const c => exact .refl _ _
  | lane => exact .refl _ _
  | uvar x => exact .refl _ _
  | var ext a k => exact .refl _ _
  | un f e ih => exact ih hs hoff σ
  | bin f a b iha ihb =>
    simp only [safe, Bool.and_eq_true] at hs
    exact (ihb hs.2 hoff _).trans (iha hs.1 hoff σ)
  | div f a b iha ihb => simp [safe] at hs
  | uidx a i ih => simp [safe] at hs
  | idx ext a i ih => simp [safe] at hs
  | asg ext a e ih => exact (Sim.off hoff _ ext a _ _).trans (ih hs hoff σ)
  | asgop d ext a f e ih =>
    simp only [run]
    cases d
    · exact (Sim.off hoff _ ext a _ _).trans (ih hs hoff σ)
    · refine (Sim.off hoff _ ext a _ _).trans ?_
      simp only [if_true]
      rw [log_off hoff]
      exact ih hs hoff σ
  | post ext a f => exact Sim.off hoff _ ext a _ _
  | posti ext a i f ih => simp [safe] at hs
  | asgi ext a i e iha ihb => simp [safe] at hs
  | uasg x e ih => simp [safe] at hs
  | call f s e ih =>
    simp only [safe, Bool.and_eq_true] at hs
    simp only [run]
    rw [call_off hoff]
    exact ih hs.2 hoff σ
  | and a b iha ihb =>
    simp only [safe, Bool.and_eq_true] at hs
    simp only [run]
    have ha := iha hs.1 hoff σ
    repeat' split
    all_goals first
      | exact ha
      | exact (ihb hs.2 hoff _).trans ha
      | exact (ihb hs.2 (off_sub hoff yes_sub) _).trans ha
  | or a b iha ihb =>
    simp only [safe, Bool.and_eq_true] at hs
    simp only [run]
    have ha := iha hs.1 hoff σ
    repeat' split
    all_goals first
      | exact ha
      | exact (ihb hs.2 hoff _).trans ha
      | exact (ihb hs.2 (off_sub hoff no_sub) _).trans ha
  | sel t a b iht iha ihb =>
    simp only [safe, Bool.and_eq_true] at hs
    simp only [run]
    have ht := iht hs.1.1 hoff σ
    split
    · split
      · exact (iha hs.1.2 hoff _).trans ht
      · exact (ihb hs.2 hoff _).trans ht
    · have h1 : ∀ v, ∀ l, full fm (yes im v) l = false := fun v => off_sub hoff yes_sub
      have h2 : ∀ v, ∀ l, full fm (no im v) l = false := fun v => off_sub hoff no_sub
      have ha := (iha hs.1.2 (h1 (run ch F J fm t im σ).1) (run ch F J fm t im σ).2).trans ht
      have hb := fun τ => ihb hs.2 (h2 (run ch F J fm t im σ).1) τ
      repeat' split
      all_goals first
        | exact ht
        | exact ha
        | exact (hb _).trans ht
        | exact (hb _).trans ha

theorem any_iff (m : Mask n) : m.any = true ↔ ∃ l, m l = true := by
  simp [Mask.any]

theorem uval_eq [NeZero n] {v w : Fin n → Int} {m : Mask n} (hm : ∃ l, m l = true)
    (h : ∀ l, m l = true → v l = w l) (hv : ∀ l l', v l = v l') (hw : ∀ l l', w l = w l') :
    uval v = uval w := by
  obtain ⟨l, hl⟩ := hm
  unfold uval
  rw [hv 0 l, h l hl, hw l 0]

theorem full_yes {fm im : Mask n} {v w : Fin n → Int}
    (h : ∀ l, full fm im l = true → v l = w l) : full fm (yes im v) = yes (full fm im) w := by
  funext l
  specialize h l
  simp only [full, yes] at *
  cases hi : im l <;> cases hf : fm l <;> simp only [Bool.false_and, Bool.and_false, Bool.true_and,
    Bool.and_true]
  rw [h (by simp [hi, hf])]

theorem full_no {fm im : Mask n} {v w : Fin n → Int}
    (h : ∀ l, full fm im l = true → v l = w l) : full fm (no im v) = no (full fm im) w := by
  funext l
  specialize h l
  simp only [full, no] at *
  cases hi : im l <;> cases hf : fm l <;> simp only [Bool.false_and, Bool.and_false, Bool.true_and,
    Bool.and_true]
  rw [h (by simp [hi, hf])]

theorem yes_congr {m : Mask n} {v w : Fin n → Int} (h : ∀ l, m l = true → v l = w l) :
    yes m v = yes m w := by
  funext l
  have := h l
  simp only [yes] at *
  cases hm : m l <;> simp_all

theorem no_congr {m : Mask n} {v w : Fin n → Int} (h : ∀ l, m l = true → v l = w l) :
    no m v = no m w := by
  funext l
  have := h l
  simp only [no] at *
  cases hm : m l <;> simp_all

theorem sc_false {ch : E → Bool} {e : E} (h : sc ch e = false) : safe e = true := by
  simp [sc] at h; exact h.2

/-- The emitted code does what the specification of the gang says. -/
theorem run_spec [NeZero n] (ch : E → Bool) (F : Callee) (J : E → Gang n → Fin n → Int)
    (fm : Mask n) {e : E} (ht : e.Typed) (hd : Tidy ch e) {im : Mask n} {σ τ : Gang n}
    (h : Sim fm σ τ) (hany : ∃ l, full fm im l = true) :
    (∀ l, full fm im l = true → (run ch F J fm e im σ).1 l = (spec F e (full fm im) τ).1 l) ∧
      Sim fm (run ch F J fm e im σ).2 (spec F e (full fm im) τ).2 := by
  induction e generalizing im σ τ with
  | const c => exact ⟨fun _ _ => rfl, h⟩
  | lane => exact ⟨fun _ _ => rfl, h⟩
  | uvar x => exact ⟨fun _ _ => by simp [run, spec, h.u], h⟩
  | var ext a k => exact ⟨fun l hl => by simp [run, spec, h.on l (full_fm hl)], h⟩
  | un f e ih =>
    obtain ⟨h1, h2⟩ := ih ht hd h hany
    exact ⟨fun l hl => by simp [run, spec, h1 l hl], h2⟩
  | bin f a b iha ihb =>
    obtain ⟨a1, a2⟩ := iha ht.1 hd.1 h hany
    obtain ⟨b1, b2⟩ := ihb ht.2 hd.2 a2 hany
    exact ⟨fun l hl => by simp [run, spec, a1 l hl, b1 l hl], b2⟩
  | div f a b iha ihb =>
    obtain ⟨a1, a2⟩ := iha ht.1 hd.1 h hany
    obtain ⟨b1, b2⟩ := ihb ht.2 hd.2 a2 hany
    simp only [run, spec]
    by_cases hu : (a.isUniform && b.isUniform) = true
    · simp only [hu, if_true]
      simp only [Bool.and_eq_true] at hu
      refine ⟨fun l hl => by simp [a1 l hl, b1 l hl], b2.u, ?_, b2.on, b2.ext, b2.log⟩
      simp only
      rw [b2.ulog, uval_eq hany a1 (run_uniform _ _ _ _ ht.1 hu.1 _ _) (spec_uniform _ ht.1 hu.1 _ _),
        uval_eq hany b1 (run_uniform _ _ _ _ ht.2 hu.2 _ _) (spec_uniform _ ht.2 hu.2 _ _)]
    · simp only [hu, if_false, Bool.false_eq_true]
      exact ⟨fun l hl => by simp [pick, hl, a1 l hl, b1 l hl],
        b2.logs fun l hl => by rw [a1 l hl, b1 l hl]⟩
  | uidx a i ih =>
    obtain ⟨h1, h2⟩ := ih ht.2 hd h hany
    refine ⟨fun l hl => by simp [run, spec, h1 l hl, h2.u], h2.u, ?_, h2.on, h2.ext, h2.log⟩
    simp only [run, spec]
    rw [h2.ulog, uval_eq hany h1 (run_uniform _ _ _ _ ht.2 ht.1 _ _) (spec_uniform _ ht.2 ht.1 _ _)]
  | idx ext a i ih =>
    obtain ⟨h1, h2⟩ := ih ht hd h hany
    exact ⟨fun l hl => by simp [run, spec, pick, hl, h1 l hl, h2.on l (full_fm hl)],
      h2.logs fun l hl => by rw [h1 l hl]⟩
  | asg ext a e ih =>
    obtain ⟨h1, h2⟩ := ih ht hd h hany
    exact ⟨h1, h2.store ext a (fun _ _ => rfl) h1⟩
  | asgop d ext a f e ih =>
    obtain ⟨h1, h2⟩ := ih ht hd h hany
    simp only [run, spec]
    cases d
    · simp only [Bool.false_eq_true, if_false]
      have hv : ∀ l, full fm im l = true →
          f (((run ch F J fm e im σ).2.lane l).get ext a 0) ((run ch F J fm e im σ).1 l) =
          f (((spec F e (full fm im) τ).2.lane l).get ext a 0) ((spec F e (full fm im) τ).1 l) :=
        fun l hl => by rw [h1 l hl, h2.on l (full_fm hl)]
      exact ⟨hv, h2.store ext a (fun _ _ => rfl) hv⟩
    · simp only [if_true]
      have hv : ∀ l, full fm im l = true → pick (full fm im) (fun l =>
          f (((run ch F J fm e im σ).2.lane l).get ext a 0) ((run ch F J fm e im σ).1 l))
            (J (.asgop true ext a f e) (run ch F J fm e im σ).2) l =
          f (((spec F e (full fm im) τ).2.lane l).get ext a 0) ((spec F e (full fm im) τ).1 l) :=
        fun l hl => by simp [pick, hl, h1 l hl, h2.on l (full_fm hl)]
      exact ⟨hv, (h2.logs fun l hl => by rw [h1 l hl, h2.on l (full_fm hl)]).store ext a
        (fun _ _ => rfl) hv⟩
  | post ext a f =>
    simp only [run, spec]
    exact ⟨fun l hl => by rw [h.on l (full_fm hl)],
      h.store ext a (fun _ _ => rfl) fun l hl => by rw [h.on l (full_fm hl)]⟩
  | posti ext a i f ih =>
    obtain ⟨hd, hf, hs⟩ := hd
    obtain ⟨h1, h2⟩ := ih ht hd h hany
    obtain ⟨g1, g2⟩ := ih ht hd (h2.trans (by rw [spec_pure F hs hf]; exact Sim.refl _ _)) hany
    simp only [run, spec]
    rw [spec_pure F hs hf] at g2 ⊢
    have hv : ∀ l, full fm im l = true → pick (full fm im) (fun l =>
          (((run ch F J fm i im (run ch F J fm i im σ).2).2.lane l).get ext a
            ((run ch F J fm i im (run ch F J fm i im σ).2).1 l)))
            (J (.posti ext a i f) (run ch F J fm i im (run ch F J fm i im σ).2).2) l =
          (τ.lane l).get ext a ((spec F i (full fm im) τ).1 l) :=
      fun l hl => by simp only [pick, hl, if_true]; rw [g1 l hl, g2.on l (full_fm hl)]
    exact ⟨hv, (g2.logs fun l hl => by rw [g1 l hl]).store ext a h1 fun l hl => by rw [hv l hl]⟩
  | asgi ext a i e iha ihb =>
    obtain ⟨a1, a2⟩ := iha ht.1 hd.1 h hany
    obtain ⟨b1, b2⟩ := ihb ht.2 hd.2 a2 hany
    exact ⟨b1, b2.store ext a a1 b1⟩
  | uasg x e ih =>
    obtain ⟨h1, h2⟩ := ih ht.2 hd h hany
    refine ⟨h1, ?_, h2.ulog, h2.on, h2.ext, h2.log⟩
    simp only [run, spec]
    rw [h2.u, uval_eq hany h1 (run_uniform _ _ _ _ ht.2 ht.1 _ _) (spec_uniform _ ht.2 ht.1 _ _)]
  | call f s e ih =>
    obtain ⟨h1, h2⟩ := ih ht hd h hany
    exact ⟨fun l hl => by simp [run, spec, pick, hl, h1 l hl, h2.on l (full_fm hl)],
      h2.call F f h1⟩
  | and a b iha ihb =>
    obtain ⟨hd1, hd2, hd3⟩ := hd
    obtain ⟨a1, a2⟩ := iha ht.1 hd1 h hany
    simp only [run, spec]
    have hur := fun hu => run_uniform ch F J fm ht.1 hu im σ
    have hus := fun hu => spec_uniform F ht.1 hu (full fm im) τ
    generalize run ch F J fm a im σ = r at *
    generalize spec F a (full fm im) τ = r' at *
    by_cases hsc : sc ch b = true
    · simp only [hsc, Bool.not_true, Bool.false_eq_true, if_false]
      by_cases hu : a.isUniform = true
      · have huv := uval_eq hany a1 (hur hu) (hus hu)
        have hall : ∀ l, r'.1 l = uval r'.1 := fun l => hus hu l 0
        simp only [hu, if_true]
        rw [huv]
        by_cases hz : uval r'.1 = 0
        · have hno : ¬ (yes (full fm im) r'.1).any = true := by
            rw [any_iff]; rintro ⟨l, hl⟩; simp [yes, hall l, hz] at hl
          simp only [hz, hno, ne_eq, not_true_eq_false, if_false]
          exact ⟨fun _ _ => rfl, a2⟩
        · have hy : yes (full fm im) r'.1 = full fm im := by
            funext l; simp [yes, hall l, hz]
          have hya : (full fm im).any = true := (any_iff _).mpr hany
          obtain ⟨b1, b2⟩ := ihb ht.2 hd2 a2 hany
          simp only [hz, hy, hya, ne_eq, not_false_eq_true, if_true]
          exact ⟨fun l hl => by simp [b1 l hl, hall l, hz], b2⟩
      · simp only [hu, if_false, Bool.false_eq_true]
        have hfy := full_yes a1
        by_cases hy : (yes (full fm im) r'.1).any = true
        · have hskip : ¬ ∀ l, (r.1 l == 0 && full fm im l) = full fm im l := by
            intro hc
            obtain ⟨l, hl⟩ := (any_iff _).mp hy
            have hfl := yes_sub l hl
            have := hc l
            simp [yes, hfl] at hl
            simp [hfl, a1 l hfl, hl] at this
          simp only [hskip, hy, if_true, if_false]
          obtain ⟨b1, b2⟩ := ihb ht.2 hd2 a2 (im := yes im r.1) (by rw [hfy]; exact (any_iff _).mp hy)
          rw [hfy] at b1 b2
          refine ⟨fun l hl => ?_, b2⟩
          by_cases hz : r'.1 l = 0
          · simp [a1 l hl, hz, b2i]
          · have him : im l = true := by simp [full] at hl; exact hl.1
            have := b1 l (by simp [yes, hl, hz])
            have hb : (r'.1 l != 0) = true := by simpa using hz
            simp [a1 l hl, hz, hl, yes, him, this, hb]
        · have hskip : ∀ l, (r.1 l == 0 && full fm im l) = full fm im l := by
            intro l
            by_cases hfl : full fm im l = true
            · have : r'.1 l = 0 := by
                by_contra hc
                exact hy ((any_iff _).mpr ⟨l, by simp [yes, hfl, hc]⟩)
              simp [hfl, a1 l hfl, this]
            · simp [hfl]
          rw [if_pos hskip]
          simp only [hy, if_false, Bool.false_eq_true]
          refine ⟨fun l hl => ?_, a2⟩
          have := hskip l
          simp [hl] at this
          simp [this, b2i]
    · have hsf : sc ch b = false := by simpa using hsc
      have hsb := sc_false hsf
      have hfb := hd3 hsf
      have hnb := noUnif_of_effectFree hfb
      obtain ⟨b1, b2⟩ := ihb ht.2 hd2 a2 hany
      rw [spec_pure F hsb hfb] at b2
      simp only [hsf, Bool.not_false, if_true]
      refine ⟨fun l hl => ?_, ?_⟩
      · have hv := ((spec_ser F hnb (full fm im) r'.2).1 l hl).1
        rw [a1 l hl, b1 l hl]
        by_cases hz : r'.1 l = 0
        · split <;> simp [hz, b2i]
        · have hyl : yes (full fm im) r'.1 l = true := by simp [yes, hl, hz]
          have hv' := ((spec_ser F hnb (yes (full fm im) r'.1) r'.2).1 l hyl).1
          rw [if_pos ((any_iff _).mpr ⟨l, hyl⟩)]
          have hb : (r'.1 l != 0) = true := by simpa using hz
          simp [hv, hv', hz, hb]
      · split
        · rw [spec_pure F hsb hfb]; exact b2
        · exact b2
  | or a b iha ihb =>
    obtain ⟨hd1, hd2, hd3⟩ := hd
    obtain ⟨a1, a2⟩ := iha ht.1 hd1 h hany
    simp only [run, spec]
    have hur := fun hu => run_uniform ch F J fm ht.1 hu im σ
    have hus := fun hu => spec_uniform F ht.1 hu (full fm im) τ
    generalize run ch F J fm a im σ = r at *
    generalize spec F a (full fm im) τ = r' at *
    by_cases hsc : sc ch b = true
    · simp only [hsc, Bool.not_true, Bool.false_eq_true, if_false]
      by_cases hu : a.isUniform = true
      · have huv := uval_eq hany a1 (hur hu) (hus hu)
        have hall : ∀ l, r'.1 l = uval r'.1 := fun l => hus hu l 0
        simp only [hu, if_true]
        rw [huv]
        by_cases hz : uval r'.1 = 0
        · have hy : no (full fm im) r'.1 = full fm im := by
            funext l; simp [no, hall l, hz]
          have hya : (full fm im).any = true := (any_iff _).mpr hany
          obtain ⟨b1, b2⟩ := ihb ht.2 hd2 a2 hany
          simp only [hz, hy, hya, ne_eq, not_true_eq_false, if_true, if_false]
          exact ⟨fun l hl => by simp [b1 l hl, hall l, hz], b2⟩
        · have hno : ¬ (no (full fm im) r'.1).any = true := by
            rw [any_iff]; rintro ⟨l, hl⟩; simp [no, hall l, hz] at hl
          simp only [hz, hno, ne_eq, not_false_eq_true, if_true]
          exact ⟨fun _ _ => rfl, a2⟩
      · simp only [hu, if_false, Bool.false_eq_true]
        have hfy := full_no a1
        by_cases hy : (no (full fm im) r'.1).any = true
        · have hskip : ¬ ∀ l, (r.1 l != 0 && full fm im l) = full fm im l := by
            intro hc
            obtain ⟨l, hl⟩ := (any_iff _).mp hy
            have hfl := no_sub l hl
            have := hc l
            simp [no, hfl] at hl
            simp [hfl, a1 l hfl, hl] at this
          simp only [hskip, hy, if_true, if_false]
          obtain ⟨b1, b2⟩ := ihb ht.2 hd2 a2 (im := no im r.1) (by rw [hfy]; exact (any_iff _).mp hy)
          rw [hfy] at b1 b2
          refine ⟨fun l hl => ?_, b2⟩
          by_cases hz : r'.1 l = 0
          · have him : im l = true := by simp [full] at hl; exact hl.1
            have := b1 l (by simp [no, hl, hz])
            simp [a1 l hl, hz, no, him, this]
          · simp [a1 l hl, hz, hl, b2i]
        · have hskip : ∀ l, (r.1 l != 0 && full fm im l) = full fm im l := by
            intro l
            by_cases hfl : full fm im l = true
            · have : r'.1 l ≠ 0 := by
                intro hc
                exact hy ((any_iff _).mpr ⟨l, by simp [no, hfl, hc]⟩)
              simp [hfl, a1 l hfl, this]
            · simp [hfl]
          rw [if_pos hskip]
          simp only [hy, if_false, Bool.false_eq_true]
          refine ⟨fun l hl => ?_, a2⟩
          have := hskip l
          simp [hl] at this
          simp [this, b2i]
    · have hsf : sc ch b = false := by simpa using hsc
      have hsb := sc_false hsf
      have hfb := hd3 hsf
      have hnb := noUnif_of_effectFree hfb
      obtain ⟨b1, b2⟩ := ihb ht.2 hd2 a2 hany
      rw [spec_pure F hsb hfb] at b2
      simp only [hsf, Bool.not_false, if_true]
      refine ⟨fun l hl => ?_, ?_⟩
      · have hv := ((spec_ser F hnb (full fm im) r'.2).1 l hl).1
        rw [a1 l hl, b1 l hl]
        by_cases hz : r'.1 l = 0
        · have hyl : no (full fm im) r'.1 l = true := by simp [no, hl, hz]
          have hv' := ((spec_ser F hnb (no (full fm im) r'.1) r'.2).1 l hyl).1
          rw [if_pos ((any_iff _).mpr ⟨l, hyl⟩)]
          simp [hv, hv', hz]
        · split <;> simp [hz, b2i]
      · split
        · rw [spec_pure F hsb hfb]; exact b2
        · exact b2
  | sel t a b iht iha ihb =>
    obtain ⟨hd1, hd2, hd3⟩ := hd
    obtain ⟨ht1, ht2, ht3⟩ := ht
    obtain ⟨t1, t2⟩ := iht ht1 hd1 h hany
    simp only [run, spec]
    have hur := fun hu => run_uniform ch F J fm ht1 hu im σ
    have hus := fun hu => spec_uniform F ht1 hu (full fm im) τ
    generalize run ch F J fm t im σ = r at *
    generalize spec F t (full fm im) τ = r' at *
    by_cases hu : t.isUniform = true
    · have huv := uval_eq hany t1 (hur hu) (hus hu)
      have hall : ∀ l, r'.1 l = uval r'.1 := fun l => hus hu l 0
      have hya : (full fm im).any = true := (any_iff _).mpr hany
      simp only [hu, if_true]
      rw [huv]
      by_cases hz : uval r'.1 = 0
      · have hy : no (full fm im) r'.1 = full fm im := by
          funext l; simp [no, hall l, hz]
        have hno : ¬ (yes (full fm im) r'.1).any = true := by
          rw [any_iff]; rintro ⟨l, hl⟩; simp [yes, hall l, hz] at hl
        obtain ⟨b1, b2⟩ := ihb ht3 hd3 t2 hany
        simp only [hz, hy, hya, hno, ne_eq, not_true_eq_false, if_true, if_false]
        exact ⟨fun l hl => by simp [b1 l hl, hall l, hz], b2⟩
      · have hy : yes (full fm im) r'.1 = full fm im := by
          funext l; simp [yes, hall l, hz]
        have hno : ¬ (no (full fm im) r'.1).any = true := by
          rw [any_iff]; rintro ⟨l, hl⟩; simp [no, hall l, hz] at hl
        obtain ⟨b1, b2⟩ := iha ht2 hd2 t2 hany
        simp only [hz, hy, hya, hno, ne_eq, not_false_eq_true, if_true]
        exact ⟨fun l hl => by simp [b1 l hl, hall l, hz], b2⟩
    · simp only [hu, if_false, Bool.false_eq_true]
      rw [yes_congr t1, no_congr t1]
      have hfy := full_yes t1
      have hfn := full_no t1
      -- one branch
      have branch : ∀ (e : E) (m : Mask n) (σ τ : Gang n), Sim fm σ τ →
          ((∃ l, full fm m l = true) →
            (∀ l, full fm m l = true → (run ch F J fm e m σ).1 l = (spec F e (full fm m) τ).1 l) ∧
            Sim fm (run ch F J fm e m σ).2 (spec F e (full fm m) τ).2) →
          ∀ j, let s := if sc ch e && !(full fm m).any then (j, σ) else run ch F J fm e m σ
            let s' := if (full fm m).any then spec F e (full fm m) τ else (fun _ => 0, τ)
            (∀ l, full fm m l = true → s.1 l = s'.1 l) ∧ Sim fm s.2 s'.2 := by
        intro e m σ τ hst ih j
        by_cases ha : (full fm m).any = true
        · simp only [ha, Bool.not_true, Bool.and_false, Bool.false_eq_true, if_false, if_true]
          exact ih ((any_iff _).mp ha)
        · have hoff : ∀ l, full fm m l = false := by
            intro l
            by_contra hc
            exact ha ((any_iff _).mpr ⟨l, by simpa using hc⟩)
          simp only [ha, Bool.not_false, Bool.and_true, if_false, Bool.false_eq_true]
          refine ⟨fun l hl => by simp [hoff l] at hl, ?_⟩
          split
          · exact hst
          · rename_i hsc
            exact (safe_off ch F J fm (sc_false (by simpa using hsc)) hoff σ).trans hst
      have hA := branch a (yes im r.1) r.2 r'.2 t2 (fun hx => iha ht2 hd2 t2 hx) (J a r.2)
      rw [hfy] at hA
      obtain ⟨a1, a2⟩ := hA
      have hB := branch b (no im r.1) _ _ a2 (fun hx => ihb ht3 hd3 a2 hx)
      rw [hfn] at hB
      refine ⟨fun l hl => ?_, (hB _).2⟩
      simp only [t1 l hl]
      by_cases hz : r'.1 l = 0
      · simp only [hz, bne_self_eq_false, Bool.false_eq_true, if_false, ne_eq, not_true_eq_false]
        exact (hB _).1 l (by simp [no, hl, hz])
      · have := a1 l (by simp [yes, hl, hz])
        simp only [hz, bne_iff_ne, ne_eq, not_false_eq_true, if_true]
        exact this

/-! ## The properties -/

/-- **`&&`, `||` and `?:` evaluate per instance only what they must**: for every cost estimate,
every active instance gets the value of the expression by the rules of C and has done exactly
the assignments, element reads, divisions and calls that C prescribes for it, in this
order; the other instances have done nothing (their local variables may change only if
they are off in the whole function).  Missing: operands that the compiler does not
short-circuit although they assign, see `assignment_runs_anyway`; and `x[i]++` with effects in
`i`, see `increment_evaluates_index_twice`. -/
theorem short_circuit_partial [NeZero n] (ch : E → Bool) (F : Callee)
    (J : E → Gang n → Fin n → Int) (fm im : Mask n) {e : E} (ht : e.Typed) (hd : Tidy ch e)
    (hn : noUnif e = true) (σ : Gang n) (hany : ∃ l, full fm im l = true) :
    (∀ l, full fm im l = true →
      (run ch F J fm e im σ).1 l = (ser F σ.u l e (σ.lane l)).1 ∧
      (run ch F J fm e im σ).2.lane l = (ser F σ.u l e (σ.lane l)).2) ∧
    (∀ l, full fm im l = false →
      ((run ch F J fm e im σ).2.lane l).ext = (σ.lane l).ext ∧
      ((run ch F J fm e im σ).2.lane l).log = (σ.lane l).log ∧
      (fm l = true → (run ch F J fm e im σ).2.lane l = σ.lane l)) ∧
    (run ch F J fm e im σ).2.u = σ.u := by
  obtain ⟨h1, h2⟩ := run_spec ch F J fm ht hd (Sim.refl fm σ) hany
  obtain ⟨g1, g2, g3⟩ := spec_ser F hn (full fm im) σ
  refine ⟨fun l hl => ?_, fun l hl => ?_, by rw [h2.u, g3]⟩
  · obtain ⟨p1, p2⟩ := g1 l hl
    exact ⟨by rw [h1 l hl, p1], by rw [h2.on l (full_fm hl), p2]⟩
  · have := g2 l hl
    exact ⟨by rw [h2.ext l, this], by rw [h2.log l, this], fun hf => by rw [h2.on l hf, this]⟩

/-- `index < 10 && array[index] > 0`, the example of the manual. -/
def bounded : E :=
  .and (.bin (fun x y => b2i (decide (x < y))) (.var false 0 0) (.const 10))
    (.bin (fun x y => b2i (decide (x > y))) (.idx true 1 (.var false 0 0)) (.const 0))

example : bounded.Typed ∧ Tidy cheap bounded ∧ noUnif bounded = true :=
  ⟨by simp [bounded, E.Typed], by simp [bounded, Tidy, effectFree], by decide⟩

/-- An instance whose index is 12 reads nothing. -/
example (F : Callee) (u : Nat → Int → Int) (l : Nat) (L : Lane) (h : L.loc 0 0 = 12) :
    ser F u l bounded L = (0, L) := by
  simp [ser, bounded, Lane.get, h, b2i]

/-- **A uniform variable assigned in the right operand of `&&` is assigned if and only if the left
operand is true for some active instance.** -/
theorem uniform_assigned_iff [NeZero n] (ch : E → Bool) (F : Callee)
    (J : E → Gang n → Fin n → Int) (fm im : Mask n) {a : E} (ht : a.Typed) (hd : Tidy ch a)
    (hn : noUnif a = true) (x : Nat) (c : Int) (σ : Gang n) (hany : ∃ l, full fm im l = true)
    (hx : σ.u x 0 ≠ c) :
    (run ch F J fm (.and a (.uasg x (.const c))) im σ).2.u x 0 = c ↔
      ∃ l, full fm im l = true ∧ (ser F σ.u l a (σ.lane l)).1 ≠ 0 := by
  have hd' : Tidy ch (.and a (.uasg x (.const c))) :=
    ⟨hd, trivial, fun h => by simp [sc, safe] at h⟩
  obtain ⟨-, h2⟩ := run_spec ch F J fm (e := .and a (.uasg x (.const c))) ⟨ht, rfl, trivial⟩ hd'
    (Sim.refl fm σ) hany
  obtain ⟨g1, g2, g3⟩ := spec_ser F hn (full fm im) σ
  rw [h2.u]
  simp only [spec]
  split
  · rename_i hy
    obtain ⟨l, hl⟩ := (any_iff _).mp hy
    have hfl := yes_sub l hl
    simp only [yes, hfl, Bool.true_and, bne_iff_ne] at hl
    rw [(g1 l hfl).1] at hl
    refine iff_of_true (by simp [put, uval]) ⟨l, hfl, hl⟩
  · rename_i hy
    refine iff_of_false (by simpa [g3] using hx) ?_
    rintro ⟨l, hfl, hl⟩
    rw [← (g1 l hfl).1] at hl
    exact hy ((any_iff _).mpr ⟨l, by simp [yes, hfl, hl]⟩)

/-- `programIndex && (u = 7)`. -/
example : E.lane.Typed ∧ Tidy cheap .lane ∧ noUnif .lane = true ∧
    (∃ l : Fin 4, full (fun _ => true) (fun _ => true) l = true) := by
  refine ⟨trivial, trivial, rfl, 0, rfl⟩

/-! ## Where it fails -/

/-- Two instances, with all variables zero. -/
def zeros : Gang 2 := ⟨fun _ _ => 0, [], fun _ => ⟨fun _ _ => 0, fun _ _ => 0, []⟩⟩

def allOn : Mask 2 := fun _ => true

/-- **An assignment in the right operand runs anyway**: `programIndex && (x = 5)` assigns 5 to
the `x` of instance 0, for which the left operand is false.  The same with `||`. -/
theorem assignment_runs_anyway (F : Callee) (J : E → Gang 2 → Fin 2 → Int) :
    let e := E.and .lane (.asg false 0 (.const 5))
    ((run cheap F J allOn e allOn zeros).2.lane 0).loc 0 0 = 5 ∧
      (ser F zeros.u 0 e (zeros.lane 0)).2.loc 0 0 = 0 := by
  refine ⟨rfl, rfl⟩

/-- **A guard does not keep `/=` from dividing by zero**: `d && (x /= d)` with `d` zero. -/
theorem guarded_division_by_zero (F : Callee) (J : E → Gang 2 → Fin 2 → Int)
    (quot : Int → Int → Int) :
    let e := E.and (.var false 1 0) (.asgop true false 0 quot (.var false 1 0))
    ((run cheap F J allOn e allOn zeros).2.lane 0).log = [.div 0 0] ∧
      (ser F zeros.u 0 e (zeros.lane 0)).2.log = [] := by
  refine ⟨rfl, rfl⟩

/-- **`x[i]++` evaluates `i` twice**: `x[i++]++` increments `i` by two, and leaves in `x[0]` what was
in `x[1]`, plus one. -/
theorem increment_evaluates_index_twice (ch : E → Bool) (F : Callee)
    (J : E → Gang 2 → Fin 2 → Int) :
    let e := E.posti false 1 (.post false 0 (· + 1)) (· + 1)
    ((run ch F J allOn e allOn zeros).2.lane 0).loc 0 0 = 2 ∧
      (ser F zeros.u 0 e (zeros.lane 0)).2.loc 0 0 = 1 := by
  refine ⟨rfl, rfl⟩

end Ispc.Short
