import Mathlib.Tactic.Common

/-!
# C92: labels and goto

A model of how `goto` and labels are compiled (`src/stmt.cpp`, `src/ctx.cpp`). Every label has one block of LLVM. The
model follows the emission of the statements and records which blocks of labels are filled and which are jumped to. A
block that is jumped to must be filled exactly once for the function to be valid for LLVM. The targets without hardware
masks are modelled. `switch`, `foreach_active`, `foreach_unique` and `unmasked` are left out, and so are expressions.
-/

namespace Ispc.Goto

/-- Statements. `leave` is `return`, `break` or `continue`; `coherent` is the form with a `c` (`cif`, `cfor`, `cdo`).
    Models no lines of ispc. -/
inductive Stmt where
  | code
  | leave
  | goto (l : String)
  | label (l : String) (s : Stmt)
  | seq (a b : Stmt)
  | ifUniform (a b : Stmt)
  | ifVarying (coherent : Bool) (a b : Stmt)
  | loopUniform (s : Stmt)
  | loopVarying (coherent : Bool) (s : Stmt)
  | foreach (s : Stmt)
  deriving DecidableEq, Repr

/-- What the emission of a statement gives: is there a current block afterwards, the labels whose blocks were filled, the
    labels jumped to by `goto`, and whether there was no error. Models no lines of ispc. -/
structure Out where
  cur : Bool
  fills : List String
  jumps : List String
  ok : Bool
  deriving DecidableEq, Repr

/-- Nothing is emitted. Models no lines of ispc. -/
def Out.nothing (cur : Bool) : Out := ⟨cur, [], [], true⟩

/-- Two parts of a statement, each in a block of its own. Models no lines of ispc. -/
def Out.both (x y : Out) : Out := ⟨true, x.fills ++ y.fills, x.jumps ++ y.jumps, x.ok && y.ok⟩

/-- The labels of a statement (`initLabelBBlocks`, src/ctx.cpp:1241-1256). -/
def Stmt.labels : Stmt → List String
  | .code | .leave | .goto _ => []
  | .label l s => l :: s.labels
  | .seq a b | .ifUniform a b | .ifVarying _ a b => a.labels ++ b.labels
  | .loopUniform s | .loopVarying _ s | .foreach s => s.labels

/-- The emission of a statement: `known` are the labels of the function, `v` is varying control flow, `fe` is inside of
    `foreach`, `c` tells whether there is a current block (src/stmt.cpp:492-563, src/stmt.cpp:648-732,
    src/stmt.cpp:737-852, src/stmt.cpp:934-1030, src/stmt.cpp:1165-1298, src/stmt.cpp:1575-2022, src/stmt.cpp:3327-3370,
    src/stmt.cpp:3399-3416, src/stmt.cpp:3467-3476). -/
def emit (known : List String) (v fe : Bool) : Stmt → Bool → Out
  | .code, c => .nothing c
  | .leave, c => .nothing (c && v)
  | .goto l, c =>
    if !c then .nothing c
    else if v then ⟨c, [], [], false⟩
    else if fe then ⟨c, [], [], false⟩
    else if known.contains l then ⟨false, [], [l], true⟩
    else ⟨c, [], [], false⟩
  | .label l s, _ =>
    let o := emit known v fe s true
    { o with fills := l :: o.fills }
  | .seq a b, c =>
    let x := emit known v fe a c
    let y := emit known v fe b x.cur
    { x.both y with cur := y.cur }
  | .ifUniform a b, c =>
    if !c then .nothing c else (emit known v fe a true).both (emit known v fe b true)
  | .ifVarying coherent a b, c =>
    if !c then .nothing c
    else
      let x := emit known true fe a true
      let y := emit known true fe b true
      if coherent then ((x.both y).both (x.both y)).both (x.both y) else x.both y
  | .loopUniform s, c => if !c then .nothing c else { emit known v fe s true with cur := true }
  | .loopVarying coherent s, c =>
    if !c then .nothing c
    else
      let x := emit known true fe s true
      if coherent then x.both x else { x with cur := true }
  | .foreach s, c =>
    if !c then .nothing c
    else
      let x := emit known true true s true
      x.both x

/-- The body of a function: labels must be distinct (src/ctx.cpp:1249-1250) and there must be no error
    (src/func.cpp:551-556). The two copies of a body for a full and a mixed mask have labels of their own
    (src/func.cpp:517-550), so that one stands for both. -/
def compile (body : Stmt) : Option Out :=
  if body.labels.Nodup then
    let o := emit body.labels false false body true
    if o.ok then some o else none
  else none

end Ispc.Goto
