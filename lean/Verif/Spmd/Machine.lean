import Verif.Spmd.Serial

/-!
# The gang machine: what the emitted code does with the execution mask

`run` follows, statement by statement, the `EmitCode` methods of src/stmt.cpp and the mask bookkeeping of
`FunctionEmitContext` (src/ctx.cpp) for CPU targets (no Xe hardware mask), with the default optimisation
options (`disableUniformControlFlow`, `disableMaskAllOnOptimizations`, `disableCoherentControlFlow` all off).
The *compile-time* context (control-flow stack, null-ness of pointers, jump targets) is the record `Ctx`; the
*run-time* state is `St`.  Jumps between basic blocks are modelled as outcomes.
`none` means: out of fuel, or the compiler reports an error / fails an assertion for this program.
-/

namespace Ispc.Spmd

/-- A mask: one bit per program instance of the gang. -/
abbrev Mask (n : Nat) := Fin n → Bool

def allOn {n} : Mask n := fun _ => true
def allOff {n} : Mask n := fun _ => false
def Mask.and {n} (a b : Mask n) : Mask n := fun l => a l && b l
def Mask.or {n} (a b : Mask n) : Mask n := fun l => a l || b l
def Mask.andNot {n} (a b : Mask n) : Mask n := fun l => a l && !b l
/-- `FunctionEmitContext::Any` (ctx.cpp:1391-1399). -/
def Mask.any {n} (a : Mask n) : Bool := decide (∃ l, a l = true)
/-- `FunctionEmitContext::All` (ctx.cpp:1401-1409). -/
def Mask.all {n} (a : Mask n) : Bool := decide (∀ l, a l = true)
/-- `FunctionEmitContext::MasksAllEqual` (ctx.cpp:1431-1441). -/
def Mask.equal {n} (a b : Mask n) : Bool := decide (∀ l, a l = b l)

/-- Run-time state of one function activation of the gang.
* `u` uniform variables, `loc`/`ext` varying variables (per instance arrays),
* `im` internal mask (`internalMaskAddressInfo`), `ret` returned lanes (`returnedLanesAddressInfo`),
* `brk`/`cont` lanes that did break/continue (`breakLanesAddressInfo`, `continueLanesAddressInfo`); where the
  compiler has a null pointer instead, the mask is all off and never written,
* `rv` the return value memory. -/
structure St (n : Nat) where
  u : Nat → Int
  loc : Fin n → Nat → Int → Int
  ext : Fin n → Nat → Int → Int
  im : Mask n
  ret : Mask n
  brk : Mask n
  cont : Mask n
  rv : Fin n → Int

/-- Kinds of control-flow entries (`CFInfo::CFType`, ctx.cpp:73; foreach kinds are not in this language). -/
inductive CFKind where
  | ifK
  | loopK
  | switchK
  deriving DecidableEq

/-- An entry of `controlFlowInfo` (ctx.cpp:40-193): kind and `isUniform`. -/
structure CF where
  kind : CFKind
  unif : Bool

/-- Compile-time context, plus the SSA values it names.
* `cf` = `controlFlowInfo`, innermost first,
* `fm` = `functionMaskValue`, `bem` = `blockEntryMask`,
* `hasBrk`/`hasCont`: are `breakLanesAddressInfo`/`continueLanesAddressInfo` non-null,
* `brkTgt`/`contTgt`: are `breakTarget`/`continueTarget` non-null,
* `swU` = `switchConditionWasUniform`. -/
structure Ctx (n : Nat) where
  cf : List CF
  fm : Mask n
  bem : Mask n
  hasBrk : Bool
  hasCont : Bool
  brkTgt : Bool
  contTgt : Bool
  swU : Bool

/-- How control leaves the code of a statement: falls through, jumps to the break target, jumps to the
continue target, or executes a return instruction. -/
inductive Out where
  | normal
  | brk
  | cont
  | ret
  deriving DecidableEq

variable {n : Nat}

/-- `FunctionEmitContext::GetFullMask` (ctx.cpp:437-440). -/
def full (c : Ctx n) (σ : St n) : Mask n := σ.im.and c.fm

/-- The memory instance `l` reads. -/
def St.mem (σ : St n) (l : Fin n) : Bool → Nat → Int → Int := fun b => if b then σ.ext l else σ.loc l

/-- Expressions are evaluated lane by lane. -/
def St.eval (σ : St n) (e : Expr) (l : Fin n) : Int := e.eval σ.u (σ.mem l) l

/-- A uniform expression does not depend on the lane, so it is evaluated with dummy lane data. -/
def St.evalU (σ : St n) (e : Expr) : Int := e.eval σ.u (fun _ _ _ => 0) 0

/-- A varying test: the `i1`/mask vector `e != 0`. -/
def St.test (σ : St n) (e : Expr) : Mask n := fun l => decide (σ.eval e l ≠ 0)

/-- `FunctionEmitContext::inSwitchStatement` (ctx.cpp:660-672): is the first non-`if` entry a switch? -/
def inSwitch : List CF → Bool
  | [] => false
  | ⟨.ifK, _⟩ :: t => inSwitch t
  | ⟨.loopK, _⟩ :: _ => false
  | ⟨.switchK, _⟩ :: _ => true

/-- `FunctionEmitContext::ifsInCFAllUniform` (ctx.cpp:792-806). -/
def ifsUnif (k : CFKind) : List CF → Bool
  | [] => true
  | ⟨k', u⟩ :: t => if k' = k then true else if u then ifsUnif k t else false

/-- `FunctionEmitContext::VaryingCFDepth` (ctx.cpp:1218-1226). -/
def vdepth (cf : List CF) : Nat := (cf.filter (fun c => !c.unif)).length

/-- `FunctionEmitContext::restoreMaskGivenReturns` (ctx.cpp:642-655). -/
def restoreMask (saved : Mask n) (σ : St n) : St n := { σ with im := saved.andNot σ.ret }

/-- `FunctionEmitContext::EndIf` for a varying `if` (ctx.cpp:503-558). -/
def endIf (c : Ctx n) (saved : Mask n) (σ : St n) : St n :=
  let σ := restoreMask saved σ
  if c.hasCont || c.hasBrk then
    let bc := (if c.hasCont then σ.cont else allOff).or (if c.hasBrk then σ.brk else allOff)
    { σ with im := σ.im.andNot bc }
  else σ

/-- `FunctionEmitContext::jumpIfAllLoopLanesAreDone` (ctx.cpp:808-849): the condition `allDone`. -/
def allDone (c : Ctx n) (σ : St n) : Bool :=
  if c.hasBrk then
    let fin := σ.ret.or σ.brk
    let fin := if c.hasCont then fin.or σ.cont else fin
    (fin.and c.fm).equal c.bem
  else (σ.cont.and c.fm).equal c.bem

/-- `FunctionEmitContext::Break(true)` (ctx.cpp:674-737; BreakStmt::EmitCode stmt.cpp:1419-1426). -/
def doBreak (c : Ctx n) (σ : St n) : Option (Out × St n) :=
  if c.brkTgt = false then none
  else if inSwitch c.cf && c.swU && ifsUnif .switchK c.cf then some (.brk, σ)
  else if !inSwitch c.cf && ifsUnif .loopK c.cf then some (.brk, σ)
  else if c.hasBrk = false then none
  else
    let σ := { σ with brk := σ.brk.or σ.im, im := allOff }
    if allDone c σ then some (if c.contTgt then .cont else .brk, σ) else some (.normal, σ)

/-- `FunctionEmitContext::Continue(true)` (ctx.cpp:748-786; ContinueStmt::EmitCode stmt.cpp:1446-1453). -/
def doContinue (c : Ctx n) (σ : St n) : Option (Out × St n) :=
  if c.contTgt = false then none
  else if ifsUnif .loopK c.cf then some (.cont, σ)
  else if c.hasCont = false then none
  else
    let σ := { σ with cont := σ.cont.or σ.im, im := allOff }
    if allDone c σ then some (.cont, σ) else some (.normal, σ)

/-- `FunctionEmitContext::CurrentLanesReturned(expr, true)` (ctx.cpp:1284-1362) for a varying return type.
When a real return instruction is executed because all lanes have returned, `ret`/`im` are updated too; the
code does not bother, but nothing can observe them after the return. -/
def doReturn (c : Ctx n) (e : Expr) (σ : St n) : Option (Out × St n) :=
  let σ := { σ with rv := fun l => if σ.im l then σ.eval e l else σ.rv l }
  if vdepth c.cf = 0 then some (.ret, σ)
  else
    let r := σ.ret.or (full c σ)
    let σ' := { σ with ret := r, im := allOff }
    if c.fm.equal r then some (.ret, σ') else some (.normal, σ')

/-- Assignment to a varying variable: masked by the internal mask for locals and by the full mask otherwise
(`lMaskForSymbol`, src/expr.cpp:1161-1178; `maskedStore`, ctx.cpp). -/
def doVassign (c : Ctx n) (ext : Bool) (a : Nat) (i e : Expr) (σ : St n) : St n :=
  if ext then
    { σ with ext := fun l => if full c σ l then upd2 (σ.ext l) a (σ.eval i l) (σ.eval e l) else σ.ext l }
  else
    { σ with loc := fun l => if σ.im l then upd2 (σ.loc l) a (σ.eval i l) (σ.eval e l) else σ.loc l }

/-- Code generator for one statement, seen as a state transformer. -/
abbrev Code (n : Nat) := Ctx n → St n → Option (Out × St n)

/-- Run `a`, then, if control falls through, `b`. -/
def andThen (r : Option (Out × St n)) (b : St n → Option (Out × St n)) : Option (Out × St n) :=
  match r with
  | none => none
  | some (.normal, σ) => b σ
  | some r => some r

/-- Push a varying `if` (`StartVaryingIf`, ctx.cpp:499-501). -/
def Ctx.pushIf (c : Ctx n) (unif : Bool) : Ctx n := { c with cf := ⟨.ifK, unif⟩ :: c.cf }

/-- `IfStmt::emitMaskedTrueAndFalse` (stmt.cpp:648-661), with `saved` the mask before the `if`. -/
def maskedBoth (c : Ctx n) (saved t : Mask n) (st sf : Code n) (σ : St n) : Option (Out × St n) :=
  andThen (st c { σ with im := saved.and t }) fun σ =>
    sf c { σ with im := saved.andNot t }

/-- `IfStmt::emitMaskMixed` (stmt.cpp:808-852). -/
def maskMixed (c : Ctx n) (t : Mask n) (st sf : Code n) (σ : St n) : Option (Out × St n) :=
  let saved := σ.im
  let c' := c.pushIf false
  let σ₁ := { σ with im := saved.and t }
  andThen (if (full c' σ₁).any then st c' σ₁ else some (.normal, σ₁)) fun σ =>
    let σ₂ := { σ with im := saved.andNot t }
    andThen (if (full c' σ₂).any then sf c' σ₂ else some (.normal, σ₂)) fun σ =>
      some (.normal, endIf c saved σ)

/-- `IfStmt::emitMaskAllOn` (stmt.cpp:737-803); the caller has established that the full mask is all on. -/
def maskAllOn (c : Ctx n) (t : Mask n) (st sf : Code n) (σ : St n) : Option (Out × St n) :=
  let σ := { σ with im := allOn }
  let c' := { c.pushIf false with fm := allOn }
  if t.all then andThen (st c' σ) fun σ => some (.normal, endIf c allOn σ)
  else if t.any then andThen (maskedBoth c' allOn t st sf σ) fun σ => some (.normal, endIf c allOn σ)
  else andThen (sf c' σ) fun σ => some (.normal, endIf c allOn σ)

/-- `IfStmt::emitVaryingIf` (stmt.cpp:666-732). -/
def varyingIf (c : Ctx n) (coh pred : Bool) (t : Mask n) (st sf : Code n) (σ : St n) : Option (Out × St n) :=
  if coh then
    if (full c σ).all then maskAllOn c t st sf σ else maskMixed c t st sf σ
  else if pred then
    andThen (maskedBoth (c.pushIf false) σ.im t st sf σ) fun σ' => some (.normal, endIf c σ.im σ')
  else maskMixed c t st sf σ

/-- Context inside a loop body (`StartLoop`, ctx.cpp:560-585; `SetBlockEntryMask`, stmt.cpp:974, 1243). -/
def Ctx.pushLoop (c : Ctx n) (unif : Bool) (bem : Mask n) : Ctx n :=
  { c with cf := ⟨.loopK, unif⟩ :: c.cf, bem := bem, hasBrk := !unif, hasCont := !unif,
           brkTgt := true, contTgt := true }

/-- Run the body of a varying loop, with the all-on specialisation of `cfor`/`cwhile`/`cdo`
(stmt.cpp:1249-1295 and 985-1026). -/
def coherentBody (c : Ctx n) (coh : Bool) (body : Code n) (σ : St n) : Option (Out × St n) :=
  let c' := c.pushLoop false (full c σ)
  if coh && (full c σ).all then body { c' with fm := allOn } { σ with im := allOn } else body c' σ

/-- `RestoreContinuedLanes` and `ClearBreakLanes` (ctx.cpp:851-873). -/
def nextIter (σ : St n) : St n := { σ with im := σ.im.or σ.cont, cont := allOff, brk := allOff }

/-- Iterations of a uniform `for` loop (ForStmt::EmitCode, stmt.cpp:1165-1324, `uniformTest` case). -/
def forU (c : Ctx n) (e : Expr) (step body : Code n) : Nat → St n → Option (Out × St n)
  | 0, _ => none
  | k + 1, σ =>
    if σ.evalU e ≠ 0 then
      let c' := c.pushLoop true (full c σ)
      match body c' σ with
      | none => none
      | some (.ret, σ) => some (.ret, σ)
      | some (.brk, σ) => some (.normal, σ)
      | some (_, σ) =>
        match step c' σ with
        | some (.normal, σ) => forU c e step body k σ
        | _ => none
    else some (.normal, σ)

/-- Iterations of a varying `for` loop (ForStmt::EmitCode, stmt.cpp:1165-1324).  The step is an expression
statement and never reads `blockEntryMask`, so any value may be put there; the current full mask is used. -/
def forV (c : Ctx n) (e : Expr) (coh : Bool) (step body : Code n) : Nat → St n → Option (Out × St n)
  | 0, _ => none
  | k + 1, σ =>
    let σ := { σ with im := σ.im.and (σ.test e) }
    if (full c σ).any then
      match coherentBody c coh body σ with
      | none => none
      | some (.ret, σ) => some (.ret, σ)
      | some (.brk, σ) => some (.normal, σ)
      | some (_, σ₁) =>
        let σ₂ := nextIter σ₁
        match step (c.pushLoop false (full c σ₂)) σ₂ with
        | some (.normal, σ) => forV c e coh step body k σ
        | _ => none
    else some (.normal, σ)

/-- Iterations of a uniform `do` loop (DoStmt::EmitCode, stmt.cpp:934-1068). -/
def doU (c : Ctx n) (e : Expr) (body : Code n) : Nat → St n → Option (Out × St n)
  | 0, _ => none
  | k + 1, σ =>
    match body (c.pushLoop true (full c σ)) σ with
    | none => none
    | some (.ret, σ) => some (.ret, σ)
    | some (.brk, σ) => some (.normal, σ)
    | some (_, σ) => if σ.evalU e ≠ 0 then doU c e body k σ else some (.normal, σ)

/-- Iterations of a varying `do` loop (DoStmt::EmitCode, stmt.cpp:934-1068). -/
def doV (c : Ctx n) (e : Expr) (coh : Bool) (body : Code n) : Nat → St n → Option (Out × St n)
  | 0, _ => none
  | k + 1, σ =>
    match coherentBody c coh body σ with
    | none => none
    | some (.ret, σ) => some (.ret, σ)
    | some (.brk, σ) => some (.normal, σ)
    | some (_, σ) =>
      let σ := nextIter σ
      let σ := { σ with im := σ.im.and (σ.test e) }
      if (full c σ).any then doV c e coh body k σ else some (.normal, σ)

/-- `StartLoop`/`EndLoop` around the iterations (ctx.cpp:560-599): fresh break/continue lanes inside, the
enclosing statement's lanes afterwards, and for a varying loop the mask restored minus returned lanes. -/
def wrapLoop (unif : Bool) (σ : St n) (iter : St n → Option (Out × St n)) : Option (Out × St n) :=
  match iter { σ with brk := allOff, cont := allOff } with
  | none => none
  | some (o, σ') =>
    let σ'' := { σ' with brk := σ.brk, cont := σ.cont }
    some (o, if unif || o = .ret then σ'' else restoreMask σ.im σ'')

/-- `uniformTest` of ForStmt/DoStmt::TypeCheck (stmt.cpp:1070-1100, 1326-1345). -/
def loopUnif (e : Expr) (body : Stmt) : Bool := e.isUniform && !hasVBC 0 body

/-- Context inside a switch (`StartSwitch`, `SwitchInst`, ctx.cpp:875-896, 1163-1176;
`SetBlockEntryMask`, stmt.cpp:3098). -/
def Ctx.pushSwitch (c : Ctx n) (unif condUnif : Bool) (bem : Mask n) : Ctx n :=
  { c with cf := ⟨.switchK, unif⟩ :: c.cf, bem := bem, hasBrk := true, hasCont := false,
           brkTgt := true, contTgt := false, swU := condUnif }

/-- The lanes that start at a label: `EmitCaseLabel` (ctx.cpp:1139-1156) and `EmitDefaultLabel`
(ctx.cpp:1032-1046). `cases` are all case values of the switch, `vals` the switch value per lane. -/
def labelMask (entry : Mask n) (vals : Fin n → Int) (cases : List Int) : Option Int → Mask n
  | some v => fun l => entry l && decide (vals l = v)
  | none => fun l => entry l && cases.all (fun v => !decide (vals l = v))

/-- The labelled segments of a varying switch in program order: enable the lanes that start at the label, skip
the segment if it checks the mask and no lane is on (`addSwitchMaskCheck`, ctx.cpp:910-924). -/
def segsV (entry : Mask n) (vals : Fin n → Int) (cases : List Int) (exec : Stmt → St n → Option (Out × St n)) :
    Stmt → St n → Option (Out × St n)
  | .skip, σ => some (.normal, σ)
  | .seg lab chk s r, σ =>
    let σ := { σ with im := σ.im.or (labelMask entry vals cases lab) }
    if chk && !σ.im.any then segsV entry vals cases exec r σ
    else andThen (exec s σ) fun σ => segsV entry vals cases exec r σ
  | _, _ => none

/-- The labelled segments of a switch with a uniform condition, starting at the selected label: labels have no
effect (ctx.cpp:1018-1022, 1135-1137). -/
def segsU (exec : Stmt → St n → Option (Out × St n)) : Stmt → St n → Option (Out × St n)
  | .skip, σ => some (.normal, σ)
  | .seg _ _ s r, σ => andThen (exec s σ) fun σ => segsU exec r σ
  | _, _ => none

/-- `SwitchStmt::EmitCode` (stmt.cpp:3045-3111) with `StartSwitch`/`SwitchInst`/`EndSwitch`
(ctx.cpp:875-905, 1163-1216). -/
def doSwitch (c : Ctx n) (e : Expr) (body : Stmt) (exec : Ctx n → Stmt → St n → Option (Out × St n)) (σ : St n) :
    Option (Out × St n) :=
  let unif := e.isUniform && !hasVBC 0 body
  let c' := c.pushSwitch unif e.isUniform (full c σ)
  let σ₀ := { σ with brk := allOff, cont := allOff }
  let r :=
    if e.isUniform then
      match switchEntry (σ.evalU e) body with
      | none => some (.normal, σ₀)
      | some ch => segsU (exec c') ch σ₀
    else
      segsV σ.im (fun l => σ.eval e l) (caseVals body) (exec c') body { σ₀ with im := allOff }
  match r with
  | none => none
  | some (.ret, σ') => some (.ret, { σ' with brk := σ.brk, cont := σ.cont })
  | some (.cont, _) => none
  | some (_, σ') =>
    let σ'' := { σ' with brk := σ.brk, cont := σ.cont }
    some (.normal, if unif then σ'' else restoreMask σ.im σ'')

/-- Initial state of a called function: internal mask all on, nobody returned (ctor, ctx.cpp:225-420;
parameter stores, func.cpp:395-425). -/
def enterSt (σ : St n) (us vs : List Expr) : St n where
  u := fun x => (us.map (fun e => σ.evalU e)).getD x 0
  loc := fun l a i => if i = 0 then (vs.map (fun e => σ.eval e l)).getD a 0 else 0
  ext := σ.ext
  im := allOn
  ret := allOff
  brk := allOff
  cont := allOff
  rv := fun _ => 0

/-- Context at the start of a function called with mask `m` (func.cpp:426-455, 511-550). -/
def enterCtx (m : Mask n) : Ctx n where
  cf := []
  fm := m
  bem := m
  hasBrk := false
  hasCont := false
  brkTgt := false
  contTgt := false
  swU := false

/-- `Function::emitCode` (func.cpp:491-557): optionally specialise on an all-on mask, then run the body. -/
def funcBody (checkMask : Bool) (m : Mask n) (body : Code n) (σ : St n) : Option (Out × St n) :=
  if checkMask && m.all then body (enterCtx allOn) σ else body (enterCtx m) σ

/-- The code emitted for a statement. The first argument is fuel.  A `for` step that is not an expression
statement does not parse; duplicate case values or defaults are compile errors (stmt.cpp:3004-3024). -/
def run (P : Prog) : Nat → Stmt → Code n
  | 0, _, _, _ => none
  | k + 1, s, c, σ =>
    match s with
    | .skip => some (.normal, σ)
    | .uassign x e => some (.normal, { σ with u := upd1 σ.u x (σ.evalU e) })
    | .vassign ext a i e => some (.normal, doVassign c ext a i e σ)
    | .seq s₁ s₂ => andThen (run P k s₁ c σ) fun σ => run P k s₂ c σ
    | .ite e coh pred s₁ s₂ =>
      if e.isUniform then
        if σ.evalU e ≠ 0 then run P k s₁ (c.pushIf true) σ else run P k s₂ (c.pushIf true) σ
      else varyingIf c coh pred (σ.test e) (run P k s₁) (run P k s₂) σ
    | .loop e coh step body =>
      if !isSimple step then none
      else if loopUnif e body then wrapLoop true σ (forU c e (run P k step) (run P k body) k)
      else wrapLoop false σ (forV c e coh (run P k step) (run P k body) k)
    | .doloop body e coh =>
      if loopUnif e body then wrapLoop true σ (doU c e (run P k body) k)
      else wrapLoop false σ (doV c e coh (run P k body) k)
    | .brk => doBreak c σ
    | .cont => doContinue c σ
    | .ret e => doReturn c e σ
    | .switch e body =>
      if switchOk body then doSwitch c e body (fun c s σ => run P k s c σ) σ else none
    | .seg _ _ _ _ => none
    | .call dst f us vs =>
      match funcBody (P f).checkMask (full c σ) (run P k (P f).body) (enterSt σ us vs) with
      | some (.normal, σ') | some (.ret, σ') =>
        some (.normal, { σ with ext := σ'.ext,
                                loc := fun l => if σ.im l then upd2 (σ.loc l) dst 0 (σ'.rv l) else σ.loc l })
      | _ => none

end Ispc.Spmd
