import Verif.Front.InstancesProps

/-!
# Repeated declarations of a global name

`Module::AddGlobalVariable`, `Module::AddFunctionDeclaration` and
`Module::AddFunctionDefinition` for one name of the global scope, and what
reads of the variable and calls of the functions become in between.

Left out: types that may not be declared at all (`void`, incomplete types,
arrays whose size is not known), initialisers that depend on the target,
alignment and other attributes, calling conventions, the checks of the types of
exported functions (`C56` has what they ensure), templates of the same name.
-/

namespace Ispc.Redecl

open Ispc.Types Ispc.Promote Ispc.Insts

/-! ## Variables -/

/-- `StorageClass`, src/ispc.cpp:3511-3516, without `typedef`. -/
inductive SC
  | none | static | extern | externC | externSYCL
  deriving DecidableEq, Repr

/-- `StorageClass::IsAnyExtern`, src/ispc.cpp:3516. -/
def SC.anyExtern : SC → Bool
  | .extern | .externC | .externSYCL => true
  | _ => false

/-- The initialiser of a declaration: none, one that is no constant, or a
constant, with whether it is a `ConstExpr` (numbers are, lists for structs are
not). -/
inductive Init
  | absent
  | bad
  | const (v : Int) (ce : Bool)
  deriving DecidableEq, Repr

/-- A declaration of a variable.  `specConst`: the specifiers before the name
contain `const`, src/parse.yy:3479. -/
structure VDecl where
  ty : Ty
  specConst : Bool
  sc : SC
  init : Init
  deriving DecidableEq, Repr

/-- The symbol of a variable and its `llvm::GlobalVariable`: the type and
storage class of the first declaration, the initial value, whether the memory
is constant, and `Symbol::constValue`. -/
structure GVar where
  ty : Ty
  sc : SC
  init : Option Int
  isConst : Bool
  cval : Option Int
  deriving DecidableEq, Repr

/-- How a read of the variable is compiled: `constValue` is used when there is
one, src/expr.cpp:9135-9144, otherwise the memory is loaded. -/
inductive Read
  | fold (v : Int)
  | load
  deriving DecidableEq, Repr

/-! ## Functions -/

/-- The type of a function; the parameters come with their default values,
src/type.cpp:2640-2644. -/
structure FTy where
  ret : Ty
  params : List (Ty × Option Int)
  task : Bool
  exported : Bool
  externC : Bool
  externSYCL : Bool
  unmasked : Bool
  deriving DecidableEq, Repr

/-- The types of the parameters. -/
def FTy.tys (t : FTy) : List Ty := t.params.map (·.1)

/-- Their default values. -/
def FTy.defs (t : FTy) : List (Option Int) := t.params.map (·.2)

/-- `Type::Equal` of function types, src/type.cpp:3456-3484: default values are
not compared. -/
def ftyEq (a b : FTy) : Bool :=
  equal a.ret b.ret && decide (a.task = b.task) && decide (a.exported = b.exported) &&
    decide (a.externC = b.externC) && decide (a.externSYCL = b.externSYCL) &&
    decide (a.unmasked = b.unmasked) && tysEq a.tys b.tys

/-- A declaration of a function. -/
structure FDecl where
  ty : FTy
  static : Bool
  deriving DecidableEq, Repr

/-- The symbol of a function, with the bodies given for it.  `static` decides
the linkage, src/func.cpp:51-59; `inline`, which does too, is left out. -/
structure Fn where
  ty : FTy
  static : Bool
  bodies : List Nat
  deriving DecidableEq, Repr

/-- A call: the parameters and number in the table of the function, and the
number of arguments written. -/
structure Call where
  params : List Ty
  idx : Nat
  n : Nat
  deriving DecidableEq, Repr

/-- What there is for the name. -/
structure St where
  var : Option GVar
  fns : List Fn
  reads : List Read
  calls : List Call
  err : Bool
  deriving DecidableEq, Repr

def St.init : St := ⟨none, [], [], [], false⟩

def fail (st : St) : St := { st with err := true }

/-! ## Adding a variable -/

/-- The initialiser that the memory gets, src/module.cpp:684-764: nothing for
`extern`, zero when there is no constant.  The second component: an error is
reported, but the function goes on. -/
def initOf (d : VDecl) : Option Int × Bool :=
  if d.sc = .extern then (none, decide (d.init ≠ .absent))
  else
    match d.init with
    | .absent => (some 0, false)
    | .bad => (some 0, true)
    | .const v _ => (some v, false)

/-- `constValue`, src/module.cpp:743-750. -/
def cvalOf (d : VDecl) : Option Int :=
  if d.sc = .extern then none
  else
    match d.init with
    | .const v ce => if d.ty.isConst && ce then some v else none
    | _ => none

/-- The second and later declarations, src/module.cpp:766-806. -/
def redeclare (g : GVar) (d : VDecl) (st : St) : St :=
  if !equal g.ty d.ty || (!g.sc.anyExtern && decide (g.sc ≠ d.sc)) then fail st
  else if g.init.isSome && !g.sc.anyExtern then fail st
  else
    { st with
      var := some
        { g with
          init := if g.init.isNone then (initOf d).1 else g.init
          isConst := d.specConst
          cval := cvalOf d } }

/-- `Module::AddGlobalVariable`, src/module.cpp:586-837. -/
def addVar (d : VDecl) (st : St) : St :=
  if !st.fns.isEmpty then fail st
  else if d.sc = .externC ∨ d.sc = .externSYCL then fail st
  else
    let st := if (initOf d).2 then fail st else st
    match st.var with
    | some g => redeclare g d st
    | none => { st with var := some ⟨d.ty, d.sc, (initOf d).1, d.specConst, cvalOf d⟩ }

/-- The linkage is chosen at the first declaration, src/module.cpp:812-813. -/
def GVar.internal (g : GVar) : Bool := decide (g.sc = .static)

/-- A read of the variable, src/expr.cpp:9135-9144. -/
def read (st : St) : St :=
  match st.var with
  | none => fail st
  | some g => { st with reads := st.reads ++ [match g.cval with | some v => .fold v | none => .load] }

/-! ## Adding a function -/

/-- What the loop over the functions of the same name finds. -/
inductive Clash
  /-- the same type: nothing is added, and nothing more is checked -/
  | same
  /-- the same parameters: an error, nothing is added -/
  | params
  | none
  deriving DecidableEq, Repr

/-- The loop at src/module.cpp:988-1037, with whether the error about `export`
has been reported. -/
def scan (t : FTy) : List Fn → Bool → Clash × Bool
  | [], e => (.none, e)
  | f :: fs, e =>
    if ftyEq f.ty t then (.same, e)
    else
      let e := e || t.exported || f.ty.exported
      if tysEq f.ty.tys t.tys then (.params, true) else scan t fs e

/-- Once a parameter has a default value the following ones have one too,
src/module.cpp:1254-1264. -/
def defaultsOk : Bool → List (Option Int) → Bool
  | _, [] => true
  | _, some _ :: ds => defaultsOk true ds
  | seen, none :: ds => !seen && defaultsOk seen ds

/-- `Module::AddFunctionDeclaration`, src/module.cpp:973-1283. -/
def addFn (d : FDecl) (st : St) : St :=
  if st.var.isSome then fail st
  else
    let r := scan d.ty st.fns false
    let st := if r.2 then fail st else st
    match r.1 with
    | .same => st
    | .params => st
    | .none =>
      if (d.ty.externC || d.ty.externSYCL) && d.ty.task then fail st
      else if (d.ty.externC || d.ty.externSYCL) && !st.fns.isEmpty then fail st
      else
        let st := if defaultsOk false d.ty.defs then st else fail st
        { st with fns := st.fns ++ [⟨d.ty, d.static, []⟩] }

/-- `SymbolTable::LookupFunction` with a type, src/sym.cpp:168-179. -/
def findTy (t : FTy) : Nat → List Fn → Option Nat
  | _, [] => none
  | i, f :: fs => if ftyEq f.ty t then some i else findTy t (i + 1) fs

/-- The type of the symbol, with its default values, is replaced by that of the
definition, src/module.cpp:1294-1301. -/
def Fn.define (d : FDecl) (id : Nat) (f : Fn) : Fn :=
  { f with ty := d.ty, bodies := f.bodies ++ [id] }

/-- `Module::AddFunctionDefinition`, src/module.cpp:1285-1302, after the
declaration, src/parse.yy:2853-2877. -/
def defFn (d : FDecl) (id : Nat) (st : St) : St :=
  let st := addFn d st
  match findTy d.ty 0 st.fns with
  | none => st
  | some i => { st with fns := st.fns.modify i (Fn.define d id) }

/-- The function with these parameters. -/
def findParams (ps : List Ty) : Nat → List Fn → Option (Nat × Fn)
  | _, [] => none
  | i, f :: fs => if tysEq f.ty.tys ps then some (i, f) else findParams ps (i + 1) fs

/-- Enough arguments: all, or the next parameter has a default value,
src/expr.cpp:9405-9412. -/
def enough (t : FTy) (n : Nat) : Bool :=
  decide (n = t.defs.length) || (match t.defs[n]? with | some (some _) => true | _ => false)

/-- The check of a call with `n` arguments of the function with the parameters
`ps`, which overload resolution has chosen (`C31`). -/
def callFn (ps : List Ty) (n : Nat) (st : St) : St :=
  match findParams ps 0 st.fns with
  | none => fail st
  | some (i, f) =>
    if enough f.ty n then { st with calls := st.calls ++ [⟨ps, i, n⟩] } else fail st

/-- The values of all the defaults, if each is there. -/
def fill : List (Option Int) → Option (List Int)
  | [] => some []
  | none :: _ => none
  | some v :: ds => (fill ds).map (v :: ·)

/-- The default values that the code of a call passes.  Code is generated when
the whole file has been read, with the type that the symbol has then; if a
value is missing there is no code for the call and no message,
src/expr.cpp:4231-4243. -/
def emit (st : St) (c : Call) : Option (List Int) :=
  match st.fns[c.idx]? with
  | none => none
  | some f => fill (f.ty.defs.drop c.n)

/-! ## A file -/

/-- What a file says about the name. -/
inductive Ev
  | var (d : VDecl)
  | read
  | declare (d : FDecl)
  | define (d : FDecl) (id : Nat)
  | call (ps : List Ty) (n : Nat)
  deriving DecidableEq, Repr

def step (st : St) : Ev → St
  | .var d => addVar d st
  | .read => read st
  | .declare d => addFn d st
  | .define d id => defFn d id st
  | .call ps n => callFn ps n st

def run (es : List Ev) : St := es.foldl step St.init

/-- No error is reported, nor a second body for a function when the code is
generated, src/func.cpp:658-671. -/
def accepted (st : St) : Bool := !st.err && st.fns.all (fun f => decide (f.bodies.length ≤ 1))

end Ispc.Redecl
