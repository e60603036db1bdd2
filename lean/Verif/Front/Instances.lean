import Verif.Front.Promote
import Verif.Front.Templates

/-!
# Function templates: instances and specializations

`FunctionTemplate::LookupInstantiation`, `AddInstantiation` and
`AddSpecialization`, `Module::MatchFunctionTemplate`,
`AddFunctionTemplateInstantiation` and
`AddFunctionTemplateSpecializationDeclaration`/`Definition`, with the errors
that are found when the code is generated.

Left out: storage classes and the `inline` specifiers, incomplete types as
template arguments, templates that have been declared only, what the bodies
compute.  Of a body only the instances it asks for are kept: one for each
template that the deduction (`Templ`) leaves as a candidate at a call, in the
order of the text.
-/

namespace Ispc.Insts

open Ispc.Types Ispc.Promote Ispc.Templ

/-- An instance is asked for by a template and its arguments. -/
structure Key where
  t : Nat
  args : List TArg
  deriving DecidableEq, Repr

/-- `TemplateArg::operator==`, src/func.cpp:915-934; constants are compared by
`ConstExpr::IsEqual`, src/expr.cpp:6439-6509: the types and the values. -/
def argEq : TArg → TArg → Bool
  | .ty t, .ty u => equal t u
  | .num b n, .num b' n' => decide (b = b' ∧ n = n')
  | _, _ => false

/-- The comparison of two vectors, src/func.cpp:1124. -/
def argsEq : List TArg → List TArg → Bool
  | [], [] => true
  | a :: as, b :: bs => argEq a b && argsEq as bs
  | _, _ => false

/-- Each template has its own list of instances, src/func.cpp:1123. -/
def keyEq (a b : Key) : Bool := decide (a.t = b.t) && argsEq a.args b.args

/-- The part of a function's type that is compared, src/type.cpp:3456-3484.
Tasks and exported or external functions are not made from templates. -/
structure FTy where
  ret : Ty
  params : List Ty
  unmasked : Bool
  deriving DecidableEq, Repr

def tysEq : List Ty → List Ty → Bool
  | [], [] => true
  | a :: as, b :: bs => equal a b && tysEq as bs
  | _, _ => false

/-- `Type::Equal` of two function types, src/type.cpp:3456-3484. -/
def ftyEq (a b : FTy) : Bool :=
  equal a.ret b.ret && decide (a.unmasked = b.unmasked) && tysEq a.params b.params

/-- A function template: how many parameters it has, its type for given
arguments (`ResolveDependence` of its return type and parameters), whether it
is `unmasked`, and the instances its body asks for. -/
structure Tmpl where
  count : Nat
  ret : List TArg → Ty
  params : List TArg → List Ty
  unmasked : Bool
  calls : List TArg → List Key

/-- The type of an instance: `InstantiateTemplateSymbol`,
src/func.cpp:1279-1296. -/
def Tmpl.fty (f : Tmpl) (args : List TArg) : FTy := ⟨f.ret args, f.params args, f.unmasked⟩

/-- What an instance runs. -/
inductive Body
  /-- the template's body with these arguments -/
  | gen (k : Key)
  /-- the body written in a specialization -/
  | written (id : Nat)
  deriving DecidableEq, Repr

/-- An element of `FunctionTemplate::instantiations`: its arguments, and of its
symbol the type and the function it has been given, src/func.cpp:1161, 1186.
The kind of instance only selects the linkage and is left out. -/
structure Inst where
  key : Key
  fty : FTy
  body : Option Body
  deriving DecidableEq, Repr

/-- The instances of all templates in the order in which they were entered,
the calls seen so far with the instance each refers to, and whether an error
has been reported. -/
structure St where
  insts : List Inst
  calls : List (Key × Nat)
  err : Bool
  deriving DecidableEq, Repr

def St.init : St := ⟨[], [], false⟩

/-- The first instance with these arguments, counted from `i`. -/
def lookupFrom (k : Key) : Nat → List Inst → Option Nat
  | _, [] => none
  | i, x :: xs => if keyEq x.key k then some i else lookupFrom k (i + 1) xs

/-- `FunctionTemplate::LookupInstantiation`, src/func.cpp:1121-1129. -/
def lookup (k : Key) (st : St) : Option Nat := lookupFrom k 0 st.insts

/-- `instantiations.emplace_back`, src/func.cpp:1161, 1186. -/
def push (x : Inst) (st : St) : St := { st with insts := st.insts ++ [x] }

/-- The call refers to this symbol, src/expr.cpp:9785-9787. -/
def record (k : Key) (i : Nat) (st : St) : St := { st with calls := st.calls ++ [(k, i)] }

def fail (st : St) : St := { st with err := true }

/-- One request after the other; none when one of them does not come to an
end. -/
def runAll (f : Key → St → Option St) : List Key → St → Option St
  | [], st => some st
  | k :: ks, st =>
    match f k st with
    | none => none
    | some st => runAll f ks st

/-- A call: the instance is looked up, and added when there is none,
src/expr.cpp:9775-9787 with src/func.cpp:1131-1164.  The body is checked
(`new Function`, src/func.cpp:1158 with 198-234) before the instance is
entered, and its calls ask for their instances then.  `n` bounds the depth of
nested additions: none is returned when it does not suffice. -/
def use (env : Nat → Tmpl) : Nat → Key → St → Option St
  | 0, k, st =>
    match lookup k st with
    | some i => some (record k i st)
    | none => none
  | n + 1, k, st =>
    match lookup k st with
    | some i => some (record k i st)
    | none =>
      match runAll (use env n) ((env k.t).calls k.args) st with
      | none => none
      | some st =>
        some (record k st.insts.length (push ⟨k, (env k.t).fty k.args, some (.gen k)⟩ st))

/-- `FunctionTemplate::AddInstantiation` by itself, src/func.cpp:1131-1164:
nothing is looked up. -/
def add (env : Nat → Tmpl) (n : Nat) (k : Key) (st : St) : Option St :=
  match runAll (use env n) ((env k.t).calls k.args) st with
  | none => none
  | some st => some (push ⟨k, (env k.t).fty k.args, some (.gen k)⟩ st)

/-- `Module::MatchFunctionTemplate`, src/module.cpp:1383-1432: the first
template of that name with this number of template parameters whose parameters
have these types.  The return type is not compared. -/
def matchTemplate (env : Nat → Tmpl) (args : List TArg) (ft : FTy) : List Nat → Option Key
  | [] => none
  | t :: ts =>
    if args.length = (env t).count ∧ tysEq ft.params ((env t).params args) = true then
      some ⟨t, args⟩
    else matchTemplate env args ft ts

/-- What a file says about its templates.  `ts` are the templates that have the
name used, in the order of the symbol table. -/
inductive Ev
  /-- a call that asks for this instance -/
  | call (k : Key)
  /-- `template int f<int>(int);` -/
  | explicit (ts : List Nat) (args : List TArg) (ft : FTy)
  /-- `template <> int f<int>(int);` -/
  | declare (ts : List Nat) (args : List TArg) (ft : FTy)
  /-- `template <> int f<int>(int) { … }`, the calls being those of the body -/
  | define (ts : List Nat) (args : List TArg) (ft : FTy) (id : Nat) (calls : List Key)
  deriving DecidableEq, Repr

/-- The instance meant, src/module.cpp:1398-1400: the arguments are given the
default variability first. -/
def target (env : Nat → Tmpl) (ts : List Nat) (args : List TArg) (ft : FTy) : Option Key :=
  matchTemplate env (args.map normalize) ft ts

/-- The type given to a specialization's symbol: `unmasked` is that of the
symbol before, src/func.cpp:1175-1177, src/module.cpp:1481-1484. -/
def inherit (ft : FTy) (unmasked : Bool) : FTy := { ft with unmasked := unmasked }

/-- The function and the type a symbol has already. -/
def instAt (st : St) (i : Nat) : Option Inst := st.insts[i]?

/-- The check at src/module.cpp:1518-1524. -/
def alreadyDefined (st : St) (k : Key) (ft : FTy) : Bool :=
  match lookup k st with
  | none => false
  | some i =>
    match instAt st i with
    | none => false
    | some x => ftyEq x.fty ft && x.body.isSome

/-- `AddFunctionTemplateSpecializationDeclaration`, src/module.cpp:1489-1526,
with `AddSpecialization`, src/func.cpp:1166-1189. -/
def declare (env : Nat → Tmpl) (ts : List Nat) (args : List TArg) (ft : FTy) (st : St) : St :=
  match target env ts args ft with
  | none => fail st
  | some k =>
    if !(env k.t).unmasked && ft.unmasked then fail st
    else if alreadyDefined st k ft then fail st
    else
      match lookup k st with
      | some _ => st
      | none => push ⟨k, inherit ft (env k.t).unmasked, none⟩ st

/-- The symbol at `i` is changed. -/
def update (i : Nat) (f : Inst → Inst) (st : St) : St :=
  { st with insts := st.insts.modify i f }

/-- `AddFunctionTemplateSpecializationDefinition`, src/module.cpp:1466-1487: the
type is set, the body is checked, then the symbol gets its function. -/
def define (env : Nat → Tmpl) (n : Nat) (ts : List Nat) (args : List TArg) (ft : FTy) (id : Nat)
    (calls : List Key) (st : St) : Option St :=
  match target env ts args ft with
  | none => some (fail st)
  | some k =>
    match lookup k st with
    | none => some st
    | some i =>
      match runAll (use env n) calls
          (update i (fun x => { x with fty := inherit ft x.fty.unmasked }) st) with
      | none => none
      | some st => some (update i (fun x => { x with body := some (.written id) }) st)

/-- `Module::AddFunctionTemplateInstantiation`, src/module.cpp:1434-1464. -/
def explicit (env : Nat → Tmpl) (n : Nat) (ts : List Nat) (args : List TArg) (ft : FTy)
    (st : St) : Option St :=
  match target env ts args ft with
  | none => some (fail st)
  | some k =>
    if !(env k.t).unmasked && ft.unmasked then some (fail st)
    else add env n k st

/-- One item of the file.  A specialization with a body is declared first
(src/parse.yy:3247-3259, 3299-3309). -/
def step (env : Nat → Tmpl) (n : Nat) (st : St) : Ev → Option St
  | .call k => use env n k st
  | .explicit ts args ft => explicit env n ts args ft st
  | .declare ts args ft => some (declare env ts args ft st)
  | .define ts args ft id calls => define env n ts args ft id calls (declare env ts args ft st)

/-- The file. -/
def run (env : Nat → Tmpl) (n : Nat) : List Ev → St → Option St
  | [], st => some st
  | e :: es, st =>
    match step env n st e with
    | none => none
    | some st => run env n es st

/-- No two instances have the same arguments. -/
def distinct : List Inst → Bool
  | [] => true
  | x :: xs => xs.all (fun y => !keyEq x.key y.key) && distinct xs

/-- `FunctionTemplate::GenerateIR`, src/func.cpp:1053-1066: an instance without
function is an error, and so is a second function of the same name
(`Function::GenerateIR`, src/func.cpp:658-671; the names are made of the
template's name, its parameters and the arguments, src/func.cpp:1311-1317, and
are taken to be the same only for the same instance). -/
def generates (st : St) : Bool := st.insts.all (fun x => x.body.isSome) && distinct st.insts

/-- The file is accepted. -/
def accepted (st : St) : Bool := !st.err && generates st

end Ispc.Insts
