import Verif.Front.Overload

/-!
# Function templates: the deduction of template arguments

`lDeduceParam`, `lCheckDeductionCompatibility`, `lDeduceVectorParams` and
`FunctionSymbolExpr::getCandidateTemplateFunctions`, with the substitution of
template arguments in the types of parameters
(`Type::ResolveDependenceForTopType`).

Left out: calls inside templates whose arguments are still dependent (the code
puts them off), dependent function types and structures, slices and address
spaces of the pointers in a template's parameters, templates that have been
declared only, the texts of messages.  A name is either that of a type
parameter or that of a value parameter, as the symbol table ensures.
-/

namespace Ispc.Templ

open Ispc.Types

abbrev Name := List Char

/-- `SequentialType::ElementCount`: a number or the name of a template's value
parameter. -/
inductive Count
  | fixed (n : Nat)
  | sym (n : Name)
  deriving DecidableEq, Repr

/-- The type of a parameter of a function template: `TemplateTypeParmType`
(src/type.cpp:769-770) below pointers, references, short vectors and arrays,
or a type without template parameters. -/
inductive Par
  | con (t : Ty)
  | parm (n : Name) (v : Var) (c : Bool)
  | ptr (b : Par) (v : Var) (c : Bool)
  | ref (t : Par)
  | vec (b : Par) (n : Count)
  | array (b : Par) (n : Count)
  deriving DecidableEq, Repr

/-- `TemplateArg`, src/func.cpp:879-880: a type, or a constant with its
type. -/
inductive TArg
  | ty (t : Ty)
  | num (b : Basic) (n : Int)
  deriving DecidableEq, Repr

/-- `TemplateInstantiation::argsMap`, src/func.cpp:1202-1207. -/
abbrev Map := Name → Option TArg

/-- `argsMap[name] = arg`, src/func.cpp:1210-1213. -/
def Map.set (m : Map) (n : Name) (a : TArg) : Map := fun k => if k = n then some a else m k

/-- `TemplateArg::GetAsType`, src/func.cpp:882-891: a constant gives its type.
-/
def TArg.asTy : TArg → Ty
  | .ty t => t
  | .num b _ => .atomic b .uniform true

/-- `TemplateInstantiation::InstantiateType`, src/func.cpp:1215-1222. -/
def Map.ty (m : Map) (n : Name) : Option Ty := (m n).map TArg.asTy

/-- What a step gives: a value, a failed deduction (the candidate is skipped),
a null pointer that is followed, or a read outside an array. -/
inductive Out (α : Type)
  | ok (a : α)
  | fail
  | null
  | outside
  deriving DecidableEq, Repr

/-- `Type::IsTypeDependent`, src/type.cpp:158-207. -/
def Par.typeDep : Par → Bool
  | .con _ => false
  | .parm _ _ _ => true
  | .ptr b _ _ => b.typeDep
  | .ref t => t.typeDep
  | .vec b _ => b.typeDep
  | .array b _ => b.typeDep

/-- `Type::IsCountDependent`, src/type.cpp:209-229: pointers and references are
not looked through. -/
def Par.countDep : Par → Bool
  | .vec _ (.sym _) => true
  | .array _ (.sym _) => true
  | _ => false

/-- `Type::IsDependent`, src/type.cpp:156. -/
def Par.dep (p : Par) : Bool := p.typeDep || p.countDep

/-- The type a type parameter stands for: the variability of the parameter is
enforced and its `const` added, src/type.cpp:795-811. -/
def bindParm (t : Ty) (v : Var) (c : Bool) : Ty :=
  let t := match v with
    | .uniform => t.asUniform
    | .varying => t.asVarying
    | _ => t
  if c then t.asConst else t

/-- `ResolveElementCount`, src/type.cpp:1679-1694: a count that is not positive
leaves the name. -/
def Count.resolve (m : Map) : Count → Count
  | .fixed n => .fixed n
  | .sym n =>
    match m n with
    | some (.num _ k) => if 0 < k then .fixed k.toNat else .sym n
    | _ => .sym n

/-- `ResolveDependence`: src/type.cpp:788-812 (type parameters), 1090-1103
(pointers), 1495-1508 (arrays), 1726-1731 (short vectors), 2485-2491
(references). -/
def Par.resolve (m : Map) : Par → Par
  | .con t => .con t
  | .parm n v c =>
    match m.ty n with
    | some t => .con (bindParm t v c)
    | none => .parm n v c
  | .ptr b v c => .ptr (b.resolve m) v c
  | .ref t => .ref (t.resolve m)
  | .vec b n => .vec (b.resolve m) (n.resolve m)
  | .array b n => .array (b.resolve m) (n.resolve m)

/-- `ResolveUnboundVariability` of a type without template parameters:
src/type.cpp:244-255, 1105-1115 (pointers), 1391-1397 (arrays and short
vectors), 2493-2499 (references).  Function types are left as they are. -/
def bindVar (v : Var) : Ty → Ty
  | .atomic b w c => .atomic b (if w = .unbound then v else w) c
  | .enum n p w c => .enum n p (if w = .unbound then v else w) c
  | .ptr b w c s f a => .ptr (bindVar .uniform b) (if w = .unbound then v else w) c s f a
  | .array b n => .array (bindVar v b) n
  | .vec b n => .vec (bindVar v b) n
  | .struct n w c => .struct n (if w = .unbound then v else w) c
  | .ref t _ _ a => mkRef (bindVar v t) a
  | .func fl r ps => .func fl r ps

/-- The type itself, when no template parameter is left. -/
def Par.close : Par → Option Ty
  | .con t => some t
  | .parm _ _ _ => none
  | .ptr b v c => b.close.map fun t => .ptr t v c false false 0
  | .ref t => t.close.map fun t => mkRef t 0
  | .vec b (.fixed n) => b.close.map fun t => .vec t n
  | .vec _ (.sym _) => none
  | .array b (.fixed n) => b.close.map fun t => .array t n
  | .array _ (.sym _) => none

/-- `ResolveDependenceForTopType`, src/type.cpp:129-133, as applied to every
parameter of an instance, src/type.cpp:2704-2722. -/
def Par.instantiate (m : Map) (p : Par) : Option Ty :=
  (p.resolve m).close.map (bindVar .varying)

/-- `GetAsNonConstType` of a parameter that is not a reference,
src/type.cpp:304-314, 1125-1131, 1423-1429. -/
def Par.nonConst : Par → Par
  | .con t => .con t.asNonConst
  | .parm n v _ => .parm n v false
  | .ptr b v _ => .ptr b v false
  | .ref t => .ref t
  | .vec b n => .vec b.nonConst n
  | .array b n => .array b.nonConst n

/-- The table of `lDeduceParam`, src/expr.cpp:9448-9471.  The varying version
of a function type is a null pointer (src/type.cpp:2686), which line 9471
follows. -/
def fromTable (v : Var) (a : Ty) : Out Ty :=
  if v = .uniform ∧ a.isVarying = true then .fail
  else if v = .uniform ∧ a.isUniform = true then
    match a with
    | .func .. => .null
    | a => .ok a.asVarying
  else if v = .varying ∧ a.isVarying = true then .ok a.asUniform
  else .ok a

/-- `lDeduceParam`, src/expr.cpp:9422-9477.  The step that takes `const` off
both types (9431-9433) matters for type parameters only. -/
def deduceParam : Par → Ty → Out (Name × Ty)
  | .parm n v c, a =>
    match fromTable v (if c && a.isConst && !Overload.isRef a then a.asNonConst else a) with
    | .ok t => .ok (n, t)
    | .fail => .fail
    | .null => .null
    | .outside => .outside
  | .ptr b _ _, .ptr a _ _ _ _ _ => deduceParam b a
  | .ref t, .ref a _ _ _ => deduceParam t a
  | _, _ => .fail

/-- `lCheckDeductionCompatibility`: src/expr.cpp:9479-9514 for types and
9516-9538 for values. -/
def compat (m : Map) (n : Name) : TArg → Out Map
  | .ty t =>
    match m.ty n with
    | none => .ok (m.set n (.ty t))
    | some prev =>
      if equal prev t = true then .ok m
      else if prev.isUniform = true ∧ t.isVarying = true ∧ equal prev.asVarying t = true then
        .ok (m.set n (.ty t))
      else if prev.isVarying = true ∧ t.isUniform = true then .ok m
      else .fail
  | .num b k =>
    match m n with
    | some (.num b' k') => if b' = b ∧ k' = k then .ok m else .fail
    | _ => .ok (m.set n (.num b k))

/-- `VectorType::GetCountString`, src/type.cpp:1733-1741: the buffer holds 15
characters and the terminating zero. -/
def countString (n : Name) : Name := n.take 15

/-- `lDeduceVectorParams`, src/expr.cpp:9540-9561. -/
def deduceVector (m : Map) (b : Par) (c : Count) (e : Ty) (k : Nat) : Out Map :=
  match b, c with
  | .parm n v q, .sym x =>
    match deduceParam (.parm n v q) e with
    | .ok (n, t) =>
      match compat m n (.ty t) with
      | .ok m => compat m (countString x) (.num .int32 k)
      | .fail => .fail
      | .null => .null
      | .outside => .outside
    | .fail => .fail
    | .null => .null
    | .outside => .outside
  | _, _ => .fail

/-- The adjustments of an argument's type when the parameter is not a
reference: src/expr.cpp:9681-9683 (a reference), 9695-9703 (an array becomes a
pointer), 9706 (`const`). -/
def valueOf (a : Ty) : Ty :=
  match a.refTarget with
  | .array e _ =>
    (Ty.ptr e .uniform false (decide (0 < (Ty.array e 0).soaWidth)) false 0).asNonConst
  | a => a.asNonConst

/-- The adjusted parameter and argument, src/expr.cpp:9680-9710. -/
def adjust (p : Par) (a : Ty) : Par × Ty :=
  match p with
  | .ref t => (t, a.refTarget)
  | p => (p.nonConst, valueOf a)

/-- One round of the loop, src/expr.cpp:9712-9734. -/
def deduceOne (m : Map) (p : Par) (a : Ty) : Out Map :=
  match adjust p a with
  | (.vec b c, .vec e k) => deduceVector m b c e k
  | (.vec _ _, _) => .fail
  | (p, a) =>
    match deduceParam p a with
    | .ok (n, t) => compat m n (.ty t)
    | .fail => .fail
    | .null => .null
    | .outside => .outside

/-- The loop over the parameters, src/expr.cpp:9672-9736.  `argTypes[i]` is
read for every dependent parameter, also when the call leaves the argument to
its default. -/
def deduceAll (m : Map) : List Par → List Ty → Out Map
  | [], _ => .ok m
  | p :: ps, as =>
    if p.dep = true then
      match as with
      | [] => .outside
      | a :: as =>
        match deduceOne m p a with
        | .ok m => deduceAll m ps as
        | .fail => .fail
        | .null => .null
        | .outside => .outside
    else deduceAll m ps as.tail

/-- `TemplateParam`: its name and, for a value, its type. -/
structure TParam where
  name : Name
  value : Option Basic
  deriving DecidableEq, Repr

/-- A function template: its parameters, and the function's parameters, each
with whether it has a default. -/
structure Template where
  tps : List TParam
  ps : List (Par × Bool)
  deriving DecidableEq, Repr

/-- The constructor of `TemplateInstantiation`, src/func.cpp:1194-1208. -/
def explicitMap : List TParam → List TArg → Map
  | p :: ps, a :: as => fun k => if k = p.name then some a else explicitMap ps as k
  | _, _ => fun _ => none

/-- The test of the values given for value parameters, src/expr.cpp:9631-9644.
-/
def valuesOk : List TParam → List TArg → Bool
  | p :: ps, a :: as =>
    (match p.value, a with
      | some b, .num b' _ =>
        Overload.canConvert (.atomic b' .uniform true) (.atomic b .uniform true)
      | some b, .ty t => Overload.canConvert t (.atomic b .uniform true)
      | none, _ => true) && valuesOk ps as
  | _, _ => true

/-- The list of all template arguments, src/expr.cpp:9743-9773. -/
def complete (m : Map) : List TParam → List TArg → Option (List TArg)
  | [], _ => some []
  | _ :: ps, a :: as => (complete m ps as).map (a :: ·)
  | p :: ps, [] =>
    match p.value, m p.name with
    | none, some a => (complete m ps []).map (.ty a.asTy :: ·)
    | some _, some (.num b k) => (complete m ps []).map (.num b k :: ·)
    | _, _ => none

/-- One candidate of `getCandidateTemplateFunctions`, src/expr.cpp:9578-9787:
the template arguments of the instance that becomes a candidate of the call. -/
def candidate (f : Template) (explicit : List TArg) (args : List Ty) : Out (List TArg) :=
  if f.ps.length < args.length then .fail
  else if args.length < f.ps.length ∧
      ((f.ps[args.length]?).map (·.2)) ≠ some true then .fail
  else if explicit.length = f.tps.length then
    if valuesOk f.tps explicit then .ok explicit else .fail
  else if f.tps.length < explicit.length then .fail
  else
    let m := explicitMap f.tps explicit
    match deduceAll m (f.ps.map fun p => p.1.resolve m) args with
    | .ok m =>
      match complete m f.tps explicit with
      | some l => .ok l
      | none => .fail
    | .fail => .fail
    | .null => .null
    | .outside => .outside

/-- The types of the parameters of the instance, src/func.cpp:1150 and
1278-1284. -/
def signature (f : Template) (targs : List TArg) : List (Option Ty) :=
  f.ps.map fun p => p.1.instantiate (explicitMap f.tps targs)

/-- `normalizeTemplateArgs`, src/expr.cpp:9194-9206, with
`TemplateArg::SetAsVaryingType`, src/func.cpp:951-955: an explicit type without
variability becomes varying. -/
def normalize : TArg → TArg
  | .ty t => .ty (if t.variability = .unbound then t.asVarying else t)
  | .num b n => .num b n

end Ispc.Templ
