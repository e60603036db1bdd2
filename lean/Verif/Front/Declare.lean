/-!
# Declarators and declaration specifiers

What type a declaration gives to a name: the declarator the parser builds
(src/parse.yy), the type `Declarator::InitFromType` reads out of it
(src/decl.cpp) and the variability `ResolveUnboundVariability` fills in
(src/type.cpp).

Simplifications.  `soa<>`, vector sizes, address spaces, attributes, template
parameters and default arguments are left out.  Atomic, enum and struct types
are one constructor with a number for which one it is.  Source positions and
names are left out.  The text of a declaration is taken as already divided
into the grammar's phrases.  Any reported error is one outcome, `error`, and
any failed assertion or `FATAL` is `crash`.
-/

namespace Ispc.Declare

/-- `Variability`, src/type.h:28-44, without SOA. -/
inductive Vb
  | unbound | uniform | varying
deriving DecidableEq, Repr

mutual
/-- `Type` and its subclasses, src/type.h: void, basic types and structs (number `k`), pointers,
references, arrays (size 0: unsized) and functions. -/
inductive Ty
  | void (c : Bool)
  | base (k : Nat) (v : Vb) (c : Bool)
  | ptr (t : Ty) (v : Vb) (c : Bool)
  | ref (t : Ty)
  | arr (t : Ty) (n : Nat)
  | fn (r : Ty) (ps : Tys)
/-- `FunctionType::paramTypes`, src/type.h. -/
inductive Tys
  | nil
  | cons (t : Ty) (ts : Tys)
end

/-- The outcome of reading a declaration: a type, a reported error, or a failed assertion. -/
inductive Out (α : Type)
  | ok (a : α) | error | crash

/-- Go on only with a result. -/
def Out.bind {α β : Type} (x : Out α) (f : α → Out β) : Out β :=
  match x with
  | .ok a => f a
  | .error => .error
  | .crash => .crash

/-- Type qualifiers: `TYPEQUAL_UNIFORM`, `TYPEQUAL_VARYING` and `TYPEQUAL_CONST`,
src/parse.yy:1895-1908. -/
structure Quals where
  u : Bool
  v : Bool
  c : Bool
deriving DecidableEq, Repr

/-- No qualifier. -/
def Quals.none : Quals := ⟨false, false, false⟩

/-- `Declarator::InitFromType`, src/decl.cpp:835-851: the variability qualifiers ask for; nothing if
both are there, which is an error. -/
def Quals.vb (q : Quals) : Option Vb :=
  match q.u, q.v with
  | true, true => Option.none
  | true, false => some .uniform
  | false, true => some .varying
  | false, false => some .unbound

mutual
/-- The phrases `declarator`, `direct_declarator`, `abstract_declarator` and
`direct_abstract_declarator`, src/parse.yy:1921-1946, 1960-2056, 2172-2321: `leaf` is the identifier, or the
place where it is left out; `stars` is `pointer` in front of the rest; `amp` is `reference`. -/
inductive Src
  | leaf
  | paren (d : Src)
  | arr (d : Src) (n : Nat)
  | fn (d : Src) (ps : Params)
  | stars (q : Quals) (qs : List Quals) (d : Src)
  | amp (d : Src)
/-- `parameter_list`, src/parse.yy:2094-2120: for each parameter the qualifiers, whether the type
was given by a `typedef` name, the type, and the declarator. -/
inductive Params
  | nil
  | cons (q : Quals) (td : Bool) (t : Ty) (p : Par) (ps : Params)
/-- `parameter_declaration`, src/parse.yy:2122-2149: without a declarator, with a name, without. -/
inductive Par
  | none
  | named (d : Src)
  | abstract (d : Src)
end

mutual
/-- `Declarator`, src/decl.h:201-256: `absent` is a null `child`. -/
inductive Node
  | absent
  | base
  | ptr (q : Quals) (c : Node)
  | ref (c : Node)
  | arr (n : Nat) (c : Node)
  | fn (ps : NParams) (c : Node)
/-- `Declarator::functionParams`, src/decl.h:253-255. -/
inductive NParams
  | nil
  | cons (q : Quals) (td : Bool) (t : Ty) (d : Node) (ps : NParams)
end

/-- `pointer`, src/parse.yy:2059-2083: one declarator for every star, each the child of the one
before. -/
def chain : List Quals → Node
  | [] => .absent
  | q :: qs => .ptr q (chain qs)

/-- `declarator: pointer direct_declarator`, src/parse.yy:1921-1933: hung below the last star. -/
def attach : Node → Node → Node
  | .ptr q .absent, d => .ptr q d
  | .ptr q c, d => .ptr q (attach c d)
  | n, _ => n

mutual
/-- The declarator built for `declarator` and `direct_declarator`, src/parse.yy:1921-1946, 1960-2056. -/
def buildN : Src → Node
  | .leaf => .base
  | .paren d => buildN d
  | .arr d n => .arr n (buildN d)
  | .fn d ps => .fn (buildPs ps) (buildN d)
  | .stars q qs d => attach (chain (q :: qs)) (buildN d)
  | .amp d => .ref (buildN d)
/-- The declarator built for `abstract_declarator` and `direct_abstract_declarator`,
src/parse.yy:2172-2321: with stars in front of something else a new pointer declarator takes their
place. -/
def buildA : Src → Node
  | .leaf => .absent
  | .paren d => buildA d
  | .arr d n => .arr n (buildA d)
  | .fn d ps => .fn (buildPs ps) (buildA d)
  | .stars q qs .leaf => chain (q :: qs)
  | .stars _ _ d => .ptr Quals.none (buildA d)
  | .amp d => .ref (buildA d)
/-- The parameters of a function declarator, src/parse.yy:2094-2149; one without a declarator gets
`DK_BASE`, src/decl.cpp:944-949. -/
def buildPs : Params → NParams
  | .nil => .nil
  | .cons q td t .none ps => .cons q td t .base (buildPs ps)
  | .cons q td t (.named d) ps => .cons q td t (buildN d) (buildPs ps)
  | .cons q td t (.abstract d) ps => .cons q td t (buildA d) (buildPs ps)
end

/-- `Type::IsVoidType`. -/
def isVoid : Ty → Bool
  | .void _ => true
  | _ => false

/-- `CastType<ReferenceType>(t) != nullptr`. -/
def isRef : Ty → Bool
  | .ref _ => true
  | _ => false

/-- `CastType<FunctionType>(t) != nullptr`. -/
def isFn : Ty → Bool
  | .fn _ _ => true
  | _ => false

/-- `Type::GetVariability`: arrays and references have that of their element or target,
src/type.cpp:1340-1349; functions and void are uniform. -/
def vbOf : Ty → Vb
  | .void _ => .uniform
  | .base _ v _ => v
  | .ptr _ v _ => v
  | .ref t => vbOf t
  | .arr t _ => vbOf t
  | .fn _ _ => .uniform

/-- `GetAsConstType`, src/type.cpp:291-301, 1117-1123, 1415-1421, 2501-2516, 2743. -/
def asConst : Ty → Ty
  | .void _ => .void true
  | .base k v _ => .base k v true
  | .ptr t v _ => .ptr t v true
  | .ref t => .ref (asConst t)
  | .arr t n => .arr (asConst t) n
  | .fn r ps => .fn r ps

/-- `GetAsUniformType`, `GetAsVaryingType` and `GetAsUnboundVariabilityType`,
src/type.cpp:230-277, 1353-1381, 2447-2478: arrays and references pass it on.  Functions have only
`GetAsUniformType`, 2686-2697; the others end in a null pointer or `FATAL`. -/
def withVb (w : Vb) : Ty → Out Ty
  | .void c => .ok (.void c)
  | .base k _ c => .ok (.base k w c)
  | .ptr t _ c => .ok (.ptr t w c)
  | .ref t => (withVb w t).bind fun x => .ok (.ref x)
  | .arr t n => (withVb w t).bind fun x => .ok (.arr x n)
  | .fn r ps => if w = .uniform then .ok (.fn r ps) else .crash

/-- `lApplyTypeQualifiers`, src/decl.cpp:141-196, without `signed` and `unsigned`. -/
def applyQuals (q : Quals) (t : Ty) : Out Ty :=
  let t := if q.c then asConst t else t
  if q.u && q.v then .error
  else if q.u then (if isVoid t then .error else withVb .uniform t)
  else if q.v then (if isVoid t then .error else withVb .varying t)
  else if isVoid t then .ok t else withVb .unbound t

/-- `DeclSpecs::DeclSpecs`, src/decl.cpp:356-372: a type that is in the symbol table (`td`), so that it
may have come by a `typedef` name, brings its qualifier along. -/
def typedefQuals (q : Quals) (td : Bool) (t : Ty) : Quals :=
  if td then ⟨q.u || decide (vbOf t = .uniform), q.v || decide (vbOf t = .varying), q.c⟩ else q

/-- `DeclSpecs::GetBaseType`, src/decl.cpp:384-464, without vector sizes and `soa<>`. -/
def specs (q : Quals) (td : Bool) (t : Ty) : Out Ty := applyQuals (typedefQuals q td t) t

/-- The variability taken in place of an unbound one. -/
def Vb.orElse (w v : Vb) : Vb := if w = .unbound then v else w

mutual
/-- `ResolveUnboundVariability`, src/type.cpp:244-255, 1105-1115, 1391-1397, 2493-2499, 2724-2741:
what is pointed to is resolved to uniform. -/
def resolve (v : Vb) : Ty → Ty
  | .void c => .void c
  | .base k w c => .base k (w.orElse v) c
  | .ptr t w c => .ptr (resolve .uniform t) (w.orElse v) c
  | .ref t => .ref (resolve v t)
  | .arr t n => .arr (resolve v t) n
  | .fn r ps => .fn (resolve v r) (resolves v ps)
/-- The parameter types, src/type.cpp:2731-2738. -/
def resolves (v : Vb) : Tys → Tys
  | .nil => .nil
  | .cons t ts => .cons (resolve v t) (resolves v ts)
end

/-- `Declarator::InitFromType`, src/decl.cpp:1006-1016: an unsized dimension. -/
def unsized : Ty → Bool
  | .arr t n => decide (n = 0) || unsized t
  | _ => false

/-- `Declarator::InitFromType`, src/decl.cpp:972-1017: the type of a parameter. -/
def paramTy (t : Ty) : Out Ty :=
  match resolve .varying t with
  | .void _ => .error
  | .arr e _ => if unsized e then .error else .ok (.ptr e .uniform false)
  | x => .ok x

/-- `child == nullptr`. -/
def Node.isAbsent : Node → Bool
  | .absent => true
  | _ => false

mutual
/-- `Declarator::InitFromType`, src/decl.cpp:834-1083. -/
def init : Node → Ty → Out Ty
  | .absent, t => .ok t
  | .base, t => .ok t
  | .ptr q c, t =>
    match q.vb with
    | none => .error
    | some v => init c (.ptr t v q.c)
  | .ref c, t => if isRef t then .error else init c (.ref t)
  | .arr n c, t => if isVoid t || isRef t then .error else init c (.arr t n)
  | .fn ps c, t =>
    (inits ps).bind fun ts =>
      if isFn t then .error
      else if c.isAbsent then .crash
      else init c (.fn (resolve .varying t) ts)
/-- The loop over the parameters, src/decl.cpp:934-1046. -/
def inits : NParams → Out Tys
  | .nil => .ok .nil
  | .cons q td t d ps =>
    (specs q td t).bind fun b => (init d b).bind fun x => (paramTy x).bind fun y =>
      (inits ps).bind fun ys => .ok (.cons y ys)
end

/-- A variable's type: `Declaration::GetVariableDeclarations`, src/decl.cpp:1108-1146. -/
def variableTy (q : Quals) (td : Bool) (t : Ty) (d : Src) : Out Ty :=
  (specs q td t).bind fun b => (init (buildN d) b).bind fun x =>
    if isVoid x || isFn x then .error else .ok (resolve .varying x)

/-- A declaration that begins with `void`: `typedef void name;`, or any other one. -/
inductive VoidDecl
  | name
  | other (d : Src)

/-- A list of declarations that begin with `void`.  All of them mention the one object
`AtomicType::Void`, src/parse.yy:1456, src/type.cpp:363, and a `typedef` puts that object into the
symbol table, src/parse.yy:3427-3439, where `ContainsType`, src/sym.cpp:305-314, finds it (`td`). -/
def voidDecls (td : Bool) : List VoidDecl → List (Out Ty)
  | [] => []
  | .name :: ds => specs Quals.none td (.void false) :: voidDecls true ds
  | .other d :: ds =>
    ((specs Quals.none td (.void false)).bind fun b => init (buildN d) b) :: voidDecls td ds

/-- A type name: `type_name`, src/parse.yy:2159-2170, on a type with its qualifiers already applied. -/
def typeName (t : Ty) (d : Src) : Out Ty := init (buildA d) t

end Ispc.Declare
