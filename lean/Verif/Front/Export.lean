/-!
# Which types an exported function may take and return

`lRecursiveCheckValidParamType`, `lCheckExportedParameterTypes` and `lCheckForStructParameters`
(src/module.cpp:851-967), and the part of `Module::AddFunctionDeclaration` that calls them and looks at the
default values of the parameters (src/module.cpp:1153-1265).

Simplified: the kinds of scalars are numbers; slice pointers are pointers; a struct that is not defined yet
is a leaf, as it is for the code; constness and address spaces are left out, as the code does not look at
them here.
-/

namespace Ispc.Export

/-- `Variability` (src/type.h:28-44). -/
inductive Vb where
  | unbound
  | uniform
  | varying
  | soa (w : Nat)
deriving DecidableEq, Repr

/-- `Type::ResolveUnboundVariability` (src/type.cpp:244-255): `x` inside something of variability `v`. -/
def Vb.resolve (v : Vb) : Vb → Vb
  | .unbound => v
  | x        => x

mutual
/-- Types with the variability that is written.  `scal` is a basic or an enumeration type, `undef` a struct
that is declared and not defined, `func` a function type, `vec` a short vector. -/
inductive Ty where
  | scal (k : Nat) (v : Vb)
  | undef (name : Nat) (v : Vb)
  | func (f : Nat)
  | ptr (base : Ty) (v : Vb)
  | vec (elem : Ty) (n : Nat)
  | arr (elem : Ty) (n : Nat)
  | struct (v : Vb) (ms : Tys)
  | ref (target : Ty)
inductive Tys where
  | nil
  | cons (t : Ty) (ts : Tys)
end

/-- `GetVariability` of a type inside something of variability `v`: a reference has that of its target
(src/type.cpp:2376), an array or a short vector that of its elements (src/type.cpp:1454-1460), a function
type is uniform (src/type.cpp:2643). -/
def Ty.vb (v : Vb) : Ty → Vb
  | .scal _ x | .undef _ x | .ptr _ x | .struct x _ => v.resolve x
  | .func _ => .uniform
  | .vec t _ | .arr t _ | .ref t => t.vb v

/-- `IsSOAType` (src/type.h:168). -/
def Vb.isSoa : Vb → Bool
  | .soa _ => true
  | _      => false

/-- The warnings of `lRecursiveCheckValidParamType`. -/
inductive Warn where
  | pointsToSoa
  | pointsToVarying
deriving DecidableEq, Repr

/-- The end of `lRecursiveCheckValidParamType` (src/module.cpp:886-898), for a type of variability `x`. -/
def leaf (vectorOk soaOk : Bool) (x : Vb) : Bool × List Warn :=
  if x.isSoa && soaOk then (false, [.pointsToSoa])
  else if x = .varying && !vectorOk then (false, [])
  else (true, if x = .varying then [.pointsToVarying] else [])

mutual
/-- `lRecursiveCheckValidParamType` (src/module.cpp:851-899): whether the type is accepted, and the warnings.
`v` is the variability of the struct around it.  The recursive calls for members and elements exchange the
two flags (src/module.cpp:856, 872), as here.  What a pointer points to is uniform if nothing else is written
(src/type.cpp:1113). -/
def check (v : Vb) (vectorOk soaOk : Bool) : Ty → Bool × List Warn
  | .struct x ms => checks (v.resolve x) vectorOk soaOk ms
  | .vec t _     => if vectorOk then check v soaOk vectorOk t else (false, [])
  | .arr t _     => check v soaOk vectorOk t
  | .ptr t x     => if v.resolve x = .varying then (false, []) else check .uniform true true t
  | .scal _ x    => leaf vectorOk soaOk (v.resolve x)
  | .undef _ x   => leaf vectorOk soaOk (v.resolve x)
  | .func _      => leaf vectorOk soaOk .uniform
  | .ref t       => leaf vectorOk soaOk (t.vb v)
/-- The loop over the members of a struct (src/module.cpp:855-860), which stops at the first that is not accepted. -/
def checks (v : Vb) (vectorOk soaOk : Bool) : Tys → Bool × List Warn
  | .nil       => (true, [])
  | .cons t ts =>
    if (check v soaOk vectorOk t).1 then
      ((checks v vectorOk soaOk ts).1, (check v soaOk vectorOk t).2 ++ (checks v vectorOk soaOk ts).2)
    else check v soaOk vectorOk t
end

/-- The errors about an exported function. -/
inductive Err where
  | soaParam | varyingPointer | structWithVector | vector | varyingParam
  | returns | structByValue | missingDefault
deriving DecidableEq, Repr

/-- `GetBaseType`: what a pointer points to, the elements of an array (src/type.cpp:1484-1493) or of a short vector, what
the target of a reference gives (src/type.cpp:2439-2445), and otherwise the type itself. -/
def Ty.elemOfArr : Ty → Ty
  | .arr t _ => t.elemOfArr
  | t        => t
def Ty.base : Ty → Ty
  | .ptr t _ => t
  | .arr t _ => t.elemOfArr
  | .vec t _ => t
  | .ref t   => t.base
  | t        => t

/-- `CastType<StructType>` succeeds. -/
def Ty.isStruct : Ty → Bool
  | .struct .. => true
  | _          => false

/-- The loop over pointers to pointers (src/module.cpp:910-916): one error for each pointer to an `soa` type. -/
def soaErrs : Ty → List Err
  | .ptr t _ => (if (t.vb .uniform).isSoa then [.soaParam] else []) ++ soaErrs t
  | _        => []

/-- The errors for a pointer (src/module.cpp:908-920). -/
def ptrErrs : Ty → List Err
  | .ptr t x => if soaErrs (.ptr t x) = [] then [.varyingPointer] else soaErrs (.ptr t x)
  | _        => []

/-- `lCheckExportedParameterTypes` (src/module.cpp:906-929): the errors. -/
def paramErrs (t : Ty) : List Err :=
  if (check .uniform false false t).1 then []
  else
    ptrErrs t ++
      [if t.base.isStruct then .structWithVector
       else match t with
         | .vec .. => .vector
         | _       => .varyingParam]

/-- A parameter: its type, and whether it has a default value. -/
structure Param where
  ty      : Ty
  default : Bool

/-- The loop over the parameters (src/module.cpp:1183-1265) of an exported function; `seen` is `seenDefaultArg`. -/
def loop : (seen : Bool) → List Param → List Err
  | _, []         => []
  | seen, p :: ps =>
    paramErrs p.ty ++ (if !p.default && seen then [.missingDefault] else []) ++ loop (seen || p.default) ps

/-- `lCheckForStructParameters` (src/module.cpp:956-967). -/
def structErrs (ps : List Param) : List Err :=
  if ps.any (·.ty.isStruct) then [.structByValue] else []

/-- The checks of `Module::AddFunctionDeclaration` for an exported function: the result (src/module.cpp:1153-1161), structs
passed by value (src/module.cpp:1167-1170), the parameters. -/
def exportErrs (ret : Ty) (ps : List Param) : List Err :=
  (if (check .uniform false false ret).1 then [] else [.returns]) ++ structErrs ps ++ loop false ps

end Ispc.Export
