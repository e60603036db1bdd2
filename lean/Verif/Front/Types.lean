/-!
# The type objects of the front end

The data a `Type` object carries, the functions that return a changed copy of
one, and the equality test on types.  `MoreGeneralType`, name mangling and
overload resolution are in separate files on top of this one.

Left out: template type parameters and dependent types (they are gone when
the modelled functions run on instantiated code), alignment, debug
information, and struct members (equality and mangling use the name only).
Pointers returned from the per-object caches (`asVaryingType`,
`asOtherConstType`, ...) are modelled as the object that is built when the
cache is empty.
-/

namespace Ispc.Types

/-- `Variability`, src/type.h:28-45. -/
inductive Var
  | uniform
  | varying
  | soa (width : Nat)
  | unbound
  deriving DecidableEq, Repr

/-- `AtomicType::BasicType`, src/type.h:376-393, without `TYPE_DEPENDENT`. -/
inductive Basic
  | void | bool | int1 | int8 | uint8 | int16 | uint16 | int32 | uint32
  | float16 | float | int64 | uint64 | double
  deriving DecidableEq, Repr

/-- The value of the enumerator, src/type.h:376-393. -/
def Basic.ord : Basic → Nat
  | .void => 0 | .bool => 1 | .int1 => 2 | .int8 => 3 | .uint8 => 4
  | .int16 => 5 | .uint16 => 6 | .int32 => 7 | .uint32 => 8
  | .float16 => 9 | .float => 10 | .int64 => 11 | .uint64 => 12
  | .double => 13

/-- The function flags `lCheckTypeEquality` looks at, src/type.cpp:3467-3471;
the other flags of src/type.h:985-998 are left out. -/
structure FnFlags where
  task : Bool := false
  exported : Bool := false
  externC : Bool := false
  externSYCL : Bool := false
  unmasked : Bool := false
  deriving DecidableEq, Repr

mutual
/-- The `Type` classes of src/type.h.  `v` is the stored variability and `c`
the stored constness.

* `enum`: `pos` stands for the source position, which is what identifies an
  enum type (src/type.cpp:3408).
* `ptr`: `slice` and `frozen` are the bits of `property`, `as` the address
  space (0 is `ispc_default`).
* `array`, `vec`: variability and constness are those of the element type
  (src/type.cpp:1325-1332, 1440-1443, 1699-1706).  `n = 0` is an unsized array; symbolic
  counts are left out.
* `struct`: `StructType` and `UndefinedStructType`.
* `ref`: `v` and `c` are copied from the target by the constructor only,
  src/type.cpp:2371-2380. -/
inductive Ty
  | atomic (b : Basic) (v : Var) (c : Bool)
  | enum (name : List Char) (pos : Nat) (v : Var) (c : Bool)
  | ptr (base : Ty) (v : Var) (c slice frozen : Bool) (as : Nat)
  | array (base : Ty) (n : Nat)
  | vec (base : Ty) (n : Nat)
  | struct (name : List Char) (v : Var) (c : Bool)
  | ref (target : Ty) (v : Var) (c : Bool) (as : Nat)
  | func (fl : FnFlags) (ret : Ty) (ps : Tys)
  deriving DecidableEq, Repr
/-- The parameter types of a function type. -/
inductive Tys
  | nil
  | cons (t : Ty) (ts : Tys)
  deriving DecidableEq, Repr
end

/-- The parameter types as a list. -/
def Tys.toList : Tys → List Ty
  | .nil => []
  | .cons t ts => t :: ts.toList

/-- The inverse of `Tys.toList`. -/
def Tys.ofList : List Ty → Tys
  | [] => .nil
  | t :: ts => .cons t (.ofList ts)

@[simp] theorem Tys.toList_ofList (l : List Ty) : (Tys.ofList l).toList = l := by
  induction l <;> simp_all [Tys.ofList, Tys.toList]

/-- `Type::GetVariability`, src/type.h:155, with the element's variability for
arrays and vectors, and `Uniform` for function types (src/type.cpp:2643). -/
def Ty.variability : Ty → Var
  | .atomic _ v _ => v
  | .enum _ _ v _ => v
  | .ptr _ v _ _ _ _ => v
  | .array b _ => b.variability
  | .vec b _ => b.variability
  | .struct _ v _ => v
  | .ref _ v _ _ => v
  | .func _ _ _ => .uniform

/-- `Type::IsConstType`, src/type.h:124. -/
def Ty.isConst : Ty → Bool
  | .atomic _ _ c => c
  | .enum _ _ _ c => c
  | .ptr _ _ c _ _ _ => c
  | .array b _ => b.isConst
  | .vec b _ => b.isConst
  | .struct _ _ c => c
  | .ref _ _ c _ => c
  | .func _ _ _ => false

/-- `Type::IsVaryingType`, src/type.h:164. -/
def Ty.isVarying (t : Ty) : Bool := decide (t.variability = .varying)

/-- `Type::IsUniformType`, src/type.h:161. -/
def Ty.isUniform (t : Ty) : Bool := decide (t.variability = .uniform)

/-- `Type::GetSOAWidth`, src/type.h:172. -/
def Ty.soaWidth (t : Ty) : Nat :=
  match t.variability with
  | .soa w => w
  | _ => 0

/-- The constructor `ReferenceType(target, as)`, src/type.cpp:2371-2380. -/
def mkRef (t : Ty) (as : Nat) : Ty := .ref t t.variability t.isConst as

/-- `GetAsVaryingType`: src/type.cpp:230-242 (most types), 1353-1362 (arrays
and vectors), 2447-2456 (references: `createWithBaseType`, 2386-2390, runs the
copy constructor, which derives variability and constness from the *old*
target, and then replaces the target only).  A function type gives `nullptr`,
src/type.cpp:2686; it is returned unchanged here, and the callers modelled
never ask. -/
def Ty.asVarying : Ty → Ty
  | .atomic b _ c => .atomic b .varying c
  | .enum n p _ c => .enum n p .varying c
  | .ptr b _ c s f a => .ptr b .varying c s f a
  | .array b n => if b.isVarying then .array b n else .array b.asVarying n
  | .vec b n => if b.isVarying then .vec b n else .vec b.asVarying n
  | .struct n _ c => .struct n .varying c
  | .ref t v c a =>
    if v = .varying then .ref t v c a else .ref t.asVarying t.variability t.isConst a
  | .func fl r ps => .func fl r ps

/-- `GetAsUniformType`: src/type.cpp:257-269, 1364-1373, 2458-2467 and, for
function types, 2688-2692. -/
def Ty.asUniform : Ty → Ty
  | .atomic b _ c => .atomic b .uniform c
  | .enum n p _ c => .enum n p .uniform c
  | .ptr b _ c s f a => .ptr b .uniform c s f a
  | .array b n => if b.isUniform then .array b n else .array b.asUniform n
  | .vec b n => if b.isUniform then .vec b n else .vec b.asUniform n
  | .struct n _ c => .struct n .uniform c
  | .ref t v c a =>
    if v = .uniform then .ref t v c a else .ref t.asUniform t.variability t.isConst a
  | .func fl r ps => .func fl r ps

/-- `GetAsNonConstType`: src/type.cpp:304-314 (most types), 1125-1131
(pointers: the frozen bit is cleared too), 1423-1429 (arrays and vectors),
2518-2533 (references), 2745 (functions). -/
def Ty.asNonConst : Ty → Ty
  | .atomic b v _ => .atomic b v false
  | .enum n p v _ => .enum n p v false
  | .ptr b v c s f a => if c then .ptr b v false s false a else .ptr b v c s f a
  | .array b n => .array b.asNonConst n
  | .vec b n => .vec b.asNonConst n
  | .struct n v _ => .struct n v false
  | .ref t v c a =>
    if c then .ref t.asNonConst t.variability t.isConst a else .ref t v c a
  | .func fl r ps => .func fl r ps

/-- `GetAsConstType`: src/type.cpp:292-302, 1117-1123, 1415-1421, 2501-2516,
2743. -/
def Ty.asConst : Ty → Ty
  | .atomic b v _ => .atomic b v true
  | .enum n p v _ => .enum n p v true
  | .ptr b v c s f a => if c then .ptr b v c s f a else .ptr b v true s false a
  | .array b n => .array b.asConst n
  | .vec b n => .vec b.asConst n
  | .struct n v _ => .struct n v true
  | .ref t v c a =>
    if c then .ref t v c a else .ref t.asConst t.variability t.isConst a
  | .func fl r ps => .func fl r ps

/-- `GetReferenceTarget`, src/type.cpp:287-290 and 2437. -/
def Ty.refTarget : Ty → Ty
  | .ref t _ _ _ => t
  | t => t

/-- `PointerType::GetUniform(t)`, src/type.cpp:1048-1050, not a slice. -/
def uniformPtr (t : Ty) : Ty := .ptr t .uniform false false false 0

/-- The test of constness at the head of `lCheckTypeEquality`,
src/type.cpp:3391-3393. -/
def constOk (ignoreConst : Bool) (a b : Ty) : Bool :=
  ignoreConst || decide (a.isConst = b.isConst)

mutual
/-- The part of `lCheckTypeEquality` after the test of constness,
src/type.cpp:3395-3500.  Every recursive call of the code is `constOk` and
this function. -/
def checkEqBody (ic : Bool) : Ty → Ty → Bool
  | .atomic b v _, .atomic b' v' _ => decide (b = b') && decide (v = v')
  | .enum _ p v _, .enum _ p' v' _ => decide (p = p') && decide (v = v')
  | .array b n, .array b' n' => decide (n = n') && (constOk ic b b' && checkEqBody ic b b')
  | .vec b n, .vec b' n' => decide (n = n') && (constOk ic b b' && checkEqBody ic b b')
  | .struct n v _, .struct n' v' _ => decide (v = v') && decide (n = n')
  | .ptr b v _ s f a, .ptr b' v' _ s' f' a' =>
    decide ((v = .uniform) ↔ (v' = .uniform)) && decide (s = s') && decide (f = f')
      && decide (a = a') && (constOk ic b b' && checkEqBody ic b b')
  | .ref t _ _ a, .ref t' _ _ a' => decide (a = a') && (constOk ic t t' && checkEqBody ic t t')
  | .func fl r ps, .func fl' r' ps' =>
    (constOk ic r r' && checkEqBody ic r r') && decide (fl = fl') && checkEqs ic ps ps'
  | _, _ => false
/-- The comparison of the parameters, src/type.cpp:3473-3481. -/
def checkEqs (ic : Bool) : Tys → Tys → Bool
  | .nil, .nil => true
  | .cons t ts, .cons t' ts' =>
    (constOk ic t t' && checkEqBody ic t t') && checkEqs ic ts ts'
  | _, _ => false
end

/-- `lCheckTypeEquality`, src/type.cpp:3386-3501. -/
def checkEq (ic : Bool) (a b : Ty) : Bool := constOk ic a b && checkEqBody ic a b

/-- `Type::Equal`, src/type.cpp:3503. -/
def equal (a b : Ty) : Bool := checkEq false a b

/-- `Type::EqualIgnoringConst`, src/type.cpp:3505. -/
def equalIC (a b : Ty) : Bool := checkEq true a b

/-- `Type::IsVoidType`, src/type.cpp:154, with `AtomicType::Void`,
src/type.cpp:363. -/
def Ty.isVoid (t : Ty) : Bool := equalIC t (.atomic .void .uniform false)

/-- `PointerType::IsVoidPointer`, src/type.cpp:1056-1058, with
`PointerType::Void`, src/type.cpp:1008. -/
def isVoidPointer (t : Ty) : Bool :=
  equalIC t.asUniform (uniformPtr (.atomic .void .uniform false))

end Ispc.Types
