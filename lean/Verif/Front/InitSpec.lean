/-!
# Initialisers of variables: data types and specification

`T v = e;`, `T v = { ... };` and `new T({ ... })` (docs/ispc.rst:3823-3920).

The value of a scalar is left abstract (`V`), and so is the rest of the
program's state (`S`): an initialiser expression is any function of the state
that yields a value and a new state.  Left out: pointer, enumeration and
reference *targets*, `soa` types and struct-valued initialiser expressions.
-/

namespace Ispc.Braces

/-- The basic types, `AtomicType::BasicType` (src/type.h:376-393), in the order
of the enumeration, without `void` and `dependent`. -/
inductive Kind where
  | bool | int1 | int8 | uint8 | int16 | uint16 | int32 | uint32
  | float16 | float | int64 | uint64 | double
deriving DecidableEq, Repr

/-- The type of a variable.  `uni`/`var` are atomic types, `vec` a short vector
of uniform elements (src/type.cpp:1784-1789), and `coll` any other collection:
a struct is the list of the types of its members, an array or a short vector of
varying elements repeats the element type (src/type.cpp:1468-1480,
src/type.cpp:1790-1793). -/
inductive Ty where
  | uni (k : Kind)
  | var (k : Kind)
  | vec (k : Kind) (n : Nat)
  | coll (ts : List Ty)

/-- An array of `n` elements of type `t` (src/type.cpp:1468-1480). -/
def Ty.arr (n : Nat) (t : Ty) : Ty := .coll (List.replicate n t)

/-- An initialiser expression: its type (uniform or varying, of basic type
`kind`; `atomic` is false when the type only converts to one, as an enumeration
or a reference does), its compile-time constant if it has one
(src/expr.h:60-75), and what evaluating it does.  Lane `j` of a varying value is
the value at `j`; a uniform value is read at `0`. -/
structure Ex (V S : Type) where
  varying : Bool
  kind    : Kind
  atomic  : Bool
  const   : Option (Nat → V)
  ev      : S → (Nat → V) × S

/-- An initialiser: an expression or a brace-enclosed list, `ExprList`
(src/expr.h:247-290). -/
inductive Init (V S : Type) where
  | expr (e : Ex V S)
  | list (is : List (Init V S))

/-- What a scalar of memory holds after the initialisation. -/
inductive Cell (V : Type) where
  | val (v : V)
  | poison
  | uninit
deriving DecidableEq, Repr

/-- The storage of a variable, following the shape of its type: a varying value
and a short vector are the node of their elements. -/
inductive Mem (V : Type) where
  | cell (c : Cell V)
  | node (ms : List (Mem V))

/-- What the model is parametric in: the gang size, the conversions between the
basic types, zero of each type, and the width in bits of the data type of the
target (`getDataTypeWidth()`, src/type.cpp:1849). -/
structure Cfg (V : Type) where
  W    : Nat
  dtw  : Nat
  conv : Kind → Kind → V → V
  zero : Kind → V
  conv_self : ∀ k v, conv k k v = v

variable {V S : Type}

mutual
/-- The storage of a variable of type `t` whose every scalar is zero. -/
def zeroMem (C : Cfg V) : Ty → Mem V
  | .uni k   => .cell (.val (C.zero k))
  | .var k   => .node (List.replicate C.W (.cell (.val (C.zero k))))
  | .vec k n => .node (List.replicate n (.cell (.val (C.zero k))))
  | .coll ts => .node (zeroMems C ts)
/-- The same for the members of a collection. -/
def zeroMems (C : Cfg V) : List Ty → List (Mem V)
  | []      => []
  | t :: ts => zeroMem C t :: zeroMems C ts
end

mutual
/-- **Specification.**  `Inits C T i s m s'`: initialising a variable of type `T`
with `i` in state `s` is allowed, leaves `m` in the variable and the rest of the
program in state `s'`.

* An expression is evaluated once and converted; a uniform value initialises
  every lane of a varying variable and every element of a short vector.
* A list of one value initialises an atomic variable with that value.
* A list of one value per lane initialises a varying variable lane by lane.
* A list initialises the elements of a collection in order, each evaluated once,
  from left to right, and the elements it does not reach are zero; it may not
  have more values than there are elements. -/
inductive Inits (C : Cfg V) : Ty → Init V S → S → Mem V → S → Prop where
  | uni {k e s v s'} : e.varying = false → e.ev s = (v, s') →
      Inits C (.uni k) (.expr e) s (.cell (.val (C.conv e.kind k (v 0)))) s'
  | spread {k e s v s'} : e.varying = false → e.ev s = (v, s') →
      Inits C (.var k) (.expr e) s
        (.node (List.replicate C.W (.cell (.val (C.conv e.kind k (v 0)))))) s'
  | lanes {k e s v s'} : e.varying = true → e.ev s = (v, s') →
      Inits C (.var k) (.expr e) s
        (.node ((List.range C.W).map fun j => .cell (.val (C.conv e.kind k (v j))))) s'
  | smear {k n e s v s'} : e.varying = false → e.ev s = (v, s') →
      Inits C (.vec k n) (.expr e) s
        (.node (List.replicate n (.cell (.val (C.conv e.kind k (v 0)))))) s'
  | braceUni {k i s m s'} : Inits C (.uni k) i s m s' → Inits C (.uni k) (.list [i]) s m s'
  | braceVar {k i s m s'} : Inits C (.var k) i s m s' → Inits C (.var k) (.list [i]) s m s'
  | each {k is s ms s'} : is.length ≠ 1 → is.length = C.W →
      Elems C (List.replicate C.W (.uni k)) is s ms s' →
      Inits C (.var k) (.list is) s (.node ms) s'
  | vec {k n is s ms s'} : Elems C (List.replicate n (.uni k)) is s ms s' →
      Inits C (.vec k n) (.list is) s (.node ms) s'
  | coll {ts is s ms s'} : Elems C ts is s ms s' →
      Inits C (.coll ts) (.list is) s (.node ms) s'
/-- Elements of the given types, initialised in order by a list. -/
inductive Elems (C : Cfg V) : List Ty → List (Init V S) → S → List (Mem V) → S → Prop where
  | nil {s} : Elems C [] [] s [] s
  | fill {t ts s ms s'} : Elems C ts [] s ms s' → Elems C (t :: ts) [] s (zeroMem C t :: ms) s'
  | cons {t ts i is s m s1 ms s'} : Inits C t i s m s1 → Elems C ts is s1 ms s' →
      Elems C (t :: ts) (i :: is) s (m :: ms) s'
end

mutual
/-- A constant expression has no side effect and its value is the constant. -/
def Wf : Init V S → Prop
  | .expr e  => ∀ c, e.const = some c → ∀ s, e.ev s = (c, s)
  | .list is => Wfs is
/-- The same for every initialiser of a list. -/
def Wfs : List (Init V S) → Prop
  | []      => True
  | i :: is => Wf i ∧ Wfs is
end

/-- Evaluating the expression changes nothing. -/
def Ex.pure (e : Ex V S) : Prop := ∀ s, (e.ev s).2 = s

/-- The shape of a list that gives every dimension of an array: `Shape i ds`
says that `i` is a list of `ds[0]` lists of `ds[1]` lists ... of expressions. -/
inductive Shape : Init V S → List Nat → Prop where
  | expr {e} : Shape (.expr e) []
  | list {is ds} : is ≠ [] → (∀ i ∈ is, Shape i ds) → Shape (.list is) (is.length :: ds)

end Ispc.Braces
