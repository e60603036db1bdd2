/-!
# Objects declared `const`

The rules by which the compiler keeps a program from storing to an object
declared `const`: the type of each way to name an object, the conversions of
pointers and references, and the checks on assignments, `++` and `--`.

The rules are run beside a small machine that executes the statements, so that
it can be said what a history of accepted statements does to memory.

Left out: the rate of types (`uniform` and `varying`) and `soa` (they do not
occur in the rules on `const`), functions and pointers to functions, explicit
type casts (by which a program may ask to drop `const`), `new` and `delete`,
operators overloaded on structs and function templates.
-/

namespace Ispc.Constness

/-! ## Types -/

/-- Types, reduced to what the rules on `const` look at.  `scalar` stands for
the atomic and enumeration types, numbered, `vec` for the short vectors, and
`struct` names a struct.  An array has no flag of its own. -/
inductive Ty where
  | void (c : Bool)
  | scalar (k : Nat) (c : Bool)
  | vec (k n : Nat) (c : Bool)
  | ptr (base : Ty) (c : Bool)
  | arr (elem : Ty) (n : Nat)
  | struct (name : Nat) (c : Bool)
deriving DecidableEq, Repr

namespace Ty

/-- `IsConstType`, src/type.h:124.  The flag of an array is that of its elements,
src/type.cpp:1330. -/
def isConst : Ty → Bool
  | .void c => c
  | .scalar _ c => c
  | .vec _ _ c => c
  | .ptr _ c => c
  | .arr e _ => e.isConst
  | .struct _ c => c

/-- `GetAsConstType`, src/type.cpp:292-302, 1117-1123 and 1415-1421. -/
def asConst : Ty → Ty
  | .void _ => .void true
  | .scalar k _ => .scalar k true
  | .vec k n _ => .vec k n true
  | .ptr b _ => .ptr b true
  | .arr e n => .arr e.asConst n
  | .struct s _ => .struct s true

/-- `GetAsNonConstType`, src/type.cpp:304-314, 1125-1131 and 1423-1429. -/
def asNonConst : Ty → Ty
  | .void _ => .void false
  | .scalar k _ => .scalar k false
  | .vec k n _ => .vec k n false
  | .ptr b _ => .ptr b false
  | .arr e n => .arr e.asNonConst n
  | .struct s _ => .struct s false

/-- `Type::EqualIgnoringConst`, src/type.cpp:3386-3505.  `Type::Equal` is the
equality of `Ty`. -/
def eqIC : Ty → Ty → Bool
  | .void _, .void _ => true
  | .scalar k _, .scalar k' _ => k == k'
  | .vec k n _, .vec k' n' _ => k == k' && n == n'
  | .ptr b _, .ptr b' _ => b.eqIC b'
  | .arr e n, .arr e' n' => n == n' && e.eqIC e'
  | .struct s _, .struct s' _ => s == s'
  | _, _ => false

/-- `PointerType::IsVoidPointer`, of the base, src/type.cpp:1056-1058. -/
def isVoid : Ty → Bool
  | .void _ => true
  | _ => false

end Ty

/-- The structs of a program: the declared types of the members of each. -/
abbrev Structs := Nat → List Ty

/-- One step from an object to a part of it. -/
inductive Sel where
  | mem (k : Nat)
  | idx (i : Nat)
deriving DecidableEq, Repr

/-- The type of a part.  A member: `StructType::GetElementType`,
src/type.cpp:2195-2217, where the members of a `const` struct become `const`.
An element: `IndexExpr::GetTypeImpl`, src/expr.cpp:5065-5114.  An element of
a short vector: src/expr.cpp:5743-5784. -/
def sel (Γ : Structs) : Ty → Sel → Option Ty
  | .struct s c, .mem k => ((Γ s)[k]?).map fun t => if c then t.asConst else t
  | .arr e _, .idx _ => some e
  | .vec k _ c, .idx _ => some (.scalar k c)
  | _, _ => none

/-- The type of the part that a path leads to. -/
def typeAt (Γ : Structs) : Ty → List Sel → Option Ty
  | t, [] => some t
  | t, s :: q => (sel Γ t s).bind fun u => typeAt Γ u q

/-! ## Conversions -/

/-- What the compiler does with a use: nothing to say, a warning, an error. -/
inductive Verdict where
  | silent | warned | error
deriving DecidableEq, Repr

/-- An error unless `b`. -/
def Verdict.ofBool (b : Bool) : Verdict := if b then .silent else .error

/-- The kind that stands for `bool`. -/
def boolKind : Nat := 0

/-- The conversion of a pointer, src/expr.cpp:320-392. -/
def convPtr (b : Ty) : Ty → Verdict
  | .scalar k _ => .ofBool (k == boolKind)
  | .arr e _ => .ofBool (b == e)
  | .ptr b' _ =>
    if b'.isVoid then .ofBool (!(b.isConst && !b'.isConst))
    else if b = b' || b.asConst = b' then .silent
    else if b.eqIC b' then .warned
    else .error
  | _ => .error

/-- The conversion of a value that is neither a pointer nor converted to one,
src/expr.cpp:422-601. -/
def convValue (src dst : Ty) : Verdict :=
  if dst.eqIC src && dst.isConst && !src.isConst then .silent
  else if dst = src.asNonConst then .silent
  else match dst, src with
    | .arr e _, .arr e' _ => .ofBool (e == e' || e == e'.asConst)
    | .vec _ n _, .vec _ n' _ => .ofBool (n == n')
    | .struct s _, .struct s' _ => .ofBool (s == s')
    | .vec .., .scalar .. => .silent
    | .scalar .., .scalar .. => .silent
    | _, _ => .error

/-- `lDoTypeConv` where no type is a reference, src/expr.cpp:168-601. -/
def convert (src dst : Ty) : Verdict :=
  if dst = src then .silent
  else if src.isVoid || dst.isVoid then .error
  else match src, dst with
    | .arr e _, .ptr b _ =>
      if b.isVoid then .silent
      else .ofBool (b == if b.isConst then e.asConst else e)
    | .ptr b _, dst => convPtr b dst
    | src, dst => convValue src dst

/-- `lDoTypeConv` from an object of type `src` to a reference to `dst`,
src/expr.cpp:422-425, 427-447 and 462-476. -/
def convRef (src dst : Ty) : Verdict :=
  if dst = src then .silent
  else if dst.eqIC src && dst.isConst && !src.isConst then .silent
  else if dst = src.asConst then .silent
  else match src, dst with
    | .arr e _, .arr e' _ => .ofBool (e == e')
    | _, _ => .error

/-! ## Expressions and statements -/

mutual

/-- Expressions that name an object: a variable, a member, an element of an
array or short vector, `*p`, `p[i]`. -/
inductive LV where
  | var (x : Nat)
  | mem (l : LV) (k : Nat)
  | idx (l : LV) (i : Nat)
  | deref (p : RV)

/-- Expressions that have a value: a number, `NULL`, the value of an object,
its address, the address of the first element of an array, `p + i`. -/
inductive RV where
  | num (k n : Nat)
  | load (l : LV)
  | addr (l : LV)
  | decay (l : LV)
  | add (p : RV) (i : Int)

end

/-- Statements.  `decl` declares a variable whose parts start out as the given
numbers, `init` one that starts out with the value of an expression, and
`bind` a parameter of type reference to `t`, as a call does.  `step` stands for
the four operators `++` and `--`. -/
inductive Stmt where
  | decl (x : Nat) (t : Ty) (f : List Sel → Nat)
  | init (x : Nat) (t : Ty) (e : RV)
  | bind (x : Nat) (t : Ty) (l : LV)
  | assign (l : LV) (e : RV)
  | opAssign (l : LV) (e : RV)
  | step (l : LV) (up : Bool)

mutual

/-- The type of an expression that names an object: src/expr.cpp:9131
(a variable; of a reference, the type it refers to), src/expr.cpp:5494-5565 (a
member), src/expr.cpp:5065-5114 (an element), src/expr.cpp:8563-8580 (`*p`). -/
def ltype (Γ : Structs) (σ : Nat → Option Ty) : LV → Option Ty
  | .var x => σ x
  | .mem l k => (ltype Γ σ l).bind fun t => sel Γ t (.mem k)
  | .idx l i => (ltype Γ σ l).bind fun t => sel Γ t (.idx i)
  | .deref p => (rtype Γ σ p).bind fun
    | .ptr b _ => if b.isVoid then none else some b
    | _ => none

/-- The type of an expression that has a value: src/expr.cpp:8743-8768 (an
address). -/
def rtype (Γ : Structs) (σ : Nat → Option Ty) : RV → Option Ty
  | .num k _ => some (.scalar k false)
  | .load l => ltype Γ σ l
  | .addr l => (ltype Γ σ l).map fun t => .ptr t false
  | .decay l => (ltype Γ σ l).bind fun
    | .arr e _ => some (.ptr e false)
    | _ => none
  | .add p _ => (rtype Γ σ p).bind fun
    | .ptr b c => if b.isVoid then none else some (.ptr b c)
    | _ => none

end

/-- `lCheckForConstStructMember`, src/expr.cpp:3526-3551.  The number bounds
the depth of structs in structs; a struct can hold only structs defined before
it, so its own number is a bound. -/
def constMember (Γ : Structs) : Nat → List Ty → Bool
  | 0, _ => false
  | f + 1, ms => ms.any fun t => t.isConst || match t with
    | .struct s _ => constMember Γ f (Γ s)
    | _ => false

/-- `AssignExpr::TypeCheck` for `=`, src/expr.cpp:3553-3645. -/
def checkAssign (Γ : Structs) (lt rt : Ty) : Verdict :=
  if lt.isConst then .error
  else match lt with
    | .arr .. => .error
    | .struct s _ => if constMember Γ (s + 1) (Γ s) then .error else convert rt lt
    | _ => convert rt lt

/-- `AssignExpr::TypeCheck` for `+=` and the like, src/expr.cpp:3553-3645. -/
def checkOpAssign (lt rt : Ty) : Verdict :=
  if lt.isConst then .error
  else match lt with
    | .ptr b _ => if b.isVoid then .error else convert rt (.scalar 1 false)
    | .arr .. => .error
    | .struct .. => .error
    | _ => convert rt lt

/-- `UnaryExpr::TypeCheck` for `++` and `--`, src/expr.cpp:1508-1566. -/
def checkStep (lt : Ty) : Verdict :=
  if lt.isConst then .error
  else match lt with
    | .scalar k _ => .ofBool (k != boolKind)
    | .vec k _ _ => .ofBool (k != boolKind)
    | .ptr b _ => .ofBool (!b.isVoid)
    | _ => .error

/-- The verdict on a statement, where `σ` gives the types of the variables. -/
def check (Γ : Structs) (σ : Nat → Option Ty) : Stmt → Verdict
  | .decl _ t _ => .ofBool (!t.isVoid)
  | .init _ t e => match rtype Γ σ e with
    | some rt => match t with
      | .arr .. => .error
      | t => convert rt t
    | none => .error
  | .bind _ t l => match ltype Γ σ l with
    | some lt => convRef lt t
    | none => .error
  | .assign l e => match ltype Γ σ l, rtype Γ σ e with
    | some lt, some rt => checkAssign Γ lt rt
    | _, _ => .error
  | .opAssign l e => match ltype Γ σ l, rtype Γ σ e with
    | some lt, some rt => checkOpAssign lt rt
    | _, _ => .error
  | .step l _ => match ltype Γ σ l with
    | some lt => checkStep lt
    | none => .error

/-! ## The machine -/

/-- A place in memory: an object and a path into it. -/
abbrev Loc := Nat × List Sel

/-- A value in memory: a number or an address. -/
inductive Val where
  | num (n : Nat)
  | addr (l : Loc)
deriving DecidableEq, Repr

/-- A state: how many objects there are, the type each was declared with, the
values of their parts, and for each variable the place it names and the type
it is declared with. -/
structure State where
  next : Nat
  ty : Nat → Ty
  mem : Nat → List Sel → Val
  vars : Nat → Option (Loc × Ty)

/-- The types of the variables. -/
def State.types (s : State) (x : Nat) : Option Ty := (s.vars x).map (·.2)

/-- The type of the object at a place. -/
def State.typeOf (Γ : Structs) (s : State) (l : Loc) : Option Ty := typeAt Γ (s.ty l.1) l.2

/-- The number of elements of an array or short vector. -/
def count : Ty → Nat
  | .arr _ n => n
  | .vec _ n _ => n
  | _ => 0

/-- Whether element `i` of the object at a place exists. -/
def inBounds (Γ : Structs) (s : State) (l : Loc) (i : Nat) : Bool :=
  match s.typeOf Γ l with
  | some t => i < count t
  | none => false

/-- The place `i` elements further on, for the place of an element. -/
def shift (Γ : Structs) (s : State) (l : Loc) (i : Int) : Option Loc :=
  match l.2.getLast? with
  | some (.idx j) =>
    if 0 ≤ (j : Int) + i && inBounds Γ s (l.1, l.2.dropLast) ((j : Int) + i).toNat then
      some (l.1, l.2.dropLast ++ [.idx ((j : Int) + i).toNat])
    else none
  | _ => none

mutual

/-- The place an expression names; none where the program has no defined
meaning (an index out of range, a number used as an address).  `GetLValue` of
each expression: src/expr.cpp:5191-5255, 6045-6100, 8535-8540 and 9109-9115. -/
def lval (Γ : Structs) (s : State) : LV → Option Loc
  | .var x => (s.vars x).map (·.1)
  | .mem l k => (lval Γ s l).map fun p => (p.1, p.2 ++ [.mem k])
  | .idx l i => (lval Γ s l).bind fun p =>
    if inBounds Γ s p i then some (p.1, p.2 ++ [.idx i]) else none
  | .deref e => (rval Γ s e).bind fun v => match v [] with
    | .addr l => some l
    | .num _ => none

/-- The value of an expression: the value of each part. -/
def rval (Γ : Structs) (s : State) : RV → Option (List Sel → Val)
  | .num _ n => some fun _ => .num n
  | .load l => (lval Γ s l).map fun p q => s.mem p.1 (p.2 ++ q)
  | .addr l => (lval Γ s l).map fun p _ => .addr p
  | .decay l => (lval Γ s l).bind fun p =>
    if inBounds Γ s p 0 then some fun _ => .addr (p.1, p.2 ++ [.idx 0]) else none
  | .add e i => (rval Γ s e).bind fun v => match v [] with
    | .addr l => (shift Γ s l i).map fun l' _ => .addr l'
    | .num _ => none

end

/-- The number that a value is taken for. -/
def Val.toNum : Val → Val
  | .num n => .num n
  | .addr _ => .num 1

/-- A value converted to a type.  A scalar becomes all the elements of a short
vector.  What becomes of numbers does not matter here. -/
def cast (src dst : Ty) (v : List Sel → Val) : List Sel → Val :=
  match src, dst with
  | .struct .., .struct .. => v
  | .ptr .., .ptr .. => v
  | .scalar .., .vec .. => fun _ => (v []).toNum
  | _, _ => fun q => (v q).toNum

/-- The value of an expression converted to a type, src/expr.cpp:7730-7900.
An array converted to a pointer gives the address of its first element. -/
def valueAs (Γ : Structs) (s : State) (e : RV) (rt dst : Ty) : Option (List Sel → Val) :=
  match e, rt, dst with
  | .load l, .arr .., .ptr .. => rval Γ s (.decay l)
  | e, rt, dst => (rval Γ s e).map (cast rt dst)

/-- A store of a value with all its parts. -/
def store (s : State) (l : Loc) (v : List Sel → Val) : State :=
  { s with mem := fun o q => if o = l.1 ∧ l.2 <+: q then v (q.drop l.2.length) else s.mem o q }

/-- A new object, named by a variable. -/
def declare (s : State) (x : Nat) (t : Ty) (v : List Sel → Val) : State :=
  { next := s.next + 1
    ty := fun o => if o = s.next then t else s.ty o
    mem := fun o q => if o = s.next then v q else s.mem o q
    vars := fun y => if y = x then some ((s.next, []), t) else s.vars y }

/-- A number computed from two; which one does not matter here. -/
def addNum : Val → Val → Val
  | .num a, .num b => .num (a + b)
  | _, _ => .num 0

/-- What a statement does; none where it has no defined meaning. -/
def exec (Γ : Structs) (s : State) : Stmt → Option State
  | .decl x t f => some (declare s x t fun q => .num (f q))
  | .init x t e => (rtype Γ s.types e).bind fun rt =>
    (valueAs Γ s e rt t).map fun v => declare s x t v
  | .bind x t l => (lval Γ s l).map fun p =>
    { s with vars := fun y => if y = x then some (p, t) else s.vars y }
  | .assign l e => (ltype Γ s.types l).bind fun lt => (rtype Γ s.types e).bind fun rt =>
    (lval Γ s l).bind fun p => (valueAs Γ s e rt lt).map fun v => store s p v
  | .opAssign l e => (ltype Γ s.types l).bind fun lt => (lval Γ s l).bind fun p =>
    (rval Γ s e).bind fun v => match lt with
      | .ptr .. => match s.mem p.1 p.2, v [] with
        | .addr a, .num n => (shift Γ s a n).map fun a' => store s p fun _ => .addr a'
        | _, _ => none
      | _ => some (store s p fun q => addNum (s.mem p.1 (p.2 ++ q)) (v q))
  | .step l up => (ltype Γ s.types l).bind fun lt => (lval Γ s l).bind fun p => match lt with
    | .ptr .. => match s.mem p.1 p.2 with
      | .addr a => (shift Γ s a (if up then 1 else -1)).map fun a' => store s p fun _ => .addr a'
      | .num _ => none
    | _ => some (store s p fun q => addNum (s.mem p.1 (p.2 ++ q)) (.num 1))

/-- A history of statements, each of which the compiler takes with a verdict
that `ok` allows. -/
def run (Γ : Structs) (ok : State → Stmt → Bool) : State → List Stmt → Option State
  | s, [] => some s
  | s, c :: cs => if ok s c then (exec Γ s c).bind fun s' => run Γ ok s' cs else none

/-- No objects, no variables. -/
def start : State := ⟨0, fun _ => .scalar 0 false, fun _ _ => .num 0, fun _ => none⟩

end Ispc.Constness
