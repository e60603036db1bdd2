/-!
# Places: reading, writing and taking the address

`GetLValue`, `GetLValueType`, `GetValue` and `GetType` of the expressions that denote memory: variables,
references, `*p`, `p[i]`, `a[i]`, `s.m`, `p->m`, and of `&e`, `p + i` and pointer casts, src/expr.cpp.

What is modelled is what one program instance, number `l` of the gang, does; a uniform value is the same for all
of them.  A varying scalar or pointer in memory has one cell for each program instance, the one of number
`l` being `l` cells behind the first.

Simplifications.  Addresses are integers and every scalar and pointer has size one (the real sizes, paddings and widths
of offsets are the subject of `Verif.Front.Stride`).  Structures have two members, whose variabilities are resolved;
larger ones are nested pairs.  Short vectors, soa types and slices, pointers to functions, constness,
address spaces and expressions that are temporaries are left out.  Structures and arrays as a whole are
the subject of `Verif.Front.Aggregate`.  An index is given by its values.
-/

namespace Ispc.Places

/-- A type: scalars and pointers are uniform or varying. -/
inductive Ty
  | sc (var : Bool)
  | ptr (var : Bool) (t : Ty)
  | arr (n : Nat) (t : Ty)
  | pair (a b : Ty)
  deriving DecidableEq, Repr

/-- `Type::IsBasicType`, src/type.cpp:3381-3384: atomic types, enums and pointers. -/
def basic : Ty → Bool
  | .sc _ | .ptr _ _ => true
  | _ => false

/-- `IsVaryingType` of a basic type. -/
def varying : Ty → Bool
  | .sc v => v
  | .ptr v _ => v
  | _ => false

/-- `GetAsVaryingType`.  (Members declared `uniform` stay so in the code; reading them through a varying
pointer is an error, src/expr.cpp:5011-5016, 8521-8523.) -/
def asVarying : Ty → Ty
  | .sc _ => .sc true
  | .ptr _ t => .ptr true t
  | .arr n t => .arr n (asVarying t)
  | .pair a b => .pair (asVarying a) (asVarying b)

/-- An index: uniform or varying. -/
inductive Ix
  | uni (i : Int)
  | var (i : Nat → Int)

/-- The index that program instance `l` uses. -/
def Ix.at (l : Nat) : Ix → Int
  | .uni i => i
  | .var i => i l

/-- Whether the index is varying. -/
def Ix.varying : Ix → Bool
  | .uni _ => false
  | .var _ => true

/-- An expression: `x`, a reference, `*e`, `e[i]`, `e.m` or (`arrow`) `e->m` for the first or the `second` member,
`&e`, `e + i` and `(t * uniform)e` or `(t * varying)e`. -/
inductive E
  | var (x : Nat)
  | ref (x : Nat)
  | deref (e : E)
  | index (e : E) (i : Ix)
  | mem (arrow second : Bool) (e : E)
  | addr (e : E)
  | add (e : E) (i : Ix)
  | cast (v : Bool) (t : Ty) (e : E)

/-- The memory, the number of program instances in the gang, and the variables: where they are and their types.  A
reference is in memory as the address of what it refers to. -/
structure Env where
  W : Nat
  addr : Nat → Int
  ty : Nat → Ty
  mem : Int → Int

/-- How many cells an object takes. -/
def size (W : Nat) : Ty → Nat
  | .sc v => if v then W else 1
  | .ptr v _ => if v then W else 1
  | .arr n t => n * size W t
  | .pair a b => size W a + size W b

/-- Where a member is in its structure: `AddElementOffset`, src/ctx.cpp:2474-2523. -/
def offset (W : Nat) (second : Bool) (a : Ty) : Int := if second then size W a else 0

/-- The types: `GetType` and `GetLValueType`, the latter as the variability of the pointer and what it points to.
`SymbolExpr`, src/expr.cpp:9117-9131; `RefDerefExpr`, src/expr.cpp:8655-8668; `PtrDerefExpr`, src/expr.cpp:8563-8580,
and `DerefExpr`, src/expr.cpp:8542-8547; `IndexExpr`, src/expr.cpp:5065-5112 and 5257-5327; `StructMemberExpr`,
src/expr.cpp:5494-5596; `AddressOfExpr`, src/expr.cpp:8743-8781; `BinaryExpr`, src/expr.cpp:2374-2391, 2965-2969 and
3160-3168; `TypeCastExpr`, src/expr.cpp:8044-8079 and 8127-8131. -/
def types (s : Env) : E → Option (Ty × Option (Bool × Ty))
  | .var x => some (s.ty x, some (false, s.ty x))
  | .ref x => some (s.ty x, some (false, s.ty x))
  | .deref e =>
    match types s e with
    | some (.ptr v t, _) => some (if v then asVarying t else t, some (v, t))
    | _ => none
  | .index e i =>
    match types s e with
    | some (.ptr v t, _) => some (if v || i.varying then asVarying t else t, some (v || i.varying, t))
    | some (.arr _ t', some (v, .arr _ t)) => some (if i.varying then asVarying t' else t', some (v || i.varying, t))
    | _ => none
  | .mem true second e =>
    match types s e with
    | some (.ptr v (.pair a b), _) =>
      let t := if second then b else a
      some (if v then asVarying t else t, some (v, t))
    | _ => none
  | .mem false second e =>
    match types s e with
    | some (.pair _ _, some (v, .pair a b)) =>
      let t := if second then b else a
      some (if v then asVarying t else t, some (v, t))
    | _ => none
  | .addr e =>
    match types s e with
    | some (t', some (v, t)) => some (.ptr v t, some (false, t'))
    | _ => none
  | .add e i =>
    match types s e with
    | some (.ptr v t, _) => some (.ptr (v || i.varying) t, some (v || i.varying, t))
    | _ => none
  | .cast v t e =>
    match types s e with
    | some (.ptr v' _, _) => if v' && !v then none else some (.ptr v t, some (v, t))
    | _ => none

/-- `lAddVaryingOffsetsIfNeeded`, src/expr.cpp:4908-4941. -/
def offs (l : Nat) (v : Bool) (t : Ty) (a : Int) : Int :=
  if v && varying t then a + l else a

/-- What an access through a pointer reads or writes: `LoadInst`, src/ctx.cpp:2733-2801, and `StoreInst`,
src/ctx.cpp:3343-3379.  Through a uniform pointer the whole varying object is read or written, so program instance `l` has
its own cell of it; a gather or scatter uses the address as it is. -/
def cell (l : Nat) (v : Bool) (t : Ty) (a : Int) : Int :=
  if v then a else if varying t then a + l else a

/-- `LoadInst`, for basic types. -/
def load (s : Env) (l : Nat) (v : Bool) (t : Ty) (a : Int) : Option Int :=
  if basic t then some (s.mem (cell l v t a)) else none

/-- `GetLValue` and `GetValue` for program instance `l`.  `SymbolExpr`, src/expr.cpp:9091-9115; `DerefExpr`,
src/expr.cpp:8508-8540; `IndexExpr`, src/expr.cpp:5003-5063 and 5191-5255; `MemberExpr`, src/expr.cpp:5994-6074;
`AddressOfExpr`, src/expr.cpp:8729-8741; `Expr::GetLValue`, src/expr.cpp:80-83; `lEmitBinaryPointerArith`,
src/expr.cpp:1767-1775; `TypeCastExpr`, src/expr.cpp:7730-7783 and 8036-8042. -/
def emit (s : Env) (l : Nat) : E → Option Int × Option Int
  | .var x => (some (s.addr x), load s l false (s.ty x) (s.addr x))
  | .ref x => (some (s.mem (s.addr x)), load s l false (s.ty x) (s.mem (s.addr x)))
  | .deref e =>
    match types s e with
    | some (.ptr v t, _) => ((emit s l e).2, (emit s l e).2.bind fun a => load s l v t (offs l v t a))
    | _ => (none, none)
  | .index e i =>
    match types s e with
    | some (.ptr v t, _) =>
      let a := (emit s l e).2.map fun a => offs l (v || i.varying) t (a + i.at l * size s.W t)
      (a, a.bind (load s l (v || i.varying) t))
    | some (.arr _ _, some (v, .arr _ t)) =>
      let a := (emit s l e).1.map fun a => offs l (v || i.varying) t (a + i.at l * size s.W t)
      (a, a.bind (load s l (v || i.varying) t))
    | _ => (none, none)
  | .mem true second e =>
    match types s e with
    | some (.ptr v (.pair a b), _) =>
      let t := if second then b else a
      let p := (emit s l e).2.map fun p => offs l v t (p + offset s.W second a)
      (p, p.bind (load s l v t))
    | _ => (none, none)
  | .mem false second e =>
    match types s e with
    | some (.pair _ _, some (v, .pair a b)) =>
      let t := if second then b else a
      let p := (emit s l e).1.map fun p => offs l v t (p + offset s.W second a)
      (p, p.bind (load s l v t))
    | _ => (none, none)
  | .addr e => (none, (emit s l e).1)
  | .add e i =>
    match types s e with
    | some (.ptr _ t, _) => (none, (emit s l e).2.map fun a => a + i.at l * size s.W t)
    | _ => (none, none)
  | .cast _ _ e => ((emit s l e).2, (emit s l e).2)

/-- The value of an expression for program instance `l`, of scalar or pointer type. -/
def value (s : Env) (l : Nat) (e : E) : Option Int := (emit s l e).2

/-- Where program instance `l` writes when it executes `e = …`: `AssignExpr::GetValue`, src/expr.cpp:3448-3472, with
`lStoreAssignResult`, src/expr.cpp:1182-1200. -/
def written (s : Env) (l : Nat) (e : E) : Option Int :=
  match types s e, (emit s l e).1 with
  | some (_, some (v, t)), some a => if basic t then some (cell l v t a) else none
  | _, _ => none

/-- Where `e += …` and the like read what they change: `lEmitOpAssign`, src/expr.cpp:3373-3396. -/
def updated (s : Env) (l : Nat) (e : E) : Option Int :=
  match types s e, (emit s l e).1 with
  | some (_, some (v, t)), some a => load s l v t a
  | _, _ => none

/-- The value that `e++` and the like change: `lEmitPrePostIncDec`, src/expr.cpp:1223-1225. -/
def stepped (s : Env) (l : Nat) (e : E) : Option Int := value s l e

end Ispc.Places
