import Mathlib.Data.Nat.Log
import Verif.Front.InitSpec

/-!
# Initialisers of variables: the model of `InitSymbol`

`InitSymbol` (src/expr.cpp:739-1016), `lGetExprListConstant`
(src/expr.cpp:4656-4810), `ExprList::HasAtomicInitializerList`
(src/expr.cpp:4856-4877) and `ArrayType::SizeUnsizedArrays`
(src/type.cpp:1620-1677).

Simplified: `TypeConvertExpr` is `convertible`, which knows the atomic types
only; an initialiser that is null because of an earlier error is left out; the
storage of the variable is not part of the state `S` the expressions read.
-/

namespace Ispc.Braces

variable {V S : Type}

/-- What initialising a variable comes to: an error message, a malformed
instruction (an assertion of LLVM), or storage and a new state. -/
inductive Res (V S : Type) where
  | reject
  | crash
  | ok (m : Mem V) (s : S)

/-- What `GetStorageConstant` comes to: an error message and no constant, no
constant, or a constant. -/
inductive CRes (α : Type) where
  | error
  | none
  | some (a : α)

/-- Can `TypeConvertExpr(e, T)` convert?  A varying value only goes into a
varying variable; a uniform one also into a short vector; neither into a struct
or an array. Called at src/expr.cpp:782 and src/expr.cpp:4726; the errors for arrays are
at src/stmt.cpp:339-341. -/
def convertible : Ty → Ex V S → Bool
  | .uni _,   e => !e.varying
  | .var _,   _ => true
  | .vec _ _, e => !e.varying
  | .coll _,  _ => false

/-- The storage written for the value `v` of `e`, converted to the type: a
uniform value is repeated (src/expr.cpp:782-792). -/
def place (C : Cfg V) (e : Ex V S) (v : Nat → V) : Ty → Mem V
  | .uni k   => .cell (.val (C.conv e.kind k (v 0)))
  | .var k   =>
    if e.varying then .node ((List.range C.W).map fun j => .cell (.val (C.conv e.kind k (v j))))
    else .node (List.replicate C.W (.cell (.val (C.conv e.kind k (v 0)))))
  | .vec k n => .node (List.replicate n (.cell (.val (C.conv e.kind k (v 0)))))
  | .coll _  => .cell .uninit

/-- `GetStorageConstant` of an expression that is not a list: the constants of
the compiler are atomic, so only an atomic type has one
(src/expr.cpp:6696-6847); the type of a varying constant must not be uniform
(src/expr.cpp:6696-6700). -/
def constExpr (C : Cfg V) (T : Ty) (e : Ex V S) : CRes (Mem V) :=
  match e.const, T with
  | some c, .uni k => if e.varying then .none else .some (place C e c (.uni k))
  | some c, .var k => .some (place C e c (.var k))
  | _, _           => .none

/-- Read the constants of the elements as the constant of the collection
(src/expr.cpp:4769-4809). -/
def CRes.node : CRes (List (Mem V)) → CRes (Mem V)
  | .error   => .error
  | .none    => .none
  | .some ms => .some (.node ms)

/-- Put the constant of an element before the constants of the others
(src/expr.cpp:4740-4747). -/
def CRes.cons : CRes (Mem V) → CRes (List (Mem V)) → CRes (List (Mem V))
  | .error, _        => .error
  | .none, _         => .none
  | .some _, .error  => .error
  | .some _, .none   => .none
  | .some m, .some ms => .some (m :: ms)

/-- Does `TypeConvertExpr` fail for this element of a list?  It is not asked for a
list (src/expr.cpp:4722-4730). -/
def unconvertible (t : Ty) : Init V S → Bool
  | .expr e => !convertible t e
  | .list _ => false

mutual
/-- `GetStorageConstant` of an initialiser: `lGetExprListConstant`
(src/expr.cpp:4656-4810) for a list; the tests of the number of values are at
src/expr.cpp:4696-4710. -/
def constOf (C : Cfg V) (T : Ty) : Init V S → CRes (Mem V)
  | .expr e  => constExpr C T e
  | .list is =>
    match T with
    | .uni k   => constOne C (.uni k) is
    | .var k   =>
      if is.length = 1 then constOne C (.var k) is
      else if is.length > C.W then .error
      else if is.length < C.W then .error
      else (constElems C (List.replicate C.W (.uni k)) is).node
    | .vec k n =>
      if is.length > n then .error else (constElems C (List.replicate n (.uni k)) is).node
    | .coll ts =>
      if is.length > ts.length then .error else (constElems C ts is).node
/-- A list of one value for an atomic type, src/expr.cpp:4662-4672; any other
list has no constant for a uniform one, src/expr.cpp:4678-4680. -/
def constOne (C : Cfg V) (T : Ty) : List (Init V S) → CRes (Mem V)
  | []          => .none
  | i :: []     => constOf C T i
  | _ :: _ :: _ => .none
/-- The loop over the elements, src/expr.cpp:4712-4748, and the zeros for the
missing ones, src/expr.cpp:4750-4767 (the poison that pads a short vector is not
part of its elements).  An expression must be convertible,
src/expr.cpp:4722-4733. -/
def constElems (C : Cfg V) : List Ty → List (Init V S) → CRes (List (Mem V))
  | [], _           => .some []
  | t :: ts, []     => .some (zeroMems C (t :: ts))
  | t :: ts, i :: is =>
    if unconvertible t i then .error
    else CRes.cons (constOf C t i) (constElems C ts is)
end

/-- Number of elements of the LLVM vector that holds a uniform short vector,
`VectorType::getVectorMemoryCount` (src/type.cpp:1835-1849): the next power of
two, but at least 128 bits of the data type of the target. -/
def vecMem (dtw n : Nat) : Nat :=
  let p := 2 ^ Nat.clog 2 n
  if p * dtw < 128 then 128 / dtw else p

/-- The order in which `std::map<BasicType, ...>` visits the basic types
(src/expr.cpp:892, src/type.h:376-393). -/
def kinds : List Kind :=
  [.bool, .int1, .int8, .uint8, .int16, .uint16, .int32, .uint32,
   .float16, .float, .int64, .uint64, .double]

/-- The initialisers of a list when every one is an expression of atomic type,
`HasAtomicInitializerList` (src/expr.cpp:4856-4877). -/
def atomics : List (Init V S) → Option (List (Ex V S))
  | []           => some []
  | .expr e :: is => if e.atomic then (atomics is).map (e :: ·) else none
  | .list _ :: _  => none

/-- The entry of the map for a basic type: the expressions of that type with
their positions, in order (src/expr.cpp:4869). -/
def group (es : List (Ex V S)) (k : Kind) : List (Ex V S × Nat) :=
  es.zipIdx.filter fun x => x.1.kind = k

/-- Number of entries of the map, `exprPerType.size()` (src/expr.cpp:950). -/
def entries (es : List (Ex V S)) : Nat :=
  (kinds.filter fun k => group es k ≠ []).length

/-- State of the loop over the map (src/expr.cpp:911-968). -/
inductive VSt (V S : Type) where
  | crash
  | silent (s : S)
  | go (acc : Nat → Cell V) (s : S)

/-- `InsertInst` of an element (src/ctx.cpp:3530-3548). -/
def setLane (f : Nat → Cell V) (p : Nat) (c : Cell V) : Nat → Cell V :=
  fun j => if j = p then c else f j

/-- Evaluate the expressions of an entry in order and insert their values at
their positions (src/expr.cpp:932-937). -/
def insertAll : List (Ex V S × Nat) → (Nat → Cell V) → S → (Nat → Cell V) × S
  | [], f, s => (f, s)
  | (e, p) :: g, f, s =>
    let r := e.ev s
    insertAll g (setLane f p (.val (r.1 0))) r.2

/-- A conversion applied to every lane; poison stays poison
(src/expr.cpp:939-948). -/
def convLanes (C : Cfg V) (k' k : Kind) (f : Nat → Cell V) : Nat → Cell V :=
  fun j => match f j with
    | .val v => .val (C.conv k' k v)
    | c      => c

/-- The mask of the shuffle, `linearVector` (src/expr.cpp:928-936). -/
def linear (N : Nat) (g : List (Ex V S × Nat)) : Nat → Nat :=
  fun j => if j ∈ g.map Prod.snd then j else N + j

/-- `shufflevector a, b, mask` on vectors of `N` elements. -/
def shuffle (N : Nat) (a b : Nat → Cell V) (mask : Nat → Nat) : Nat → Cell V :=
  fun j => if mask j < N then a (mask j) else b (mask j - N)

/-- One turn of the loop over the map (src/expr.cpp:912-968).  Inserting a varying
value into a uniform vector, or the other way round, is a malformed instruction;
an entry of varying values only is noticed at src/expr.cpp:942-944 and the
function returns without a store and without an error.  With a single expression
`GetValue` is called at src/expr.cpp:960 and again at src/expr.cpp:962. -/
def vstep (C : Cfg V) (k : Kind) (N : Nat) (ng : Nat) (g : List (Ex V S × Nat)) :
    VSt V S → VSt V S
  | .crash    => .crash
  | .silent s => .silent s
  | .go acc s =>
    match g with
    | []       => .go acc s
    | [(e, p)] =>
      if e.varying then .crash
      else
        let r := e.ev s
        if e.kind = k then .go (setLane acc p (.val (r.1 0))) r.2
        else
          let r2 := e.ev r.2
          .go (setLane acc p (.val (C.conv e.kind k (r2.1 0)))) r2.2
    | (e, p) :: g' =>
      if (((e, p) :: g').all fun x => x.1.varying) then
        .silent (insertAll ((e, p) :: g') (fun _ => .poison) s).2
      else if (((e, p) :: g').any fun x => x.1.varying) then .crash
      else
        let r := insertAll ((e, p) :: g') (fun _ => .poison) s
        let per := convLanes C e.kind k r.1
        if ng > 1 then .go (shuffle N per acc (linear N ((e, p) :: g'))) r.2
        else .go per r.2

/-- Is the lane a proper value? -/
def isVal : Cell V → Bool
  | .val _ => true
  | _      => false

/-- What the elements of the variable read after `StoreInst(initListVector,
ptrInfo)` (src/expr.cpp:969).  The store is not told the type
(src/ctx.cpp:3323-3332), so a vector of `N` `bool`s is stored as `N` packed
bits, while the elements are read as bytes whose low bit counts
(src/ctx.cpp:2653-2663). -/
def stored (k : Kind) (N n : Nat) (f : Nat → Cell V) : List (Mem V) :=
  (List.range n).map fun i =>
    if k = .bool then
      if 8 * i < N then
        if ((List.range 8).all fun b => decide (N ≤ 8 * i + b) || isVal (f (8 * i + b))) then
          .cell (f (8 * i))
        else .cell .poison
      else .cell .uninit
    else .cell (f i)

/-- A uniform short vector from a list of atomic expressions
(src/expr.cpp:891-971). -/
def vecPath (C : Cfg V) (k : Kind) (n : Nat) (es : List (Ex V S)) (s : S) : Res V S :=
  let N := vecMem C.dtw n
  match kinds.foldl (fun st k' => vstep C k N (entries es) (group es k') st)
      (.go (fun _ => .poison) s) with
  | .crash    => .crash
  | .silent s => .ok (.node (List.replicate n (.cell .uninit))) s
  | .go f s   => .ok (.node (stored k N n f)) s

mutual
/-- `InitSymbol` (src/expr.cpp:739-1016).  An error raised while looking for a
constant is an error of the compilation.  The list cases are
src/expr.cpp:796-815 and src/expr.cpp:836-1013. -/
def initSym (C : Cfg V) (T : Ty) : Init V S → S → Res V S
  | .expr e, s =>
    match constOf C T (.expr e) with
    | .error  => .reject
    | .some m => .ok m s
    | .none   =>
      if convertible T e then
        let r := e.ev s
        .ok (place C e r.1 T) r.2
      else .reject
  | .list is, s =>
    match constOf C T (.list is) with
    | .error  => .reject
    | .some m => .ok m s
    | .none   =>
      match T with
      | .uni k   => initOne C (.uni k) is s
      | .var k   =>
        if is.length = 1 then initOne C (.var k) is s
        else if is.length > C.W then .reject
        else if is.length < C.W then .reject
        else initElems C (List.replicate C.W (.uni k)) is [] s
      | .vec k n =>
        if is.length > n then .reject
        else if is.length > 0 then
          match atomics is with
          | some es => vecPath C k n es s
          | none    => initElems C (List.replicate n (.uni k)) is [] s
        else initElems C (List.replicate n (.uni k)) is [] s
      | .coll ts =>
        if is.length > ts.length then .reject
        else initElems C ts is [] s
/-- An atomic variable and a list of one value (src/expr.cpp:799-811). -/
def initOne (C : Cfg V) (T : Ty) : List (Init V S) → S → Res V S
  | [], _          => .reject
  | i :: [], s     => initSym C T i s
  | _ :: _ :: _, _ => .reject
/-- The loop over the elements, src/expr.cpp:973-1005; `ms` are the elements
already written. -/
def initElems (C : Cfg V) : List Ty → List (Init V S) → List (Mem V) → S → Res V S
  | [], _, ms, s           => .ok (.node ms) s
  | t :: ts, [], ms, s     => .ok (.node (ms ++ zeroMems C (t :: ts))) s
  | t :: ts, i :: is, ms, s =>
    match initSym C t i s with
    | .ok m s' => initElems C ts is (ms ++ [m]) s'
    | .reject  => .reject
    | .crash   => .crash
end

/-- A possibly unsized array type: the dimensions from the outermost one, `0`
for an unsized one, around a type that is not an array
(src/type.cpp:1612-1616). -/
abbrev Dims := List Nat

/-- Is the initialiser a list of `n` values?  (src/type.cpp:1664-1665) -/
def Init.isListOf (n : Nat) : Init V S → Bool
  | .expr _  => false
  | .list is => is.length = n

/-- `ArrayType::SizeUnsizedArrays` (src/type.cpp:1620-1677): `none` is the
error.  Only the first sub-list sizes the next dimension. -/
def sizeArr : Dims → Init V S → Option Dims
  | [], _                   => some []
  | ds, .expr _             => some ds
  | ds, .list []            => some ds
  | d :: ds, .list (.expr _ :: is) => some ((if d = 0 then is.length + 1 else d) :: ds)
  | d :: ds, .list (.list js :: is) =>
    if ds.head? = some 0 ∧ (is.all fun j => j.isListOf js.length) = false then none
    else (sizeArr ds (.list js)).map ((if d = 0 then is.length + 1 else d) :: ·)

end Ispc.Braces
