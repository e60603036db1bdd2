import Mathlib.Data.List.Basic

/-!
# Elements of short vectors

`v.x`, `v.zyx`, `v[i]` and `v.x = e` on short vectors that are values or are in
memory, behind uniform or varying pointers.

Simplified: memory is counted in elements of the vector, so that a uniform
vector has its elements one cell apart and a varying one has them `W` apart, each
with one cell per program instance; the elements are not `bool`; soa data is left
out.
-/

namespace Ispc.Swizzle

variable {α : Type}

/-- `lIdentifierToVectorElement`, src/expr.cpp:5467-5486. -/
def letter : Char → Option Nat
  | 'x' | 'r' | 'u' => some 0
  | 'y' | 'g' | 'v' => some 1
  | 'z' | 'b' => some 2
  | 'w' | 'a' => some 3
  | _ => none

/-- Where a vector is: a value that is not in memory, its elements given by
number and program instance, or memory behind a uniform or varying (`vp`) pointer
to a uniform or varying (`var`) vector.  The address of a uniform pointer is the
one at instance 0. -/
inductive Place (α : Type)
  | temp (var : Bool) (val : Nat → Nat → α)
  | mem (vp var : Bool) (a : Nat → Nat)

/-- A scalar that was computed: if it is varying, and its value in each program
instance.  A uniform one is the same in all. -/
structure Val (α : Type) where
  var : Bool
  val : Nat → α

/-- What comes out: an error message, code whose behaviour is undefined, or
the values of the elements. -/
inductive Out (α : Type)
  | rejected
  | undefined
  | vals (vs : List (Val α))

/-- The target and the state: the number of program instances, the cells of
memory, the mask, and what a gather leaves in instances that are off. -/
structure State (α : Type) where
  W : Nat
  cell : Nat → α
  mask : Nat → Bool
  junk : Nat → α

/-- Cells from one element of a vector to the next: `AddElementOffset`,
src/ctx.cpp:2474-2515. -/
def State.size (s : State α) (var : Bool) : Nat := if var then s.W else 1

/-- `LoadInst` of a scalar, src/ctx.cpp:2756-2800: a gather behind a varying
pointer, else the vector or the scalar at the address. -/
def State.load (s : State α) (vp var : Bool) (a : Nat → Nat) : Val α :=
  if vp then ⟨true, fun l => if s.mask l then s.cell (a l) else s.junk l⟩
  else if var then ⟨true, fun l => s.cell (a 0 + l)⟩
  else ⟨false, fun _ => s.cell (a 0)⟩

/-- The addresses of a pointer: `a` for a varying one. -/
def addr (vp : Bool) (a : Nat → Nat) (l : Nat) : Nat := if vp then a l else a 0

/-- `lAddVaryingOffsetsIfNeeded`, src/expr.cpp:4908-4941. -/
def laneOffset (vp var : Bool) (l : Nat) : Nat := if vp && var then l else 0

/-- The address of element `c` as a place of its own: `MemberExpr::GetLValue`,
src/expr.cpp:6045-6074. -/
def elementAddr (s : State α) (vp var : Bool) (a : Nat → Nat) (c l : Nat) : Nat :=
  addr vp a l + c * s.size var + laneOffset vp var l

/-- The values of one element: `MemberExpr::GetValue`, src/expr.cpp:5994-6037,
with the type of `VectorMemberExpr::GetTypeImpl`, 5699-5733: that of the elements,
varying if the pointer is. -/
def single (s : State α) (v : Place α) (c : Nat) : Out α :=
  match v with
  | .temp var val => .vals [⟨var, fun l => val c (if var then l else 0)⟩]
  | .mem vp var a =>
    let r := s.load vp var (elementAddr s vp var a c)
    if r.var = (var || vp) then .vals [r] else .undefined

/-- The vector type whose elements a swizzle takes, src/expr.cpp:5682-5697: that
of the expression, which is varying behind a varying pointer, 5104-5108, or
with `->` (`arrow`) the one pointed to. -/
def vectorVarying (arrow vp var : Bool) : Bool := if arrow then var else var || vp

/-- `VectorMemberExpr::GetValue` for more than one letter, src/expr.cpp:5789-5861:
each element is loaded from the address of the vector and its offset and
stored in a temporary of the elements' type. -/
def swizzle (s : State α) (arrow : Bool) (v : Place α) (cs : List Nat) : Out α :=
  match v with
  | .temp var val => .vals (cs.map fun c => ⟨var, fun l => val c (if var then l else 0)⟩)
  | .mem vp var a =>
    let t := vectorVarying arrow vp var
    let rs := cs.map fun c => s.load vp t fun l => addr vp a l + c * s.size var
    if rs.all (fun r => r.var == t) then .vals rs else .undefined

/-- The elements that the letters name, src/expr.cpp:5792-5802 and 5864-5873:
unknown letters and elements beyond the end are errors. -/
def elements (n : Nat) : List Char → Option (List Nat)
  | [] => some []
  | c :: cs =>
    ((letter c).bind fun i => if i < n then some i else none).bind fun i =>
      (elements n cs).map (i :: ·)

/-- `v.letters` or `v->letters` on a vector of `n` elements, src/expr.cpp:5786-5790. -/
def member (s : State α) (arrow : Bool) (n : Nat) (v : Place α) (cs : List Char) : Out α :=
  match elements n cs with
  | none => .rejected
  | some [c] => single s v c
  | some is => swizzle s arrow v is

/-- `v[i]` with a uniform or varying (`vi`) index: `IndexExpr::GetLValue`,
src/expr.cpp:5223-5255, `GetLValueType`, 5256-5327, and `GetValue`, 5020-5063, with the type
of `GetTypeImpl`, 5065-5111. -/
def index (s : State α) (v : Place α) (vi : Bool) (i : Nat → Nat) : Out α :=
  match v with
  | .temp var val =>
    let r : Val α :=
      if vi then ⟨true, fun l => if s.mask l then val (i l) (if var then l else 0) else s.junk l⟩
      else ⟨var, fun l => val (i 0) (if var then l else 0)⟩
    if r.var = (var || vi) then .vals [r] else .undefined
  | .mem vp var a =>
    let p := vp || vi
    let r := s.load p var fun l => addr vp a l + addr vi i l * s.size var + laneOffset p var l
    if r.var = (var || vp || vi) then .vals [r] else .undefined

/-- If `v.letters` can be assigned to: it is a place in memory if it has one
letter and `v` is, `VectorMemberExpr::GetLValueType`, src/expr.cpp:5743-5784. -/
def assignable (v : Place α) (cs : List Char) : Bool :=
  match v with
  | .temp _ _ => false
  | .mem _ _ _ => cs.length = 1

/-- Writing one cell. -/
def put (f : Nat → α) (x : Nat) (e : α) : Nat → α := fun y => if y = x then e else f y

/-- The memory after `v.letter = e`, `StoreInst`, src/ctx.cpp:3360-3380: a
scatter, in the order of the instances, behind a varying pointer; a store under the
mask to a varying vector; a plain store to a uniform one. -/
def write (s : State α) (vp var : Bool) (a : Nat → Nat) (c : Nat) (e : Nat → α) : Nat → α :=
  if vp then
    (List.range s.W).foldl
      (fun f l => if s.mask l then put f (elementAddr s vp var a c l) (e l) else f) s.cell
  else if var then
    (List.range s.W).foldl
      (fun f l => if s.mask l then put f (elementAddr s vp var a c 0 + l) (e l) else f) s.cell
  else put s.cell (elementAddr s vp var a c 0) (e 0)

end Ispc.Swizzle
