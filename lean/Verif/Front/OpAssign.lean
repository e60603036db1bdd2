import Verif.Front.FoldScalar
import Verif.Front.Promote

/-!
# Compound assignment

`x op= y` on scalars next to `x = x op y`: which programs are accepted, in
which type the operation is done and what is stored.  The instructions are
those of the module on constant folding, `runBin` and `runCast`.

Left out: short vectors, which go element by element, pointers, structs with
overloaded operators, and the varying forms: one lane is modelled, and both
forms store under the same mask.  All enums are taken to be the same type.
-/

namespace Ispc.OpAssign

open Ispc.Fold

/-! ## The common type -/

/-- The place of the atomic type in the enumeration, src/type.h:376-393. -/
def ord : STy → Nat
  | .bool => 1
  | .int .w8 s => if s then 3 else 4
  | .int .w16 s => if s then 5 else 6
  | .int .w32 s => if s then 7 else 8
  | .int .w64 s => if s then 11 else 12
  | .fp .f16 => 9
  | .fp .f32 => 10
  | .fp .f64 => 13
  | .enum => 0

/-- `Type::MoreGeneralType` of two scalar types, src/type.cpp:3246-3249 and
3333-3378: of an enum and an atomic type the atomic type, of two atomic types
the one that is later in the enumeration. -/
def common (t u : STy) : STy :=
  if t = .enum then u else if u = .enum then t else if ord u ≤ ord t then t else u

/-- The type in the model of types; enums have the name 0. -/
def ty : STy → Types.Ty
  | .bool => .atomic .bool .uniform false
  | .int .w8 s => .atomic (if s then .int8 else .uint8) .uniform false
  | .int .w16 s => .atomic (if s then .int16 else .uint16) .uniform false
  | .int .w32 s => .atomic (if s then .int32 else .uint32) .uniform false
  | .int .w64 s => .atomic (if s then .int64 else .uint64) .uniform false
  | .fp .f16 => .atomic .float16 .uniform false
  | .fp .f32 => .atomic .float .uniform false
  | .fp .f64 => .atomic .double .uniform false
  | .enum => .enum [] 0 .uniform false

/-! ## What is accepted -/

/-- The shifts. -/
def isShift : Op → Bool
  | .shl | .shr => true
  | _ => false

/-- The operators on bits, the shifts among them. -/
def isBit : Op → Bool
  | .shl | .shr | .band | .bxor | .bor => true
  | _ => false

/-- Floating-point types. -/
def isFp : STy → Bool
  | .fp _ => true
  | _ => false

/-- `TypeConvertExpr` between scalars, `lDoTypeConv`, src/expr.cpp:533-600:
everything but an atomic type to an enum. -/
def converts (src dst : STy) : Bool := dst != .enum || src == .enum

/-- The checks of `BinaryExpr::TypeCheck`, src/expr.cpp:2979-3000 and 3029-3048: the
operators on bits take integers, enums and booleans, the arithmetic ones
numbers, and `%` no floating-point numbers. -/
def binaryOk (op : Op) (t u : STy) : Bool :=
  if isBit op then !isFp t && !isFp u
  else t != .bool && u != .bool && !(op == .mod && (isFp t || isFp u))

/-- The type of `x op y`: of shifts the type of `x`, src/expr.cpp:3002-3014
and 2402-2426. -/
def binaryType (op : Op) (t u : STy) : STy := if isShift op then t else common t u

/-- `x = x op y` is accepted: `BinaryExpr::TypeCheck` accepts the right side,
and it converts to the type of `x`, src/expr.cpp:3620-3621. -/
def longOk (op : Op) (t u : STy) : Bool :=
  binaryOk op t u && (!isShift op || converts u t) && converts (binaryType op t u) t

/-- `x op= y` is accepted: `AssignExpr::TypeCheck`, src/expr.cpp:3620-3634. -/
def shortOk (op : Op) (t u : STy) : Bool := converts u t && !(isFp t && isBit op)

/-! ## What is computed -/

/-- The instruction of `x op= y`, `lEmitOpAssign`, src/expr.cpp:3402-3424, with
`lBinaryExprArithOpInst`, 1897-1923: that of `x op y` on the type of `x`.
`AssignExpr::TypeCheck` lets arithmetic on booleans through, which on a uniform
`bool` is arithmetic on one bit; its division is left undefined here. -/
def runAssign (A : FpArith) (wrap : Bool) (op : Op) : (t : STy) → t.Val → t.Val → Option t.Val
  | .bool, a, b =>
    match op with
    | .add | .sub => some (a ^^ b)
    | .mul => some (a && b)
    | op => runBin A wrap op .bool a b
  | .int w s, a, b => runBin A wrap op (.int w s) a b
  | .enum, a, b => runBin A wrap op .enum a b
  | .fp f, a, b => runBin A wrap op (.fp f) a b

/-- What `x op= y` stores in `x`: `y` is converted to the type of `x` first,
src/expr.cpp:3620-3621 and 3391-3428. -/
def short (A : FpArith) (wrap : Bool) (op : Op) (t u : STy) (x : t.Val) (y : u.Val) :
    Option t.Val :=
  (runCast u t y).bind fun y' => runAssign A wrap op t x y'

/-- The value of `x op y`: `BinaryExpr::TypeCheck` converts the operands,
src/expr.cpp:3002-3026 and 3050-3059, `BinaryExpr::GetValue` does the
operation, 2311-2339. -/
def binary (A : FpArith) (wrap : Bool) (op : Op) (t u : STy) (x : t.Val) (y : u.Val) :
    Option (binaryType op t u).Val :=
  (runCast t (binaryType op t u) x).bind fun x' =>
    (runCast u (binaryType op t u) y).bind fun y' => runBin A wrap op (binaryType op t u) x' y'

/-- What `x = x op y` stores in `x`, src/expr.cpp:3448-3473. -/
def long (A : FpArith) (wrap : Bool) (op : Op) (t u : STy) (x : t.Val) (y : u.Val) :
    Option t.Val :=
  (binary A wrap op t u x y).bind fun r => runCast (binaryType op t u) t r

end Ispc.OpAssign
