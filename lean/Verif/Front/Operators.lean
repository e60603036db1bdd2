import Verif.Front.Overload

/-!
# C87: operators on structs

A model of how the type checker treats an operator one of whose operands is a struct
(`PossiblyResolveStructOperatorOverloads` in `src/expr.cpp` and its callers), on top of the model of overload
resolution of C31. Dependent operands and the texts of messages are left out; the declared functions are given by
their parameters, the templates by the instances that deduction finds.
-/

namespace Ispc.Operators

open Ispc.Types
open Ispc.Overload

/-- `UnaryExpr::Op` (src/expr.h:100-108). -/
inductive UnOp where
  | preInc | preDec | postInc | postDec | negate | logicalNot | bitNot
  deriving DecidableEq, Repr

/-- `BinaryExpr::Op` (src/expr.h:131-154). -/
inductive BinOp where
  | add | sub | mul | div | mod | shl | shr | lt | gt | le | ge | equal | notEqual | bitAnd | bitXor | bitOr
  | logicalAnd | logicalOr | comma
  deriving DecidableEq, Repr

/-- `AssignExpr::Op` (src/expr.h:182-194). -/
inductive AsOp where
  | assign | mul | div | mod | add | sub | shl | shr | and | xor | or
  deriving DecidableEq, Repr

/-- `lOpString` of unary operators (src/expr.cpp:1294-1314). -/
def UnOp.text : UnOp → String
  | .preInc => "++" | .preDec => "--" | .postInc => "++" | .postDec => "--" | .negate => "-" | .logicalNot => "!"
  | .bitNot => "~"

/-- `lOpString` of binary operators (src/expr.cpp:1690-1734). -/
def BinOp.text : BinOp → String
  | .add => "+" | .sub => "-" | .mul => "*" | .div => "/" | .mod => "%" | .shl => "<<" | .shr => ">>" | .lt => "<"
  | .gt => ">" | .le => "<=" | .ge => ">=" | .equal => "==" | .notEqual => "!=" | .bitAnd => "&" | .bitXor => "^"
  | .bitOr => "|" | .logicalAnd => "&&" | .logicalOr => "||" | .comma => ","

/-- `lOpString` of assignments (src/expr.cpp:3313-3341). -/
def AsOp.text : AsOp → String
  | .assign => "=" | .mul => "*=" | .div => "/=" | .mod => "%=" | .add => "+=" | .sub => "-=" | .shl => "<<="
  | .shr => ">>=" | .and => "&=" | .xor => "^=" | .or => "|="

/-- The names that the lexer takes for the name of a function (src/lex.ll:396-430). -/
def lexed : List String :=
  ["operator*", "operator+", "operator-", "operator<<", "operator>>", "operator/", "operator%", "operator==",
   "operator!=", "operator>", "operator<", "operator>=", "operator<=", "operator&", "operator^", "operator|",
   "operator&&", "operator||", "operator++", "operator--", "operator~", "operator!", "operator*=", "operator/=",
   "operator%=", "operator+=", "operator-=", "operator<<=", "operator>>=", "operator&=", "operator|=", "operator^=",
   "operator="]

/-- What is declared: the functions of a name, whether there are templates of the name, and their instances for some
    arguments. -/
structure Table where
  funcs : String → List Cand
  templates : String → Bool
  instances : String → List Arg → List Cand

/-- `CastType<StructType>` of the type or of what it refers to (src/expr.cpp:655-664). Structs that are declared only
    are left out. -/
def isStruct (t : Ty) : Bool :=
  match t.refTarget with
  | .struct .. => true
  | _ => false

/-- What becomes of an operator: the code for built-in types goes on with it, it is the call of a function, or an error
    is reported. -/
inductive Res where
  | builtin
  | call (c : Cand)
  | error
  deriving DecidableEq, Repr

/-- The call of a function by its name: `FunctionCallExpr::TypeCheck` (src/expr.cpp:4407-4417). -/
def callByName (tab : Table) (name : String) (args : List Arg) : Res :=
  match resolve false args (tab.funcs name) (tab.instances name args) with
  | .chosen c => .call c
  | _ => .error

/-- The constant that is passed for the second parameter of a postfix operator (src/expr.cpp:693-697). -/
def dummy : Arg := ⟨.atomic .int32 .uniform true, false, true⟩

/-- `PossiblyResolveStructOperatorOverloads` (src/expr.cpp:644-725). -/
def resolveOp (tab : Table) (text : String) (args : List Arg) (isPostfix : Bool) : Res :=
  if ¬ args.any (fun a => isStruct a.ty) then .builtin
  else
    let name := "operator" ++ text
    if tab.funcs name ≠ [] ∨ tab.templates name = true then
      callByName tab name (if isPostfix ∧ args.length = 1 then args ++ [dummy] else args)
    else if name = "operator=" then .builtin
    else .error

/-- `IsNumericType` (src/type.h:133) of a type that is no reference: not for structs. -/
def isNumeric : Ty → Bool
  | .atomic b _ _ => !(b == .bool || b == .int1 || b == .void)
  | .vec b _ => isNumeric b
  | _ => false

/-- `UnaryExpr::TypeCheck` up to the code for built-in types (src/expr.cpp:1508-1572). -/
def typeCheckUnary (tab : Table) (op : UnOp) (a : Arg) : Res :=
  if 0 < a.ty.soaWidth then .error
  else if op = .preInc ∨ op = .preDec ∨ op = .postInc ∨ op = .postDec then
    if a.ty.isConst then .error
    else if isNumeric a.ty.refTarget then .builtin
    else resolveOp tab op.text [a] (op = .postInc ∨ op = .postDec)
  else resolveOp tab op.text [a] (op = .postInc ∨ op = .postDec)

/-- `BinaryExpr::TypeCheck` up to the code for built-in types (src/expr.cpp:2822-2841). -/
def typeCheckBinary (tab : Table) (op : BinOp) (a b : Arg) : Res :=
  resolveOp tab op.text [a, b] false

/-- `AssignExpr::TypeCheck` up to the code for built-in types (src/expr.cpp:3553-3569). -/
def typeCheckAssign (tab : Table) (op : AsOp) (l r : Arg) : Res :=
  resolveOp tab op.text [l, r] false

end Ispc.Operators
