/-!
# Integer constants in declarations and labels

The constants that the grammar asks for: the value of an enumerator, the size of an array and the value after
`case` (`lGetConstantIntOrSymbol`, src/parse.yy:3724-3760, and its uses), the values of enumerators without one
(`lFinalizeEnumeratorSymbols`, src/parse.yy:3813-3853), their values in the generated header (src/header.cpp:226-260) and
the choice of the label where `switch` begins (`SwitchStmt`, src/stmt.cpp:2991-3173, and src/ctx.cpp:1060-1215).

Simplified: a constant is a uniform integer, bool or enumerator whose expression has been folded (`Verif.Front.FoldExpr`);
parameters of templates are left out; a declaration with an error gives nothing.
-/

namespace Ispc.IntConst

/-- The types of integer constants (`AtomicType::BasicType` without the types of floating point, and
`EnumType`). -/
inductive Kind
  | bool | int8 | uint8 | int16 | uint16 | int32 | uint32 | int64 | uint64 | enum
  deriving DecidableEq, Repr

/-- Number of bits of the LLVM constant: `LLVMTrue` and `LLVMFalse` are i1, an enumerator is an i32
(`lGetConstExprConstant`, src/expr.cpp:6696-6790). -/
def Kind.bits : Kind → Nat
  | .bool => 1
  | .int8 | .uint8 => 8
  | .int16 | .uint16 => 16
  | .int32 | .uint32 | .enum => 32
  | .int64 | .uint64 => 64

/-- `AtomicType::IsUnsignedType` (src/type.cpp:390-393) and `EnumType::IsUnsignedType` (880). -/
def Kind.unsigned : Kind → Bool
  | .bool | .uint8 | .uint16 | .uint32 | .uint64 | .enum => true
  | _ => false

/-- A constant: its type and the bits of the `llvm::ConstantInt`. -/
structure Con where
  k : Kind
  b : BitVec k.bits

/-- `ConstantInt::getSExtValue`. -/
def sext (c : Con) : BitVec 64 := c.b.signExtend 64

/-- `ConstantInt::getZExtValue`. -/
def zext (c : Con) : BitVec 64 := c.b.setWidth 64

/-- `lGetConstantIntOrSymbol` (src/parse.yy:3724-3760): the test that the constant fits (3751), and the
`int` that is made of it (3755-3757). -/
def getInt (c : Con) : Option (BitVec 32) :=
  if ((sext c).setWidth 32).signExtend 64 = sext c then
    some (if c.k.unsigned then (zext c).setWidth 32 else (sext c).setWidth 32)
  else none

/-- The size of an array, `direct_declarator '[' constant_expression ']'` (src/parse.yy:1981-2010, and the same for
abstract declarators, 2213-2280): a negative `int` is an error. -/
def dim (c : Con) : Option Nat :=
  match getInt c with
  | none => none
  | some v => if v.toInt < 0 then none else some v.toInt.toNat

/-! ## Enumerators -/

/-- The expression after `=`: a constant, or a name. -/
inductive Ex
  | con (c : Con)
  | name (s : Nat)

/-- The constants that names stand for where the enumeration is declared: enumerators of others and `const`
variables (`LookupVariable`, src/parse.yy:481-500). -/
abbrev Env := Nat → Option Con

/-- An enumerator: its name and its value, if one is written. -/
structure Decl where
  name : Nat
  value : Option Ex

/-- The value of the expression.  The enumerators of the enumeration that is being declared are not in the symbol table
yet: `lCreateEnumType` adds them when the list is complete (src/parse.yy:3773-3775). -/
def eval (env : Env) : Ex → Option Con
  | .con c => some c
  | .name s => env s

/-- The rule `enumerator` (src/parse.yy:1861-1893): what is in `Symbol::constValue` after it.  The outer `none` is
an error. -/
def enumerator (env : Env) (d : Decl) : Option (Option (BitVec 32)) :=
  match d.value with
  | none => some none
  | some e =>
    match eval env e with
    | none => none
    | some c => (getInt c).map some

/-- The rule `enumerator_list` (src/parse.yy:1837-1859). -/
def enumerators (env : Env) : List Decl → Option (List (Option (BitVec 32)))
  | [] => some []
  | d :: ds =>
    match enumerator env d, enumerators env ds with
    | some v, some vs => some (v :: vs)
    | _, _ => none

/-- `lFinalizeEnumeratorSymbols` (src/parse.yy:3813-3853); `next` is `nextVal`.  The cast of a given value from
`uint32` to the type of the enumeration leaves it as it is. -/
def finalize (next : BitVec 32) : List (Option (BitVec 32)) → List (BitVec 32)
  | [] => []
  | some v :: r => v :: finalize (v + 1) r
  | none :: r => next :: finalize (next + 1) r

/-- `lCreateEnumType` (src/parse.yy:3763-3777): the names and their values. -/
def createEnum (env : Env) (ds : List Decl) : Option (List (Nat × BitVec 32)) :=
  match enumerators env ds with
  | none => none
  | some vs => some ((ds.map (·.name)).zip (finalize 0 vs))

/-- The number that `lEmitEnumDecls` writes after the name of an enumerator (src/header.cpp:243-255): the
`unsigned int` goes through `%d`. -/
def headerValue (v : BitVec 32) : Int := v.toInt

/-! ## switch -/

/-- Width of the type to which `SwitchStmt::TypeCheck` converts the expression, `int32` or `int64`
(src/stmt.cpp:3149-3166). -/
def switchBits (k : Kind) : Nat :=
  match k with
  | .int64 | .uint64 => 64
  | _ => 32

/-- The converted value.  (bool is zero extended, src/expr.cpp:7375-7382.) -/
def switchVal (x : Con) : BitVec (switchBits x.k) :=
  if x.k.unsigned then x.b.setWidth _ else x.b.signExtend _

/-- The constant with which the value is compared, `LLVMInt32(value)` or `LLVMInt64(value)` of an `int` (src/ctx.cpp:1181-1189,
1142-1143; src/llvmutil.cpp:210-212). -/
def caseVal (w : Nat) (v : BitVec 32) : BitVec w := v.signExtend w

/-- A label in the source, `none` for `default`. -/
abbrev Label := Option Con

/-- The rules for `case` and `default` (src/parse.yy:2393-2412). -/
def labels : List Label → Option (List (Option (BitVec 32)))
  | [] => some []
  | none :: r => (labels r).map (none :: ·)
  | some c :: r =>
    match getInt c, labels r with
    | some v, some vs => some (some v :: vs)
    | _, _ => none

/-- `lSwitchASTPreVisit` (src/stmt.cpp:2991-3043) finds no two labels with the same `int` and no two `default`. -/
def noDuplicates : List (Option (BitVec 32)) → Bool
  | [] => true
  | l :: r => !r.contains l && noDuplicates r

/-- Is the value the one of the label? (`ICMP_EQ`, src/ctx.cpp:1144-1145, and LLVM's `switch`.) -/
def isCase (x : Con) : Option (BitVec 32) → Bool
  | some v => switchVal x == caseVal _ v
  | none => false

/-- The switch with a uniform expression (src/ctx.cpp:1178-1193, src/stmt.cpp:3099): the number of the label where it
begins, `none` for the end of the statement. -/
def entry (x : Con) (ls : List (Option (BitVec 32))) : Option Nat :=
  match ls.findIdx? (isCase x) with
  | some i => some i
  | none => ls.findIdx? (· == none)

/-- The switch with a varying expression (`EmitCaseLabel`, src/ctx.cpp:1139-1156, `EmitDefaultLabel`, 1024-1052): does the
program instance, which was on before if `on`, begin at this label? -/
def begins (on : Bool) (x : Con) (ls : List (Option (BitVec 32))) : Option (BitVec 32) → Bool
  | some v => on && isCase x (some v)
  | none => on && ls.all fun l => !isCase x l

end Ispc.IntConst
