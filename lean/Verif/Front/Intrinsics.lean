import Verif.Front.Mangle

/-!
# The intrinsics `@llvm.ispc.*`

A call `@llvm.ispc.atomicrmw.add.seq_cst(p, v)` in ispc code is a call of a
function that is declared for the types of the arguments
(src/intrinsics.cpp:45-79, 82-173, 319-416).  The types that matter are written
into the name of the function.  Later the call is replaced by the instruction
that the name asks for (src/opt/LowerISPCIntrinsics.cpp).

Left out: scalable vectors, function types, target types and the floating-point
types that no ispc type becomes (src/intrinsics.cpp:105-119, 121-166); named
structs without a name (src/intrinsics.cpp:94-96).  `assert` of
src/intrinsics.cpp:350 is not part of a release build and is left out too.
-/

namespace Ispc.Intrin

/-! ## Types and their names -/

mutual
/-- The LLVM types that ispc types become. -/
inductive Ty
  | int (w : Nat)
  | half
  | float
  | double
  | ptr (as : Nat)
  | vec (n : Nat) (e : Ty)
  | arr (n : Nat) (e : Ty)
  /-- a struct with a name -/
  | named (nm : List Char)
  /-- a struct without a name -/
  | lit (fs : Tys)
  deriving DecidableEq
/-- The members of a struct. -/
inductive Tys
  | nil
  | cons (t : Ty) (ts : Tys)
  deriving DecidableEq
end

/-- `llvm::utostr`. -/
def num (n : Nat) : List Char := Nat.toDigits 10 n

mutual
/-- `lGetMangledTypeStr`, src/intrinsics.cpp:82-173. -/
def mangle : Ty → List Char
  | .ptr a => 'p' :: num a
  | .arr n e => 'a' :: (num n ++ mangle e)
  | .named nm => 's' :: '_' :: (nm ++ ['s'])
  | .lit fs => 's' :: 'l' :: '_' :: (mangles fs ++ ['s'])
  | .vec n e => 'v' :: (num n ++ mangle e)
  | .half => ['f', '1', '6']
  | .float => ['f', '3', '2']
  | .double => ['f', '6', '4']
  | .int w => 'i' :: num w
/-- The loop over the members, src/intrinsics.cpp:99-101. -/
def mangles : Tys → List Char
  | .nil => []
  | .cons t ts => mangle t ++ mangles ts
end

/-- `getPrimitiveSizeInBits` of LLVM: zero for pointers, arrays and structs. -/
def primBits : Ty → Nat
  | .int w => w
  | .half => 16
  | .float => 32
  | .double => 64
  | .vec n e => n * primBits e
  | _ => 0

/-! ## The names of the intrinsics -/

/-- `ISPCIntrinsics`, src/intrinsics.cpp:29-43. -/
inductive Kind
  | atomicrmw | bitcast | blendStore | concat | cmpxchg | extract | fence | insert | packmask
  | select | streamLoad | streamStore
  deriving DecidableEq, Repr

/-- The name of the family as the code and docs/design/ispc-intrinsics.md spell it. -/
def Kind.text : Kind → List Char
  | .atomicrmw => ['a', 't', 'o', 'm', 'i', 'c', 'r', 'm', 'w']
  | .bitcast => ['b', 'i', 't', 'c', 'a', 's', 't']
  | .blendStore => ['b', 'l', 'e', 'n', 'd', '_', 's', 't', 'o', 'r', 'e']
  | .concat => ['c', 'o', 'n', 'c', 'a', 't']
  | .cmpxchg => ['c', 'm', 'p', 'x', 'c', 'h', 'g']
  | .extract => ['e', 'x', 't', 'r', 'a', 'c', 't']
  | .fence => ['f', 'e', 'n', 'c', 'e']
  | .insert => ['i', 'n', 's', 'e', 'r', 't']
  | .packmask => ['p', 'a', 'c', 'k', 'm', 'a', 's', 'k']
  | .select => ['s', 'e', 'l', 'e', 'c', 't']
  | .streamLoad => ['s', 't', 'r', 'e', 'a', 'm', '_', 'l', 'o', 'a', 'd']
  | .streamStore => ['s', 't', 'r', 'e', 'a', 'm', '_', 's', 't', 'o', 'r', 'e']

/-- `llvm.ispc.` -/
def pre : List Char := ['l', 'l', 'v', 'm', '.', 'i', 's', 'p', 'c', '.']

/-- The kinds whose names go on with an ordering, src/intrinsics.cpp:47-55. -/
def Kind.open_ : Kind → Bool
  | .atomicrmw | .cmpxchg | .fence => true
  | _ => false

/-- The test for one kind of `lLookupISPCInstrinsic`, src/intrinsics.cpp:45-79. -/
def isKind (n : List Char) (k : Kind) : Bool :=
  if k.open_ then (pre ++ k.text ++ ['.']).isPrefixOf n else n == pre ++ k.text

/-- `lLookupISPCInstrinsic`, src/intrinsics.cpp:45-79, in the order of the tests. -/
def lookup (n : List Char) : Option Kind :=
  [Kind.atomicrmw, .cmpxchg, .fence, .bitcast, .blendStore, .concat, .extract, .insert, .packmask,
    .select, .streamLoad, .streamStore].find? (isKind n)

/-- What a function returns: `none` stands for `void`. -/
abbrev Ret := Option Ty

/-- A declared function: its name, what it returns, and its parameters
(`FunctionType::get(retType, TYs, false)`, src/intrinsics.cpp:413). -/
structure Decl where
  name : List Char
  ret : Ret
  params : List Ty
  deriving DecidableEq

/-- `"." + lGetMangledTypeStr(t)`. -/
def dot (t : Ty) : List Char := '.' :: mangle t

/-- `lGetISPCIntrinsicsFuncDecl` up to the look-up in the module,
src/intrinsics.cpp:319-413.  `none`: an assertion fails, or there is an error
(`lGetDoubleWidthVectorType`, src/intrinsics.cpp:309-317). -/
def declare (n : List Char) (k : Kind) (tys : List Ty) : Option Decl :=
  match k, tys with
  | .atomicrmw, [p, v] => some ⟨n ++ dot v, some v, [p, v]⟩
  | .bitcast, [a, b] =>
    if primBits a = primBits b then some ⟨n ++ dot a ++ dot b, some b, [a, b]⟩ else none
  | .blendStore, [v, p, m] => some ⟨n ++ dot v, none, [v, p, m]⟩
  | .concat, [.vec w e, b] =>
    some ⟨n ++ dot (.vec (w * 2) e) ++ dot b, some (.vec (w * 2) e), [.vec w e, b]⟩
  | .cmpxchg, [p, c, v] => some ⟨n ++ dot c, some c, [p, c, v]⟩
  | .extract, [.vec w e, i] => some ⟨n ++ dot (.vec w e), some e, [.vec w e, i]⟩
  | .extract, [.vec w e, b, i] =>
    some ⟨n ++ dot (.vec w e) ++ dot b, some e, [.vec w e, b, i]⟩
  | .fence, ts => some ⟨n, none, ts⟩
  | .insert, [.vec w e, i, x] => some ⟨n ++ dot (.vec w e), some (.vec w e), [.vec w e, i, x]⟩
  | .packmask, [m] => some ⟨n ++ dot m, some (.int 64), [m]⟩
  | .select, [c, t, f] => some ⟨n ++ dot t, some t, [c, t, f]⟩
  | .streamLoad, [p, t] => some ⟨n ++ dot t, some t, [p, t]⟩
  | .streamStore, [p, v] => some ⟨n ++ dot v, none, [p, v]⟩
  | _, _ => none

/-- The functions of a module. -/
abbrev Module := List Decl

/-- `Module::getOrInsertFunction`, called at src/intrinsics.cpp:414: the function
of that name if there is one, whatever its type. -/
def getOrInsert (m : Module) (d : Decl) : Module × Decl :=
  match m.find? (fun x => x.name == d.name) with
  | some x => (m, x)
  | none => (d :: m, d)

/-- The functions that a sequence of calls gets, src/intrinsics.cpp:414-415.  Calls for
which nothing is declared are left out. -/
def calls (m : Module) : List (List Char × List Ty) → List Decl
  | [] => []
  | (n, tys) :: cs =>
    match (lookup n).bind (fun k => declare n k tys) with
    | some d => (getOrInsert m d).2 :: calls (getOrInsert m d).1 cs
    | none => calls m cs

/-! ## Replacing the calls -/

/-- `llvm::AtomicOrdering` without `NotAtomic`. -/
inductive Ord
  | unordered | monotonic | acquire | release | acqRel | seqCst
  deriving DecidableEq, Repr

/-- `lSetMemoryOrdering`, src/opt/LowerISPCIntrinsics.cpp:33-48; `none` is `NotAtomic`. -/
def ordOf (s : List Char) : Option Ord :=
  if s = ['u', 'n', 'o', 'r', 'd', 'e', 'r', 'e', 'd'] then some .unordered
  else if s = ['m', 'o', 'n', 'o', 't', 'o', 'n', 'i', 'c'] then some .monotonic
  else if s = ['a', 'c', 'q', 'u', 'i', 'r', 'e'] then some .acquire
  else if s = ['r', 'e', 'l', 'e', 'a', 's', 'e'] then some .release
  else if s = ['a', 'c', 'q', '_', 'r', 'e', 'l'] then some .acqRel
  else if s = ['s', 'e', 'q', '_', 'c', 's', 't'] then some .seqCst
  else none

/-- The operations of `atomicrmw`. -/
inductive Rmw
  | xchg_ | add_ | sub_ | and_ | nand_ | or_ | xor_ | max_ | min_ | umax_ | umin_ | fadd_ | fsub_
  | fmax_ | fmin_
  deriving DecidableEq, Repr

/-- The chain of tests of src/opt/LowerISPCIntrinsics.cpp:191-222; `none` is `BAD_BINOP`. -/
def rmwOf (s : List Char) : Option Rmw :=
  if s = ['x', 'c', 'h', 'g'] then some .xchg_
  else if s = ['a', 'd', 'd'] then some .add_
  else if s = ['s', 'u', 'b'] then some .sub_
  else if s = ['a', 'n', 'd'] then some .and_
  else if s = ['n', 'a', 'n', 'd'] then some .nand_
  else if s = ['o', 'r'] then some .or_
  else if s = ['x', 'o', 'r'] then some .xor_
  else if s = ['m', 'a', 'x'] then some .max_
  else if s = ['m', 'i', 'n'] then some .min_
  else if s = ['u', 'm', 'a', 'x'] then some .umax_
  else if s = ['u', 'm', 'i', 'n'] then some .umin_
  else if s = ['f', 'a', 'd', 'd'] then some .fadd_
  else if s = ['f', 's', 'u', 'b'] then some .fsub_
  else if s = ['f', 'm', 'a', 'x'] then some .fmax_
  else if s = ['f', 'm', 'i', 'n'] then some .fmin_
  else none

/-- What comes before the last dot: `s.substr(0, s.find_last_of('.'))`, the whole
string if there is none. -/
def before (s : List Char) : List Char :=
  if '.' ∈ s then ((s.reverse.dropWhile (· ≠ '.')).drop 1).reverse else s

/-- What comes after the last dot: `s.substr(s.find_last_of('.') + 1)`, the whole
string if there is none. -/
def after (s : List Char) : List Char := (s.reverse.takeWhile (· ≠ '.')).reverse

/-- The name of `lLowerAtomicRMWIntrinsic`, src/opt/LowerISPCIntrinsics.cpp:186-225: the
operation and the ordering.  `none`: an assertion fails. -/
def lowerRmw (n : List Char) : Option (Rmw × Ord) :=
  (rmwOf (after (before (before n)))).bind fun op =>
    (ordOf (after (before n))).map fun o => (op, o)

/-- The name of `lLowerCmpXchgIntrinsic`, src/opt/LowerISPCIntrinsics.cpp:241-249: the
ordering for success and for failure of the instruction.  `none`: an assertion fails. -/
def lowerCmpXchg (n : List Char) : Option (Ord × Ord) :=
  (ordOf (after (before n))).bind fun so =>
    (ordOf (after (before (before n)))).map fun fo => (so, fo)

/-- The name of `lLowerFenceIntrinsic`, src/opt/LowerISPCIntrinsics.cpp:273-277. -/
def lowerFence (n : List Char) : Option Ord := ordOf (after n)

/-- Which function of the pass handles the call, src/opt/LowerISPCIntrinsics.cpp:306-332. -/
def dispatch (n : List Char) : Option Kind :=
  [Kind.concat, .extract, .insert, .bitcast, .blendStore, .streamStore, .streamLoad, .atomicrmw,
    .cmpxchg, .select, .fence, .packmask].find? (fun k => (pre ++ k.text ++ ['.']).isPrefixOf n)

/-! ## The instructions on vectors -/

/-- `lGetSequentialMask`, src/opt/LowerISPCIntrinsics.cpp:16-20. -/
def sequential (n : Nat) : List Nat := List.range n

/-- `shufflevector` of LLVM: the lanes of both operands are numbered in one row. -/
def shuffle (a b : List α) (mask : List Nat) : List (Option α) := mask.map fun i => (a ++ b)[i]?

/-- `lLowerConcatIntrinsic`, src/opt/LowerISPCIntrinsics.cpp:76-85. -/
def lowerConcat (a b : List α) : List (Option α) := shuffle a b (sequential (2 * a.length))

/-- `lLowerExtractIntrinsic` with two arguments, src/opt/LowerISPCIntrinsics.cpp:91-96;
`none` is poison. -/
def lowerExtract (v : List α) (i : Nat) : Option α := v[i]?

/-- `lLowerExtractIntrinsic` with three arguments, src/opt/LowerISPCIntrinsics.cpp:97-106. -/
def lowerExtract2 (a b : List α) (i : Nat) : Option α :=
  ((shuffle a b (sequential (2 * a.length)))[i]?).join

/-- `lLowerInsertIntrinsic`, src/opt/LowerISPCIntrinsics.cpp:111-120: `none` is poison. -/
def lowerInsert (v : List α) (i : Nat) (x : α) : Option (List α) :=
  if i < v.length then some (v.set i x) else none

/-- `lTruncVectorToi1`, src/opt/LowerISPCIntrinsics.cpp:50-62: the low bit of every lane. -/
def truncToI1 (m : List (BitVec w)) : List Bool := m.map fun x => x.getLsbD 0

/-- `lCreateSelect` with a vector, src/opt/LowerISPCIntrinsics.cpp:64-74, and the
instruction `select` of LLVM. -/
def createSelect (m : List (BitVec w)) (t f : List α) : List α :=
  (truncToI1 m).zipWith (fun (c : Bool) (p : α × α) => if c then p.1 else p.2) (t.zip f)

/-- `lLowerSelectIntrinsic`, src/opt/LowerISPCIntrinsics.cpp:256-266. -/
def lowerSelect (c : List (BitVec w)) (t f : List α) : List α := createSelect c t f

/-- `lLowerBlendStore`, src/opt/LowerISPCIntrinsics.cpp:132-146: what is in memory
afterwards, where `old` was there. -/
def lowerBlendStore (v old : List α) (m : List (BitVec w)) : List α := createSelect m v old

/-- `lLowerPackMaskIntrinsic`, src/opt/LowerISPCIntrinsics.cpp:282-300: the vector of
`i1` read as one number, lane 0 lowest, as a 64-bit number.  With more than 64 lanes
`zext` would not be an instruction. -/
def lowerPackMask (m : List (BitVec w)) : BitVec 64 :=
  BitVec.ofNat 64 ((truncToI1 m).foldr (fun b n => 2 * n + b.toNat) 0)

/-! ## Arguments and results in ispc -/

/-- `lLLVMTypeToISPCType(t, false)` for the integer types, src/intrinsics.cpp:196-210:
always the signed type of the width. -/
def signedResult : Bool := true

/-- The result of a call, converted to an integer type of `w'` bits: the result type is
signed, `CastExpr` sign-extends it (for example to 64 bits, src/expr.cpp:7507-7511). -/
def widen (x : BitVec w) (w' : Nat) : BitVec w' :=
  if signedResult then x.signExtend w' else x.setWidth w'

/-- An argument `varying bool`: on a target whose masks have lanes of more than one bit
`lLLVMTypeToISPCType` finds the integer type of that width before it gets to
`MaskType` (src/intrinsics.cpp:213-229), so that the argument is converted from `bool` to
an integer: 0 or 1. -/
def boolArg (w : Nat) (b : Bool) : BitVec w := if b then 1 else 0

end Ispc.Intrin
