/-!
# Global variables of programs compiled for several targets

Claim C79.  With several targets (`--target=sse4-i32x4,avx2-i32x8`) the source is compiled once for each of them.  The
global variables are removed from the results (`resetGlobalInitializers`) and defined once, in the dispatch module
(`lExtractOrCheckGlobals`).  The model: types and initialisers in the source, their LLVM counterparts at a gang size, the
dispatch module, and a machine that runs the linked program.
-/

namespace Ispc.Multi

/-! ### Types -/

mutual

/-- Types of the source: scalars of `k` bytes and pointers, uniform or varying, arrays, and structs with a flag that tells
if the struct is varying. -/
inductive Ty where
  | scal (k : Nat) (vary : Bool)
  | ptr (vary : Bool)
  | arr (n : Nat) (e : Ty)
  | struct (id : Nat) (vary : Bool) (els : Tys)
deriving DecidableEq, Repr

/-- Types of members. -/
inductive Tys where
  | nil
  | cons (t : Ty) (ts : Tys)
deriving DecidableEq, Repr

end

mutual

/-- LLVM types in memory: scalars of `k` bytes, vectors of `n` of them, pointers, arrays, and structs.  Each module makes its
own struct types (`StructType::RegisterInStructTypeMap`, src/type.cpp:1925-1976; the map belongs to the module), so a
struct type has an owner. -/
inductive LTy where
  | scal (k : Nat)
  | vec (k n : Nat)
  | ptr
  | arr (n : Nat) (e : LTy)
  | struct (owner id : Nat) (els : LTys)
deriving DecidableEq, Repr

/-- Types of members. -/
inductive LTys where
  | nil
  | cons (t : LTy) (ts : LTys)
deriving DecidableEq, Repr

end

/-- `Type::IsVaryingType`, src/type.h:164; of an array, the variability of its elements. -/
def Ty.isVarying : Ty → Bool
  | .scal _ v | .ptr v | .struct _ v _ => v
  | .arr _ e => e.isVarying

mutual

/-- The LLVM type in memory, for module `i` and gang size `w` (`LLVMStorageType`; boolean types are not distinguished from
other scalars). -/
def Ty.lower (i w : Nat) : Ty → LTy
  | .scal k false => .scal k
  | .scal k true => .vec k w
  | .ptr false => .ptr
  | .ptr true => .vec 8 w
  | .arr n e => .arr n (e.lower i w)
  | .struct id _ els => .struct i id (els.lower i w)

/-- The LLVM types of members. -/
def Tys.lower (i w : Nat) : Tys → LTys
  | .nil => .nil
  | .cons t ts => .cons (t.lower i w) (ts.lower i w)

end

/-- The least multiple of `a` that is not below `o`. -/
def roundUp (o a : Nat) : Nat := (o + a - 1) / a * a

mutual

/-- The alignment that the data layout gives a type. -/
def LTy.al : LTy → Nat
  | .scal k => k
  | .vec k n => k * n
  | .ptr => 8
  | .arr _ e => e.al
  | .struct _ _ els => els.al

/-- The greatest alignment of a member. -/
def LTys.al : LTys → Nat
  | .nil => 1
  | .cons t ts => max t.al ts.al

end

mutual

/-- The size of a type, in bytes. -/
def LTy.size : LTy → Nat
  | .scal k => k
  | .vec k n => k * n
  | .ptr => 8
  | .arr n e => n * e.size
  | .struct _ _ els => roundUp (els.stop 0) els.al

/-- Where the last member ends if the members start at `o`. -/
def LTys.stop : LTys → Nat → Nat
  | .nil, o => o
  | .cons t ts, o => ts.stop (roundUp o t.al + t.size)

end

/-- `lCompatibleTypes`, src/module.cpp:2247-2273.  LLVM's types are unique, so that `==` on them is equality;
`isLayoutIdentical` compares the members with `==`. -/
def compat : LTy → LTy → Bool
  | .arr n e, .arr n' e' => n == n' && compat e e'
  | .ptr, .ptr => true
  | .struct _ _ els, .struct _ _ els' => decide (els = els')
  | .scal k, .scal k' => k == k'
  | .vec k n, .vec k' n' => k == k' && n == n'
  | _, _ => false

/-! ### Initialisers -/

mutual

/-- Initialisers of global variables, after optimisation.  `const`: a number, as a function of the gang size (`programCount`
and `TARGET_WIDTH` have been replaced by their values, stdlib/include/core.isph:43); `addr g t idx`: `&g[i][j]…` for a
variable of type `t`; `plus p t n`: `p + n` for a pointer to `t`; `fn`: the address of a function. -/
inductive IExp where
  | const (v : Nat → Int)
  | null
  | sizeof (t : Ty)
  | addr (g : Nat) (t : Ty) (idx : IExps)
  | plus (p : IExp) (t : Ty) (n : Nat → Int)
  | fn (f : Nat)
  | list (es : IExps)

/-- Lists of initialisers. -/
inductive IExps where
  | nil
  | cons (e : IExp) (es : IExps)

end

mutual

/-- The flag that comes with a constant, `isNotValidForMultiTargetGlobal`: src/expr.cpp:8993-8996 for `sizeof`, 8851-8892
for addresses, 3247-3296 for pointers plus numbers, 4661-4746 for lists, 6701 for numbers, 9319 for functions. -/
def IExp.flag : IExp → Bool
  | .const _ | .null | .fn _ => false
  | .sizeof t => t.isVarying
  | .addr _ _ idx => idx.flag
  | .plus p _ _ => p.flag
  | .list es => es.flag

/-- The flag of a list. -/
def IExps.flag : IExps → Bool
  | .nil => false
  | .cons e es => e.flag || es.flag

end

/-- What is in a place of memory at the start: a number, the address of a byte of a variable, or a function. -/
inductive ICell where
  | num (n : Int)
  | addr (g : Nat) (off : Int)
  | fn (f : Nat)
deriving DecidableEq, Repr

/-- The number that an initialiser of an index is. -/
def ICell.toInt : ICell → Int
  | .num n => n
  | _ => 0

mutual

/-- The value of an initialiser that is not a list, at gang size `w` (`GetStorageConstant` and `GetConstant`,
src/expr.cpp:8987-9006, 8840-8895, 3247-3296, 9300-9320). -/
def IExp.cell (w : Nat) : IExp → ICell
  | .const v => .num (v w)
  | .null => .num 0
  | .sizeof t => .num (t.lower 0 w).size
  | .addr g t idx => .addr g (idx.offset w (t.lower 0 w))
  | .plus p t n => match p.cell w with
    | .addr g off => .addr g (off + n w * (t.lower 0 w).size)
    | c => c
  | .fn f => .fn f
  | .list _ => .num 0

/-- The offset of an element: `ConstantExpr::getGetElementPtr`, src/expr.cpp:8888-8891. -/
def IExps.offset (w : Nat) : IExps → LTy → Int
  | .cons i is, .arr _ e => (i.cell w).toInt * e.size + is.offset w e
  | _, _ => 0

end

/-- A value in all lanes of a vector, or in a scalar. -/
def spread (c : ICell) (o : Nat) : LTy → List (Nat × ICell)
  | .scal _ | .ptr => [(o, c)]
  | .vec k n => (List.range n).map fun l => (o + k * l, c)
  | _ => []

mutual

/-- The values that an initialiser puts into an object of type `t` at offset `o`; what is not listed is zero.  Lists:
`lGetExprListConstant`, src/expr.cpp:4655-4810. -/
def IExp.place (w : Nat) : IExp → LTy → Nat → List (Nat × ICell)
  | .list es, .arr _ e, o => es.placeArr w e o
  | .list es, .vec k _, o => es.placeArr w (.scal k) o
  | .list es, .struct _ _ els, o => es.placeMem w els o 0
  | .list (.cons e .nil), t, o => e.place w t o
  | .list _, _, _ => []
  | .const v, t, o => spread (IExp.cell w (.const v)) o t
  | .null, t, o => spread (IExp.cell w .null) o t
  | .sizeof s, t, o => spread (IExp.cell w (.sizeof s)) o t
  | .addr g s idx, t, o => spread (IExp.cell w (.addr g s idx)) o t
  | .plus p s n, t, o => spread (IExp.cell w (.plus p s n)) o t
  | .fn f, t, o => spread (IExp.cell w (.fn f)) o t

/-- The elements of an array of `e` from offset `o`. -/
def IExps.placeArr (w : Nat) : IExps → LTy → Nat → List (Nat × ICell)
  | .nil, _, _ => []
  | .cons x xs, e, o => x.place w e o ++ xs.placeArr w e (o + e.size)

/-- The members of a struct at offset `o`; `p` is where the member before ends. -/
def IExps.placeMem (w : Nat) : IExps → LTys → Nat → Nat → List (Nat × ICell)
  | .cons x xs, .cons t ts, o, p =>
    x.place w t (o + roundUp p t.al) ++ xs.placeMem w ts o (roundUp p t.al + t.size)
  | _, _, _, _ => []

end

/-! ### Modules -/

/-- A global variable of the source. -/
structure Decl where
  name : Nat
  stat : Bool
  extern : Bool
  cst : Bool
  ty : Ty
  align : Option Nat
  init : Option IExp

/-- A declaration is accepted when compiling for several targets, src/module.cpp:727-736. -/
def Decl.accepted (d : Decl) : Bool :=
  d.stat || d.extern || match d.init with
    | some e => !e.flag
    | none => true

/-- A global variable of a module: its linkage (`ext` is `ExternalLinkage`), whether it is constant, its type, the alignment
it was given if any, and its initial value if it is defined here. -/
structure Global where
  name : Nat
  ext : Bool
  cst : Bool
  ty : LTy
  align : Option Nat
  init : Option (List (Nat × ICell))
deriving DecidableEq, Repr

/-- `Module::AddGlobalVariable`, src/module.cpp:709-833, for module `i` at gang size `w`; `al` is the alignment after the
optimisation of the module. -/
def Decl.global (i w : Nat) (al : Option Nat) (d : Decl) : Global where
  name := d.name
  ext := !d.stat
  cst := d.cst
  ty := d.ty.lower i w
  align := al
  init := if d.extern then none else some (match d.init with
    | some e => e.place w (d.ty.lower i w) 0
    | none => [])

/-- An external definition, src/module.cpp:2360. -/
def Global.isDef (g : Global) : Bool := g.ext && g.init.isSome

/-- The variables and functions that an initial value refers to; a function is never defined in the dispatch module. -/
def Global.refs (g : Global) : List (Option Nat) :=
  (g.init.getD []).filterMap fun p => match p.2 with
    | .num _ => none
    | .addr n _ => some (some n)
    | .fn _ => some none

/-- `resetGlobalInitializers`, src/module.cpp:2417-2424: the module that is written to a file. -/
def reset (m : List Global) : List Global := m.map fun g => if g.isDef then { g with init := none } else g

/-- The saved initialisers, src/module.cpp:2420. -/
def saved (m : List Global) : List (Nat × List (Nat × ICell)) :=
  m.filterMap fun g => if g.isDef then g.init.map fun v => (g.name, v) else none

/-- `restoreGlobalInitializers`, src/module.cpp:2436-2444. -/
def restore (m : List Global) (s : List (Nat × List (Nat × ICell))) : List Global :=
  m.map fun g => if g.ext then match s.find? (fun p => p.1 = g.name) with
    | some p => { g with init := some p.2 }
    | none => g
  else g

/-- The first module: `lExtractOrCheckGlobals` with `check` false, src/module.cpp:2391-2400.  `seen` are the variables in the
map.  A reference to another variable or to a function is left to point into the module of the target (LLVM's `MapValue`),
which the verifier (src/module.cpp:2241) stops at: `none`. -/
def extract : List Global → List Nat → Option (List Global)
  | [], _ => some []
  | g :: gs, seen =>
    if g.isDef then
      if g.refs.all fun r => r.any fun n => (g.name :: seen).contains n then
        (extract gs (g.name :: seen)).map fun ds => g :: ds
      else none
    else extract gs seen

/-- `lUpgradeGlobalVariableAlignment`, src/module.cpp:2289-2301. -/
def upgrade (dst src : Option Nat) : Option Nat :=
  match src, dst with
  | none, d => d
  | some a, none => some a
  | some a, some b => if b < a then some a else some b

/-- One variable of another module: `lExtractOrCheckGlobals` with `check` true, src/module.cpp:2366-2389.  `none`: the
assertion that the variable exists fails.  The second component are the variables warned about. -/
def checkOne (st : List Global × List Nat) (g : Global) : Option (List Global × List Nat) :=
  if g.isDef then
    match st.1.find? (fun d => d.name = g.name) with
    | none => none
    | some d =>
      some (st.1.map (fun d => if d.name = g.name then { d with align := upgrade d.align g.align } else d),
        if compat d.ty g.ty then st.2 else g.name :: st.2)
  else some st

/-- All variables of a module. -/
def checkAll : List Global → List Global × List Nat → Option (List Global × List Nat)
  | [], st => some st
  | g :: gs, st => match checkOne st g with
    | none => none
    | some st' => checkAll gs st'

/-- All modules but the first. -/
def checkMods : List (List Global) → List Global × List Nat → Option (List Global × List Nat)
  | [], st => some st
  | m :: ms, st => match checkAll m st with
    | none => none
    | some st' => checkMods ms st'

/-- The variables of the dispatch module and the warnings: the loop of `Module::GenerateDispatch`,
src/module.cpp:2715-2743. -/
def build : List (List Global) → Option (List Global × List Nat)
  | [] => some ([], [])
  | m :: ms => match extract m [] with
    | none => none
    | some ds => checkMods ms (ds, [])

/-! ### The machine -/

/-- Storage: what an external name is, or an internal variable of a module. -/
inductive Stor where
  | ext (n : Nat)
  | int (i n : Nat)
deriving DecidableEq, Repr

/-- Values in memory. -/
inductive Val where
  | num (n : Int)
  | ptr (s : Stor) (off : Int)
  | fn (i f : Nat)
deriving DecidableEq, Repr

/-- An object of the linked program: its size and alignment, whether it can be written to, and its initial value. -/
structure Obj where
  size : Nat
  align : Nat
  cst : Bool
  init : Int → Val

/-- What a name stands for in module `i`. -/
def resolve (m : List Global) (i n : Nat) : Stor :=
  if m.any fun g => g.name == n && !g.ext then .int i n else .ext n

/-- An initial value in the linked program. -/
def ICell.val (res : Nat → Stor) (i : Nat) : ICell → Val
  | .num n => .num n
  | .addr n off => .ptr (res n) off
  | .fn f => .fn i f

/-- The initial contents. -/
def contents (res : Nat → Stor) (i : Nat) (l : List (Nat × ICell)) (o : Int) : Val :=
  match l.find? (fun p => (p.1 : Int) = o) with
  | some p => p.2.val res i
  | none => .num 0

/-- The object that a definition makes. -/
def Global.obj (res : Nat → Stor) (i : Nat) (g : Global) : Obj where
  size := g.ty.size
  align := g.align.getD g.ty.al
  cst := g.cst
  init := contents res i (g.init.getD [])

/-- The definition of an external name in a module. -/
def findDef (m : List Global) (n : Nat) : Option Global := m.find? fun g => g.isDef && g.name == n

/-- The definition of an internal name in a module. -/
def findInt (m : List Global) (n : Nat) : Option Global := m.find? fun g => !g.ext && g.init.isSome && g.name == n

/-- Internal variables of the modules. -/
def internal (mods : List (List Global)) (i n : Nat) : Option Obj :=
  match mods[i]? with
  | none => none
  | some m => (findInt m n).map fun g => g.obj (resolve m i) i

/-- The objects of the program compiled for target `i` alone; `host` are those defined elsewhere. -/
def single (mods : List (List Global)) (host : Nat → Option Obj) (i : Nat) : Stor → Option Obj
  | .ext n => match mods[i]? with
    | none => host n
    | some m => match findDef m n with
      | some g => some (g.obj (resolve m i) i)
      | none => host n
  | .int j n => if j = i then internal mods i n else none

/-- The objects of the program compiled for all targets, with the variables of the dispatch module. -/
def linked (mods : List (List Global)) (defs : List Global) (host : Nat → Option Obj) : Stor → Option Obj
  | .ext n => match findDef defs n with
    | some g => some (g.obj .ext 0)
    | none => host n
  | .int j n => internal mods j n

/-- What a function does to memory; `al` is the alignment that an access relies on. -/
inductive Cmd where
  | load (p : Val) (al : Nat) (k : Val → Cmd)
  | store (p : Val) (al : Nat) (v : Val) (k : Cmd)
  | ret (v : Val)

/-- Memory. -/
abbrev Mem := Stor → Int → Val

/-- The place that an access goes to, if it is inside an object and aligned. -/
def access (env : Stor → Option Obj) (p : Val) (al : Nat) : Option (Stor × Int × Bool) :=
  match p with
  | .ptr s off => match env s with
    | some o => if 0 ≤ off ∧ off < o.size ∧ al ≤ o.align then some (s, off, o.cst) else none
    | none => none
  | _ => none

/-- Execution; `none` is undefined behaviour. -/
def exec (env : Stor → Option Obj) : Cmd → Mem → Option (Mem × Val)
  | .ret v, m => some (m, v)
  | .load p al k, m => match access env p al with
    | none => none
    | some (s, off, _) => exec env (k (m s off)) m
  | .store p al v k, m => match access env p al with
    | none => none
    | some (s, off, c) =>
      if c then none else exec env k (fun s' o' => if s' = s ∧ o' = off then v else m s' o')

/-- The code of the exported functions: module, function, what names stand for, arguments. -/
abbrev Code := Nat → Nat → (Nat → Stor) → List Val → Cmd

/-- What the application does: a call of an exported function, or an access to memory. -/
inductive Op where
  | call (f : Nat) (args : List Val)
  | access (c : Cmd)

/-- A history of the application; `pick` is the module that the dispatch function of each exported function calls.  The
values that come back are collected. -/
def run (env : Stor → Option Obj) (mods : List (List Global)) (code : Code) (pick : Nat → Option Nat) :
    List Op → Mem → Option (List Val)
  | [], _ => some []
  | .access c :: ops, m => match exec env c m with
    | none => none
    | some (m', v) => (run env mods code pick ops m').map fun vs => v :: vs
  | .call f args :: ops, m => match pick f with
    | none => none
    | some i => match exec env (code i f (resolve (mods[i]?.getD []) i) args) m with
      | none => none
      | some (m', v) => (run env mods code pick ops m').map fun vs => v :: vs

/-- Memory at the start. -/
def startMem (env : Stor → Option Obj) : Mem := fun s o => match env s with
  | some b => b.init o
  | none => .num 0

/-- The modules that a source is compiled to: `ws` are the gang sizes and `al i d` the alignments after optimisation. -/
def modules (P : List Decl) (al : Nat → Decl → Option Nat) (ws : List Nat) : List (List Global) :=
  ws.mapIdx fun i w => P.map fun d => d.global i w (al i d)

end Ispc.Multi
