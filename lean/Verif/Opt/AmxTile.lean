import Mathlib.Tactic.Common

/-!
# C90: the tile numbers of AMX functions

A model of `src/opt/LowerAMXBuiltinsPass.cpp`. The instructions for AMX need tile numbers that are constants; without
optimisation these are stored to a variable and loaded again, and the pass looks for the store. A function is a graph
of blocks. Its instructions are stores of whole values to a variable, instructions that may write to variables in other
ways (calls that get a pointer, stores through a pointer), and the rest. The other arguments of the AMX functions and
the reported messages are left out.
-/

namespace Ispc.AmxTile

/-! ## Functions and their executions -/

/-- Integer casts. Models no lines of ispc. -/
inductive Cast where
  | trunc | zext | sext
  deriving DecidableEq, Repr

/-- A stored value: a constant of some width, a cast to a width, or something that is not known. Models no lines of
    ispc. -/
inductive Val where
  | const (width n : Nat)
  | cast (k : Cast) (width : Nat) (v : Val)
  | opaque (width : Nat)
  deriving DecidableEq, Repr

/-- The width of a value. Models no lines of ispc. -/
def Val.width : Val → Nat
  | .const w _ => w
  | .cast _ w _ => w
  | .opaque w => w

/-- What a cast from `from_` bits to `w` bits gives (LLVM LangRef). -/
def Cast.apply (k : Cast) (from_ w n : Nat) : Nat :=
  match k with
  | .trunc => n % 2 ^ w
  | .zext => n
  | .sext => if n < 2 ^ (from_ - 1) then n else n + 2 ^ w - 2 ^ from_

/-- The numbers that a value may have. Models no lines of ispc. -/
inductive Val.Is : Val → Nat → Prop
  | const (w n : Nat) : Is (.const w n) n
  | cast (k : Cast) (w : Nat) (v : Val) (n : Nat) (h : Is v n) : Is (.cast k w v) (k.apply v.width w n)
  | opaque (w n : Nat) : Is (.opaque w) n

/-- An instruction: a plain store, or one that may write to the given variables. Models no lines of ispc. -/
inductive Instr where
  | store (x : Nat) (v : Val)
  | other (writes : List Nat)
  deriving DecidableEq, Repr

/-- A block, with the blocks that may follow; the first one is the entry. Models no lines of ispc. -/
structure Block where
  instrs : List Instr
  succs : List Nat
  deriving DecidableEq, Repr

/-- The variables. -/
abbrev Mem := Nat → Nat

/-- The effect of an instruction. Models no lines of ispc. -/
def Step : Instr → Mem → Mem → Prop
  | .store x v, m, m' => ∃ n, v.Is n ∧ m' = fun y => if y = x then n else m y
  | .other ws, m, m' => ∀ y, y ∉ ws → m' y = m y

/-- Executions can be before instruction `i` of block `b` with these variables. Models no lines of ispc. -/
inductive At (f : List Block) : Nat → Nat → Mem → Prop
  | entry (m : Mem) : At f 0 0 m
  | step {b i m m' blk ins} (h : At f b i m) (hb : f[b]? = some blk) (hi : blk.instrs[i]? = some ins)
      (hs : Step ins m m') : At f b (i + 1) m'
  | jump {b m blk c} (h : At f b blk.instrs.length m) (hb : f[b]? = some blk) (hc : c ∈ blk.succs) : At f c 0 m

/-! ## The pass -/

/-- The constant inside of casts (src/opt/LowerAMXBuiltinsPass.cpp:36-44). -/
def Val.inner : Val → Option Nat
  | .const _ n => some n
  | .cast _ _ v => v.inner
  | .opaque _ => none

/-- `extractConstant` (src/opt/LowerAMXBuiltinsPass.cpp:32-48): the constant, in the type of the stored value. A number
    that does not fit is cut off. -/
def extractConstant (v : Val) : Option Nat := v.inner.map (· % 2 ^ v.width)

/-- `findStoreInRange` (src/opt/LowerAMXBuiltinsPass.cpp:51-61): the last store to the variable. -/
def findStore (x : Nat) (l : List Instr) : Option Val :=
  l.reverse.findSome? fun
    | .store y v => if y = x then some v else none
    | .other _ => none

/-- The edges to a block, by their sources. Models no lines of ispc. -/
def preds (f : List Block) (c : Nat) : List Nat :=
  (List.range f.length).flatMap fun b =>
    match f[b]? with
    | some blk => (blk.succs.filter (· = c)).map fun _ => b
    | none => []

/-- `getSinglePredecessor` of LLVM: there is exactly one edge to the block. -/
def singlePred (f : List Block) (c : Nat) : Option Nat :=
  match preds f c with
  | [b] => some b
  | _ => none

/-- The walk along single predecessors (src/opt/LowerAMXBuiltinsPass.cpp:69-85). `fuel` bounds the recursion; the blocks
    visited are distinct, so that as many steps as blocks are enough. -/
def search (f : List Block) (x : Nat) : Nat → List Nat → Nat → Option Val
  | 0, _, _ => none
  | fuel + 1, visited, c =>
    match singlePred f c with
    | none => none
    | some b =>
      if b ∈ visited then none
      else
        match f[b]? with
        | none => none
        | some blk =>
          match findStore x blk.instrs with
          | some v => some v
          | none => search f x fuel (b :: visited) b

/-- The operand of an AMX function: a constant, a load of a variable before instruction `i` of block `b`, or something
    else. Models no lines of ispc. -/
inductive Operand where
  | const (n : Nat)
  | load (b i x : Nat)
  | other
  deriving DecidableEq, Repr

/-- `lGetConstantThroughLoad` (src/opt/LowerAMXBuiltinsPass.cpp:19-88). -/
def constantThroughLoad (f : List Block) (b i x : Nat) : Option Nat :=
  match f[b]? with
  | none => none
  | some blk =>
    match findStore x (blk.instrs.take i) with
    | some v => extractConstant v
    | none =>
      match search f x (f.length + 1) [b] b with
      | some v => extractConstant v
      | none => none

/-- `lValidateAMXTileArgument` (src/opt/LowerAMXBuiltinsPass.cpp:90-115); `none` is an error. -/
def validate (f : List Block) (o : Operand) : Option Nat :=
  let c := match o with
    | .const n => some n
    | .load b i x => constantThroughLoad f b i x
    | .other => none
  match c with
  | none => none
  | some n => if n > 7 then none else some n

/-- The AMX functions (src/opt/LowerAMXBuiltinsPass.cpp:117-191). -/
inductive Fn where
  | zero | load | loadT1 | store | dpbssd | dpbsud | dpbusd | dpbuud | dpbf16ps | dpfp16ps
  deriving DecidableEq, Repr

/-- How many tiles a function takes. Models no lines of ispc. -/
def Fn.tiles : Fn → Nat
  | .zero | .load | .loadT1 | .store => 1
  | _ => 3

/-- The lowering of a call (src/opt/LowerAMXBuiltinsPass.cpp:117-191): the instruction of LLVM and its tiles. -/
def lower (f : List Block) (fn : Fn) (ops : List Operand) : Option (String × List Nat) :=
  if ops.length = fn.tiles then
    match ops.mapM (validate f) with
    | none => none
    | some ts => some (match fn with
      | .zero => "tilezero" | .load => "tileloadd64" | .loadT1 => "tileloaddt164" | .store => "tilestored64"
      | .dpbssd => "tdpbssd" | .dpbsud => "tdpbsud" | .dpbusd => "tdpbusd" | .dpbuud => "tdpbuud"
      | .dpbf16ps => "tdpbf16ps" | .dpfp16ps => "tdpfp16ps", ts)
  else none

end Ispc.AmxTile
