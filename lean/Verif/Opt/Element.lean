import Mathlib.Data.List.Basic
import Mathlib.Tactic.ByContra

/-!
# C78: Taking an element out of a vector

When the optimiser turns a gather or scatter into a load or store, or shares loads between gathers, it needs *one*
address: the one that all elements of a vector have in common, or the first of them.  It does not compute the vector and
read an element of it; it looks for a scalar value that is already there, or builds the scalar computation beside the
vector one.  This file models the functions that do so (`src/llvmutil.cpp`):

* `lValuesAreEqual`: are two values of the program always equal?
* `LLVMFlattenInsertChain`: the scalar that all elements (or the first element) of a vector put together by
  insertelement instructions have;
* `lExtractFirstVectorElement`: build the scalar computation of the first element.

The program is a control flow graph in SSA form.  A value is a function from lanes to bits; a scalar only has lane 0.
-/

namespace Ispc.Elt

/-- The type of a value: the width of an element and the number of elements (0: a scalar). -/
structure Ty where
  w : Nat
  n : Nat
deriving DecidableEq, Repr

/-- Where a value comes from.  LLVM's values, of which `src/llvmutil.cpp:542-774, 1539-1667` tells these kinds apart:
arguments, loads, calls and all other instructions are leaves; `undef` is undef and poison; `zero` a
ConstantAggregateZero; `cvec` a ConstantVector, with the constants it is made of; `cdata` a ConstantDataVector; `bin` a
BinaryOperator with its opcode; `cast` a CastInst; `phi` a PHINode with its incoming values and blocks; `insert` an
InsertElementInst (index `none`: not a constant); `shuffle` a ShuffleVectorInst (the flag: its mask is all zeros; the
second operand is then irrelevant); `elt` an ExtractElementInst at index 0. -/
inductive Node
  | leaf
  | undef
  | const (c : Nat)
  | zero
  | cvec (ops : List Nat)
  | cdata (xs : List Nat)
  | bin (op a b : Nat)
  | cast (op a : Nat)
  | phi (ins : List (Nat × Nat))
  | insert (base elt : Nat) (idx : Option Nat)
  | shuffle (a : Nat) (zeroMask : Bool)
  | elt (a : Nat)
deriving DecidableEq, Repr

/-- A function in SSA form: what each value is, the block it is in, its type, the first block and the predecessors of
each block.  Arguments and constants count as being in the first block.  LLVM's representation, which
`src/llvmutil.cpp:542-774` walks through. -/
structure Prog where
  node : Nat → Node
  blk : Nat → Nat
  ty : Nat → Ty
  entry : Nat
  preds : Nat → List Nat

/-! ### Executions -/

/-- A meaning of the operators: binary operators work on each lane, at a width; casts work on each lane from one width to
another, and on the whole vector if they change the number of lanes. -/
structure Sem where
  bin : Nat → Nat → Nat → Nat → Nat
  cast : Nat → Nat → Nat → Nat → Nat
  regroup : Nat → Ty → Ty → (Nat → Nat) → Nat → Nat

/-- The values at a point of an execution. -/
abbrev Env := Nat → Nat → Nat

/-- The value of a cast. -/
def Sem.castv (S : Sem) (op : Nat) (t t' : Ty) (f : Nat → Nat) (l : Nat) : Nat :=
  if t.n = t'.n then S.cast op t.w t'.w (f l) else S.regroup op t t' f l

/-- A value that is not a phi is what its node says.  Leaves, undefined values, insertions at an index that is not
constant and other shuffles may be anything; an undefined value has one value each time it is reached (as if frozen). -/
def Holds (S : Sem) (P : Prog) (env : Env) (v : Nat) : Prop :=
  match P.node v with
  | .leaf | .undef | .phi _ => True
  | .const c => ∀ l, env v l = c
  | .zero => ∀ l, env v l = 0
  | .cvec ops => ∀ (l o : Nat), ops[l]? = some o → env v l = env o 0
  | .cdata xs => ∀ (l x : Nat), xs[l]? = some x → env v l = x
  | .bin op a b => ∀ l, env v l = S.bin op (P.ty v).w (env a l) (env b l)
  | .cast op a => ∀ l, env v l = S.castv op (P.ty a) (P.ty v) (env a) l
  | .insert base e (some i) => ∀ l, env v l = if l = i then env e 0 else env base l
  | .insert _ _ none => True
  | .shuffle a true => ∀ l, env v l = env a 0
  | .shuffle _ false => True
  | .elt a => ∀ l, env v l = env a 0

def Node.isPhi : Node → Bool
  | .phi _ => true
  | _ => false

/-- Executions: the state at the end of each block that is executed.  The phis of a block take the values that their
incoming values had at the end of the block control came from; the other values of the block are computed; values of
other blocks stay. -/
inductive Run (S : Sem) (P : Prog) : Nat → Env → Prop
  | start (env : Env) : (∀ v, P.blk v = P.entry → (P.node v).isPhi = false → Holds S P env v) → Run S P P.entry env
  | step (b c : Nat) (env env' : Env) : Run S P b env → b ∈ P.preds c →
      (∀ v ins, P.blk v = c → P.node v = .phi ins → ∀ x, (x, b) ∈ ins → env' v = env x) →
      (∀ v, P.blk v ≠ c → env' v = env v) →
      (∀ v, P.blk v = c → (P.node v).isPhi = false → Holds S P env' v) → Run S P c env'

/-! ### Valid programs -/

/-- Paths from the first block, last block first. -/
inductive Path (P : Prog) : Nat → List Nat → Prop
  | start : Path P P.entry [P.entry]
  | step (b c : Nat) (π : List Nat) : Path P b π → b ∈ P.preds c → Path P c (c :: π)

/-- Block `d` dominates block `b`: all paths to `b` go through it. -/
def Dom (P : Prog) (d b : Nat) : Prop := ∀ π, Path P b π → d ∈ π

/-- The operands of a node that is not a phi. -/
def Node.uses : Node → List Nat
  | .cvec ops => ops
  | .bin _ a b => [a, b]
  | .cast _ a => [a]
  | .insert base e _ => [base, e]
  | .shuffle a _ => [a]
  | .elt a => [a]
  | _ => []

/-- What LLVM's verifier checks of a function: definitions dominate their uses, the first block has no predecessors and no phis, phis
have values for their predecessors and no other blocks, operands of binary operators and phis have the type of the result, an inserted element has the type of
an element, and the values of a vector constant are as many as its elements.  `rank` orders the values so that operands
come before their uses (in the order of the dominator tree and inside blocks). -/
structure Valid (P : Prog) (rank : Nat → Nat) : Prop where
  start : P.preds P.entry = []
  phi_blk : ∀ v ins, P.node v = .phi ins → P.blk v ≠ P.entry
  dom : ∀ v a, a ∈ (P.node v).uses → Dom P (P.blk a) (P.blk v)
  order : ∀ v a, a ∈ (P.node v).uses → rank a < rank v
  phi_dom : ∀ v ins x b, P.node v = .phi ins → (x, b) ∈ ins → Dom P (P.blk x) b
  phi_pred : ∀ v ins x b, P.node v = .phi ins → (x, b) ∈ ins → b ∈ P.preds (P.blk v)
  phi_all : ∀ v ins b, P.node v = .phi ins → b ∈ P.preds (P.blk v) → ∃ x, (x, b) ∈ ins
  bin_ty : ∀ v op a b, P.node v = .bin op a b → P.ty a = P.ty v ∧ P.ty b = P.ty v
  phi_ty : ∀ v ins x b, P.node v = .phi ins → (x, b) ∈ ins → P.ty x = P.ty v
  shuf_ty : ∀ v a z, P.node v = .shuffle a z → (P.ty a).w = (P.ty v).w ∧ (P.ty a).n ≠ 0
  ins_ty : ∀ v base e i, P.node v = .insert base e i → P.ty base = P.ty v ∧ P.ty e = ⟨(P.ty v).w, 0⟩
  cvec_ty : ∀ v ops, P.node v = .cvec ops → ops.length = (P.ty v).n ∧ ∀ o ∈ ops, P.ty o = ⟨(P.ty v).w, 0⟩
  cdata_ty : ∀ v xs, P.node v = .cdata xs → xs.length = (P.ty v).n

/-- A phi has one value for each block, which the verifier checks too. -/
def OneValue (P : Prog) : Prop := ∀ v ins x y b, P.node v = .phi ins → (x, b) ∈ ins → (y, b) ∈ ins → x = y

/-! ### Are two values equal? -/

/-- The answer of a function that may stop the compiler with a failed assertion. -/
inductive Ans
  | yes | no | abort
deriving DecidableEq, Repr

/-- The loop over the incoming values of two phis (`src/llvmutil.cpp:588-600`); `eq` compares two values. -/
def eqIns (eq : Nat → Nat → Ans) : List (Nat × Nat) → List (Nat × Nat) → Ans
  | (x, b) :: xs, (y, b') :: ys =>
    if b ≠ b' then .abort
    else match eq x y with
      | .yes => eqIns eq xs ys
      | r => r
  | _, _ => .yes

/-- `lValuesAreEqual` (`src/llvmutil.cpp:542-609`).  The two vectors of phis are a list of pairs, the top of the stack
first.  The recursion ends (every phi is entered once); a depth of 0 counts as a failed assertion. -/
def valuesEq (P : Prog) : Nat → Nat → Nat → List (Nat × Nat) → Ans
  | 0, _, _, _ => .abort
  | fuel + 1, v0, v1, seen =>
    if v0 = v1 then .yes
    else if (v0, v1) ∈ seen then .yes
    else match P.node v0, P.node v1 with
      | .bin op a b, .bin op' a' b' =>
        if op ≠ op' then .no
        else match valuesEq P fuel a a' seen with
          | .yes => valuesEq P fuel b b' seen
          | r => r
      | .cast op a, .cast op' a' => if op ≠ op' then .no else valuesEq P fuel a a' seen
      | .phi ins, .phi ins' =>
        if ins.length ≠ ins'.length then .no
        else eqIns (fun x y => valuesEq P fuel x y ((v0, v1) :: seen)) ins ins'
      | _, _ => .no

/-! ### Chains of insertions -/

/-- What the walk along a chain of insertelement instructions ends with: an index that is not constant, a failed
assertion, an undefined or constant vector (with the elements found), or some other vector. -/
inductive Chain
  | null
  | abort
  | full (els : Nat → Option Nat)
  | other (els : Nat → Option Nat)

/-- Record an element unless one was recorded that was inserted later (`src/llvmutil.cpp:660-663`). -/
def record (els : Nat → Option Nat) (i e : Nat) : Nat → Option Nat :=
  fun j => if j = i ∧ els i = none then some e else els j

/-- Take the elements that were not inserted from a constant vector (`src/llvmutil.cpp:679-683`). -/
def fill (els : Nat → Option Nat) (ops : List Nat) : Nat → Option Nat :=
  fun j => match els j with
    | some e => some e
    | none => ops[j]?

/-- The loop of `LLVMFlattenInsertChain` (`src/llvmutil.cpp:650-698`), for a vector of `W` elements.  A
ConstantAggregateZero has no operands (LLVM), so the assertion at line 678 fails for it. -/
def walk (P : Prog) (W : Nat) : Nat → Nat → (Nat → Option Nat) → Chain
  | 0, _, _ => .abort
  | fuel + 1, v, els =>
    match P.node v with
    | .insert base e idx =>
      match idx with
      | none => .null
      | some i =>
        if W ≤ i then .abort
        else match P.node base with
          | .insert _ _ _ => walk P W fuel base (record els i e)
          | .undef => .full (record els i e)
          | .cvec ops => if ops.length = W then .full (fill (record els i e) ops) else .abort
          | .zero => if W = 0 then .full (record els i e) else .abort
          | _ => .other (record els i e)
    | _ => .abort

/-- A pointer to a value, or null, or a failed assertion. -/
inductive Res
  | val (s : Nat)
  | null
  | abort
deriving DecidableEq, Repr

/-- The last element that is there (`src/llvmutil.cpp:704-712`). -/
def lastSome (els : Nat → Option Nat) : Nat → Option Nat
  | 0 => none
  | k + 1 => match els k with
    | some e => some e
    | none => lastSome els k

/-- Compare all elements that are there with element `s` (`src/llvmutil.cpp:722-734`). -/
def compareAll (P : Prog) (fuel : Nat) (els : Nat → Option Nat) (s : Nat) : List Nat → Res
  | [] => .val s
  | i :: is => match els i with
    | none => compareAll P fuel els s is
    | some e => match valuesEq P fuel s e [] with
      | .yes => compareAll P fuel els s is
      | .no => .null
      | .abort => .abort

/-- What is done with the elements of a chain that ends in an undefined or constant vector
(`src/llvmutil.cpp:699-734`). -/
def finish (P : Prog) (fuel W : Nat) (compare undef : Bool) (els : Nat → Option Nat) : Res :=
  if compare = false then
    match els 0 with
    | some s => .val s
    | none => .null
  else match lastSome els W with
    | none => .null
    | some s =>
      if undef = false ∧ (List.range W).any (fun i => (els i).isNone) = true then .null
      else compareAll P fuel els s (List.range W)

/-- `lIsFirstElementConstVector` (`src/llvmutil.cpp:614-641`).  The part for Xe is not modelled. -/
def firstConst (P : Prog) (v : Nat) : Bool :=
  match P.node v with
  | .cvec (_ :: ops) => ops.all fun o => decide (P.node o = .undef)
  | _ => false

/-- The insertelement instruction that a broadcast starts from (`src/llvmutil.cpp:750-763`); `add` tells the additions
(and disjunctions that are additions, `IsOrEquivalentToAdd`). -/
def startOf (P : Prog) (add : Nat → Bool) (search : Bool) (op : Nat) : Option Nat :=
  match P.node op with
  | .insert _ _ _ => some op
  | .bin _ a b =>
    if search && add op then
      if firstConst P b then
        match P.node a with
        | .insert _ _ _ => some a
        | _ => none
      else match P.node b with
        | .insert _ _ _ => some b
        | _ => none
    else none
  | _ => none

/-- The element of a broadcast (`src/llvmutil.cpp:746-771`). -/
def broadcastElt (P : Prog) (add : Nat → Bool) (search : Bool) (op : Nat) : Res :=
  match startOf P add search op with
  | none => .null
  | some ie => match P.node ie with
    | .insert base e idx =>
      if P.node base = .undef then
        match idx with
        | none => .abort
        | some i => if i = 0 then .val e else .null
      else .null
    | _ => .null

/-- `LLVMFlattenInsertChain` (`src/llvmutil.cpp:643-774`). -/
def flatten (P : Prog) (add : Nat → Bool) (fuel v W : Nat) (compare undef search : Bool) : Res :=
  match P.node v with
  | .insert _ _ _ => match walk P W fuel v (fun _ => none) with
    | .null => .null
    | .abort => .abort
    | .other els =>
      if compare then .null
      else match els 0 with
        | some s => .val s
        | none => .abort
    | .full els => finish P fuel W compare undef els
  | .shuffle a true => broadcastElt P add search a
  | _ => .null

/-! ### The first element of any vector -/

/-- A value that the optimiser adds to the function. -/
structure Def where
  id : Nat
  node : Node
  blk : Nat
  ty : Ty
deriving DecidableEq, Repr

/-- The state of the extraction: the next free identifier, the values added so far, and the map from vector phis to
scalar phis (`src/llvmutil.cpp:1539`). -/
structure St where
  next : Nat
  defs : List Def
  map : List (Nat × Nat)
deriving DecidableEq, Repr

/-- Add a value. -/
def St.emit (st : St) (node : Node) (blk : Nat) (ty : Ty) : Nat × St :=
  (st.next, { st with next := st.next + 1, defs := ⟨st.next, node, blk, ty⟩ :: st.defs })

/-- The scalar phi of a vector phi (`src/llvmutil.cpp:1614-1616`). -/
def St.find (st : St) (v : Nat) : Option Nat := (st.map.find? (fun p => p.1 = v)).map (·.2)

/-- Scalarize the incoming values of a phi (`src/llvmutil.cpp:1631-1634`). -/
def extractIns (ex : Nat → St → Option (Nat × St)) : List (Nat × Nat) → St → Option (List (Nat × Nat) × St)
  | [], st => some ([], st)
  | (x, b) :: xs, st => match ex x st with
    | none => none
    | some (s, st1) => match extractIns ex xs st1 with
      | none => none
      | some (ss, st2) => some ((s, b) :: ss, st2)

/-- `lExtractFirstVectorElement` (`src/llvmutil.cpp:1539-1667`).  `none`: an assertion fails or a null pointer is
returned.  The new scalar phi is in the map before its incoming values are scalarized; here only its identifier is
reserved then.  New instructions go right beside the vector instruction (lines 1594-1598, 1607-1608, 1626-1628, 1662-1665),
so they count as being in its block; constants and the extracted elements of arguments are in the first block, as the
arguments are. -/
def extract (P : Prog) (add : Nat → Bool) : Nat → Nat → St → Option (Nat × St)
  | 0, _, _ => none
  | fuel + 1, v, st =>
    if (P.ty v).n = 0 then none
    else match P.node v with
      | .zero => some (st.emit (.const 0) P.entry ⟨(P.ty v).w, 0⟩)
      | .cvec ops => match ops with
        | [] => none
        | o :: _ => some (o, st)
      | .cdata xs => match xs with
        | [] => none
        | x :: _ => some (st.emit (.const x) P.entry ⟨(P.ty v).w, 0⟩)
      | .undef => none
      | .const _ => none
      | .bin op a b => match extract P add fuel a st with
        | none => none
        | some (s0, st1) => match extract P add fuel b st1 with
          | none => none
          | some (s1, st2) => some (st2.emit (.bin op s0 s1) (P.blk v) ⟨(P.ty v).w, 0⟩)
      | .cast op a => match extract P add fuel a st with
        | none => none
        | some (s, st1) => some (st1.emit (.cast op s) (P.blk v) ⟨(P.ty v).w, 0⟩)
      | .phi ins => match st.find v with
        | some s => some (s, st)
        | none =>
          match extractIns (extract P add fuel) ins { st with next := st.next + 1, map := (v, st.next) :: st.map } with
          | none => none
          | some (ss, st1) =>
            some (st.next, { st1 with defs := ⟨st.next, .phi ss, P.blk v, ⟨(P.ty v).w, 0⟩⟩ :: st1.defs })
      | .shuffle a true => extract P add fuel a st
      | .insert _ _ _ => match flatten P add fuel v (P.ty v).n false true false with
        | .val s => some (s, st)
        | _ => none
      | _ => some (st.emit (.elt v) (P.blk v) ⟨(P.ty v).w, 0⟩)

/-- The function with the added values. -/
def Prog.with (P : Prog) (ds : List Def) : Prog where
  node v := match ds.find? (fun d => d.id = v) with
    | some d => d.node
    | none => P.node v
  blk v := match ds.find? (fun d => d.id = v) with
    | some d => d.blk
    | none => P.blk v
  ty v := match ds.find? (fun d => d.id = v) with
    | some d => d.ty
    | none => P.ty v
  entry := P.entry
  preds := P.preds

/-- `LLVMExtractFirstVectorElement` (`src/llvmutil.cpp:1669-1673`): the scalar and the function with the values added.
`n` is the first free identifier. -/
def firstElement (P : Prog) (add : Nat → Bool) (fuel v n : Nat) : Option (Nat × Prog) :=
  match extract P add fuel v ⟨n, [], []⟩ with
  | none => none
  | some (s, st) => some (s, P.with st.defs)

/-! ### The common pointer of a broadcast -/

/-- The offsets that go with a base pointer: zero in all lanes, or the first lane of a vector in all lanes. -/
inductive Offs
  | zero
  | splat (v : Nat)
deriving DecidableEq, Repr

/-- `lGetBasePtrAndOffsets` for a shuffle with a mask of zeros (`src/opt/ImproveMemoryOps.cpp:146-215`, and
`lGetBasePointer` at 63-76).  `ptr` is the test `lCheckForActualPointer`; the second operand of the shuffle is undefined.
`none`: no base pointer was found (or an assertion fails). -/
def broadcastBase (P : Prog) (add : Nat → Bool) (ptr : Nat → Bool) (fuel v W : Nat) : Option (Nat × Offs) :=
  match P.node v with
  | .shuffle op true => match flatten P add fuel v W true false true with
    | .val s =>
      if ptr s then
        match P.node op with
        | .bin _ a b =>
          if add op then
            match P.node b with
            | .cvec _ => some (s, .splat b)
            | _ => match P.node a with
              | .bin _ _ _ => some (s, .splat a)
              | _ => none
          else some (s, .zero)
        | _ => some (s, .zero)
      else none
    | _ => none
  | _ => none

/-- The value of the offsets in a lane. -/
def Offs.lane (env : Env) : Offs → Nat → Nat
  | .zero, _ => 0
  | .splat v, _ => env v 0

end Ispc.Elt
