import Mathlib.Data.List.Basic
import Mathlib.Data.List.Induction
import Mathlib.Data.List.Nodup
import Mathlib.Tactic.Common
import Mathlib.Order.Basic
import Mathlib.Data.Nat.Find

/-!
# C28: the symbol table

`SymbolTable` of `src/sym.cpp`: scopes of variables (kept in recycled maps), scopes of types, and the one map of
functions.  Names, symbols, types and function types are arbitrary types.
-/

namespace Ispc.SymTab

variable {Name Sym Ty Fn : Type} [DecidableEq Name] [DecidableEq Fn]

/-- A `std::map`. -/
abbrev Map (Name V : Type) := Name → Option V

/-- `m[n] = v`. -/
def Map.put {V : Type} (m : Map Name V) (n : Name) (v : V) : Map Name V := fun x => if x = n then some v else m x

/-- The members of `SymbolTable` (src/sym.h:319-347).  The maps of `variables` are on the heap and are
    identified by numbers; `variables` and `types` have the innermost scope (the back of the vector) first. -/
structure St (Name Sym Ty Fn : Type) where
  heap : Nat → Map Name Sym
  vars : List Nat
  free : List Nat
  next : Nat
  types : List (Map Name Ty)
  functions : Name → List (Fn × Sym)

/-- The operations.  `addFun n f s` adds symbol `s` with function type `f`. -/
inductive Op (Name Sym Ty Fn : Type) where
  | push
  | pop
  | popInner
  | addVar (n : Name) (s : Sym)
  | addType (n : Name) (t : Ty)
  | addFun (n : Name) (f : Fn) (s : Sym)

/-- `PushScope` (src/sym.cpp:69-81). -/
def push (s : St Name Sym Ty Fn) : St Name Sym Ty Fn :=
  match s.free with
  | sm :: rest =>
    { s with free := rest, heap := fun i => if i = sm then fun _ => none else s.heap i
             vars := sm :: s.vars, types := (fun _ => none) :: s.types }
  | [] =>
    { s with next := s.next + 1, heap := fun i => if i = s.next then fun _ => none else s.heap i
             vars := s.next :: s.vars, types := (fun _ => none) :: s.types }

/-- `PopScope` (src/sym.cpp:83-89); `none` when an assertion fails. -/
def pop (s : St Name Sym Ty Fn) : Option (St Name Sym Ty Fn) :=
  match s.vars, s.types with
  | v :: vs, _ :: ts => some { s with free := v :: s.free, vars := vs, types := ts }
  | _, _ => none

/-- `PopInnerScopes` (src/sym.cpp:91-95): the loop, at most `fuel` times round. -/
def popInner : Nat → St Name Sym Ty Fn → Option (St Name Sym Ty Fn)
  | 0, s => some s
  | fuel + 1, s => if 1 < s.vars.length then (pop s).bind (popInner fuel) else some s

/-- The search of `AddVariable` and `LookupVariable`: the first map, from the innermost, that has the name, with
    its distance from the innermost scope (src/sym.cpp:101-103, 129-135). -/
def find (h : Nat → Map Name Sym) (n : Name) : List Nat → Nat → Option (Nat × Sym)
  | [], _ => none
  | v :: vs, k => match h v n with
    | some s => some (k, s)
    | none => find h n vs (k + 1)

/-- `(*variables.back())[name] = symbol`. -/
def putVar (s : St Name Sym Ty Fn) (n : Name) (x : Sym) : Option (St Name Sym Ty Fn) :=
  match s.vars with
  | v :: _ => some { s with heap := fun i => if i = v then (s.heap v).put n x else s.heap i }
  | [] => none

/-- `AddVariable` (src/sym.cpp:97-122), with its result. -/
def addVar (s : St Name Sym Ty Fn) (n : Name) (x : Sym) : Option (Bool × St Name Sym Ty Fn) :=
  match find s.heap n s.vars 0 with
  | some (0, _) => some (false, s)
  | some (_ + 1, _) => (putVar s n x).map (true, ·)
  | none => (putVar s n x).map (true, ·)

/-- `LookupVariable` (src/sym.cpp:124-137). -/
def lookupVariable (s : St Name Sym Ty Fn) (n : Name) : Option Sym := (find s.heap n s.vars 0).map (·.2)

/-- `AddType` (src/sym.cpp:244-280), without the error messages about incomplete types, which do not change
    the table; `undef` says whether a type is an `UndefinedStructType`. -/
def addType (undef : Ty → Bool) (s : St Name Sym Ty Fn) (n : Name) (t : Ty) : Option (Bool × St Name Sym Ty Fn) :=
  match s.types with
  | [] => none
  | m :: ms =>
    if (match m n with | some t0 => !undef t0 | none => false) then some (false, s)
    else some (true, { s with types := m.put n t :: ms })

/-- `LookupType` (src/sym.cpp:282-291). -/
def lookupType (s : St Name Sym Ty Fn) (n : Name) : Option Ty := s.types.findSome? (· n)

/-- `LookupFunction(name, matches)` (src/sym.cpp:153-166). -/
def lookupFunctions (s : St Name Sym Ty Fn) (n : Name) : List (Fn × Sym) := s.functions n

/-- `LookupFunction(name, type)` (src/sym.cpp:168-179); `Type::Equal` is equality of `Fn`. -/
def lookupFunction (s : St Name Sym Ty Fn) (n : Name) (f : Fn) : Option Sym :=
  ((s.functions n).find? (·.1 = f)).map (·.2)

/-- `AddFunction` (src/sym.cpp:139-151). -/
def addFun (s : St Name Sym Ty Fn) (n : Name) (f : Fn) (x : Sym) : Bool × St Name Sym Ty Fn :=
  if (lookupFunction s n f).isSome then (false, s)
  else (true, { s with functions := fun m => if m = n then s.functions n ++ [(f, x)] else s.functions m })

/-- One operation, without its result. -/
def step (undef : Ty → Bool) (s : St Name Sym Ty Fn) : Op Name Sym Ty Fn → Option (St Name Sym Ty Fn)
  | .push => some (push s)
  | .pop => pop s
  | .popInner => popInner s.vars.length s
  | .addVar n x => (addVar s n x).map (·.2)
  | .addType n t => (addType undef s n t).map (·.2)
  | .addFun n f x => some (addFun s n f x).2

/-- `SymbolTable::SymbolTable` (src/sym.cpp:49). -/
def init : St Name Sym Ty Fn := push ⟨fun _ _ => none, [], [], 0, [], fun _ => []⟩

/-- A whole history. -/
def run (undef : Ty → Bool) (ops : List (Op Name Sym Ty Fn)) : Option (St Name Sym Ty Fn) :=
  ops.foldl (fun s op => s.bind (step undef · op)) (some init)

/-! ## Specification: what a history declares -/

/-- How many scopes are open after the history (the global one included). -/
def depth (ops : List (Op Name Sym Ty Fn)) : Nat :=
  ops.foldl (fun d op => match op with | .push => d + 1 | .pop => d - 1 | .popInner => min d 1 | _ => d) 1

/-- Operation `i` happened in a scope that is still open at the end of the history. -/
def Open (ops : List (Op Name Sym Ty Fn)) (i : Nat) : Prop :=
  ∀ j, i < j → j ≤ ops.length → depth (ops.take i) ≤ depth (ops.take j)

/-- `i` is a visible declaration, i.e. of name `n`, value `v`, in an open scope at depth `k`; `dec` picks the
    declarations of variables, or of types. -/
def DeclAt {V : Type} (dec : Op Name Sym Ty Fn → Option (Name × V)) (ops : List (Op Name Sym Ty Fn))
    (n : Name) (i k : Nat) (v : V) : Prop :=
  ∃ op, ops[i]? = some op ∧ dec op = some (n, v) ∧ depth (ops.take i) = k ∧ Open ops i

def Op.var : Op Name Sym Ty Fn → Option (Name × Sym)
  | .addVar n x => some (n, x)
  | _ => none

def Op.type : Op Name Sym Ty Fn → Option (Name × Ty)
  | .addType n t => some (n, t)
  | _ => none

/-- What name `n` means by itself in the open scope at depth `k`: the first declaration there that may not be
    redeclared (`firm`), and if there is none the last one. -/
def Binds {V : Type} (firm : V → Bool) (dec : Op Name Sym Ty Fn → Option (Name × V))
    (ops : List (Op Name Sym Ty Fn)) (n : Name) (k : Nat) (v : V) : Prop :=
  ∃ i, DeclAt dec ops n i k v ∧ (∀ j w, j < i → DeclAt dec ops n j k w → firm w = false) ∧
    (firm v = false → ∀ j w, DeclAt dec ops n j k w → j ≤ i)

/-- The innermost binding. -/
def Means {V : Type} (firm : V → Bool) (dec : Op Name Sym Ty Fn → Option (Name × V))
    (ops : List (Op Name Sym Ty Fn)) (n : Name) (v : V) : Prop :=
  ∃ k, Binds firm dec ops n k v ∧ ∀ k' w, Binds firm dec ops n k' w → k' ≤ k

/-! ## Histories and declarations -/

variable {V : Type}

def dstep (d : Nat) : Op Name Sym Ty Fn → Nat
  | .push => d + 1
  | .pop => d - 1
  | .popInner => min d 1
  | _ => d

omit [DecidableEq Name] [DecidableEq Fn] in
theorem depth_snoc (ops : List (Op Name Sym Ty Fn)) (op) : depth (ops ++ [op]) = dstep (depth ops) op := by
  cases op <;> simp [depth, dstep]

omit [DecidableEq Name] [DecidableEq Fn] in
theorem open_snoc (ops : List (Op Name Sym Ty Fn)) (op) (i : Nat) (hi : i < ops.length) :
    Open (ops ++ [op]) i ↔ Open ops i ∧ depth (ops.take i) ≤ depth (ops ++ [op]) := by
  have ht : ∀ j, j ≤ ops.length → (ops ++ [op]).take j = ops.take j := fun j hj => by
    rw [List.take_append_of_le_length hj]
  constructor
  · intro h
    refine ⟨fun j h1 h2 => ?_, ?_⟩
    · have := h j h1 (by simp; omega)
      rwa [ht _ h2, ht _ (by omega)] at this
    · have := h (ops.length + 1) (by omega) (by simp)
      rwa [ht i (by omega), List.take_of_length_le (l := ops ++ [op]) (by simp)] at this
  · rintro ⟨h1, h2⟩ j hj hl
    rw [ht i (by omega)]
    by_cases hjl : j ≤ ops.length
    · rw [ht _ hjl]; exact h1 j hj hjl
    · rw [List.take_of_length_le (l := ops ++ [op]) (by simp; omega)]; exact h2

omit [DecidableEq Name] [DecidableEq Fn] in
theorem declAt_snoc (dec : Op Name Sym Ty Fn → Option (Name × V)) (ops : List (Op Name Sym Ty Fn)) (op) (n i k v) :
    DeclAt dec (ops ++ [op]) n i k v ↔
      (DeclAt dec ops n i k v ∧ k ≤ depth (ops ++ [op])) ∨
      (i = ops.length ∧ dec op = some (n, v) ∧ depth ops = k ∧ k ≤ depth (ops ++ [op])) := by
  rcases Nat.lt_trichotomy i ops.length with hi | hi | hi
  · have hg : (ops ++ [op])[i]? = ops[i]? := List.getElem?_append_left hi
    have ht : (ops ++ [op]).take i = ops.take i := List.take_append_of_le_length (by omega)
    constructor
    · rintro ⟨o, h1, h2, h3, h4⟩
      rw [hg] at h1; rw [ht] at h3
      have := (open_snoc ops op i hi).1 h4
      exact .inl ⟨⟨o, h1, h2, h3, this.1⟩, h3 ▸ this.2⟩
    · rintro (⟨⟨o, h1, h2, h3, h4⟩, h5⟩ | ⟨h, _⟩)
      · exact ⟨o, by rw [hg]; exact h1, h2, by rw [ht]; exact h3, (open_snoc ops op i hi).2 ⟨h4, by rw [h3]; exact h5⟩⟩
      · omega
  · subst hi
    have ht : (ops ++ [op]).take ops.length = ops := by simp
    constructor
    · rintro ⟨o, h1, h2, h3, h4⟩
      simp only [List.getElem?_concat_length, Option.some.injEq] at h1
      subst h1
      rw [ht] at h3
      have := h4 (ops.length + 1) (by omega) (by simp)
      rw [ht, List.take_of_length_le (by simp)] at this
      exact .inr ⟨rfl, h2, h3, by rw [← h3]; exact this⟩
    · rintro (⟨⟨o, h1, _⟩, _⟩ | ⟨_, h2, h3, h4⟩)
      · simp at h1
      · refine ⟨op, by simp, h2, by rw [ht]; exact h3, fun j h1 h5 => ?_⟩
        have : j = ops.length + 1 := by simp at h5; omega
        subst this
        rw [ht, List.take_of_length_le (by simp), h3]; exact h4
  · constructor
    · rintro ⟨o, h1, _⟩
      rw [List.getElem?_eq_none (by simp; omega)] at h1; simp at h1
    · rintro (⟨⟨o, h1, _⟩, _⟩ | ⟨h, _⟩)
      · rw [List.getElem?_eq_none (by omega)] at h1; simp at h1
      · omega

omit [DecidableEq Name] [DecidableEq Fn] in
theorem declAt_lt {dec : Op Name Sym Ty Fn → Option (Name × V)} {ops : List (Op Name Sym Ty Fn)} {n i k v}
    (h : DeclAt dec ops n i k v) : i < ops.length := by
  obtain ⟨o, h, _⟩ := h
  by_contra hc
  rw [List.getElem?_eq_none (by omega)] at h; simp at h

omit [DecidableEq Name] [DecidableEq Fn] in
theorem declAt_le {dec : Op Name Sym Ty Fn → Option (Name × V)} {ops : List (Op Name Sym Ty Fn)} {n i k v}
    (h : DeclAt dec ops n i k v) : k ≤ depth ops := by
  have hi := declAt_lt h
  obtain ⟨o, h1, h2, h3, h4⟩ := h
  have := h4 ops.length hi (by omega)
  rwa [h3, List.take_of_length_le (le_refl _)] at this

omit [DecidableEq Name] [DecidableEq Fn] in
theorem binds_unique {firm : V → Bool} {dec : Op Name Sym Ty Fn → Option (Name × V)}
    {ops : List (Op Name Sym Ty Fn)} {n k v w} (h1 : Binds firm dec ops n k v) (h2 : Binds firm dec ops n k w) :
    v = w := by
  obtain ⟨i, a1, a2, a3⟩ := h1
  obtain ⟨j, b1, b2, b3⟩ := h2
  have hij : i = j := by
    rcases Nat.lt_trichotomy i j with h | h | h
    · have := a3 (b2 i v h a1) j w b1; omega
    · exact h
    · have := b3 (a2 j w h b1) i v a1; omega
  subst hij
  obtain ⟨o, c1, c2, _⟩ := a1
  obtain ⟨o', d1, d2, _⟩ := b1
  rw [c1] at d1; cases d1
  rw [c2] at d2; cases d2; rfl

/-- An addition to a stack of maps. -/
def aadd (firm : V → Bool) : Option (Name × V) → List (Map Name V) → List (Map Name V)
  | some (n, v), m :: ms => if (m n).any firm then m :: ms else m.put n v :: ms
  | _, L => L

/-- The operations on a stack of maps. -/
def astep (firm : V → Bool) (dec : Op Name Sym Ty Fn → Option (Name × V)) (L : List (Map Name V)) :
    Op Name Sym Ty Fn → List (Map Name V)
  | .push => (fun _ => none) :: L
  | .pop => L.tail
  | .popInner => L.drop (L.length - 1)
  | op => aadd firm (dec op) L

/-- The map of the scope at depth `k`. -/
def lvl (L : List (Map Name V)) (k : Nat) (n : Name) : Option V := (L[L.length - k]?).bind (· n)

/-- The stack of maps says what the history declares. -/
structure Rep (firm : V → Bool) (dec : Op Name Sym Ty Fn → Option (Name × V)) (ops : List (Op Name Sym Ty Fn))
    (L : List (Map Name V)) : Prop where
  len : L.length = depth ops
  pos : ∀ n i k v, DeclAt dec ops n i k v → 1 ≤ k
  val : ∀ k, 1 ≤ k → k ≤ depth ops → ∀ n v, lvl L k n = some v ↔ Binds firm dec ops n k v

/-- Only additions declare. -/
def Plain (dec : Op Name Sym Ty Fn → Option (Name × V)) : Prop :=
  dec .push = none ∧ dec .pop = none ∧ dec .popInner = none

omit [DecidableEq Name] [DecidableEq Fn] in
theorem binds_snoc_old {firm : V → Bool} {dec : Op Name Sym Ty Fn → Option (Name × V)}
    {ops : List (Op Name Sym Ty Fn)} {op} {n k v} (hk : k ≤ depth (ops ++ [op]))
    (hd : ∀ w, dec op = some (n, w) → depth ops ≠ k) :
    Binds firm dec (ops ++ [op]) n k v ↔ Binds firm dec ops n k v := by
  have hD : ∀ i w, DeclAt dec (ops ++ [op]) n i k w ↔ DeclAt dec ops n i k w := by
    intro i w
    rw [declAt_snoc]
    constructor
    · rintro (h | ⟨_, h2, h3, _⟩)
      · exact h.1
      · exact absurd h3 (hd w h2)
    · exact fun h => .inl ⟨h, hk⟩
  simp only [Binds, hD]

omit [DecidableEq Name] [DecidableEq Fn] in
theorem binds_snoc_new {firm : V → Bool} {dec : Op Name Sym Ty Fn → Option (Name × V)}
    {ops : List (Op Name Sym Ty Fn)} {op} {n v w} (hd : dec op = some (n, w))
    (hk : depth (ops ++ [op]) = depth ops) :
    Binds firm dec (ops ++ [op]) n (depth ops) v ↔
      ((∃ u, Binds firm dec ops n (depth ops) u ∧ firm u = true) ∧ Binds firm dec ops n (depth ops) v) ∨
      ((¬ ∃ i u, DeclAt dec ops n i (depth ops) u ∧ firm u = true) ∧ v = w) := by
  have hD : ∀ i u, DeclAt dec (ops ++ [op]) n i (depth ops) u ↔
      DeclAt dec ops n i (depth ops) u ∨ (i = ops.length ∧ u = w) := by
    intro i u
    rw [declAt_snoc, hk]
    constructor
    · rintro (h | ⟨h1, h2, _⟩)
      · exact .inl h.1
      · rw [hd] at h2; cases h2; exact .inr ⟨h1, rfl⟩
    · rintro (h | ⟨h1, rfl⟩)
      · exact .inl ⟨h, le_refl _⟩
      · exact .inr ⟨h1, hd, rfl, le_refl _⟩
  constructor
  · rintro ⟨i, h1, h2, h3⟩
    rcases (hD i v).1 h1 with h1 | ⟨rfl, rfl⟩
    · have hi := declAt_lt h1
      have hf : firm v = true := by
        by_contra hc
        have := h3 (by simpa using hc) ops.length w ((hD _ _).2 (.inr ⟨rfl, rfl⟩))
        omega
      have hb : Binds firm dec ops n (depth ops) v :=
        ⟨i, h1, fun j u hj hu => h2 j u hj ((hD _ _).2 (.inl hu)), fun hc => by rw [hf] at hc; simp at hc⟩
      exact .inl ⟨⟨v, hb, hf⟩, hb⟩
    · refine .inr ⟨?_, rfl⟩
      rintro ⟨j, u, hu, hf⟩
      have := h2 j u (declAt_lt hu) ((hD _ _).2 (.inl hu))
      rw [hf] at this; simp at this
  · rintro (⟨⟨u, hu, hf⟩, hv⟩ | ⟨hn, rfl⟩)
    · obtain rfl := binds_unique hu hv
      obtain ⟨i, a1, a2, a3⟩ := hu
      refine ⟨i, (hD _ _).2 (.inl a1), fun j x hj hx => ?_, fun hc => by rw [hf] at hc; simp at hc⟩
      rcases (hD _ _).1 hx with hx | ⟨rfl, _⟩
      · exact a2 j x hj hx
      · have := declAt_lt a1; omega
    · refine ⟨ops.length, (hD _ _).2 (.inr ⟨rfl, rfl⟩), fun j x hj hx => ?_, fun _ j x hx => ?_⟩
      · rcases (hD _ _).1 hx with hx | ⟨rfl, _⟩
        · by_contra hc
          exact hn ⟨j, x, hx, by simpa using hc⟩
        · omega
      · have := declAt_lt hx
        simp at this; omega

omit [DecidableEq Name] [DecidableEq Fn] in
/-- A scope with a firm declaration binds the name to a firm one. -/
theorem firm_binds {firm : V → Bool} {dec : Op Name Sym Ty Fn → Option (Name × V)}
    {ops : List (Op Name Sym Ty Fn)} {n k} (h : ∃ i u, DeclAt dec ops n i k u ∧ firm u = true) :
    ∃ u, Binds firm dec ops n k u ∧ firm u = true := by
  classical
  obtain ⟨u, h1, h2⟩ := Nat.find_spec h
  refine ⟨u, ⟨_, h1, fun j w hj hw => ?_, fun hc => by rw [h2] at hc; simp at hc⟩, h2⟩
  by_contra hc
  exact Nat.find_min h hj ⟨w, hw, by simpa using hc⟩

omit [DecidableEq Fn] in
theorem rep_step {firm : V → Bool} {dec : Op Name Sym Ty Fn → Option (Name × V)} (hp : Plain dec)
    {ops : List (Op Name Sym Ty Fn)} {L} (h : Rep firm dec ops L) (op)
    (hd' : ∀ n v, dec op = some (n, v) → 0 < depth ops) :
    Rep firm dec (ops ++ [op]) (astep firm dec L op) := by
  obtain ⟨hp1, hp2, hp3⟩ := hp
  have hpos : ∀ n i k v, DeclAt dec (ops ++ [op]) n i k v → 1 ≤ k := by
    intro n i k v hdl
    rcases (declAt_snoc dec ops op n i k v).1 hdl with h' | ⟨_, h0, h', _⟩
    · exact h.pos n i k v h'.1
    · have := hd' n v h0; omega
  have hds := depth_snoc ops op
  have hlen := h.len
  -- operations that only change the depth
  have hgen : ∀ L' : List (Map Name V), (∀ n, ∀ w, dec op ≠ some (n, w)) → L'.length = depth (ops ++ [op]) →
      depth (ops ++ [op]) ≤ depth ops → (∀ k, 1 ≤ k → k ≤ depth (ops ++ [op]) → ∀ n, lvl L' k n = lvl L k n) →
      Rep firm dec (ops ++ [op]) L' := by
    intro L' h1 h2 h3 h4
    refine ⟨h2, hpos, fun k hk1 hk2 n v => ?_⟩
    rw [h4 k hk1 hk2, binds_snoc_old hk2 (fun w hw => absurd hw (h1 n w))]
    exact h.val k hk1 (by omega) n v
  -- additions
  have hadd : (∀ d, dstep d op = d) → (astep firm dec L op = aadd firm (dec op) L) → Rep firm dec (ops ++ [op]) (astep firm dec L op) := by
    intro hdst hst
    rw [hdst] at hds
    rw [hst]
    rcases hop : dec op with _ | ⟨n, w⟩
    · simp only [aadd]
      exact hgen L (by simp [hop]) (by omega) (by omega) (fun _ _ _ _ => rfl)
    · clear hgen hst
      match L, h, hlen with
      | [], _, hlen => have hd := hd' n w hop; simp at hlen; omega
      | m :: ms, h, hlen =>
        have hd := hd' n w hop
        simp only [aadd]
        have htop : ∀ x, lvl (m :: ms) (depth ops) x = m x := by
          intro x; rw [lvl, hlen, Nat.sub_self]; rfl
        have hfirm : (m n).any firm = true ↔ ∃ i u, DeclAt dec ops n i (depth ops) u ∧ firm u = true := by
          constructor
          · intro hm
            rcases hmn : m n with _ | u
            · rw [hmn] at hm; simp at hm
            · rw [hmn] at hm
              have := (h.val _ hd (le_refl _) n u).1 (by rw [htop, hmn])
              obtain ⟨i, hi, _⟩ := this
              exact ⟨i, u, hi, by simpa using hm⟩
          · intro hx
            obtain ⟨u, hu, hf⟩ := firm_binds hx
            have := (h.val _ hd (le_refl _) n u).2 hu
            rw [htop] at this
            rw [this]; simpa using hf
        have hother : ∀ k x v, k ≤ depth ops → (k ≠ depth ops ∨ x ≠ n) →
            (Binds firm dec (ops ++ [op]) x k v ↔ Binds firm dec ops x k v) := by
          intro k x v hk hne
          apply binds_snoc_old (by omega)
          intro w' hw'
          rw [hop] at hw'; cases hw'
          rcases hne with hne | hne
          · exact fun e => hne e.symm
          · exact absurd rfl hne
        refine ⟨by split <;> simp_all, hpos, fun k hk1 hk2 x v => ?_⟩
        by_cases hkx : k = depth ops ∧ x = n
        · obtain ⟨rfl, rfl⟩ := hkx
          rw [binds_snoc_new hop hds]
          by_cases hm : (m x).any firm = true
          · rw [if_pos hm]
            have hx := hfirm.1 hm
            rw [h.val _ hk1 (le_refl _) x v]
            constructor
            · exact fun hb => .inl ⟨firm_binds hx, hb⟩
            · rintro (hb | hb)
              · exact hb.2
              · exact absurd hx hb.1
          · rw [if_neg hm]
            have hx : ¬ _ := fun e => hm (hfirm.2 e)
            have : lvl (m.put x w :: ms) (depth ops) x = some w := by
              have hl : (m.put x w :: ms).length = depth ops := hlen
              rw [lvl, hl, Nat.sub_self]; simp [Map.put]
            rw [this]
            constructor
            · rintro ⟨⟩; exact .inr ⟨hx, rfl⟩
            · rintro (⟨⟨u, ⟨i, hi, _⟩, hf⟩, _⟩ | hb)
              · exact absurd ⟨i, u, hi, hf⟩ hx
              · rw [hb.2]
        · rw [hother k x v (by omega) (by tauto), ← h.val k hk1 (by omega) x v]
          split
          · rfl
          · by_cases hk : k = depth ops
            · subst hk
              have hxn : x ≠ n := by tauto
              have hl : (m.put n w :: ms).length = depth ops := hlen
              rw [htop, lvl, hl, Nat.sub_self]; simp [Map.put, hxn]
            · simp only [List.length_cons] at hlen
              have : ms.length + 1 - k = (ms.length - k) + 1 := by omega
              simp only [lvl, List.length_cons, this, List.getElem?_cons_succ]
  cases op with
  | push =>
    simp only [astep]
    refine ⟨by rw [hds]; simp [dstep, hlen], hpos, fun k hk1 hk2 n v => ?_⟩
    rw [hds] at hk2; simp only [dstep] at hk2
    by_cases hk : k = depth ops + 1
    · subst hk
      have : lvl ((fun _ => none) :: L) (depth ops + 1) n = none := by simp [lvl, hlen]
      rw [this]
      simp only [reduceCtorEq, false_iff]
      rintro ⟨i, hi, _⟩
      rcases (declAt_snoc dec ops .push n i _ v).1 hi with h' | ⟨_, h', _⟩
      · have := declAt_le h'.1; omega
      · rw [hp1] at h'; simp at h'
    · rw [binds_snoc_old (by rw [hds]; simp only [dstep]; omega) (by simp [hp1]), ← h.val k hk1 (by omega)]
      have : L.length + 1 - k = (L.length - k) + 1 := by omega
      simp only [lvl, List.length_cons, this, List.getElem?_cons_succ]
  | pop =>
    simp only [astep, dstep] at *
    apply hgen _ (by simp [hp2]) (by simp; omega) (by omega)
    intro k hk1 hk2 n
    simp only [lvl, List.length_tail, List.getElem?_tail]
    congr 2; omega
  | popInner =>
    simp only [astep, dstep] at *
    apply hgen _ (by simp [hp3]) (by simp; omega) (by omega)
    intro k hk1 hk2 n
    simp only [lvl, List.length_drop, List.getElem?_drop]
    congr 2; omega
  | addVar n x => exact hadd (fun _ => rfl) rfl
  | addType n t => exact hadd (fun _ => rfl) rfl
  | addFun n f x => exact hadd (fun _ => rfl) rfl

/-! ## The table is such a stack of maps -/

/-- The maps in use and the recycled ones are different maps. -/
structure HeapOk (s : St Name Sym Ty Fn) : Prop where
  nodup : (s.vars ++ s.free).Nodup
  bound : ∀ i ∈ s.vars ++ s.free, i < s.next

/-- The maps of the variables, innermost first. -/
def varMaps (s : St Name Sym Ty Fn) : List (Map Name Sym) := s.vars.map s.heap

omit [DecidableEq Name] [DecidableEq Fn] in
theorem push_ok {s : St Name Sym Ty Fn} (h : HeapOk s) :
    HeapOk (push s) ∧ varMaps (push s) = (fun _ => none) :: varMaps s ∧ (push s).types = (fun _ => none) :: s.types := by
  obtain ⟨hn, hb⟩ := h
  unfold push
  split
  · rename_i sm rest hf
    rw [hf] at hn hb
    have hns : sm ∉ s.vars := by
      intro hm
      exact (List.nodup_append.1 hn).2.2 sm hm sm (by simp) rfl
    refine ⟨⟨?_, ?_⟩, ?_, rfl⟩
    · simpa using (List.perm_middle.nodup_iff.1 hn)
    · intro i hi; apply hb; simp at hi ⊢; tauto
    · simp only [varMaps, List.map_cons, if_true, List.cons.injEq, true_and]
      apply List.map_congr_left
      intro i hi
      rw [if_neg]; rintro rfl; exact hns hi
  · rename_i hf
    rw [hf] at hn hb
    simp only [List.append_nil] at hn hb
    have hns : s.next ∉ s.vars := fun hm => Nat.lt_irrefl _ (hb _ hm)
    refine ⟨⟨?_, ?_⟩, ?_, rfl⟩
    · simp [hf, hn, hns]
    · intro i hi
      simp only [hf, List.append_nil, List.mem_cons] at hi
      rcases hi with rfl | hi
      · exact Nat.lt_succ_self _
      · exact Nat.lt_succ_of_lt (hb i hi)
    · simp only [varMaps, List.map_cons, if_true, List.cons.injEq, true_and]
      apply List.map_congr_left
      intro i hi
      rw [if_neg]; rintro rfl; exact hns hi

omit [DecidableEq Name] [DecidableEq Fn] in
theorem pop_ok {s s' : St Name Sym Ty Fn} (h : HeapOk s) (hp : pop s = some s') :
    HeapOk s' ∧ varMaps s' = (varMaps s).tail ∧ s'.types = s.types.tail ∧ 0 < s.vars.length ∧
      s'.vars = s.vars.tail ∧ s'.functions = s.functions := by
  obtain ⟨hn, hb⟩ := h
  unfold pop at hp
  split at hp
  · rename_i v vs t ts hv ht
    cases hp
    rw [hv] at hn hb
    refine ⟨⟨?_, ?_⟩, by simp [varMaps, hv], by simp [ht], by simp [hv], by simp [hv], rfl⟩
    · exact List.perm_middle.nodup_iff.2 (by simpa using hn)
    · intro i hi; apply hb; simp at hi ⊢; tauto
  · simp at hp

omit [DecidableEq Name] [DecidableEq Fn] in
theorem popInner_ok {fuel : Nat} {s s' : St Name Sym Ty Fn} (h : HeapOk s) (hp : popInner fuel s = some s')
    (hl : s.types.length = s.vars.length) (hf : s.vars.length ≤ fuel + 1) :
    HeapOk s' ∧ varMaps s' = (varMaps s).drop (s.vars.length - 1) ∧
      s'.types = s.types.drop (s.types.length - 1) ∧ s'.functions = s.functions := by
  induction fuel generalizing s with
  | zero =>
    simp only [popInner, Option.some.injEq] at hp
    subst hp
    have : s.vars.length - 1 = 0 := by omega
    simp [h, hl, this]
  | succ fuel ih =>
    unfold popInner at hp
    split at hp
    · rename_i hlt
      rcases hq : pop s with _ | t
      · rw [hq] at hp; simp at hp
      · rw [hq] at hp
        obtain ⟨h1, h2, h3, h4, h5, h6⟩ := pop_ok h hq
        have := ih h1 hp (by rw [h3, h5]; simp; omega) (by rw [h5]; simp; omega)
        obtain ⟨a1, a2, a3, a4⟩ := this
        refine ⟨a1, ?_, ?_, by rw [a4, h6]⟩
        · rw [a2, h2, h5, List.drop_tail]; congr 1; simp; omega
        · rw [a3, h3, List.drop_tail]; congr 1; simp; omega
    · simp only [Option.some.injEq] at hp
      subst hp
      have : s.vars.length - 1 = 0 := by omega
      simp [h, hl, this]

omit [DecidableEq Name] in
theorem find_eq (h : Nat → Map Name Sym) (n : Name) (vs : List Nat) (k : Nat) :
    (find h n vs k).map (·.2) = (vs.map h).findSome? (· n) := by
  induction vs generalizing k with
  | nil => rfl
  | cons v vs ih =>
    simp only [find, List.map_cons, List.findSome?_cons]
    rcases h v n with _ | x
    · simpa using ih (k + 1)
    · rfl

omit [DecidableEq Name] in
theorem find_ge (h : Nat → Map Name Sym) (n : Name) (vs : List Nat) (k : Nat) {j x}
    (hf : find h n vs k = some (j, x)) : k ≤ j := by
  induction vs generalizing k with
  | nil => simp [find] at hf
  | cons v vs ih =>
    simp only [find] at hf
    split at hf
    · cases hf; exact Nat.le_refl _
    · have := ih _ hf; omega

omit [DecidableEq Name] [DecidableEq Fn] in
theorem lookupVariable_eq (s : St Name Sym Ty Fn) (n : Name) :
    lookupVariable s n = (varMaps s).findSome? (· n) := find_eq s.heap n s.vars 0

omit [DecidableEq Name] in
/-- The search stops at once just when the innermost map has the name. -/
theorem find_zero (h : Nat → Map Name Sym) (n : Name) (v : Nat) (vs : List Nat) :
    (∃ x, find h n (v :: vs) 0 = some (0, x)) ↔ (h v n).isSome := by
  simp only [find]
  rcases hv : h v n with _ | x
  · simp only [Option.isSome_none, Bool.false_eq_true, iff_false]
    rintro ⟨x, hx⟩
    have := find_ge _ _ _ _ hx
    omega
  · simp

omit [DecidableEq Fn] in
theorem putVar_ok {s s' : St Name Sym Ty Fn} {n x} (h : HeapOk s) (hp : putVar s n x = some s') :
    HeapOk s' ∧ ∃ v vs, s.vars = v :: vs ∧ varMaps s' = (s.heap v).put n x :: vs.map s.heap ∧
      s'.types = s.types ∧ s'.functions = s.functions := by
  unfold putVar at hp
  split at hp
  · rename_i v vs hv
    cases hp
    refine ⟨⟨h.1, h.2⟩, v, vs, hv, ?_, rfl, rfl⟩
    simp only [varMaps, hv, List.map_cons, if_true, List.cons.injEq, true_and]
    apply List.map_congr_left
    intro i hi
    rw [if_neg]
    rintro rfl
    have := h.1
    rw [hv] at this
    simp at this; tauto
  · simp at hp

omit [DecidableEq Fn] in
theorem addVar_ok {s s' : St Name Sym Ty Fn} {n x b} (h : HeapOk s) (hp : addVar s n x = some (b, s')) :
    HeapOk s' ∧ varMaps s' = aadd (fun _ => true) (some (n, x)) (varMaps s) ∧ s'.types = s.types ∧
      s'.functions = s.functions ∧ (b = false → s' = s) ∧
      ∃ v vs, s.vars = v :: vs ∧ (b = false ↔ (s.heap v n).isSome = true) := by
  unfold addVar at hp
  rcases hv : s.vars with _ | ⟨v, vs⟩
  · rw [hv] at hp
    simp [find, putVar, hv] at hp
  · have hz := find_zero s.heap n v vs
    rw [hv] at hp
    have hput : ∀ s'', putVar s n x = some s'' → (¬ ∃ x, find s.heap n (v :: vs) 0 = some (0, x)) →
        HeapOk s'' ∧ varMaps s'' = aadd (fun _ => true) (some (n, x)) (varMaps s) ∧ s''.types = s.types ∧
        s''.functions = s.functions ∧ (s.heap v n).isSome = false := by
      intro s'' hq hne
      rw [hz] at hne
      obtain ⟨h1, v', vs', h2, h3, h4, h5⟩ := putVar_ok h hq
      rw [hv] at h2; cases h2
      refine ⟨h1, ?_, h4, h5, by simpa using hne⟩
      rw [h3]
      have : (s.heap v n).any (fun _ => true) = false := by
        rcases hh : s.heap v n with _ | y
        · rfl
        · rw [hh] at hne; simp at hne
      simp [varMaps, hv, aadd, this]
    split at hp
    · rename_i y hf
      cases hp
      have hs := hz.1 ⟨y, hf⟩
      have : (s.heap v n).any (fun _ => true) = true := by
        rcases hh : s.heap v n with _ | y
        · rw [hh] at hs; simp at hs
        · rfl
      exact ⟨h, by simp [varMaps, hv, aadd, this], rfl, rfl, fun _ => rfl, v, vs, rfl, by simp [hs]⟩
    · rename_i j y hf
      rcases hq : putVar s n x with _ | s''
      · rw [hq] at hp; simp at hp
      · rw [hq] at hp; cases hp
        obtain ⟨h1, h2, h3, h4, h5⟩ := hput _ hq (by rw [hf]; simp)
        exact ⟨h1, h2, h3, h4, by simp, v, vs, rfl, by simp [h5]⟩
    · rename_i hf
      rcases hq : putVar s n x with _ | s''
      · rw [hq] at hp; simp at hp
      · rw [hq] at hp; cases hp
        obtain ⟨h1, h2, h3, h4, h5⟩ := hput _ hq (by rw [hf]; simp)
        exact ⟨h1, h2, h3, h4, by simp, v, vs, rfl, by simp [h5]⟩

omit [DecidableEq Fn] in
theorem addType_ok {undef : Ty → Bool} {s s' : St Name Sym Ty Fn} {n t b} (hp : addType undef s n t = some (b, s')) :
    s'.types = aadd (fun t => !undef t) (some (n, t)) s.types ∧ s'.vars = s.vars ∧ s'.heap = s.heap ∧
      s'.free = s.free ∧ s'.next = s.next ∧ s'.functions = s.functions ∧ (b = false → s' = s) ∧
      ∃ m ms, s.types = m :: ms ∧ (b = false ↔ (m n).any (fun t => !undef t) = true) := by
  unfold addType at hp
  split at hp
  · simp at hp
  · rename_i m ms hm
    have hc : (match m n with | some t0 => !undef t0 | none => false) = (m n).any (fun t => !undef t) := by
      rcases m n with _ | y <;> rfl
    rw [hc] at hp
    split at hp
    · rename_i hx
      cases hp
      refine ⟨by simp [hm, aadd, hx], rfl, rfl, rfl, rfl, rfl, fun _ => rfl, m, ms, hm, by simp [hx]⟩
    · rename_i hx
      cases hp
      refine ⟨by simp [hm, aadd, hx], rfl, rfl, rfl, rfl, rfl, by simp, m, ms, hm, by simp [hx]⟩

/-- Everything that is true of the table after a history. -/
structure TableOk (undef : Ty → Bool) (ops : List (Op Name Sym Ty Fn)) (s : St Name Sym Ty Fn) : Prop where
  heap : HeapOk s
  vars : Rep (fun _ => true) Op.var ops (varMaps s)
  types : Rep (fun t => !undef t) Op.type ops s.types

theorem step_ok {undef : Ty → Bool} {ops : List (Op Name Sym Ty Fn)} {s s' : St Name Sym Ty Fn} {op}
    (h : TableOk undef ops s) (hs : step undef s op = some s') : TableOk undef (ops ++ [op]) s' := by
  have hlv : s.vars.length = depth ops := by have := h.vars.len; simpa [varMaps] using this
  have hlt : s.types.length = depth ops := h.types.len
  have key : ∀ (_ : HeapOk s') (_ : varMaps s' = astep (fun _ => true) Op.var (varMaps s) op)
      (_ : s'.types = astep (fun t => !undef t) Op.type s.types op)
      (_ : ∀ n v, (Op.var op = some (n, v)) → 0 < depth ops)
      (_ : ∀ n v, (Op.type op = some (n, v)) → 0 < depth ops), TableOk undef (ops ++ [op]) s' := by
    intro h1 h2 h3 h4 h5
    refine ⟨h1, ?_, ?_⟩
    · rw [h2]; exact rep_step ⟨rfl, rfl, rfl⟩ h.vars op h4
    · rw [h3]; exact rep_step ⟨rfl, rfl, rfl⟩ h.types op h5
  cases op with
  | push =>
    simp only [step, Option.some.injEq] at hs; subst hs
    obtain ⟨h1, h2, h3⟩ := push_ok h.heap
    exact key h1 h2 h3 (by simp [Op.var]) (by simp [Op.type])
  | pop =>
    obtain ⟨h1, h2, h3, _⟩ := pop_ok h.heap hs
    exact key h1 h2 h3 (by simp [Op.var]) (by simp [Op.type])
  | popInner =>
    obtain ⟨h1, h2, h3, _⟩ := popInner_ok h.heap hs (by omega) (by omega)
    exact key h1 (by rw [h2]; simp [astep, varMaps]) h3 (by simp [Op.var]) (by simp [Op.type])
  | addVar n x =>
    simp only [step, Option.map_eq_some_iff, Prod.exists] at hs
    obtain ⟨b, s'', hs, rfl⟩ := hs
    obtain ⟨h1, h2, h3, _, _, v, vs, h6, _⟩ := addVar_ok h.heap hs
    have : 0 < depth ops := by rw [← hlv, h6]; simp
    exact key h1 h2 (by rw [h3]; simp [astep, Op.type, aadd]) (fun _ _ _ => this) (by simp [Op.type])
  | addType n t =>
    simp only [step, Option.map_eq_some_iff, Prod.exists] at hs
    obtain ⟨b, s'', hs, rfl⟩ := hs
    obtain ⟨h1, h2, h3, h4, h5, _, _, m, ms, h6, _⟩ := addType_ok hs
    have : 0 < depth ops := by rw [← hlt, h6]; simp
    refine key ⟨by rw [h2, h4]; exact h.heap.1, by rw [h2, h4, h5]; exact h.heap.2⟩ ?_ h1 (by simp [Op.var])
      (fun _ _ _ => this)
    simp [varMaps, h2, h3, astep, Op.var, aadd]
  | addFun n f x =>
    simp only [step, Option.some.injEq] at hs; subst hs
    have hv : (addFun s n f x).2.vars = s.vars := by unfold addFun; split <;> rfl
    have hh : (addFun s n f x).2.heap = s.heap := by unfold addFun; split <;> rfl
    have hf : (addFun s n f x).2.free = s.free := by unfold addFun; split <;> rfl
    have hn : (addFun s n f x).2.next = s.next := by unfold addFun; split <;> rfl
    have ht : (addFun s n f x).2.types = s.types := by unfold addFun; split <;> rfl
    refine key ⟨by rw [hv, hf]; exact h.heap.1, by rw [hv, hf, hn]; exact h.heap.2⟩ ?_ ?_ (by simp [Op.var])
      (by simp [Op.type])
    · simp [varMaps, hv, hh, astep, Op.var, aadd]
    · simp [ht, astep, Op.type, aadd]

omit [DecidableEq Name] [DecidableEq Fn] in
theorem init_ok (undef : Ty → Bool) : TableOk undef [] (init : St Name Sym Ty Fn) := by
  have h0 : HeapOk (⟨fun _ _ => none, [], [], 0, [], fun _ => []⟩ : St Name Sym Ty Fn) := ⟨by simp, by simp⟩
  obtain ⟨h1, h2, h3⟩ := push_ok h0
  have hrep : ∀ {V : Type} (firm : V → Bool) (dec : Op Name Sym Ty Fn → Option (Name × V)),
      Rep firm dec [] [fun _ => none] := by
    intro V firm dec
    refine ⟨rfl, ?_, ?_⟩
    · rintro n i k v ⟨o, h, _⟩; simp at h
    · intro k hk1 hk2 n v
      have hk : k = 1 := by simp [depth] at hk2; omega
      subst hk
      simp only [lvl, List.length_cons, List.length_nil, Nat.zero_add, Nat.sub_self, List.getElem?_cons_zero,
        Option.bind_some, reduceCtorEq, false_iff]
      rintro ⟨i, ⟨o, h, _⟩, _⟩; simp at h
  exact ⟨h1, by rw [init, h2]; exact hrep _ _, by rw [init, h3]; exact hrep _ _⟩

theorem run_snoc (undef : Ty → Bool) (ops : List (Op Name Sym Ty Fn)) (op) :
    run undef (ops ++ [op]) = (run undef ops).bind (step undef · op) := by
  simp [run]

theorem run_ok {undef : Ty → Bool} {ops : List (Op Name Sym Ty Fn)} {s} (h : run undef ops = some s) :
    TableOk undef ops s := by
  induction ops using List.reverseRecOn generalizing s with
  | nil => simp only [run, List.foldl_nil, Option.some.injEq] at h; subst h; exact init_ok undef
  | append_singleton ops op ih =>
    rw [run_snoc] at h
    rcases hr : run undef ops with _ | s0
    · rw [hr] at h; simp at h
    · rw [hr] at h
      exact step_ok (ih hr) h

omit [DecidableEq Name] [DecidableEq Fn] in
theorem lookup_rep {firm : V → Bool} {dec : Op Name Sym Ty Fn → Option (Name × V)} {ops : List (Op Name Sym Ty Fn)}
    {L} (h : Rep firm dec ops L) (n : Name) (v : V) :
    L.findSome? (· n) = some v ↔ Means firm dec ops n v := by
  have hlen := h.len
  have hb : ∀ k w, Binds firm dec ops n k w → 1 ≤ k ∧ k ≤ depth ops := by
    rintro k w ⟨i, hi, _⟩
    exact ⟨h.pos _ _ _ _ hi, declAt_le hi⟩
  constructor
  · intro hf
    obtain ⟨l1, m, l2, hL, hm, hl1⟩ := List.findSome?_eq_some_iff.1 hf
    have hl : l1.length + 1 + l2.length = depth ops := by rw [← hlen, hL]; simp; omega
    refine ⟨l2.length + 1, ?_, ?_⟩
    · rw [← h.val _ (by omega) (by omega), lvl, hlen, hL]
      have : depth ops - (l2.length + 1) = l1.length := by omega
      rw [this]; simp [hm]
    · intro k w hk
      obtain ⟨h1, h2⟩ := hb k w hk
      by_contra hc
      have hkv := (h.val k h1 h2 n w).2 hk
      rw [lvl, hlen, hL, List.getElem?_append_left (by omega)] at hkv
      rcases hg : l1[depth ops - k]? with _ | m'
      · rw [hg] at hkv; simp at hkv
      · rw [hg] at hkv
        have := hl1 m' (List.mem_of_getElem? hg)
        simp at hkv
        rw [this] at hkv; simp at hkv
  · rintro ⟨k, hk, hmax⟩
    obtain ⟨h1, h2⟩ := hb k v hk
    have hkv := (h.val k h1 h2 n v).2 hk
    rw [lvl, hlen] at hkv
    rcases hg : L[depth ops - k]? with _ | m
    · rw [hg] at hkv; simp at hkv
    · rw [hg] at hkv
      simp at hkv
      obtain ⟨hlt, hge⟩ := List.getElem?_eq_some_iff.1 hg
      rw [List.findSome?_eq_some_iff]
      refine ⟨L.take (depth ops - k), m, L.drop (depth ops - k + 1), ?_, hkv, ?_⟩
      · rw [← hge, ← List.drop_eq_getElem_cons hlt, List.take_append_drop]
      · intro m' hm'
        obtain ⟨j, hj⟩ := List.mem_iff_getElem?.1 hm'
        obtain ⟨hj1, _⟩ := List.getElem?_eq_some_iff.1 hj
        rw [List.getElem?_take] at hj
        simp at hj1
        rw [if_pos (by omega)] at hj
        rcases hm'n : m' n with _ | w
        · rfl
        · exfalso
          have hb' : Binds firm dec ops n (depth ops - j) w := by
            rw [← h.val _ (by omega) (by omega), lvl, hlen]
            have : depth ops - (depth ops - j) = j := by omega
            rw [this, hj]; simpa using hm'n
          have := hmax _ _ hb'
          omega

/-! ## The theorems -/

/-- The variable that name `n` denotes after a history: of the declarations of `n` in scopes that are still open,
    those in the deepest scope, and of these the first. -/
def VisibleVar (ops : List (Op Name Sym Ty Fn)) (n : Name) (v : Sym) : Prop :=
  ∃ i k, DeclAt Op.var ops n i k v ∧ (∀ j k' w, DeclAt Op.var ops n j k' w → k' ≤ k) ∧
    ∀ j w, DeclAt Op.var ops n j k w → i ≤ j

/-- Name `n` is already declared in the current scope. -/
def DeclaredHere (ops : List (Op Name Sym Ty Fn)) (n : Name) : Prop :=
  ∃ i v, DeclAt Op.var ops n i (depth ops) v

omit [DecidableEq Name] [DecidableEq Fn] in
theorem means_var (ops : List (Op Name Sym Ty Fn)) (n : Name) (v : Sym) :
    Means (fun _ => true) Op.var ops n v ↔ VisibleVar ops n v := by
  have hfb : ∀ {k}, (∃ i w, DeclAt Op.var ops n i k w) → ∃ w, Binds (fun _ => true) Op.var ops n k w := by
    rintro k ⟨i, w, h⟩
    obtain ⟨u, hu, _⟩ := firm_binds (firm := fun _ => true) ⟨i, w, h, rfl⟩
    exact ⟨u, hu⟩
  constructor
  · rintro ⟨k, ⟨i, h1, h2, _⟩, h3⟩
    refine ⟨i, k, h1, fun j k' w hw => ?_, fun j w hw => ?_⟩
    · obtain ⟨u, hu⟩ := hfb ⟨j, w, hw⟩
      exact h3 k' u hu
    · by_contra hc
      have := h2 j w (by omega) hw
      simp at this
  · rintro ⟨i, k, h1, h2, h3⟩
    refine ⟨k, ⟨i, h1, fun j w hj hw => ?_, by simp⟩, ?_⟩
    · have := h3 j w hw; omega
    · rintro k' w ⟨j, hj, _⟩
      exact h2 j k' w hj

/-- **C28.** After every history of the table, a variable lookup finds the innermost declaration that is still in
    scope. -/
theorem lookupVariable_spec {undef : Ty → Bool} {ops : List (Op Name Sym Ty Fn)} {s} (h : run undef ops = some s)
    (n : Name) (v : Sym) : lookupVariable s n = some v ↔ VisibleVar ops n v := by
  rw [lookupVariable_eq, lookup_rep (run_ok h).vars, means_var]

/-- **C28.** A name with no declaration in an open scope is not found. -/
theorem lookupVariable_none {undef : Ty → Bool} {ops : List (Op Name Sym Ty Fn)} {s} (h : run undef ops = some s)
    (n : Name) : lookupVariable s n = none ↔ ¬ ∃ i k v, DeclAt Op.var ops n i k v := by
  constructor
  · rintro hn ⟨i, k, v, hd⟩
    have hT := (run_ok h).vars
    obtain ⟨u, hu, _⟩ := firm_binds (firm := fun _ => true) ⟨i, v, hd, rfl⟩
    have hlv := (hT.val k (hT.pos _ _ _ _ hd) (declAt_le hd) n u).2 hu
    rw [lookupVariable_eq, List.findSome?_eq_none_iff] at hn
    rw [lvl] at hlv
    rcases hg : (varMaps s)[(varMaps s).length - k]? with _ | m
    · rw [hg] at hlv; simp at hlv
    · rw [hg] at hlv
      have := hn m (List.mem_of_getElem? hg)
      simp at hlv; rw [this] at hlv; simp at hlv
  · intro hn
    rcases hl : lookupVariable s n with _ | v
    · rfl
    · obtain ⟨i, k, hd, _⟩ := (lookupVariable_spec h n v).1 hl
      exact absurd ⟨i, k, v, hd⟩ hn

/-- **C28.** Adding a variable fails just when the current scope already declares the name, and then leaves the
    table as it was; otherwise the name denotes the new variable and no other name changes its meaning. -/
theorem addVar_spec {undef : Ty → Bool} {ops : List (Op Name Sym Ty Fn)} {s} (h : run undef ops = some s)
    {n : Name} {x : Sym} {b s'} (ha : addVar s n x = some (b, s')) :
    (b = false ↔ DeclaredHere ops n) ∧ (b = false → s' = s) ∧
      (b = true → lookupVariable s' n = some x ∧ ∀ m, m ≠ n → lookupVariable s' m = lookupVariable s m) := by
  have hT := run_ok h
  obtain ⟨h1, h2, h3, h4, h5, v, vs, h6, h7⟩ := addVar_ok hT.heap ha
  have hlen : s.vars.length = depth ops := by have := hT.vars.len; simpa [varMaps] using this
  have hpos : 0 < depth ops := by rw [← hlen, h6]; simp
  have hm : varMaps s = s.heap v :: vs.map s.heap := by simp [varMaps, h6]
  have hl : ∀ m, lvl (varMaps s) (depth ops) m = s.heap v m := by
    intro m; rw [lvl, hT.vars.len, Nat.sub_self, hm]; rfl
  have hiff : b = false ↔ DeclaredHere ops n := by
    rw [h7]
    constructor
    · intro hs
      obtain ⟨y, hy⟩ := Option.isSome_iff_exists.1 hs
      obtain ⟨i, hi, _⟩ := (hT.vars.val _ hpos (Nat.le_refl _) n y).1 (by rw [hl, hy])
      exact ⟨i, y, hi⟩
    · rintro ⟨i, y, hi⟩
      obtain ⟨u, hu, _⟩ := firm_binds (firm := fun _ => true) ⟨i, y, hi, rfl⟩
      have := (hT.vars.val _ hpos (Nat.le_refl _) n u).2 hu
      rw [hl] at this; rw [this]; rfl
  refine ⟨hiff, h5, ?_⟩
  rintro rfl
  have hnone : s.heap v n = none := by
    rcases hh : s.heap v n with _ | y
    · rfl
    · rw [hh] at h7; simp at h7
  rw [hm] at h2
  have h2' : varMaps s' = (s.heap v).put n x :: vs.map s.heap := by rw [h2]; simp [aadd, hnone]
  refine ⟨by rw [lookupVariable_eq, h2']; simp [Map.put], fun m hne => ?_⟩
  rw [lookupVariable_eq, lookupVariable_eq, h2', hm]
  simp [List.findSome?_cons, Map.put, hne]

/-- **C28.** A type lookup finds the innermost scope with a declaration of the name; in it, the first declaration
    that is not just a `struct S;`, and if there is none the last. -/
theorem lookupType_spec {undef : Ty → Bool} {ops : List (Op Name Sym Ty Fn)} {s} (h : run undef ops = some s)
    (n : Name) (t : Ty) : lookupType s n = some t ↔ Means (fun t => !undef t) Op.type ops n t :=
  lookup_rep (run_ok h).types n t

/-- **C28.** Adding a type fails just when the current scope already defines the name, and then changes nothing. -/
theorem addType_spec {undef : Ty → Bool} {ops : List (Op Name Sym Ty Fn)} {s} (h : run undef ops = some s)
    {n : Name} {t : Ty} {b s'} (ha : addType undef s n t = some (b, s')) :
    (b = false ↔ ∃ i t0, DeclAt Op.type ops n i (depth ops) t0 ∧ undef t0 = false) ∧ (b = false → s' = s) ∧
      (b = true → lookupType s' n = some t ∧ ∀ m, m ≠ n → lookupType s' m = lookupType s m) := by
  have hT := run_ok h
  obtain ⟨h1, _, _, _, _, _, h5, m, ms, h6, h7⟩ := addType_ok ha
  have hlen : s.types.length = depth ops := hT.types.len
  have hpos : 0 < depth ops := by rw [← hlen, h6]; simp
  have hl : ∀ x, lvl s.types (depth ops) x = m x := by
    intro x; rw [lvl, hlen, Nat.sub_self, h6]; rfl
  have hiff : b = false ↔ ∃ i t0, DeclAt Op.type ops n i (depth ops) t0 ∧ undef t0 = false := by
    rw [h7]
    constructor
    · intro hs
      rcases hy : m n with _ | y
      · rw [hy] at hs; simp at hs
      · rw [hy] at hs
        obtain ⟨i, hi, _⟩ := (hT.types.val _ hpos (Nat.le_refl _) n y).1 (by rw [hl, hy])
        exact ⟨i, y, hi, by simpa using hs⟩
    · rintro ⟨i, y, hi, hu⟩
      obtain ⟨u, hb, hf⟩ := firm_binds (firm := fun t => !undef t) ⟨i, y, hi, by simp [hu]⟩
      have := (hT.types.val _ hpos (Nat.le_refl _) n u).2 hb
      rw [hl] at this; rw [this]; simpa using hf
  refine ⟨hiff, h5, ?_⟩
  rintro rfl
  have hnf : (m n).any (fun t => !undef t) = false := by
    rcases hh : (m n).any (fun t => !undef t) with _ | _
    · rfl
    · rw [hh] at h7; simp at h7
  have h2' : s'.types = m.put n t :: ms := by rw [h1, h6]; simp [aadd, hnf]
  refine ⟨by rw [lookupType, h2']; simp [Map.put], fun x hne => ?_⟩
  rw [lookupType, lookupType, h2', h6]
  simp [List.findSome?_cons, Map.put, hne]

/-! ### Functions -/

/-- The functions a history adds under name `n`. -/
def funsOf (ops : List (Op Name Sym Ty Fn)) (n : Name) : List (Fn × Sym) :=
  ops.filterMap fun
    | .addFun m f x => if m = n then some (f, x) else none
    | _ => none

/-- What an operation adds to the functions of a name. -/
def newFun (s : St Name Sym Ty Fn) (n : Name) : Op Name Sym Ty Fn → List (Fn × Sym)
  | .addFun m f x => if m = n ∧ (lookupFunction s n f) = none then [(f, x)] else []
  | _ => []

theorem functions_step {undef : Ty → Bool} {s s' : St Name Sym Ty Fn} {op} (hO : HeapOk s)
    (hl : s.types.length = s.vars.length) (hs : step undef s op = some s') (n : Name) :
    s'.functions n = s.functions n ++ newFun s n op := by
  cases op with
  | push =>
    simp only [step, Option.some.injEq] at hs; subst hs
    have : (push s).functions = s.functions := by unfold push; split <;> rfl
    rw [this]; simp [newFun]
  | pop => simp only [step] at hs; rw [(pop_ok hO hs).2.2.2.2.2]; simp [newFun]
  | popInner => simp only [step] at hs; rw [(popInner_ok hO hs hl (by omega)).2.2.2]; simp [newFun]
  | addVar m x =>
    simp only [step, Option.map_eq_some_iff, Prod.exists] at hs
    obtain ⟨b, s'', hs, rfl⟩ := hs
    rw [(addVar_ok hO hs).2.2.2.1]; simp [newFun]
  | addType m t =>
    simp only [step, Option.map_eq_some_iff, Prod.exists] at hs
    obtain ⟨b, s'', hs, rfl⟩ := hs
    rw [(addType_ok hs).2.2.2.2.2.1]; simp [newFun]
  | addFun m f x =>
    simp only [step, Option.some.injEq] at hs; subst hs
    unfold addFun
    by_cases hm : m = n
    · subst hm
      rcases hf : lookupFunction s m f with _ | y <;> simp [newFun, hf]
    · rcases hf : lookupFunction s m f with _ | y
      · simp [newFun, hm, Ne.symm hm]
      · simp [newFun, hm]

omit [DecidableEq Fn] in
theorem map_or_congr {a b c : Option (Fn × Sym)} (h : a.map (·.2) = b.map (·.2)) :
    (a.or c).map (·.2) = (b.or c).map (·.2) := by
  rcases a with _ | a <;> rcases b with _ | b <;> simp_all

theorem functions_inv {undef : Ty → Bool} {ops : List (Op Name Sym Ty Fn)} {s} (h : run undef ops = some s) (n : Name) :
    ((s.functions n).map (·.1)).Nodup ∧ (s.functions n).Sublist (funsOf ops n) ∧
    ∀ f, lookupFunction s n f = ((funsOf ops n).find? (·.1 = f)).map (·.2) := by
  induction ops using List.reverseRecOn generalizing s with
  | nil => simp only [run, List.foldl_nil, Option.some.injEq] at h; subst h; simp [init, push, funsOf, lookupFunction]
  | append_singleton ops op ih =>
    rw [run_snoc] at h
    rcases hr : run undef ops with _ | s0
    · rw [hr] at h; simp at h
    · rw [hr] at h
      simp only [Option.bind_some] at h
      obtain ⟨a1, a2, a3⟩ := ih hr
      have hT := run_ok hr
      have hlv : s0.vars.length = depth ops := by have := hT.vars.len; simpa [varMaps] using this
      have hlt : s0.types.length = depth ops := hT.types.len
      have hst := functions_step hT.heap (by omega) h n
      by_cases hop : ∃ f x, op = .addFun n f x
      · obtain ⟨f, x, rfl⟩ := hop
        have hfs : funsOf (ops ++ [.addFun n f x]) n = funsOf ops n ++ [(f, x)] := by simp [funsOf]
        simp only [newFun, true_and] at hst
        rw [hfs]
        rcases hlf : lookupFunction s0 n f with _ | y
        · rw [hlf, if_pos rfl] at hst
          have hnot : ∀ p ∈ s0.functions n, p.1 ≠ f := by
            intro p hp hpf
            rw [lookupFunction, Option.map_eq_none_iff, List.find?_eq_none] at hlf
            exact hlf p hp (by simpa using hpf)
          refine ⟨?_, ?_, ?_⟩
          · rw [hst, List.map_append, List.nodup_append]
            refine ⟨a1, by simp, ?_⟩
            intro p hp q hq
            obtain ⟨z, hz, rfl⟩ := List.mem_map.1 hp
            simp at hq; subst hq
            exact hnot z hz
          · rw [hst]; exact a2.append (List.Sublist.refl _)
          · intro g
            have := a3 g
            rw [lookupFunction] at this ⊢
            rw [hst, List.find?_append, List.find?_append]
            exact map_or_congr this
        · rw [hlf, if_neg (by simp), List.append_nil] at hst
          refine ⟨by rw [hst]; exact a1, by rw [hst]; exact a2.trans (List.sublist_append_left _ _), ?_⟩
          intro g
          have := a3 g
          have hfd := a3 f
          rw [hlf] at hfd
          rw [lookupFunction] at this ⊢
          rw [hst, List.find?_append]
          rw [this]
          by_cases hgf : f = g
          · subst hgf
            rcases h2 : (funsOf ops n).find? (·.1 = f) with _ | q
            · rw [h2] at hfd; simp at hfd
            · simp only [h2]; rfl
          · have : [(f, x)].find? (·.1 = g) = none := by simp [hgf]
            rw [this, Option.or_none]
      · have hfs : funsOf (ops ++ [op]) n = funsOf ops n := by
          rw [funsOf, List.filterMap_append]
          have : ([op].filterMap fun | .addFun m f x => if m = n then some (f, x) else none | _ => none) = [] := by
            cases op <;> simp
            rename_i m f x
            intro hm; subst hm; exact hop ⟨f, x, rfl⟩
          rw [this]; simp [funsOf]
        have hst' : s.functions n = s0.functions n := by
          rw [hst]
          cases op <;> simp [newFun]
          rename_i m f x
          intro hm; subst hm; exact absurd ⟨f, x, rfl⟩ hop
        rw [hfs]
        refine ⟨by rw [hst']; exact a1, by rw [hst']; exact a2, fun f => ?_⟩
        rw [lookupFunction, hst', ← a3 f, lookupFunction]

/-- **C28.** Functions are not scoped: whatever scopes were opened and closed, a lookup by name and type gives the
    first function added with them, and a lookup by name gives every function added under it once per type, in the
    order of addition. -/
theorem lookupFunction_spec {undef : Ty → Bool} {ops : List (Op Name Sym Ty Fn)} {s} (h : run undef ops = some s)
    (n : Name) :
    (∀ f, lookupFunction s n f = ((funsOf ops n).find? (·.1 = f)).map (·.2)) ∧
    (lookupFunctions s n).Sublist (funsOf ops n) ∧
    ((lookupFunctions s n).map (·.1)).Nodup ∧
    (∀ f x, (f, x) ∈ lookupFunctions s n ↔ lookupFunction s n f = some x) := by
  obtain ⟨a1, a2, a3⟩ := functions_inv h n
  refine ⟨a3, a2, a1, fun f x => ?_⟩
  rw [lookupFunctions, lookupFunction, Option.map_eq_some_iff]
  constructor
  · intro hm
    rcases hf : (s.functions n).find? (·.1 = f) with _ | p
    · rw [List.find?_eq_none] at hf
      have := hf _ hm
      simp at this
    · refine ⟨p, hf, ?_⟩
      have hp := List.mem_of_find?_eq_some hf
      have hpf := List.find?_some hf
      simp only [decide_eq_true_eq] at hpf
      have := List.inj_on_of_nodup_map a1 hp hm hpf
      rw [this]
  · rintro ⟨p, hp, rfl⟩
    have hpm := List.mem_of_find?_eq_some hp
    have hpf := List.find?_some hp
    simp only [decide_eq_true_eq] at hpf
    subst hpf; exact hpm

/-! ### Blocks -/

/-- What is done between the opening and the closing of a scope: additions and complete inner blocks. -/
inductive Block : List (Op Name Sym Ty Fn) → Prop where
  | nil : Block []
  | var (n x rest) : Block rest → Block (.addVar n x :: rest)
  | type (n t rest) : Block rest → Block (.addType n t :: rest)
  | fn (n f x rest) : Block rest → Block (.addFun n f x :: rest)
  | block (b rest) : Block b → Block rest → Block (.push :: b ++ .pop :: rest)

def runFrom (undef : Ty → Bool) (s : Option (St Name Sym Ty Fn)) (ops : List (Op Name Sym Ty Fn)) :=
  ops.foldl (fun s op => s.bind (step undef · op)) s

theorem runFrom_none (undef : Ty → Bool) (ops : List (Op Name Sym Ty Fn)) : runFrom undef none ops = none := by
  induction ops with
  | nil => rfl
  | cons op ops ih => simpa [runFrom] using ih

/-- A block changes at most the innermost maps. -/
theorem block_run {undef : Ty → Bool} {b : List (Op Name Sym Ty Fn)} (hb : Block b) :
    ∀ {s s' : St Name Sym Ty Fn}, HeapOk s → runFrom undef (some s) b = some s' →
      HeapOk s' ∧ (varMaps s').tail = (varMaps s).tail ∧ s'.types.tail = s.types.tail := by
  have hcons : ∀ {op rest} {s s' : St Name Sym Ty Fn}, runFrom undef (some s) (op :: rest) = some s' →
      ∃ t, step undef s op = some t ∧ runFrom undef (some t) rest = some s' := by
    intro op rest s s' h
    simp only [runFrom, List.foldl_cons, Option.bind_some] at h
    rcases ht : step undef s op with _ | t
    · rw [ht] at h; have := runFrom_none undef rest; rw [runFrom] at this; rw [this] at h; simp at h
    · exact ⟨t, rfl, by rw [ht] at h; exact h⟩
  induction hb with
  | nil => intro s s' hO h; simp only [runFrom, List.foldl_nil, Option.some.injEq] at h; subst h; exact ⟨hO, rfl, rfl⟩
  | var n x rest _ ih =>
    intro s s' hO h
    obtain ⟨t, ht, hr⟩ := hcons h
    simp only [step, Option.map_eq_some_iff, Prod.exists] at ht
    obtain ⟨b, s'', ht, rfl⟩ := ht
    obtain ⟨h1, h2, h3, _, _, v, vs, h6, _⟩ := addVar_ok hO ht
    obtain ⟨a1, a2, a3⟩ := ih h1 hr
    refine ⟨a1, ?_, by rw [a3, h3]⟩
    rw [a2, h2]
    have : varMaps s = s.heap v :: vs.map s.heap := by simp [varMaps, h6]
    rw [this, aadd]; split <;> rfl
  | type n t rest _ ih =>
    intro s s' hO h
    obtain ⟨t, ht, hr⟩ := hcons h
    simp only [step, Option.map_eq_some_iff, Prod.exists] at ht
    obtain ⟨b, s'', ht, rfl⟩ := ht
    obtain ⟨h1, h2, h3, h4, h5, _, _, m, ms, h6, _⟩ := addType_ok ht
    obtain ⟨a1, a2, a3⟩ := ih ⟨by rw [h2, h4]; exact hO.1, by rw [h2, h4, h5]; exact hO.2⟩ hr
    refine ⟨a1, by rw [a2]; simp [varMaps, h2, h3], ?_⟩
    rw [a3, h1, h6, aadd]; split <;> rfl
  | fn n f x rest _ ih =>
    intro s s' hO h
    obtain ⟨t, ht, hr⟩ := hcons h
    simp only [step, Option.some.injEq] at ht; subst ht
    have hv : (addFun s n f x).2.vars = s.vars := by unfold addFun; split <;> rfl
    have hh : (addFun s n f x).2.heap = s.heap := by unfold addFun; split <;> rfl
    have hf : (addFun s n f x).2.free = s.free := by unfold addFun; split <;> rfl
    have hn : (addFun s n f x).2.next = s.next := by unfold addFun; split <;> rfl
    have ht : (addFun s n f x).2.types = s.types := by unfold addFun; split <;> rfl
    obtain ⟨a1, a2, a3⟩ := ih ⟨by rw [hv, hf]; exact hO.1, by rw [hv, hf, hn]; exact hO.2⟩ hr
    exact ⟨a1, by rw [a2]; simp [varMaps, hv, hh], by rw [a3, ht]⟩
  | block b rest _ _ ihb ihr =>
    intro s s' hO h
    obtain ⟨t, ht, hr⟩ := hcons h
    simp only [step, Option.some.injEq] at ht; subst ht
    obtain ⟨p1, p2, p3⟩ := push_ok hO
    replace hr : runFrom undef (some (push s)) (b ++ .pop :: rest) = some s' := hr
    have hsplit : ∃ u, runFrom undef (some (push s)) b = some u ∧ runFrom undef (some u) (.pop :: rest) = some s' := by
      rcases hu : runFrom undef (some (push s)) b with _ | u
      · simp only [runFrom, List.foldl_append] at hr hu
        rw [hu] at hr
        have := runFrom_none undef (.pop :: rest)
        rw [runFrom] at this; rw [this] at hr; simp at hr
      · refine ⟨u, rfl, ?_⟩
        simp only [runFrom, List.foldl_append] at hr hu ⊢
        rw [hu] at hr; exact hr
    obtain ⟨u, hu, hr'⟩ := hsplit
    obtain ⟨b1, b2, b3⟩ := ihb p1 hu
    obtain ⟨w, hw, hr''⟩ := hcons hr'
    obtain ⟨q1, q2, q3, _⟩ := pop_ok b1 hw
    obtain ⟨r1, r2, r3⟩ := ihr q1 hr''
    refine ⟨r1, ?_, ?_⟩
    · rw [r2, q2, b2, p2]; rfl
    · rw [r3, q3, b3, p3]; rfl

/-- **C28.** Leaving a scope restores every variable and type to what it meant before the scope was entered,
    whatever was declared in it and in the blocks inside it. -/
theorem block_restores {undef : Ty → Bool} {ops b : List (Op Name Sym Ty Fn)} (hb : Block b) {s s'}
    (h : run undef ops = some s) (h' : run undef (ops ++ (.push :: b ++ [.pop])) = some s') (n : Name) :
    lookupVariable s' n = lookupVariable s n ∧ lookupType s' n = lookupType s n := by
  have hT := run_ok h
  have hO := hT.heap
  have hrun : runFrom undef (some s) (.push :: b ++ [.pop]) = some s' := by
    rw [run, List.foldl_append] at h'
    rw [run] at h
    rw [h] at h'; exact h'
  obtain ⟨p1, p2, p3⟩ := push_ok hO
  have h1 : (runFrom undef (some (push s)) b).bind pop = some s' := by
    simpa [runFrom, step] using hrun
  rcases hu : runFrom undef (some (push s)) b with _ | u
  · rw [hu] at h1; simp at h1
  · rw [hu] at h1
    obtain ⟨b1, b2, b3⟩ := block_run hb p1 hu
    obtain ⟨q1, q2, q3, _⟩ := pop_ok b1 h1
    rw [lookupVariable_eq, lookupVariable_eq, lookupType, lookupType, q2, q3, b2, b3, p2, p3]
    exact ⟨rfl, rfl⟩

/-! ## Examples -/

/-- A history: `x` global, then shadowed in a block whose map is recycled for a second block. -/
def demo : List (Op Nat Nat Nat Nat) :=
  [.addVar 0 10, .addType 5 0, .push, .addVar 0 11, .addVar 1 12, .addType 5 7, .addFun 3 1 30, .pop, .addVar 0 13,
   .push, .addVar 2 14, .addType 6 0, .addType 6 8, .addFun 3 1 31, .addFun 3 2 32]

/-- `0` stands for an undefined struct. -/
example : (run (· == 0) demo).map (fun s => (lookupVariable s 0, lookupVariable s 1, lookupVariable s 2)) =
    some (some 10, none, some 14) := by decide +kernel

example : (run (· == 0) demo).map (fun s => (lookupType s 5, lookupType s 6, lookupFunctions s 3, s.next)) =
    some (some 0, some 8, [(1, 30), (2, 32)], 2) := by decide +kernel

/-- Inside the block the inner declaration is seen. -/
example : (run (· == 0) (demo.take 6)).map (fun s => (lookupVariable s 0, lookupType s 5,
    (addVar s 0 99).map (·.1), (addVar s 2 99).map (·.1))) =
    some (some 11, some 7, some false, some true) := by decide +kernel

example : (run (· == 0) (demo ++ [.push, .push, .popInner])).map (fun s => (lookupVariable s 0, lookupVariable s 2)) =
    some (some 10, none) := by decide +kernel

example : Block ([.addVar 0 1, .push, .addVar 0 2, .addFun 1 1 1, .pop, .addType 1 2] : List (Op Nat Nat Nat Nat)) :=
  .var _ _ _ (.block [.addVar 0 2, .addFun 1 1 1] _ (.var _ _ _ (.fn _ _ _ _ .nil)) (.type _ _ _ .nil))

end Ispc.SymTab
