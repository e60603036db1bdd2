import Verif.Front.Types

/-!
# Names of function symbols

`Mangle` of every type class and `FunctionType::GetFunctionMangledName`, and
the question which functions get the same symbol.

The answer is computed by a reader (`parse`) that recovers from a mangled name
everything the compiler wrote into it; `erase` is what is left of a type.
Two parameter lists share a symbol exactly when they are equal after `erase`.

Left out: array and vector counts that are template parameters (they are
numbers once the template is instantiated), the truncation of numbers to
`int`, and non-type template arguments of floating-point type.
-/

namespace Ispc.Mangle

open Ispc.Types

/-! ## The code -/

/-- `%d` of `snprintf` for a count. -/
def num (n : Nat) : List Char := Nat.toDigits 10 n

/-- `Variability::MangleString`, src/type.cpp:82-101.  `Unbound` ends the
compiler; it is given the empty string here and excluded below. -/
def mVar : Var → List Char
  | .uniform => ['u', 'n']
  | .varying => ['v', 'y']
  | .soa w => 's' :: 'o' :: 'a' :: '<' :: (num w ++ ['>'])
  | .unbound => []

/-- The letter of a basic type, src/type.cpp:520-566. -/
def letter : Basic → Char
  | .void => 'v' | .bool => 'b' | .int1 => 'B' | .int8 => 't' | .uint8 => 'T'
  | .int16 => 's' | .uint16 => 'S' | .int32 => 'i' | .uint32 => 'u'
  | .float16 => 'h' | .float => 'f' | .int64 => 'I' | .uint64 => 'U'
  | .double => 'd'

/-- The prefix for `const`, src/type.cpp:515-517 and 900-902. -/
def mConst (c : Bool) : List Char := if c then ['C'] else []

/-- The part of a pointer's name for slices, src/type.cpp:1168-1179. -/
def mSlice (slice frozen : Bool) : List Char :=
  (if slice || frozen then ['-'] else []) ++ (if slice then ['s'] else []) ++
    (if frozen then ['f'] else []) ++ (if slice || frozen then ['-'] else [])

/-- The number of an array's name, src/type.cpp:1543-1547: nothing for an unsized array. -/
def mCount (n : Nat) : List Char := if n > 0 then num n else []

mutual
/-- `Mangle`: src/type.cpp:512-567 (atomic types), 896-907 (enums), 1160-1181
(pointers), 1537-1551 (arrays), 1747-1749 (vectors), 2107-2124 and 2331
(structs), 2563-2571 (references), 2807-2822 (functions). -/
def mangle : Ty → List Char
  | .atomic b v c => mConst c ++ mVar v ++ [letter b]
  | .enum nm _ v c =>
    mConst c ++ mVar v ++ (['e', 'n', 'u', 'm', '_', '5', 'B', '_'] ++ nm ++ ['_', '5', 'D', '_'])
  | .ptr b v _ s f _ =>
    mVar v ++ ['_', '3', 'C', '_'] ++ mSlice s f ++ mangle b ++ ['_', '3', 'E', '_']
  | .array b n => mangle b ++ ['_', '5', 'B', '_'] ++ mCount n ++ ['_', '5', 'D', '_']
  | .vec b n => mangle b ++ ['_', '3', 'C', '_'] ++ num n ++ ['_', '3', 'E', '_']
  | .struct nm v c =>
    ['s', '_', '5', 'B', '_'] ++ (if c then ['_', 'c', '_'] else []) ++ mVar v ++ nm ++
      ['_', '5', 'D', '_']
  | .ref t _ _ _ => ['R', 'E', 'F'] ++ mangle t
  | .func fl _ ps => ['_', '_', '_'] ++ (if fl.unmasked then ['U', 'M', '_'] else []) ++ mangles ps
/-- The loop over the parameters, src/type.cpp:2813-2819. -/
def mangles : Tys → List Char
  | .nil => []
  | .cons t ts => mangle t ++ mangles ts
end

/-- A template argument: a type, or a value of an integer or enum type, or a
`bool`; src/func.cpp:936-949. -/
inductive TArg
  | type (t : Ty)
  | val (t : Ty) (i : Int)
  | bool (t : Ty) (b : Bool)
  deriving DecidableEq, Repr

/-- The text of an integer, src/expr.cpp:6870-6893. -/
def mInt : Int → List Char
  | .ofNat n => num n
  | .negSucc n => '-' :: num (n + 1)

/-- `TemplateArg::Mangle`, src/func.cpp:936-949, with `GetValuesAsStr`,
src/expr.cpp:6857-6906. -/
def mArg : TArg → List Char
  | .type t => mangle t
  | .val t i => mangle t ++ mInt i
  | .bool t b => mangle t ++ (if b then ['t', 'r', 'u', 'e'] else ['f', 'a', 'l', 's', 'e'])

/-- The loop of `mangleTemplateArgs`, src/type.cpp:2959-2961. -/
def mArgs : List TArg → List Char
  | [] => []
  | a :: as => mArg a ++ mArgs as

/-- What `GetFunctionMangledName` looks at besides the type. -/
structure Linkage where
  /-- `IsUnmangled()` -/
  unmangled : Bool := false
  /-- `IsExternC() || IsExternSYCL()` -/
  extern : Bool := false
  /-- the argument `appFunction` -/
  app : Bool := false
  /-- `IsRegCall()` -/
  regCall : Bool := false
  /-- the target's name if `g->mangleFunctionsWithTarget` -/
  isa : Option (List Char) := none

/-- `mangleTemplateArgs`, src/type.cpp:2954-2963. -/
def templateSuffix : Option (List TArg) → List Char
  | none => []
  | some as => ['_', '_', '_'] ++ mArgs as

/-- The suffix of the target, src/type.cpp:2979-2983. -/
def targetSuffix (l : Linkage) : List Char :=
  match l.isa with
  | some s => if (!l.app && !l.extern) || l.app then '_' :: s else []
  | none => []

/-- `prefix + name + suffix` with `GetFunctionMangledName`,
src/type.cpp:2965-2989, as at src/module.cpp:1075-1076 and
src/func.cpp:1316-1317. -/
def symbol (l : Linkage) (name : List Char) (args : Option (List TArg)) (fl : FnFlags) (ret : Ty)
    (ps : Tys) : List Char :=
  if l.unmangled then name
  else
    (if l.regCall then
      ['_', '_', 'r', 'e', 'g', 'c', 'a', 'l', 'l', '3', '_', '_'] else []) ++ name ++
    (if !(l.extern || l.app) then templateSuffix args ++ mangle (.func fl ret ps) else []) ++
    targetSuffix l

/-! ## What is left of a type in a name -/

mutual
/-- The type with everything removed that is not written into the name: the
position of an enum, `const` and the address space of a pointer, the address
space of a reference, the result and the flags of a function type. -/
def erase : Ty → Ty
  | .atomic b v c => .atomic b v c
  | .enum nm _ v c => .enum nm 0 v c
  | .ptr b v _ s f _ => .ptr (erase b) v false s f 0
  | .array b n => .array (erase b) n
  | .vec b n => .vec (erase b) n
  | .struct nm v c => .struct nm v c
  | .ref t _ _ _ => .ref (erase t) .uniform false 0
  | .func fl _ ps =>
    .func { unmasked := fl.unmasked } (.atomic .void .uniform false) (erases ps)
/-- `erase` on every parameter. -/
def erases : Tys → Tys
  | .nil => .nil
  | .cons t ts => .cons (erase t) (erases ts)
end

/-- `erase` on a template argument. -/
def eraseArg : TArg → TArg
  | .type t => .type (erase t)
  | .val t i => .val (erase t) i
  | .bool t b => .bool (erase t) b

/-! ## Types that can occur -/

/-- The name does not contain `_5D`. -/
def Clean (nm : List Char) : Prop := ¬ ['_', '5', 'D'] <:+: nm

mutual
/-- Types of variables: variability is bound, names are `Clean`, function
types occur behind a pointer only, and references not at all. -/
def Data : Ty → Prop
  | .atomic _ v _ => v ≠ .unbound
  | .enum nm _ v _ => v ≠ .unbound ∧ Clean nm
  | .ptr b v _ _ _ _ => v ≠ .unbound ∧ Base b
  | .array b _ => Data b
  | .vec b _ => Data b
  | .struct nm v _ => v ≠ .unbound ∧ Clean nm
  | .ref .. => False
  | .func .. => False
/-- Types a pointer can point to. -/
def Base : Ty → Prop
  | .func _ _ ps => Params ps
  | .atomic _ v _ => v ≠ .unbound
  | .enum nm _ v _ => v ≠ .unbound ∧ Clean nm
  | .ptr b v _ _ _ _ => v ≠ .unbound ∧ Base b
  | .array b _ => Data b
  | .vec b _ => Data b
  | .struct nm v _ => v ≠ .unbound ∧ Clean nm
  | .ref .. => False
/-- Types of parameters. -/
def Param : Ty → Prop
  | .ref t _ _ _ => Data t
  | .func .. => False
  | .atomic _ v _ => v ≠ .unbound
  | .enum nm _ v _ => v ≠ .unbound ∧ Clean nm
  | .ptr b v _ _ _ _ => v ≠ .unbound ∧ Base b
  | .array b _ => Data b
  | .vec b _ => Data b
  | .struct nm v _ => v ≠ .unbound ∧ Clean nm
/-- Parameter lists. -/
def Params : Tys → Prop
  | .nil => True
  | .cons t ts => Param t ∧ Params ts
end

/-! ## A reader of mangled names -/

/-- A number at the beginning of the text (0 if there is none). -/
def number (s : List Char) : Nat × List Char :=
  (Nat.ofDigitChars 10 (s.takeWhile Char.isDigit) 0, s.dropWhile Char.isDigit)

/-- Read a variability. -/
def readVar : List Char → Option (Var × List Char)
  | 'u' :: 'n' :: r => some (.uniform, r)
  | 'v' :: 'y' :: r => some (.varying, r)
  | 's' :: 'o' :: 'a' :: '<' :: r =>
    match number r with
    | (n, '>' :: r') => some (.soa n, r')
    | _ => none
  | _ => none

/-- Read the letter of a basic type. -/
def readBasic : Char → Option Basic
  | 'v' => some .void | 'b' => some .bool | 'B' => some .int1 | 't' => some .int8
  | 'T' => some .uint8 | 's' => some .int16 | 'S' => some .uint16 | 'i' => some .int32
  | 'u' => some .uint32 | 'h' => some .float16 | 'f' => some .float | 'I' => some .int64
  | 'U' => some .uint64 | 'd' => some .double | _ => none

/-- Read a name up to `_5D_`. -/
def readName : List Char → Option (List Char × List Char)
  | '_' :: '5' :: 'D' :: '_' :: r => some ([], r)
  | c :: r =>
    match readName r with
    | some (nm, r') => some (c :: nm, r')
    | none => none
  | [] => none

/-- Read what follows `const` and variability: a letter or an enum. -/
def readScalar (c : Bool) (v : Var) : List Char → Option (Ty × List Char)
  | 'e' :: 'n' :: 'u' :: 'm' :: '_' :: '5' :: 'B' :: '_' :: r =>
    match readName r with
    | some (nm, r') => some (.enum nm 0 v c, r')
    | none => none
  | ch :: r =>
    match readBasic ch with
    | some b => some (.atomic b v c, r)
    | none => none
  | [] => none

/-- Read the mark of a slice. -/
def readSlice : List Char → (Bool × Bool) × List Char
  | '-' :: 's' :: 'f' :: '-' :: r => ((true, true), r)
  | '-' :: 's' :: '-' :: r => ((true, false), r)
  | '-' :: 'f' :: '-' :: r => ((false, true), r)
  | r => ((false, false), r)

/-- Read the suffixes of arrays and vectors. -/
def loop : Nat → Ty → List Char → Option (Ty × List Char)
  | 0, t, r => some (t, r)
  | k + 1, t, '_' :: '5' :: 'B' :: '_' :: r =>
    match number r with
    | (n, '_' :: '5' :: 'D' :: '_' :: r') => loop k (.array t n) r'
    | _ => none
  | k + 1, t, '_' :: '3' :: 'C' :: '_' :: r =>
    match number r with
    | (n, '_' :: '3' :: 'E' :: '_' :: r') => loop k (.vec t n) r'
    | _ => none
  | _ + 1, t, r => some (t, r)

/-- Can the text begin with a parameter? -/
def isHead : List Char → Bool
  | c :: _ => c == 'C' || c == 'u' || c == 'v' || c == 's' || c == 'R'
  | [] => false

/-- Read the mark of an unmasked function. -/
def readUM : List Char → Bool × List Char
  | 'U' :: 'M' :: '_' :: r => (true, r)
  | r => (false, r)

/-- Read the end of a pointer. -/
def closePtr (v : Var) (sf : Bool × Bool) : Option (Ty × List Char) → Option (Ty × List Char)
  | some (b, '_' :: '3' :: 'E' :: '_' :: r) => some (.ptr b v false sf.1 sf.2 0, r)
  | _ => none

mutual
/-- Read a type; the number bounds the depth. -/
def parse : Nat → List Char → Option (Ty × List Char)
  | 0, _ => none
  | k + 1, 'R' :: 'E' :: 'F' :: r =>
    match parse k r with
    | some (t, r') => some (.ref t .uniform false 0, r')
    | none => none
  | k + 1, 's' :: '_' :: '5' :: 'B' :: '_' :: '_' :: 'c' :: '_' :: r =>
    match readVar r with
    | some (v, r1) =>
      match readName r1 with
      | some (nm, r2) => loop k (.struct nm v true) r2
      | none => none
    | none => none
  | k + 1, 's' :: '_' :: '5' :: 'B' :: '_' :: r =>
    match readVar r with
    | some (v, r1) =>
      match readName r1 with
      | some (nm, r2) => loop k (.struct nm v false) r2
      | none => none
    | none => none
  | k + 1, 'C' :: r =>
    match readVar r with
    | some (v, r1) =>
      match readScalar true v r1 with
      | some (t, r2) => loop k t r2
      | none => none
    | none => none
  | k + 1, s =>
    match readVar s with
    | some (v, '_' :: '3' :: 'C' :: '_' :: r) =>
      match closePtr v (readSlice r).1 (parseBase k (readSlice r).2) with
      | some (t, r2) => loop k t r2
      | none => none
    | some (v, r1) =>
      match readScalar false v r1 with
      | some (t, r2) => loop k t r2
      | none => none
    | none => none
/-- Read what a pointer points to. -/
def parseBase : Nat → List Char → Option (Ty × List Char)
  | 0, _ => none
  | k + 1, '_' :: '_' :: '_' :: r =>
    match parseParams k (readUM r).2 with
    | some (ps, r2) =>
      some (.func { unmasked := (readUM r).1 } (.atomic .void .uniform false) ps, r2)
    | none => none
  | k + 1, s => parse k s
/-- Read a parameter list. -/
def parseParams : Nat → List Char → Option (Tys × List Char)
  | 0, _ => none
  | k + 1, s =>
    if isHead s then
      match parse k s with
      | some (t, r) =>
        match parseParams k r with
        | some (ts, r') => some (.cons t ts, r')
        | none => none
      | none => none
    else some (.nil, s)
end

/-! ## The reader recovers the erased type -/

/-- What follows a number does not begin with a digit. -/
def NoDigit (r : List Char) : Prop := ∀ c s, r = c :: s → c.isDigit = false

theorem number_num (n : Nat) (r : List Char) (h : NoDigit r) : number (num n ++ r) = (n, r) := by
  have hd : ∀ c ∈ num n, c.isDigit = true :=
    fun c hc => Nat.isDigit_of_mem_toDigits (by decide) (by decide) hc
  have h1 : (num n ++ r).takeWhile Char.isDigit = num n := by
    rw [List.takeWhile_append_of_pos hd]
    cases r with
    | nil => simp
    | cons c s => simp [h c s rfl]
  have h2 : (num n ++ r).dropWhile Char.isDigit = r := by
    rw [List.dropWhile_append_of_pos hd]
    cases r with
    | nil => simp
    | cons c s => simp [h c s rfl]
  have h3 : Nat.ofDigitChars 10 (num n) 0 = n :=
    Nat.ofDigitChars_toDigits (by decide) (by decide)
  simp only [number, h1, h2, h3]

theorem number_count (n : Nat) (r : List Char) (h : NoDigit r) : number (mCount n ++ r) = (n, r) := by
  unfold mCount
  split
  · exact number_num n r h
  · have : n = 0 := by omega
    subst this
    cases r with
    | nil => rfl
    | cons c s => simp [number, h c s rfl]

theorem readVar_mVar {v : Var} (h : v ≠ .unbound) (r : List Char) :
    readVar (mVar v ++ r) = some (v, r) := by
  cases v with
  | uniform => rfl
  | varying => rfl
  | unbound => exact absurd rfl h
  | soa w =>
    have hn : NoDigit ('>' :: r) := by
      intro c s hc
      cases hc
      decide
    simp only [mVar, List.cons_append, List.append_assoc, List.nil_append, readVar]
    rw [number_num w _ hn]
    rfl

theorem readBasic_letter (b : Basic) : readBasic (letter b) = some b := by
  cases b <;> rfl

theorem readName_close : ∀ (nm r : List Char), Clean nm →
    readName (nm ++ '_' :: '5' :: 'D' :: '_' :: r) = some (nm, r)
  | [], r, _ => rfl
  | c :: nm, r, h => by
    have hc : Clean nm := fun hi => h (hi.trans (List.suffix_cons c nm).isInfix)
    have ih := readName_close nm r hc
    have hnot : ∀ s, (c :: nm) ++ '_' :: '5' :: 'D' :: '_' :: r ≠ '_' :: '5' :: 'D' :: '_' :: s := by
      intro s hs
      match nm, hs, h with
      | [], hs, _ => simp at hs
      | [a], hs, _ => simp at hs
      | a :: b :: nm', hs, h =>
        simp at hs
        obtain ⟨rfl, rfl, rfl, -⟩ := hs
        exact h ⟨[], nm', rfl⟩
    rw [List.cons_append]
    rw [List.cons_append] at hnot
    unfold readName
    split
    · rename_i heq
      exact absurd heq (hnot _)
    · rename_i heq
      cases heq
      rw [ih]
    · rename_i heq
      cases heq

/-- The reader stops here. -/
def Stop (r : List Char) : Prop := ∀ k t, loop k t r = some (t, r)

theorem stop_nil : Stop [] := by
  intro k t; cases k <;> rfl

theorem stop_cons {c : Char} (r : List Char) (h : c ≠ '_') : Stop (c :: r) := by
  intro k t
  cases k with
  | zero => rfl
  | succ k =>
    unfold loop
    split <;> simp_all

theorem stop_close (r : List Char) : Stop ('_' :: '3' :: 'E' :: '_' :: r) := by
  intro k t; cases k <;> rfl

theorem stop_under (r : List Char) : Stop ('_' :: '_' :: r) := by
  intro k t; cases k <;> simp [loop]

theorem stop_head {r : List Char} (h : isHead r = true) : Stop r := by
  cases r with
  | nil => simp [isHead] at h
  | cons c r => exact stop_cons r (by rintro rfl; simp [isHead] at h)

mutual
/-- How deep the reader has to go. -/
def size : Ty → Nat
  | .atomic .. => 1
  | .enum .. => 1
  | .ptr b _ _ _ _ _ => size b + 2
  | .array b _ => size b + 1
  | .vec b _ => size b + 1
  | .struct .. => 1
  | .ref t _ _ _ => size t + 1
  | .func _ _ ps => sizes ps + 1
/-- The same for parameter lists. -/
def sizes : Tys → Nat
  | .nil => 1
  | .cons t ts => size t + sizes ts + 1
end

theorem loop_array (k n : Nat) (t : Ty) (r : List Char) :
    loop (k + 1) t ('_' :: '5' :: 'B' :: '_' :: (mCount n ++ '_' :: '5' :: 'D' :: '_' :: r)) =
      loop k (.array t n) r := by
  have hn : NoDigit ('_' :: '5' :: 'D' :: '_' :: r) := by
    intro c s hc; cases hc; decide
  simp only [loop, number_count n _ hn]

theorem loop_vec (k n : Nat) (t : Ty) (r : List Char) :
    loop (k + 1) t ('_' :: '3' :: 'C' :: '_' :: (num n ++ '_' :: '3' :: 'E' :: '_' :: r)) =
      loop k (.vec t n) r := by
  have hn : NoDigit ('_' :: '3' :: 'E' :: '_' :: r) := by
    intro c s hc; cases hc; decide
  simp only [loop, number_num n _ hn]

theorem readScalar_atomic (c : Bool) (v : Var) (b : Basic) (r : List Char) :
    readScalar c v (letter b :: r) = some (.atomic b v c, r) := by
  cases b <;> rfl

theorem readScalar_enum (c : Bool) (v : Var) (nm r : List Char) (h : Clean nm) :
    readScalar c v ('e' :: 'n' :: 'u' :: 'm' :: '_' :: '5' :: 'B' :: '_' ::
      (nm ++ '_' :: '5' :: 'D' :: '_' :: r)) = some (.enum nm 0 v c, r) := by
  simp [readScalar, readName_close nm r h]

theorem parse_var (k : Nat) {v : Var} (h : v ≠ .unbound) (s : List Char) :
    parse (k + 1) (mVar v ++ s) =
      match readVar (mVar v ++ s) with
      | some (v, '_' :: '3' :: 'C' :: '_' :: r) =>
        match closePtr v (readSlice r).1 (parseBase k (readSlice r).2) with
        | some (t, r2) => loop k t r2
        | none => none
      | some (v, r1) =>
        match readScalar false v r1 with
        | some (t, r2) => loop k t r2
        | none => none
      | none => none := by
  cases v with
  | unbound => exact absurd rfl h
  | _ => simp [mVar, parse]

theorem parse_scalar (k : Nat) {v : Var} (h : v ≠ .unbound) (c : Bool) (s : List Char) (t : Ty)
    (r : List Char) (hs : readScalar c v s = some (t, r)) (hu : ∀ s', s ≠ '_' :: s') :
    parse (k + 1) (mConst c ++ (mVar v ++ s)) = loop k t r := by
  cases c with
  | true => simp [mConst, parse, readVar_mVar h, hs]
  | false =>
    simp only [mConst, Bool.false_eq_true, if_false, List.nil_append]
    rw [parse_var k h, readVar_mVar h]
    split
    · rename_i heq
      simp only [Option.some.injEq, Prod.mk.injEq] at heq
      exact absurd heq.2 (hu _)
    · rename_i heq
      simp only [Option.some.injEq, Prod.mk.injEq] at heq
      obtain ⟨rfl, rfl⟩ := heq
      rw [hs]
    · rename_i heq
      cases heq

theorem head_var {v : Var} (h : v ≠ .unbound) (s : List Char) : isHead (mVar v ++ s) = true := by
  cases v <;> simp_all [mVar, isHead]

theorem head_data : ∀ {t : Ty}, Data t → ∀ s, isHead (mangle t ++ s) = true
  | .atomic b v c, h, s => by
    cases c
    · simpa [mangle, mConst] using head_var (v := v) h _
    · rfl
  | .enum nm p v c, h, s => by
    cases c
    · simpa [mangle, mConst] using head_var (v := v) h.1 _
    · rfl
  | .ptr b v _ _ _ _, h, s => by
    simpa [mangle] using head_var (v := v) h.1 _
  | .array b n, h, s => by
    simpa [mangle] using head_data (t := b) h _
  | .vec b n, h, s => by
    simpa [mangle] using head_data (t := b) h _
  | .struct .., _, s => rfl

theorem data_of_param {t : Ty} (h : Param t) : (∃ u v c a, t = .ref u v c a ∧ Data u) ∨ Data t := by
  cases t with
  | ref u v c a => exact Or.inl ⟨u, v, c, a, rfl, h⟩
  | _ => exact Or.inr h

theorem base_cases {t : Ty} (h : Base t) : (∃ fl r ps, t = .func fl r ps ∧ Params ps) ∨ Data t := by
  cases t with
  | func fl r ps => exact Or.inl ⟨fl, r, ps, rfl, h⟩
  | _ => exact Or.inr h

theorem head_param {t : Ty} (h : Param t) (s : List Char) : isHead (mangle t ++ s) = true := by
  rcases data_of_param h with ⟨u, v, c, a, rfl, -⟩ | h
  · rfl
  · exact head_data h s

theorem readSlice_mSlice (s f : Bool) (r : List Char) (h : ∀ r', r ≠ '-' :: r') :
    readSlice (mSlice s f ++ r) = ((s, f), r) := by
  cases s <;> cases f <;> simp [mSlice, readSlice]
  split <;> simp_all

theorem parseBase_data (k : Nat) (s : List Char) (h : ∀ r, s ≠ '_' :: r) :
    parseBase (k + 1) s = parse k s := by
  unfold parseBase
  split <;> simp_all

theorem head_ne {s : List Char} (h : isHead s = true) (c : Char)
    (hc : c ≠ 'C' ∧ c ≠ 'u' ∧ c ≠ 'v' ∧ c ≠ 's' ∧ c ≠ 'R') (r : List Char) : s ≠ c :: r := by
  rintro rfl
  simp_all [isHead]

theorem readUM_head (s : List Char) (h : ∀ r, s ≠ 'U' :: r) : readUM s = (false, s) := by
  unfold readUM
  split <;> simp_all

mutual
theorem parse_data : ∀ (t : Ty), Data t → ∀ (k : Nat) (r : List Char),
    ∃ k' ≥ k, parse (k + size t) (mangle t ++ r) = loop k' (erase t) r
  | .atomic b v c, h, k, r => by
    refine ⟨k, Nat.le_refl _, ?_⟩
    have := parse_scalar k h c (letter b :: r) _ _ (readScalar_atomic c v b r)
      (by cases b <;> simp [letter])
    simpa [mangle, erase, size] using this
  | .enum nm p v c, h, k, r => by
    refine ⟨k, Nat.le_refl _, ?_⟩
    have := parse_scalar k h.1 c _ _ _ (readScalar_enum c v nm r h.2) (by simp)
    simpa [mangle, erase, size] using this
  | .ptr b v c s f a, h, k, r => by
    refine ⟨k + size b + 1, by omega, ?_⟩
    have ih : parseBase (k + size b + 1) (mangle b ++ '_' :: '3' :: 'E' :: '_' :: r) =
        some (erase b, '_' :: '3' :: 'E' :: '_' :: r) := by
      rcases base_cases h.2 with ⟨fl, rt, ps, rfl, hp⟩ | hd
      · have ih := parse_params ps hp (k + 1) _ (stop_close r) (by simp [isHead])
        have hU : ∀ r', mangles ps ++ '_' :: '3' :: 'E' :: '_' :: r ≠ 'U' :: r' := by
          intro r'
          cases ps with
          | nil => simp [mangles]
          | cons t ts =>
            have := head_param hp.1 (mangles ts ++ '_' :: '3' :: 'E' :: '_' :: r)
            simpa [mangles] using head_ne this 'U' (by decide) r'
        rw [show k + size (.func fl rt ps) + 1 = (k + 1 + sizes ps) + 1 by simp [size]; omega]
        cases hf : fl.unmasked with
        | false =>
          simp only [mangle, hf, parseBase, List.cons_append, List.nil_append,
            Bool.false_eq_true, if_false, readUM_head _ hU, ih, erase]
        | true =>
          simp only [mangle, hf, parseBase, List.cons_append, List.nil_append,
            if_true, readUM, ih, erase]
      · obtain ⟨k', -, e⟩ := parse_data b hd k ('_' :: '3' :: 'E' :: '_' :: r)
        rw [parseBase_data _ _ (head_ne (head_data hd _) '_' (by decide)), e, stop_close]
    have hb : ∀ r', mangle b ++ '_' :: '3' :: 'E' :: '_' :: r ≠ '-' :: r' := by
      intro r'
      rcases base_cases h.2 with ⟨fl, rt, ps, rfl, -⟩ | hd
      · simp [mangle]
      · exact head_ne (head_data hd _) '-' (by decide) r'
    simp only [mangle, size, List.append_assoc, List.cons_append, List.nil_append]
    rw [show k + (size b + 2) = (k + size b + 1) + 1 by omega, parse_var _ h.1, readVar_mVar h.1]
    simp only [readSlice_mSlice s f _ hb]
    rw [ih]
    simp [closePtr, erase]
  | .array b n, h, k, r => by
    obtain ⟨k', hk, e⟩ := parse_data b h (k + 1)
      ('_' :: '5' :: 'B' :: '_' :: (mCount n ++ '_' :: '5' :: 'D' :: '_' :: r))
    obtain ⟨j, rfl⟩ : ∃ j, k' = j + 1 := ⟨k' - 1, by omega⟩
    refine ⟨j, by omega, ?_⟩
    rw [loop_array] at e
    simpa [mangle, erase, size, Nat.add_assoc, Nat.add_comm] using e
  | .vec b n, h, k, r => by
    obtain ⟨k', hk, e⟩ := parse_data b h (k + 1)
      ('_' :: '3' :: 'C' :: '_' :: (num n ++ '_' :: '3' :: 'E' :: '_' :: r))
    obtain ⟨j, rfl⟩ : ∃ j, k' = j + 1 := ⟨k' - 1, by omega⟩
    refine ⟨j, by omega, ?_⟩
    rw [loop_vec] at e
    simpa [mangle, erase, size, Nat.add_assoc, Nat.add_comm] using e
  | .struct nm v c, h, k, r => by
    refine ⟨k, Nat.le_refl _, ?_⟩
    cases c with
    | true =>
      simp [mangle, erase, size, parse, readVar_mVar h.1, readName_close nm r h.2]
    | false =>
      have hp : ∀ s, mVar v ++ (nm ++ '_' :: '5' :: 'D' :: '_' :: r) ≠ '_' :: s :=
        fun s => head_ne (head_var h.1 _) '_' (by decide) s
      simp only [mangle, erase, size, List.append_assoc, List.cons_append, List.nil_append,
        Bool.false_eq_true, if_false]
      rw [parse]
      · simp [readVar_mVar h.1, readName_close nm r h.2]
      · intro s hs
        exact hp _ hs
theorem parse_params : ∀ (ps : Tys), Params ps → ∀ (k : Nat) (r : List Char), Stop r →
    isHead r = false → parseParams (k + sizes ps) (mangles ps ++ r) = some (erases ps, r)
  | .nil, _, k, r, _, hh => by simp [sizes, mangles, parseParams, hh, erases]
  | .cons t ts, h, k, r, hs, hh => by
    have iht := parse_params ts h.2 (k + size t) r hs hh
    have hst : Stop (mangles ts ++ r) := by
      cases ts with
      | nil => exact hs
      | cons u us => 
        have := head_param h.2.1 (mangles us ++ r)
        exact stop_head (by simpa [mangles] using this)
    have hp : parse (k + sizes ts + size t) (mangle t ++ (mangles ts ++ r)) =
        some (erase t, mangles ts ++ r) := by
      rcases data_of_param h.1 with ⟨u, v, c, a, rfl, hu⟩ | hd
      · obtain ⟨k', -, e⟩ := parse_data u hu (k + sizes ts) (mangles ts ++ r)
        rw [hst] at e
        rw [show k + sizes ts + size (.ref u v c a) = (k + sizes ts + size u) + 1 by simp [size]; omega]
        simp only [mangle, List.cons_append, List.nil_append, parse, e, erase]
      · obtain ⟨k', -, e⟩ := parse_data t hd (k + sizes ts) (mangles ts ++ r)
        rw [e, hst]
    have hh' := head_param h.1 (mangles ts ++ r)
    rw [show k + sizes (.cons t ts) = (k + sizes ts + size t) + 1 by simp [sizes]; omega]
    rw [show k + sizes ts + size t = k + size t + sizes ts by omega] at hp ⊢
    simp only [mangles, List.append_assoc, parseParams, hh', if_true, hp, iht, erases]
end

theorem parse_param (t : Ty) (h : Param t) (k : Nat) (r : List Char) (hr : Stop r) :
    parse (k + size t) (mangle t ++ r) = some (erase t, r) := by
  rcases data_of_param h with ⟨u, v, c, a, rfl, hu⟩ | hd
  · obtain ⟨k', -, e⟩ := parse_data u hu k r
    rw [hr] at e
    rw [show k + size (.ref u v c a) = (k + size u) + 1 by simp [size]; omega]
    simp only [mangle, List.cons_append, List.nil_append, parse, e, erase]
  · obtain ⟨k', -, e⟩ := parse_data t hd k r
    rw [e, hr]

/-! ## Template arguments -/

/-- Template arguments that can occur. -/
def ArgOk : TArg → Prop
  | .type t => Param t
  | .val t _ => Data t
  | .bool t _ => Data t

/-- Read the value after a type. -/
def readValue (t : Ty) : List Char → TArg × List Char
  | '-' :: r => (.val t (-((number r).1 : Int)), (number r).2)
  | 't' :: 'r' :: 'u' :: 'e' :: r => (.bool t true, r)
  | 'f' :: 'a' :: 'l' :: 's' :: 'e' :: r => (.bool t false, r)
  | c :: r => if c.isDigit then (.val t (number (c :: r)).1, (number (c :: r)).2)
    else (.type t, c :: r)
  | [] => (.type t, [])

/-- Read template arguments. -/
def parseArgs : Nat → List Char → Option (List TArg × List Char)
  | 0, _ => none
  | k + 1, s =>
    if isHead s then
      match parse k s with
      | some (t, r) =>
        match parseArgs k (readValue t r).2 with
        | some (as, r') => some ((readValue t r).1 :: as, r')
        | none => none
      | none => none
    else some ([], s)

/-- What can follow a template argument: another one, or an underscore, or
nothing. -/
def Follow (r : List Char) : Prop := r = [] ∨ isHead r = true ∨ ∃ r', r = '_' :: '_' :: r'

theorem follow_stop {r : List Char} (h : Follow r) : Stop r := by
  rcases h with rfl | h | ⟨r', rfl⟩
  · exact stop_nil
  · exact stop_head h
  · exact stop_under r'

theorem follow_char {r : List Char} (h : Follow r) :
    r = [] ∨ ∃ c s, r = c :: s ∧ (c = 'C' ∨ c = 'u' ∨ c = 'v' ∨ c = 's' ∨ c = 'R' ∨ c = '_') := by
  rcases h with rfl | h | ⟨r', rfl⟩
  · exact Or.inl rfl
  · cases r with
    | nil => exact Or.inl rfl
    | cons c s =>
      refine Or.inr ⟨c, s, rfl, ?_⟩
      simp only [isHead, Bool.or_eq_true, beq_iff_eq] at h
      rcases h with (((h | h) | h) | h) | h <;> simp [h]
  · exact Or.inr ⟨_, _, rfl, by simp⟩

theorem follow_noDigit {r : List Char} (h : Follow r) : NoDigit r := by
  intro c s e
  rcases follow_char h with rfl | ⟨c', s', rfl, hc⟩
  · cases e
  · cases e
    rcases hc with rfl | rfl | rfl | rfl | rfl | rfl <;> decide

theorem num_cons (n : Nat) : ∃ c s, num n = c :: s ∧ c.isDigit = true := by
  have h0 : num n ≠ [] := Nat.toDigits_ne_nil
  obtain ⟨c, s, e⟩ := List.exists_cons_of_ne_nil h0
  refine ⟨c, s, e, Nat.isDigit_of_mem_toDigits (b := 10) (n := n) (by decide) (by decide) ?_⟩
  have : c ∈ num n := by rw [e]; simp
  exact this

theorem digit_ne {c : Char} (h : c.isDigit = true) : c ≠ '-' ∧ c ≠ 't' ∧ c ≠ 'f' ∧ c ≠ '_' := by
  refine ⟨?_, ?_, ?_, ?_⟩ <;> rintro rfl <;> revert h <;> decide

theorem readValue_type (t : Ty) {r : List Char} (h : Follow r) : readValue t r = (.type t, r) := by
  rcases follow_char h with rfl | ⟨c, s, rfl, hc⟩
  · rfl
  · rcases hc with rfl | rfl | rfl | rfl | rfl | rfl <;> simp [readValue] <;> decide

theorem readValue_int (t : Ty) (i : Int) {r : List Char} (h : Follow r) :
    readValue t (mInt i ++ r) = (.val t i, r) := by
  cases i with
  | ofNat n =>
    have hn := number_num n r (follow_noDigit h)
    obtain ⟨c, s, e, hd⟩ := num_cons n
    obtain ⟨h1, h2, h3, -⟩ := digit_ne hd
    simp only [mInt]
    rw [e] at hn ⊢
    rw [List.cons_append] at hn ⊢
    unfold readValue
    split <;> simp_all
  | negSucc n =>
    have hn := number_num (n + 1) r (follow_noDigit h)
    simp only [mInt, List.cons_append, readValue, hn]
    simp [Int.negSucc_eq]

theorem stop_int (i : Int) (r : List Char) : Stop (mInt i ++ r) := by
  cases i with
  | ofNat n =>
    obtain ⟨c, s, e, hd⟩ := num_cons n
    simp only [mInt]
    rw [e]
    exact stop_cons _ (digit_ne hd).2.2.2
  | negSucc n => exact stop_cons _ (by decide)

/-- How deep the reader has to go. -/
def argSize : TArg → Nat
  | .type t => size t
  | .val t _ => size t
  | .bool t _ => size t

/-- The same for a list. -/
def argSizes : List TArg → Nat
  | [] => 1
  | a :: as => argSize a + argSizes as + 1

theorem param_of_data {t : Ty} (h : Data t) : Param t := by
  cases t <;> first | exact h | exact h.elim

theorem head_arg {a : TArg} (h : ArgOk a) (r : List Char) : isHead (mArg a ++ r) = true := by
  cases a with
  | type t => exact head_param h r
  | val t i => simpa [mArg] using head_data (t := t) h _
  | bool t b => simpa [mArg] using head_data (t := t) h _

theorem follow_args : ∀ (as : List TArg), (∀ a ∈ as, ArgOk a) → ∀ r, Follow r →
    Follow (mArgs as ++ r)
  | [], _, r, h => h
  | a :: as, h, r, _ => by
    refine Or.inr (Or.inl ?_)
    simpa [mArgs] using head_arg (h a (by simp)) (mArgs as ++ r)

theorem parse_arg (a : TArg) (h : ArgOk a) (k : Nat) (r : List Char) (hr : Follow r) :
    ∃ t s, parse (k + argSize a) (mArg a ++ r) = some (t, s) ∧ readValue t s = (eraseArg a, r) := by
  cases a with
  | type t =>
    exact ⟨_, _, parse_param t h k r (follow_stop hr), readValue_type _ hr⟩
  | val t i =>
    refine ⟨erase t, mInt i ++ r, ?_, readValue_int _ i hr⟩
    have := parse_param t (param_of_data h) k (mInt i ++ r) (stop_int i r)
    simpa [mArg, argSize] using this
  | bool t b =>
    cases b with
    | true =>
      refine ⟨erase t, 't' :: 'r' :: 'u' :: 'e' :: r, ?_, rfl⟩
      have := parse_param t (param_of_data h) k _
        (stop_cons (c := 't') ('r' :: 'u' :: 'e' :: r) (by decide))
      simpa [mArg, argSize] using this
    | false =>
      refine ⟨erase t, 'f' :: 'a' :: 'l' :: 's' :: 'e' :: r, ?_, rfl⟩
      have := parse_param t (param_of_data h) k _
        (stop_cons (c := 'f') ('a' :: 'l' :: 's' :: 'e' :: r) (by decide))
      simpa [mArg, argSize] using this

theorem parse_args : ∀ (as : List TArg), (∀ a ∈ as, ArgOk a) → ∀ (k : Nat) (r : List Char),
    Follow r → isHead r = false →
    parseArgs (k + argSizes as) (mArgs as ++ r) = some (as.map eraseArg, r)
  | [], _, k, r, _, hh => by simp [argSizes, mArgs, parseArgs, hh]
  | a :: as, h, k, r, hr, hh => by
    have ih := parse_args as (fun b hb => h b (by simp [hb])) (k + argSize a) r hr hh
    have hf := follow_args as (fun b hb => h b (by simp [hb])) r hr
    obtain ⟨t, s, e1, e2⟩ := parse_arg a (h a (by simp)) (k + argSizes as) _ hf
    have hh' := head_arg (h a (by simp)) (mArgs as ++ r)
    rw [show k + argSizes (a :: as) = (k + argSizes as + argSize a) + 1 by simp [argSizes]; omega]
    rw [show k + argSizes as + argSize a = k + argSize a + argSizes as by omega] at e1 ⊢
    simp only [mArgs, List.append_assoc, parseArgs, hh', if_true, e1, e2, ih, List.map_cons]

/-! ## Equal names -/

mutual
theorem mangle_erase : ∀ t : Ty, mangle (erase t) = mangle t
  | .atomic .. => rfl
  | .enum .. => rfl
  | .ptr b v c s f a => by simp [erase, mangle, mangle_erase b]
  | .array b n => by simp [erase, mangle, mangle_erase b]
  | .vec b n => by simp [erase, mangle, mangle_erase b]
  | .struct .. => rfl
  | .ref t _ _ _ => by simp [erase, mangle, mangle_erase t]
  | .func fl r ps => by simp [erase, mangle, mangles_erases ps]
theorem mangles_erases : ∀ ts : Tys, mangles (erases ts) = mangles ts
  | .nil => rfl
  | .cons t ts => by simp [erases, mangles, mangle_erase t, mangles_erases ts]
end

theorem mArg_erase (a : TArg) : mArg (eraseArg a) = mArg a := by
  cases a <;> simp [eraseArg, mArg, mangle_erase]

theorem mArgs_erase : ∀ as : List TArg, mArgs (as.map eraseArg) = mArgs as
  | [] => rfl
  | a :: as => by simp [mArgs, mArg_erase, mArgs_erase as]

/-- Two types have the same mangled form exactly when they are equal after
`erase`. -/
theorem mangle_eq_iff (t t' : Ty) (h : Param t) (h' : Param t') :
    mangle t = mangle t' ↔ erase t = erase t' := by
  constructor
  · intro e
    have h1 := parse_param t h (size t') [] stop_nil
    have h2 := parse_param t' h' (size t) [] stop_nil
    rw [e, Nat.add_comm, h2] at h1
    simpa using h1.symm
  · intro e
    rw [← mangle_erase t, e, mangle_erase]

/-- The same for parameter lists. -/
theorem mangles_eq_iff (ps ps' : Tys) (h : Params ps) (h' : Params ps') :
    mangles ps = mangles ps' ↔ erases ps = erases ps' := by
  constructor
  · intro e
    have h1 := parse_params ps h (sizes ps') [] stop_nil rfl
    have h2 := parse_params ps' h' (sizes ps) [] stop_nil rfl
    rw [e, Nat.add_comm, h2] at h1
    simpa using h1.symm
  · intro e
    rw [← mangles_erases ps, e, mangles_erases]

/-- Parameters read as template arguments. -/
def asArgs (ps : Tys) : List TArg := ps.toList.map .type

theorem mArgs_asArgs : ∀ ps : Tys, mArgs (asArgs ps) = mangles ps
  | .nil => rfl
  | .cons t ts => by
    have := mArgs_asArgs ts
    simp only [asArgs] at this
    simp [asArgs, Tys.toList, mArgs, mArg, mangles, this]

theorem asArgs_ok : ∀ ps : Tys, Params ps → ∀ a ∈ asArgs ps, ArgOk a
  | .nil, _, a, h => by simp [asArgs, Tys.toList] at h
  | .cons t ts, hp, a, h => by
    simp only [asArgs, Tys.toList, List.map_cons, List.mem_cons] at h
    rcases h with rfl | h
    · exact hp.1
    · exact asArgs_ok ts hp.2 a h

/-- The name of a function has no three underscores in a row. -/
def Short (nm : List Char) : Prop := ¬ ['_', '_', '_'] <:+: nm

theorem short_split_le {n n' p p' : List Char} (hn' : Short n')
    (hp : ∀ r, p ≠ '_' :: r) (hlen : n.length ≤ n'.length)
    (e : n ++ '_' :: '_' :: '_' :: p = n' ++ '_' :: '_' :: '_' :: p') : n = n' ∧ p = p' := by
  obtain ⟨d, rfl⟩ : ∃ d, n' = n ++ d := by
    have h1 : n <+: n' ++ '_' :: '_' :: '_' :: p' := ⟨_, e⟩
    obtain ⟨d, hd⟩ := List.prefix_of_prefix_length_le h1 (List.prefix_append _ _) hlen
    exact ⟨d, hd.symm⟩
  rw [List.append_assoc, List.append_cancel_left_eq] at e
  match d, e with
  | [], e => simpa using e
  | [a], e =>
    simp only [List.cons_append, List.nil_append, List.cons.injEq] at e
    exact absurd e.2.2.2 (hp _)
  | [a, b], e =>
    simp only [List.cons_append, List.nil_append, List.cons.injEq] at e
    exact absurd e.2.2.2 (hp _)
  | a :: b :: c :: d, e =>
    simp only [List.cons_append, List.cons.injEq] at e
    obtain ⟨rfl, rfl, rfl, -⟩ := e
    exact absurd ⟨n, d, by simp⟩ hn'

theorem short_split {n n' p p' : List Char} (hn : Short n) (hn' : Short n')
    (hp : ∀ r, p ≠ '_' :: r) (hp' : ∀ r, p' ≠ '_' :: r)
    (e : n ++ '_' :: '_' :: '_' :: p = n' ++ '_' :: '_' :: '_' :: p') : n = n' ∧ p = p' := by
  rcases Nat.le_total n.length n'.length with h | h
  · exact short_split_le hn' hp h e
  · obtain ⟨h1, h2⟩ := short_split_le hn hp' h e.symm
    exact ⟨h1.symm, h2.symm⟩

/-- The part of the name of an internal function after `name___`. -/
def rest : Option (List TArg) → Bool → Tys → List Char
  | none, um, ps => (if um then ['U', 'M', '_'] else []) ++ mangles ps
  | some as, um, ps =>
    mArgs as ++ '_' :: '_' :: '_' :: ((if um then ['U', 'M', '_'] else []) ++ mangles ps)

/-- Template arguments that can occur: at least one. -/
def ArgsOk : Option (List TArg) → Prop
  | none => True
  | some as => as ≠ [] ∧ ∀ a ∈ as, ArgOk a

theorem head_mangles {ps : Tys} (h : Params ps) : mangles ps = [] ∨ isHead (mangles ps) = true := by
  cases ps with
  | nil => exact Or.inl rfl
  | cons t ts => exact Or.inr (by simpa [mangles] using head_param h.1 (mangles ts))

theorem mangles_ne {ps : Tys} (h : Params ps) (c : Char)
    (hc : c ≠ 'C' ∧ c ≠ 'u' ∧ c ≠ 'v' ∧ c ≠ 's' ∧ c ≠ 'R') (r : List Char) : mangles ps ≠ c :: r := by
  rcases head_mangles h with e | e
  · rw [e]; simp
  · exact head_ne e c hc r

theorem rest_ne {args : Option (List TArg)} {um : Bool} {ps : Tys} (ha : ArgsOk args)
    (hp : Params ps) (r : List Char) : rest args um ps ≠ '_' :: r := by
  cases args with
  | none =>
    cases um with
    | true => simp [rest]
    | false => simpa [rest] using mangles_ne hp '_' (by decide) r
  | some as =>
    cases as with
    | nil => exact absurd rfl ha.1
    | cons a as =>
      have := head_arg (ha.2 a (by simp))
      simpa [rest, mArgs] using head_ne (this _) '_' (by decide) r

theorem um_inj {um um' : Bool} {ps ps' : Tys} (hp : Params ps) (hp' : Params ps')
    (e : (if um then ['U', 'M', '_'] else []) ++ mangles ps =
      (if um' then ['U', 'M', '_'] else []) ++ mangles ps') :
    um = um' ∧ erases ps = erases ps' := by
  cases um <;> cases um' <;> simp only [Bool.false_eq_true, if_false, if_true, List.nil_append,
    List.cons_append] at e
  · exact ⟨rfl, (mangles_eq_iff ps ps' hp hp').1 e⟩
  · exact absurd e (mangles_ne hp 'U' (by decide) _)
  · exact absurd e.symm (mangles_ne hp' 'U' (by decide) _)
  · simp only [List.cons.injEq, true_and] at e
    exact ⟨rfl, (mangles_eq_iff ps ps' hp hp').1 e⟩

theorem none_some {um um' : Bool} {ps ps' : Tys} {as : List TArg} (hp : Params ps)
    (ha : ArgsOk (some as)) : rest none um ps ≠ rest (some as) um' ps' := by
  intro e
  cases um with
  | true =>
    cases as with
    | nil => exact ha.1 rfl
    | cons a as =>
      have := head_arg (ha.2 a (by simp))
      have h2 := head_ne (this (mArgs as ++ '_' :: '_' :: '_' ::
        ((if um' then ['U', 'M', '_'] else []) ++ mangles ps'))) 'U' (by decide)
          ('M' :: '_' :: mangles ps)
      apply h2
      simpa [rest, mArgs] using e.symm
  | false =>
    have h1 := parse_args (asArgs ps) (asArgs_ok ps hp) (argSizes as) [] (Or.inl rfl) rfl
    have h2 := parse_args as ha.2 (argSizes (asArgs ps)) ('_' :: '_' :: '_' ::
        ((if um' then ['U', 'M', '_'] else []) ++ mangles ps')) (Or.inr (Or.inr ⟨_, rfl⟩)) rfl
    simp only [rest, Bool.false_eq_true, if_false, List.nil_append] at e
    rw [List.append_nil, mArgs_asArgs, e, Nat.add_comm, h2] at h1
    simp at h1

theorem rest_inj {args args' : Option (List TArg)} {um um' : Bool} {ps ps' : Tys}
    (ha : ArgsOk args) (ha' : ArgsOk args') (hp : Params ps) (hp' : Params ps')
    (e : rest args um ps = rest args' um' ps') :
    args.map (List.map eraseArg) = args'.map (List.map eraseArg) ∧ um = um' ∧
      erases ps = erases ps' := by
  cases args with
  | none =>
    cases args' with
    | none => exact ⟨rfl, um_inj hp hp' e⟩
    | some as => exact absurd e (none_some hp ha')
  | some as =>
    cases args' with
    | none => exact absurd e.symm (none_some hp' ha)
    | some as' =>
      have h1 := parse_args as ha.2 (argSizes as') ('_' :: '_' :: '_' ::
        ((if um then ['U', 'M', '_'] else []) ++ mangles ps)) (Or.inr (Or.inr ⟨_, rfl⟩)) rfl
      have h2 := parse_args as' ha'.2 (argSizes as) ('_' :: '_' :: '_' ::
        ((if um' then ['U', 'M', '_'] else []) ++ mangles ps')) (Or.inr (Or.inr ⟨_, rfl⟩)) rfl
      simp only [rest] at e
      rw [e, Nat.add_comm, h2] at h1
      simp only [Option.some.injEq, Prod.mk.injEq, List.cons.injEq, true_and] at h1
      exact ⟨by simp [h1.1], um_inj hp hp' h1.2.symm⟩

/-- An internal function: not `extern`, not the copy for the application, not
marked as unmangled. -/
def Internal (l : Linkage) : Prop :=
  l.unmangled = false ∧ l.extern = false ∧ l.app = false ∧ l.regCall = false

theorem symbol_internal {l : Linkage} (hl : Internal l) (nm : List Char)
    (args : Option (List TArg)) (fl : FnFlags) (ret : Ty) (ps : Tys) :
    symbol l nm args fl ret ps =
      (nm ++ '_' :: '_' :: '_' :: rest args fl.unmasked ps) ++ targetSuffix l := by
  obtain ⟨h1, h2, h3, h4⟩ := hl
  cases args <;> simp [symbol, h1, h2, h3, h4, templateSuffix, rest, mangle]

/-- **C30.**  Two internal functions have the same symbol exactly when they
have the same name, the same template arguments, agree on `unmasked`, and
their parameter types are equal, all up to what `erase` removes.  The names
must not contain `___`, and the names of structs and enums not `_5D`. -/
theorem same_symbol_iff (l : Linkage) (hl : Internal l) (nm nm' : List Char)
    (args args' : Option (List TArg)) (fl fl' : FnFlags) (ret ret' : Ty) (ps ps' : Tys)
    (hn : Short nm) (hn' : Short nm') (ha : ArgsOk args) (ha' : ArgsOk args')
    (hp : Params ps) (hp' : Params ps') :
    symbol l nm args fl ret ps = symbol l nm' args' fl' ret' ps' ↔
      nm = nm' ∧ args.map (List.map eraseArg) = args'.map (List.map eraseArg) ∧
        fl.unmasked = fl'.unmasked ∧ erases ps = erases ps' := by
  rw [symbol_internal hl, symbol_internal hl, List.append_cancel_right_eq]
  constructor
  · intro e
    obtain ⟨h1, h2⟩ := short_split hn hn' (fun r => rest_ne ha hp r) (fun r => rest_ne ha' hp' r) e
    exact ⟨h1, rest_inj ha ha' hp hp' h2⟩
  · rintro ⟨rfl, h1, h2, h3⟩
    have hm : mangles ps = mangles ps' := by rw [← mangles_erases ps, h3, mangles_erases]
    cases args <;> cases args' <;> simp_all [rest]
    rw [← mArgs_erase, h1, mArgs_erase]

/-! ## Declarations of one function -/

mutual
/-- Enums at the same position have the same name, and pointers are uniform or
varying. -/
def Coherent (nameOf : Nat → List Char) : Ty → Prop
  | .atomic .. => True
  | .enum nm p _ _ => nm = nameOf p
  | .ptr b v _ _ _ _ => (v = .uniform ∨ v = .varying) ∧ Coherent nameOf b
  | .array b _ => Coherent nameOf b
  | .vec b _ => Coherent nameOf b
  | .struct .. => True
  | .ref t _ _ _ => Coherent nameOf t
  | .func _ r ps => Coherent nameOf r ∧ Coherents nameOf ps
/-- The same for parameter lists. -/
def Coherents (nameOf : Nat → List Char) : Tys → Prop
  | .nil => True
  | .cons t ts => Coherent nameOf t ∧ Coherents nameOf ts
end

mutual
theorem equal_mangle_body (nameOf : Nat → List Char) : ∀ a b : Ty, Coherent nameOf a →
    Coherent nameOf b → a.isConst = b.isConst → checkEqBody false a b = true →
    mangle a = mangle b := by
  intro a b ha hb hc he
  match a, b with
  | .atomic b v c, .atomic b' v' c' =>
    simp [checkEqBody, Ty.isConst] at he hc
    simp [mangle, he, hc]
  | .enum nm p v c, .enum nm' p' v' c' =>
    simp [checkEqBody, Ty.isConst] at he hc
    obtain ⟨rfl, rfl⟩ := he
    have : nm = nm' := ha.trans hb.symm
    simp [mangle, hc, this]
  | .array b n, .array b' n' =>
    simp [checkEqBody, constOk] at he
    simp [mangle, he.1, equal_mangle_body nameOf b b' ha hb he.2.1 he.2.2]
  | .vec b n, .vec b' n' =>
    simp [checkEqBody, constOk] at he
    simp [mangle, he.1, equal_mangle_body nameOf b b' ha hb he.2.1 he.2.2]
  | .struct n v c, .struct n' v' c' =>
    simp [checkEqBody, Ty.isConst] at he hc
    simp [mangle, he, hc]
  | .ptr b v c s f x, .ptr b' v' c' s' f' x' =>
    simp [checkEqBody, constOk] at he
    obtain ⟨⟨⟨⟨h1, h2⟩, h3⟩, -⟩, h4, h5⟩ := he
    have hv : v = v' := by
      rcases ha.1 with rfl | rfl <;> rcases hb.1 with rfl | rfl <;> simp_all
    simp [mangle, hv, h2, h3, equal_mangle_body nameOf b b' ha.2 hb.2 h4 h5]
  | .ref t v c x, .ref t' v' c' x' =>
    simp [checkEqBody, constOk] at he
    simp [mangle, equal_mangle_body nameOf t t' ha hb he.2.1 he.2.2]
  | .func fl r ps, .func fl' r' ps' =>
    simp [checkEqBody, constOk] at he
    simp [mangle, he.1.2, equal_mangles nameOf ps ps' ha.2 hb.2 he.2]
  | .atomic .., .enum .. | .atomic .., .ptr .. | .atomic .., .array .. | .atomic .., .vec ..
  | .atomic .., .struct .. | .atomic .., .ref .. | .atomic .., .func .. => simp [checkEqBody] at he
  | .enum .., .atomic .. | .enum .., .ptr .. | .enum .., .array .. | .enum .., .vec ..
  | .enum .., .struct .. | .enum .., .ref .. | .enum .., .func .. => simp [checkEqBody] at he
  | .ptr .., .atomic .. | .ptr .., .enum .. | .ptr .., .array .. | .ptr .., .vec ..
  | .ptr .., .struct .. | .ptr .., .ref .. | .ptr .., .func .. => simp [checkEqBody] at he
  | .array .., .atomic .. | .array .., .enum .. | .array .., .ptr .. | .array .., .vec ..
  | .array .., .struct .. | .array .., .ref .. | .array .., .func .. => simp [checkEqBody] at he
  | .vec .., .atomic .. | .vec .., .enum .. | .vec .., .ptr .. | .vec .., .array ..
  | .vec .., .struct .. | .vec .., .ref .. | .vec .., .func .. => simp [checkEqBody] at he
  | .struct .., .atomic .. | .struct .., .enum .. | .struct .., .ptr .. | .struct .., .array ..
  | .struct .., .vec .. | .struct .., .ref .. | .struct .., .func .. => simp [checkEqBody] at he
  | .ref .., .atomic .. | .ref .., .enum .. | .ref .., .ptr .. | .ref .., .array ..
  | .ref .., .vec .. | .ref .., .struct .. | .ref .., .func .. => simp [checkEqBody] at he
  | .func .., .atomic .. | .func .., .enum .. | .func .., .ptr .. | .func .., .array ..
  | .func .., .vec .. | .func .., .struct .. | .func .., .ref .. => simp [checkEqBody] at he
theorem equal_mangles (nameOf : Nat → List Char) : ∀ a b : Tys, Coherents nameOf a →
    Coherents nameOf b → checkEqs false a b = true → mangles a = mangles b
  | .nil, .nil, _, _, _ => rfl
  | .cons t ts, .cons u us, ha, hb, he => by
    simp [checkEqs, constOk] at he
    simp [mangles, equal_mangle_body nameOf t u ha.1 hb.1 he.1.1 he.1.2,
      equal_mangles nameOf ts us ha.2 hb.2 he.2]
  | .nil, .cons .., _, _, he => by simp [checkEqs] at he
  | .cons .., .nil, _, _, he => by simp [checkEqs] at he
end

/-- **C30, one function.**  Declarations the compiler takes for the same
function (`Type::Equal`) have the same symbol, so a definition and a
declaration in another file meet. -/
theorem redeclaration_same_symbol (nameOf : Nat → List Char) (l : Linkage) (nm : List Char)
    (args : Option (List TArg)) (fl fl' : FnFlags) (ret ret' : Ty) (ps ps' : Tys)
    (h : Coherent nameOf (.func fl ret ps)) (h' : Coherent nameOf (.func fl' ret' ps'))
    (he : equal (.func fl ret ps) (.func fl' ret' ps') = true) :
    symbol l nm args fl ret ps = symbol l nm args fl' ret' ps' := by
  have : mangle (.func fl ret ps) = mangle (.func fl' ret' ps') := by
    simp only [equal, checkEq, Bool.and_eq_true] at he
    exact equal_mangle_body nameOf _ _ h h' rfl he.2
  simp [symbol, this]

/-! ## Overloads -/

/-- `varying int`. -/
def vInt : Ty := .atomic .int32 .varying false
/-- `uniform int`. -/
def uInt : Ty := .atomic .int32 .uniform false

mutual
/-- Types without the parts that are not written into names: no `const`
pointers, no function pointers, no address spaces; a named enum or none at
each name (`posOf`). -/
def Plain (posOf : List Char → Nat) : Ty → Prop
  | .atomic .. => True
  | .enum nm p _ _ => p = posOf nm
  | .ptr b _ c _ _ a => c = false ∧ a = 0 ∧ Plain posOf b
  | .array b _ => Plain posOf b
  | .vec b _ => Plain posOf b
  | .struct .. => True
  | .ref t v c a => v = t.variability ∧ c = t.isConst ∧ a = 0 ∧ Plain posOf t
  | .func .. => False
/-- The same for parameter lists. -/
def Plains (posOf : List Char → Nat) : Tys → Prop
  | .nil => True
  | .cons t ts => Plain posOf t ∧ Plains posOf ts
end

theorem plain_inj (posOf : List Char → Nat) : ∀ a b : Ty, Plain posOf a → Plain posOf b →
    erase a = erase b → a = b
  | .atomic .., b, _, hb, e => by cases b <;> simp_all [erase]
  | .enum .., b, ha, hb, e => by cases b <;> simp_all [erase, Plain]
  | .ptr x .., b, ha, hb, e => by
    cases b <;> simp_all [erase, Plain]
    exact plain_inj posOf x _ ha.2.2 hb.2.2 e.1
  | .array x .., b, ha, hb, e => by
    cases b <;> simp_all [erase, Plain]
    exact plain_inj posOf x _ ha hb e.1
  | .vec x .., b, ha, hb, e => by
    cases b <;> simp_all [erase, Plain]
    exact plain_inj posOf x _ ha hb e.1
  | .struct .., b, _, hb, e => by cases b <;> simp_all [erase]
  | .ref x .., b, ha, hb, e => by
    cases b <;> simp_all [erase, Plain]
    have := plain_inj posOf x _ ha.2.2.2 hb.2.2.2 e
    subst this
    simp
  | .func .., b, ha, hb, e => ha.elim

theorem plains_inj (posOf : List Char → Nat) : ∀ a b : Tys, Plains posOf a → Plains posOf b →
    erases a = erases b → a = b
  | .nil, .nil, _, _, _ => rfl
  | .nil, .cons .., _, _, e => by simp [erases] at e
  | .cons .., .nil, _, _, e => by simp [erases] at e
  | .cons t ts, .cons u us, ha, hb, e => by
    simp only [erases, Tys.cons.injEq] at e
    rw [plain_inj posOf t u ha.1 hb.1 e.1, plains_inj posOf ts us ha.2 hb.2 e.2]

/-- **C30, overloads.**  Without `const` pointers, function pointers and
address spaces, and with different names for different enums, different
parameter lists have different symbols. -/
theorem overloads_differ_partial (posOf : List Char → Nat) (l : Linkage) (hl : Internal l)
    (nm : List Char) (hn : Short nm) (fl fl' : FnFlags) (ret ret' : Ty) (ps ps' : Tys)
    (hp : Params ps) (hp' : Params ps') (he : Plains posOf ps) (he' : Plains posOf ps')
    (hne : ps ≠ ps') :
    symbol l nm none fl ret ps ≠ symbol l nm none fl' ret' ps' := by
  intro e
  have := (same_symbol_iff l hl nm nm none none fl fl' ret ret' ps ps' hn hn trivial trivial hp hp').1 e
  exact hne (plains_inj posOf ps ps' he he' this.2.2.2)

/-- `f(S<2> * uniform, const uniform int[3], float<4> &)` and the same with
`float<5>`. -/
example :
    let ps (n : Nat) : Tys := .ofList [.ptr (.struct ['S'] (.soa 2) false) .uniform false true false 0,
      .array (.atomic .int32 .uniform true) 3, .ref (.vec (.atomic .float .varying false) n) .varying false 0]
    Params (ps 4) ∧ Plains (fun _ => 0) (ps 4) ∧ Params (ps 5) ∧ ps 4 ≠ ps 5 ∧
    symbol {} ['f'] none {} vInt (ps 4) = ['f', '_', '_', '_', 'u', 'n', '_', '3', 'C', '_',
      '-', 's', '-', 's', '_', '5', 'B', '_', 's', 'o', 'a', '<', '2', '>', 'S', '_', '5', 'D',
      '_', '_', '3', 'E', '_', 'C', 'u', 'n', 'i', '_', '5', 'B', '_', '3', '_', '5', 'D', '_',
      'R', 'E', 'F', 'v', 'y', 'f', '_', '3', 'C', '_', '4', '_', '3', 'E', '_'] := by
  refine ⟨?_, ?_, ?_, by decide, by decide⟩ <;>
    simp [Tys.ofList, Params, Param, Base, Data, Clean, Plains, Plain, Ty.variability, Ty.isConst] <;>
    decide

example : Internal {} ∧ Short ['r', 'e', 'd', 'u', 'c', 'e', '_', 'a', 'd', 'd'] ∧ Short ['_',
      '_', 'f', 'o', 'o'] := by
  refine ⟨⟨rfl, rfl, rfl, rfl⟩, ?_, ?_⟩ <;> unfold Short <;> decide

/-! ## Collisions -/

/-- Two functions the compiler keeps apart (neither is a redeclaration of the
other, and they differ in a parameter type) with the same symbol. -/
def Collide (ps ps' : Tys) : Prop :=
  checkEqs false ps ps' = false ∧ Params ps ∧ Params ps' ∧
    ∀ l nm fl ret ret', symbol l nm none fl ret ps = symbol l nm none fl ret' ps'

theorem collide_of_erases {ps ps' : Tys} (h1 : checkEqs false ps ps' = false) (h2 : Params ps)
    (h3 : Params ps') (h : erases ps = erases ps') : Collide ps ps' := by
  refine ⟨h1, h2, h3, fun l nm fl ret ret' => ?_⟩
  have hm : mangles ps = mangles ps' := by rw [← mangles_erases ps, h, mangles_erases]
  simp [symbol, mangle, hm]

/-- `f(int * const p)` and `f(int * p)`. -/
theorem const_pointer_collision :
    Collide (.ofList [.ptr vInt .uniform true false false 0])
      (.ofList [.ptr vInt .uniform false false false 0]) :=
  collide_of_erases (by decide) (by simp [Tys.ofList, Params, Param, Base, vInt])
    (by simp [Tys.ofList, Params, Param, Base, vInt]) (by decide)

/-- `f(int (*p)(int))` and `f(float (*p)(int))`. -/
theorem function_pointer_collision :
    Collide (.ofList [uniformPtr (.func {} vInt (.ofList [vInt]))])
      (.ofList [uniformPtr (.func {} (.atomic .float .varying false) (.ofList [vInt]))]) :=
  collide_of_erases (by decide) (by simp [Tys.ofList, Params, Param, Base, uniformPtr, vInt])
    (by simp [Tys.ofList, Params, Param, Base, uniformPtr, vInt]) (by decide)

/-- Two enums without a name, as in `typedef enum { A, B } E;`. -/
theorem anonymous_enum_collision :
    Collide (.ofList [.enum [] 1 .uniform false]) (.ofList [.enum [] 2 .uniform false]) :=
  collide_of_erases (by decide)
    (by simp [Tys.ofList, Params, Param, Clean])
    (by simp [Tys.ofList, Params, Param, Clean]) (by decide)

/-- Without the condition on struct names: a function of one struct parameter
and a function of two. -/
theorem struct_name_collision :
    mangles (.ofList [.struct ['a', '_', '5', 'D', '_', 's', '_', '5', 'B', '_', 'u', 'n',
      'b'] .uniform false]) =
      mangles (.ofList [.struct ['a'] .uniform false, .struct ['b'] .uniform false]) := by
  decide

/-- Without the condition on function names: the instance `f<int>(int)` of a
template and a function named `f___vyi`. -/
theorem template_collision :
    symbol {} ['f'] (some [.type vInt]) {} vInt (.ofList [vInt]) =
      symbol {} ['f', '_', '_', '_', 'v', 'y', 'i'] none {} vInt (.ofList [vInt]) := by
  decide

/-- Exported functions are called by their plain name from the application,
and `extern "C"` functions everywhere, whatever the parameters. -/
theorem plain_name (l : Linkage) (h : l.app = true ∨ l.extern = true) (hr : l.regCall = false)
    (hi : l.isa = none) (nm : List Char) (args : Option (List TArg)) (fl : FnFlags) (ret : Ty)
    (ps : Tys) : symbol l nm args fl ret ps = nm := by
  rcases h with h | h <;> simp [symbol, h, hr, targetSuffix, hi]

/-- With several targets, the copies of an exported function have different
symbols. -/
theorem targets_differ (l l' : Linkage) (s s' : List Char) (hs : s ≠ s') (hl : l.unmangled = false)
    (hl' : l'.unmangled = false) (ha : l.app = true) (ha' : l'.app = true)
    (hr : l.regCall = l'.regCall) (hi : l.isa = some s)
    (hi' : l'.isa = some s') (nm : List Char) (args : Option (List TArg)) (fl : FnFlags) (ret : Ty)
    (ps : Tys) : symbol l nm args fl ret ps ≠ symbol l' nm args fl ret ps := by
  simp [symbol, ha, ha', hr, targetSuffix, hi, hi', hl, hl', hs]

example : symbol { app := true, isa := some ['a', 'v', 'x', '2'] } ['f'] none {} vInt .nil =
    ['f', '_', 'a', 'v', 'x', '2'] := by decide

end Ispc.Mangle
