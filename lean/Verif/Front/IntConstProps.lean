import Verif.Front.IntConst

/-!
# C74: integer constants in declarations and labels

Specification: `val` is the value of a constant, a mathematical integer; `cEnum` gives enumerators the values that they
have in C, and `Matches` and `Start` say at which label a `switch` begins in C.
-/

namespace Ispc.IntConst

/-- The value of a constant. -/
def val (c : Con) : Int := if c.k.unsigned then (c.b.toNat : Int) else c.b.toInt

theorem fits64 (z : BitVec 64) :
    (z.setWidth 32).signExtend 64 = z ↔ -2 ^ 31 ≤ z.toInt ∧ z.toInt < 2 ^ 31 := by
  rw [← BitVec.toInt_inj, BitVec.toInt_signExtend_of_le (by omega), BitVec.toInt_setWidth, BitVec.toInt_eq_toNat_cond]
  have h := z.isLt
  rw [Int.bmod_def]
  split <;> split <;> omega

theorem trunc64 (z : BitVec 64) : ((z.setWidth 32).toNat : Int) = z.toInt % 2 ^ 32 := by
  rw [BitVec.toNat_setWidth, BitVec.toInt_eq_toNat_cond]
  have h := z.isLt
  split <;> omega

theorem bits_le (k : Kind) : k.bits ≤ 64 := by cases k <;> decide

theorem sext_toInt (c : Con) : (sext c).toInt = c.b.toInt :=
  BitVec.toInt_signExtend_of_le (bits_le _)

theorem zext_toNat (c : Con) : (zext c).toNat = c.b.toNat := by
  unfold zext
  rw [BitVec.toNat_setWidth]
  exact Nat.mod_eq_of_lt (Nat.lt_of_lt_of_le c.b.isLt (Nat.pow_le_pow_right (by omega) (bits_le _)))

theorem toInt_cases (c : Con) : (2 * c.b.toNat < 2 ^ c.k.bits ∧ c.b.toInt = c.b.toNat) ∨
    (2 ^ c.k.bits ≤ 2 * c.b.toNat ∧ c.b.toInt = (c.b.toNat : Int) - (2 ^ c.k.bits : Nat)) := by
  rw [BitVec.toInt_eq_toNat_cond]
  split <;> omega

/-! ## Which constants are accepted, and as what -/

/-- The values of the types: bit patterns of signed types stand for numbers from −2ⁿ⁻¹, those of other types, of `bool` and of
enumerations for numbers from 0. -/
theorem val_of_type :
    (∀ b : BitVec 1, val ⟨.bool, b⟩ = b.toNat) ∧ (∀ b : BitVec 8, val ⟨.int8, b⟩ = b.toInt) ∧ (∀ b : BitVec 8, val ⟨.uint8, b⟩ = b.toNat) ∧
      (∀ b : BitVec 16, val ⟨.int16, b⟩ = b.toInt) ∧ (∀ b : BitVec 16, val ⟨.uint16, b⟩ = b.toNat) ∧
      (∀ b : BitVec 32, val ⟨.int32, b⟩ = b.toInt) ∧ (∀ b : BitVec 32, val ⟨.uint32, b⟩ = b.toNat) ∧
      (∀ b : BitVec 64, val ⟨.int64, b⟩ = b.toInt) ∧ (∀ b : BitVec 64, val ⟨.uint64, b⟩ = b.toNat) ∧
      ∀ b : BitVec 32, val ⟨.enum, b⟩ = b.toNat :=
  ⟨fun _ => rfl, fun _ => rfl, fun _ => rfl, fun _ => rfl, fun _ => rfl, fun _ => rfl, fun _ => rfl, fun _ => rfl, fun _ => rfl, fun _ => rfl⟩

theorem accept_iff (c : Con) :
    (getInt c).isSome ↔
      (-2 ^ 31 ≤ val c ∧ val c < 2 ^ 31) ∨ c.k.bits = 32 ∨ (c.k = .uint64 ∧ 2 ^ 64 - 2 ^ 31 ≤ val c) := by
  have key : (getInt c).isSome ↔ -2 ^ 31 ≤ c.b.toInt ∧ c.b.toInt < 2 ^ 31 := by
    rw [← sext_toInt, ← fits64]
    unfold getInt
    split <;> simp_all
  rw [key, val]
  have h1 := toInt_cases c
  have h2 := c.b.isLt
  generalize c.b.toInt = i at *
  generalize c.b.toNat = n at *
  cases hk : c.k <;> simp only [hk, Kind.bits, Kind.unsigned, Bool.false_eq_true, ↓reduceIte, reduceCtorEq,
    false_and, true_and, or_true, or_false, iff_true] at * <;> omega

/-- An accepted constant is taken modulo 2³². -/
theorem accept_value {c : Con} {v : BitVec 32} (h : getInt c = some v) : (v.toNat : Int) = val c % 2 ^ 32 := by
  unfold getInt at h
  split at h
  · simp only [Option.some.injEq] at h
    subst h
    unfold val
    split
    · rw [BitVec.toNat_setWidth, zext_toNat]
      omega
    · rw [trunc64, sext_toInt]
  · simp at h

/-- The size of an array is the value of the constant, and sizes of 2³¹ and more are refused. -/
theorem dim_iff (c : Con) (n : Nat) : dim c = some n ↔ val c = n ∧ n < 2 ^ 31 := by
  have ha := accept_iff c
  unfold dim
  cases h : getInt c with
  | none =>
    simp only [h, Option.isSome_none, Bool.false_eq_true, false_iff, not_or] at ha
    simp only [reduceCtorEq, false_iff]
    omega
  | some v =>
    have hv := accept_value h
    simp only [h, Option.isSome_some, true_iff] at ha
    have hb := c.b.isLt
    have ht := toInt_cases c
    have hn := v.isLt
    unfold val at *
    simp only [BitVec.toInt_eq_toNat_cond]
    generalize c.b.toInt = i at *
    generalize c.b.toNat = m at *
    generalize v.toNat = k at *
    cases hk : c.k <;> simp only [hk, Kind.bits, Kind.unsigned, Bool.false_eq_true, ↓reduceIte, reduceCtorEq,
      false_and, true_and, or_true, or_false] at * <;>
      split <;> split <;> simp only [Option.some.injEq, reduceCtorEq, false_iff] <;> omega

example : dim ⟨.uint8, 200#8⟩ = some 200 := by decide

example : dim ⟨.uint32, 3000000000#32⟩ = none := by decide

example : getInt ⟨.bool, 1#1⟩ = some 1#32 ∧ getInt ⟨.int8, 255#8⟩ = some 4294967295#32 := by decide

/-- A constant of 2³² − 1 is refused if it has type `uint64`, and accepted if it has type `uint32`. -/
example : getInt ⟨.uint64, 4294967295#64⟩ = none ∧ getInt ⟨.uint32, 4294967295#32⟩ = some 4294967295#32 := by decide

/-- “must be representable with a 32-bit integer” does not hold of what is accepted: 2⁶⁴ − 1 is, and becomes −1. -/
theorem accept_wrong : ∃ c : Con, (getInt c).isSome ∧ ¬ (-2 ^ 31 ≤ val c ∧ val c < 2 ^ 32) :=
  ⟨⟨.uint64, -1#64⟩, by decide, by decide⟩

/-! ## Enumerators -/

/-- The value of an expression in C. -/
def exVal (env : Nat → Option Int) : Ex → Option Int
  | .con c => some (val c)
  | .name s => env s

/-- The enumerators and their values in C: a value that is written, or else one more than the one before, beginning with
0; an enumerator can be used in the values of the ones after it. -/
def cEnum (env : Nat → Option Int) (next : Int) : List Decl → Option (List (Nat × Int))
  | [] => some []
  | d :: ds =>
    match (match d.value with
      | none => some next
      | some e => exVal env e) with
    | none => none
    | some v =>
      (cEnum (fun s => if s = d.name then some v else env s) (v + 1) ds).map ((d.name, v) :: ·)

/-- No value names an enumerator of the same enumeration. -/
def NoBack (ds : List Decl) : Prop :=
  ∀ d ∈ ds, ∀ s, d.value = some (.name s) → ∀ d' ∈ ds, d'.name ≠ s

theorem finalize_length (vs : List (Option (BitVec 32))) : ∀ n, (finalize n vs).length = vs.length := by
  induction vs with
  | nil => intro n; rfl
  | cons o r ih => intro n; cases o <;> simp [finalize, ih]

theorem enumerators_length {env : Env} :
    ∀ {ds : List Decl} {vs}, enumerators env ds = some vs → vs.length = ds.length := by
  intro ds
  induction ds with
  | nil => intro vs h; simp [enumerators] at h; simp [← h]
  | cons d ds ih =>
    intro vs h
    simp only [enumerators] at h
    cases h1 : enumerator env d <;> cases h2 : enumerators env ds <;> simp only [h1, h2, reduceCtorEq] at h
    simp only [Option.some.injEq] at h
    subst h
    simp [ih h2]

/-- An enumerator with a value has it, one without has one more than the one before it, the first 0. -/
theorem finalize_values (vs : List (Option (BitVec 32))) (i : Nat) (h : i < vs.length) :
    (finalize 0 vs)[i]'(by rw [finalize_length]; exact h) =
      match vs[i] with
      | some v => v
      | none => if hi : i = 0 then 0 else (finalize 0 vs)[i - 1]'(by rw [finalize_length]; omega) + 1 := by
  have gen : ∀ (vs : List (Option (BitVec 32))) (n : BitVec 32) (i : Nat) (h : i < vs.length),
      (finalize n vs)[i]'(by rw [finalize_length]; exact h) =
        match vs[i] with
        | some v => v
        | none => if hi : i = 0 then n else (finalize n vs)[i - 1]'(by rw [finalize_length]; omega) + 1 := by
    intro vs
    induction vs with
    | nil => intro n i h; simp at h
    | cons o r ih =>
      intro n i h
      cases i with
      | zero => cases o <;> simp [finalize]
      | succ i =>
        have h' : i < r.length := by simpa using h
        cases o with
        | none =>
          simp only [finalize, List.getElem_cons_succ, ih _ i h']
          cases hri : r[i] with
          | some v => simp
          | none => cases i <;> simp
        | some v =>
          simp only [finalize, List.getElem_cons_succ, ih _ i h']
          cases hri : r[i] with
          | some v => simp
          | none => cases i <;> simp
  exact gen vs 0 i h

theorem ofInt_of_getInt {c : Con} {v : BitVec 32} (h : getInt c = some v) : v = BitVec.ofInt 32 (val c) := by
  apply BitVec.eq_of_toNat_eq
  have := accept_value h
  rw [BitVec.toNat_ofInt]
  omega

theorem enum_aux (env : Env) :
    ∀ (ds : List Decl) (vs : List (Option (BitVec 32))) (cenv : Nat → Option Int) (next : Int),
      enumerators env ds = some vs →
      (∀ d ∈ ds, ∀ s, d.value = some (.name s) → cenv s = (env s).map val) → NoBack ds →
      ∃ cs, cEnum cenv next ds = some cs ∧
        (ds.map (·.name)).zip (finalize (BitVec.ofInt 32 next) vs) = cs.map fun p => (p.1, BitVec.ofInt 32 p.2) := by
  intro ds
  induction ds with
  | nil =>
    intro vs cenv next h _ _
    exact ⟨[], rfl, by simp⟩
  | cons d ds ih =>
    intro vs cenv next h he hb
    simp only [enumerators] at h
    cases h1 : enumerator env d <;> cases h2 : enumerators env ds <;> simp only [h1, h2, reduceCtorEq] at h
    rename_i o ws
    simp only [Option.some.injEq] at h
    subst h
    have step : ∃ v : Int, (match d.value with | none => some next | some e => exVal cenv e) = some v ∧
        (∀ r, finalize (BitVec.ofInt 32 next) (o :: r) =
          BitVec.ofInt 32 v :: finalize (BitVec.ofInt 32 (v + 1)) r) := by
      have hadd : ∀ i : Int, BitVec.ofInt 32 i + 1 = BitVec.ofInt 32 (i + 1) := by
        intro i; rw [BitVec.ofInt_add]; rfl
      unfold enumerator at h1
      cases hv : d.value with
      | none =>
        simp only [hv, Option.some.injEq] at h1
        subst h1
        exact ⟨next, rfl, fun r => by rw [finalize, hadd]⟩
      | some e =>
        simp only [hv] at h1
        cases hc : eval env e with
        | none => simp [hc] at h1
        | some c =>
          simp only [hc, Option.map_eq_some_iff] at h1
          obtain ⟨w, hw, rfl⟩ := h1
          refine ⟨val c, ?_, fun r => ?_⟩
          · cases e with
            | con c' =>
              simp only [eval, Option.some.injEq] at hc
              simp [exVal, hc]
            | name s =>
              simp only [eval] at hc
              simp [exVal, he d (by simp) s hv, hc]
          · simp only [finalize]
            rw [ofInt_of_getInt hw, hadd]
    obtain ⟨v, hv, hf⟩ := step
    obtain ⟨cs, h3, h4⟩ := ih ws (fun s => if s = d.name then some v else cenv s) (v + 1) h2
      (by
        intro d' hd' s hs
        have hne := hb d' (by simp [hd']) s hs d (by simp)
        simp only [if_neg (Ne.symm hne)]
        exact he d' (by simp [hd']) s hs)
      (fun d' hd' s hs d'' hd'' => hb d' (by simp [hd']) s hs d'' (by simp [hd'']))
    refine ⟨(d.name, v) :: cs, ?_, ?_⟩
    · rw [cEnum]
      simp only [hv, h3, Option.map_some]
    · rw [hf]
      simp [h4]

/-- The values are those of C, modulo 2³², and the same if those of C fit. -/
theorem enum_partial (env : Env) (ds : List Decl) (out : List (Nat × BitVec 32))
    (h : createEnum env ds = some out) (hb : NoBack ds) :
    ∃ cs, cEnum (fun s => (env s).map val) 0 ds = some cs ∧
      out = cs.map (fun p => (p.1, BitVec.ofInt 32 p.2)) ∧
      ((∀ p ∈ cs, 0 ≤ p.2 ∧ p.2 < 2 ^ 32) → out.map (fun p => (p.1, (p.2.toNat : Int))) = cs) := by
  unfold createEnum at h
  cases hv : enumerators env ds with
  | none => simp [hv] at h
  | some vs =>
    simp only [hv, Option.some.injEq] at h
    obtain ⟨cs, h1, h2⟩ := enum_aux env ds vs _ 0 hv (fun _ _ _ _ => rfl) hb
    have h3 : out = cs.map fun p => (p.1, BitVec.ofInt 32 p.2) := by rw [← h, ← h2]; rfl
    refine ⟨cs, h1, h3, fun hr => ?_⟩
    subst h3
    rw [List.map_map]
    conv => rhs; rw [← List.map_id cs]
    apply List.map_congr_left
    intro p hp
    have := hr p hp
    simp only [Function.comp, BitVec.toNat_ofInt, id]
    ext
    · rfl
    · simp only; omega

/-- An enumeration is accepted if each value that is written is. -/
theorem enum_accept_iff (env : Env) (ds : List Decl) :
    (createEnum env ds).isSome ↔
      ∀ d ∈ ds, ∀ e, d.value = some e → ∃ c, eval env e = some c ∧ (getInt c).isSome := by
  have h0 : (createEnum env ds).isSome ↔ (enumerators env ds).isSome := by
    unfold createEnum
    cases enumerators env ds <;> simp
  rw [h0]
  induction ds with
  | nil => simp [enumerators]
  | cons d ds ih =>
    have h1 : (enumerators env (d :: ds)).isSome ↔ (enumerator env d).isSome ∧ (enumerators env ds).isSome := by
      rw [enumerators]
      cases enumerator env d <;> cases enumerators env ds <;> simp
    have h2 : (enumerator env d).isSome ↔
        ∀ e, d.value = some e → ∃ c, eval env e = some c ∧ (getInt c).isSome := by
      unfold enumerator
      cases d.value with
      | none => simp
      | some e => cases he : eval env e <;> simp [he]
    have ih' := ih (by unfold createEnum; cases enumerators env ds <;> simp)
    refine h1.trans ((and_congr h2 ih').trans ?_)
    simp

/-- `enum { A, B = 5, C }` with `B` given by a name. -/
example : createEnum (fun s => if s = 9 then some ⟨.int8, 5#8⟩ else none)
    [⟨0, none⟩, ⟨1, some (.name 9)⟩, ⟨2, none⟩] = some [(0, 0), (1, 5), (2, 6)] := by decide

example : NoBack [⟨0, none⟩, ⟨1, some (.name 9)⟩, ⟨2, none⟩] := by
  intro d hd s hs d' hd'
  simp only [List.mem_cons, List.not_mem_nil, or_false] at hd hd'
  rcases hd with rfl | rfl | rfl <;> simp at hs
  subst hs
  rcases hd' with rfl | rfl | rfl <;> simp

/-- `enum { A = 1, B = A }` is an error, because `A` is not declared yet, and where an outer `A` is declared, `B` has the
value of that one. -/
theorem enum_scope_wrong :
    let ds : List Decl := [⟨0, some (.con ⟨.int32, 1#32⟩)⟩, ⟨1, some (.name 0)⟩]
    (cEnum (fun _ => none) 0 ds = some [(0, 1), (1, 1)] ∧ createEnum (fun _ => none) ds = none) ∧
    (let outer : Con := ⟨.int32, 7#32⟩
     cEnum (fun s => if s = 0 then some (val outer) else none) 0 ds = some [(0, 1), (1, 1)] ∧
     createEnum (fun s => if s = 0 then some outer else none) ds = some [(0, 1), (1, 7)]) := by
  refine ⟨⟨by decide, by decide⟩, by decide, by decide⟩

/-- After 2³² − 1 comes 0. -/
theorem enum_wrap_wrong :
    ∃ ds out cs, NoBack ds ∧ createEnum (fun _ => none) ds = some out ∧ cEnum (fun _ => none) 0 ds = some cs ∧
      cs = [(0, 4294967295), (1, 4294967296)] ∧ out = [(0, 4294967295#32), (1, 0#32)] := by
  refine ⟨[⟨0, some (.con ⟨.uint32, 4294967295#32⟩)⟩, ⟨1, none⟩], _, _, ?_, by decide, by decide, rfl, rfl⟩
  intro d hd s hs
  simp only [List.mem_cons, List.not_mem_nil, or_false] at hd
  rcases hd with rfl | rfl <;> simp at hs

/-! ## The header -/

/-- The C program has the same bits in the enumerator, and the same value below 2³¹. -/
theorem header_partial (v : BitVec 32) :
    BitVec.ofInt 32 (headerValue v) = v ∧ (v.toNat < 2 ^ 31 → headerValue v = v.toNat) := by
  refine ⟨by simp [headerValue], fun h => ?_⟩
  rw [headerValue, BitVec.toInt_eq_toNat_cond, if_pos (by omega)]

/-- An enumerator of 2³¹ or more is a negative number in the header. -/
theorem header_wrong (v : BitVec 32) (h : 2 ^ 31 ≤ v.toNat) : headerValue v < 0 ∧ headerValue v ≠ v.toNat := by
  have := v.isLt
  rw [headerValue, BitVec.toInt_eq_toNat_cond, if_neg (by omega)]
  omega

example : headerValue 2147483648#32 = -2147483648 := by decide

/-! ## switch -/

/-- Bits of the type to which C promotes the expression of a `switch`. -/
def promoted (x : Con) : Nat := if x.k.bits ≤ 32 then 32 else 64

/-- C compares after converting the constant to the type of the expression. -/
def Matches (x c : Con) : Prop := val x % 2 ^ promoted x = val c % 2 ^ promoted x

/-- The label where a `switch` on `x` begins in C; `none`: it is skipped. -/
def Start (x : Con) (ls : List Label) : Option Nat → Prop
  | some i => (∃ c, ls[i]? = some (some c) ∧ Matches x c) ∨
      (ls[i]? = some none ∧ ∀ c, some c ∈ ls → ¬ Matches x c)
  | none => none ∉ ls ∧ ∀ c, some c ∈ ls → ¬ Matches x c

/-- What C does not allow: two labels with the same value, two `default`. -/
def Clash (x : Con) : Label → Label → Prop
  | some c, some d => val c % 2 ^ promoted x = val d % 2 ^ promoted x
  | none, none => True
  | _, _ => False

/-- An expression of at most 32 bits, or no label that has a 32-bit unsigned constant of 2³¹ or more. -/
def Plain (x : Con) (ls : List Label) : Prop :=
  x.k.bits ≤ 32 ∨ ∀ c, some c ∈ ls → ¬ (c.k.bits = 32 ∧ 2 ^ 31 ≤ val c)

theorem promoted_eq (x : Con) : switchBits x.k = promoted x := by
  unfold promoted switchBits
  cases x.k <;> rfl

theorem switchVal_toNat (x : Con) : ((switchVal x).toNat : Int) = val x % 2 ^ promoted x := by
  rw [← promoted_eq]
  unfold switchVal val
  have hle : x.k.bits ≤ switchBits x.k := by cases x.k <;> decide
  split
  · rw [BitVec.toNat_setWidth]
    norm_cast
  · rw [← BitVec.toInt_signExtend_of_le hle, BitVec.toInt_eq_toNat_cond]
    generalize BitVec.signExtend (switchBits x.k) x.b = z
    have := z.isLt
    generalize switchBits x.k = w at *
    have h2 : ((2 ^ w : Nat) : Int) = 2 ^ w := by norm_cast
    split
    · rw [Int.emod_eq_of_lt (by omega) (by omega)]
    · rw [h2, Int.sub_emod_right, Int.emod_eq_of_lt (by omega) (by omega)]

theorem caseVal_toNat (x c : Con) (ls : List Label) (v : BitVec 32) (hv : getInt c = some v) (hm : some c ∈ ls)
    (hp : Plain x ls) : ((caseVal (switchBits x.k) v).toNat : Int) = val c % 2 ^ promoted x := by
  have h1 := accept_value hv
  have h2 := (accept_iff c).1 (by simp [hv])
  have h3 := toInt_cases c
  have h4 := c.b.isLt
  have h5 := v.isLt
  rw [← promoted_eq]
  have h0 : switchBits x.k = 32 ∨ (switchBits x.k = 64 ∧ x.k.bits = 64) := by
    cases x.k <;> simp [Kind.bits, switchBits]
  have hw : switchBits x.k = 32 ∨ (switchBits x.k = 64 ∧ ¬ (c.k.bits = 32 ∧ 2 ^ 31 ≤ val c)) := by
    rcases hp with hp | hp
    · left; omega
    · exact h0.imp id fun h => ⟨h.1, hp c hm⟩
  generalize switchBits x.k = w at hw
  clear h0 hp hm
  rcases hw with rfl | ⟨rfl, hn⟩
  · simp only [caseVal, BitVec.signExtend_eq]
    exact h1
  · have h6 : (caseVal 64 v).toInt = v.toInt := BitVec.toInt_signExtend_of_le (by omega)
    have h7 := (caseVal 64 v).isLt
    simp only [BitVec.toInt_eq_toNat_cond] at h6
    generalize (caseVal 64 v).toNat = r at *
    generalize v.toNat = m at *
    unfold val at *
    generalize c.b.toInt = i at *
    generalize c.b.toNat = n at *
    cases hk : c.k <;> simp only [hk, Kind.bits, Kind.unsigned, Bool.false_eq_true, ↓reduceIte, reduceCtorEq,
      false_and, true_and, or_false] at * <;> split at h6 <;> split at h6 <;> omega

theorem isCase_iff (x c : Con) (ls : List Label) (v : BitVec 32) (hv : getInt c = some v) (hm : some c ∈ ls)
    (hp : Plain x ls) : isCase x (some v) = true ↔ Matches x c := by
  simp only [isCase, beq_iff_eq, Matches]
  rw [← switchVal_toNat, ← caseVal_toNat x c ls v hv hm hp, ← BitVec.toNat_inj]
  omega

/-- The labels after the parser. -/
theorem labels_get {ls : List Label} :
    ∀ {vs}, labels ls = some vs → vs.length = ls.length ∧
      ∀ i : Nat, (ls[i]? = none ∧ vs[i]? = none) ∨ (ls[i]? = some none ∧ vs[i]? = some none) ∨
        ∃ c v, ls[i]? = some (some c) ∧ vs[i]? = some (some v) ∧ getInt c = some v := by
  induction ls with
  | nil => intro vs h; simp only [labels, Option.some.injEq] at h; subst h; simp
  | cons l r ih =>
    intro vs h
    cases l with
    | none =>
      simp only [labels, Option.map_eq_some_iff] at h
      obtain ⟨ws, hw, rfl⟩ := h
      obtain ⟨h1, h2⟩ := ih hw
      refine ⟨by simp [h1], fun i => ?_⟩
      cases i with
      | zero => simp
      | succ i => simpa using h2 i
    | some c =>
      simp only [labels] at h
      cases hg : getInt c <;> cases hw : labels r <;> simp only [hg, hw, reduceCtorEq] at h
      simp only [Option.some.injEq] at h
      subst h
      obtain ⟨h1, h2⟩ := ih hw
      refine ⟨by simp [h1], fun i => ?_⟩
      cases i with
      | zero => simp [hg]
      | succ i => simpa using h2 i

theorem noDuplicates_iff (vs : List (Option (BitVec 32))) : noDuplicates vs = true ↔ vs.Nodup := by
  induction vs with
  | nil => simp [noDuplicates]
  | cons a r ih => simp [noDuplicates, ih]

theorem nodup_get {vs : List (Option (BitVec 32))} (h : vs.Nodup) {i j : Nat} {a} (hi : vs[i]? = some a)
    (hj : vs[j]? = some a) : i = j := by
  have hil := (List.getElem?_eq_some_iff.1 hi).1
  have := (List.getElem?_inj hil h).1 (hi.trans hj.symm)
  exact this

/-- The switch is refused exactly when C does not allow the labels. -/
theorem labels_partial (x : Con) (ls : List Label) (vs) (h : labels ls = some vs) (hp : Plain x ls) :
    noDuplicates vs = true ↔ ls.Pairwise (fun a b => ¬ Clash x a b) := by
  induction ls generalizing vs with
  | nil => simp only [labels, Option.some.injEq] at h; subst h; simp [noDuplicates]
  | cons l r ih =>
    have hp' : Plain x r := hp.imp id fun hq c hc => hq c (by simp [hc])
    have hcl : ∀ (c : Con) v, getInt c = some v → some c ∈ l :: r → ∀ (d : Con) w, getInt d = some w →
        some d ∈ l :: r → (Clash x (some c) (some d) ↔ v = w) := by
      intro c v hv hc d w hw hd
      have e1 := caseVal_toNat x c _ v hv hc hp
      have e2 := caseVal_toNat x d _ w hw hd hp
      simp only [Clash]
      rw [← e1, ← e2]
      constructor
      · intro e
        have e' : caseVal (switchBits x.k) v = caseVal (switchBits x.k) w := BitVec.eq_of_toNat_eq (by omega)
        have : 32 ≤ switchBits x.k := by cases x.k <;> decide
        have := congrArg BitVec.toInt e'
        unfold caseVal at this
        rw [BitVec.toInt_signExtend_of_le (by omega), BitVec.toInt_signExtend_of_le (by omega)] at this
        exact BitVec.eq_of_toInt_eq this
      · rintro rfl; rfl
    cases l with
    | none =>
      simp only [labels, Option.map_eq_some_iff] at h
      obtain ⟨ws, hw, rfl⟩ := h
      have hg := (labels_get hw).2
      have := ih ws hw hp'
      simp only [noDuplicates, Bool.and_eq_true, this, List.pairwise_cons]
      refine and_congr ?_ Iff.rfl
      simp only [Bool.not_eq_true', List.contains_eq_mem, decide_eq_false_iff_not]
      constructor
      · intro hn b hb hc
        cases b with
        | some d => simp [Clash] at hc
        | none =>
          obtain ⟨i, hi⟩ := List.mem_iff_getElem?.1 hb
          rcases hg i with h | h | ⟨c, v, h, _⟩
          · simp [hi] at h
          · exact hn (List.mem_iff_getElem?.2 ⟨i, h.2⟩)
          · simp [hi] at h
      · intro hn hm
        obtain ⟨i, hi⟩ := List.mem_iff_getElem?.1 hm
        rcases hg i with h | h | ⟨c, v, _, h, _⟩
        · simp [hi] at h
        · exact hn none (List.mem_iff_getElem?.2 ⟨i, h.1⟩) trivial
        · simp [hi] at h
    | some c =>
      simp only [labels] at h
      cases hgc : getInt c <;> cases hw : labels r <;> simp only [hgc, hw, reduceCtorEq] at h
      rename_i v ws
      simp only [Option.some.injEq] at h
      subst h
      have hg := (labels_get hw).2
      have := ih ws hw hp'
      simp only [noDuplicates, Bool.and_eq_true, this, List.pairwise_cons]
      refine and_congr ?_ Iff.rfl
      simp only [Bool.not_eq_true', List.contains_eq_mem, decide_eq_false_iff_not]
      constructor
      · intro hn b hb hc
        cases b with
        | none => simp [Clash] at hc
        | some d =>
          obtain ⟨i, hi⟩ := List.mem_iff_getElem?.1 hb
          rcases hg i with h | h | ⟨d', w, h1, h2, h3⟩
          · simp [hi] at h
          · simp [hi] at h
          · simp only [hi, Option.some.injEq] at h1
            subst h1
            have := (hcl c v hgc (by simp) d w h3 (by simp [hb])).1 hc
            subst this
            exact hn (List.mem_iff_getElem?.2 ⟨i, h2⟩)
      · intro hn hm
        obtain ⟨i, hi⟩ := List.mem_iff_getElem?.1 hm
        rcases hg i with h | h | ⟨d, w, h1, h2, h3⟩
        · simp [hi] at h
        · simp [hi] at h
        · simp only [hi, Option.some.injEq] at h2
          subst h2
          have hd := List.mem_iff_getElem?.2 ⟨i, h1⟩
          exact hn _ hd ((hcl c v hgc (by simp) d v h3 (by simp [hd])).2 rfl)

theorem start_unique (x : Con) (ls : List Label) (hc : ls.Pairwise (fun a b => ¬ Clash x a b)) {o o' : Option Nat}
    (h : Start x ls o) (h' : Start x ls o') : o = o' := by
  have hij : ∀ {i j : Nat} {a b : Label}, ls[i]? = some a → ls[j]? = some b → Clash x a b → Clash x b a → i = j := by
    intro i j a b hi hj h1 h2
    obtain ⟨hi', rfl⟩ := List.getElem?_eq_some_iff.1 hi
    obtain ⟨hj', rfl⟩ := List.getElem?_eq_some_iff.1 hj
    have hq := List.pairwise_iff_getElem.1 hc
    rcases Nat.lt_trichotomy i j with h | h | h
    · exact absurd h1 (hq i j hi' hj' h)
    · exact h
    · exact absurd h2 (hq j i hj' hi' h)
  cases o with
  | none =>
    cases o' with
    | none => rfl
    | some j =>
      rcases h' with ⟨c, h1, h2⟩ | ⟨h1, _⟩
      · exact absurd h2 (h.2 c (List.mem_iff_getElem?.2 ⟨j, h1⟩))
      · exact absurd (List.mem_iff_getElem?.2 ⟨j, h1⟩) h.1
  | some i =>
    cases o' with
    | none =>
      rcases h with ⟨c, h1, h2⟩ | ⟨h1, _⟩
      · exact absurd h2 (h'.2 c (List.mem_iff_getElem?.2 ⟨i, h1⟩))
      · exact absurd (List.mem_iff_getElem?.2 ⟨i, h1⟩) h'.1
    | some j =>
      rcases h with ⟨c, h1, h2⟩ | ⟨h1, h2⟩ <;> rcases h' with ⟨d, h3, h4⟩ | ⟨h3, h4⟩
      · unfold Matches at h2 h4
        exact congrArg some (hij h1 h3 (h2.symm.trans h4) (h4.symm.trans h2))
      · exact absurd h2 (h4 c (List.mem_iff_getElem?.2 ⟨i, h1⟩))
      · exact absurd h4 (h2 d (List.mem_iff_getElem?.2 ⟨j, h3⟩))
      · exact congrArg some (hij h1 h3 trivial trivial)

/-- A varying switch: the program instance begins at the label of C if it was on, and nowhere otherwise. -/
theorem switch_varying_partial (x : Con) (ls : List Label) (vs) (h : labels ls = some vs) (hp : Plain x ls)
    (on : Bool) (i : Nat) (l : Option (BitVec 32)) (hl : vs[i]? = some l) :
    begins on x vs l = true ↔ on = true ∧ Start x ls (some i) := by
  obtain ⟨_, hg⟩ := labels_get h
  have hall : (∀ c, some c ∈ ls → ¬ Matches x c) ↔ (vs.all fun l => !isCase x l) = true := by
    simp only [List.all_eq_true, Bool.not_eq_true']
    constructor
    · intro hn l hl
      cases l with
      | none => rfl
      | some v =>
        obtain ⟨j, hj⟩ := List.mem_iff_getElem?.1 hl
        rcases hg j with h | h | ⟨c, w, h1, h2, h3⟩
        · simp [hj] at h
        · simp [hj] at h
        · simp only [hj, Option.some.injEq] at h2
          subst h2
          have hm := List.mem_iff_getElem?.2 ⟨j, h1⟩
          have := mt (isCase_iff x c ls v h3 hm hp).1 (hn c hm)
          simpa using this
    · intro hn c hc hm
      obtain ⟨j, hj⟩ := List.mem_iff_getElem?.1 hc
      rcases hg j with h | h | ⟨d, w, h1, h2, h3⟩
      · simp [hj] at h
      · simp [hj] at h
      · simp only [hj, Option.some.injEq] at h1
        subst h1
        have := hn (some w) (List.mem_iff_getElem?.2 ⟨j, h2⟩)
        rw [(isCase_iff x c ls w h3 hc hp).2 hm] at this
        simp at this
  rcases hg i with h | ⟨h1, h2⟩ | ⟨c, w, h1, h2, h3⟩
  · simp [hl] at h
  · simp only [hl, Option.some.injEq] at h2
    subst h2
    simp [begins, ← hall, Start, h1]
  · simp only [hl, Option.some.injEq] at h2
    subst h2
    have hm := List.mem_iff_getElem?.2 ⟨i, h1⟩
    simp only [begins, Bool.and_eq_true, isCase_iff x c ls w h3 hm hp, Start, h1, Option.some.injEq, exists_eq_left',
      reduceCtorEq, false_and, or_false]

/-- A uniform switch begins at the label of C. -/
theorem switch_partial (x : Con) (ls : List Label) (vs) (h : labels ls = some vs) (hd : noDuplicates vs = true)
    (hp : Plain x ls) (o : Option Nat) : entry x vs = o ↔ Start x ls o := by
  have hc := (labels_partial x ls vs h hp).1 hd
  have hg := (labels_get h).2
  have hv := switch_varying_partial x ls vs h hp true
  have sound : Start x ls (entry x vs) := by
    unfold entry
    cases h1 : vs.findIdx? (isCase x) with
    | some i =>
      obtain ⟨hi, h2, _⟩ := List.findIdx?_eq_some_iff_getElem.1 h1
      have hget : vs[i]? = some vs[i] := List.getElem?_eq_getElem hi
      refine ((hv i vs[i] hget).1 ?_).2
      cases hl : vs[i] with
      | none => simp [hl, isCase] at h2
      | some v => simpa [begins, hl] using h2
    | none =>
      have hall : (vs.all fun l => !isCase x l) = true := by
        simpa [List.findIdx?_eq_none_iff] using h1
      simp only
      cases h2 : vs.findIdx? (· == none) with
      | some i =>
        obtain ⟨hi, h3, _⟩ := List.findIdx?_eq_some_iff_getElem.1 h2
        have hl : vs[i] = none := by simpa using h3
        have hget : vs[i]? = some none := by rw [List.getElem?_eq_getElem hi, hl]
        exact ((hv i none hget).1 (by simp [begins, hall])).2
      | none =>
        have hnone : none ∉ vs := by
          intro hm
          have := List.findIdx?_eq_none_iff.1 h2 none hm
          simp at this
        refine ⟨fun hm => ?_, fun c hcm hmt => ?_⟩
        · obtain ⟨j, hj⟩ := List.mem_iff_getElem?.1 hm
          rcases hg j with h | h | ⟨c, v, h, _⟩
          · simp [hj] at h
          · exact hnone (List.mem_iff_getElem?.2 ⟨j, h.2⟩)
          · simp [hj] at h
        · obtain ⟨j, hj⟩ := List.mem_iff_getElem?.1 hcm
          rcases hg j with h | h | ⟨d, w, h1, h2, h3⟩
          · simp [hj] at h
          · simp [hj] at h
          · simp only [hj, Option.some.injEq] at h1
            subst h1
            have := List.all_eq_true.1 hall (some w) (List.mem_iff_getElem?.2 ⟨j, h2⟩)
            simp [(isCase_iff x c ls w h3 hcm hp).2 hmt] at this
  exact ⟨fun e => e ▸ sound, fun hs => start_unique x ls hc sound hs⟩

/-- `switch (x) { case 0: case 200: default: case -1: }`. -/
example : let ls : List Label := [some ⟨.int32, 0#32⟩, some ⟨.uint8, 200#8⟩, none, some ⟨.int32, -1#32⟩]
    Plain ⟨.int64, -1#64⟩ ls ∧ ∃ vs, labels ls = some vs ∧ noDuplicates vs = true ∧
      entry ⟨.int64, -1#64⟩ vs = some 3 ∧ entry ⟨.int64, 7#64⟩ vs = some 2 ∧ entry ⟨.uint8, 200#8⟩ vs = some 1 := by
  refine ⟨Or.inr ?_, _, rfl, by decide, by decide, by decide, by decide⟩
  intro c hc
  simp only [List.mem_cons, Option.some.injEq, reduceCtorEq, List.not_mem_nil, or_false, false_or] at hc
  rcases hc with rfl | rfl | rfl <;> decide

/-- With a 64-bit expression, `case 4294967295u` means −1: the value 4294967295 does not begin there, −1 does. -/
theorem switch_wide_wrong :
    let c : Con := ⟨.uint32, 4294967295#32⟩
    ∃ vs, labels [some c] = some vs ∧
      (Start ⟨.int64, 4294967295#64⟩ [some c] (some 0) ∧ entry ⟨.int64, 4294967295#64⟩ vs = none) ∧
      (¬ Start ⟨.int64, -1#64⟩ [some c] (some 0) ∧ entry ⟨.int64, -1#64⟩ vs = some 0) := by
  refine ⟨_, rfl, ⟨Or.inl ⟨_, rfl, by unfold Matches; decide⟩, by decide⟩, ?_, by decide⟩
  rintro (⟨c, h1, h2⟩ | ⟨h1, _⟩)
  · simp only [List.getElem?_cons_zero, Option.some.injEq] at h1
    subst h1
    revert h2
    unfold Matches
    decide
  · simp at h1

end Ispc.IntConst
