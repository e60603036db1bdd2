import Verif.Builtins.AtomicsLane
import Mathlib.Data.Fin.VecNotation

/-!
# Integer division and modulus on varying values (C34)

`src/ctx.cpp:1723-1812` chooses the code for a varying `/` or `%`; `builtins/generic.ispc:283-299` divides lane by lane.
The Xe targets always emit the plain vector instruction (ctx.cpp:1798) and are not covered by the theorems about masks.
`none` is LLVM's undefined behaviour: on most processors the program is killed by a signal.
-/

namespace Ispc.Div

open Ispc.Vec
open Ispc.Scan (allMask movmsk_eq_all)
open Ispc.ForeachActive (Mask movmsk activeLanes activeLanes_spec St foreachActive bodyFor foreach_active_serialises
  foreach_active_all_off)
open Ispc.Atomics (nodup_activeLanes)

variable {W w : Nat}

/-! ## Model -/

/-- The four instructions of `lChooseDivisionName` (ctx.cpp:1670-1721). -/
inductive Op | sdiv | udiv | srem | urem
  deriving DecidableEq

/-- The LLVM instruction on one lane: division by zero and signed overflow are undefined. -/
def scalar (op : Op) (a b : BitVec w) : Option (BitVec w) :=
  match op with
  | .udiv => if b = 0#w then none else some (a.udiv b)
  | .urem => if b = 0#w then none else some (a.umod b)
  | .sdiv => if b = 0#w ∨ (a = BitVec.intMin w ∧ b = BitVec.allOnes w) then none else some (a.sdiv b)
  | .srem => if b = 0#w ∨ (a = BitVec.intMin w ∧ b = BitVec.allOnes w) then none else some (a.srem b)

/-- The instruction on whole vectors: undefined if any lane is. -/
def direct (op : Op) (a b : Vec W (BitVec w)) : Option (Vec W (BitVec w)) :=
  if h : ∀ l : Fin W, (scalar op (a l) (b l)).isSome = true then some fun l => (scalar op (a l) (b l)).get (h l) else none

/-- The body of `__idiv_t`/`__irem_t` (generic.ispc:285-288, 294-297); the assignment to the varying `res` is masked. -/
def body (op : Op) (a b : Vec W (BitVec w)) (i : Nat) (full : Mask W) (σ : St W (Vec W (BitVec w))) :
    Option (St W (Vec W (BitVec w))) := do
  let x ← scalar op (← extract a i) (← extract b i)
  let ins ← insert σ.data i x
  some { σ with data := fun l => if full l then ins l else σ.data l }

/-- `__idiv_t`/`__irem_t` (generic.ispc:283-299), called with the function mask `fm`. -/
def idivT (op : Op) (a b : Vec W (BitVec w)) (fm : Mask W) : Option (Vec W (BitVec w)) :=
  (foreachActive fm (body op a b) W ⟨fun _ => true, fun _ => 0#w⟩).map St.data

/-- `VectorIntDivision` (ctx.cpp:1730-1782). -/
def vectorIntDivision (op : Op) (a b : Vec W (BitVec w)) (mask : Mask W) : Option (Vec W (BitVec w)) :=
  if movmsk mask = allMask W then direct op a b else idivT op a b mask

/-- `BinaryOperator` for varying division (ctx.cpp:1797-1812), not on Xe: a divisor that is one compile-time constant in
all lanes (`lIsConstantVectorOfSameValue`, ctx.cpp:1658-1668) is divided by without looking at the mask. -/
def binaryOperator (constSplat : Bool) (op : Op) (a b : Vec W (BitVec w)) (mask : Mask W) : Option (Vec W (BitVec w)) :=
  if constSplat then direct op a b else vectorIntDivision op a b mask

/-- `if (c) x /= y;` for plain varying variables, as `IfStmt::emitVaryingIf` emits it (stmt.cpp:712-725): the cost is
`COST_ASSIGN + COST_COMPLEX_ARITH_OP` = 5 (expr.cpp:3659-3660, src/ispc.h:980-981) below `PREDICATE_SAFE_IF_STATEMENT_COST` = 6
(src/ispc.h:1009), and `lCheckAllOffSafety` rejects `BinaryExpr` division (ast.cpp:519-524) but not `AssignExpr` division
(ast.cpp:589-594), so the assignment runs under `mask & c` without a test that an instance is on.  `lEmitOpAssign`
(expr.cpp:3405-3408) reaches `BinaryOperator`; the store is masked. -/
def predicatedDivAssign (op : Op) (x y : Vec W (BitVec w)) (mask c : Mask W) : Option (Vec W (BitVec w)) := do
  let m : Mask W := fun l => mask l && c l
  let r ← binaryOperator false op x y m
  some fun l => if m l then r l else x l

/-! ## Specification -/

/-- The operands of a C division: a non-zero divisor and, for signed types, a representable quotient. -/
def CDefined (op : Op) (a b : BitVec w) : Prop :=
  match op with
  | .udiv | .urem => b.toNat ≠ 0
  | .sdiv | .srem => b.toInt ≠ 0 ∧ -(2 ^ (w - 1) : Int) ≤ a.toInt.tdiv b.toInt ∧ a.toInt.tdiv b.toInt < 2 ^ (w - 1)

/-- `r` is the C result on the integers: truncated quotient, or remainder with the sign of the dividend. -/
def CResult (op : Op) (a b r : BitVec w) : Prop :=
  match op with
  | .udiv => r.toNat = a.toNat / b.toNat
  | .urem => r.toNat = a.toNat % b.toNat
  | .sdiv => r.toInt = a.toInt.tdiv b.toInt
  | .srem => r.toInt = a.toInt.tmod b.toInt

/-! ## Proofs: one lane -/

theorem toInt_zero_iff (b : BitVec w) : b.toInt = 0 ↔ b = 0#w := by
  constructor
  · intro h; apply BitVec.eq_of_toInt_eq; rw [h, BitVec.toInt_zero]
  · rintro rfl; exact BitVec.toInt_zero

theorem quotient_range {n : Nat} (a b : BitVec (n + 1)) (hb : b ≠ 0#(n + 1)) :
    (-(2 ^ n : Int) ≤ a.toInt.tdiv b.toInt ∧ a.toInt.tdiv b.toInt < 2 ^ n) ↔
      ¬(a = BitVec.intMin (n + 1) ∧ b = BitVec.allOnes (n + 1)) := by
  have hp : (0 : Int) < 2 ^ n := Int.pow_pos (by omega)
  have ha1 := BitVec.le_toInt a
  have ha2 := BitVec.toInt_lt (x := a)
  rw [Nat.add_sub_cancel] at ha1 ha2
  have hall : (BitVec.allOnes (n + 1)).toInt = -1 := by rw [BitVec.toInt_allOnes]; simp
  have hmin : (BitVec.intMin (n + 1)).toInt = -(2 ^ n : Int) := by
    rw [BitVec.toInt_intMin_of_pos (by omega), Nat.add_sub_cancel]
  have hb0 : b.toInt ≠ 0 := fun h => hb ((toInt_zero_iff b).1 h)
  constructor
  · rintro ⟨_, h2⟩ ⟨ea, eb⟩
    rw [ea, eb, hall, hmin] at h2
    rw [Int.tdiv_neg, Int.tdiv_one] at h2
    omega
  · intro hne
    by_cases hbm : b.toInt = -1
    · have hane : a.toInt ≠ -(2 ^ n : Int) := by
        intro h
        apply hne
        exact ⟨BitVec.eq_of_toInt_eq (by rw [h, hmin]), BitVec.eq_of_toInt_eq (by rw [hbm, hall])⟩
      rw [hbm, Int.tdiv_neg, Int.tdiv_one]
      constructor <;> omega
    · have hle : (a.toInt.tdiv b.toInt).natAbs ≤ a.toInt.natAbs := by
        rw [Int.natAbs_tdiv]; exact Nat.div_le_self _ _
      by_cases hb1 : b.toInt = 1
      · rw [hb1, Int.tdiv_one]; exact ⟨ha1, ha2⟩
      · by_cases ha0 : a.toInt = 0
        · rw [ha0, Int.zero_tdiv]; constructor <;> omega
        · have hlt : (a.toInt.tdiv b.toInt).natAbs < a.toInt.natAbs := by
            rw [Int.natAbs_tdiv]; exact Nat.div_lt_self (by omega) (by omega)
          constructor <;> omega

/-- The instruction is defined exactly where C division is, and gives the C result. -/
theorem scalar_spec (hw : 0 < w) (op : Op) (a b : BitVec w) :
    ((scalar op a b).isSome = true ↔ CDefined op a b) ∧ ∀ r, scalar op a b = some r → CResult op a b r := by
  obtain ⟨n, rfl⟩ : ∃ n, w = n + 1 := ⟨w - 1, by omega⟩
  have hz : b.toNat = 0 ↔ b = 0#(n + 1) := by rw [BitVec.toNat_eq]; simp
  have hs : ∀ x : BitVec (n + 1), (if b = 0#(n + 1) ∨ (a = BitVec.intMin (n + 1) ∧ b = BitVec.allOnes (n + 1)) then
      (none : Option (BitVec (n + 1))) else some x).isSome = true ↔
      (b.toInt ≠ 0 ∧ -(2 ^ (n + 1 - 1) : Int) ≤ a.toInt.tdiv b.toInt ∧ a.toInt.tdiv b.toInt < 2 ^ (n + 1 - 1)) := by
    intro x
    rw [Nat.add_sub_cancel]
    by_cases hb : b = 0#(n + 1)
    · rw [if_pos (Or.inl hb)]
      simp [(toInt_zero_iff b).2 hb]
    · rw [quotient_range a b hb]
      have hb' : b.toInt ≠ 0 := fun h => hb ((toInt_zero_iff b).1 h)
      by_cases h : a = BitVec.intMin (n + 1) ∧ b = BitVec.allOnes (n + 1)
      · rw [if_pos (Or.inr h)]; simp [h]
      · rw [if_neg (by rintro (h' | h'); exacts [hb h', h h'])]
        exact ⟨fun _ => ⟨hb', h⟩, fun _ => rfl⟩
  cases op with
  | udiv =>
    simp only [scalar, CDefined, CResult]
    refine ⟨by rw [Ne, hz]; split <;> simp_all, ?_⟩
    intro r h
    split at h
    · cases h
    · cases h; exact BitVec.toNat_udiv
  | urem =>
    simp only [scalar, CDefined, CResult]
    refine ⟨by rw [Ne, hz]; split <;> simp_all, ?_⟩
    intro r h
    split at h
    · cases h
    · cases h; exact BitVec.toNat_umod
  | sdiv =>
    simp only [scalar, CDefined, CResult]
    refine ⟨hs _, ?_⟩
    intro r h
    split at h
    · cases h
    · rename_i hn
      cases h
      exact BitVec.toInt_sdiv_of_ne_or_ne a b (by
        rw [not_or, not_and_or] at hn
        rcases hn.2 with h | h
        · exact Or.inl h
        · exact Or.inr (by rw [BitVec.neg_one_eq_allOnes]; exact h))
  | srem =>
    simp only [scalar, CDefined, CResult]
    refine ⟨hs _, ?_⟩
    intro r h
    split at h
    · cases h
    · cases h; exact BitVec.toInt_srem a b

/-! ## Proofs: vectors -/

theorem body_eq (op : Op) (a b : Vec W (BitVec w)) (l : Fin W) (full : Mask W) (hfull : full = fun k => decide (k = l))
    (σ : St W (Vec W (BitVec w))) :
    body op a b l.val full σ =
      (scalar op (a l) (b l)).map fun x => { σ with data := fun k => if k = l then x else σ.data k } := by
  unfold body
  simp only [Option.bind_eq_bind]
  rw [extract_lt _ l.isLt, Option.bind_some, extract_lt _ l.isLt, Option.bind_some]
  cases scalar op (a l) (b l) with
  | none => rfl
  | some x =>
    rw [Option.bind_some, insert_lt _ l.isLt, Option.bind_some, Option.map_some]
    subst hfull
    congr 2
    funext k
    by_cases h : k = l <;> simp [h]

/-- Folding the lane step: defined iff every lane is, and then each lane of the list has its own result. -/
theorem fold_spec (f : Fin W → Option (BitVec w)) : ∀ (ls : List (Fin W)) (res : Vec W (BitVec w)),
    match ls.foldlM (fun (s : Vec W (BitVec w)) l => (f l).map fun x => fun k => if k = l then x else s k) res with
    | none => ∃ l ∈ ls, f l = none
    | some r => (∀ l ∈ ls, f l = some (r l)) ∧ ∀ l ∉ ls, r l = res l := by
  intro ls
  induction ls with
  | nil => intro res; exact ⟨by simp, fun _ _ => rfl⟩
  | cons l ls ih =>
    intro res
    rw [List.foldlM_cons]
    cases hl : f l with
    | none => exact ⟨l, by simp, hl⟩
    | some x =>
      simp only [Option.map_some, Option.bind_eq_bind, Option.bind_some]
      have := ih fun k => if k = l then x else res k
      revert this
      cases ls.foldlM (fun (s : Vec W (BitVec w)) l => (f l).map fun x => fun k => if k = l then x else s k)
        (fun k => if k = l then x else res k) with
      | none => rintro ⟨k, hk, e⟩; exact ⟨k, by simp [hk], e⟩
      | some r =>
        rintro ⟨h1, h2⟩
        refine ⟨?_, ?_⟩
        · intro k hk
          rcases List.mem_cons.1 hk with rfl | hk'
          · by_cases hkl : k ∈ ls
            · exact h1 k hkl
            · rw [h2 k hkl, if_pos rfl]; exact hl
          · exact h1 k hk'
        · intro k hk
          rw [List.mem_cons, not_or] at hk
          rw [h2 k hk.2, if_neg hk.1]

theorem idivT_spec (hW : W ≤ 64) (op : Op) (a b : Vec W (BitVec w)) (fm : Mask W) (hact : ∃ l, fm l = true) :
    match idivT op a b fm with
    | none => ∃ l, fm l = true ∧ scalar op (a l) (b l) = none
    | some r => ∀ l, (fm l = true → scalar op (a l) (b l) = some (r l)) ∧ (fm l = false → r l = 0#w) := by
  unfold idivT
  rw [foreach_active_serialises hW fm _ ⟨fun _ => true, fun _ => 0#w⟩ (by obtain ⟨l, h⟩ := hact; exact ⟨l, rfl, h⟩) W
    (Nat.le_refl W)]
  simp only [Bool.true_and]
  have hstep : ∀ (s : Vec W (BitVec w)), ∀ l ∈ activeLanes fm, bodyFor (body op a b) s l =
      (scalar op (a l) (b l)).map fun x => fun k => if k = l then x else s k := by
    intro s l _
    unfold bodyFor
    rw [body_eq op a b l _ (by funext k; rfl)]
    cases scalar op (a l) (b l) <;> rfl
  have hf : (activeLanes fm).foldlM (bodyFor (body op a b)) (fun _ => 0#w) =
      (activeLanes fm).foldlM (fun (s : Vec W (BitVec w)) l => (scalar op (a l) (b l)).map fun x =>
        fun k => if k = l then x else s k) (fun _ => 0#w) := by
    generalize (fun _ => 0#w : Vec W (BitVec w)) = s0
    generalize activeLanes fm = ls at hstep ⊢
    induction ls generalizing s0 with
    | nil => rfl
    | cons l ls ih =>
      rw [List.foldlM_cons, List.foldlM_cons, hstep s0 l (by simp)]
      congr 1
      funext s'
      exact ih s' fun s k hk => hstep s k (by simp [hk])
  rw [hf]
  have := fold_spec (fun l => scalar op (a l) (b l)) (activeLanes fm) fun _ => 0#w
  revert this
  cases (activeLanes fm).foldlM (fun (s : Vec W (BitVec w)) l => (scalar op (a l) (b l)).map fun x =>
        fun k => if k = l then x else s k) (fun _ => 0#w) with
  | none =>
    rintro ⟨l, hl, e⟩
    exact ⟨l, ((activeLanes_spec fm).1 l).1 hl, e⟩
  | some r =>
    rintro ⟨h1, h2⟩ l
    refine ⟨fun h => h1 l (((activeLanes_spec fm).1 l).2 h), fun h => h2 l fun hl => ?_⟩
    have := ((activeLanes_spec fm).1 l).1 hl
    rw [h] at this
    cases this

theorem vectorIntDivision_lanes (hW : W ≤ 64) (op : Op) (a b : Vec W (BitVec w)) (mask : Mask W)
    (hact : ∃ l, mask l = true) :
    match vectorIntDivision op a b mask with
    | none => ∃ l, mask l = true ∧ scalar op (a l) (b l) = none
    | some r => ∀ l, mask l = true → scalar op (a l) (b l) = some (r l) := by
  unfold vectorIntDivision
  by_cases h : movmsk mask = allMask W
  · rw [if_pos h]
    have hall := (movmsk_eq_all hW mask).1 h
    unfold direct
    by_cases hd : ∀ l : Fin W, (scalar op (a l) (b l)).isSome = true
    · rw [dif_pos hd]
      intro l _
      exact (Option.some_get (hd l)).symm
    · rw [dif_neg hd]
      push Not at hd
      obtain ⟨l, hl⟩ := hd
      exact ⟨l, hall l, by simpa using hl⟩
  · rw [if_neg h]
    have := idivT_spec hW op a b mask hact
    revert this
    cases idivT op a b mask with
    | none => exact id
    | some r => exact fun h l => (h l).1

/-- C34: with some instance active, varying `/` and `%` (divisor not one compile-time constant) are undefined only if an
*active* instance's own division is undefined in C, whatever the inactive instances hold. -/
theorem division_defined (hW : W ≤ 64) (hw : 0 < w) (op : Op) (a b : Vec W (BitVec w)) (mask : Mask W)
    (hact : ∃ l, mask l = true) :
    (∃ r, binaryOperator false op a b mask = some r) ↔ ∀ l, mask l = true → CDefined op (a l) (b l) := by
  have := vectorIntDivision_lanes hW op a b mask hact
  simp only [binaryOperator, Bool.false_eq_true, if_false]
  revert this
  cases vectorIntDivision op a b mask with
  | none =>
    rintro ⟨l, hl, e⟩
    refine ⟨(fun h => by obtain ⟨r, h⟩ := h; cases h), fun h => ?_⟩
    have := ((scalar_spec hw op (a l) (b l)).1).2 (h l hl)
    rw [e] at this
    cases this
  | some r =>
    intro h
    refine ⟨fun _ l hl => ?_, fun _ => ⟨r, rfl⟩⟩
    apply ((scalar_spec hw op (a l) (b l)).1).1
    rw [h l hl]
    rfl

/-- C34: and then each active instance has the C result of its own operands. -/
theorem division_result (hW : W ≤ 64) (hw : 0 < w) (op : Op) (a b : Vec W (BitVec w)) (mask : Mask W)
    (hact : ∃ l, mask l = true) (r : Vec W (BitVec w)) (hr : binaryOperator false op a b mask = some r) :
    ∀ l, mask l = true → CResult op (a l) (b l) (r l) := by
  intro l hl
  have := vectorIntDivision_lanes hW op a b mask hact
  simp only [binaryOperator, Bool.false_eq_true, if_false] at hr
  rw [hr] at this
  exact (scalar_spec hw op (a l) (b l)).2 _ (this l hl)

-- an inactive instance divides by zero, another would overflow; the active ones get -7/2 = -3 and 9/-4 = -2
example : (binaryOperator (W := 4) false .sdiv ![-7#32, 5#32, BitVec.intMin 32, 9#32] ![2#32, 0#32, -1#32, -4#32]
    ![true, false, false, true]).map (fun r => (r 0, r 3)) = some (-3#32, -2#32) := by decide +kernel

/-- C34, constant divisor: dividing by a constant other than 0 and -1 is always defined and right in every lane. -/
theorem constant_division (hw : 0 < w) (op : Op) (a : Vec W (BitVec w)) (d : BitVec w) (mask : Mask W) (h0 : d ≠ 0#w)
    (h1 : (op = .sdiv ∨ op = .srem) → d ≠ BitVec.allOnes w) :
    ∃ r, binaryOperator true op a (fun _ => d) mask = some r ∧ ∀ l, CResult op (a l) d (r l) := by
  have hd : ∀ l : Fin W, (scalar op (a l) d).isSome = true := by
    intro l
    cases op with
    | udiv => simp [scalar, h0]
    | urem => simp [scalar, h0]
    | sdiv => simp [scalar, h0, h1 (Or.inl rfl)]
    | srem => simp [scalar, h0, h1 (Or.inr rfl)]
  refine ⟨fun l => (scalar op (a l) d).get (hd l), ?_, fun l => ?_⟩
  · unfold binaryOperator direct
    rw [if_pos rfl, dif_pos hd]
  · exact (scalar_spec hw op (a l) d).2 _ (Option.some_get (hd l)).symm

example : (7#32 : BitVec 32) ≠ 0#32 ∧ ((Op.sdiv = .sdiv ∨ Op.sdiv = .srem) → (7#32 : BitVec 32) ≠ BitVec.allOnes 32) := by
  decide

/-! ## Where the property fails -/

/-- Dividing by the constant -1 is undefined as soon as an *inactive* instance holds the smallest integer
(`if (x != INT_MIN) y = x / -1;`), for every gang and every mask that has such an instance. -/
theorem constant_minus_one_inactive_undefined (a : Vec W (BitVec w)) (mask : Mask W) (l : Fin W) (_hl : mask l = false)
    (ha : a l = BitVec.intMin w) : binaryOperator true .sdiv a (fun _ => BitVec.allOnes w) mask = none := by
  unfold binaryOperator direct
  rw [if_pos rfl, dif_neg]
  intro h
  have := h l
  simp [scalar, ha] at this

/-- In contrast to the same division by a divisor that is not a compile-time constant. -/
theorem variable_minus_one_defined (hW : W ≤ 64) (hw : 0 < w) (a : Vec W (BitVec w)) (mask : Mask W)
    (hact : ∃ l, mask l = true) (h : ∀ l, mask l = true → CDefined .sdiv (a l) (BitVec.allOnes w)) :
    ∃ r, binaryOperator false .sdiv a (fun _ => BitVec.allOnes w) mask = some r :=
  (division_defined hW hw .sdiv a _ mask hact).2 h

example : CDefined .sdiv (5#32) (BitVec.allOnes 32) := by
  rw [← (scalar_spec (by omega) Op.sdiv _ _).1]; decide +kernel

/-- `if (c) x /= y;` is undefined whenever no instance takes the branch, whatever `x` and `y` hold. -/
theorem predicated_div_assign_undefined (hW : W ≤ 64) (hW0 : 0 < W) (op : Op) (x y : Vec W (BitVec w)) (mask c : Mask W)
    (hoff : ∀ l, (mask l && c l) = false) : predicatedDivAssign op x y mask c = none := by
  have hne : movmsk (fun l => mask l && c l) ≠ allMask W := by
    intro h
    have := (movmsk_eq_all hW _).1 h ⟨0, hW0⟩
    rw [hoff] at this
    cases this
  unfold predicatedDivAssign binaryOperator vectorIntDivision idivT
  simp only [Bool.false_eq_true, if_false]
  rw [if_neg hne, foreach_active_all_off hW]
  · rfl
  · intro l; simpa using hoff l

example : ∀ l : Fin 4, ((fun _ => true : Mask 4) l && (fun _ => false : Mask 4) l) = false := by decide

/-- With some instance taking the branch it is right: taken instances get the quotient, the others keep `x`. -/
theorem predicated_div_assign_partial (hW : W ≤ 64) (hw : 0 < w) (op : Op) (x y : Vec W (BitVec w)) (mask c : Mask W)
    (hact : ∃ l, (mask l && c l) = true) (hd : ∀ l, (mask l && c l) = true → CDefined op (x l) (y l)) :
    ∃ r, predicatedDivAssign op x y mask c = some r ∧
      ∀ l, if (mask l && c l) = true then CResult op (x l) (y l) (r l) else r l = x l := by
  obtain ⟨r, hr⟩ := (division_defined hW hw op x y (fun l => mask l && c l) hact).2 hd
  refine ⟨fun l => if (mask l && c l) = true then r l else x l, ?_, ?_⟩
  · unfold predicatedDivAssign
    simp only [hr]
    rfl
  · intro l
    by_cases h : (mask l && c l) = true
    · simp only [h, if_true]
      exact division_result hW hw op x y _ hact r hr l h
    · simp [h]

end Ispc.Div
