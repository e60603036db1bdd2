import Verif.Front.FoldFloat

/-!
# Constant folding of scalars

What the compiler computes for one lane when it folds an operator or a cast
on constants, in C++ with its promotions and its undefined cases, next to
what the generated LLVM instruction computes.

Left out: the internal type `int1`, the warnings, and the rewriting of
divisions under `--opt=fast-math` (Legacy), src/expr.cpp:2713-2767.  The
arithmetic of floating-point numbers itself is a parameter: `APFloat` with
rounding to nearest even and `fadd` etc. are taken to be the same function.
-/

namespace Ispc.Fold

/-! ## Types and values -/

/-- The widths of the integer types. -/
inductive Wd
  | w8 | w16 | w32 | w64
  deriving DecidableEq, Repr

/-- The number of bits. -/
def Wd.bits : Wd → Nat
  | .w8 => 8 | .w16 => 16 | .w32 => 32 | .w64 => 64

/-- The types of constants: `AtomicType` without `void` and `int1`, and enums,
whose values are 32-bit unsigned integers (src/type.cpp:878-880). -/
inductive STy
  | bool
  | int (w : Wd) (s : Bool)
  | enum
  | fp (f : Fmt)
  deriving DecidableEq, Repr

/-- One lane of a constant of the type. -/
abbrev STy.Val : STy → Type
  | .bool => Bool
  | .int w _ => BitVec w.bits
  | .enum => BitVec 32
  | .fp f => FP f

/-- The number an integer of signedness `s` stands for. -/
def val {n : Nat} (s : Bool) (v : BitVec n) : Int := if s then v.toInt else v.toNat

/-- The arithmetic and bit operators, src/expr.h:132-149. -/
inductive Op
  | add | sub | mul | div | mod | shl | shr | band | bxor | bor
  deriving DecidableEq, Repr

/-- The comparisons. -/
inductive Cmp
  | lt | gt | le | ge | eq | ne
  deriving DecidableEq, Repr

/-- What folding does to one lane: a value, no folding (`nullptr`), or an
operation of the compiler itself whose behaviour C++17 leaves undefined. -/
inductive Lane (α : Type)
  | val (a : α)
  | skip
  | ub
  deriving DecidableEq, Repr

/-! ## Folding of integers -/

/-- The width after the integer promotions of C++. -/
def promW (w : Wd) : Nat := if w.bits < 32 then 32 else w.bits

/-- The signedness after the integer promotions. -/
def promS (w : Wd) (s : Bool) : Bool := if w.bits < 32 then true else s

/-- Assigning the result of an arithmetic operation to a variable of the type:
undefined if the promoted type is signed and cannot hold the result. -/
def cxx (w : Wd) (s : Bool) (r : Int) : Lane (BitVec w.bits) :=
  if promS w s = true ∧ ¬ (-2 ^ (promW w - 1) ≤ r ∧ r < 2 ^ (promW w - 1)) then .ub
  else .val (BitVec.ofInt w.bits r)

/-- `lConstFoldBinaryArithOp` and `lConstFoldBinaryIntOp`, one lane,
src/expr.cpp:2454-2463, 2484-2528 and 2620-2645.  The second computation of
`FOLD_OP_REF` in 64 bits, for the warning, overflows only if the first does.
`&`, `^` and `|` are computed without going through the promoted type. -/
def foldArith (op : Op) (w : Wd) (s : Bool) (a b : BitVec w.bits) : Lane (BitVec w.bits) :=
  match op with
  | .add => cxx w s (val s a + val s b)
  | .sub => cxx w s (val s a - val s b)
  | .mul => cxx w s (val s a * val s b)
  | .div => if b = 0#_ then .skip else cxx w s ((val s a).tdiv (val s b))
  | .mod =>
    if b = 0#_ then .skip
    else if cxx w s ((val s a).tdiv (val s b)) = .ub then .ub
    else .val (BitVec.ofInt w.bits ((val s a).tmod (val s b)))
  | .shr =>
    if val s b < 0 ∨ (promW w : Int) ≤ val s b then .ub
    else .val (BitVec.ofInt w.bits (val s a / 2 ^ (val s b).toNat))
  | .shl =>
    if val s b < 0 ∨ (promW w : Int) ≤ val s b then .ub
    else if promS w s = true ∧
        (val s a < 0 ∨ (2 : Int) ^ promW w ≤ val s a * 2 ^ (val s b).toNat) then .ub
    else .val (BitVec.ofInt w.bits (val s a * 2 ^ (val s b).toNat))
  | .band => .val (a &&& b)
  | .bxor => .val (a ^^^ b)
  | .bor => .val (a ||| b)

/-- `lConstFoldBinaryLogicalOp` on integers, one lane, src/expr.cpp:2532-2552. -/
def foldCmp (op : Cmp) (x y : Int) : Bool :=
  match op with
  | .lt => decide (x < y)
  | .gt => decide (x > y)
  | .le => decide (x ≤ y)
  | .ge => decide (x ≥ y)
  | .eq => decide (x = y)
  | .ne => decide (x ≠ y)

/-! ## Code for integers -/

/-- The range of a type. -/
def inRange (w : Wd) (s : Bool) (r : Int) : Prop :=
  if s then -2 ^ (w.bits - 1) ≤ r ∧ r < 2 ^ (w.bits - 1) else 0 ≤ r ∧ r < 2 ^ w.bits

instance (w : Wd) (s : Bool) (r : Int) : Decidable (inRange w s r) := by
  unfold inRange; infer_instance

/-- The instructions of `lEmitBinaryArith` and `lEmitBinaryBitOp`,
src/expr.cpp:1736-1765, 1897-1943 and 2311-2339, with
`FunctionEmitContext::BinaryOperator`, src/ctx.cpp:1785-1826: `add nsw` etc. on
signed types unless `--wrap-signed-int` is given.  `none` is poison or
undefined behaviour.  Division of varying integers goes through builtins, see
the module on division. -/
def runArith (wrap : Bool) (op : Op) (w : Wd) (s : Bool) (a b : BitVec w.bits) :
    Option (BitVec w.bits) :=
  match op with
  | .add => if s && !wrap && !decide (inRange w s (val s a + val s b)) then none else some (a + b)
  | .sub => if s && !wrap && !decide (inRange w s (val s a - val s b)) then none else some (a - b)
  | .mul => if s && !wrap && !decide (inRange w s (val s a * val s b)) then none else some (a * b)
  | .div =>
    if b = 0#_ then none
    else if s then
      if a = BitVec.intMin w.bits ∧ b = -1#_ then none else some (a.sdiv b)
    else some (a.udiv b)
  | .mod =>
    if b = 0#_ then none
    else if s then
      if a = BitVec.intMin w.bits ∧ b = -1#_ then none else some (a.srem b)
    else some (a.umod b)
  | .shl => if b.toNat < w.bits then some (a <<< b.toNat) else none
  | .shr =>
    if b.toNat < w.bits then some (if s then a.sshiftRight b.toNat else a >>> b.toNat) else none
  | .band => some (a &&& b)
  | .bxor => some (a ^^^ b)
  | .bor => some (a ||| b)

/-- `icmp` with the predicate of `lBinaryExprCmpOpPred`, src/expr.cpp:1945-1963. -/
def runCmp {n : Nat} (op : Cmp) (s : Bool) (a b : BitVec n) : Bool :=
  match op with
  | .lt => if s then a.slt b else a.ult b
  | .gt => if s then b.slt a else b.ult a
  | .le => if s then a.sle b else a.ule b
  | .ge => if s then b.sle a else b.ule a
  | .eq => a == b
  | .ne => a != b

/-! ## They agree -/

theorem bits_pos (w : Wd) : 0 < w.bits := by cases w <;> decide

theorem ofInt_val {n : Nat} (s : Bool) (a : BitVec n) : BitVec.ofInt n (val s a) = a := by
  cases s <;> simp [val]

theorem val_lt {n : Nat} (s : Bool) (a : BitVec n) : val s a < 2 ^ n := by
  cases s
  · simp only [val, Bool.false_eq_true, if_false]
    exact_mod_cast a.isLt
  · have := a.toInt_lt
    simp only [val, if_true]
    have h2 : (2 : Int) ^ (n - 1) ≤ 2 ^ n := pow_le_pow_right₀ (by norm_num) (by omega)
    omega

theorem ofInt_sub (n : Nat) (x y : Int) :
    BitVec.ofInt n (x - y) = BitVec.ofInt n x - BitVec.ofInt n y := by
  rw [sub_eq_add_neg, BitVec.ofInt_add, BitVec.ofInt_neg, BitVec.sub_eq_add_neg]

theorem cxx_val_or {w : Wd} {s : Bool} {x : Int} {r : BitVec w.bits}
    (h : BitVec.ofInt w.bits x = r) : cxx w s x = .val r ∨ cxx w s x = .ub := by
  unfold cxx
  split
  · exact Or.inr rfl
  · exact Or.inl (by rw [h])

theorem ofInt_shl {n : Nat} (s : Bool) (a : BitVec n) (k : Nat) :
    BitVec.ofInt n (val s a * 2 ^ k) = a <<< k := by
  rw [BitVec.ofInt_mul, ofInt_val, BitVec.shiftLeft_eq_mul_twoPow]
  congr 1
  have h : ((2 : Int) ^ k) = ((2 ^ k : Nat) : Int) := by push_cast; rfl
  rw [h, BitVec.ofInt_natCast]
  apply BitVec.eq_of_toNat_eq
  simp [BitVec.toNat_twoPow]

theorem ofInt_shr {n : Nat} (s : Bool) (a : BitVec n) (k : Nat) :
    BitVec.ofInt n (val s a / 2 ^ k) = if s then a.sshiftRight k else a >>> k := by
  cases s
  · simp only [val, Bool.false_eq_true, if_false]
    have h : ((a.toNat : Int) / 2 ^ k) = ((a.toNat / 2 ^ k : Nat) : Int) := by push_cast; rfl
    rw [h, BitVec.ofInt_natCast]
    apply BitVec.eq_of_toNat_eq
    rw [BitVec.toNat_ofNat, BitVec.toNat_ushiftRight, Nat.shiftRight_eq_div_pow]
    exact Nat.mod_eq_of_lt (lt_of_le_of_lt (Nat.div_le_self _ _) a.isLt)
  · simp only [val, if_true]
    have h : a.toInt / 2 ^ k = (a.sshiftRight k).toInt := by
      rw [BitVec.toInt_sshiftRight, Int.shiftRight_eq_div_pow]
      norm_cast
    rw [h, BitVec.ofInt_toInt]

theorem ofInt_div {n : Nat} (s : Bool) (a b : BitVec n) :
    BitVec.ofInt n ((val s a).tdiv (val s b)) = if s then a.sdiv b else a.udiv b := by
  cases s
  · simp only [val, Bool.false_eq_true, if_false]
    rw [← Int.ofNat_tdiv, BitVec.ofInt_natCast]
    apply BitVec.eq_of_toNat_eq
    rw [BitVec.toNat_ofNat]
    show _ = (a / b).toNat
    rw [BitVec.toNat_udiv]
    exact Nat.mod_eq_of_lt (lt_of_le_of_lt (Nat.div_le_self _ _) a.isLt)
  · simp only [val, if_true]
    apply BitVec.eq_of_toInt_eq
    rw [BitVec.toInt_sdiv, BitVec.toInt_ofInt]

theorem ofInt_mod {n : Nat} (s : Bool) (a b : BitVec n) :
    BitVec.ofInt n ((val s a).tmod (val s b)) = if s then a.srem b else a.umod b := by
  cases s
  · simp only [val, Bool.false_eq_true, if_false]
    rw [← Int.ofNat_tmod, BitVec.ofInt_natCast]
    apply BitVec.eq_of_toNat_eq
    rw [BitVec.toNat_ofNat]
    show _ = (a % b).toNat
    rw [BitVec.toNat_umod]
    exact Nat.mod_eq_of_lt (lt_of_le_of_lt (Nat.mod_le _ _) a.isLt)
  · simp only [val, if_true]
    rw [← BitVec.toInt_srem, BitVec.ofInt_toInt]

/-- A shift count below the width, whatever the signedness. -/
theorem val_count {n : Nat} (s : Bool) (b : BitVec n) (h : b.toNat < n) :
    val s b = b.toNat := by
  cases s
  · rfl
  · simp only [val, if_true]
    rw [BitVec.toInt_eq_toNat_of_lt]
    have : n < 2 ^ (n - 1 + 1) := by
      rw [Nat.sub_add_cancel (by omega)]; exact Nat.lt_two_pow_self
    have h3 : n ≤ 2 ^ (n - 1) := by
      have : n - 1 < 2 ^ (n - 1) := Nat.lt_two_pow_self
      omega
    have h4 : 2 ^ n = 2 * 2 ^ (n - 1) := by
      rw [← pow_succ']; congr 1; omega
    omega

theorem bits_le_prom (w : Wd) : w.bits ≤ promW w := by cases w <;> decide

/-- Whenever the generated code is defined, folding gives the same integer or
the compiler's own computation is undefined. -/
theorem foldArith_run {wrap : Bool} {op : Op} {w : Wd} {s : Bool} {a b r : BitVec w.bits}
    (h : runArith wrap op w s a b = some r) :
    foldArith op w s a b = .val r ∨ foldArith op w s a b = .ub := by
  cases op <;> simp only [runArith, foldArith, reduceCtorEq] at h ⊢
  case add =>
    split at h
    · cases h
    · cases h; exact cxx_val_or (by rw [BitVec.ofInt_add, ofInt_val, ofInt_val])
  case sub =>
    split at h
    · cases h
    · cases h; exact cxx_val_or (by rw [ofInt_sub, ofInt_val, ofInt_val])
  case mul =>
    split at h
    · cases h
    · cases h; exact cxx_val_or (by rw [BitVec.ofInt_mul, ofInt_val, ofInt_val])
  case div =>
    split at h
    · cases h
    · rename_i hb
      rw [if_neg hb]
      apply cxx_val_or
      rw [ofInt_div]
      cases s
      · simpa using h
      · simp only [if_true] at h ⊢
        split at h
        · cases h
        · simpa using h
  case mod =>
    split at h
    · cases h
    · rename_i hb
      rw [if_neg hb]
      split
      · exact Or.inr rfl
      · refine Or.inl ?_
        rw [ofInt_mod]
        cases s
        · simpa using h
        · simp only [if_true] at h ⊢
          split at h
          · cases h
          · simpa using h
  case shl =>
    split at h
    · rename_i hb
      have hv := val_count s b hb
      have hp := bits_le_prom w
      rw [if_neg (by rw [hv]; omega)]
      split
      · exact Or.inr rfl
      · refine Or.inl ?_
        rw [ofInt_shl, hv]
        simpa using h
    · cases h
  case shr =>
    split at h
    · rename_i hb
      have hv := val_count s b hb
      have hp := bits_le_prom w
      rw [if_neg (by rw [hv]; omega)]
      refine Or.inl ?_
      rw [ofInt_shr, hv]
      simpa using h
    · cases h
  all_goals exact Or.inl (by simpa using h)

/-- The operations on which the compiler's own C++ is undefined although the
code it would generate is not: a left shift of a negative constant or out of
the top of a 32- or 64-bit signed one, the product of two `uint16` constants
reaching `2 ^ 31`, and an overflow in 32 or 64 bits under
`--wrap-signed-int`. -/
def CompilerUndefined (wrap : Bool) (op : Op) (w : Wd) (s : Bool) (a b : BitVec w.bits) : Prop :=
  (op = .shl ∧ s = true ∧ b.toNat < w.bits ∧
    (a.toInt < 0 ∨ 32 ≤ w.bits ∧ (2 : Int) ^ w.bits ≤ a.toInt * 2 ^ b.toNat)) ∨
  (op = .mul ∧ w = .w16 ∧ s = false ∧ 2 ^ 31 ≤ a.toNat * b.toNat) ∨
  (wrap = true ∧ s = true ∧ 32 ≤ w.bits ∧
    (op = .add ∧ ¬ inRange w true (a.toInt + b.toInt) ∨
     op = .sub ∧ ¬ inRange w true (a.toInt - b.toInt) ∨
     op = .mul ∧ ¬ inRange w true (a.toInt * b.toInt)))

theorem cxx_ub {w : Wd} {s : Bool} {x : Int} : cxx w s x = .ub ↔
    promS w s = true ∧ ¬ (-2 ^ (promW w - 1) ≤ x ∧ x < 2 ^ (promW w - 1)) := by
  unfold cxx
  split <;> simp_all

theorem toInt_bounds {n : Nat} (a : BitVec n) :
    -2 ^ (n - 1) ≤ a.toInt ∧ a.toInt < 2 ^ (n - 1) :=
  ⟨by have := BitVec.le_toInt a; simpa using this, by have := BitVec.toInt_lt (x := a); simpa using this⟩

/-- A value of a narrow type is small. -/
theorem val_narrow {w : Wd} (s : Bool) (hw : w.bits < 32) (a : BitVec w.bits) :
    -2 ^ 15 ≤ val s a ∧ val s a < 2 ^ 16 ∧ (s = true → val s a < 2 ^ 15) ∧
    (w = .w8 → val s a < 2 ^ 8) := by
  have hb := toInt_bounds a
  have hl := a.isLt
  cases w
  case w8 =>
    have e : (2 : Int) ^ (Wd.w8.bits - 1) = 128 := by decide
    have e2 : 2 ^ Wd.w8.bits = 256 := by decide
    rw [e] at hb
    rw [e2] at hl
    cases s <;> simp only [val, Bool.false_eq_true, if_false, if_true] <;> omega
  case w16 =>
    have e : (2 : Int) ^ (Wd.w16.bits - 1) = 32768 := by decide
    have e2 : 2 ^ Wd.w16.bits = 65536 := by decide
    rw [e] at hb
    rw [e2] at hl
    cases s <;> simp only [val, Bool.false_eq_true, if_false, if_true, reduceCtorEq,
      false_imp_iff, and_true] <;> omega
  case w32 => exact absurd hw (by decide)
  case w64 => exact absurd hw (by decide)

theorem tdiv_abs (x y : Int) : |x.tdiv y| ≤ |x| := by
  have h := Int.natAbs_tdiv x y
  have h2 := Nat.div_le_self x.natAbs y.natAbs
  rw [Int.abs_eq_natAbs, Int.abs_eq_natAbs]
  rw [h]
  exact_mod_cast h2

theorem prom_narrow {w : Wd} (s : Bool) (hw : w.bits < 32) :
    promS w s = true ∧ promW w = 32 := by simp [promS, promW, hw]

theorem prom_wide {w : Wd} (s : Bool) (hw : ¬ w.bits < 32) :
    promS w s = s ∧ promW w = w.bits := by simp [promS, promW, hw]

theorem tdiv_ub {w : Wd} {s : Bool} {a b : BitVec w.bits}
    (h : cxx w s ((val s a).tdiv (val s b)) = .ub) :
    s = true ∧ a = BitVec.intMin w.bits ∧ b = -1#_ := by
  rw [cxx_ub] at h
  obtain ⟨hs, hr⟩ := h
  have habs := abs_le.mp (tdiv_abs (val s a) (val s b))
  by_cases hw : w.bits < 32
  · exfalso
    rw [(prom_narrow s hw).2] at hr
    have hv := val_narrow s hw a
    have h1 := abs_le.mpr (show -2 ^ 16 ≤ val s a ∧ val s a ≤ 2 ^ 16 by omega)
    apply hr
    constructor <;> norm_num <;> omega
  · rw [(prom_wide s hw).1] at hs
    subst hs
    refine ⟨rfl, ?_⟩
    rw [(prom_wide true hw).2] at hr
    by_contra hc
    apply hr
    have h2 : (a.sdiv b).toInt = a.toInt.tdiv b.toInt :=
      BitVec.toInt_sdiv_of_ne_or_ne a b (by
        by_cases h : a = BitVec.intMin w.bits
        · exact Or.inr (fun h' => hc ⟨h, h'⟩)
        · exact Or.inl h)
    simp only [val, if_true]
    rw [← h2]
    exact toInt_bounds _

theorem narrow_bits {w : Wd} (hw : w.bits < 32) : w.bits ≤ 16 := by
  revert hw; cases w <;> decide

theorem w16_wide {w : Wd} (hw : ¬ w.bits < 32) : (w = .w16) = False := by
  cases w <;> simp_all [Wd.bits]

/-- Exactly when folding is undefined in the compiler although the code would
not have been. -/
theorem fold_undefined_iff {wrap : Bool} {op : Op} {w : Wd} {s : Bool} {a b : BitVec w.bits} :
    ((∃ r, runArith wrap op w s a b = some r) ∧ foldArith op w s a b = .ub) ↔
      CompilerUndefined wrap op w s a b := by
  cases op
  case add =>
    simp only [runArith, foldArith, CompilerUndefined, reduceCtorEq, false_and, false_or,
      or_false, true_and]
    rw [cxx_ub]
    by_cases hw : w.bits < 32
    · rw [(prom_narrow s hw).1, (prom_narrow s hw).2]
      have ha := val_narrow s hw a
      have hb := val_narrow s hw b
      have : ¬ 32 ≤ w.bits := by omega
      simp only [this, false_and, and_false, iff_false]
      rintro ⟨-, -, hr⟩
      apply hr
      norm_num
      omega
    · rw [(prom_wide s hw).1, (prom_wide s hw).2]
      have hw' : 32 ≤ w.bits := by omega
      cases s
      · simp
      · cases wrap
        · simp only [inRange, val, if_true]
          by_cases hr : -2 ^ (w.bits - 1) ≤ a.toInt + b.toInt ∧ a.toInt + b.toInt < 2 ^ (w.bits - 1) <;> simp [hr]
        · simp [inRange, val, hw']
  case sub =>
    simp only [runArith, foldArith, CompilerUndefined, reduceCtorEq, false_and, false_or,
      or_false, true_and]
    rw [cxx_ub]
    by_cases hw : w.bits < 32
    · rw [(prom_narrow s hw).1, (prom_narrow s hw).2]
      have ha := val_narrow s hw a
      have hb := val_narrow s hw b
      have : ¬ 32 ≤ w.bits := by omega
      simp only [this, false_and, and_false, iff_false]
      rintro ⟨-, -, hr⟩
      apply hr
      norm_num
      omega
    · rw [(prom_wide s hw).1, (prom_wide s hw).2]
      have hw' : 32 ≤ w.bits := by omega
      cases s
      · simp
      · cases wrap
        · simp only [inRange, val, if_true]
          by_cases hr : -2 ^ (w.bits - 1) ≤ a.toInt - b.toInt ∧ a.toInt - b.toInt < 2 ^ (w.bits - 1) <;> simp [hr]
        · simp [inRange, val, hw']
  case mul =>
    simp only [runArith, foldArith, CompilerUndefined, reduceCtorEq, false_and, false_or,
      true_and]
    rw [cxx_ub]
    by_cases hw : w.bits < 32
    · rw [(prom_narrow s hw).1, (prom_narrow s hw).2]
      have ha := val_narrow s hw a
      have hb := val_narrow s hw b
      have h32 : ¬ 32 ≤ w.bits := by omega
      simp only [h32, false_and, and_false, or_false]
      cases s
      · simp only [Bool.false_and, Bool.false_eq_true, if_false, Option.some.injEq, exists_eq',
          true_and, val]
        have e1 : ((a.toNat : Int) * b.toNat) = ((a.toNat * b.toNat : Nat) : Int) := by push_cast; rfl
        simp only [val, Bool.false_eq_true, if_false] at ha hb
        rw [e1]
        constructor
        · intro hr
          have hge : 2 ^ 31 ≤ a.toNat * b.toNat := by
            by_contra hc
            exact hr ⟨by have := Int.natCast_nonneg (a.toNat * b.toNat); omega, by
              have : ((a.toNat * b.toNat : Nat) : Int) < 2 ^ 31 := by exact_mod_cast not_le.mp hc
              simpa using this⟩
          refine ⟨?_, hge⟩
          cases w
          case w8 =>
            exfalso
            have h1 := ha.2.2.2 rfl
            have h2 := hb.2.2.2 rfl
            have : a.toNat * b.toNat < 2 ^ 31 := by nlinarith
            omega
          case w16 => rfl
          case w32 => exact absurd hw (by decide)
          case w64 => exact absurd hw (by decide)
        · rintro ⟨-, hge⟩ ⟨-, hlt⟩
          have : ((a.toNat * b.toNat : Nat) : Int) < 2 ^ 31 := by simpa using hlt
          have : a.toNat * b.toNat < 2 ^ 31 := by exact_mod_cast this
          omega
      · simp only [Bool.true_eq_false, false_and, and_false, iff_false]
        rintro ⟨-, -, hr⟩
        apply hr
        have h1 := ha.2.2.1 rfl
        have h2 := hb.2.2.1 rfl
        constructor <;> norm_num <;> nlinarith
    · rw [(prom_wide s hw).1, (prom_wide s hw).2]
      have hw' : 32 ≤ w.bits := by omega
      cases s
      · simp only [Bool.false_eq_true, false_and, and_false, w16_wide hw, or_self]
      · cases wrap
        · simp only [inRange, val, if_true]
          by_cases hr : -2 ^ (w.bits - 1) ≤ a.toInt * b.toInt ∧ a.toInt * b.toInt < 2 ^ (w.bits - 1) <;> simp [hr]
        · simp [inRange, val, hw', w16_wide hw]
  case div =>
    simp only [runArith, foldArith, CompilerUndefined, reduceCtorEq, false_and, and_false, or_self,
      iff_false]
    rintro ⟨⟨r, h1⟩, h2⟩
    split at h1
    · cases h1
    · rename_i hb
      rw [if_neg hb] at h2
      obtain ⟨rfl, ha, hb'⟩ := tdiv_ub h2
      simp [ha, hb'] at h1
  case mod =>
    simp only [runArith, foldArith, CompilerUndefined, reduceCtorEq, false_and, and_false, or_self,
      iff_false]
    rintro ⟨⟨r, h1⟩, h2⟩
    split at h1
    · cases h1
    · rename_i hb
      rw [if_neg hb] at h2
      split at h2
      · rename_i h2'
        obtain ⟨rfl, ha, hb'⟩ := tdiv_ub h2'
        simp [ha, hb'] at h1
      · cases h2
  case shr =>
    simp only [runArith, foldArith, CompilerUndefined, reduceCtorEq, false_and, and_false, or_self,
      iff_false]
    rintro ⟨⟨r, h1⟩, h2⟩
    split at h1
    · rename_i hb
      have hv := val_count s b hb
      have hp := bits_le_prom w
      rw [if_neg (by rw [hv]; omega)] at h2
      cases h2
    · cases h1
  case shl =>
    simp only [runArith, foldArith, CompilerUndefined, reduceCtorEq, false_and, and_false, or_self,
      or_false, true_and]
    by_cases hb : b.toNat < w.bits
    · have hv := val_count s b hb
      have hp := bits_le_prom w
      rw [if_pos hb, if_neg (by rw [hv]; omega), hv, Int.toNat_natCast]
      simp only [Option.some.injEq, exists_eq', true_and, hb]
      by_cases hw : w.bits < 32
      · have h32 : ¬ 32 ≤ w.bits := by omega
        rw [(prom_narrow s hw).1, (prom_narrow s hw).2]
        have ha := val_narrow s hw a
        have hk : (2 : Int) ^ b.toNat ≤ 2 ^ 15 := by
          refine pow_le_pow_right₀ (by norm_num) ?_
          have := narrow_bits hw
          omega
        have hk0 : (0 : Int) < 2 ^ b.toNat := by positivity
        have hlt : ¬ (2 : Int) ^ 32 ≤ val s a * 2 ^ b.toNat := by
          by_cases hneg : val s a < 0
          · nlinarith
          · nlinarith
        simp only [hlt, h32, false_and, or_false, true_and]
        cases s
        · have : ¬ val false a < 0 := by simp [val]
          simp [this]
        · by_cases hn : a.toInt < 0 <;> simp [val, hn]
      · have h32 : 32 ≤ w.bits := by omega
        rw [(prom_wide s hw).1, (prom_wide s hw).2]
        cases s
        · simp
        · simp only [val, if_true, h32, true_and]
          split <;> simp_all
    · rw [if_neg hb]
      simp [hb]
  all_goals simp [foldArith, CompilerUndefined]

theorem val_inj {n : Nat} (s : Bool) (a b : BitVec n) : val s a = val s b ↔ a = b := by
  constructor
  · intro h
    rw [← ofInt_val s a, h, ofInt_val]
  · rintro rfl; rfl

/-- Comparisons are folded to what `icmp` gives. -/
theorem foldCmp_run (op : Cmp) {n : Nat} (s : Bool) (a b : BitVec n) :
    foldCmp op (val s a) (val s b) = runCmp op s a b := by
  cases op <;> simp only [runCmp, foldCmp]
  case eq => rw [Bool.eq_iff_iff]; simp [val_inj]
  case ne => rw [Bool.eq_iff_iff]; simp [val_inj]
  all_goals
    cases s <;> rw [Bool.eq_iff_iff] <;>
      simp [val, BitVec.slt_iff_toInt_lt, BitVec.sle_iff_toInt_le, BitVec.ult_iff_toNat_lt,
        BitVec.ule_iff_toNat_le]

/-! ## One lane of every type -/

/-- The arithmetic of floating-point numbers. -/
abbrev FpArith := Op → (f : Fmt) → FP f → FP f → FP f

/-- The dispatch on the type in `BinaryExpr::Optimize`, src/expr.cpp:2779-2819,
for the arithmetic and bit operators, with `lConstFoldBinaryArithFPOp`,
2601-2617, and `lConstFoldBoolBinaryOp`, 2649-2670.  Enums are `uint32_t`. -/
def foldBin (A : FpArith) (op : Op) : (ty : STy) → ty.Val → ty.Val → Lane ty.Val
  | .bool, a, b =>
    match op with
    | .band => .val (a && b)
    | .bxor => .val (a ^^ b)
    | .bor => .val (a || b)
    | _ => .skip
  | .int w s, a, b => foldArith op w s a b
  | .enum, a, b => foldArith op .w32 false a b
  | .fp f, a, b =>
    match op with
    | .add => .val (A .add f a b)
    | .sub => .val (A .sub f a b)
    | .mul => .val (A .mul f a b)
    | .div => .val (A .div f a b)
    | _ => .skip

/-- The instruction emitted for the operator, src/expr.cpp:1736-1765 and
1897-1943.  Shifts of booleans and `%` of floating-point numbers, which are
never folded, are left undefined here. -/
def runBin (A : FpArith) (wrap : Bool) (op : Op) : (ty : STy) → ty.Val → ty.Val → Option ty.Val
  | .bool, a, b =>
    match op with
    | .band => some (a && b)
    | .bxor => some (a ^^ b)
    | .bor => some (a || b)
    | _ => none
  | .int w s, a, b => runArith wrap op w s a b
  | .enum, a, b => runArith wrap op .w32 false a b
  | .fp f, a, b =>
    match op with
    | .add => some (A .add f a b)
    | .sub => some (A .sub f a b)
    | .mul => some (A .mul f a b)
    | .div => some (A .div f a b)
    | _ => none

theorem foldBin_run {A : FpArith} {wrap : Bool} {op : Op} {ty : STy} {a b r : ty.Val}
    (h : runBin A wrap op ty a b = some r) :
    foldBin A op ty a b = .val r ∨ foldBin A op ty a b = .ub := by
  cases ty with
  | bool => cases op <;> simp_all [runBin, foldBin]
  | int w s => exact foldArith_run h
  | enum => exact foldArith_run h
  | fp f => cases op <;> simp_all [runBin, foldBin]

/-- `lConstFoldBinaryLogicalFPOp` with the operators of `APFloat`,
src/expr.cpp:2554-2583. -/
def foldRel (op : Cmp) (r : Rel) : Bool :=
  match op with
  | .lt => r == .less
  | .gt => r == .greater
  | .le => r == .less || r == .equal
  | .ge => r == .greater || r == .equal
  | .eq => r == .equal
  | .ne => r != .equal

/-- The `fcmp` predicates of `lBinaryExprCmpOpPred`, src/expr.cpp:1945-1963:
ordered, except for the unordered `!=`. -/
def runRel (op : Cmp) (r : Rel) : Bool :=
  let ordered := r != .unordered
  match op with
  | .lt => ordered && r == .less
  | .gt => ordered && r == .greater
  | .le => ordered && r != .greater
  | .ge => ordered && r != .less
  | .eq => ordered && r == .equal
  | .ne => !ordered || r != .equal

/-- The comparisons in `BinaryExpr::Optimize`, src/expr.cpp:2532-2583 and
2779-2819. -/
def foldRelOp (op : Cmp) : (ty : STy) → ty.Val → ty.Val → Bool
  | .bool, a, b => foldCmp op a.toNat b.toNat
  | .int _ s, a, b => foldCmp op (val s a) (val s b)
  | .enum, a, b => foldCmp op (val false a) (val false b)
  | .fp _, a, b => foldRel op (a.1.rel b.1)

/-- The `icmp` or `fcmp` emitted for a comparison, src/expr.cpp:1945-1963.
Booleans count as unsigned, src/type.cpp:390-393. -/
def runRelOp (op : Cmp) : (ty : STy) → ty.Val → ty.Val → Bool
  | .bool, a, b => runCmp op false (BitVec.ofBool a) (BitVec.ofBool b)
  | .int _ s, a, b => runCmp op s a b
  | .enum, a, b => runCmp op false a b
  | .fp _, a, b => runRel op (a.1.rel b.1)

theorem foldRelOp_run (op : Cmp) (ty : STy) (a b : ty.Val) :
    foldRelOp op ty a b = runRelOp op ty a b := by
  cases ty with
  | bool => cases op <;> cases a <;> cases b <;> decide
  | int w s => exact foldCmp_run op s a b
  | enum => exact foldCmp_run op false a b
  | fp f =>
    show foldRel op _ = runRel op _
    generalize a.1.rel b.1 = r
    cases op <;> cases r <;> decide

/-- The unary operators that can be folded. -/
inductive UOp
  | neg | bnot | lnot
  deriving DecidableEq, Repr

/-- One lane of `UnaryExpr::Optimize`, src/expr.cpp:1386-1402 and 1404-1505. -/
def foldUn (op : UOp) : (ty : STy) → ty.Val → Lane ty.Val
  | .bool, a => match op with | .lnot => .val (!a) | _ => .skip
  | .int w s, a =>
    match op with
    | .neg => cxx w s (-val s a)
    | .bnot => .val (~~~a)
    | .lnot => .skip
  | .enum, a =>
    match op with
    | .neg => cxx .w32 false (-val false a)
    | .bnot => .val (~~~a)
    | .lnot => .skip
  | .fp _, a => match op with | .neg => .val ⟨a.1.neg, rep_neg a.2⟩ | _ => .skip

/-- The instruction emitted for a unary operator, src/expr.cpp:1275-1291 and
1318-1346: the subtraction from zero of a signed integer is `nsw`. -/
def runUn (wrap : Bool) (op : UOp) : (ty : STy) → ty.Val → Option ty.Val
  | .bool, a => match op with | .lnot => some (!a) | _ => none
  | .int w s, a =>
    match op with
    | .neg => runArith wrap .sub w s 0#_ a
    | .bnot => some (~~~a)
    | .lnot => none
  | .enum, a =>
    match op with
    | .neg => runArith wrap .sub .w32 false 0#_ a
    | .bnot => some (~~~a)
    | .lnot => none
  | .fp _, a => match op with | .neg => some ⟨a.1.neg, rep_neg a.2⟩ | _ => none

theorem cxx_neg_run {wrap : Bool} {w : Wd} {s : Bool} {a r : BitVec w.bits}
    (h : runArith wrap .sub w s 0#_ a = some r) :
    cxx w s (-val s a) = .val r ∨ cxx w s (-val s a) = .ub := by
  have h0 : val s (0#w.bits) = 0 := by cases s <;> simp [val]
  have := foldArith_run h
  simpa [foldArith, h0] using this

theorem foldUn_run {wrap : Bool} {op : UOp} {ty : STy} {a r : ty.Val}
    (h : runUn wrap op ty a = some r) : foldUn op ty a = .val r ∨ foldUn op ty a = .ub := by
  cases ty with
  | bool => cases op <;> simp_all [runUn, foldUn]
  | int w s =>
    cases op
    · exact cxx_neg_run h
    · exact Or.inl (by simpa [runUn, foldUn] using h)
    · cases h
  | enum =>
    cases op
    · exact cxx_neg_run (wrap := wrap) (w := .w32) h
    · exact Or.inl (by simpa [runUn, foldUn] using h)
    · cases h
  | fp f => cases op <;> simp_all [runUn, foldUn]

/-! ## Casts -/

/-- The C++ conversion of a `double` to an integer type: undefined if the
integer part does not fit. -/
def doubleTo (w : Wd) (s : Bool) (x : FV) : Lane (BitVec w.bits) :=
  match truncate x with
  | none => .ub
  | some n => if inRange w s n then .val (BitVec.ofInt w.bits n) else .ub

/-- One lane of `ConstExpr::GetValues`, which folds a cast: `lConvertElement`,
src/expr.cpp:6515-6559.  Integers become floating-point numbers, and
floating-point numbers integers, through a `double`. -/
def foldCast : (src dst : STy) → src.Val → Lane dst.Val
  | .bool, .bool, a => .val a
  | .bool, .int _ _, a => .val (if a then 1#_ else 0#_)
  | .bool, .enum, a => .val (if a then 1#_ else 0#_)
  | .bool, .fp f, a => .val ⟨conv f (ofInt .f64 (if a then 1 else 0)), rep_conv f (rep_ofInt _ _)⟩
  | .int _ _, .bool, a => .val (a != 0#_)
  | .int _ s, .int w _, a => .val (BitVec.ofInt w.bits (val s a))
  | .int _ s, .enum, a => .val (BitVec.ofInt 32 (val s a))
  | .int _ s, .fp f, a => .val ⟨conv f (ofInt .f64 (val s a)), rep_conv f (rep_ofInt _ _)⟩
  | .enum, .bool, a => .val (a != 0#_)
  | .enum, .int w _, a => .val (BitVec.ofInt w.bits (val false a))
  | .enum, .enum, a => .val a
  | .enum, .fp f, a => .val ⟨conv f (ofInt .f64 (val false a)), rep_conv f (rep_ofInt _ _)⟩
  | .fp _, .bool, a => .val a.1.nonZero
  | .fp _, .int w s, a => doubleTo w s (conv .f64 a.1)
  | .fp _, .enum, a => doubleTo .w32 false (conv .f64 a.1)
  | .fp _, .fp f, a => .val ⟨conv f a.1, rep_conv f a.2⟩

/-- `fptosi` and `fptoui`: poison if the integer part does not fit. -/
def fpToInt (w : Wd) (s : Bool) (x : FV) : Option (BitVec w.bits) :=
  (truncate x).bind fun n => if inRange w s n then some (BitVec.ofInt w.bits n) else none

/-- `sext`, `zext` and `trunc`, chosen by the width of the target and the
signedness of the source. -/
def resize {n : Nat} (s : Bool) (m : Nat) (a : BitVec n) : BitVec m :=
  if n < m then (if s then a.signExtend m else a.zeroExtend m) else a.truncate m

/-- The instruction emitted for a cast, `lTypeConvAtomicOrUniformVector`,
src/expr.cpp:6979-7620. -/
def runCast : (src dst : STy) → src.Val → Option dst.Val
  | .bool, .bool, a => some a
  | .bool, .int w _, a => some ((BitVec.ofBool a).zeroExtend w.bits)
  | .bool, .enum, a => some ((BitVec.ofBool a).zeroExtend 32)
  | .bool, .fp f, a => some ⟨ofInt f (BitVec.ofBool a).toNat, rep_ofInt _ _⟩
  | .int _ s, .bool, a => some (runCmp .ne s a 0#_)
  | .int _ s, .int w _, a => some (resize s w.bits a)
  | .int _ s, .enum, a => some (resize s 32 a)
  | .int _ s, .fp f, a => some ⟨ofInt f (val s a), rep_ofInt _ _⟩
  | .enum, .bool, a => some (runCmp .ne false a 0#_)
  | .enum, .int w _, a => some (resize false w.bits a)
  | .enum, .enum, a => some a
  | .enum, .fp f, a => some ⟨ofInt f (val false a), rep_ofInt _ _⟩
  | .fp _, .bool, a => some (runRel .ne (a.1.rel (.fin false 0)))
  | .fp _, .int w s, a => fpToInt w s a.1
  | .fp _, .enum, a => fpToInt .w32 false a.1
  | .fp _, .fp f, a => some ⟨conv f a.1, rep_conv f a.2⟩

theorem ofInt_resize {n : Nat} (s : Bool) (m : Nat) (a : BitVec n) :
    BitVec.ofInt m (val s a) = resize s m a := by
  unfold resize
  cases s
  · simp [val, BitVec.ofInt_natCast]
  · simp only [val, if_true]
    split
    · rfl
    · rename_i h
      apply BitVec.eq_of_toInt_eq
      rw [BitVec.toInt_ofInt]
      show _ = (a.setWidth m).toInt
      rw [BitVec.toInt_setWidth, BitVec.toInt_eq_toNat_bmod]
      exact Int.bmod_bmod_of_dvd (by exact_mod_cast Nat.pow_dvd_pow 2 (by omega))

/-- The casts that go wrong: a 64-bit integer to `float`. -/
def WideToFloat : STy → STy → Prop
  | .int .w64 _, .fp .f32 => True
  | _, _ => False

theorem natAbs_val {n : Nat} (s : Bool) (a : BitVec n) : (val s a).natAbs ≤ 2 ^ n := by
  have h1 := val_lt s a
  have h2 : -2 ^ n ≤ val s a := by
    cases s
    · simp only [val, Bool.false_eq_true, if_false]
      have : (0 : Int) < 2 ^ n := by positivity
      omega
    · have := (toInt_bounds a).1
      simp only [val, if_true]
      have h2 : (2 : Int) ^ (n - 1) ≤ 2 ^ n := pow_le_pow_right₀ (by norm_num) (by omega)
      omega
  zify
  exact abs_le.mpr ⟨h2, h1.le⟩

theorem conv_val {w : Wd} {f : Fmt} (h : ¬ (w = .w64 ∧ f = .f32)) (s : Bool) (a : BitVec w.bits) :
    conv f (ofInt .f64 (val s a)) = ofInt f (val s a) := by
  cases f
  · exact conv_ofInt_f16 _
  · apply conv_ofInt
    refine lt_of_le_of_lt (natAbs_val s a) ?_
    have : w.bits < 53 := by cases w <;> simp_all [Wd.bits]
    exact Nat.pow_lt_pow_right (by norm_num) this
  · exact conv_f64 (rep_ofInt .f64 _)

/-- Casts are folded to what the instruction gives, except from 64-bit integers
to `float`. -/
theorem foldCast_run_partial {src dst : STy} (hw : ¬ WideToFloat src dst) {a : src.Val} {r : dst.Val}
    (h : runCast src dst a = some r) : foldCast src dst a = .val r := by
  have hd : ∀ (f : Fmt) (w : Wd) (s : Bool) (x : FP f) (r : BitVec w.bits),
      fpToInt w s x.1 = some r → doubleTo w s (conv .f64 x.1) = .val r := by
    intro f w s x r hx
    rw [conv_f64 x.2]
    unfold fpToInt at hx
    unfold doubleTo
    cases ht : truncate x.1 with
    | none => rw [ht] at hx; cases hx
    | some n =>
      rw [ht] at hx
      simp only [Option.bind_some] at hx
      split at hx
      · simp_all
      · cases hx
  cases src <;> cases dst
  case int.fp w s f =>
    have hne : ¬ (w = .w64 ∧ f = .f32) := by
      rintro ⟨rfl, rfl⟩; exact hw trivial
    simp only [foldCast, runCast, Option.some.injEq] at h ⊢
    rw [← h]
    congr 2
    exact conv_val hne s a
  case enum.fp f =>
    simp only [foldCast, runCast, Option.some.injEq] at h ⊢
    rw [← h]
    congr 2
    exact conv_val (w := .w32) (by simp) false a
  case bool.fp f =>
    simp only [foldCast, runCast, Option.some.injEq] at h ⊢
    rw [← h]
    congr 2
    cases a
    · exact conv_ofInt (by decide) f
    · exact conv_ofInt (by decide) f
  case fp.int f w s => exact hd f w s a r h
  case fp.enum f => exact hd f .w32 false a r h
  case fp.bool f =>
    simp only [foldCast, runCast, Option.some.injEq] at h ⊢
    rw [← h]
    congr 1
    rw [Bool.eq_iff_iff, nonZero_iff]
    generalize a.1.rel (.fin false 0) = x
    cases x <;> decide
  case fp.fp => simpa [foldCast, runCast] using h
  case int.int w s w' s' =>
    simp only [foldCast, runCast, Option.some.injEq] at h ⊢
    rw [← h, ofInt_resize]
  case int.enum w s =>
    simp only [foldCast, runCast, Option.some.injEq] at h ⊢
    rw [← h, ofInt_resize]
  case enum.int w s =>
    simp only [foldCast, runCast, Option.some.injEq] at h ⊢
    rw [← h, ofInt_resize]
  case bool.int w s =>
    simp only [foldCast, runCast, Option.some.injEq] at h ⊢
    rw [← h]
    congr 1
    cases a <;> cases w <;> rfl
  case bool.enum =>
    simp only [foldCast, runCast, Option.some.injEq] at h ⊢
    rw [← h]
    congr 1
    cases a <;> decide
  all_goals simpa [foldCast, runCast, runCmp] using h

end Ispc.Fold
