import Verif.Front.OpAssign
import Mathlib.Tactic.NormNum
import Mathlib.Tactic.Linarith
import Mathlib.Tactic.Positivity

/-!
# Compound assignment means assignment of the operation

In C `x op= y` is `x = x op y` with `x` evaluated once.  Here `y` is converted
to the type of `x` before the operation, not after.
-/

namespace Ispc.OpAssign

open Ispc.Fold

/-- The common type is that of the model of types. -/
theorem common_type (t u : STy) :
    Promote.moreGeneral false 0 (ty t) (ty u) = .ok (ty (common t u)) := by
  rcases t with _ | ⟨_ | _ | _ | _, _ | _⟩ | _ | ⟨_ | _ | _⟩ <;>
    rcases u with _ | ⟨_ | _ | _ | _, _ | _⟩ | _ | ⟨_ | _ | _⟩ <;> decide +kernel

/-! ## Conversions -/

/-- A conversion to the same type does nothing. -/
theorem cast_self (t : STy) (x : t.Val) : runCast t t x = some x := by
  rcases t with _ | ⟨w, s⟩ | _ | f
  · rfl
  · simp [runCast, resize]
  · rfl
  · obtain ⟨v, hv⟩ := x
    simp only [runCast, Option.some.injEq, Subtype.mk.injEq]
    cases v with
    | nan => rfl
    | inf n => rfl
    | fin n q => exact round_exact ⟨le_refl _, le_refl _, le_refl _⟩ hv

/-- The instruction of the assignment is that of the operator, where the
operator is accepted. -/
theorem assign_binary {A : FpArith} {wrap : Bool} {op : Op} {t u : STy} (h : binaryOk op t u)
    (x y : t.Val) : runAssign A wrap op t x y = runBin A wrap op t x y := by
  rcases t with _ | _ | _ | _
  · cases op <;> first | rfl | (exfalso; simp [binaryOk, isBit] at h)
  · rfl
  · rfl
  · rfl

/-! ## Where the two forms agree -/

/-- If the common type of the operands is the type of `x`, the two forms are
the same, with what is undefined. -/
theorem same_partial (A : FpArith) (wrap : Bool) (op : Op) {t u : STy} (x : t.Val) (y : u.Val)
    (hok : longOk op t u) (h : common t u = t) :
    short A wrap op t u x y = long A wrap op t u x y := by
  have hb : binaryOk op t u := by
    simp only [longOk, Bool.and_eq_true] at hok; exact hok.1.1
  have ht : binaryType op t u = t := by
    unfold binaryType; split <;> [rfl; exact h]
  unfold long binary short
  rw [ht, cast_self]
  simp only [Option.bind_some, assign_binary hb]
  cases runCast u t y with
  | none => rfl
  | some y' =>
    simp only [Option.bind_some]
    cases runBin A wrap op t x y' with
    | none => rfl
    | some r => simp [cast_self]

example : longOk .div (.int .w64 true) (.int .w8 false) = true ∧
    common (.int .w64 true) (.int .w8 false) = .int .w64 true ∧
    common (.fp .f32) (.int .w32 true) = .fp .f32 := by decide

/-- Shifts are the same whatever the types. -/
theorem shift_same (A : FpArith) (wrap : Bool) {op : Op} (hs : isShift op) {t u : STy}
    (x : t.Val) (y : u.Val) (hok : longOk op t u) :
    short A wrap op t u x y = long A wrap op t u x y := by
  have hb : binaryOk op t u := by
    simp only [longOk, Bool.and_eq_true] at hok; exact hok.1.1
  have ht : binaryType op t u = t := by simp [binaryType, hs]
  unfold long binary short
  rw [ht, cast_self]
  simp only [Option.bind_some, assign_binary hb]
  cases runCast u t y with
  | none => rfl
  | some y' =>
    simp only [Option.bind_some]
    cases runBin A wrap op t x y' with
    | none => rfl
    | some r => simp [cast_self]

example : isShift .shr = true ∧ longOk .shr (.int .w8 true) (.int .w64 false) = true := by decide

/-- The operators for which the low bits of the result depend on the low bits
of the operands only. -/
def lowBits : Op → Bool
  | .add | .sub | .mul | .band | .bxor | .bor => true
  | _ => false

/-- The operation on bits, without regard to overflow. -/
def bitsOf (op : Op) {n : Nat} (a b : BitVec n) : BitVec n :=
  match op with
  | .add => a + b
  | .sub => a - b
  | .mul => a * b
  | .band => a &&& b
  | .bxor => a ^^^ b
  | .bor => a ||| b
  | _ => a

theorem run_bits {wrap : Bool} {op : Op} (h : lowBits op) {w : Wd} {s : Bool} {a b r : BitVec w.bits}
    (hr : runArith wrap op w s a b = some r) : r = bitsOf op a b := by
  cases op <;> simp only [runArith, lowBits, bitsOf] at hr h ⊢ <;>
    first
    | (exact absurd h (by decide))
    | (split at hr
       · exact absurd hr (by simp)
       · exact (Option.some.inj hr).symm)
    | exact (Option.some.inj hr).symm

theorem run_wrap {op : Op} (h : lowBits op) {w : Wd} {s : Bool} (a b : BitVec w.bits) :
    runArith true op w s a b = some (bitsOf op a b) := by
  cases op <;> simp [runArith, lowBits, bitsOf] at h ⊢

theorem trunc_bits (op : Op) {n m : Nat} (h : m ≤ n) (a b : BitVec n) :
    (bitsOf op a b).setWidth m = bitsOf op (a.setWidth m) (b.setWidth m) := by
  cases op <;> simp only [bitsOf]
  · exact BitVec.setWidth_add a b h
  · rw [BitVec.sub_eq_add_neg, BitVec.setWidth_add _ _ h, BitVec.setWidth_neg_of_le h,
      ← BitVec.sub_eq_add_neg]
  · exact BitVec.setWidth_mul a b h
  · exact BitVec.setWidth_and
  · exact BitVec.setWidth_xor
  · exact BitVec.setWidth_or

theorem trunc_ofInt {n m : Nat} (h : m ≤ n) (z : Int) :
    (BitVec.ofInt n z).setWidth m = BitVec.ofInt m z := by
  apply BitVec.eq_of_toInt_eq
  rw [BitVec.toInt_setWidth, BitVec.toInt_ofInt, ← BitVec.toInt_ofInt]
  have : ((BitVec.ofInt n z).toNat : Int) = z % 2 ^ n := by
    rw [BitVec.toNat_ofInt, Int.toNat_of_nonneg (Int.emod_nonneg _ (by positivity))]
    norm_num
  rw [this, BitVec.toInt_ofInt]
  have hd : ((2 ^ m : Nat) : Int) ∣ 2 ^ n := by exact_mod_cast Nat.pow_dvd_pow 2 h
  rw [← Int.emod_bmod (x := z % 2 ^ n), Int.emod_emod_of_dvd _ hd, Int.emod_bmod]

/-- Converting to a wide type and cutting off is converting. -/
theorem trunc_resize {k n m : Nat} (s : Bool) (h : m ≤ n) (a : BitVec k) :
    (resize s n a).setWidth m = resize s m a := by
  rw [← ofInt_resize, ← ofInt_resize, trunc_ofInt h]

theorem resize_down {n m : Nat} (s : Bool) (h : m ≤ n) (a : BitVec n) :
    resize s m a = a.setWidth m := by
  unfold resize; rw [if_neg (by omega)]

/-- The common type of integers is an integer of at least the width of both. -/
theorem common_int (w v : Wd) (s r : Bool) :
    ∃ c q, common (.int w s) (.int v r) = .int c q ∧ w.bits ≤ c.bits ∧ v.bits ≤ c.bits := by
  unfold common
  simp only [reduceCtorEq, if_false]
  split
  · refine ⟨w, s, rfl, le_refl _, ?_⟩
    cases w <;> cases v <;> cases s <;> cases r <;> simp_all [ord, Wd.bits]
  · refine ⟨v, r, rfl, ?_, le_refl _⟩
    cases w <;> cases v <;> cases s <;> cases r <;> simp_all [ord, Wd.bits]

theorem low_no_shift {op : Op} (h : lowBits op) : isShift op = false := by
  cases op <;> simp [lowBits, isShift] at h ⊢

theorem long_int (A : FpArith) (wrap : Bool) {op : Op} (hl : isShift op = false) {w v c : Wd} {s r q : Bool}
    (hc : common (.int w s) (.int v r) = .int c q)
    (x : BitVec w.bits) (y : BitVec v.bits) :
    long A wrap op (.int w s) (.int v r) x y =
      (runArith wrap op c q (resize s c.bits x) (resize r c.bits y)).bind
        fun z => some (resize q w.bits z) := by
  have ht : binaryType op (.int w s) (.int v r) = .int c q := by
    simp [binaryType, hl, hc]
  unfold long binary
  rw [ht]
  rfl

theorem short_int (A : FpArith) (wrap : Bool) (op : Op) (w v : Wd) (s r : Bool)
    (x : BitVec w.bits) (y : BitVec v.bits) :
    short A wrap op (.int w s) (.int v r) x y = runArith wrap op w s x (resize r w.bits y) := rfl

/-- On integers of any types, `+`, `-`, `*`, `&`, `^` and `|` store the same
in both forms, where both are defined. -/
theorem bits_same (A : FpArith) (wrap : Bool) {op : Op} (hl : lowBits op) {w v : Wd} {s r : Bool}
    (x : BitVec w.bits) (y : BitVec v.bits) {a b : BitVec w.bits}
    (ha : short A wrap op (.int w s) (.int v r) x y = some a)
    (hb : long A wrap op (.int w s) (.int v r) x y = some b) : a = b := by
  obtain ⟨c, q, hc, hw, hv⟩ := common_int w v s r
  rw [long_int A wrap (low_no_shift hl) hc] at hb
  obtain ⟨z, hz, hb⟩ := Option.bind_eq_some_iff.1 hb
  have ha' := run_bits hl (ha : runArith wrap op w s x (resize r w.bits y) = some a)
  have hz' := run_bits hl hz
  have hb' := (Option.some.inj hb).symm
  rw [ha', hb', hz', resize_down q hw, trunc_bits op hw, trunc_resize r hw, trunc_resize s hw]
  simp [resize]

example : lowBits .mul = true ∧
    short (fun _ _ a _ => a) false .mul (.int .w8 false) (.int .w32 true) 200#8 3#32 = some 88#8 ∧
    long (fun _ _ a _ => a) false .mul (.int .w8 false) (.int .w32 true) 200#8 3#32 = some 88#8 :=
  ⟨rfl, rfl, rfl⟩

/-- With `--wrap-signed-int` they are always defined and the same. -/
theorem wrap_same (A : FpArith) {op : Op} (hl : lowBits op) {w v : Wd} {s r : Bool}
    (x : BitVec w.bits) (y : BitVec v.bits) :
    ∃ z, short A true op (.int w s) (.int v r) x y = some z ∧
      long A true op (.int w s) (.int v r) x y = some z := by
  obtain ⟨c, q, hc, hw, hv⟩ := common_int w v s r
  have h1 : short A true op (.int w s) (.int v r) x y = some (bitsOf op x (resize r w.bits y)) :=
    run_wrap hl x (resize r w.bits y)
  have h2 : ∃ b, long A true op (.int w s) (.int v r) x y = some b := by
    rw [long_int A true (low_no_shift hl) hc, run_wrap hl]; exact ⟨_, rfl⟩
  obtain ⟨b, h2⟩ := h2
  exact ⟨_, h1, by rw [h2, bits_same A true hl x y h1 h2]⟩

/-! ## Where they differ -/

/-- The quotients of integers are the same for all operands exactly if the
common type is that of `x`. -/
theorem div_iff (A : FpArith) (wrap : Bool) (w v : Wd) (s r : Bool) :
    (∀ x y, short A wrap .div (.int w s) (.int v r) x y = long A wrap .div (.int w s) (.int v r) x y) ↔
      common (.int w s) (.int v r) = .int w s := by
  constructor
  · intro h
    by_cases hc : common (.int w s) (.int v r) = .int w s
    · exact hc
    · exfalso
      have hv : common (.int w s) (.int v r) = .int v r := by
        revert hc
        cases w <;> cases v <;> cases s <;> cases r <;> decide
      have h1 := h 0#_ (BitVec.ofNat _ (2 ^ w.bits))
      have h2 := h (-1#_) 2#_
      rw [long_int A wrap rfl hv] at h1 h2
      change runArith wrap .div w s 0#_ (resize r w.bits (BitVec.ofNat _ (2 ^ w.bits))) = _ at h1
      change runArith wrap .div w s (-1#_) (resize r w.bits 2#_) = _ at h2
      clear h hv
      revert h1 h2 hc
      cases w <;> cases v <;> cases s <;> cases r <;> cases wrap <;> decide +kernel
  · intro h x y
    exact same_partial A wrap .div x y (by
      simp [longOk, binaryOk, isBit, isFp, converts, binaryType, isShift]) h

/-- And so for the remainders. -/
theorem mod_iff (A : FpArith) (wrap : Bool) (w v : Wd) (s r : Bool) :
    (∀ x y, short A wrap .mod (.int w s) (.int v r) x y = long A wrap .mod (.int w s) (.int v r) x y) ↔
      common (.int w s) (.int v r) = .int w s := by
  constructor
  · intro h
    by_cases hc : common (.int w s) (.int v r) = .int w s
    · exact hc
    · exfalso
      have hv : common (.int w s) (.int v r) = .int v r := by
        revert hc
        cases w <;> cases v <;> cases s <;> cases r <;> decide
      have h1 := h 0#_ (BitVec.ofNat _ (2 ^ w.bits))
      have h2 := h (-1#_) 2#_
      rw [long_int A wrap rfl hv] at h1 h2
      change runArith wrap .mod w s 0#_ (resize r w.bits (BitVec.ofNat _ (2 ^ w.bits))) = _ at h1
      change runArith wrap .mod w s (-1#_) (resize r w.bits 2#_) = _ at h2
      clear h hv
      revert h1 h2 hc
      cases w <;> cases v <;> cases s <;> cases r <;> cases wrap <;> decide +kernel
  · intro h x y
    exact same_partial A wrap .mod x y (by
      simp [longOk, binaryOk, isBit, isFp, converts, binaryType, isShift]) h

/-- `int x = -6; x /= y` with `unsigned int y = 2` is -3; `x = x / y` is
2147483645, as in C. -/
theorem div_wrong (A : FpArith) (wrap : Bool) :
    longOk .div (.int .w32 true) (.int .w32 false) = true ∧
      short A wrap .div (.int .w32 true) (.int .w32 false) (-6#32) 2#32 = some (-3#32) ∧
      long A wrap .div (.int .w32 true) (.int .w32 false) (-6#32) 2#32 = some 2147483645#32 := by
  refine ⟨by decide, ?_, ?_⟩
  · refine (short_int A wrap .div .w32 .w32 true false (-6#32) 2#32).trans ?_
    cases wrap <;> rfl
  · refine (long_int A wrap (op := .div) rfl (w := .w32) (v := .w32) (s := true) (r := false)
      (c := .w32) (q := false) (by decide) (-6#32) 2#32).trans ?_
    cases wrap <;> rfl

/-- `int8 x = 127; x += 1` overflows and is undefined; `x = x + 1` is done in
32 bits and stores -128. -/
theorem overflow_wrong (A : FpArith) :
    longOk .add (.int .w8 true) (.int .w32 true) = true ∧
      short A false .add (.int .w8 true) (.int .w32 true) 127#8 1#32 = none ∧
      long A false .add (.int .w8 true) (.int .w32 true) 127#8 1#32 = some (-128#8) := by
  refine ⟨by decide, ?_, ?_⟩
  · refine (short_int A false .add .w8 .w32 true true 127#8 1#32).trans ?_
    rfl
  · refine (long_int A false (op := .add) rfl (w := .w8) (v := .w32) (s := true) (r := true)
      (c := .w32) (q := true) (by decide) 127#8 1#32).trans ?_
    rfl

/-- A small number of a format. -/
theorem rep_small (f : Fmt) (n : Bool) (m d : Nat) (hm : m < 1024) (hd : d ≤ 10) :
    Rep f (.fin n (m / 2 ^ d)) := by
  refine ⟨m, -d, by rw [zpow_neg, div_eq_mul_inv]; norm_cast, ?_, ?_, ?_⟩
  · exact lt_of_lt_of_le hm (by cases f <;> decide)
  · cases f <;> simp only [Fmt.emin] <;> omega
  · have h1 : ((m : ℚ)) / 2 ^ d ≤ m := div_le_self (by positivity) (one_le_pow₀ (by norm_num))
    have h2 : ((m : ℚ)) < 1024 := by exact_mod_cast hm
    have h3 : (1024 : ℚ) ≤ 2 ^ f.emax := by
      calc (1024 : ℚ) = 2 ^ 10 := by norm_num
        _ ≤ 2 ^ f.emax := pow_le_pow_right₀ (by norm_num) (by cases f <;> decide)
    linarith

/-- The number m / 2^d of a format. -/
def num (f : Fmt) (m d : Nat) (hm : m < 1024) (hd : d ≤ 10) : FP f :=
  ⟨.fin false (m / 2 ^ d), rep_small f false m d hm hd⟩

theorem ofInt_small (f : Fmt) {m : Nat} (hm : m < 1024) : ofInt f m = .fin false m := by
  have h := round_exact (f := f) (g := f) ⟨le_refl _, le_refl _, le_refl _⟩
    (rep_small f false m 0 hm (by omega))
  simp only [pow_zero, div_one] at h
  unfold ofInt
  have hneg : decide ((m : Int) < 0) = false := by simp
  rw [hneg, Int.natAbs_natCast]
  exact h

theorem half32 : fpToInt .w32 true (.fin false ((1 : Nat) / 2 ^ 1)) = some 0#Wd.w32.bits := by
  decide +kernel

theorem half64 : fpToInt .w64 true (.fin false ((1 : Nat) / 2 ^ 1)) = some 0#Wd.w64.bits := by
  decide +kernel

theorem threeHalves : fpToInt .w32 true (.fin false ((3 : Nat) / 2 ^ 1)) = some 1#Wd.w32.bits := by
  decide +kernel

/-- `int x = 3; x *= 0.5f` stores 0; `x = x * 0.5f` stores 1, as in C. -/
theorem float_wrong (A : FpArith) (wrap : Bool)
    (hA : A .mul .f32 (num .f32 3 0 (by omega) (by omega)) (num .f32 1 1 (by omega) (by omega)) =
      num .f32 3 1 (by omega) (by omega)) :
    longOk .mul (.int .w32 true) (.fp .f32) = true ∧
      short A wrap .mul (.int .w32 true) (.fp .f32) 3#32 (num .f32 1 1 (by omega) (by omega)) = some 0#32 ∧
      long A wrap .mul (.int .w32 true) (.fp .f32) 3#32 (num .f32 1 1 (by omega) (by omega)) = some 1#32 := by
  refine ⟨by decide, ?_, ?_⟩
  · refine (congrArg (fun o => o.bind fun y' => runArith wrap .mul .w32 true 3#32 y') half32).trans ?_
    cases wrap <;> rfl
  · unfold long binary
    have hx : runCast (.int .w32 true) (.fp .f32) 3#32 = some (num .f32 3 0 (by omega) (by omega)) := by
      simp only [runCast, num, Option.some.injEq, Subtype.mk.injEq]
      have := ofInt_small .f32 (m := 3) (by omega)
      simpa [val] using this
    have ht : binaryType .mul (.int .w32 true) (.fp .f32) = .fp .f32 := by decide
    rw [ht, hx, cast_self]
    simp only [Option.bind_some, runBin, hA]
    exact threeHalves

/-- `float x = 0.5f; x *= y` with `int64 y = 4` stores 2, as in C;
`x = x * y` is done in `int64` and stores 0. -/
theorem wide_wrong (A : FpArith) (wrap : Bool)
    (hA : A .mul .f32 (num .f32 1 1 (by omega) (by omega)) (num .f32 4 0 (by omega) (by omega)) =
      num .f32 2 0 (by omega) (by omega)) :
    longOk .mul (.fp .f32) (.int .w64 true) = true ∧
      short A wrap .mul (.fp .f32) (.int .w64 true) (num .f32 1 1 (by omega) (by omega)) 4#64 =
        some (num .f32 2 0 (by omega) (by omega)) ∧
      long A wrap .mul (.fp .f32) (.int .w64 true) (num .f32 1 1 (by omega) (by omega)) 4#64 =
        some (num .f32 0 0 (by omega) (by omega)) := by
  refine ⟨by decide, ?_, ?_⟩
  · unfold short
    have hx : runCast (.int .w64 true) (.fp .f32) 4#64 = some (num .f32 4 0 (by omega) (by omega)) := by
      simp only [runCast, num, Option.some.injEq, Subtype.mk.injEq]
      have := ofInt_small .f32 (m := 4) (by omega)
      simpa [val] using this
    rw [hx]
    simp only [Option.bind_some, runAssign, runBin, hA]
  · unfold long binary
    have ht : binaryType .mul (.fp .f32) (.int .w64 true) = .int .w64 true := by decide
    rw [ht]
    have hz : runArith wrap .mul .w64 true 0#Wd.w64.bits 4#64 = some 0#Wd.w64.bits := by
      cases wrap <;> rfl
    refine (congrArg (fun o : Option (BitVec Wd.w64.bits) => (o.bind fun x' =>
      runArith wrap .mul .w64 true x' 4#64).bind fun r =>
        runCast (.int .w64 true) (.fp .f32) r) half64).trans ?_
    refine (congrArg (fun o : Option (BitVec Wd.w64.bits) => o.bind fun r =>
        runCast (.int .w64 true) (.fp .f32) r) hz).trans ?_
    have := ofInt_small .f32 (m := 0) (by omega)
    simpa [runCast, num, val] using this

/-- An arithmetic the two theorems speak of. -/
example : ∃ A : FpArith,
    A .mul .f32 (num .f32 3 0 (by omega) (by omega)) (num .f32 1 1 (by omega) (by omega)) =
      num .f32 3 1 (by omega) (by omega) :=
  ⟨fun _ f _ _ => num f 3 1 (by omega) (by omega), rfl⟩

/-! ## What is accepted -/

/-- Whatever is accepted written out is accepted in the short form. -/
theorem accepted {op : Op} {t u : STy} (h : longOk op t u) : shortOk op t u := by
  revert h
  rcases t with _ | ⟨_ | _ | _ | _, _ | _⟩ | _ | ⟨_ | _ | _⟩ <;>
    rcases u with _ | ⟨_ | _ | _ | _, _ | _⟩ | _ | ⟨_ | _ | _⟩ <;> cases op <;> decide

example : longOk .add (.fp .f32) (.int .w8 true) = true := by decide

/-- The short form accepts exactly these in addition: arithmetic on or with
booleans, operators on bits with a floating-point right operand, and `%` with
floating-point operands. -/
theorem accepted_iff {op : Op} {t u : STy} : (shortOk op t u ∧ ¬ longOk op t u) ↔
    ((isBit op = false ∧ (t = .bool ∨ t ≠ .enum ∧ u = .bool)) ∨
      (isBit op = true ∧ isFp t = false ∧ t ≠ .enum ∧ isFp u = true) ∨
      (op = .mod ∧ t ≠ .enum ∧ (isFp t = true ∨ isFp u = true))) := by
  rcases t with _ | ⟨_ | _ | _ | _, _ | _⟩ | _ | ⟨_ | _ | _⟩ <;>
    rcases u with _ | ⟨_ | _ | _ | _, _ | _⟩ | _ | ⟨_ | _ | _⟩ <;> cases op <;> decide

/-- `bool x = true; x += true` is accepted, though `x = x + true` is not, and
stores false. -/
theorem bool_wrong (A : FpArith) (wrap : Bool) :
    shortOk .add .bool .bool = true ∧ longOk .add .bool .bool = false ∧
      short A wrap .add .bool .bool true true = some false :=
  ⟨by decide, by decide, rfl⟩

end Ispc.OpAssign
