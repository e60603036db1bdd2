import Verif.Builtins.Print
import Verif.Front.LiteralFloatProps
import Mathlib.Tactic.IntervalCases

/-!
# C51: `print` writes the documented text
-/

namespace Ispc.Print

open Ispc.Literal (rne)

/-! ## Specification -/

/-- The decimal value of a text, if it is one or more decimal digits. -/
def IsDigits (s : List Char) : Prop := s ≠ [] ∧ ∀ c ∈ s, '0' ≤ c ∧ c ≤ '9'

def decimalValue (s : List Char) : Nat := s.foldl (fun a c => 10 * a + (c.toNat - '0'.toNat)) 0

/-- The usual way to write a natural number: without zeros at the front. -/
def IsNat (n : Nat) (s : List Char) : Prop := IsDigits s ∧ decimalValue s = n ∧ (s.head? = some '0' → s = ['0'])

def IsInt (z : Int) (s : List Char) : Prop :=
  if z < 0 then ∃ t, s = '-' :: t ∧ IsNat z.natAbs t else IsNat z.natAbs s

/-- A number with six digits after the point, the nearest one to `q`. -/
def IsFixed (q : ℚ) (s : List Char) : Prop :=
  ∃ a b n, s = a ++ '.' :: b ∧ IsNat n a ∧ IsDigits b ∧ b.length = 6 ∧
    |(n : ℚ) + (decimalValue b : ℚ) / 1000000 - q| ≤ 1 / 2000000

def IsFl (x : Fl) (s : List Char) : Prop :=
  ∃ t, match x with
    | .fin neg q => s = (if neg then ['-'] else []) ++ t ∧ IsFixed q t
    | .inf neg => s = (if neg then ['-'] else []) ++ t ∧ t = ['i', 'n', 'f']
    | .nan neg => s = (if neg then ['-'] else []) ++ t ∧ t = ['n', 'a', 'n']

/-- What a user expects to see for a value.  Nothing is said about pointers. -/
def Shows : SrcVal → List Char → Prop
  | .bool b, s => s = if b then ['t', 'r', 'u', 'e'] else ['f', 'a', 'l', 's', 'e']
  | .int8 i, s => IsInt i.toInt s
  | .uint8 i, s => IsInt i.toNat s
  | .int16 i, s => IsInt i.toInt s
  | .uint16 i, s => IsInt i.toNat s
  | .int32 i, s => IsInt i.toInt s
  | .uint32 i, s => IsInt i.toNat s
  | .int64 i, s => IsInt i.toInt s
  | .uint64 i, s => IsInt i.toNat s
  | .float16 x, s => IsFl x s
  | .float x, s => IsFl x s
  | .double x, s => IsFl x s
  | .ptr _, _ => True

/-- A finite number is not negative apart from its sign, and less than the power of two at which the type ends. -/
def Fl.Below (e : Nat) : Fl → Prop
  | .fin _ q => 0 ≤ q ∧ q < 2 ^ e
  | _ => True

/-- The values of the types. -/
def SrcVal.Ok : SrcVal → Prop
  | .float16 x => x.Below 16
  | .float x => x.Below 128
  | .double x => x.Below 1024
  | _ => True

/-- The lane of a varying argument: a lane that is off is in double parentheses, or is a line if it is a boolean. -/
def laneText (txt : SrcVal → List Char) (on : Bool) (v : SrcVal) : List Char :=
  if on then txt v
  else if v.ty = .bool then ['_', '_', '_', '_', '_', '_', '_', '_', '_'] else ['(', '('] ++ txt v ++ [')', ')']

/-- The lanes from a lane on, with commas. -/
def lanesText (txt : SrcVal → List Char) (on : Nat → Bool) : Nat → List SrcVal → List Char
  | _, [] => []
  | k, [v] => laneText txt (on k) v
  | k, v :: vs => laneText txt (on k) v ++ ',' :: lanesText txt on (k + 1) vs

def argText (txt : SrcVal → List Char) (on : Nat → Bool) : Arg → List Char
  | .uniform _ v => txt v
  | .varying _ vs => '[' :: lanesText txt on 0 vs ++ [']']

/-- The format with the arguments in the place of the percent signs. -/
def render (txt : SrcVal → List Char) (on : Nat → Bool) : List Char → List Arg → List Char
  | [], _ => []
  | c :: f, args =>
    if c = '%' then
      match args with
      | [] => []
      | a :: as => argText txt on a ++ render txt on f as
    else c :: render txt on f args

/-- An argument of the program: its values have its type, and there is one in each lane. -/
def Arg.Ok (width : Nat) : Arg → Prop
  | .uniform t v => v.ty = t ∧ v.Ok
  | .varying t vs => vs.length = width ∧ ∀ v ∈ vs, v.ty = t ∧ v.Ok

/-- The text of a value. -/
def txt (v : SrcVal) : List Char := (store v).text

/-! ## The text of a value is the documented one -/

theorem digitsRev_ne {base fuel n : Nat} : digitsRev base (fuel + 1) n ≠ [] := by simp [digitsRev]

theorem digitChar_dec {d : Nat} (h : d < 10) :
    ('0' ≤ digitChar d ∧ digitChar d ≤ '9') ∧ (digitChar d).toNat - '0'.toNat = d ∧ (digitChar d = '0' ↔ d = 0) := by
  interval_cases d <;> decide

theorem digitsRev_dec (fuel : Nat) : ∀ n, n < 2 ^ fuel →
    (∀ c ∈ digitsRev 10 fuel n, '0' ≤ c ∧ c ≤ '9') ∧ decimalValue (digitsRev 10 fuel n).reverse = n ∧
      (n ≠ 0 → (digitsRev 10 fuel n).getLast? ≠ some '0') ∧ (fuel ≠ 0 → n = 0 → digitsRev 10 fuel n = ['0']) := by
  induction fuel with
  | zero => intro n h; simp at h; subst h; simp [digitsRev, decimalValue]
  | succ fuel ih =>
    intro n h
    have hd := digitChar_dec (Nat.mod_lt n (by decide : 0 < 10))
    by_cases h0 : n / 10 = 0
    · have hn : n < 10 := by omega
      have hm : n % 10 = n := by omega
      rw [hm] at hd
      simp only [digitsRev, h0, if_true, hm]
      refine ⟨?_, ?_, ?_, ?_⟩
      · intro c hc; simp at hc; subst hc; exact hd.1
      · simpa [decimalValue] using hd.2.1
      · intro hz; simp; intro hc; exact hz (hd.2.2.mp hc)
      · intro _ hz; subst hz; rfl
    · have hlt : n / 10 < 2 ^ fuel := by have := Nat.pow_succ 2 fuel; omega
      obtain ⟨i1, i2, i3, -⟩ := ih (n / 10) hlt
      simp only [digitsRev, h0, if_false]
      refine ⟨?_, ?_, ?_, ?_⟩
      · intro c hc
        rcases List.mem_cons.mp hc with hc | hc
        · subst hc; exact hd.1
        · exact i1 c hc
      · unfold decimalValue at i2 ⊢
        rw [List.reverse_cons, List.foldl_append, i2]
        simp only [List.foldl_cons, List.foldl_nil, hd.2.1]
        omega
      · intro _
        have hf : fuel ≠ 0 := by intro hf; subst hf; simp at hlt; omega
        obtain ⟨k, rfl⟩ : ∃ k, fuel = k + 1 := ⟨fuel - 1, by omega⟩
        rw [List.getLast?_cons_of_ne_nil digitsRev_ne]
        exact i3 h0
      · intro _ hz; subst hz; simp at h0

theorem digits_nat (n : Nat) : IsNat n (digits 10 n) := by
  have hl : n < 2 ^ (Nat.log2 n + 1) := Nat.lt_log2_self
  obtain ⟨h1, h2, h3, h4⟩ := digitsRev_dec _ n hl
  refine ⟨⟨?_, ?_⟩, h2, ?_⟩
  · simp [digits, digitsRev]
  · intro c hc; exact h1 c (by simpa [digits] using hc)
  · intro h0
    by_cases hn : n = 0
    · simp [digits, h4 (by omega) hn]
    · exfalso; apply h3 hn; simpa [digits, List.head?_reverse] using h0

theorem signed_int {z : Int} : IsInt z (signed (decide (z < 0)) (digits 10 z.natAbs)) := by
  unfold IsInt signed
  by_cases h : z < 0
  · simp only [h, if_true, decide_true]; exact ⟨_, rfl, digits_nat _⟩
  · simp only [h, if_false, decide_false, Bool.false_eq_true]; exact digits_nat _

theorem natural_int {n : Nat} : IsInt n (digits 10 n) := by
  have h : ¬ ((n : Int) < 0) := by omega
  unfold IsInt
  simp only [h, if_false, Int.natAbs_natCast]; exact digits_nat _

theorem six_spec {n : Nat} (h : n < 1000000) : IsDigits (six n) ∧ (six n).length = 6 ∧ decimalValue (six n) = n := by
  have d1 := digitChar_dec (Nat.mod_lt (n / 100000) (by decide : 0 < 10))
  have d2 := digitChar_dec (Nat.mod_lt (n / 10000) (by decide : 0 < 10))
  have d3 := digitChar_dec (Nat.mod_lt (n / 1000) (by decide : 0 < 10))
  have d4 := digitChar_dec (Nat.mod_lt (n / 100) (by decide : 0 < 10))
  have d5 := digitChar_dec (Nat.mod_lt (n / 10) (by decide : 0 < 10))
  have d6 := digitChar_dec (Nat.mod_lt n (by decide : 0 < 10))
  refine ⟨⟨by simp [six], ?_⟩, rfl, ?_⟩
  · intro c hc
    simp only [six, List.mem_cons, List.not_mem_nil, or_false] at hc
    rcases hc with rfl | rfl | rfl | rfl | rfl | rfl
    exacts [d1.1, d2.1, d3.1, d4.1, d5.1, d6.1]
  · simp only [decimalValue, six, List.foldl_cons, List.foldl_nil, d1.2.1, d2.2.1, d3.2.1, d4.2.1, d5.2.1, d6.2.1]
    omega

theorem fixed_spec {q : ℚ} (h : 0 ≤ q) : IsFixed q (fixed q) := by
  have h0 : 0 ≤ rne (q * 1000000) := by
    have := Ispc.Literal.rne_ge (q := q * 1000000) (n := 0) (by push_cast; positivity)
    omega
  have hn := Ispc.Literal.rne_near (q * 1000000)
  obtain ⟨n, hq⟩ : ∃ n : Nat, rne (q * 1000000) = n := ⟨_, (Int.toNat_of_nonneg h0).symm⟩
  obtain ⟨s1, s2, s3⟩ := six_spec (Nat.mod_lt n (by decide : 0 < 1000000))
  refine ⟨_, _, n / 1000000, rfl, by rw [hq]; exact digits_nat _, by rw [hq]; exact s1, by rw [hq]; exact s2, ?_⟩
  rw [hq, Int.toNat_natCast, s3]
  rw [hq] at hn
  have hsum : ((n / 1000000 : Nat) : ℚ) * 1000000 + ((n % 1000000 : Nat) : ℚ) = n := by
    have := Nat.div_add_mod n 1000000
    exact_mod_cast (by omega : n / 1000000 * 1000000 + n % 1000000 = n)
  have he : ((n / 1000000 : Nat) : ℚ) + ((n % 1000000 : Nat) : ℚ) / 1000000 - q = ((n : ℚ) - q * 1000000) / 1000000 := by
    rw [← hsum]; ring
  rw [he, abs_div, abs_sub_comm]
  have : |(1000000 : ℚ)| = 1000000 := by norm_num
  rw [this, div_le_iff₀ (by norm_num)]
  simpa using le_trans hn (by norm_num)

theorem fl_spec {e : Nat} {x : Fl} (h : x.Below e) : IsFl x x.text := by
  cases x with
  | fin neg q => exact ⟨_, by cases neg <;> simp [Fl.text, signed] , fixed_spec h.1⟩
  | inf neg => exact ⟨_, by cases neg <;> simp [Fl.text, signed], rfl⟩
  | nan neg => exact ⟨_, by cases neg <;> simp [Fl.text, signed], rfl⟩

/-- The text of every value is the documented one. -/
theorem txt_shows {v : SrcVal} (h : v.Ok) : Shows v (txt v) := by
  cases v with
  | bool b => cases b <;> rfl
  | int8 i =>
    have : (i.signExtend 32).toInt = i.toInt := BitVec.toInt_signExtend_of_le (by decide)
    simp only [Shows, txt, store, Val.text]; rw [this]; exact signed_int
  | int16 i =>
    have : (i.signExtend 32).toInt = i.toInt := BitVec.toInt_signExtend_of_le (by decide)
    simp only [Shows, txt, store, Val.text]; rw [this]; exact signed_int
  | uint8 i =>
    have : (i.zeroExtend 32).toInt = (i.toNat : Int) := by
      have := i.isLt
      simp [BitVec.toInt_eq_toNat_cond, BitVec.toNat_setWidth]; omega
    simp only [Shows, txt, store, Val.text]; rw [this]; exact signed_int
  | uint16 i =>
    have : (i.zeroExtend 32).toInt = (i.toNat : Int) := by
      have := i.isLt
      simp [BitVec.toInt_eq_toNat_cond, BitVec.toNat_setWidth]; omega
    simp only [Shows, txt, store, Val.text]; rw [this]; exact signed_int
  | int32 i => exact signed_int
  | uint32 i => exact natural_int
  | int64 i => exact signed_int
  | uint64 i => exact natural_int
  | float16 x => exact fl_spec h
  | float x => exact fl_spec h
  | double x => exact fl_spec h
  | ptr i => trivial

example : txt (.int8 (-128)) = ['-', '1', '2', '8'] := by decide +kernel
example : txt (.uint8 255) = ['2', '5', '5'] := by decide +kernel
example : txt (.float (.fin true (5 / 2))) = ['-', '2', '.', '5', '0', '0', '0', '0', '0'] := by decide +kernel

/-! ## The length of the text of a value -/

theorem digitsRev_len (base : Nat) (fuel : Nat) : ∀ n k, n < base ^ k → 0 < k → (digitsRev base fuel n).length ≤ k := by
  induction fuel with
  | zero => intro n k _ _; simp [digitsRev]
  | succ fuel ih =>
    intro n k h hk
    simp only [digitsRev, List.length_cons]
    split_ifs with h0
    · simp; omega
    · obtain ⟨k, rfl⟩ : ∃ j, k = j + 1 := ⟨k - 1, by omega⟩
      have hb : n / base < base ^ k := by
        apply Nat.div_lt_of_lt_mul; rw [Nat.pow_succ] at h; rw [Nat.mul_comm]; exact h
      by_cases hk0 : k = 0
      · subst hk0; exact absurd (Nat.lt_one_iff.mp hb) h0
      · have := ih _ k hb (by omega); omega

theorem digits_len {base n k : Nat} (h : n < base ^ k) (hk : 0 < k) : (digits base n).length ≤ k := by
  simpa [digits] using digitsRev_len base _ n k h hk

theorem signed_len (neg : Bool) (t : List Char) : (signed neg t).length ≤ t.length + 1 := by
  cases neg <;> simp [signed]

theorem fixed_len {q : ℚ} {k : Nat} (h : q * 10 ^ 6 ≤ 10 ^ (k + 6) - 1) (hk : 0 < k) :
    (fixed q).length ≤ k + 7 := by
  have h1 : rne (q * 1000000) ≤ 10 ^ (k + 6) - 1 := by
    apply Ispc.Literal.rne_le; push_cast; convert h using 2; norm_num
  have h2 : (rne (q * 1000000)).toNat / 1000000 < 10 ^ k := by
    apply Nat.div_lt_of_lt_mul
    have : (1000000 * 10 ^ k : Nat) = 10 ^ (k + 6) := by rw [Nat.pow_add]; omega
    rw [this]
    zify
    have hp : (0 : Int) < 10 ^ (k + 6) := by positivity
    omega
  have := digits_len h2 hk
  simp [fixed, six]; omega

theorem fl_len {x : Fl} {e k : Nat} (h : x.Below e) (he : (2 : ℚ) ^ e * 10 ^ 6 ≤ 10 ^ (k + 6) - 1) (hk : 0 < k) :
    x.text.length ≤ k + 8 := by
  cases x with
  | fin neg q =>
    have h1 := fixed_len (q := q) (le_trans (by have := h.2; nlinarith) he) hk
    have h2 := signed_len neg (fixed q)
    simp [Fl.text]; omega
  | inf neg => have h2 := signed_len neg ['i', 'n', 'f']; simp [Fl.text] at *; omega
  | nan neg => have h2 := signed_len neg ['n', 'a', 'n']; simp [Fl.text] at *; omega

/-- The length of the longest text of a value of a type. -/
def longest : SrcTy → Nat
  | .bool => 5
  | .int8 | .uint8 | .int16 | .uint16 | .int32 => 11
  | .uint32 => 10
  | .int64 | .uint64 => 20
  | .float16 => 13
  | .float => 47
  | .double => 317
  | .ptr => 18
  | .other => 0

theorem int_len {n k : Nat} (i : BitVec n) (h : 2 ^ (n - 1) < 10 ^ k) (hk : 0 < k) :
    (signed (decide (i.toInt < 0)) (digits 10 i.toInt.natAbs)).length ≤ k + 1 := by
  have h1 : i.toInt.natAbs ≤ 2 ^ (n - 1) := by
    have := BitVec.toInt_lt (x := i); have := BitVec.le_toInt (x := i)
    have hc : ((2 ^ (n - 1) : Nat) : Int) = 2 ^ (n - 1) := by push_cast; rfl
    omega
  have h2 := digits_len (lt_of_le_of_lt h1 h) hk
  have h3 := signed_len (decide (i.toInt < 0)) (digits 10 i.toInt.natAbs)
  omega

theorem txt_len {v : SrcVal} (h : v.Ok) : (txt v).length ≤ longest v.ty := by
  cases v with
  | bool b => cases b <;> decide
  | int8 i => exact int_len _ (by decide) (by decide : 0 < 10)
  | int16 i => exact int_len _ (by decide) (by decide : 0 < 10)
  | uint8 i => exact int_len _ (by decide) (by decide : 0 < 10)
  | uint16 i => exact int_len _ (by decide) (by decide : 0 < 10)
  | int32 i => exact int_len _ (by decide) (by decide : 0 < 10)
  | uint32 i => exact digits_len (k := 10) (lt_trans i.isLt (by decide)) (by decide)
  | int64 i => exact int_len _ (by decide) (by decide : 0 < 19)
  | uint64 i => exact digits_len (k := 20) (lt_trans i.isLt (by decide)) (by decide)
  | float16 x => exact fl_len h (k := 5) (by norm_num) (by decide)
  | float x => exact fl_len h (k := 39) (by norm_num) (by decide)
  | double x =>
    refine fl_len h (k := 309) ?_ (by decide)
    have h1 : (2 : ℚ) ^ 128 ≤ 3403 * 10 ^ 35 := by norm_num
    have h2 : ((2 : ℚ) ^ 128) ^ 8 ≤ (3403 * 10 ^ 35) ^ 8 := pow_le_pow_left₀ (by norm_num) h1 8
    have h3 : (2 : ℚ) ^ 1024 = (2 ^ 128) ^ 8 := by rw [← pow_mul]
    have h4 : ((3403 : ℚ) * 10 ^ 35) ^ 8 = 3403 ^ 8 * 10 ^ 280 := by rw [mul_pow, ← pow_mul]
    have h5 : (10 : ℚ) ^ (309 + 6) = 10 ^ 29 * 10 ^ 6 * 10 ^ 280 := by rw [← pow_add, ← pow_add]
    have h6 : (1 : ℚ) ≤ 10 ^ 280 := one_le_pow₀ (by norm_num)
    rw [h3, h5]
    rw [h4] at h2
    generalize (10 : ℚ) ^ 280 = t at *
    generalize ((2 : ℚ) ^ 128) ^ 8 = u at *
    clear h1 h3 h4 h5
    norm_num at h2 ⊢
    linarith
  | ptr i =>
    simp only [txt, store, Val.text, SrcVal.ty, longest]
    split_ifs
    · decide
    · have := digits_len (base := 16) (k := 16) (lt_of_lt_of_le i.isLt (by decide)) (by decide)
      simp; omega

/-! ## The buffers -/

theorem put_append (s : List Char) (c d : Char) (r : List Char) : put (s ++ c :: r) s.length d = some (s ++ d :: r) := by
  simp [put]

theorem put_full (s : List Char) (d : Char) : put s s.length d = none := by simp [put]

/-- A write of a text at the end of what has been written: the text replaces what was there, if there is room. -/
theorem puts_append (t : List Char) : ∀ s r : List Char, puts (s ++ r) s.length t =
    if t.length ≤ r.length then some (s ++ t ++ r.drop t.length) else none := by
  induction t with
  | nil => intro s r; simp [puts]
  | cons c t ih =>
    intro s r
    cases r with
    | nil => simp [puts, put]
    | cons x r =>
      rw [puts, put_append, Option.bind_some]
      have h : s ++ c :: r = (s ++ [c]) ++ r := by simp
      have h' : s.length + 1 = (s ++ [c]).length := by simp
      rw [h, h', ih (s ++ [c]) r]
      simp

theorem snprintf_append {s r t : List Char} (h : t.length < argStrSize) : snprintf (s ++ r) s.length argStrSize t =
    if t.length + 1 ≤ r.length then some (s ++ t ++ '\x00' :: r.drop (t.length + 1), t.length) else none := by
  have h1 : t.take (argStrSize - 1) = t := List.take_of_length_le (by omega)
  rw [snprintf, if_neg (by decide), h1, puts_append]
  simp only [List.length_append, List.length_cons, List.length_nil, Nat.zero_add]
  split_ifs <;> simp

/-! ## One argument -/

theorem mask_bit (mask : BitVec 64) (k : Nat) : (mask &&& (1#64 <<< k) ≠ 0) ↔ mask.getLsbD k = true := by
  constructor
  · intro h
    by_contra hk
    apply h
    apply BitVec.eq_of_getLsbD_eq
    intro i hi
    by_cases hik : i = k
    · subst hik; simp at hk; simp [hk]
    · have : i - k ≠ 0 ∨ i < k := by omega
      rcases this with h2 | h2
      · simp [BitVec.getLsbD_shiftLeft, BitVec.getLsbD_one, h2]
      · simp [BitVec.getLsbD_shiftLeft, h2]
  · intro h h0
    have hk : k < 64 := BitVec.lt_of_getLsbD h
    have := congrArg (fun m => m.getLsbD k) h0
    have hg : mask[k] = true := by rw [← BitVec.getLsbD_eq_getElem]; exact h
    simp [hk, hg] at this

/-- The type that a type of the source is stored as. -/
def storedTy (t : SrcTy) : Option Ty := encodeTy (promote t)

theorem store_ty (v : SrcVal) : storedTy v.ty = some (store v).ty := by cases v <;> rfl

theorem txt_small {v : SrcVal} (h : v.Ok) : (txt v).length < argStrSize := by
  have := txt_len h
  have h2 : longest v.ty ≤ 317 := by cases v.ty <;> decide
  unfold argStrSize; omega

theorem readCell_ok {t : SrcTy} {ty : Ty} {vs : List SrcVal} {k : Nat} {v : SrcVal} (ht : storedTy t = some ty)
    (hv : vs[k]? = some v) (hty : v.ty = t) : readCell ty (vs.map store) k = some (store v) := by
  have h : (store v).ty = ty := by rw [← hty, store_ty] at ht; exact Option.some.inj ht
  simp [readCell, hv, h]

theorem bool_ty {v : SrcVal} : v.ty = .bool ↔ (store v).ty = .bool := by cases v <;> simp [SrcVal.ty, store, Val.ty]

/-- One lane: its text follows what has been written, if it fits with a zero behind it; if not, the writes leave the buffer. -/
theorem lane_write {t : SrcTy} {ty : Ty} {vs : List SrcVal} {k : Nat} {v : SrcVal} (ht : storedTy t = some ty)
    (hv : vs[k]? = some v) (hty : v.ty = t) (hok : v.Ok) (mask : BitVec 64) (s r : List Char) :
    (if mask &&& (1#64 <<< k) ≠ 0 then writeOnLane (s ++ r) s.length ty (vs.map store) k
      else writeOffLane (s ++ r) s.length ty (vs.map store) k) =
    if (laneText txt (mask.getLsbD k) v).length + 1 ≤ r.length then
      some (s ++ laneText txt (mask.getLsbD k) v ++ '\x00' :: r.drop ((laneText txt (mask.getLsbD k) v).length + 1),
        s.length + (laneText txt (mask.getLsbD k) v).length)
    else none := by
  have hr := readCell_ok ht hv hty
  have hs := txt_small hok
  by_cases hm : mask.getLsbD k = true
  · rw [if_pos ((mask_bit _ _).2 hm), writeOnLane, hr, Option.bind_some]
    have : (store v).text = txt v := rfl
    rw [this, snprintf_append hs]
    simp only [laneText, hm, if_true]
    split_ifs <;> simp
  · rw [if_neg (by rw [mask_bit]; exact hm), writeOffLane]
    have hst : (store v).ty = ty := by rw [← hty, store_ty] at ht; exact Option.some.inj ht
    simp only [laneText, hm, Bool.false_eq_true, if_false]
    by_cases hb : v.ty = .bool
    · have : ty = .bool := by rw [← hst]; exact bool_ty.1 hb
      rw [if_pos this, snprintf_append (by decide)]
      simp only [hb, if_true]
      change ((if offLaneBool.length + 1 ≤ r.length then some _ else none) : Option _).map _ = if offLaneBool.length + 1 ≤ r.length then some _ else none
      split_ifs <;> simp [offLaneBool]
    · have : ty ≠ .bool := by rw [← hst]; exact fun h => hb (bool_ty.2 h)
      rw [if_neg this, snprintf_append (by decide), if_neg hb]
      have ht : (store v).text = txt v := rfl
      by_cases h1 : ['(', '('].length + 1 ≤ r.length
      · rw [if_pos h1, Option.bind_some, hr, Option.bind_some, ht]
        have hl : s.length + ['(', '('].length = (s ++ ['(', '(']).length := by simp
        rw [hl, snprintf_append hs]
        by_cases h2 : (txt v).length + 1 ≤ ('\x00' :: r.drop (['(', '('].length + 1)).length
        · rw [if_pos h2, Option.bind_some]
          have hl2 : (s ++ ['(', '(']).length + (txt v).length = (s ++ ['(', '('] ++ txt v).length := by simp; omega
          simp only []
          rw [hl2, snprintf_append (by decide)]
          simp only [List.length_cons, List.length_drop, List.length_nil, List.length_append] at *
          by_cases h3 : (0 + 1 + 1 + (txt v).length) + (0 + 1 + 1) + 1 ≤ r.length
          · rw [if_pos (by omega), if_pos h3]
            simp only [Option.map_some, Option.some.injEq, Prod.mk.injEq, List.append_assoc,
              List.append_cancel_left_eq, List.cons.injEq, true_and]
            refine ⟨?_, by omega⟩
            simp only [List.drop_succ_cons, List.drop_drop]
            congr 1; omega
          · rw [if_neg (by omega), if_neg h3]; rfl
        · rw [if_neg h2]
          simp only [List.length_cons, List.length_drop, List.length_nil, List.length_append] at *
          rw [if_neg (by omega)]; rfl
      · rw [if_neg h1]
        simp only [List.length_cons, List.length_nil, List.length_append] at *
        rw [if_neg (by omega)]; rfl

/-- The lanes that follow, and the bracket. -/
def tailText (on : Nat → Bool) (k : Nat) (vs : List SrcVal) : List Char :=
  if vs = [] then [] else lanesText txt on k vs ++ [']']

theorem tailText_cons (on : Nat → Bool) (k : Nat) (v : SrcVal) (vs : List SrcVal) :
    tailText on k (v :: vs) = laneText txt (on k) v ++ (if vs = [] then ']' else ',') :: tailText on (k + 1) vs := by
  cases vs with
  | nil => simp [tailText, lanesText]
  | cons w ws => simp [tailText, lanesText]

theorem varyingLoop_spec {width : Nat} {t : SrcTy} {ty : Ty} {vs : List SrcVal} (ht : storedTy t = some ty)
    (hlen : vs.length = width) (hty : ∀ v ∈ vs, v.ty = t ∧ v.Ok) (mask : BitVec 64) (left : Nat) :
    ∀ s r : List Char, left ≤ width →
      varyingLoop width mask ty (vs.map store) left (s ++ r) s.length =
        if (tailText mask.getLsbD (width - left) (vs.drop (width - left))).length + 1 ≤ r.length then
          some (s ++ tailText mask.getLsbD (width - left) (vs.drop (width - left)) ++
            '\x00' :: r.drop ((tailText mask.getLsbD (width - left) (vs.drop (width - left))).length + 1))
        else none := by
  induction left with
  | zero =>
    intro s r _
    have : vs.drop (width - 0) = [] := List.drop_eq_nil_of_le (by omega)
    rw [this, varyingLoop]
    cases r with
    | nil => simp [put]
    | cons c r => rw [put_append]; simp [tailText]
  | succ left ih =>
    intro s r hle
    obtain ⟨k, hk⟩ : ∃ k, width - (left + 1) = k := ⟨_, rfl⟩
    have hk1 : width - left = k + 1 := by omega
    have hkl : k < vs.length := by omega
    have hd : vs.drop k = vs[k] :: vs.drop (k + 1) := List.drop_eq_getElem_cons hkl
    have hv : vs[k]? = some vs[k] := List.getElem?_eq_getElem hkl
    obtain ⟨h1, h2⟩ := hty vs[k] (List.getElem_mem hkl)
    have hsep : (if k = width - 1 then ']' else ',') = if vs.drop (k + 1) = [] then ']' else ',' := by
      by_cases h : k = width - 1
      · rw [if_pos h, if_pos (List.drop_eq_nil_of_le (by omega))]
      · rw [if_neg h, if_neg]; rw [List.drop_eq_nil_iff]; omega
    rw [varyingLoop]
    simp only [hk]
    rw [lane_write ht hv h1 h2 mask s r, hd, tailText_cons, hsep]
    generalize laneText txt (mask.getLsbD k) vs[k] = l
    generalize (if vs.drop (k + 1) = [] then ']' else ',') = sep
    by_cases hl : l.length + 1 ≤ r.length
    · rw [if_pos hl, Option.bind_some]
      have e1 : s.length + l.length = (s ++ l).length := by simp
      simp only []
      rw [e1, put_append, Option.bind_some]
      have e2 : s ++ l ++ sep :: r.drop (l.length + 1) = (s ++ l ++ [sep]) ++ r.drop (l.length + 1) := by simp
      have e3 : (s ++ l).length + 1 = (s ++ l ++ [sep]).length := by simp; omega
      rw [e2, e3, ih _ _ (by omega), hk1]
      generalize tailText mask.getLsbD (k + 1) (vs.drop (k + 1)) = tl
      simp only [List.length_drop, List.length_append, List.length_cons, List.drop_drop]
      by_cases hf : l.length + (tl.length + 1) + 1 ≤ r.length
      · rw [if_pos (by omega), if_pos hf]
        have : l.length + 1 + (tl.length + 1) = l.length + (tl.length + 1) + 1 := by omega
        simp [this]
      · rw [if_neg (by omega), if_neg hf]
    · rw [if_neg hl, if_neg (by simp; omega)]; rfl

/-- A varying argument gets its text if this and a zero fit into the buffer; if not, the function writes beyond the end. -/
theorem varying2Str_spec {width : Nat} {t : SrcTy} {ty : Ty} {vs : List SrcVal} (ht : storedTy t = some ty)
    (hw : 0 < width) (ho : (Arg.varying t vs).Ok width) (mask : BitVec 64) {junk : Buf} (hj : junk.length = argStrSize) :
    ∃ r, varying2Str junk width mask ty (vs.map store) =
      if (argText txt mask.getLsbD (.varying t vs)).length < argStrSize then
        some (argText txt mask.getLsbD (.varying t vs) ++ '\x00' :: r) else none := by
  obtain ⟨hlen, hty⟩ := ho
  cases junk with
  | nil => simp [argStrSize] at hj
  | cons c junk =>
    have hp := put_append [] c '[' junk
    simp only [List.nil_append, List.length_nil] at hp
    have hl := varyingLoop_spec ht hlen hty mask width ['['] junk (le_refl _)
    rw [varying2Str, hp, Option.bind_some]
    simp only [List.cons_append, List.nil_append, List.length_cons, List.length_nil, Nat.zero_add, Nat.sub_self,
      List.drop_zero] at hl
    rw [hl]
    have hne : vs ≠ [] := by intro h; subst h; simp at hlen; omega
    simp only [tailText, hne, if_false, argText]
    simp only [List.length_cons] at hj
    refine ⟨junk.drop ((lanesText txt mask.getLsbD 0 vs ++ [']']).length + 1), ?_⟩
    simp only [List.length_cons, List.cons_append, List.length_append, List.length_nil]
    by_cases h : (lanesText txt mask.getLsbD 0 vs).length + (0 + 1) + 1 ≤ junk.length
    · rw [if_pos h, if_pos (by omega)]
    · rw [if_neg h, if_neg (by omega)]

theorem uniform2Str_spec {t : SrcTy} {ty : Ty} {v : SrcVal} {width : Nat} (ht : storedTy t = some ty)
    (ho : (Arg.uniform t v).Ok width) {junk : Buf} (hj : junk.length = argStrSize) :
    ∃ r, uniform2Str junk ty [store v] = some (txt v ++ '\x00' :: r) := by
  have hr := readCell_ok (vs := [v]) (k := 0) ht rfl ho.1
  have hs := txt_small ho.2
  have h := snprintf_append (s := []) (r := junk) hs
  simp only [List.nil_append, List.length_nil] at h
  simp only [List.map_cons, List.map_nil] at hr
  have e : (store v).text = txt v := rfl
  refine ⟨junk.drop ((txt v).length + 1), ?_⟩
  rw [uniform2Str, hr, Option.bind_some, e, h, if_pos (by omega)]; rfl

theorem arg2Str_uniform (junk : Buf) (width : Nat) (mask : BitVec 64) (ty : Ty) (cells : List Val) :
    arg2Str junk width mask (encodeUniform ty) cells order = uniform2Str junk ty cells := by
  cases ty <;> simp [arg2Str, order, encodeUniform, encodeVarying]

theorem arg2Str_varying (junk : Buf) (width : Nat) (mask : BitVec 64) (ty : Ty) (cells : List Val) :
    arg2Str junk width mask (encodeVarying ty) cells order = varying2Str junk width mask ty cells := by
  cases ty <;> simp [arg2Str, order, encodeUniform, encodeVarying]

/-- The text of an argument is made if it fits. -/
theorem arg2Str_spec {width : Nat} {a : Arg} {code : Nat} (hc : a.code = some code) (hw : 0 < width) (ho : a.Ok width)
    (mask : BitVec 64) {junk : Buf} (hj : junk.length = argStrSize) :
    ∃ r, arg2Str junk width mask code a.cells order =
      if (argText txt mask.getLsbD a).length < argStrSize then some (argText txt mask.getLsbD a ++ '\x00' :: r)
      else none := by
  cases a with
  | uniform t v =>
    simp only [Arg.code, typeCode, Option.map_eq_some_iff] at hc
    obtain ⟨ty, ht, rfl⟩ := hc
    obtain ⟨r, hr⟩ := uniform2Str_spec ht ho hj
    refine ⟨r, ?_⟩
    rw [if_neg (by decide), arg2Str_uniform]
    exact hr.trans (if_pos (txt_small ho.2)).symm
  | varying t vs =>
    simp only [Arg.code, typeCode, Option.map_eq_some_iff] at hc
    obtain ⟨ty, ht, rfl⟩ := hc
    obtain ⟨r, hr⟩ := varying2Str_spec ht hw ho mask hj
    exact ⟨r, by simpa only [if_true, arg2Str_varying, Arg.cells] using hr⟩

/-! ## The format -/

theorem copyTill_spec (sep : Char → Bool) (z : Char) (hz : sep z = true) (q : List Char) (left : Nat) :
    ∀ t p s r : List Char, (∀ c ∈ t, sep c = false) → left ≤ r.length →
      copyTill sep (p ++ t ++ z :: q) left p.length (s ++ r) s.length =
        some (s ++ t.take left ++ r.drop (t.take left).length, (t.take left).length) := by
  induction left with
  | zero =>
    intro t p s r _ _
    cases t <;> simp [copyTill]
  | succ left ih =>
    intro t p s r ht hr
    cases t with
    | nil => simp [copyTill, hz]
    | cons c t =>
      cases r with
      | nil => simp at hr
      | cons x r =>
        have hc : sep c = false := ht c (by simp)
        have e1 : (p ++ c :: t ++ z :: q)[p.length]? = some c := by simp
        rw [copyTill, e1, Option.bind_some, hc, if_neg (by decide), put_append, Option.bind_some]
        have e2 : p ++ c :: t ++ z :: q = (p ++ [c]) ++ t ++ z :: q := by simp
        have e3 : p.length + 1 = (p ++ [c]).length := by simp
        have e4 : s ++ c :: r = (s ++ [c]) ++ r := by simp
        have e5 : s.length + 1 = (s ++ [c]).length := by simp
        rw [e2, e3, e4, e5, ih t (p ++ [c]) (s ++ [c]) r (fun d hd => ht d (by simp [hd])) (by simpa using hr)]
        simp

theorem digitChar_ne (n : Nat) : digitChar n ≠ '\x00' := by unfold digitChar; split <;> decide

theorem digits_ne {base n : Nat} : '\x00' ∉ digits base n := by
  have : ∀ fuel n, '\x00' ∉ digitsRev base fuel n := by
    intro fuel
    induction fuel with
    | zero => intro n; simp [digitsRev]
    | succ fuel ih =>
      intro n h
      rw [digitsRev, List.mem_cons] at h
      rcases h with h | h
      · exact digitChar_ne _ h.symm
      · split_ifs at h
        · simp at h
        · exact ih _ h
  simpa [digits] using this _ _

theorem signed_ne {neg : Bool} {t : List Char} (h : '\x00' ∉ t) : '\x00' ∉ signed neg t := by
  cases neg <;> simp [signed, h]

theorem fl_ne (x : Fl) : '\x00' ∉ x.text := by
  cases x with
  | fin neg q =>
    apply signed_ne
    simp only [fixed, List.mem_append, List.mem_cons, six, List.not_mem_nil, or_false]
    rintro (h | h | h | h | h | h | h | h)
    · exact digits_ne h
    · exact absurd h (by decide)
    all_goals exact digitChar_ne _ h.symm
  | inf neg => exact signed_ne (by decide)
  | nan neg => exact signed_ne (by decide)

theorem txt_ne (v : SrcVal) : '\x00' ∉ txt v := by
  cases v with
  | bool b => cases b <;> decide
  | int8 i => exact signed_ne digits_ne
  | int16 i => exact signed_ne digits_ne
  | uint8 i => exact signed_ne digits_ne
  | uint16 i => exact signed_ne digits_ne
  | int32 i => exact signed_ne digits_ne
  | uint32 i => exact digits_ne
  | int64 i => exact signed_ne digits_ne
  | uint64 i => exact digits_ne
  | float16 x => exact fl_ne x
  | float x => exact fl_ne x
  | double x => exact fl_ne x
  | ptr i =>
    simp only [txt, store, Val.text]
    split_ifs
    · decide
    · simp only [List.mem_cons]
      rintro (h | h | h)
      · exact absurd h (by decide)
      · exact absurd h (by decide)
      · exact digits_ne h

theorem laneText_ne (on : Bool) (v : SrcVal) : '\x00' ∉ laneText txt on v := by
  unfold laneText
  split_ifs
  · exact txt_ne v
  · decide
  · have := txt_ne v
    simp [this]

theorem lanesText_ne (on : Nat → Bool) (vs : List SrcVal) : ∀ k, '\x00' ∉ lanesText txt on k vs := by
  induction vs with
  | nil => intro k; simp [lanesText]
  | cons v vs ih =>
    intro k
    cases vs with
    | nil => exact laneText_ne _ _
    | cons w ws =>
      have h1 := laneText_ne (on k) v
      have h2 := ih (k + 1)
      rw [lanesText]
      · simp [h1, h2]
      · simp

theorem argText_ne (on : Nat → Bool) (a : Arg) : '\x00' ∉ argText txt on a := by
  cases a with
  | uniform t v => exact txt_ne v
  | varying t vs => have := lanesText_ne on vs 0; simp [argText, this]

theorem render_char {on : Nat → Bool} {c : Char} (h : c ≠ '%') (f : List Char) (args : List Arg) :
    render txt on (c :: f) args = c :: render txt on f args := by
  cases args <;> simp [render, h]

theorem render_percent (on : Nat → Bool) (f : List Char) (a : Arg) (args : List Arg) :
    render txt on ('%' :: f) (a :: args) = argText txt on a ++ render txt on f args := by simp [render]

theorem render_ne (on : Nat → Bool) (f : List Char) : ∀ args, '\x00' ∉ f → '\x00' ∉ render txt on f args := by
  induction f with
  | nil => intro args _; simp [render]
  | cons c f ih =>
    intro args h
    simp only [List.mem_cons, not_or] at h
    by_cases hc : c = '%'
    · subst hc
      cases args with
      | nil => simp [render]
      | cons a as => rw [render_percent]; simp [argText_ne on a, ih as h.2]
    · rw [render_char hc]
      simp only [List.mem_cons, not_or]
      exact ⟨h.1, ih args h.2⟩

theorem render_plain (on : Nat → Bool) (p : List Char) (hp : '%' ∉ p) (f : List Char) (args : List Arg) :
    render txt on (p ++ f) args = p ++ render txt on f args := by
  induction p with
  | nil => rfl
  | cons c p ih =>
    simp only [List.mem_cons, not_or] at hp
    rw [List.cons_append, render_char (fun h => hp.1 h.symm), ih hp.2]; rfl

theorem plainSep_of {p : List Char} (h1 : '%' ∉ p) (h2 : '\x00' ∉ p) : ∀ c ∈ p, plainSep c = false := by
  intro c hc
  simp only [plainSep, Bool.or_eq_false_iff, beq_eq_false_iff_ne]
  exact ⟨fun h => h1 (h ▸ hc), fun h => h2 (h ▸ hc)⟩

theorem fullSep_of {p : List Char} (h : '\x00' ∉ p) : ∀ c ∈ p, fullSep c = false := by
  intro c hc
  simp only [fullSep, beq_eq_false_iff_ne]
  exact fun hh => h (hh ▸ hc)

/-- The end of the format, or the end of the buffer before it. -/
theorem formatLoop_end (junk : Buf) (width : Nat) (mask : BitVec 64) (fuel : Nat) {p : List Char} {z : Char}
    (hz : plainSep z = true) (q : List Char) (types : List Nat) (args : List (List Val)) (s : List Char) {r : List Char}
    {left : Nat} (hr : r.length = left + 1) (h1 : '%' ∉ p) (h2 : '\x00' ∉ p) (h : left ≤ p.length ∨ z = '\x00') :
    ∃ r', formatLoop junk width mask (fuel + 1) (p ++ z :: q) types args (s ++ r) s.length left =
      some (s ++ p.take left ++ '\x00' :: r') := by
  have hc := copyTill_spec plainSep z hz q left p [] s r (plainSep_of h1 h2) (by omega)
  simp only [List.nil_append, List.length_nil] at hc
  have hne : (p.take left).length < r.length := by rw [List.length_take]; omega
  obtain ⟨x, hx⟩ : ∃ x, r.drop (p.take left).length = x :: r.drop ((p.take left).length + 1) :=
    ⟨_, List.drop_eq_getElem_cons hne⟩
  refine ⟨r.drop ((p.take left).length + 1), ?_⟩
  rw [formatLoop, hc, Option.bind_some]
  simp only []
  have hl : s.length + (p.take left).length = (s ++ p.take left).length := by simp
  have hlt : (p.take left).length < (p ++ z :: q).length := by rw [List.length_take]; simp
  have hh : ((p ++ z :: q).drop (p.take left).length).head? = some (p ++ z :: q)[(p.take left).length] := by
    rw [List.head?_drop, List.getElem?_eq_getElem hlt]
  rw [hh, Option.bind_some, if_pos, hl, hx, put_append]
  by_cases hle : left ≤ p.length
  · left; rw [List.length_take]; omega
  · right
    rcases h with h | h
    · omega
    · subst h
      have e : p.take left = p := List.take_of_length_le (by omega)
      simp [e]

/-- One argument and the text before it. -/
theorem formatLoop_step (junk : Buf) (width : Nat) (mask : BitVec 64) (fuel : Nat) {p : List Char}
    (f : List Char) (code : Nat) (types : List Nat) (cells : List Val) (args : List (List Val)) (s : List Char)
    {r : List Char} {left : Nat} (hr : r.length = left + 1) (h1 : '%' ∉ p) (h2 : '\x00' ∉ p) (h : p.length < left) :
    (arg2Str junk width mask code cells order = none →
      formatLoop junk width mask (fuel + 1) (p ++ '%' :: f) (code :: types) (cells :: args) (s ++ r) s.length left =
        none) ∧
    ∀ t q, '\x00' ∉ t → arg2Str junk width mask code cells order = some (t ++ '\x00' :: q) →
      ∃ r', r'.length = (left - p.length - t.length) + 1 ∧
      formatLoop junk width mask (fuel + 1) (p ++ '%' :: f) (code :: types) (cells :: args) (s ++ r) s.length left =
        formatLoop junk width mask fuel f types args (s ++ p ++ t.take (left - p.length) ++ r')
          (s ++ p ++ t.take (left - p.length)).length (left - p.length - t.length) := by
  have hc := copyTill_spec plainSep '%' (by decide) f left p [] s r (plainSep_of h1 h2) (by omega)
  have e : p.take left = p := List.take_of_length_le (by omega)
  simp only [List.nil_append, List.length_nil, e] at hc
  have hb : formatLoop junk width mask (fuel + 1) (p ++ '%' :: f) (code :: types) (cells :: args) (s ++ r) s.length left =
      (arg2Str junk width mask code cells order).bind fun b =>
        (copyTill fullSep b (left - p.length) 0 (s ++ p ++ r.drop p.length) (s.length + p.length)).bind fun r2 =>
          formatLoop junk width mask fuel f types args r2.1 (s.length + p.length + r2.2) (left - p.length - r2.2) := by
    rw [formatLoop, hc, Option.bind_some]
    simp only [List.drop_left, List.head?_cons, Option.bind_some, List.drop_succ_cons, List.drop_zero]
    rw [if_neg]
    rintro (h | h)
    · omega
    · exact absurd h (by decide)
  constructor
  · intro ha; rw [hb, ha]; rfl
  · intro t q ht ha
    have hl : s.length + p.length = (s ++ p).length := by simp
    have h3 := copyTill_spec fullSep '\x00' (by decide) q (left - p.length) t [] (s ++ p) (r.drop p.length)
      (fullSep_of ht) (by rw [List.length_drop]; omega)
    simp only [List.nil_append, List.length_nil] at h3
    refine ⟨(r.drop p.length).drop (t.take (left - p.length)).length, ?_, ?_⟩
    · simp only [List.length_drop, List.length_take]; omega
    · rw [hb, ha, Option.bind_some, hl, h3, Option.bind_some]
      simp only []
      have e5 : (s ++ p).length + (t.take (left - p.length)).length = (s ++ p ++ t.take (left - p.length)).length := by
        simp; omega
      have e6 : left - p.length - (t.take (left - p.length)).length = left - p.length - t.length := by
        rw [List.length_take]; omega
      rw [e5, e6]

/-- A format begins with plain text; a percent sign follows or nothing. -/
theorem format_cases (f : List Char) : ∃ p, '%' ∉ p ∧ (f = p ∨ ∃ g, f = p ++ '%' :: g) := by
  induction f with
  | nil => exact ⟨[], by simp, Or.inl rfl⟩
  | cons c f ih =>
    by_cases hc : c = '%'
    · exact ⟨[], by simp, Or.inr ⟨f, by simp [hc]⟩⟩
    · obtain ⟨p, h1, h2⟩ := ih
      refine ⟨c :: p, by simp [h1, Ne.symm hc], ?_⟩
      rcases h2 with h2 | ⟨g, h2⟩
      · left; rw [h2]
      · right; exact ⟨g, by simp [h2]⟩

theorem codes_cons {a : Arg} {args : List Arg} {ts : List Nat} (h : codes (a :: args) = some ts) :
    ∃ c ts', a.code = some c ∧ codes args = some ts' ∧ ts = c :: ts' := by
  simp only [codes, Option.bind_eq_some_iff, Option.map_eq_some_iff] at h
  obtain ⟨c, h1, ts', h2, h3⟩ := h
  exact ⟨c, ts', h1, h2, h3.symm⟩

theorem formatLoop_spec {width : Nat} (hw : 0 < width) (mask : BitVec 64) {junk : Buf}
    (hj : junk.length = argStrSize) (q : List Char) (fuel : Nat) :
    ∀ (f : List Char) (args : List Arg) (ts tl : List Nat) (s r : List Char) (left : Nat),
      '\x00' ∉ f → f.count '%' ≤ args.length → f.count '%' < fuel → codes args = some ts → (∀ a ∈ args, a.Ok width) →
      (∀ a ∈ args, (argText txt mask.getLsbD a).length < argStrSize) → r.length = left + 1 →
      ∃ r', formatLoop junk width mask fuel (f ++ '\x00' :: q) (ts ++ tl) (args.map Arg.cells) (s ++ r) s.length left =
        some (s ++ (render txt mask.getLsbD f args).take left ++ '\x00' :: r') := by
  induction fuel with
  | zero => intro f args ts tl s r left _ _ h; omega
  | succ fuel ih =>
    intro f args ts tl s r left hf hcount hfuel hcodes hok hfit hr
    obtain ⟨p, hp, hcase⟩ := format_cases f
    rcases hcase with rfl | ⟨g, rfl⟩
    · have := formatLoop_end junk width mask fuel (z := '\x00') (by decide) q (ts ++ tl) (args.map Arg.cells) s hr hp hf
        (Or.inr rfl)
      have e := render_plain mask.getLsbD f hp [] args
      simp only [List.append_nil, render] at e
      rwa [e]
    · simp only [List.mem_append, List.mem_cons, not_or] at hf
      simp only [List.count_append, List.count_cons_self, List.count_eq_zero_of_not_mem hp, Nat.zero_add] at hcount hfuel
      cases args with
      | nil => simp at hcount
      | cons a args =>
        obtain ⟨c, ts', hc, hcs, rfl⟩ := codes_cons hcodes
        rw [render_plain _ _ hp, render_percent, List.append_assoc, List.cons_append]
        by_cases hle : left ≤ p.length
        · obtain ⟨r', h'⟩ := formatLoop_end junk width mask fuel (z := '%') (by decide) (g ++ '\x00' :: q)
            (c :: ts' ++ tl) ((a :: args).map Arg.cells) s hr hp hf.1 (Or.inl hle)
          refine ⟨r', ?_⟩
          rw [h', List.take_append_of_le_length hle]
        · obtain ⟨qa, ha⟩ := arg2Str_spec hc hw (hok a (by simp)) mask hj
          rw [if_pos (hfit a (by simp))] at ha
          obtain ⟨-, hstep⟩ := formatLoop_step junk width mask fuel (g ++ '\x00' :: q) c (ts' ++ tl) a.cells
            (args.map Arg.cells) s hr hp hf.1 (by omega)
          obtain ⟨r1, hr1, h1⟩ := hstep _ qa (argText_ne _ a) ha
          obtain ⟨r', h'⟩ := ih g args ts' tl _ r1 _ hf.2.2 (by simpa using hcount) (by omega) hcs
            (fun b hb => hok b (by simp [hb])) (fun b hb => hfit b (by simp [hb])) hr1
          refine ⟨r', ?_⟩
          rw [List.map_cons, List.cons_append, h1, h']
          rw [List.take_append, List.take_append, List.take_of_length_le (by omega : p.length ≤ left)]
          simp

/-- What a C function sees of a string. -/
theorem terminated (f : List Char) : ∃ q, f ++ ['\x00'] = f.takeWhile (fun c => c ≠ '\x00') ++ '\x00' :: q := by
  induction f with
  | nil => exact ⟨[], rfl⟩
  | cons c f ih =>
    by_cases h : c = '\x00'
    · exact ⟨f ++ ['\x00'], by simp [h]⟩
    · obtain ⟨q, hq⟩ := ih
      exact ⟨q, by simp [h] at hq ⊢; exact hq⟩

theorem takeWhile_ne (f : List Char) : '\x00' ∉ f.takeWhile (fun c => c ≠ '\x00') := by
  induction f with
  | nil => simp
  | cons c f ih =>
    by_cases h : c = '\x00'
    · simp [h]
    · rw [List.takeWhile_cons_of_pos (by simpa using h)]
      simp only [List.mem_cons, not_or]
      exact ⟨Ne.symm h, ih⟩

theorem takeWhile_count (f : List Char) (c : Char) : (f.takeWhile (fun c => c ≠ '\x00')).count c ≤ f.count c :=
  (List.takeWhile_prefix _).sublist.count_le _

theorem cstr_spec {s r : List Char} (h : '\x00' ∉ s) : cstr (s ++ '\x00' :: r) = some s := by
  have : (s ++ '\x00' :: r).takeWhile (fun c => c ≠ '\x00') = s := by
    rw [List.takeWhile_append_of_pos]
    · simp
    · intro c hc; simp; exact fun hh => h (hh ▸ hc)
  simp only [cstr, this]; simp

/-! ## The theorems -/

/-- `print` writes the text of the format with the arguments in the place of the percent signs, each in the documented
form: the first 8195 characters of it, if the text of each argument has less than 1024 characters.  The format ends at its
first zero, as every string in C.  *Partial:* the restrictions on the lengths are not documented; see `print_overflow` for
the second one. -/
theorem print_partial {junkArg junkRes : Buf} (hja : junkArg.length = 1024) (hjr : junkRes.length = 8196) {width : Nat}
    (hw : 0 < width) (mask : BitVec 64) (format : List Char) (args : List Arg) (hok : ∀ a ∈ args, a.Ok width)
    {out : Option (List Char)} (h : print junkArg junkRes width mask format args = some out)
    (hfit : ∀ a ∈ args, (argText txt mask.getLsbD a).length < 1024) :
    out = some ((render txt mask.getLsbD (format.takeWhile fun c => c ≠ '\x00') args).take 8195) := by
  unfold print at h
  split_ifs at h with hcf
  have hcount : format.count '%' = args.length := by simpa [checkFormat] using hcf
  obtain ⟨ts, hts, rfl⟩ := Option.map_eq_some_iff.1 h
  obtain ⟨q, hq⟩ := terminated format
  have hle := takeWhile_count format '%'
  have hl : (format.takeWhile fun c => c ≠ '\x00').count '%' < (format ++ ['\x00']).length := by
    have := List.count_le_length (a := '%') (l := format)
    simp only [List.length_append, List.length_cons, List.length_nil]; omega
  obtain ⟨r', h'⟩ := formatLoop_spec hw mask hja q _ _ args ts [0] [] junkRes 8195 (takeWhile_ne format)
    (by omega) hl hts hok hfit hjr
  simp only [List.nil_append, List.length_nil] at h'
  rw [doPrint, getFormatted]
  rw [hq] at h' ⊢
  simp only [resStrSize]
  rw [h', Option.bind_some, cstr_spec]
  intro hm
  exact render_ne _ _ _ (takeWhile_ne format) (List.mem_of_mem_take hm)

/-- A statement is accepted exactly if the format has as many percent signs as there are arguments and the types are
among those allowed. -/
theorem print_accepts (junkArg junkRes : Buf) (width : Nat) (mask : BitVec 64) (format : List Char) (args : List Arg) :
    (print junkArg junkRes width mask format args).isSome ↔
      format.count '%' = args.length ∧ ∀ a ∈ args, ∀ t, (∃ v, a = .uniform t v) ∨ (∃ vs, a = .varying t vs) → t ≠ .other := by
  have key : ∀ args : List Arg, (codes args).isSome ↔
      ∀ a ∈ args, ∀ t, (∃ v, a = .uniform t v) ∨ (∃ vs, a = .varying t vs) → t ≠ .other := by
    intro args
    induction args with
    | nil => simp [codes]
    | cons a args ih =>
      have ha : a.code.isSome ↔ ∀ t, (∃ v, a = .uniform t v) ∨ (∃ vs, a = .varying t vs) → t ≠ .other := by
        cases a with
        | uniform t v => cases t <;> simp [Arg.code, typeCode, encodeTy, promote]
        | varying t v => cases t <;> simp [Arg.code, typeCode, encodeTy, promote]
      rw [List.forall_mem_cons, ← ih, ← ha, codes]
      cases a.code <;> simp
  rw [← key, print]
  simp only [checkFormat, beq_iff_eq]
  split_ifs with h <;> simp [h]

theorem formatLoop_overflow {width : Nat} (hw : 0 < width) (mask : BitVec 64) {junk : Buf}
    (hj : junk.length = argStrSize) (g : List Char) (a : Arg) (args2 : List Arg) (ha : a.Ok width)
    (hbig : argStrSize ≤ (argText txt mask.getLsbD a).length) (tl : List Nat) (args1 : List Arg) :
    ∀ (fuel : Nat) (f ts s r : _) (left : Nat),
      '\x00' ∉ f → f.count '%' = args1.length → args1.length < fuel → codes (args1 ++ a :: args2) = some ts →
      (∀ a ∈ args1, a.Ok width) → (∀ a ∈ args1, (argText txt mask.getLsbD a).length < argStrSize) →
      r.length = left + 1 → (render txt mask.getLsbD f args1).length < left →
      formatLoop junk width mask fuel (f ++ '%' :: g) (ts ++ tl) ((args1 ++ a :: args2).map Arg.cells) (s ++ r) s.length
        left = none := by
  induction args1 with
  | nil =>
    intro fuel f ts s r left hf hcount hfuel hcodes _ _ hr hlt
    obtain ⟨fuel, rfl⟩ : ∃ k, fuel = k + 1 := ⟨fuel - 1, by simp at hfuel; omega⟩
    have hp : '%' ∉ f := by intro h; have := List.count_pos_iff.2 h; simp at hcount; omega
    obtain ⟨c, ts', hc, hcs, rfl⟩ := codes_cons hcodes
    obtain ⟨qa, h⟩ := arg2Str_spec hc hw ha mask hj
    rw [if_neg (by omega)] at h
    have e := render_plain mask.getLsbD f hp [] []
    simp only [List.append_nil, render] at e
    rw [e] at hlt
    exact (formatLoop_step junk width mask fuel g c (ts' ++ tl) a.cells (args2.map Arg.cells) s hr hp hf hlt).1 h
  | cons b args1 ih =>
    intro fuel f ts s r left hf hcount hfuel hcodes hok hfit hr hlt
    obtain ⟨fuel, rfl⟩ : ∃ k, fuel = k + 1 := ⟨fuel - 1, by omega⟩
    obtain ⟨p, hp, hcase⟩ := format_cases f
    rcases hcase with rfl | ⟨f', rfl⟩
    · rw [List.count_eq_zero_of_not_mem hp] at hcount; simp at hcount
    · simp only [List.mem_append, List.mem_cons, not_or] at hf
      simp only [List.count_append, List.count_cons_self, List.count_eq_zero_of_not_mem hp, Nat.zero_add,
        List.length_cons] at hcount hfuel
      rw [render_plain _ _ hp, render_percent, List.length_append, List.length_append] at hlt
      rw [List.cons_append] at hcodes
      obtain ⟨c, ts', hc, hcs, rfl⟩ := codes_cons hcodes
      obtain ⟨qa, h⟩ := arg2Str_spec hc hw (hok b (by simp)) mask hj
      rw [if_pos (hfit b (by simp))] at h
      obtain ⟨-, hstep⟩ := formatLoop_step junk width mask fuel (f' ++ '%' :: g) c (ts' ++ tl) b.cells
        ((args1 ++ a :: args2).map Arg.cells) s hr hp hf.1 (by omega)
      obtain ⟨r1, hr1, h1⟩ := hstep _ qa (argText_ne _ b) h
      rw [List.append_assoc, List.cons_append, List.cons_append]
      simp only [List.cons_append, List.map_cons]
      rw [h1]
      exact ih fuel f' ts' _ r1 _ hf.2.2 (by omega) (by omega) hcs (fun x hx => hok x (by simp [hx]))
        (fun x hx => hfit x (by simp [hx])) hr1 (by omega)

/-- If the text of a varying argument does not fit, the program writes beyond the end of a buffer, as long as the
arguments before it fit and the text before it is not at its limit. -/
theorem print_overflow {junkArg junkRes : Buf} (hja : junkArg.length = 1024) (hjr : junkRes.length = 8196) {width : Nat}
    (hw : 0 < width) (mask : BitVec 64) (f g : List Char) (hf : '\x00' ∉ f) (args1 : List Arg) (a : Arg)
    (args2 : List Arg) (hcount : f.count '%' = args1.length) (hok1 : ∀ b ∈ args1, b.Ok width)
    (hfit : ∀ b ∈ args1, (argText txt mask.getLsbD b).length < 1024)
    (hlt : (render txt mask.getLsbD f args1).length < 8195) (hok : a.Ok width)
    (hbig : 1024 ≤ (argText txt mask.getLsbD a).length) {out : Option (List Char)}
    (h : print junkArg junkRes width mask (f ++ '%' :: g) (args1 ++ a :: args2) = some out) : out = none := by
  unfold print at h
  split_ifs at h with hcf
  obtain ⟨ts, hts, rfl⟩ := Option.map_eq_some_iff.1 h
  have hl := List.count_le_length (a := '%') (l := f)
  have hn := formatLoop_overflow hw mask hja (g ++ ['\x00']) a args2 hok hbig [0] args1 (f ++ '%' :: g ++ ['\x00']).length f
    ts [] junkRes 8195 hf hcount (by simp; omega) hts hok1 hfit hjr hlt
  simp only [List.nil_append, List.length_nil] at hn
  have e2 : f ++ '%' :: g ++ ['\x00'] = f ++ '%' :: (g ++ ['\x00']) := by simp
  rw [doPrint, getFormatted]
  rw [e2] at hn ⊢
  simp only [resStrSize]
  rw [hn]; rfl

/-! ### When the arguments fit -/

theorem lanesText_len (on : Nat → Bool) (m : Nat) (vs : List SrcVal) : ∀ k, vs ≠ [] →
    (∀ v ∈ vs, ∀ b, (laneText txt b v).length ≤ m) → (lanesText txt on k vs).length + 1 ≤ vs.length * (m + 1) := by
  induction vs with
  | nil => intro k h; exact absurd rfl h
  | cons v vs ih =>
    intro k _ h
    have h1 := h v (by simp) (on k)
    cases vs with
    | nil => simp [lanesText]; omega
    | cons w ws =>
      have h2 := ih (k + 1) (by simp) (fun x hx => h x (by simp [hx]))
      have e : lanesText txt on k (v :: w :: ws) = laneText txt (on k) v ++ ',' :: lanesText txt on (k + 1) (w :: ws) := by
        rw [lanesText]; simp
      rw [e]
      simp only [List.length_append, List.length_cons] at *
      have : (ws.length + 1 + 1) * (m + 1) = (ws.length + 1) * (m + 1) + (m + 1) := by ring
      omega

/-- The text of an argument fits if the lanes are few enough for its type: 64 lanes of booleans, 63 of 32-bit integers and
of the smaller types, 40 of 64-bit integers, 44 of pointers, 56 of half-precision numbers, 19 of floats and 3 of
doubles. -/
theorem fits {width : Nat} {a : Arg} (hok : a.Ok width) (on : Nat → Bool)
    (h : ∀ t vs, a = .varying t vs → width * ((if t = .bool then 9 else longest t + 4) + 1) + 2 ≤ 1024) :
    (argText txt on a).length < 1024 := by
  cases a with
  | uniform t v => exact txt_small hok.2
  | varying t vs =>
    obtain ⟨hlen, hv⟩ := hok
    have h := h t vs rfl
    by_cases hne : vs = []
    · subst hne; simp [argText, lanesText]
    have hl := lanesText_len on (if t = .bool then 9 else longest t + 4) vs 0 hne (by
      intro v hm b
      obtain ⟨h1, h2⟩ := hv v hm
      have h3 := txt_len h2
      rw [h1] at h3
      unfold laneText
      rw [h1]
      by_cases hb : t = .bool
      · subst hb; cases b
        · simp
        · simp only [if_true]; exact le_trans h3 (by decide)
      · simp only [hb, if_false]
        cases b
        · simp; omega
        · simp; omega)
    rw [hlen] at hl
    simp only [argText, List.cons_append, List.length_cons, List.length_append, List.length_nil]
    omega

/-! ### Cases -/

/-- The example of the documentation: `print("added to x = %\n", x)` with two of four lanes on. -/
example (j1 j2 : Buf) (h1 : j1.length = 1024) (h2 : j2.length = 8196) :
    print j1 j2 4 3#64 ['x', '=', '%', '\n']
      [.varying .float [.float (.fin false 1), .float (.fin false 2), .float (.fin false 2), .float (.fin false 3)]] =
    some (some ['x', '=', '[', '1', '.', '0', '0', '0', '0', '0', '0', ',', '2', '.', '0', '0', '0', '0', '0', '0', ',',
      '(', '(', '2', '.', '0', '0', '0', '0', '0', '0', ')', ')', ',',
      '(', '(', '3', '.', '0', '0', '0', '0', '0', '0', ')', ')', ']', '\n']) := by
  have hs := (print_accepts j1 j2 4 3#64 ['x', '=', '%', '\n']
      [.varying .float [.float (.fin false 1), .float (.fin false 2), .float (.fin false 2), .float (.fin false 3)]]).2
      ⟨by decide, by simp⟩
  obtain ⟨out, ho⟩ := Option.isSome_iff_exists.1 hs
  rw [ho]
  have hok : ∀ a ∈ [Arg.varying .float [.float (.fin false 1), .float (.fin false 2), .float (.fin false 2),
      .float (.fin false 3)]], a.Ok 4 := by
    intro a ha
    simp only [List.mem_singleton] at ha
    subst ha
    refine ⟨rfl, ?_⟩
    intro v hv
    simp only [List.mem_cons, List.not_mem_nil, or_false] at hv
    rcases hv with rfl | rfl | rfl | rfl <;> exact ⟨rfl, by norm_num, by norm_num⟩
  rw [print_partial h1 h2 (by decide) 3#64 _ _ hok ho (fun a ha => fits (hok a ha) _ (by
    intro t vs hv
    simp only [List.mem_singleton] at ha
    rw [ha] at hv
    injection hv with hv _
    subst hv
    decide))]
  congr 2
  decide +kernel

/-- A statement of a program that writes beyond the end of a buffer: large numbers of type `double` in a gang of
four, `print("%", x)`. -/
theorem print_double_overflow (j1 j2 : Buf) (h1 : j1.length = 1024) (h2 : j2.length = 8196) :
    print j1 j2 4 15#64 ['%'] [.varying .double (List.replicate 4 (.double (.fin true (10 ^ 308))))] = some none := by
  have hs := (print_accepts j1 j2 4 15#64 ['%'] [.varying .double (List.replicate 4 (.double (.fin true (10 ^ 308))))]).2
      ⟨by decide, by simp⟩
  obtain ⟨out, ho⟩ := Option.isSome_iff_exists.1 hs
  rw [ho, print_overflow h1 h2 (by decide) 15#64 [] [] (by simp) [] _ [] rfl (by simp) (by simp) (by simp [render]) ?_ ?_ ho]
  · refine ⟨rfl, ?_⟩
    intro v hv
    rw [List.eq_of_mem_replicate hv]
    refine ⟨rfl, by positivity, ?_⟩
    have h1 : (10 : ℚ) ^ 308 = (10 ^ 77) ^ 4 := by rw [← pow_mul]
    have h2 : (2 : ℚ) ^ 1024 = (2 ^ 256) ^ 4 := by rw [← pow_mul]
    rw [h1, h2]
    exact pow_lt_pow_left₀ (by norm_num) (by norm_num) (by decide)
  · decide +kernel

/-- The same with 64-bit integers in a gang of 64. -/
theorem print_int64_overflow (j1 j2 : Buf) (h1 : j1.length = 1024) (h2 : j2.length = 8196) :
    print j1 j2 64 (-1#64) ['%'] [.varying .int64 (List.replicate 64 (.int64 (BitVec.intMin 64)))] = some none := by
  have hs := (print_accepts j1 j2 64 (-1#64) ['%'] [.varying .int64 (List.replicate 64 (.int64 (BitVec.intMin 64)))]).2
      ⟨by decide, by simp⟩
  obtain ⟨out, ho⟩ := Option.isSome_iff_exists.1 hs
  rw [ho, print_overflow h1 h2 (by decide) (-1#64) [] [] (by simp) [] _ [] rfl (by simp) (by simp) (by simp [render]) ?_ ?_ ho]
  · refine ⟨rfl, ?_⟩
    intro v hv
    rw [List.eq_of_mem_replicate hv]
    exact ⟨rfl, trivial⟩
  · decide +kernel

end Ispc.Print
