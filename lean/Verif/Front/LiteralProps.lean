import Verif.Front.Literal
import Mathlib.Data.List.Induction
import Mathlib.Tactic.NormNum

/-!
# C50: literals mean what the manual says
-/

namespace Ispc.Literal

/-! ## Specification -/

inductive Radix | dec | hex (upper : Bool) | bin
  deriving DecidableEq

def Radix.base : Radix → Nat
  | .dec => 10
  | .hex _ => 16
  | .bin => 2

def Radix.chars : Radix → List Char
  | .dec => []
  | .hex false => ['0', 'x']
  | .hex true => ['0', 'X']
  | .bin => ['0', 'b']

/-- The units of 1024, 1024 * 1024 and 1024 * 1024 * 1024. -/
inductive Size | one | k | M | G
  deriving DecidableEq

def Size.factor : Size → Nat
  | .one => 1
  | .k => 1024
  | .M => 1024 * 1024
  | .G => 1024 * 1024 * 1024

def Size.chars : Size → List Char
  | .one => []
  | .k => ['k']
  | .M => ['M']
  | .G => ['G']

/-- `u` or `U`, if there is one. -/
inductive Uns | no | yes (upper : Bool)
  deriving DecidableEq

def Uns.chars : Uns → List Char
  | .no => []
  | .yes false => ['u']
  | .yes true => ['U']

def Uns.given : Uns → Bool
  | .no => false
  | .yes _ => true

/-- `l`, `ll`, or neither. -/
inductive Long | no | one (upper : Bool) | two (upper : Bool)
  deriving DecidableEq

def Long.chars : Long → List Char
  | .no => []
  | .one false => ['l']
  | .one true => ['L']
  | .two false => ['l', 'l']
  | .two true => ['L', 'L']

/-- An integer literal as the manual describes it (docs/ispc.rst:2816-2850). -/
structure IntLit where
  radix : Radix
  digits : List Char
  size : Size
  uns : Uns
  long : Long
  /-- `true` if the `u` is written before the `l`. -/
  uFirst : Bool

/-- The digit `c` means `d`: decimal digits, and letters of either case from 10 on. -/
def IsDigit (c : Char) (d : Nat) : Prop :=
  (d < 10 ∧ c.toNat = 48 + d) ∨ (10 ≤ d ∧ d < 16 ∧ (c.toNat = 87 + d ∨ c.toNat = 55 + d))

def IntLit.Wf (l : IntLit) : Prop := l.digits ≠ [] ∧ ∀ c ∈ l.digits, ∃ d, d < l.radix.base ∧ IsDigit c d

def IntLit.text (l : IntLit) : List Char :=
  l.radix.chars ++ l.digits ++ l.size.chars ++
    (if l.uFirst then l.uns.chars ++ l.long.chars else l.long.chars ++ l.uns.chars)

/-- `v` is the number that the digits mean, the most significant first. -/
inductive Means (base : Nat) : List Char → Nat → Prop
  | nil : Means base [] 0
  | snoc {cs : List Char} {c : Char} {v d : Nat} (h : Means base cs v) (hc : IsDigit c d) :
      Means base (cs ++ [c]) (v * base + d)

/-- `v` is the value of the literal. -/
def IntLit.Value (l : IntLit) (v : Nat) : Prop := ∃ n, Means l.radix.base l.digits n ∧ v = n * l.size.factor

/-- A decimal number with superfluous zeros in front. -/
def IntLit.LeadingZero (l : IntLit) : Prop := l.radix = .dec ∧ ∃ c cs, l.digits = '0' :: c :: cs

/-- The first bound of a range, in `foreach`, is followed by three dots that belong to the token. -/
def dots (ddd : Bool) : List Char := if ddd then ['.', '.', '.'] else []

/-- The values that come out right. -/
def Fits (ddd : Bool) (l : IntLit) (v : Nat) : Prop :=
  match l.long, l.uns.given with
  | .no, true => v < 2 ^ 64
  | .no, false => if ddd then v < 2 ^ 31 ∨ (2 ^ 32 ≤ v ∧ v < 2 ^ 63) else v < 2 ^ 64
  | .one _, true => v < 2 ^ 32
  | .one _, false => v < 2 ^ 31
  | .two _, true => v < 2 ^ 64
  | .two _, false => v < 2 ^ 63

/-! ## Digits -/

theorem isDigit_iff {c : Char} {d : Nat} (h : IsDigit c d) : digitOf c = some d := by
  unfold digitOf IsDigit at *
  dsimp only
  rcases h with ⟨h1, h2⟩ | ⟨h1, h2, h3 | h3⟩
  · rw [if_pos (by omega)]; congr 1; omega
  · rw [if_neg (by omega), if_pos (by omega)]; congr 1; omega
  · rw [if_neg (by omega), if_neg (by omega), if_pos (by omega)]; congr 1; omega

/-- The digits of `cs` in front of `rest` are all taken. -/
theorem scanDigits_append (base : Nat) (rest : List Char) (hr : ∀ c ∈ rest.head?, ∀ d, digitOf c = some d → base ≤ d) :
    ∀ (cs : List Char) (v : Nat), (∀ c ∈ cs, ∃ d, d < base ∧ IsDigit c d) →
      scanDigits base (cs ++ rest) v = (cs.foldl (fun v c => v * base + (digitOf c).getD 0) v, rest)
  | [], v, _ => by
    cases rest with
    | nil => rfl
    | cons c cs =>
      simp only [List.nil_append, scanDigits, List.foldl_nil]
      cases h : digitOf c with
      | none => rfl
      | some d => simp only; rw [if_neg (by have := hr c (by simp) d h; omega)]
  | c :: cs, v, h => by
    obtain ⟨d, hd, hc⟩ := h c (by simp)
    have := isDigit_iff hc
    simp only [List.cons_append, scanDigits, this, hd, if_true, List.foldl_cons, Option.getD_some]
    exact scanDigits_append base rest hr cs _ fun c hc => h c (by simp [hc])

theorem means_foldl {base : Nat} {cs : List Char} {v : Nat} (h : Means base cs v) :
    cs.foldl (fun v c => v * base + (digitOf c).getD 0) 0 = v := by
  induction h with
  | nil => rfl
  | snoc h hc ih => rw [List.foldl_append, ih]; simp [isDigit_iff hc]

theorem parseBinary_append (rest : List Char) (hr : ∀ c ∈ rest.head?, c ≠ '0' ∧ c ≠ '1') :
    ∀ (cs : List Char) (v : Nat), (∀ c ∈ cs, ∃ d, d < 2 ∧ IsDigit c d) →
      parseBinary (cs ++ rest) (BitVec.ofNat 64 v) =
        (BitVec.ofNat 64 (cs.foldl (fun v c => v * 2 + (digitOf c).getD 0) v), rest)
  | [], v, _ => by
    cases rest with
    | nil => rfl
    | cons c cs =>
      have := hr c (by simp)
      simp [parseBinary, this]
  | c :: cs, v, h => by
    obtain ⟨d, hd, hc⟩ := h c (by simp)
    have hdig := isDigit_iff hc
    have hc' : (c = '0' ∧ d = 0) ∨ (c = '1' ∧ d = 1) := by
      unfold IsDigit at hc
      rcases hc with ⟨_, h2⟩ | ⟨h1, _⟩
      · have : d = 0 ∨ d = 1 := by omega
        rcases this with rfl | rfl
        · left; exact ⟨Char.toNat_inj.1 (by rw [h2]; rfl), rfl⟩
        · right; exact ⟨Char.toNat_inj.1 (by rw [h2]; rfl), rfl⟩
      · omega
    have hstep : (BitVec.ofNat 64 v) <<< 1 ||| (if c = '0' then 0 else 1) = BitVec.ofNat 64 (v * 2 + d) := by
      have h2 : ∀ b : Bool, (BitVec.ofNat 64 v) <<< 1 ||| (if b then 0#64 else 1#64) =
          BitVec.ofNat 64 (v * 2 + if b then 0 else 1) := by
        intro b
        rw [← BitVec.add_eq_or_of_and_eq_zero]
        · cases b
          · apply BitVec.eq_of_toNat_eq; simp [Nat.shiftLeft_eq]
          · apply BitVec.eq_of_toNat_eq; simp [Nat.shiftLeft_eq]
        · cases b
          · apply BitVec.eq_of_getLsbD_eq
            intro i hi
            simp only [Bool.false_eq_true, if_false, BitVec.getLsbD_and, BitVec.getLsbD_shiftLeft, BitVec.getLsbD_one]
            rcases i with _ | i <;> simp
          · simp
      rcases hc' with ⟨rfl, rfl⟩ | ⟨rfl, rfl⟩
      · exact h2 true
      · exact h2 false
    simp only [List.cons_append, parseBinary, hstep, List.foldl_cons, hdig, Option.getD_some]
    rw [if_pos (by rcases hc' with ⟨rfl, _⟩ | ⟨rfl, _⟩ <;> simp)]
    exact parseBinary_append rest hr cs _ fun c hc => h c (by simp [hc])

/-! ## The suffix -/

def Long.count : Long → Nat
  | .no => 0
  | .one _ => 1
  | .two _ => 2

/-- What comes after the digits. -/
def IntLit.tail (l : IntLit) (ddd : Bool) : List Char :=
  l.size.chars ++ ((if l.uFirst then l.uns.chars ++ l.long.chars else l.long.chars ++ l.uns.chars) ++ dots ddd)

def IntLit.suf (l : IntLit) : Suf :=
  { kilo := l.size == .k, mega := l.size == .M, giga := l.size == .G, ls := l.long.count,
    us := if l.uns.given then 1 else 0 }

theorem scanSuffix_tail (l : IntLit) (ddd : Bool) : scanSuffix ddd (l.tail ddd) {} = some l.suf := by
  obtain ⟨r, ds, s, u, n, f⟩ := l
  unfold IntLit.tail IntLit.suf
  dsimp only
  rcases s with _ | _ | _ | _ <;> rcases u with _ | _ | _ <;> rcases n with _ | ⟨_ | _⟩ | ⟨_ | _⟩ <;>
    rcases f with _ | _ <;> rcases ddd with _ | _ <;> rfl

theorem tail_head (l : IntLit) (ddd : Bool) : ∀ c ∈ (l.tail ddd).head?,
    (∀ d, digitOf c = some d → 16 ≤ d) ∧ c ≠ '0' ∧ c ≠ '1' ∧ c ≠ 'x' ∧ c ≠ 'X' ∧ c ≠ 'b' := by
  have key : ∀ c ∈ ['k', 'M', 'G', 'l', 'L', 'u', 'U', '.'],
      (∀ d, digitOf c = some d → 16 ≤ d) ∧ c ≠ '0' ∧ c ≠ '1' ∧ c ≠ 'x' ∧ c ≠ 'X' ∧ c ≠ 'b' := by
    have k2 : ∀ c ∈ ['k', 'M', 'G', 'l', 'L', 'u', 'U', '.'], (digitOf c).all (16 ≤ ·) = true ∧
        c ≠ '0' ∧ c ≠ '1' ∧ c ≠ 'x' ∧ c ≠ 'X' ∧ c ≠ 'b' := by decide
    intro c hc
    refine ⟨fun d hd => ?_, (k2 c hc).2⟩
    have := (k2 c hc).1
    rw [hd] at this
    simpa using this
  intro c hc
  apply key
  obtain ⟨r, ds, s, u, n, f⟩ := l
  revert hc
  unfold IntLit.tail
  dsimp only
  rcases s with _ | _ | _ | _ <;> rcases u with _ | _ | _ <;> rcases n with _ | ⟨_ | _⟩ | ⟨_ | _⟩ <;>
    rcases f with _ | _ <;> rcases ddd with _ | _ <;> simp [Size.chars, Uns.chars, Long.chars, dots] <;>
    (intro h; subst h; simp)

/-! ## Integer literals -/

theorem text_dots (l : IntLit) (ddd : Bool) : l.text ++ dots ddd = l.radix.chars ++ (l.digits ++ l.tail ddd) := by
  simp [IntLit.text, IntLit.tail]

/-- The number that is read, before the unit. -/
def readNumber (r : Radix) (n : Nat) : BitVec 64 :=
  if r = .bin ∨ n < 2 ^ 64 then BitVec.ofNat 64 n else BitVec.allOnes 64

theorem strtoull_dec {l : IntLit} {ddd : Bool} (hw : l.Wf) (hd : l.radix = .dec) (hz : ¬ l.LeadingZero) {n : Nat}
    (hn : Means 10 l.digits n) :
    strtoull (l.digits ++ l.tail ddd) = (readNumber .dec n, l.tail ddd) := by
  have ht := tail_head l ddd
  obtain ⟨hne, hall⟩ := hw
  rw [hd] at hall
  have hs : scanNumber (l.digits ++ l.tail ddd) = (n, l.tail ddd) := by
    rw [← means_foldl hn]
    cases hds : l.digits with
    | nil => exact absurd hds hne
    | cons c cs =>
      by_cases hc : c = '0'
      · subst hc
        have hcs : cs = [] := by
          cases cs with
          | nil => rfl
          | cons c' cs' => exact absurd ⟨hd, c', cs', hds⟩ hz
        subst hcs
        have h8 : scanDigits 8 (['0'] ++ l.tail ddd) 0 = (0, l.tail ddd) := by
          rw [scanDigits_append 8 _ (fun c hc d h => by have := (ht c hc).1 d h; omega)]
          · rfl
          · intro c hc
            simp only [List.mem_singleton] at hc
            subst hc
            exact ⟨0, by omega, Or.inl ⟨by omega, rfl⟩⟩
        simp only [List.foldl_cons, List.foldl_nil]
        show scanNumber ('0' :: l.tail ddd) = (0, l.tail ddd)
        rw [← h8]
        cases htl : l.tail ddd with
        | nil => rfl
        | cons x xs =>
          have hx := ht x (by rw [htl]; simp)
          cases xs with
          | nil => rfl
          | cons h t => simp [scanNumber, hx]
      · rw [← scanDigits_append 10 (l.tail ddd) (fun c hc d h => by have := (ht c hc).1 d h; omega) (c :: cs) 0
          (by rw [← hds]; exact hall)]
        simp only [List.cons_append]
        unfold scanNumber
        split
        · rename_i h; exact absurd (List.cons.inj h).1 hc
        · rename_i h; exact absurd (List.cons.inj h).1 hc
        · rfl
  simp only [strtoull, hs, readNumber, reduceCtorEq, false_or]

theorem strtoull_hex {l : IntLit} {ddd : Bool} (hw : l.Wf) {b : Bool} (hd : l.radix = .hex b) {n : Nat}
    (hn : Means 16 l.digits n) :
    strtoull (l.radix.chars ++ (l.digits ++ l.tail ddd)) = (readNumber (.hex b) n, l.tail ddd) := by
  have ht := tail_head l ddd
  obtain ⟨hne, hall⟩ := hw
  rw [hd] at hall
  have hs : scanNumber (l.radix.chars ++ (l.digits ++ l.tail ddd)) = (n, l.tail ddd) := by
    rw [← means_foldl hn]
    cases hds : l.digits with
    | nil => exact absurd hds hne
    | cons c cs =>
      obtain ⟨d, hd1, hd2⟩ := hall c (by rw [hds]; simp)
      have hdig := isDigit_iff hd2
      rw [← scanDigits_append 16 (l.tail ddd) (fun c hc d h => (ht c hc).1 d h) (c :: cs) 0 (by rw [← hds]; exact hall), hd]
      have hlt : d < 16 := hd1
      cases b <;> simp [Radix.chars, scanNumber, hdig, hlt]
  simp only [strtoull, hs, readNumber, reduceCtorEq, false_or]

/-- What `lParseInteger` makes of a literal without superfluous zeros. -/
theorem parseInteger_eq {width : Nat} {ddd : Bool} {l : IntLit} (hw : l.Wf) (hz : ¬ l.LeadingZero) {n : Nat}
    (hn : Means l.radix.base l.digits n) :
    parseInteger width ddd (l.text ++ dots ddd) =
      some (readNumber l.radix n * BitVec.ofNat 64 l.size.factor,
        token width ddd l.suf (readNumber l.radix n * BitVec.ofNat 64 l.size.factor)) := by
  have ht := tail_head l ddd
  rw [text_dots]
  have hread : number (l.radix.chars ++ (l.digits ++ l.tail ddd)) = (readNumber l.radix n, l.tail ddd) := by
    rcases hr : l.radix with _ | b | _
    · have h := strtoull_dec (ddd := ddd) hw hr hz (by rw [hr] at hn; exact hn)
      simp only [Radix.chars, List.nil_append]
      unfold number
      split
      · rename_i cs heq
        exfalso
        obtain ⟨hne, hall⟩ := hw
        rw [hr] at hall
        cases hds : l.digits with
        | nil => exact hne hds
        | cons c cs' =>
          rw [hds] at heq
          simp only [List.cons_append, List.cons.injEq] at heq
          obtain ⟨rfl, heq⟩ := heq
          cases cs' with
          | nil => exact (ht 'b' (by rw [List.nil_append] at heq; rw [heq]; simp)).2.2.2.2.2 rfl
          | cons c' cs' => exact hz ⟨hr, c', cs', hds⟩
      · exact h
    · have h := strtoull_hex (ddd := ddd) hw hr (by rw [hr] at hn; exact hn)
      rw [hr] at h
      cases b <;> exact h
    · obtain ⟨hne, hall⟩ := hw
      rw [hr] at hn hall
      have h := parseBinary_append (l.tail ddd) (fun c hc => ⟨(ht c hc).2.1, (ht c hc).2.2.1⟩) l.digits 0 hall
      rw [means_foldl (base := 2) hn] at h
      simpa [Radix.chars, readNumber, number] using h
  unfold parseInteger
  simp only [hread, scanSuffix_tail, Option.bind_eq_bind, Option.bind_some]
  rcases hs : l.size with _ | _ | _ | _ <;> simp [IntLit.suf, hs, Size.factor]

/-! ### The type and the value -/

theorem signed_value (v : BitVec 64) (bits : Nat) (hb : bits ∈ [8, 16, 32, 64]) (w : Nat) (hw : w < 2 ^ 64 → v.toNat = w) :
    constant (v, ⟨true, bits⟩) = (w : Int) ↔ w < 2 ^ (bits - 1) := by
  have hv := v.isLt
  simp only [constant, if_true, BitVec.toInt_setWidth]
  rcases Nat.lt_or_ge w (2 ^ 64) with h | h
  · rw [hw h]
    simp only [List.mem_cons, List.not_mem_nil, or_false] at hb
    rcases hb with rfl | rfl | rfl | rfl <;> norm_num [Int.bmod] at * <;> split_ifs <;> omega
  · simp only [List.mem_cons, List.not_mem_nil, or_false] at hb
    rcases hb with rfl | rfl | rfl | rfl <;> norm_num [Int.bmod] at * <;> split_ifs <;> omega

theorem unsigned_value (v : BitVec 64) (bits : Nat) (hb : bits ∈ [8, 16, 32, 64]) (w : Nat)
    (hw : w < 2 ^ 64 → v.toNat = w) : constant (v, ⟨false, bits⟩) = (w : Int) ↔ w < 2 ^ bits := by
  have hv := v.isLt
  simp only [constant, Bool.false_eq_true, if_false, BitVec.toNat_setWidth]
  rcases Nat.lt_or_ge w (2 ^ 64) with h | h
  · rw [hw h]
    simp only [List.mem_cons, List.not_mem_nil, or_false] at hb
    rcases hb with rfl | rfl | rfl | rfl <;> norm_num at * <;> omega
  · simp only [List.mem_cons, List.not_mem_nil, or_false] at hb
    rcases hb with rfl | rfl | rfl | rfl <;> norm_num at * <;> omega

theorem read_value (r : Radix) (n f : Nat) (hf : 0 < f) (h : n * f < 2 ^ 64) :
    (readNumber r n * BitVec.ofNat 64 f).toNat = n * f := by
  have hn : n < 2 ^ 64 := Nat.lt_of_le_of_lt (Nat.le_mul_of_pos_right n hf) h
  rw [readNumber, if_pos (Or.inr hn), BitVec.toNat_mul, BitVec.toNat_ofNat, BitVec.toNat_ofNat, ← Nat.mul_mod,
    Nat.mod_eq_of_lt h]

/-- The conclusion about the type and the value of a literal that is worth `w`. -/
theorem token_value (width : Nat) (ddd : Bool) (l : IntLit) (x : BitVec 64) (w : Nat) (hval : w < 2 ^ 64 → x.toNat = w) :
    (constant (x, token width ddd l.suf x) = (w : Int) ↔ Fits ddd l w) ∧
      (l.uns.given = true → (token width ddd l.suf x).signed = false) ∧
      (∀ b, l.long = .two b → (token width ddd l.suf x).bits = 64) ∧
      (∀ b, l.long = .one b → (token width ddd l.suf x).bits = 32) ∧
      (l.uns.given = false → l.long ≠ .no → (token width ddd l.suf x).signed = true) := by
  have hs : ∀ bits, bits ∈ [8, 16, 32, 64] → (constant (x, ⟨true, bits⟩) = (w : Int) ↔ w < 2 ^ (bits - 1)) :=
    fun bits hb => signed_value x bits hb w hval
  have hu : ∀ bits, bits ∈ [8, 16, 32, 64] → (constant (x, ⟨false, bits⟩) = (w : Int) ↔ w < 2 ^ bits) :=
    fun bits hb => unsigned_value x bits hb w hval
  have hx := x.isLt
  have hx2 : x &&& 0xffffffff = x ↔ x.toNat < 2 ^ 32 := by
    rw [← BitVec.toNat_inj, BitVec.toNat_and]
    have : (0xffffffff : BitVec 64).toNat = 2 ^ 32 - 1 := rfl
    rw [this, Nat.and_two_pow_sub_one_eq_mod]
    omega
  have e1 : (0x7f : BitVec 64).toNat = 127 := rfl
  have e2 : (0xff : BitVec 64).toNat = 255 := rfl
  have e3 : (0x7fff : BitVec 64).toNat = 32767 := rfl
  have e4 : (0xffff : BitVec 64).toNat = 65535 := rfl
  have e5 : (0x7fffffff : BitVec 64).toNat = 2147483647 := rfl
  have e6 : (0xffffffff : BitVec 64).toNat = 4294967295 := rfl
  have e7 : (0x7fffffffffffffff : BitVec 64).toNat = 9223372036854775807 := rfl
  have s8 := hs 8 (by simp)
  have s16 := hs 16 (by simp)
  have s32 := hs 32 (by simp)
  have s64 := hs 64 (by simp)
  have u8 := hu 8 (by simp)
  have u16 := hu 16 (by simp)
  have u32 := hu 32 (by simp)
  have u64 := hu 64 (by simp)
  norm_num at s8 s16 s32 s64 u8 u16 u32 u64 hval hx hx2
  unfold Fits token
  rcases hl : l.long with _ | b | b <;> rcases hg : l.uns.given with _ | _ <;> cases ddd <;>
    simp only [IntLit.suf, hl, hg, Long.count, hx2, BitVec.le_def, e1, e2, e3, e4, e5, e6, e7] <;> norm_num
  all_goals (try split_ifs)
  all_goals simp [s8, s16, s32, s64, u8, u16, u32, u64]
  all_goals omega

theorem size_pos (s : Size) : 0 < s.factor := by rcases s with _ | _ | _ | _ <;> decide

/-- **C50, partial.** An integer literal, decimal without superfluous zeros, hexadecimal or binary, with or without a
unit and suffixes, is accepted.  The constant has exactly the value that is written, of any size, if and only if that
value fits: in 64 bits without suffix, in the type that the suffix names, and less than 2^31 if it is below 2^32 and the
first bound of a range.  With `u` the type is unsigned, with `ll` it has 64 bits, with `l` it has 32. -/
theorem integer_partial (width : Nat) (ddd : Bool) (l : IntLit) (hw : l.Wf) (hz : ¬ l.LeadingZero) (v : Nat)
    (hv : l.Value v) :
    ∃ r, parseInteger width ddd (l.text ++ dots ddd) = some r ∧ (constant r = (v : Int) ↔ Fits ddd l v) ∧
      (l.uns.given = true → r.2.signed = false) ∧ (∀ b, l.long = .two b → r.2.bits = 64) ∧
      (∀ b, l.long = .one b → r.2.bits = 32) ∧ (l.uns.given = false → l.long ≠ .no → r.2.signed = true) := by
  obtain ⟨n, hn, rfl⟩ := hv
  exact ⟨_, parseInteger_eq hw hz hn, token_value width ddd l _ _ (read_value l.radix n l.size.factor (size_pos _))⟩

theorem means_total (base : Nat) (ds : List Char) : (∀ c ∈ ds, ∃ d, d < base ∧ IsDigit c d) → ∃ n, Means base ds n := by
  induction ds using List.reverseRecOn with
  | nil => exact fun _ => ⟨0, .nil⟩
  | append_singleton cs c ih =>
    intro h
    obtain ⟨n, hn⟩ := ih fun c hc => h c (by simp [hc])
    obtain ⟨d, _, hd⟩ := h c (by simp)
    exact ⟨_, .snoc hn hd⟩

theorem means_unique {base : Nat} {ds : List Char} {m n : Nat} (h1 : Means base ds m) (h2 : Means base ds n) : m = n := by
  rw [← means_foldl h1, ← means_foldl h2]

/-- Every literal has exactly one value. -/
theorem value_unique (l : IntLit) (hw : l.Wf) : ∃ v, l.Value v ∧ ∀ w, l.Value w → w = v := by
  obtain ⟨n, hn⟩ := means_total _ _ hw.2
  refine ⟨_, ⟨n, hn, rfl⟩, ?_⟩
  rintro w ⟨m, hm, rfl⟩
  rw [means_unique hm hn]

/-! ### Superfluous zeros -/

theorem digit_stop (base : Nat) (rest : List Char) (c : Char) (d : Nat) (hc : IsDigit c d) (hd : base ≤ d) :
    ∀ (cs : List Char) (v : Nat), (∀ c ∈ cs, ∃ d, d < base ∧ IsDigit c d) →
      (scanDigits base (cs ++ c :: rest) v).2 = c :: rest := by
  intro cs v h
  rw [scanDigits_append base (c :: rest) _ cs v h]
  intro c' hc' d' hd'
  simp only [List.head?_cons, Option.mem_def, Option.some.injEq] at hc'
  subst hc'
  rw [isDigit_iff hc] at hd'
  cases hd'
  exact hd

/-- The text of a decimal number with superfluous zeros is read as an octal number. -/
theorem number_leadingZero {l : IntLit} (hw : l.Wf) (hz : l.LeadingZero) (ddd : Bool) :
    number (l.digits ++ l.tail ddd) =
      (let r := scanDigits 8 (l.digits ++ l.tail ddd) 0
       (if r.1 < 2 ^ 64 then BitVec.ofNat 64 r.1 else BitVec.allOnes 64, r.2)) := by
  obtain ⟨hd, c, cs, hds⟩ := hz
  obtain ⟨_, hall⟩ := hw
  rw [hd, hds] at hall
  obtain ⟨d, h1, h2⟩ := hall c (by simp)
  have hcn : c ≠ 'b' ∧ c ≠ 'x' ∧ c ≠ 'X' := by
    have hlt : d < 10 := h1
    have hn : c.toNat ≤ 57 := by
      rcases h2 with ⟨_, h⟩ | ⟨h, _⟩
      · omega
      · omega
    refine ⟨?_, ?_, ?_⟩ <;> (rintro rfl; revert hn; decide)
  rw [hds]
  simp only [List.cons_append]
  unfold number
  split
  · rename_i h
    simp only [List.cons.injEq, true_and] at h
    exact absurd h.1 hcn.1
  · unfold strtoull scanNumber
    cases hcs : cs ++ l.tail ddd with
    | nil => rfl
    | cons x xs => simp only [hcn.2.1, hcn.2.2, or_self, false_and, if_false]

/-- **C50, the negation for `08` and `09`.** The compiler stops at a failed assertion at a decimal number that begins
with a superfluous zero and contains an 8 or a 9. -/
theorem leadingZero_crash (width : Nat) (ddd : Bool) (l : IntLit) (hw : l.Wf) (hz : l.LeadingZero)
    (h9 : '8' ∈ l.digits ∨ '9' ∈ l.digits) : parseInteger width ddd (l.text ++ dots ddd) = none := by
  have hd := hz.1
  have hsplit : ∃ (p : List Char) (c : Char) (q : List Char), l.digits = p ++ c :: q ∧ (c = '8' ∨ c = '9') ∧
      '8' ∉ p ∧ '9' ∉ p := by
    have : ∃ c ∈ l.digits, c = '8' ∨ c = '9' := by
      rcases h9 with h | h
      · exact ⟨_, h, Or.inl rfl⟩
      · exact ⟨_, h, Or.inr rfl⟩
    clear h9 hz hd hw
    generalize l.digits = ds at this ⊢
    induction ds with
    | nil => simp at this
    | cons a as ih =>
      by_cases ha : a = '8' ∨ a = '9'
      · exact ⟨[], a, as, rfl, ha, by simp, by simp⟩
      · have h2 : ∃ c ∈ as, c = '8' ∨ c = '9' := by
          obtain ⟨c, hc, h⟩ := this
          rcases List.mem_cons.1 hc with rfl | hc
          · exact absurd h ha
          · exact ⟨c, hc, h⟩
        obtain ⟨p, c, q, h1, h2, h3, h4⟩ := ih h2
        rw [not_or] at ha
        refine ⟨a :: p, c, q, by rw [h1]; rfl, h2, ?_, ?_⟩
        · simp [h3, ha.1, eq_comm]
        · simp [h4, ha.2, eq_comm]
  obtain ⟨p, c, q, hp, hc, hp8, hp9⟩ := hsplit
  have hnum := number_leadingZero hw hz ddd
  obtain ⟨_, hall⟩ := hw
  rw [hd] at hall
  have hpd : ∀ c ∈ p, ∃ d, d < 8 ∧ IsDigit c d := by
    intro c' hc'
    obtain ⟨d, h1, h2⟩ := hall c' (by rw [hp]; simp [hc'])
    refine ⟨d, ?_, h2⟩
    have hlt : d < 10 := h1
    rcases h2 with ⟨_, h⟩ | ⟨h, _⟩
    · by_contra hge
      have : d = 8 ∨ d = 9 := by omega
      rcases this with rfl | rfl
      · exact hp8 (by rw [← show c' = '8' from Char.toNat_inj.1 h]; exact hc')
      · exact hp9 (by rw [← show c' = '9' from Char.toNat_inj.1 h]; exact hc')
    · omega
  have hcd : ∃ d, 8 ≤ d ∧ IsDigit c d := by
    rcases hc with rfl | rfl
    · exact ⟨8, by omega, Or.inl ⟨by omega, rfl⟩⟩
    · exact ⟨9, by omega, Or.inl ⟨by omega, rfl⟩⟩
  obtain ⟨d, hd8, hcd⟩ := hcd
  have hstop := digit_stop 8 (q ++ l.tail ddd) c d hcd hd8 p 0 hpd
  rw [hp, List.append_assoc, List.cons_append] at hnum
  have h2 : (number (p ++ c :: (q ++ l.tail ddd))).2 = c :: (q ++ l.tail ddd) := by rw [hnum]; exact hstop
  rw [text_dots, hd]
  simp only [Radix.chars, List.nil_append]
  rw [hp, List.append_assoc, List.cons_append]
  unfold parseInteger
  simp only [h2]
  have : scanSuffix ddd (c :: (q ++ l.tail ddd)) {} = none := by
    rcases hc with rfl | rfl <;> simp [scanSuffix]
  rw [this]
  rfl

/-- **C50, the negation for `010`.** Other decimal numbers that begin with a superfluous zero are worth what their digits
mean in base 8, although the manual knows no octal numbers. -/
theorem leadingZero_octal (width : Nat) (ddd : Bool) (l : IntLit) (hw : l.Wf) (hz : l.LeadingZero)
    (h8 : '8' ∉ l.digits) (h9 : '9' ∉ l.digits) (n : Nat) (hn : Means 8 l.digits n)
    (hfit : Fits ddd l (n * l.size.factor)) :
    ∃ r, parseInteger width ddd (l.text ++ dots ddd) = some r ∧ constant r = ((n * l.size.factor : Nat) : Int) := by
  have hd := hz.1
  have ht := tail_head l ddd
  have hnum := number_leadingZero hw hz ddd
  obtain ⟨_, hall⟩ := hw
  rw [hd] at hall
  have hpd : ∀ c ∈ l.digits, ∃ d, d < 8 ∧ IsDigit c d := by
    intro c' hc'
    obtain ⟨d, h1, h2⟩ := hall c' hc'
    refine ⟨d, ?_, h2⟩
    have hlt : d < 10 := h1
    rcases h2 with ⟨_, h⟩ | ⟨h, _⟩
    · by_contra hge
      have : d = 8 ∨ d = 9 := by omega
      rcases this with rfl | rfl
      · exact h8 (by rw [← show c' = '8' from Char.toNat_inj.1 h]; exact hc')
      · exact h9 (by rw [← show c' = '9' from Char.toNat_inj.1 h]; exact hc')
    · omega
  rw [scanDigits_append 8 _ (fun c hc d h => by have := (ht c hc).1 d h; omega) _ 0 hpd, means_foldl hn] at hnum
  have hnum' : number (l.digits ++ l.tail ddd) = (readNumber .dec n, l.tail ddd) := by
    rw [hnum]; simp [readNumber]
  have hv := token_value width ddd l _ _ (read_value .dec n l.size.factor (size_pos _))
  refine ⟨_, ?_, hv.1.2 hfit⟩
  rw [text_dots, hd]
  simp only [Radix.chars, List.nil_append]
  unfold parseInteger
  simp only [hnum', scanSuffix_tail, Option.bind_eq_bind, Option.bind_some]
  rcases hs : l.size with _ | _ | _ | _ <;> simp [IntLit.suf, hs, Size.factor]

/-! ### Instances -/

/-- `6GuLL`, from the manual. -/
def sixGig : IntLit := ⟨.dec, ['6'], .G, .yes false, .two true, true⟩

theorem sixGig_ok : sixGig.Wf ∧ ¬ sixGig.LeadingZero ∧ sixGig.Value (6 * 1024 * 1024 * 1024) ∧
    Fits false sixGig (6 * 1024 * 1024 * 1024) ∧ sixGig.text = ['6', 'G', 'u', 'L', 'L'] ∧
    parseInteger 32 false sixGig.text = some (6442450944, ⟨false, 64⟩) := by
  refine ⟨⟨by decide, ?_⟩, ?_, ⟨6, .snoc (cs := []) (d := 6) .nil (Or.inl ⟨by omega, rfl⟩), rfl⟩, ?_, rfl,
    by decide +kernel⟩
  · intro c hc
    simp only [sixGig, List.mem_singleton] at hc
    subst hc
    exact ⟨6, by decide, Or.inl ⟨by omega, rfl⟩⟩
  · rintro ⟨_, c, cs, h⟩
    simp [sixGig] at h
  · show 6 * 1024 * 1024 * 1024 < 2 ^ 64
    norm_num

/-- `010`. -/
def zeroTen : IntLit := ⟨.dec, ['0', '1', '0'], .one, .no, .no, true⟩

/-- **C50, the negation.** `010` is a sequence of digits from 0 to 9 that means ten, and the constant is 8. -/
theorem octal_wrong : zeroTen.Wf ∧ zeroTen.Value 10 ∧ Fits false zeroTen 10 ∧
    parseInteger 32 false zeroTen.text = some (8, ⟨true, 32⟩) := by
  refine ⟨⟨by decide, ?_⟩, ⟨10, ?_, rfl⟩, ?_, by decide +kernel⟩
  · intro c hc
    simp only [zeroTen, List.mem_cons, List.not_mem_nil, or_false] at hc
    rcases hc with rfl | rfl | rfl
    · exact ⟨0, by decide, Or.inl ⟨by omega, rfl⟩⟩
    · exact ⟨1, by decide, Or.inl ⟨by omega, rfl⟩⟩
    · exact ⟨0, by decide, Or.inl ⟨by omega, rfl⟩⟩
  · exact Means.snoc (cs := ['0', '1']) (v := 1) (d := 0)
      (Means.snoc (cs := ['0']) (v := 0) (d := 1) (Means.snoc (cs := []) (v := 0) (d := 0) .nil (Or.inl ⟨by omega, rfl⟩))
        (Or.inl ⟨by omega, rfl⟩)) (Or.inl ⟨by omega, rfl⟩)
  · show 10 < 2 ^ 64
    norm_num

/-- **C50, the negations for numbers that do not fit.** None is refused: 2^64 becomes 2^64 - 1, 17179869184G, which is
2^64, becomes 0, 4294967296l becomes 0, 3000000000l and 9223372036854775808ll become negative, and as the first bound of
a range so does 4294967295. -/
theorem overflow_wrong :
    (parseInteger 32 false ['1','8','4','4','6','7','4','4','0','7','3','7','0','9','5','5','1','6','1','6']).map constant
      = some 18446744073709551615 ∧
    (parseInteger 32 false ['1','7','1','7','9','8','6','9','1','8','4','G']).map constant = some 0 ∧
    (parseInteger 32 false ['4','2','9','4','9','6','7','2','9','6','l']).map constant = some 0 ∧
    (parseInteger 32 false ['3','0','0','0','0','0','0','0','0','0','l']).map constant = some (-1294967296) ∧
    (parseInteger 32 false ['9','2','2','3','3','7','2','0','3','6','8','5','4','7','7','5','8','0','8','l','l']).map constant
      = some (-9223372036854775808) ∧
    (parseInteger 32 true ['4','2','9','4','9','6','7','2','9','5','.','.','.']).map constant = some (-1) := by
  refine ⟨?_, ?_, ?_, ?_, ?_, ?_⟩ <;> decide +kernel

/-- On targets with elements of 8 or 16 bits the type of a small literal is that of the elements. -/
example : (parseInteger 8 false ['1', '2', '7']).map (·.2) = some ⟨true, 8⟩ ∧
    (parseInteger 8 false ['1', '2', '8']).map (·.2) = some ⟨false, 8⟩ ∧
    (parseInteger 16 false ['3', '2', '7', '6', '8']).map (·.2) = some ⟨false, 16⟩ ∧
    (parseInteger 32 false ['1', '2', '7']).map (·.2) = some ⟨true, 32⟩ ∧
    (parseInteger 32 false ['0', 'x', 'F', 'f', 'l']).map constant = some 255 ∧
    (parseInteger 32 false ['0', 'b', '1', '1', '1', '1', 'k']).map constant = some 15360 := by
  refine ⟨?_, ?_, ?_, ?_, ?_, ?_⟩ <;> decide +kernel

/-! ## Strings -/

/-- The characters after a backslash that the manual lists, and their codes (docs/ispc.rst:2925-2946). -/
def escapes : List (Char × BitVec 8) :=
  [('\\', 0x5c), ('"', 0x22), ('\'', 0x27), ('a', 7), ('b', 8), ('f', 12), ('n', 10), ('r', 13), ('t', 9), ('v', 11)]

/-- The parts that a string is written with. -/
inductive Piece
  | plain (c : Char)
  | simple (c : Char)
  | octal (digits : List Char)
  | hexa (digits : List Char)

def Piece.text : Piece → List Char
  | .plain c => [c]
  | .simple c => ['\\', c]
  | .octal ds => '\\' :: ds
  | .hexa ds => '\\' :: 'x' :: ds

/-- The piece stands for the byte. -/
def Piece.Means : Piece → BitVec 8 → Prop
  | .plain c, b => c ≠ '"' ∧ c ≠ '\\' ∧ c.toNat < 256 ∧ b.toNat = c.toNat
  | .simple c, b => (c, b) ∈ escapes
  | .octal ds, b => ds ≠ [] ∧ (∀ c ∈ ds, ∃ d, d < 8 ∧ IsDigit c d) ∧ Literal.Means 8 ds b.toNat
  | .hexa ds, b => ds ≠ [] ∧ (∀ c ∈ ds, ∃ d, d < 16 ∧ IsDigit c d) ∧ Literal.Means 16 ds b.toNat

/-- The pieces stand for the bytes, and digits end where the digits of an octal code do. -/
inductive Str : List Piece → List (BitVec 8) → Prop
  | nil : Str [] []
  | cons {p : Piece} {ps : List Piece} {b : BitVec 8} {bs : List (BitVec 8)} (hp : p.Means b) (h : Str ps bs)
      (hsep : ∀ ds c, p = .octal ds → ps.head? = some (.plain c) → ∀ d, IsDigit c d → 8 ≤ d) : Str (p :: ps) (b :: bs)

def Piece.isHexa : Piece → Bool
  | .hexa _ => true
  | _ => false

theorem simpleEscape_table : ∀ e ∈ escapes, simpleEscape e.1 = some e.2 := by decide

theorem digitOf_lt {c : Char} {d : Nat} (h : digitOf c = some d) (hd : d < 16) : IsDigit c d := by
  unfold digitOf at h
  unfold IsDigit
  dsimp only at h
  split_ifs at h <;> simp only [Option.some.injEq] at h <;> omega

/-- The text after an octal code does not go on with an octal digit. -/
theorem str_head {ps : List Piece} {bs : List (BitVec 8)} (h : Str ps bs) (hx : ∀ p ∈ ps, p.isHexa = false) (rest : List Char)
    (hsep : ∀ c, ps.head? = some (.plain c) → ∀ d, IsDigit c d → 8 ≤ d) :
    ∀ c ∈ ((ps.map Piece.text).flatten ++ '"' :: rest).head?, ∀ d, digitOf c = some d → 8 ≤ d := by
  intro c hc d hd
  cases h with
  | nil =>
    simp only [List.map_nil, List.flatten_nil, List.nil_append, List.head?_cons, Option.mem_def, Option.some.injEq] at hc
    subst hc
    exact absurd hd (by simp [digitOf])
  | @cons p ps b bs hp h hs =>
    cases p with
    | plain c' =>
      simp only [List.map_cons, Piece.text, List.flatten_cons, List.cons_append, List.nil_append, List.head?_cons,
        Option.mem_def, Option.some.injEq] at hc
      subst hc
      by_contra hlt
      have := hsep c' rfl d (digitOf_lt hd (by omega))
      omega
    | simple c' =>
      simp only [List.map_cons, Piece.text, List.flatten_cons, List.cons_append, List.nil_append, List.head?_cons,
        Option.mem_def, Option.some.injEq] at hc
      subst hc
      exact absurd hd (by simp [digitOf])
    | octal ds =>
      simp only [List.map_cons, Piece.text, List.flatten_cons, List.cons_append, List.head?_cons,
        Option.mem_def, Option.some.injEq] at hc
      subst hc
      exact absurd hd (by simp [digitOf])
    | hexa ds => exact absurd (hx (.hexa ds) (by simp)) (by simp [Piece.isHexa])

/-- One piece is read. -/
theorem escapeChar_piece {p : Piece} {b : BitVec 8} (hp : p.Means b) (hx : p.isHexa = false) (rest : List Char)
    (hr : ∀ ds, p = .octal ds → ∀ c ∈ rest.head?, ∀ d, digitOf c = some d → 8 ≤ d) :
    escapeChar (p.text ++ rest) = (b, rest, false) := by
  cases p with
  | plain c =>
    obtain ⟨h1, h2, h3, h4⟩ := hp
    simp only [Piece.text, List.cons_append, List.nil_append]
    unfold escapeChar
    split
    · rename_i h; exact absurd (List.cons.inj h).1 h2
    · rename_i h
      obtain ⟨rfl, rfl⟩ := List.cons.inj h
      congr 1
      apply BitVec.eq_of_toNat_eq
      rw [BitVec.toNat_ofNat, Nat.mod_eq_of_lt h3, h4]
    · rename_i h; cases h
  | simple c =>
    have := simpleEscape_table _ hp
    simp only at this
    simp [Piece.text, escapeChar, this]
  | octal ds =>
    obtain ⟨h1, h2, h3⟩ := hp
    have hscan := scanDigits_append 8 rest (hr ds rfl) ds 0 h2
    rw [means_foldl h3] at hscan
    cases ds with
    | nil => exact absurd rfl h1
    | cons c cs =>
      obtain ⟨d, hd, hc⟩ := h2 c (by simp)
      have hdig := isDigit_iff hc
      have hsimple : simpleEscape c = none := by
        have hn : c.toNat = 48 + d := by rcases hc with ⟨_, h⟩ | ⟨h, _⟩ <;> omega
        have hne : ∀ c' : Char, (c'.toNat < 48 ∨ 55 < c'.toNat) → c ≠ c' := by
          rintro c' hc' rfl
          omega
        unfold simpleEscape
        repeat rw [if_neg (hne _ (by decide))]
      have hb : b.toNat < 2 ^ 63 - 1 := by have := b.isLt; omega
      simp only [Piece.text, List.cons_append] at hscan ⊢
      simp only [escapeChar, hsimple, hdig, Option.any_some, hd, decide_true, if_true, strtolChar, hscan]
      rw [Nat.min_eq_left (by omega)]
      simp
  | hexa ds => exact absurd hx (by simp [Piece.isHexa])

/-- **C50, partial.** A string that is written with plain characters, with the listed escape sequences and with octal
codes is the bytes that these stand for, with no error, and ends at its closing quote. -/
theorem string_partial : ∀ (ps : List Piece) (bs : List (BitVec 8)), Str ps bs → (∀ p ∈ ps, p.isHexa = false) →
    ∀ (rest : List Char) (fuel : Nat), ps.length < fuel →
      stringConst fuel ((ps.map Piece.text).flatten ++ '"' :: rest) = some (bs, false) := by
  intro ps bs h
  induction h with
  | nil =>
    intro _ rest fuel hf
    obtain ⟨f, rfl⟩ : ∃ f, fuel = f + 1 := ⟨fuel - 1, by simp at hf; omega⟩
    rfl
  | @cons p ps b bs hp h hsep ih =>
    intro hx rest fuel hf
    obtain ⟨f, rfl⟩ : ∃ f, fuel = f + 1 := ⟨fuel - 1, by simp at hf; omega⟩
    have hx' : ∀ p ∈ ps, p.isHexa = false := fun p hp => hx p (by simp [hp])
    have hone := escapeChar_piece hp (hx p (by simp)) ((ps.map Piece.text).flatten ++ '"' :: rest) fun ds e =>
      str_head h hx' rest fun c hc => hsep ds c e hc
    simp only [List.map_cons, List.flatten_cons, List.append_assoc]
    have hq : ∀ t, p.text ++ ((ps.map Piece.text).flatten ++ '"' :: rest) ≠ '"' :: t := by
      intro t ht
      cases p with
      | plain c => exact hp.1 (List.cons.inj ht).1
      | simple c => exact absurd (List.cons.inj ht).1 (by decide)
      | octal ds => exact absurd (List.cons.inj ht).1 (by decide)
      | hexa ds => exact absurd (List.cons.inj ht).1 (by decide)
    have hne : p.text ++ ((ps.map Piece.text).flatten ++ '"' :: rest) ≠ [] := by cases p <;> simp [Piece.text]
    unfold stringConst
    split
    · rename_i t ht; exact absurd ht (hq t)
    · rename_i ht; exact absurd ht hne
    · rw [hone]
      dsimp only
      rw [ih hx' rest f (by simp at hf; omega)]
      rfl

/-- `a\n\101"`: three bytes. -/
example : ∃ ps bs, Str ps bs ∧ (∀ p ∈ ps, p.isHexa = false) ∧ bs = [97, 10, 65] ∧
    (ps.map Piece.text).flatten = ['a', '\\', 'n', '\\', '1', '0', '1'] := by
  refine ⟨[.plain 'a', .simple 'n', .octal ['1', '0', '1']], _, .cons ⟨by decide, by decide, by decide, by decide⟩
    (.cons (b := 10) (by simp [Piece.Means, escapes]) (.cons (b := 65) ⟨by simp, ?_, ?_⟩ .nil (by simp)) (by simp)) (by simp),
    by simp [Piece.isHexa], rfl, rfl⟩
  · intro c hc
    simp only [List.mem_cons, List.not_mem_nil, or_false] at hc
    rcases hc with rfl | rfl | rfl
    · exact ⟨1, by decide, Or.inl ⟨by omega, rfl⟩⟩
    · exact ⟨0, by decide, Or.inl ⟨by omega, rfl⟩⟩
    · exact ⟨1, by decide, Or.inl ⟨by omega, rfl⟩⟩
  · exact Means.snoc (cs := ['1', '0']) (v := 8) (d := 1)
      (Means.snoc (cs := ['1']) (v := 1) (d := 0) (Means.snoc (cs := []) (v := 0) (d := 1) .nil (Or.inl ⟨by omega, rfl⟩))
        (Or.inl ⟨by omega, rfl⟩)) (Or.inl ⟨by omega, rfl⟩)

/-- **C50, the negation for `\x`.** Whatever follows `\x`, the byte is 0, and the `x` and the digits follow as characters
of their own. -/
theorem hexa_wrong (rest : List Char) : escapeChar ('\\' :: 'x' :: rest) = (0, 'x' :: rest, false) := by
  have h1 : simpleEscape 'x' = none := by decide
  have h2 : digitOf 'x' = some 33 := by decide
  simp [escapeChar, h1, h2, strtolChar, scanDigits]

/-- So `"\x41"`, which stands for `A`, is four bytes. -/
theorem hexa_string_wrong : (Piece.hexa ['4', '1']).Means 0x41 ∧
    stringConst 10 ((Piece.hexa ['4', '1']).text ++ ['"']) = some ([0, 0x78, 0x34, 0x31], false) := by
  refine ⟨⟨by simp, ?_, ?_⟩, by decide +kernel⟩
  · intro c hc
    simp only [List.mem_cons, List.not_mem_nil, or_false] at hc
    rcases hc with rfl | rfl
    · exact ⟨4, by decide, Or.inl ⟨by omega, rfl⟩⟩
    · exact ⟨1, by decide, Or.inl ⟨by omega, rfl⟩⟩
  · exact Literal.Means.snoc (cs := ['4']) (v := 4) (d := 1) (Literal.Means.snoc (cs := []) (v := 0) (d := 4) .nil
      (Or.inl ⟨by omega, rfl⟩)) (Or.inl ⟨by omega, rfl⟩)

end Ispc.Literal
