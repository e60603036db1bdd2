import Mathlib.Data.Nat.Bitwise
import Mathlib.Dynamics.PeriodicPts.Defs
import Mathlib.Data.Nat.Prime.Basic
import Mathlib.Tactic.Ring

/-!
# Linear maps on 32-bit words over the field with two elements

Used for the periods of the random number generator: a linear map is determined by its 32 columns, its powers can be
computed by squaring, and the kernel can evaluate that.  The evaluation (`powK`) is written with continuations that force
each column to a literal, so that the kernel does not carry thunks around.
-/

namespace Ispc.Gf2

abbrev W32 := BitVec 32

/-- Linear over the field with two elements. -/
def Lin (f : W32 → W32) : Prop := ∀ x y, f (x ^^^ y) = f x ^^^ f y

theorem Lin.zero {f : W32 → W32} (h : Lin f) : f 0#32 = 0#32 := by
  have := h 0#32 0#32
  rwa [BitVec.xor_self, BitVec.xor_self] at this

theorem Lin.iterate {f : W32 → W32} (h : Lin f) (n : Nat) : Lin f^[n] := by
  induction n with
  | zero => intro x y; rfl
  | succ n ih => intro x y; rw [Function.iterate_succ_apply', Function.iterate_succ_apply', Function.iterate_succ_apply', ih, h]

/-- Matrix (list of columns) times vector. -/
def app : List Nat → Nat → Nat
  | [], _ => 0
  | c :: cs, x => Nat.xor (bif Nat.beq (x % 2) 1 then c else 0) (app cs (x / 2))

/-- Evaluate a number before going on. -/
def force {α : Type} (n : Nat) (k : Nat → α) : α := Nat.rec (k 0) (fun m _ => k (m + 1)) n
/-- Map, evaluating every element. -/
def mapF {α : Type} (f : Nat → Nat) : List Nat → (List Nat → α) → α
  | [], k => k []
  | x :: xs, k => force (f x) fun y => mapF f xs fun ys => k (y :: ys)
/-- The identity matrix. -/
def idM : List Nat := (List.range 32).map (2 ^ ·)
/-- The power of a matrix, exponent in binary, least significant bit first. -/
def powK {α : Type} (A : List Nat) : List Bool → (List Nat → α) → α
  | [], k => k idM
  | b :: bs, k => powK A bs fun S => mapF (app S) S fun T => bif b then mapF (app A) T k else k T

/-- The number written by a list of bits, least significant first. -/
def val : List Bool → Nat
  | [] => 0
  | b :: bs => 2 * val bs + b.toNat

theorem force_eq {α : Type} (n : Nat) (k : Nat → α) : force n k = k n := by cases n <;> rfl

theorem mapF_eq {α : Type} (f : Nat → Nat) (l : List Nat) (k : List Nat → α) : mapF f l k = k (l.map f) := by
  induction l generalizing k with
  | nil => rfl
  | cons x xs ih => rw [mapF, force_eq, ih]; rfl

theorem app_cons (c : Nat) (cs : List Nat) (x : Nat) :
    app (c :: cs) x = (if x % 2 = 1 then c else 0) ^^^ app cs (x / 2) := by
  have h : (bif Nat.beq (x % 2) 1 then c else 0) = if x % 2 = 1 then c else 0 := by
    rcases Nat.mod_two_eq_zero_or_one x with hx | hx <;> rw [hx] <;> rfl
  rw [← h]
  rfl

theorem app_xor (A : List Nat) (x y : Nat) : app A (x ^^^ y) = app A x ^^^ app A y := by
  induction A generalizing x y with
  | nil => exact (Nat.xor_self 0).symm
  | cons c cs ih =>
    rw [app_cons, app_cons, app_cons, Nat.xor_div_two, ih]
    have h : (x ^^^ y) % 2 = (x + y) % 2 := Nat.xor_mod_two_eq
    have hs : (if (x ^^^ y) % 2 = 1 then c else 0) = (if x % 2 = 1 then c else 0) ^^^ (if y % 2 = 1 then c else 0) := by
      rw [h]
      rcases Nat.mod_two_eq_zero_or_one x with hx | hx <;> rcases Nat.mod_two_eq_zero_or_one y with hy | hy
      · rw [show (x + y) % 2 = 0 by omega, hx, hy]; simp
      · rw [show (x + y) % 2 = 1 by omega, hx, hy]; simp
      · rw [show (x + y) % 2 = 1 by omega, hx, hy]; simp
      · rw [show (x + y) % 2 = 0 by omega, hx, hy]; simp
    rw [hs]
    generalize (if x % 2 = 1 then c else 0) = p
    generalize (if y % 2 = 1 then c else 0) = q
    generalize app cs (x / 2) = r
    generalize app cs (y / 2) = s
    ac_rfl

theorem app_zero (A : List Nat) : app A 0 = 0 := by
  have := app_xor A 0 0
  rwa [Nat.xor_self, Nat.xor_self] at this

theorem app_mul (A B : List Nat) (x : Nat) : app (B.map (app A)) x = app A (app B x) := by
  induction B generalizing x with
  | nil => exact (app_zero A).symm
  | cons c cs ih =>
    rw [List.map_cons, app_cons, app_cons, app_xor, ih]
    congr 1
    by_cases hx : x % 2 = 1
    · rw [if_pos hx, if_pos hx]
    · rw [if_neg hx, if_neg hx, app_zero]

/-- `M` is the matrix of `f`. -/
def Rep (M : List Nat) (f : W32 → W32) : Prop := ∀ x : W32, app M x.toNat = (f x).toNat

/-- The columns of a map. -/
def cols (f : W32 → W32) : List Nat := (List.range 32).map fun i => (f (BitVec.ofNat 32 (2 ^ i))).toNat

theorem low_high (y k : Nat) : y * 2 ^ k = (y % 2 * 2 ^ k) ^^^ (y / 2 * 2 ^ (k + 1)) := by
  apply Nat.eq_of_testBit_eq
  intro i
  rw [Nat.testBit_xor, Nat.testBit_mul_two_pow, Nat.testBit_mul_two_pow, Nat.testBit_mul_two_pow]
  by_cases h : k ≤ i
  · obtain ⟨j, rfl⟩ := Nat.exists_eq_add_of_le h
    rw [Nat.add_sub_cancel_left]
    cases j with
    | zero => simp [Nat.testBit_zero]
    | succ j =>
      rw [show k + (j + 1) - (k + 1) = j by omega, Nat.testBit_succ, Nat.testBit_succ, show y % 2 / 2 = 0 by omega]
      simp [show k + 1 ≤ k + (j + 1) by omega]
  · simp [h, show ¬ k + 1 ≤ i by omega]

theorem cols_aux (f : W32 → W32) (hf : Lin f) (n : Nat) : ∀ k y, y < 2 ^ n →
    app ((List.range' k n).map fun i => (f (BitVec.ofNat 32 (2 ^ i))).toNat) y = (f (BitVec.ofNat 32 (y * 2 ^ k))).toNat := by
  induction n with
  | zero =>
    intro k y hy
    obtain rfl : y = 0 := by simpa using hy
    rw [Nat.zero_mul, hf.zero]
    rfl
  | succ n ih =>
    intro k y hy
    rw [List.range'_succ, List.map_cons, app_cons, ih (k + 1) (y / 2) (by rw [pow_succ] at hy; omega), low_high y k,
      show BitVec.ofNat 32 ((y % 2 * 2 ^ k) ^^^ (y / 2 * 2 ^ (k + 1))) =
        BitVec.ofNat 32 (y % 2 * 2 ^ k) ^^^ BitVec.ofNat 32 (y / 2 * 2 ^ (k + 1)) from BitVec.ofNat_xor, hf, BitVec.toNat_xor]
    congr 1
    rcases Nat.mod_two_eq_zero_or_one y with h | h
    · rw [h, Nat.zero_mul, hf.zero]; rfl
    · rw [h, Nat.one_mul, if_pos rfl]

theorem rep_cols {f : W32 → W32} (hf : Lin f) : Rep (cols f) f := by
  intro x
  have := cols_aux f hf 32 0 x.toNat x.isLt
  rw [← List.range_eq_range', Nat.pow_zero, Nat.mul_one, BitVec.ofNat_toNat, BitVec.setWidth_eq] at this
  exact this

theorem rep_mul {A B : List Nat} {f g : W32 → W32} (ha : Rep A f) (hb : Rep B g) : Rep (B.map (app A)) (f ∘ g) := by
  intro x
  rw [app_mul, hb, ha]
  rfl

theorem rep_id : Rep idM id := by
  have h : idM = cols id := by decide +kernel
  rw [h]
  exact rep_cols fun _ _ => rfl

/-- `powK` computes powers. -/
theorem rep_pow {A : List Nat} {f : W32 → W32} (ha : Rep A f) (bs : List Bool) :
    ∃ M, (∀ {α : Type} (k : List Nat → α), powK A bs k = k M) ∧ Rep M f^[val bs] := by
  induction bs with
  | nil => exact ⟨idM, fun _ => rfl, rep_id⟩
  | cons b bs ih =>
    obtain ⟨S, hS, hr⟩ := ih
    have h2 : Rep (S.map (app S)) f^[2 * val bs] := by
      have := rep_mul hr hr
      rwa [← Function.iterate_add, ← Nat.two_mul] at this
    cases b with
    | false =>
      refine ⟨S.map (app S), fun k => ?_, h2⟩
      rw [powK, hS, mapF_eq]
      rfl
    | true =>
      refine ⟨(S.map (app S)).map (app A), fun k => ?_, ?_⟩
      · rw [powK, hS, mapF_eq, cond_true, mapF_eq]
      · have := rep_mul ha h2
        rwa [show val (true :: bs) = 2 * val bs + 1 from rfl, Function.iterate_succ']

theorem rep_unique {M : List Nat} {f g : W32 → W32} (hf : Rep M f) (hg : Rep M g) : f = g := by
  funext x
  exact BitVec.eq_of_toNat_eq ((hf x).symm.trans (hg x))

/-- Check that a power of `f` is `f` itself. -/
def checkReturn (f : W32 → W32) (bs : List Bool) : Bool := mapF (fun x => x) (cols f) fun A => powK A bs fun M => M == A

theorem of_checkReturn {f : W32 → W32} (hf : Lin f) {bs : List Bool} (h : checkReturn f bs = true) : f^[val bs] = f := by
  unfold checkReturn at h
  rw [mapF_eq, List.map_id'] at h
  obtain ⟨M, hM, hr⟩ := rep_pow (rep_cols hf) bs
  rw [hM, beq_iff_eq] at h
  subst h
  exact rep_unique hr (rep_cols hf)

/-- Add the identity to a matrix. -/
def addId (M : List Nat) : List Nat := List.zipWith (· ^^^ ·) M idM

/-- Check that `f^n + id` has the left inverse `B`. -/
def checkNoFix (f : W32 → W32) (bs : List Bool) (B : List Nat) : Bool :=
  mapF (fun x => x) (cols f) fun A => powK A bs fun M => (addId M).map (app B) == idM

theorem app_zip (A B : List Nat) (h : A.length = B.length) (x : Nat) :
    app (List.zipWith (· ^^^ ·) A B) x = app A x ^^^ app B x := by
  induction A generalizing B x with
  | nil => cases B with
    | nil => exact (Nat.xor_self 0).symm
    | cons _ _ => simp at h
  | cons a as ih => cases B with
    | nil => simp at h
    | cons b bs =>
      rw [List.zipWith_cons_cons, app_cons, app_cons, app_cons, ih bs (by simpa using h)]
      have e : (if x % 2 = 1 then a ^^^ b else 0) = (if x % 2 = 1 then a else 0) ^^^ (if x % 2 = 1 then b else 0) := by
        by_cases hx : x % 2 = 1
        · rw [if_pos hx, if_pos hx, if_pos hx]
        · rw [if_neg hx, if_neg hx, if_neg hx, Nat.xor_self]
      rw [e]
      generalize (if x % 2 = 1 then a else 0) = p
      generalize (if x % 2 = 1 then b else 0) = q
      ac_rfl

theorem of_checkNoFix {f : W32 → W32} (hf : Lin f) {bs : List Bool} {B : List Nat} (h : checkNoFix f bs B = true) (x : W32)
    (hx : f^[val bs] x = x) : x = 0#32 := by
  unfold checkNoFix at h
  rw [mapF_eq, List.map_id'] at h
  obtain ⟨M, hM, hr⟩ := rep_pow (rep_cols hf) bs
  rw [hM, beq_iff_eq] at h
  have hl : (addId M).length = 32 := by
    have := congrArg List.length h
    rw [List.length_map] at this
    rw [this]; rfl
  have hlen : 32 ≤ M.length := by
    unfold addId at hl
    rw [List.length_zipWith] at hl
    omega
  -- columns beyond the first 32 do not matter
  have hM32 : ∀ y, y < 2 ^ 32 → app (M.take 32) y = app M y := by
    have key : ∀ (n : Nat) (L : List Nat) (y : Nat), y < 2 ^ n → app (L.take n) y = app L y := by
      intro n
      induction n with
      | zero =>
        intro L y hy
        obtain rfl : y = 0 := by simpa using hy
        rw [app_zero, app_zero]
      | succ n ih =>
        intro L y hy
        cases L with
        | nil => rfl
        | cons a as => rw [List.take_succ_cons, app_cons, app_cons, ih as _ (by rw [pow_succ] at hy; omega)]
    exact key 32 M
  have hz : addId M = List.zipWith (· ^^^ ·) (M.take 32) idM := by
    unfold addId
    rw [← List.take_length (l := List.zipWith _ M idM), List.take_zipWith]
    unfold addId at hl
    rw [hl]
    rw [List.take_of_length_le (l := idM) (by decide)]
  have h0 : app (addId M) x.toNat = 0 := by
    rw [hz, app_zip _ _ (by rw [List.length_take]; show min 32 M.length = 32; omega), hM32 _ x.isLt, hr, hx, rep_id,
      id, Nat.xor_self]
  have h1 := app_mul B (addId M) x.toNat
  rw [h, h0, app_zero, rep_id] at h1
  exact BitVec.eq_of_toNat_eq h1

/-- Check that `B` undoes `f` up to the bits `mask` throws away. -/
def checkInv (f : W32 → W32) (mask : W32) (B : List Nat) : Bool := (cols f).map (app B) == cols (· &&& mask)

theorem of_checkInv {f : W32 → W32} (hf : Lin f) {mask : W32} {B : List Nat} (h : checkInv f mask B = true) (x : W32)
    (hx : f x = 0#32) : x &&& mask = 0#32 := by
  unfold checkInv at h
  rw [beq_iff_eq] at h
  have h1 := app_mul B (cols f) x.toNat
  have hl : Lin (· &&& mask) := fun a b => by
    apply BitVec.eq_of_getLsbD_eq
    intro i _
    simp only [BitVec.getLsbD_and, BitVec.getLsbD_xor]
    cases mask.getLsbD i <;> simp
  rw [h, rep_cols hf, rep_cols hl, hx, show (0#32).toNat = 0 from rfl, app_zero] at h1
  exact BitVec.eq_of_toNat_eq h1

/-- The period of a point from its divisors: `f^N y = y`, and `f^(N/p) y ≠ y` for every prime divisor `p` of `N`. -/
theorem period_iff {α : Type} (f : α → α) (y : α) (N : Nat) (hper : f^[N] y = y)
    (hprime : ∀ p, p.Prime → p ∣ N → f^[N / p] y ≠ y) (m : Nat) : f^[m] y = y ↔ N ∣ m := by
  have hd : Function.minimalPeriod f y ∣ N := Function.IsPeriodicPt.minimalPeriod_dvd hper
  have heq : Function.minimalPeriod f y = N := by
    obtain ⟨k, hk⟩ := hd
    by_contra hne
    have hk1 : k ≠ 1 := fun h => hne (by rw [hk, h, Nat.mul_one])
    have hkp := Nat.minFac_prime hk1
    obtain ⟨j, hj⟩ := Nat.minFac_dvd k
    refine hprime k.minFac hkp ⟨Function.minimalPeriod f y * j, ?_⟩ ?_
    · rw [hk]; conv_lhs => rw [hj]
      ring
    · have : N / k.minFac = Function.minimalPeriod f y * j := by
        apply Nat.div_eq_of_eq_mul_right hkp.pos
        rw [hk]; conv_lhs => rw [hj]
        ring
      rw [this]
      exact (Function.isPeriodicPt_minimalPeriod f y).mul_const j
  rw [← heq]
  exact Function.isPeriodicPt_iff_minimalPeriod_dvd

/-- The period of every point a linear map does not send to zero, from two computations. -/
theorem linear_period {f : W32 → W32} (hf : Lin f) (N : Nat) (hret : f^[N + 1] = f)
    (hfix : ∀ p, p.Prime → p ∣ N → ∀ z, f^[N / p] z = z → z = 0#32) (z : W32) (hz : f z ≠ 0#32) (n : Nat) (hn : 0 < n)
    (m : Nat) : f^[n + m] z = f^[n] z ↔ N ∣ m := by
  have h2 : ∀ n, f^[N * n + 1] z = f z := by
    intro n
    induction n with
    | zero => rw [Nat.mul_zero, Nat.zero_add]; rfl
    | succ n ih =>
      rw [show N * (n + 1) + 1 = N * n + (N + 1) by ring, Function.iterate_add_apply, hret, ← Function.iterate_succ_apply,
        Nat.succ_eq_add_one, ih]
  have hy : f^[N] (f^[n] z) = f^[n] z := by
    obtain ⟨i, rfl⟩ : ∃ i, n = i + 1 := ⟨n - 1, by omega⟩
    rw [← Function.iterate_add_apply, show N + (i + 1) = i + (N + 1) by omega, Function.iterate_add_apply, hret,
      ← Function.iterate_succ_apply]
  have hlive : f^[n] z ≠ 0#32 := by
    intro h0
    by_cases hN : N = 0
    · -- then `f` would be the zeroth-plus-first power, every positive power is reached from `z` itself
      have h3 := hfix 2 Nat.prime_two ⟨0, by rw [hN]⟩ z (by rw [hN]; rfl)
      exact hz (by rw [h3]; exact hf.zero)
    · obtain ⟨j, hj⟩ : ∃ j, n + j = N * n + 1 := by
        refine ⟨N * n + 1 - n, ?_⟩
        have : 1 * n ≤ N * n := Nat.mul_le_mul_right n (by omega)
        omega
      have h1 : f^[n + j] z = 0#32 := by
        rw [Nat.add_comm, Function.iterate_add_apply, h0]
        exact (hf.iterate j).zero
      rw [hj, h2] at h1
      exact hz h1
  rw [Nat.add_comm, Function.iterate_add_apply]
  exact period_iff f (f^[n] z) N hy (fun p hp hd h => hlive (hfix p hp hd _ h)) m

end Ispc.Gf2
