import Verif.Opt.Average

/-!
# Averages: properties

* C21: the definitions of `util.m4` and `pavg` against the documented averages.
* C48: what the expressions that are replaced by a call compute.
-/

namespace Ispc.Average

open Ispc.Sat (avgUpU_exact avgDownU_exact wide_toInt_add narrow_toInt toInt_range pow_pos' bmod_id)

variable {n : Nat}

/-! ## The definitions -/

/-- **C21.** `avg_up` on unsigned values, by the definition of `util.m4`. -/
theorem upU_exact (hn : 0 < n) (a b : BitVec (n + 1)) : (upU a b).toNat = (a.toNat + b.toNat + 1) / 2 :=
  avgUpU_exact hn a b

/-- **C21.** `avg_down` on unsigned values, by the definition of `util.m4`. -/
theorem downU_exact (hn : 0 < n) (a b : BitVec (n + 1)) : (downU a b).toNat = (a.toNat + b.toNat) / 2 :=
  avgDownU_exact hn a b

/-- **C21.** `avg_up` on unsigned values, by the instruction. -/
theorem pavg_exact (a b : BitVec n) : (pavg a b).toNat = (a.toNat + b.toNat + 1) / 2 := by
  have ha := a.isLt
  have hb := b.isLt
  have hp : (2 : Nat) ^ (n + 1) = 2 * 2 ^ n := by rw [Nat.pow_succ]; omega
  have h1 : ((1 : BitVec (n + 1))).toNat = 1 := by
    have : (1 : BitVec (n + 1)) = 1#(n + 1) := rfl
    rw [this, BitVec.toNat_ofNat]
    exact Nat.mod_eq_of_lt (by have := Nat.two_pow_pos n; omega)
  unfold pavg
  rw [BitVec.toNat_setWidth, BitVec.toNat_ushiftRight, BitVec.toNat_add, BitVec.toNat_add, BitVec.toNat_setWidth,
    BitVec.toNat_setWidth, h1, Nat.shiftRight_eq_div_pow, Nat.mod_eq_of_lt (a := a.toNat) (by omega),
    Nat.mod_eq_of_lt (a := b.toNat) (by omega), Nat.mod_eq_of_lt (a := a.toNat + b.toNat) (by omega),
    Nat.mod_eq_of_lt (a := a.toNat + b.toNat + 1) (by omega)]
  exact Nat.mod_eq_of_lt (by omega)

theorem two_toInt (hn : 0 < n) : ((2 : BitVec (2 * (n + 1)))).toInt = 2 := by
  have h2 : 2 * (n + 1) = (2 * n + 1) + 1 := by ring
  have : (2 : BitVec (2 * (n + 1))) = 2#(2 * (n + 1)) := rfl
  rw [this, BitVec.toInt_ofNat', h2]
  have hp : (4 : Int) ≤ 2 ^ (2 * n + 1) := by
    have : (4 : Int) = 2 ^ 2 := by norm_num
    rw [this]
    exact_mod_cast Nat.pow_le_pow_right (by omega) (by omega)
  exact bmod_id (by push_cast; omega) (by push_cast; omega)

theorem halve_toInt (hn : 0 < n) (X : BitVec (2 * (n + 1))) (h1 : -2 ^ (n + 1) ≤ X.toInt) (h2 : X.toInt ≤ 2 ^ (n + 1) - 1) :
    ((X.sdiv 2).setWidth (n + 1)).toInt = X.toInt.tdiv 2 := by
  have hp := pow_pos' n
  have e : (X.sdiv 2).toInt = X.toInt.tdiv 2 := by
    rw [BitVec.toInt_sdiv_of_ne_or_ne, two_toInt hn]
    right
    intro h
    have := congrArg BitVec.toInt h
    rw [two_toInt hn, BitVec.toInt_neg] at this
    have h2' : 2 * (n + 1) = (2 * n + 1) + 1 := by ring
    have h1' : (1#(2 * (n + 1))).toInt = 1 := by
      rw [BitVec.toInt_ofNat', h2']
      have hq : (2 : Int) ≤ 2 ^ (2 * n + 1) := by
        have : (2 : Int) = 2 ^ 1 := by norm_num
        rw [this]
        exact_mod_cast Nat.pow_le_pow_right (by omega) (by omega)
      exact bmod_id (by push_cast; omega) (by push_cast; omega)
    rw [h1', h2'] at this
    have hq : (2 : Int) ≤ 2 ^ (2 * n + 1) := by
      have : (2 : Int) = 2 ^ 1 := by norm_num
      rw [this]
      exact_mod_cast Nat.pow_le_pow_right (by omega) (by omega)
    rw [bmod_id (by omega) (by omega)] at this
    omega
  have hpow : (2 : Int) ^ (n + 1) = 2 * 2 ^ n := by ring
  have hb : -2 ^ n ≤ X.toInt.tdiv 2 ∧ X.toInt.tdiv 2 < 2 ^ n := by
    rw [hpow] at h1 h2
    rcases Int.le_total 0 X.toInt with h | h
    · rw [Int.tdiv_eq_ediv_of_nonneg h]; omega
    · have := Int.neg_tdiv (-X.toInt) 2
      rw [Int.neg_neg, Int.tdiv_eq_ediv_of_nonneg (a := -X.toInt) (by omega)] at this
      omega
  rw [narrow_toInt _ (by rw [e]; exact hb.1) (by rw [e]; exact hb.2), e]

/-- The value of `avg_down` on signed values on the targets that have the definition of `util.m4`: half the sum, rounded
towards zero. -/
theorem downS_value (hn : 0 < n) (a b : BitVec (n + 1)) : (downS a b).toInt = (a.toInt + b.toInt).tdiv 2 := by
  obtain ⟨a1, a2⟩ := toInt_range a
  obtain ⟨b1, b2⟩ := toInt_range b
  have hpow : (2 : Int) ^ (n + 1) = 2 * 2 ^ n := by ring
  have h := wide_toInt_add hn a b
  unfold downS
  rw [halve_toInt hn _ (by omega) (by omega), h]

/-- The value of `avg_up` on signed values on the targets that have the definition of `util.m4`. -/
theorem upS_value (hn : 0 < n) (a b : BitVec (n + 1)) : (upS a b).toInt = (a.toInt + b.toInt + 1).tdiv 2 := by
  obtain ⟨a1, a2⟩ := toInt_range a
  obtain ⟨b1, b2⟩ := toInt_range b
  have hp := pow_pos' n
  have hpow : (2 : Int) ^ (n + 1) = 2 * 2 ^ n := by ring
  have h := wide_toInt_add hn a b
  have h2' : 2 * (n + 1) = (2 * n + 1) + 1 := by ring
  have hq : (4 : Int) * 2 ^ n ≤ 2 ^ (2 * n + 1) := by
    have : (4 : Int) * 2 ^ n = 2 ^ (n + 2) := by ring
    rw [this]
    exact_mod_cast Nat.pow_le_pow_right (by omega) (by omega)
  have h1' : ((1 : BitVec (2 * (n + 1)))).toInt = 1 := by
    have : (1 : BitVec (2 * (n + 1))) = 1#(2 * (n + 1)) := rfl
    rw [this, BitVec.toInt_ofNat', h2']
    exact bmod_id (by push_cast; omega) (by push_cast; omega)
  have hs : (a.signExtend (2 * (n + 1)) + b.signExtend (2 * (n + 1)) + 1).toInt = a.toInt + b.toInt + 1 := by
    rw [BitVec.toInt_add, h, h1', h2']
    exact bmod_id (by omega) (by omega)
  unfold upS
  rw [halve_toInt hn _ (by rw [hs]; omega) (by rw [hs]; omega), hs]

/-- Rounding towards zero is rounding down exactly for sums that are not both negative and odd. -/
theorem tdiv_two_iff (z : Int) : z.tdiv 2 = z / 2 ↔ 0 ≤ z ∨ z % 2 = 0 := by
  rcases Int.le_total 0 z with h | h
  · rw [Int.tdiv_eq_ediv_of_nonneg h]; simp [h]
  · have := Int.neg_tdiv (-z) 2
    rw [Int.neg_neg, Int.tdiv_eq_ediv_of_nonneg (a := -z) (by omega)] at this
    omega

/-- **C21, partial.** Signed `avg_down` by `util.m4` rounds down as documented exactly when the sum is not both negative
and odd. -/
theorem downS_exact_partial (hn : 0 < n) (a b : BitVec (n + 1)) :
    (downS a b).toInt = (a.toInt + b.toInt) / 2 ↔ 0 ≤ a.toInt + b.toInt ∨ (a.toInt + b.toInt) % 2 = 0 := by
  rw [downS_value hn, tdiv_two_iff]

/-- **C21, partial.** Signed `avg_up` by `util.m4` is the average, rounded up if it is halfway between two integers,
exactly when the sum is at least -1 or odd. -/
theorem upS_exact_partial (hn : 0 < n) (a b : BitVec (n + 1)) :
    (upS a b).toInt = (a.toInt + b.toInt + 1) / 2 ↔ -1 ≤ a.toInt + b.toInt ∨ (a.toInt + b.toInt) % 2 = 1 := by
  rw [upS_value hn, tdiv_two_iff]
  omega

/-- On these targets `avg_up(-2, -2)` is -1. -/
theorem upS_wrong : ∃ a b : BitVec 8, a.toInt = -2 ∧ b.toInt = -2 ∧ (upS (n := 7) a b).toInt = -1 ∧
    (Sat.avgUpS (n := 7) a b).toInt = -2 := ⟨-2, -2, by decide, by decide, by decide, by decide⟩

/-- On these targets `avg_down(-1, -2)` is -1, on others -2. -/
theorem downS_wrong : ∃ a b : BitVec 8, a.toInt = -1 ∧ b.toInt = -2 ∧ (downS (n := 7) a b).toInt = -1 ∧
    (Sat.avgDownS (n := 7) a b).toInt = -2 := ⟨-1, -2, by decide, by decide, by decide, by decide⟩

example : (upS (n := 7) 100#8 101#8).toInt = 101 ∧ (upS (n := 7) (-4) (-1)).toInt = -2 ∧ pavg 255#8 254#8 = 255#8 := by decide

/-! ## What the patterns match -/

theorem matchTrunc_eq {n k : Nat} {e : E n} {e' : E k} (h : matchTrunc k e = some e') : ∃ hk, e = .trunc n hk e' := by
  cases e <;> simp only [matchTrunc, reduceCtorEq] at h
  case trunc j e hj =>
    split at h
    · rename_i hjk
      subst hjk
      cases h
      exact ⟨hj, rfl⟩
    · cases h

theorem matchZExt_eq {n k : Nat} {e : E n} {e' : E k} (h : matchExt false k e = some e') : ∃ hk, e = .zext n hk e' := by
  simp only [matchExt, Bool.false_eq_true, if_false] at h
  cases e <;> simp only [matchZExt, reduceCtorEq] at h
  case zext j e hj =>
    split at h
    · rename_i hjk
      subst hjk
      cases h
      exact ⟨hj, rfl⟩
    · cases h

theorem matchAdd_eq {n : Nat} {e a b : E n} (h : matchAdd e = some (a, b)) : e = .add a b := by
  cases e <;> simp_all [matchAdd]

theorem matchConst_eq {n : Nat} {e : E n} {c : BitVec n} (h : matchConst e = some c) : e = .const c := by
  cases e <;> simp_all [matchConst]

/-! ## Specification: the constants of an expression -/

/-- The sum of the constants among the summands. -/
def constSum {n : Nat} : E n → Nat
  | .add a b => constSum a + constSum b
  | .const c => c.toNat
  | _ => 0

/-- The divisor and the sum of the constant summands of an expression of the form that is looked for. -/
def constants {n : Nat} : E n → Option (Nat × Nat)
  | .trunc _ _ (.udiv e (.const c)) => some (constSum e, c.toNat)
  | .trunc _ _ (.lshr e (.const c)) => some (constSum e, 2 ^ c.toNat)
  | .trunc _ _ (.sdiv e (.const c)) => some (constSum e, c.toNat)
  | .trunc _ _ (.ashr e (.const c)) => some (constSum e, 2 ^ c.toNat)
  | _ => none

/-- The value of `(a + b + δ) / d`, computed without overflow. -/
def quotient {k : Nat} (δ d : Nat) (x y : Option (BitVec k)) : Option (BitVec k) :=
  x.bind fun x => y.bind fun y => if d = 0 then none else some (BitVec.ofNat k ((x.toNat + y.toNat + δ) / d))

theorem zext_toNat {k : Nat} (x : BitVec k) : (x.setWidth (2 * k)).toNat = x.toNat := by
  rw [BitVec.toNat_setWidth]
  exact Nat.mod_eq_of_lt (Nat.lt_of_lt_of_le x.isLt (Nat.pow_le_pow_right (by omega) (by omega)))

theorem room {k : Nat} (hk : 2 ≤ k) : 4 * 2 ^ k ≤ 2 ^ (2 * k) := by
  have : 4 * 2 ^ k = 2 ^ (k + 2) := by rw [Nat.pow_add]; omega
  rw [this]
  exact Nat.pow_le_pow_right (by omega) (by omega)

/-- A sum of two extended values and a small constant. -/
def IsSum {k : Nat} (ρ : ∀ n, Nat → BitVec n) (a b : E k) (δ : Nat) (e : E (2 * k)) : Prop :=
  (∀ x y, a.eval ρ = some x → b.eval ρ = some y → ∃ s, e.eval ρ = some s ∧ s.toNat = x.toNat + y.toNat + δ) ∧
    ((a.eval ρ = none ∨ b.eval ρ = none) → e.eval ρ = none)

theorem divided {k : Nat} (hk : 2 ≤ k) (ρ : ∀ n, Nat → BitVec n) {a b : E k} {δ : Nat} {e : E (2 * k)}
    (hs : IsSum ρ a b δ e) (hlt : k < 2 * k) (c : BitVec (2 * k)) :
    (c.toNat < 4 → (E.trunc k hlt (.udiv e (.const c))).eval ρ = quotient δ c.toNat (a.eval ρ) (b.eval ρ)) ∧
    (c.toNat < 2 → (E.trunc k hlt (.lshr e (.const c))).eval ρ = quotient δ (2 ^ c.toNat) (a.eval ρ) (b.eval ρ)) := by
  have hr := room hk
  cases ha : a.eval ρ with
  | none => simp [E.eval, quotient, hs.2 (Or.inl ha)]
  | some x =>
    cases hb : b.eval ρ with
    | none => simp [E.eval, quotient, hs.2 (Or.inr hb)]
    | some y =>
      obtain ⟨s, h1, h2⟩ := hs.1 x y ha hb
      refine ⟨fun hc => ?_, fun hc => ?_⟩
      · simp only [E.eval, h1, Option.bind_some, quotient]
        by_cases h0 : c = 0
        · subst h0; simp
        · have : c.toNat ≠ 0 := fun h => h0 (BitVec.eq_of_toNat_eq (by simpa using h))
          simp only [h0, this, if_false, Option.map_some]
          congr 1
          apply BitVec.eq_of_toNat_eq
          rw [BitVec.toNat_setWidth, BitVec.toNat_udiv, BitVec.toNat_ofNat, h2]
      · simp only [E.eval, h1, Option.bind_some, quotient]
        have h3 : c.toNat < 2 * k := by omega
        have h4 : 2 ^ c.toNat ≠ 0 := by positivity
        simp only [h3, h4, if_true, if_false, Option.map_some]
        congr 1
        apply BitVec.eq_of_toNat_eq
        rw [BitVec.toNat_setWidth, BitVec.toNat_ushiftRight, BitVec.toNat_ofNat, h2, Nat.shiftRight_eq_div_pow]

theorem sum2 {k : Nat} (hk : 2 ≤ k) (ρ : ∀ n, Nat → BitVec n) (a b : E k) (h1 h2 : k < 2 * k) :
    IsSum ρ a b 0 (.add (.zext _ h1 a) (.zext _ h2 b)) := by
  have hr := room hk
  refine ⟨fun x y hx hy => ⟨x.setWidth _ + y.setWidth _, by simp [E.eval, hx, hy], ?_⟩, fun h => ?_⟩
  · have := x.isLt
    have := y.isLt
    rw [BitVec.toNat_add, zext_toNat, zext_toNat, Nat.mod_eq_of_lt (by omega)]
    omega
  · rcases h with h | h
    · simp [E.eval, h]
    · simp [E.eval, h]

theorem sum3 {k : Nat} (hk : 2 ≤ k) (ρ : ∀ n, Nat → BitVec n) (a b : E k) (h1 h2 : k < 2 * k) (c : BitVec (2 * k))
    (hc : c.toNat < 2) :
    IsSum ρ a b c.toNat (.add (.zext _ h1 a) (.add (.zext _ h2 b) (.const c))) ∧
    IsSum ρ a b c.toNat (.add (.add (.zext _ h1 a) (.const c)) (.zext _ h2 b)) ∧
    IsSum ρ a b c.toNat (.add (.add (.zext _ h1 a) (.zext _ h2 b)) (.const c)) := by
  have hr := room hk
  have key : ∀ (p : E (2 * k)) (f : BitVec (2 * k) → BitVec (2 * k) → BitVec (2 * k)),
      (∀ x y, a.eval ρ = some x → b.eval ρ = some y → p.eval ρ = some (f (x.setWidth _) (y.setWidth _))) →
      (∀ x y, f x y = x + y + c) → (a.eval ρ = none ∨ b.eval ρ = none → p.eval ρ = none) → IsSum ρ a b c.toNat p := by
    intro p f hp hf hn
    refine ⟨fun x y hx hy => ⟨_, hp x y hx hy, ?_⟩, hn⟩
    have := x.isLt
    have := y.isLt
    rw [hf, BitVec.toNat_add, BitVec.toNat_add, zext_toNat, zext_toNat, Nat.mod_eq_of_lt (a := x.toNat + y.toNat) (by omega),
      Nat.mod_eq_of_lt (by omega)]
  refine ⟨key _ (fun x y => x + (y + c)) ?_ (fun x y => (BitVec.add_assoc ..).symm) ?_,
    key _ (fun x y => x + c + y) ?_ (fun x y => by rw [BitVec.add_assoc, BitVec.add_comm c, ← BitVec.add_assoc]) ?_,
    key _ (fun x y => x + y + c) ?_ (fun _ _ => rfl) ?_⟩
  · intro x y hx hy; simp [E.eval, hx, hy]
  · rintro (h | h) <;> simp [E.eval, h]
  · intro x y hx hy; simp [E.eval, hx, hy]
  · rintro (h | h) <;> simp [E.eval, h]
  · intro x y hx hy; simp [E.eval, hx, hy]
  · rintro (h | h) <;> simp [E.eval, h]

/-- What the sum of an accepted expression of `avg_up` looks like. -/
theorem matchSum_eq {m k : Nat} {e : E m} {a b : E k} {d : BitVec m}
    (h : ((matchSum1 false k e).orElse fun _ => (matchSum2 false k e).orElse fun _ => matchSum3 false k e) = some (a, b, d)) :
    ∃ h1 h2, e = .add (.zext m h1 a) (.add (.zext m h2 b) (.const d)) ∨ e = .add (.add (.zext m h1 a) (.const d)) (.zext m h2 b) ∨
      e = .add (.add (.zext m h1 a) (.zext m h2 b)) (.const d) := by
  have h' : matchSum1 false k e = some (a, b, d) ∨ matchSum2 false k e = some (a, b, d) ∨ matchSum3 false k e = some (a, b, d) := by
    cases h1 : matchSum1 false k e with
    | some r => rw [h1] at h; exact Or.inl h
    | none =>
      rw [h1] at h
      cases h2 : matchSum2 false k e with
      | some r => rw [h2] at h; exact Or.inr (Or.inl h)
      | none => rw [h2] at h; exact Or.inr (Or.inr h)
  rcases h' with h | h | h
  · simp only [matchSum1, Option.bind_eq_bind, Option.bind_eq_some_iff, Prod.exists, Option.some.injEq, Prod.mk.injEq] at h
    obtain ⟨p, q, h1, p', h2, r, t, h3, r', h4, t', h5, rfl, rfl, rfl⟩ := h
    obtain ⟨g1, e1⟩ := matchZExt_eq h2
    obtain ⟨g2, e2⟩ := matchZExt_eq h4
    exact ⟨g1, g2, Or.inl (by rw [matchAdd_eq h1, e1, matchAdd_eq h3, e2, matchConst_eq h5])⟩
  · simp only [matchSum2, Option.bind_eq_bind, Option.bind_eq_some_iff, Prod.exists, Option.some.injEq, Prod.mk.injEq] at h
    obtain ⟨p, q, h1, r, t, h2, r', h3, t', h4, q', h5, rfl, rfl, rfl⟩ := h
    obtain ⟨g1, e1⟩ := matchZExt_eq h3
    obtain ⟨g2, e2⟩ := matchZExt_eq h5
    exact ⟨g1, g2, Or.inr (Or.inl (by rw [matchAdd_eq h1, matchAdd_eq h2, e1, e2, matchConst_eq h4]))⟩
  · simp only [matchSum3, Option.bind_eq_bind, Option.bind_eq_some_iff, Prod.exists, Option.some.injEq, Prod.mk.injEq] at h
    obtain ⟨p, q, h1, r, t, h2, r', h3, t', h4, q', h5, rfl, rfl, rfl⟩ := h
    obtain ⟨g1, e1⟩ := matchZExt_eq h3
    obtain ⟨g2, e2⟩ := matchZExt_eq h4
    exact ⟨g1, g2, Or.inr (Or.inr (by rw [matchAdd_eq h1, matchAdd_eq h2, e1, e2, matchConst_eq h5]))⟩

/-- What the division of an accepted expression looks like. -/
theorem matchDiv2_eq {m : Nat} {e s : E m} (h : matchDiv2 false e = some s) :
    ∃ c : BitVec m, (c.toNat < 4 ∧ e = .udiv s (.const c)) ∨ (c.toNat < 2 ∧ e = .lshr s (.const c)) := by
  unfold matchDiv2 at h
  split at h <;> simp [isIntN] at h
  · rename_i s' c
    exact ⟨c, Or.inl ⟨h.1, by rw [h.2]⟩⟩
  · rename_i s' c
    exact ⟨c, Or.inr ⟨h.1, by rw [h.2]⟩⟩

/-- What an accepted expression of an unsigned `avg_up` computes: the quotient of the sum of the two arguments and a
constant that is at most one, by a constant that is at most three. -/
theorem matchUp_value {k : Nat} (hk : 2 ≤ k) {e a b : E k} (h : matchUp false k e = some (a, b)) :
    ∃ δ d, constants e = some (δ, d) ∧ δ ≤ 1 ∧ d ≤ 3 ∧ ∀ ρ, e.eval ρ = quotient δ d (a.eval ρ) (b.eval ρ) := by
  simp only [matchUp, Option.bind_eq_bind, Option.bind_eq_some_iff, Prod.exists] at h
  obtain ⟨q, h1, s, h2, a', b', d, h3, h4⟩ := h
  split at h4
  · rename_i hd
    simp only [Option.some.injEq, Prod.mk.injEq] at h4
    obtain ⟨rfl, rfl⟩ := h4
    have hd : d.toNat < 2 := by simpa [isIntN] using hd
    obtain ⟨ht, rfl⟩ := matchTrunc_eq h1
    obtain ⟨g1, g2, hs⟩ := matchSum_eq h3
    have hsum : ∀ ρ, IsSum ρ a' b' d.toNat s := by
      intro ρ
      obtain ⟨s1, s2, s3⟩ := sum3 hk ρ a' b' g1 g2 d hd
      rcases hs with rfl | rfl | rfl <;> assumption
    have hcs : constSum s = d.toNat := by
      rcases hs with rfl | rfl | rfl <;> simp [constSum]
    obtain ⟨c, ⟨hc, rfl⟩ | ⟨hc, rfl⟩⟩ := matchDiv2_eq h2
    · exact ⟨_, _, rfl, by rw [hcs]; omega, by omega, fun ρ => by rw [hcs]; exact (divided hk ρ (hsum ρ) ht c).1 hc⟩
    · refine ⟨_, _, rfl, by rw [hcs]; omega, ?_, fun ρ => by rw [hcs]; exact (divided hk ρ (hsum ρ) ht c).2 hc⟩
      have : c.toNat = 0 ∨ c.toNat = 1 := by omega
      rcases this with h | h <;> simp [h]
  · cases h4

/-- What an accepted expression of an unsigned `avg_down` computes. -/
theorem matchDown_value {k : Nat} (hk : 2 ≤ k) {e a b : E k} (h : matchDown false k e = some (a, b)) :
    ∃ d, constants e = some (0, d) ∧ d ≤ 3 ∧ ∀ ρ, e.eval ρ = quotient 0 d (a.eval ρ) (b.eval ρ) := by
  simp only [matchDown, Option.bind_eq_bind, Option.bind_eq_some_iff, Prod.exists, Option.some.injEq, Prod.mk.injEq] at h
  obtain ⟨q, h1, s, h2, p, r, h3, a', h4, b', h5, rfl, rfl⟩ := h
  obtain ⟨ht, rfl⟩ := matchTrunc_eq h1
  obtain ⟨g1, rfl⟩ := matchZExt_eq h4
  obtain ⟨g2, rfl⟩ := matchZExt_eq h5
  obtain rfl := matchAdd_eq h3
  have hsum := fun ρ => sum2 hk ρ a' b' g1 g2
  obtain ⟨c, ⟨hc, rfl⟩ | ⟨hc, rfl⟩⟩ := matchDiv2_eq h2
  · exact ⟨_, rfl, by omega, fun ρ => (divided hk ρ (hsum ρ) ht c).1 hc⟩
  · refine ⟨_, rfl, ?_, fun ρ => (divided hk ρ (hsum ρ) ht c).2 hc⟩
    have : c.toNat = 0 ∨ c.toNat = 1 := by omega
    rcases this with h | h <;> simp [h]

/-! ## The replacement -/

/-- The call of an `avg_up` that is made of the instruction. -/
def callUp {k : Nat} (x y : Option (BitVec k)) : Option (BitVec k) := x.bind fun x => y.map fun y => pavg x y

theorem quotient_avg {k : Nat} (x y : Option (BitVec k)) : quotient 1 2 x y = callUp x y := by
  cases x <;> cases y <;> simp only [quotient, callUp, Option.bind_none, Option.bind_some, Option.map_none, Option.map_some]
  rename_i x y
  rw [if_neg (by decide)]
  congr 1
  apply BitVec.eq_of_toNat_eq
  rw [pavg_exact, BitVec.toNat_ofNat]
  have := x.isLt
  have := y.isLt
  exact Nat.mod_eq_of_lt (by omega)

/-- Only unsigned `avg_up` functions are called. -/
theorem replace_fn {t w : Bool} {e : E (if w then 16 else 8)} {f : Fn} {a b : E (if w then 16 else 8)}
    (h : replace (hasIntrinsic t) w e = some (f, a, b)) : f = ⟨true, false, w⟩ ∧ matchUp false _ e = some (a, b) := by
  simp only [replace] at h
  obtain ⟨g, -, hg⟩ := List.exists_of_findSome?_eq_some h
  split at hg
  · rename_i hh
    obtain ⟨u, s, w'⟩ := g
    simp only [hasIntrinsic, Bool.and_eq_true, Bool.not_eq_true'] at hh
    obtain ⟨rfl, ⟨-, rfl⟩, rfl⟩ := hh
    simp only [Option.map_eq_some_iff, Prod.mk.injEq] at hg
    obtain ⟨r, hr, rfl, hr'⟩ := hg
    refine ⟨rfl, ?_⟩
    rw [← hr']
    simpa [matchFn] using hr
  · cases hg

/-- **C48, partial.** An expression that is replaced by a call of `avg_up` has the form `(a + b + δ) / d`, and the call
returns its value if `δ` is one and `d` is two, the constants of an average. -/
theorem replace_sound_partial {t w : Bool} {e : E (if w then 16 else 8)} {f : Fn} {a b : E (if w then 16 else 8)}
    (h : replace (hasIntrinsic t) w e = some (f, a, b)) :
    f = ⟨true, false, w⟩ ∧ ∃ δ d, constants e = some (δ, d) ∧ δ ≤ 1 ∧ d ≤ 3 ∧
      (∀ ρ, e.eval ρ = quotient δ d (a.eval ρ) (b.eval ρ)) ∧
      (δ = 1 → d = 2 → ∀ ρ, e.eval ρ = callUp (a.eval ρ) (b.eval ρ)) := by
  obtain ⟨hf, hm⟩ := replace_fn h
  obtain ⟨δ, d, h1, h2, h3, h4⟩ := matchUp_value (by cases w <;> simp) hm
  refine ⟨hf, δ, d, h1, h2, h3, h4, ?_⟩
  rintro rfl rfl ρ
  rw [h4 ρ, quotient_avg]

def zext8 (e : E 8) : E 16 := .zext 16 (by decide) e

/-- `(uint8)(((uint16)a + (uint16)b + δ) / d)`. -/
def div8 (δ d : Nat) : E 8 :=
  .trunc 8 (by decide) (.udiv (.add (.add (zext8 (.arg 8 0)) (zext8 (.arg 8 1))) (.const (BitVec.ofNat 16 δ)))
    (.const (BitVec.ofNat 16 d)))

/-- An average is replaced. -/
example : replace (hasIntrinsic true) false (div8 1 2) = some (⟨true, false, false⟩, .arg 8 0, .arg 8 1) := rfl

/-- **C48, negative.** A division by three is replaced as well: with `a = b = 100` the expression is 67 and the call
returns 100. -/
theorem div3_replaced : replace (hasIntrinsic true) false (div8 1 3) = some (⟨true, false, false⟩, .arg 8 0, .arg 8 1) ∧
    (div8 1 3).eval (fun n _ => BitVec.ofNat n 100) = some 67#8 ∧
    callUp ((E.arg 8 0).eval fun n _ => BitVec.ofNat n 100) ((E.arg 8 1).eval fun n _ => BitVec.ofNat n 100) = some 100#8 :=
  ⟨rfl, by decide, by decide⟩

/-- **C48, negative.** So is a sum with a constant zero, whose average is to be rounded down: with `a = 1` and `b = 0` the
expression is 0 and the call returns 1. -/
theorem delta0_replaced : replace (hasIntrinsic true) false (div8 0 2) = some (⟨true, false, false⟩, .arg 8 0, .arg 8 1) ∧
    (div8 0 2).eval (fun n i => BitVec.ofNat n (1 - i)) = some 0#8 ∧
    callUp ((E.arg 8 0).eval fun n i => BitVec.ofNat n (1 - i)) ((E.arg 8 1).eval fun n i => BitVec.ofNat n (1 - i)) =
      some 1#8 := ⟨rfl, by decide, by decide⟩

/-- On the other targets nothing is replaced. -/
theorem replace_none (w : Bool) (e : E (if w then 16 else 8)) : replace (hasIntrinsic false) w e = none := by
  simp [replace, order, hasIntrinsic]

end Ispc.Average
