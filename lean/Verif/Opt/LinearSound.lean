import Verif.Opt.LinearExec
import Mathlib.Tactic.IntervalCases
import Mathlib.Tactic.Positivity

/-!
# Offset vectors the analysis gets right

`Verif.Opt.LinearWrong` shows programs on which the analysis of
`Verif.Opt.Linear` is mistaken.  Here are the conditions under which its answers
hold in every execution.
-/

namespace Ispc.LinearSound

open Ispc.Linear Ispc.LinearExec

/-! ## Conditions -/

/-- Operands have the widths LLVM's type checker requires. -/
structure Typed (g : Graph) : Prop where
  lanes : 0 < g.lanes
  pos : ∀ n, 0 < g.ty n
  width : ∀ n, g.ty n ≤ 64
  bin : ∀ n op a b, g.node n = .bin op a b → g.ty a = g.ty n ∧ g.ty b = g.ty n
  trunc : ∀ n a, g.node n = .cast .trunc a → g.ty n ≤ g.ty a
  zext : ∀ n a, g.node n = .cast .zext a → g.ty a ≤ g.ty n
  sext : ∀ n a, g.node n = .cast .sext a → g.ty a ≤ g.ty n
  phi : ∀ n ins, g.node n = .phi ins → ∀ m ∈ ins, g.ty m = g.ty n
  splat : ∀ n s, g.node n = .splat s → g.ty s = g.ty n
  sadd : ∀ n a b, g.node n = .sadd a b → g.ty a = g.ty n ∧ g.ty b = g.ty n
  sphi : ∀ n ins, g.node n = .sphi ins → ∀ m ∈ ins, g.ty m = g.ty n

/-- The alignment `lAllDivBaseEqual` demands of the value the constants are added to. -/
def alignment (g : Graph) (b : Nat) (c : Nat → Nat) (B : Nat) : Nat :=
  roundUpPow2 (maxMod g.lanes (fun l => int64Of (g.lane b c l)) B).toNat

/-- The constants of a vector are well behaved for division by `2^k`: if C++
division gives equal quotients then so does a shift, ... -/
def QuotientOk (g : Graph) (b : Nat) (c : Nat → Nat) (k : Nat) : Prop :=
  sameDiv g b c (2 ^ k) = true →
    ∀ l < g.lanes, g.lane b c l / 2 ^ k = g.lane b c 0 / 2 ^ k

/-- ... and the demanded alignment is larger than every remainder. -/
def AlignmentOk (g : Graph) (b : Nat) (c : Nat → Nat) (k : Nat) : Prop :=
  sameDiv g b c (2 ^ k) = true →
    alignment g b c (2 ^ k) ∣ 2 ^ k ∧
      ∀ l < g.lanes, g.lane b c l % 2 ^ k < alignment g b c (2 ^ k)

/-- A set of definitions, closed under operands, without vector phi nodes, whose
constants are well behaved. -/
structure Tame (g : Graph) (D : Nat → Prop) : Prop where
  bin : ∀ n op a b, D n → g.node n = .bin op a b → D a ∧ D b
  cast : ∀ n k a, D n → g.node n = .cast k a → D a
  noPhi : ∀ n ins, D n → g.node n ≠ .phi ins
  quotient : ∀ n c k, D n → g.node n = .const c → QuotientOk g n c k
  align : ∀ n a b c k, D n → g.node n = .bin .add a b → g.node b = .const c → AlignmentOk g b c k

/-- Everything shifted right is tame. -/
def ShiftsTame (g : Graph) (D : Nat → Prop) : Prop :=
  ∀ n a b, (g.node n = .bin .lshr a b ∨ g.node n = .bin .ashr a b) → D a

/-- In this execution no widening cast is applied to a vector that is linear with
a small stride only because its elements wrap around. -/
structure NoWrap (g : Graph) (h : History) : Prop where
  zext : ∀ n a x, g.node n = .cast .zext a → (a, x) ∈ h → ∀ s : Int, |s| ≤ 8 →
    IsLinear g.lanes (g.ty a) s x →
    ∀ l < g.lanes, 0 ≤ (x 0 : Int) + l * s ∧ (x 0 : Int) + l * s < 2 ^ g.ty a
  sext : ∀ n a x, g.node n = .cast .sext a → (a, x) ∈ h → ∀ s : Int, |s| ≤ 8 →
    IsLinear g.lanes (g.ty a) s x →
    ∀ l < g.lanes, -2 ^ (g.ty a - 1) ≤ sextValue (g.ty a) (x 0) + l * s ∧
      sextValue (g.ty a) (x 0) + l * s < 2 ^ (g.ty a - 1)

/-! ## Auxiliary facts -/

theorem latest_mem {h : History} {n : Nat} {v : Val} (e : latest h n = some v) : (n, v) ∈ h := by
  induction h with
  | nil => simp [latest] at e
  | cons p h ih =>
    obtain ⟨m, u⟩ := p
    simp only [latest] at e
    split at e
    · rename_i hm; subst hm; simp only [Option.some.injEq] at e; subst e; exact List.mem_cons_self
    · exact List.mem_cons_of_mem _ (ih e)

theorem orElse_true {a b : Option Bool} (h : orElse a b = some true) :
    a = some true ∨ b = some true := by
  unfold orElse at h
  split at h
  · exact Or.inr h
  · exact Or.inl h

theorem andThen_true {a b : Option Bool} (h : andThen a b = some true) :
    a = some true ∧ b = some true := by
  unfold andThen at h
  split at h
  · exact ⟨rfl, h⟩
  · rename_i hn; exact absurd h (by intro e; exact hn e)

theorem both_true {a b : Option Bool} (h : both a b = some true) :
    a = some true ∧ b = some true := by
  unfold both at h
  split at h
  · rename_i x y
    simp only [Option.some.injEq, Bool.and_eq_true] at h
    exact ⟨by rw [h.1], by rw [h.2]⟩
  · cases h

theorem allM_true {f : Nat → Option Bool} {ms : List Nat} (h : allM f ms = some true) :
    ∀ m ∈ ms, f m = some true := by
  induction ms with
  | nil => intro m hm; cases hm
  | cons a ms ih =>
    unfold allM at h
    split at h
    · rename_i ha
      intro m hm
      rcases List.mem_cons.1 hm with rfl | hm
      · exact ha
      · exact ih h m hm
    · rename_i hn; exact absurd h hn

theorem forall'_true {N : Nat} {p : Nat → Bool} (h : forall' N p = true) : ∀ l < N, p l = true :=
  fun l hl => List.all_eq_true.1 h l (List.mem_range.2 hl)

theorem constEq_true {g : Graph} {n : Nat} {c : Nat → Nat} (h : constEq g n c = true) :
    ∀ l < g.lanes, g.lane n c l = g.lane n c 0 := by
  intro l hl
  have := forall'_true h l hl
  simpa using this

/-- Adding constants with equal quotients and small remainders to a sufficiently
aligned number keeps the quotients equal. -/
theorem div_add {X c d A k w : Nat} (hk : k ≤ w) (hA : A ∣ 2 ^ k) (hX : A ∣ X)
    (hq : c / 2 ^ k = d / 2 ^ k) (hc : c % 2 ^ k < A) (hd : d % 2 ^ k < A) :
    (X + c) % 2 ^ w / 2 ^ k = (X + d) % 2 ^ w / 2 ^ k := by
  have hp : 0 < 2 ^ k := Nat.two_pow_pos k
  have e : (2 : Nat) ^ w = 2 ^ k * 2 ^ (w - k) := by rw [← pow_add]; congr 1; omega
  have key : ∀ y, y % 2 ^ k < A → (X + y) / 2 ^ k = X / 2 ^ k + y / 2 ^ k := by
    intro y hy
    apply Nat.add_div_eq_of_add_mod_lt
    have hm : A ∣ X % 2 ^ k := (Nat.dvd_mod_iff hA).2 hX
    obtain ⟨q, hq⟩ := hA
    obtain ⟨r, hr⟩ := hm
    have hlt : X % 2 ^ k < 2 ^ k := Nat.mod_lt _ hp
    rw [hr] at hlt ⊢
    have : r < q := by
      by_contra hcon
      have := Nat.mul_le_mul_left A (Nat.le_of_not_lt hcon)
      omega
    have h1 : A * (r + 1) ≤ A * q := Nat.mul_le_mul_left A this
    rw [Nat.mul_add] at h1
    omega
  rw [e, Nat.mod_mul_right_div_self, Nat.mod_mul_right_div_self, key c hc, key d hd, hq]

theorem ashr_congr {w x y k : Nat} (hk : k < w) (h : x / 2 ^ k = y / 2 ^ k) :
    Op.eval w .ashr x k = Op.eval w .ashr y k := by
  have e : (2 : Nat) ^ (w - 1) = 2 ^ (w - 1 - k) * 2 ^ k := by rw [← pow_add]; congr 1; omega
  have t : ∀ z, 2 ^ (w - 1) ≤ z ↔ 2 ^ (w - 1 - k) ≤ z / 2 ^ k := by
    intro z; rw [e]; exact (Nat.le_div_iff_mul_le (Nat.two_pow_pos k)).symm
  simp only [Op.eval, t, h]

/-! ## Values stay within their width -/

theorem step_bound {g : Graph} (ht : Typed g) {h : History} {n : Nat} {v : Val}
    (ih : ∀ m u, (m, u) ∈ h → ∀ l < g.lanes, u l < 2 ^ g.ty m) (hs : Step g h n v) :
    ∀ l < g.lanes, v l < 2 ^ g.ty n := by
  intro l hl
  have hp : 0 < 2 ^ g.ty n := Nat.two_pow_pos _
  cases hs with
  | const c hn => exact Nat.mod_lt _ hp
  | bin op a b x y hn ha hb hd =>
    obtain ⟨ea, eb⟩ := ht.bin _ _ _ _ hn
    have hx := ih _ _ (latest_mem ha) l hl
    have hy := ih _ _ (latest_mem hb) l hl
    rw [ea] at hx; rw [eb] at hy
    have hdl := hd l hl
    cases op <;> simp only [Op.eval] <;> try exact Nat.mod_lt _ hp
    · exact lt_of_le_of_lt (Nat.div_le_self _ _) hx
    · simp only [Op.defined, decide_eq_true_eq] at hdl
      have h1 : x l / 2 ^ y l < 2 ^ (g.ty n - y l) := by
        rw [Nat.div_lt_iff_lt_mul (Nat.two_pow_pos _), ← pow_add]
        rwa [Nat.sub_add_cancel (le_of_lt hdl)]
      have h2 : 2 ^ (g.ty n - y l) ≤ 2 ^ g.ty n := Nat.pow_le_pow_right (by omega) (by omega)
      split
      · omega
      · omega
    · exact lt_of_le_of_lt Nat.and_le_left hx
  | cast k a x hn ha =>
    have hx := ih _ _ (latest_mem ha) l hl
    cases k with
    | trunc => exact Nat.mod_lt _ hp
    | zext =>
      exact lt_of_lt_of_le hx (Nat.pow_le_pow_right (by omega) (ht.zext _ _ hn))
    | sext =>
      have := Nat.pow_le_pow_right (n := 2) (by omega) (ht.sext _ _ hn)
      simp only [Cast.eval]
      split <;> omega
  | phi ins m x hn hm ha =>
    rw [← ht.phi _ _ hn m hm]
    exact ih _ _ (latest_mem ha) l hl
  | splat s x hn ha =>
    rw [← ht.splat _ _ hn]
    exact ih _ _ (latest_mem ha) 0 ht.lanes
  | other u hn hv => exact hv l
  | sconst c hn => exact Nat.mod_lt _ hp
  | sadd a b x y hn ha hb => exact Nat.mod_lt _ hp
  | sphi ins m x hn hm ha =>
    rw [← ht.sphi _ _ hn m hm]
    exact ih _ _ (latest_mem ha) l hl
  | sother u hn hv => exact hv

theorem run_bound {g : Graph} (ht : Typed g) {h : History} (hr : Run g h) :
    ∀ m u, (m, u) ∈ h → ∀ l < g.lanes, u l < 2 ^ g.ty m := by
  induction hr with
  | nil => intro m u hm; cases hm
  | cons h n v _ hs ih =>
    intro m u hm
    rcases List.mem_cons.1 hm with e | hm
    · cases e; exact step_bound ht ih hs
    · exact ih m u hm

/-- A constant vector has its elements in every execution. -/
theorem run_const {g : Graph} {h : History} (hr : Run g h) {b : Nat} {c : Nat → Nat}
    (hb : g.node b = .const c) {y : Val} (hm : (b, y) ∈ h) : ∀ l, y l = g.lane b c l := by
  induction hr with
  | nil => cases hm
  | cons h n v _ hs ih =>
    rcases List.mem_cons.1 hm with e | hm
    · simp only [Prod.mk.injEq] at e
      obtain ⟨rfl, rfl⟩ := e
      cases hs <;> simp_all [Graph.lane]
    · exact ih hm

/-! ## Exact multiples -/

/-- `lIsExactMultiple` is right, phi nodes included. -/
def ExactOk (g : Graph) (h : History) : Prop :=
  ∀ f seen B n, check g f (.exact seen B n) = some true → B ∣ 2 ^ g.ty n →
    (∀ q ∈ seen, ∀ v, (q, v) ∈ h → B ∣ v 0) → ∀ v, (n, v) ∈ h → B ∣ v 0

theorem exact_step {g : Graph} (ht : Typed g) {h : History} (ih : ExactOk g h) {n : Nat} {v : Val}
    (hs : Step g h n v) {f : Nat} {seen : List Nat} {B : Nat}
    (hc : check g f (.exact seen B n) = some true) (hB : B ∣ 2 ^ g.ty n)
    (hseen : ∀ q ∈ seen, ∀ u, (q, u) ∈ (n, v) :: h → B ∣ u 0) : B ∣ v 0 := by
  have hseen' : ∀ q ∈ seen, ∀ u, (q, u) ∈ h → B ∣ u 0 :=
    fun q hq u hu => hseen q hq u (List.mem_cons_of_mem _ hu)
  have hc0 := hc
  cases f with
  | zero => simp [check] at hc
  | succ f =>
    have phiCase : ∀ ins m x, g.ty m = g.ty n → m ∈ ins → (m, x) ∈ h →
        (if n ∈ seen then some true
          else allM (fun m => check g f (.exact (n :: seen) B m)) ins) = some true →
        (x = v) → B ∣ v 0 := by
      intro ins m x em hm hx hcc e
      subst e
      split at hcc
      · rename_i hin; exact hseen n hin _ List.mem_cons_self
      · refine ih f (n :: seen) B m (allM_true hcc m hm) (em ▸ hB) ?_ x hx
        intro q hq u hu
        rcases List.mem_cons.1 hq with rfl | hq
        · exact ih (f + 1) seen B q hc0 hB hseen' u hu
        · exact hseen' q hq u hu
    cases hs with
    | const c hn =>
      simp only [check, hn] at hc
      split at hc <;> simp at hc
    | bin op a b x y hn ha hb hd =>
      simp only [check, hn] at hc
      split at hc
      · obtain ⟨ea, eb⟩ := ht.bin _ _ _ _ hn
        cases op <;> simp only [reduceCtorEq, Option.some.injEq] at hc
        obtain ⟨h1, h2⟩ := both_true hc
        have d1 := ih f seen B a h1 (ea ▸ hB) hseen' x (latest_mem ha)
        have d2 := ih f seen B b h2 (eb ▸ hB) hseen' y (latest_mem hb)
        simp only [Op.eval]
        exact (Nat.dvd_mod_iff hB).2 (Nat.dvd_add d1 d2)
      · simp at hc
    | cast k a x hn ha =>
      simp only [check, hn] at hc
      split at hc <;> simp at hc
    | phi ins m x hn hm ha =>
      simp only [check, hn] at hc
      split at hc
      · exact phiCase ins m v (ht.phi _ _ hn m hm) hm (latest_mem ha) hc rfl
      · simp at hc
    | splat s x hn ha =>
      simp only [check, hn] at hc
      split at hc
      · exact ih f seen B s hc ((ht.splat _ _ hn) ▸ hB) hseen' x (latest_mem ha)
      · simp at hc
    | other u hn hv =>
      simp only [check, hn] at hc
      split at hc <;> simp at hc
    | sconst c hn =>
      simp only [check, hn] at hc
      split at hc
      · simp at hc
      · simp only [Option.some.injEq, beq_iff_eq] at hc
        exact Nat.dvd_of_mod_eq_zero hc
    | sadd a b x y hn ha hb =>
      simp only [check, hn] at hc
      obtain ⟨h1, h2⟩ := both_true hc
      obtain ⟨ea, eb⟩ := ht.sadd _ _ _ hn
      have d1 := ih f seen B a h1 (ea ▸ hB) hseen' x (latest_mem ha)
      have d2 := ih f seen B b h2 (eb ▸ hB) hseen' y (latest_mem hb)
      exact (Nat.dvd_mod_iff hB).2 (Nat.dvd_add d1 d2)
    | sphi ins m x hn hm ha =>
      simp only [check, hn] at hc
      exact phiCase ins m v (ht.sphi _ _ hn m hm) hm (latest_mem ha) hc rfl
    | sother u hn hv => simp [check, hn] at hc

/-! ## Equal elements and equal quotients -/

/-- `lVectorValuesAllEqual` is right, given what is assumed of the phi nodes
under examination. -/
def EqOk (g : Graph) (h : History) : Prop :=
  ∀ f seen n, check g f (.allEq seen n) = some true →
    (∀ q ∈ seen, ∀ v, (q, v) ∈ h → AllEqual g.lanes v) → ∀ v, (n, v) ∈ h → AllEqual g.lanes v

/-- `lAllDivBaseEqual` is right for tame definitions. -/
def DivOk (g : Graph) (D : Nat → Prop) (h : History) : Prop :=
  ∀ f k n, D n → k ≤ g.ty n → check g f (.allDiv [] (2 ^ k) n) = some true →
    ∀ v, (n, v) ∈ h → ∀ l < g.lanes, v l / 2 ^ k = v 0 / 2 ^ k

theorem eq_step {g : Graph} {D : Nat → Prop} (ht : Typed g) (hS : ShiftsTame g D) {h : History}
    (hr : Run g h) (ih : EqOk g h) (ihd : DivOk g D h) {n : Nat} {v : Val} (hs : Step g h n v)
    {f : Nat} {seen : List Nat} (hc : check g f (.allEq seen n) = some true)
    (hseen : ∀ q ∈ seen, ∀ u, (q, u) ∈ (n, v) :: h → AllEqual g.lanes u) :
    AllEqual g.lanes v := by
  have hseen' : ∀ q ∈ seen, ∀ u, (q, u) ∈ h → AllEqual g.lanes u :=
    fun q hq u hu => hseen q hq u (List.mem_cons_of_mem _ hu)
  have hc0 := hc
  cases f with
  | zero => simp [check] at hc
  | succ f =>
    by_cases h1 : g.lanes = 1
    · intro l hl; rw [h1] at hl; have : l = 0 := by omega
      rw [this]
    simp only [check, h1, if_false] at hc
    cases hs with
    | const c hn =>
      simp only [hn, Option.some.injEq] at hc
      exact constEq_true hc
    | bin op a b x y hn ha hb hd =>
      simp only [hn] at hc
      obtain ⟨ea, eb⟩ := ht.bin _ _ _ _ hn
      rcases orElse_true hc with hc | hc
      · obtain ⟨h1, h2⟩ := andThen_true hc
        have d1 := ih f seen a h1 hseen' x (latest_mem ha)
        have d2 := ih f seen b h2 hseen' y (latest_mem hb)
        intro l hl
        simp only
        rw [d1 l hl, d2 l hl]
      · have shiftCase : ∀ c, g.node b = .const c → D a →
            (if constEq g b c = true then
              if g.lane b c 0 < 31 then check g f (.allDiv [] (2 ^ g.lane b c 0) a) else none
            else some false) = some true →
            (∀ l < g.lanes, y l < g.ty n) →
            (∀ l < g.lanes, y l = y 0) ∧ ∀ l < g.lanes, x l / 2 ^ y l = x 0 / 2 ^ y 0 := by
          intro c hb' hDa hcc hlt
          split at hcc
          · rename_i hce
            split at hcc
            · -- the shift amounts of this execution are the constants
              have hy := run_const hr hb' (latest_mem hb)
              have hy0 : ∀ l < g.lanes, y l = y 0 := by
                intro l hl; rw [hy, hy, constEq_true hce l hl]
              refine ⟨hy0, ?_⟩
              intro l hl
              rw [hy0 l hl]
              rw [← hy 0] at hcc
              refine ihd f (y 0) a hDa ?_ hcc x (latest_mem ha) l hl
              rw [ea]
              exact le_of_lt (hlt 0 ht.lanes)
            · cases hcc
          · simp at hcc
        split at hc
        · obtain ⟨hy0, hx⟩ := shiftCase _ ‹g.node b = _› (hS n a b (Or.inl hn)) hc
            (fun l hl => by simpa [Op.defined] using hd l hl)
          intro l hl
          exact hx l hl
        · obtain ⟨hy0, hx⟩ := shiftCase _ ‹g.node b = _› (hS n a b (Or.inr hn)) hc
            (fun l hl => by simpa [Op.defined] using hd l hl)
          intro l hl
          have hk : y 0 < g.ty n := by simpa [Op.defined] using hd 0 ht.lanes
          have := hx l hl
          simp only
          rw [hy0 l hl] at this ⊢
          exact ashr_congr hk this
        · simp at hc
    | cast k a x hn ha =>
      simp only [hn] at hc
      have d1 := ih f seen a hc hseen' x (latest_mem ha)
      intro l hl
      simp only
      rw [d1 l hl]
    | phi ins m x hn hm ha =>
      simp only [hn] at hc
      split at hc
      · rename_i hin; exact hseen n hin _ List.mem_cons_self
      · refine ih f (n :: seen) m (allM_true hc m hm) ?_ v (latest_mem ha)
        intro q hq u hu
        rcases List.mem_cons.1 hq with rfl | hq
        · exact ih (f + 1) seen q hc0 hseen' u hu
        · exact hseen' q hq u hu
    | splat s x hn ha => intro l _; rfl
    | other u hn hv => simp [hn] at hc
    | sconst c hn => intro l _; rfl
    | sadd a b x y hn ha hb => intro l _; rfl
    | sphi ins m x hn hm ha => simp [hn] at hc
    | sother u hn hv => intro l _; rfl

theorem div_step {g : Graph} {D : Nat → Prop} (ht : Typed g) (hT : Tame g D)
    {h : History} (hr : Run g h) (ihe : EqOk g h) (ihx : ExactOk g h) {n : Nat} {v : Val}
    (hs : Step g h n v) (hnew : ∀ f, check g f (.allEq [] n) = some true → AllEqual g.lanes v)
    {f k : Nat} (hD : D n) (hk : k ≤ g.ty n)
    (hc : check g f (.allDiv [] (2 ^ k) n) = some true) :
    ∀ l < g.lanes, v l / 2 ^ k = v 0 / 2 ^ k := by
  cases f with
  | zero => simp [check] at hc
  | succ f =>
    simp only [check] at hc
    rcases orElse_true hc with hc | hc
    · intro l hl; rw [hnew f hc l hl]
    · cases hs with
      | const c hn =>
        simp only [hn, Option.some.injEq] at hc
        exact hT.quotient n c k hD hn hc
      | bin op a b x y hn ha hb hd =>
        simp only [hn] at hc
        split at hc
        · cases ‹Node.bin op a b = _›
        · cases ‹Node.bin op a b = _›
        · rename_i e
          cases e
          obtain ⟨ea, eb⟩ := ht.bin _ _ _ _ hn
          split at hc
          · rename_i c hb'
            split at hc
            · rename_i hsd
              obtain ⟨h1, h2⟩ := andThen_true hc
              obtain ⟨hdv, hlt⟩ := hT.align n a b c k hD hn hb' hsd
              have hq := hT.quotient b c k (hT.bin _ _ _ _ hD hn).2 hb' hsd
              have hx := ihe f [] a h1 (by simp) x (latest_mem ha)
              have hy := run_const hr hb' (latest_mem hb)
              have hX : alignment g b c (2 ^ k) ∣ x 0 :=
                ihx f [] _ a h2 (dvd_trans hdv (ea ▸ pow_dvd_pow 2 hk)) (by simp) x (latest_mem ha)
              intro l hl
              simp only [Op.eval]
              rw [hx l hl, hy l, hy 0]
              exact div_add hk hdv hX (hq l hl) (hlt l hl) (hlt 0 ht.lanes)
            · simp at hc
          · simp at hc
        · simp at hc
      | cast k a x hn ha => simp [hn] at hc
      | phi ins m x hn hm ha => exact absurd hn (hT.noPhi n ins hD)
      | splat s x hn ha => intro l _; rfl
      | other u hn hv => simp [hn] at hc
      | sconst c hn => intro l _; rfl
      | sadd a b x y hn ha hb => intro l _; rfl
      | sphi ins m x hn hm ha => simp [hn] at hc
      | sother u hn hv => intro l _; rfl

theorem run_sound {g : Graph} {D : Nat → Prop} (ht : Typed g) (hT : Tame g D)
    (hS : ShiftsTame g D) {h : History} (hr : Run g h) :
    EqOk g h ∧ DivOk g D h ∧ ExactOk g h := by
  induction hr with
  | nil =>
    refine ⟨?_, ?_, ?_⟩
    · intro f seen n _ _ v hv; cases hv
    · intro f k n _ _ _ v hv; cases hv
    · intro f seen B n _ _ _ v hv; cases hv
  | cons h n v hr hs ih =>
    obtain ⟨ihe, ihd, ihx⟩ := ih
    refine ⟨?_, ?_, ?_⟩
    · intro f seen m hc hseen u hu
      rcases List.mem_cons.1 hu with e | hu
      · cases e; exact eq_step ht hS hr ihe ihd hs hc hseen
      · exact ihe f seen m hc (fun q hq w hw => hseen q hq w (List.mem_cons_of_mem _ hw)) u hu
    · intro f k m hD hk hc u hu
      rcases List.mem_cons.1 hu with e | hu
      · cases e
        exact div_step ht hT hr ihe ihx hs
          (fun f hf => eq_step ht hS hr ihe ihd hs hf (by simp)) hD hk hc
      · exact ihd f k m hD hk hc u hu
    · intro f seen B m hc hB hseen u hu
      rcases List.mem_cons.1 hu with e | hu
      · cases e; exact exact_step ht ihx hs hc hB hseen
      · exact ihx f seen B m hc hB (fun q hq w hw => hseen q hq w (List.mem_cons_of_mem _ hw)) u hu

/-! ## Linear vectors -/

theorem modEq_mod (w x : Nat) : ((x % 2 ^ w : Nat) : Int) ≡ x [ZMOD 2 ^ w] := by
  push_cast
  exact Int.mod_modEq _ _

theorem sext_modEq (w x : Nat) : sextValue w x ≡ x [ZMOD 2 ^ w] := by
  unfold sextValue
  split
  · rfl
  · exact (Int.modEq_sub_fac_one w x)
where
  Int.modEq_sub_fac_one (w x : Nat) : (x : Int) - 2 ^ w ≡ x [ZMOD 2 ^ w] := by
    rw [Int.modEq_iff_dvd]
    exact ⟨1, by ring⟩

theorem two_pow_pred {w : Nat} (hw : 0 < w) : (2 : Int) ^ w = 2 * 2 ^ (w - 1) := by
  obtain ⟨d, rfl⟩ := Nat.exists_eq_add_of_le' hw
  rw [Nat.add_sub_cancel, pow_succ]
  ring

theorem sext_range {w x : Nat} (hw : 0 < w) (hx : x < 2 ^ w) :
    -2 ^ (w - 1) ≤ sextValue w x ∧ sextValue w x < 2 ^ (w - 1) := by
  have e := two_pow_pred hw
  have hx' : (x : Int) < 2 ^ w := by exact_mod_cast hx
  have hpos : (0 : Int) < 2 ^ (w - 1) := by positivity
  unfold sextValue
  split
  · rename_i h
    have h' : (x : Int) < 2 ^ (w - 1) := by exact_mod_cast h
    omega
  · rename_i h
    have h' : (2 : Int) ^ (w - 1) ≤ x := by exact_mod_cast Nat.le_of_not_lt h
    omega

theorem sext_unique {w : Nat} {p q : Int} (hw : 0 < w)
    (hp : -2 ^ (w - 1) ≤ p ∧ p < 2 ^ (w - 1)) (hq : -2 ^ (w - 1) ≤ q ∧ q < 2 ^ (w - 1))
    (h : p ≡ q [ZMOD 2 ^ w]) : p = q := by
  have e := two_pow_pred hw
  have h1 := h.add_right (2 ^ (w - 1))
  unfold Int.ModEq at h1
  rw [Int.emod_eq_of_lt (by omega) (by omega), Int.emod_eq_of_lt (by omega) (by omega)] at h1
  omega

theorem sext_cast {v w x : Nat} (_hv : 0 < v) (hvw : v ≤ w) (_hx : x < 2 ^ v) :
    ((Cast.eval v w .sext x : Nat) : Int) ≡ sextValue v x [ZMOD 2 ^ w] := by
  have hle : (2 : Nat) ^ v ≤ 2 ^ w := Nat.pow_le_pow_right (by omega) hvw
  unfold sextValue
  simp only [Cast.eval]
  split
  · rfl
  · rw [Nat.cast_sub (by omega), Int.modEq_iff_dvd]
    exact ⟨-1, by push_cast; ring⟩

theorem tdiv_mul_of_tmod_abs {s m : Int} (h : Int.tmod |s| m = 0) : m * Int.tdiv s m = s := by
  have hd : m ∣ |s| := Int.dvd_of_tmod_eq_zero h
  rw [Int.abs_eq_natAbs, Int.dvd_natAbs] at hd
  exact Int.mul_tdiv_cancel' hd

theorem abs_tdiv_le (s m : Int) : |Int.tdiv s m| ≤ |s| := by
  rw [Int.abs_eq_natAbs, Int.abs_eq_natAbs, Int.natAbs_tdiv]
  exact_mod_cast Nat.div_le_self _ _

theorem pow_two_of_and {n : Nat} (hn : 0 < n) (h : n &&& (n - 1) = 0) : ∃ k, n = 2 ^ k := by
  refine ⟨Nat.log2 n, ?_⟩
  have h1 : 2 ^ Nat.log2 n ≤ n := Nat.log2_self_le (by omega)
  have h2 : n < 2 ^ (Nat.log2 n + 1) := Nat.lt_log2_self
  by_contra hne
  have t1 : n.testBit (Nat.log2 n) = true :=
    Nat.testBit_of_two_pow_le_and_two_pow_add_one_gt h1 h2
  have t2 : (n - 1).testBit (Nat.log2 n) = true :=
    Nat.testBit_of_two_pow_le_and_two_pow_add_one_gt (by omega) (by omega)
  have t3 : (n &&& (n - 1)).testBit (Nat.log2 n) = true := by
    rw [Nat.testBit_and, t1, t2]; rfl
  rw [h] at t3
  simp at t3

/-- `lVectorIsLinear` is right for tame definitions. -/
def LinOk (g : Graph) (D : Nat → Prop) (h : History) : Prop :=
  ∀ f n (s : Int), D n → |s| ≤ 8 → check g f (.linear [] s n) = some true →
    ∀ v, (n, v) ∈ h → IsLinear g.lanes (g.ty n) s v

theorem mul_linear {N w : Nat} {s m : Int} {x y : Val} {v : Val}
    (hv : ∀ l < N, (v l : Int) ≡ x l * y l [ZMOD 2 ^ w]) (hN : 0 < N)
    (hx : ∀ l < N, (x l : Int) ≡ m [ZMOD 2 ^ w]) (hy : IsLinear N w (Int.tdiv s m) y)
    (hm : m * Int.tdiv s m = s) : IsLinear N w s v := by
  intro l hl
  have h1 := (hv l hl).trans ((hx l hl).mul (hy l hl))
  have h0 := (hv 0 hN).trans ((hx 0 hN).mul (Int.ModEq.refl (y 0 : Int)))
  have h2 : m * ((y 0 : Int) + l * Int.tdiv s m) = m * y 0 + l * s := by
    rw [Int.mul_add]
    conv_rhs => rw [← hm]
    ring
  rw [h2] at h1
  exact h1.trans (Int.ModEq.add_right _ h0.symm)

theorem lin_step {g : Graph} {D : Nat → Prop} (ht : Typed g) (hT : Tame g D)
    {h : History} (hr : Run g h) (hW : NoWrap g h) (ihe : EqOk g h) (ihd : DivOk g D h)
    (ihl : LinOk g D h) {n : Nat} {v : Val} (hs : Step g h n v) {f : Nat} {s : Int} (hD : D n)
    (h8 : |s| ≤ 8) (hc : check g f (.linear [] s n) = some true) :
    IsLinear g.lanes (g.ty n) s v := by
  cases f with
  | zero => simp [check] at hc
  | succ f =>
    cases hs with
    | const c hn =>
      simp only [check, hn, Option.some.injEq] at hc
      have hst := forall'_true hc
      have key : ∀ l < g.lanes, sextValue (g.ty n) (g.lane n c l) =
          sextValue (g.ty n) (g.lane n c 0) + l * s := by
        intro l
        induction l with
        | zero => intro _; simp
        | succ l ih =>
          intro hl
          have h1 := hst l (by omega)
          simp only [beq_iff_eq] at h1
          rw [← h1, ih (by omega)]
          push_cast
          ring
      intro l hl
      have e1 := sext_modEq (g.ty n) (g.lane n c l)
      have e0 := sext_modEq (g.ty n) (g.lane n c 0)
      rw [key l hl] at e1
      exact e1.symm.trans (e0.add_right _)
    | bin op a b x y hn ha hb hd =>
      obtain ⟨ea, eb⟩ := ht.bin _ _ _ _ hn
      obtain ⟨Da, Db⟩ := hT.bin _ _ _ _ hD hn
      have ma := latest_mem ha
      have mb := latest_mem hb
      have hN := ht.lanes
      cases op with
      | add =>
        simp only [check, hn] at hc
        have hv : ∀ l, ((Op.eval (g.ty n) .add (x l) (y l) : Nat) : Int) ≡
            (x l : Int) + y l [ZMOD 2 ^ g.ty n] := by
          intro l
          have := modEq_mod (g.ty n) (x l + y l)
          push_cast at this
          simpa [Op.eval] using this
        rcases orElse_true hc with hc | hc
        · obtain ⟨h1, h2⟩ := both_true hc
          have hx := ihl f a s Da h8 h1 x ma
          have hy := ihe f [] b h2 (by simp) y mb
          rw [ea] at hx
          intro l hl
          have h3 := hx l hl
          refine (hv l).trans ?_
          rw [hy l hl]
          refine (h3.add_right _).trans ?_
          have h4 := ((hv 0).symm).add_right ((l : Int) * s)
          have e : (x 0 : Int) + l * s + y 0 = x 0 + y 0 + l * s := by ring
          rw [e]
          exact h4
        · obtain ⟨h1, h2⟩ := both_true hc
          have hy := ihl f b s Db h8 h2 y mb
          have hx := ihe f [] a h1 (by simp) x ma
          rw [eb] at hy
          intro l hl
          have h3 := hy l hl
          refine (hv l).trans ?_
          rw [hx l hl]
          refine (h3.add_left _).trans ?_
          have h4 := ((hv 0).symm).add_right ((l : Int) * s)
          rw [← add_assoc]
          exact h4
      | sub =>
        simp only [check, hn] at hc
        have hv : ∀ l < g.lanes, ((Op.eval (g.ty n) .sub (x l) (y l) : Nat) : Int) ≡
            (x l : Int) - y l [ZMOD 2 ^ g.ty n] := by
          intro l hl
          have hlt : y l < 2 ^ g.ty n := eb ▸ run_bound ht hr _ _ mb l hl
          have := modEq_mod (g.ty n) (x l + (2 ^ g.ty n - y l))
          rw [Nat.cast_add, Nat.cast_sub (le_of_lt hlt)] at this
          refine Int.ModEq.trans this ?_
          rw [Int.modEq_iff_dvd]
          exact ⟨-1, by push_cast; ring⟩
        rcases orElse_true hc with hc | hc
        · obtain ⟨h1, h2⟩ := andThen_true hc
          have hx := ihl f a s Da h8 h1 x ma
          have hy := ihe f [] b h2 (by simp) y mb
          rw [ea] at hx
          intro l hl
          have h3 := hx l hl
          refine (hv l hl).trans ?_
          rw [hy l hl]
          refine (h3.sub_right _).trans ?_
          have h4 := ((hv 0 hN).symm).add_right ((l : Int) * s)
          have e : (x 0 : Int) + l * s - y 0 = x 0 - y 0 + l * s := by ring
          rw [e]
          exact h4
        · obtain ⟨h1, h2⟩ := andThen_true hc
          have hy := ihl f b (-s) Db (by rwa [abs_neg]) h2 y mb
          have hx := ihe f [] a h1 (by simp) x ma
          rw [eb] at hy
          intro l hl
          have h3 := hy l hl
          refine (hv l hl).trans ?_
          rw [hx l hl]
          refine (h3.sub_left _).trans ?_
          have h4 := ((hv 0 hN).symm).add_right ((l : Int) * s)
          have e : (x 0 : Int) - (y 0 + l * -s) = x 0 - y 0 + l * s := by ring
          rw [e]
          exact h4
      | mul =>
        simp only [check, hn] at hc
        have hv : ∀ l, ((Op.eval (g.ty n) .mul (x l) (y l) : Nat) : Int) ≡
            (x l : Int) * y l [ZMOD 2 ^ g.ty n] := by
          intro l
          have := modEq_mod (g.ty n) (x l * y l)
          push_cast at this
          simpa [Op.eval] using this
        rcases orElse_true hc with hc | hc
        · split at hc
          · rename_i c hac
            split at hc
            · rename_i hcond
              simp only [Bool.and_eq_true, Bool.not_eq_true', Bool.or_eq_false_iff,
                bne_eq_false_iff_eq] at hcond
              have hm := tdiv_mul_of_tmod_abs hcond.2.2
              have hy := ihl f b _ Db (le_trans (abs_tdiv_le _ _) h8) hc y mb
              rw [eb] at hy
              refine mul_linear (fun l _ => hv l) hN ?_ hy hm
              intro l hl
              rw [run_const hr hac ma l, constEq_true hcond.1 l hl, ea]
              exact (sext_modEq _ _).symm
            · simp at hc
          · simp at hc
        · split at hc
          · rename_i c hbc
            split at hc
            · rename_i hcond
              simp only [Bool.and_eq_true, Bool.not_eq_true', Bool.or_eq_false_iff,
                bne_eq_false_iff_eq] at hcond
              have hm := tdiv_mul_of_tmod_abs hcond.2.2
              have hx := ihl f a _ Da (le_trans (abs_tdiv_le _ _) h8) hc x ma
              rw [ea] at hx
              refine mul_linear (x := y) (y := x) (fun l _ => ?_) hN ?_ hx hm
              · rw [mul_comm]; exact hv l
              intro l hl
              rw [run_const hr hbc mb l, constEq_true hcond.1 l hl, eb]
              exact (sext_modEq _ _).symm
            · simp at hc
          · simp at hc
      | shl =>
        simp only [check, hn] at hc
        split at hc
        · rename_i c hbc
          split at hc
          · rename_i hcond
            simp only [Bool.and_eq_true, Bool.not_eq_true', Bool.or_eq_false_iff,
              bne_eq_false_iff_eq, decide_eq_false_iff_not, not_lt] at hcond
            obtain ⟨⟨hce, hk0, _⟩, _, hmod⟩ := hcond
            have hyl : ∀ l < g.lanes, y l = g.lane b c 0 := by
              intro l hl
              rw [run_const hr hbc mb l, constEq_true hce l hl]
            have hkk : (sextValue (g.ty b) (g.lane b c 0)).toNat = g.lane b c 0 := by
              have hlt : g.lane b c 0 < 2 ^ g.ty b := Nat.mod_lt _ (Nat.two_pow_pos _)
              have hlt' : ((g.lane b c 0 : Nat) : Int) < 2 ^ g.ty b := by exact_mod_cast hlt
              unfold sextValue at hk0 ⊢
              split at hk0 <;> split <;> omega
            rw [hkk] at hmod hc
            have hm := tdiv_mul_of_tmod_abs hmod
            have hx := ihl f a _ Da (le_trans (abs_tdiv_le _ _) h8) hc x ma
            rw [ea] at hx
            refine mul_linear (x := fun _ => 2 ^ g.lane b c 0) (y := x) ?_ hN ?_ hx hm
            · intro l hl
              have := modEq_mod (g.ty n) (x l * 2 ^ y l)
              rw [hyl l hl] at this ⊢
              push_cast at this ⊢
              rw [mul_comm]
              simpa [Op.eval] using this
            · intro l _
              push_cast
              rfl
          · simp at hc
        · simp at hc
      | and =>
        simp only [check, hn] at hc
        split at hc
        · rename_i c hbc
          split at hc
          · rename_i hcond
            obtain ⟨h1, h2⟩ := andThen_true hc
            split at h2
            · rename_i hpos
              simp only [Bool.and_eq_true, Bool.or_eq_true, beq_iff_eq, decide_eq_true_eq] at hcond
              obtain ⟨hce, hp⟩ := hcond
              have hp2 : (int64Of (g.lane b c 0) + 1).toNat &&&
                  ((int64Of (g.lane b c 0) + 1).toNat - 1) = 0 := by
                rcases hp with hp | hp
                · omega
                · exact hp.2
              obtain ⟨k, hk⟩ := pow_two_of_and (by omega) hp2
              have hmask : g.lane b c 0 = 2 ^ k - 1 := by
                unfold int64Of at hk hpos
                split at hk
                · omega
                · rename_i hbig
                  exfalso
                  have hlt : g.lane b c 0 < 2 ^ g.ty b := Nat.mod_lt _ (Nat.two_pow_pos _)
                  have h64 : (2 : Nat) ^ g.ty b ≤ 2 ^ 64 :=
                    Nat.pow_le_pow_right (by omega) (ht.width b)
                  rw [if_neg hbig] at hpos
                  omega
              rw [hk] at h2
              have hkw : k ≤ g.ty a := by
                have hlt : g.lane b c 0 < 2 ^ g.ty b := Nat.mod_lt _ (Nat.two_pow_pos _)
                rw [hmask, eb, ← ea] at hlt
                have := Nat.two_pow_pos k
                exact (Nat.pow_le_pow_iff_right (by omega)).1 (by omega : 2 ^ k ≤ 2 ^ g.ty a)
              have hdiv := ihd f k a Da hkw h2 x ma
              have hx := ihl f a s Da h8 h1 x ma
              rw [ea] at hx
              have hv : ∀ l < g.lanes, ((Op.eval (g.ty n) .and (x l) (y l) : Nat) : Int) =
                  x l - 2 ^ k * (x 0 / 2 ^ k : Nat) := by
                intro l hl
                have e1 : Op.eval (g.ty n) .and (x l) (y l) = x l % 2 ^ k := by
                  simp only [Op.eval]
                  rw [run_const hr hbc mb l, constEq_true hce l hl, hmask,
                    Nat.and_two_pow_sub_one_eq_mod]
                have e2 := Nat.div_add_mod (x l) (2 ^ k)
                rw [hdiv l hl] at e2
                rw [e1]
                have e3 : ((2 ^ k * (x 0 / 2 ^ k) + x l % 2 ^ k : Nat) : Int) = x l := by
                  exact_mod_cast e2
                rw [Nat.cast_add, Nat.cast_mul, Nat.cast_pow] at e3
                have e4 : ((2 : Nat) : Int) = 2 := rfl
                rw [e4] at e3
                linarith
              intro l hl
              simp only
              rw [hv l hl, hv 0 hN]
              have h5 := (hx l hl).sub_right (2 ^ k * ((x 0 / 2 ^ k : Nat) : Int))
              have e : (x 0 : Int) + l * s - 2 ^ k * ((x 0 / 2 ^ k : Nat) : Int) =
                x 0 - 2 ^ k * ((x 0 / 2 ^ k : Nat) : Int) + l * s := by ring
              rw [e] at h5
              exact h5
            · simp at h2
          · simp at hc
        · simp at hc
      | lshr => simp [check, hn] at hc
      | ashr => simp [check, hn] at hc
      | other o => simp [check, hn] at hc
    | cast k a x hn ha =>
      simp only [check, hn] at hc
      have Da := hT.cast _ _ _ hD hn
      have hx := ihl f a s Da h8 hc x (latest_mem ha)
      cases k with
      | trunc =>
        have hw := ht.trunc _ _ hn
        intro l hl
        simp only [Cast.eval]
        have h1 := (hx l hl).of_dvd (pow_dvd_pow (2 : Int) hw)
        exact (modEq_mod _ _).trans (h1.trans (Int.ModEq.add_right _ (modEq_mod _ _).symm))
      | zext =>
        intro l hl
        have hb := hW.zext n a x hn (latest_mem ha) s h8 hx l hl
        have hlt : x l < 2 ^ g.ty a := run_bound ht hr _ _ (latest_mem ha) l hl
        have e : (x l : Int) = x 0 + l * s := by
          have h1 := hx l hl
          unfold Int.ModEq at h1
          rw [Int.emod_eq_of_lt (by omega) (by exact_mod_cast hlt),
            Int.emod_eq_of_lt hb.1 hb.2] at h1
          exact h1
        simp only [Cast.eval]
        rw [e]
      | sext =>
        intro l hl
        have hb := hW.sext n a x hn (latest_mem ha) s h8 hx l hl
        have hw := ht.sext _ _ hn
        have hlt : ∀ l < g.lanes, x l < 2 ^ g.ty a := run_bound ht hr _ _ (latest_mem ha)
        have hp := ht.pos a
        have e : sextValue (g.ty a) (x l) = sextValue (g.ty a) (x 0) + l * s := by
          apply sext_unique hp
          · exact sext_range hp (hlt l hl)
          · exact hb
          · exact (sext_modEq _ _).trans ((hx l hl).trans (Int.ModEq.add_right _ (sext_modEq _ _).symm))
        have h1 := sext_cast hp hw (hlt l hl)
        have h0 := sext_cast hp hw (hlt 0 ht.lanes)
        rw [e] at h1
        exact h1.trans (Int.ModEq.add_right _ h0.symm)
    | phi ins m x hn hm ha => exact absurd hn (hT.noPhi n ins hD)
    | splat s x hn ha => simp [check, hn] at hc
    | other u hn hv => simp [check, hn] at hc
    | sconst c hn => simp [check, hn] at hc
    | sadd a b x y hn ha hb => simp [check, hn] at hc
    | sphi ins m x hn hm ha => simp [check, hn] at hc
    | sother u hn hv => simp [check, hn] at hc

theorem run_linear {g : Graph} {D : Nat → Prop} (ht : Typed g) (hT : Tame g D)
    (hS : ShiftsTame g D) {h : History} (hr : Run g h) (hW : NoWrap g h) : LinOk g D h := by
  induction hr with
  | nil => intro f n s _ _ _ v hv; cases hv
  | cons h n v hr hs ih =>
    have hW' : NoWrap g h :=
      ⟨fun n a x hn hx => hW.zext n a x hn (List.mem_cons_of_mem _ hx),
        fun n a x hn hx => hW.sext n a x hn (List.mem_cons_of_mem _ hx)⟩
    obtain ⟨ihe, ihd, _⟩ := run_sound ht hT hS hr
    intro f m s hD h8 hc u hu
    rcases List.mem_cons.1 hu with e | hu
    · cases e; exact lin_step ht hT hr hW' ihe ihd (ih hW') hs hD h8 hc
    · exact ih hW' f m s hD h8 hc u hu

/-! ## The theorems -/

/-- When the analysis says that a vector is uniform, it is uniform in every
execution, provided that what is shifted right does not depend on vector phi
nodes and the constants added to it are well behaved. -/
theorem all_equal_sound_partial {g : Graph} {D : Nat → Prop} (ht : Typed g) (hT : Tame g D)
    (hS : ShiftsTame g D) {n : Nat} (hsay : saysAllEqual g n) {h : History} (hr : Run g h)
    {v : Val} (hv : latest h n = some v) : AllEqual g.lanes v := by
  obtain ⟨f, hf⟩ := hsay
  exact (run_sound ht hT hS hr).1 f [] n hf (by simp) v (latest_mem hv)

/-- When the analysis says that a vector is linear with some stride (of at most
the largest element size, 8), it is linear with that stride in every execution
in which no index wraps in a widening cast, provided that it does not depend on
vector phi nodes and the constants are well behaved. -/
theorem linear_sound_partial {g : Graph} {D : Nat → Prop} (ht : Typed g) (hT : Tame g D)
    (hS : ShiftsTame g D) {n : Nat} (hD : D n) {s : Int} (h8 : |s| ≤ 8) (hsay : saysLinear g n s)
    {h : History} (hr : Run g h) (hW : NoWrap g h) {v : Val} (hv : latest h n = some v) :
    IsLinear g.lanes (g.ty n) s v := by
  obtain ⟨f, hf⟩ := hsay
  exact run_linear ht hT hS hr hW f n s hD h8 hf v (latest_mem hv)

/-! ## Constants that are well behaved -/

theorem smear_bit (v i : Nat) : (smear v).testBit i = true ↔ ∃ j < 32, v.testBit (i + j) = true := by
  have spread : ∀ (u : Nat → Prop) (d : Nat) (t : Nat),
      ((∃ j < t, u (d + j)) ∨ ∃ j < t, u (t + d + j)) ↔ ∃ j < 2 * t, u (d + j) := by
    intro u d t
    constructor
    · rintro (⟨j, hj, h⟩ | ⟨j, hj, h⟩)
      · exact ⟨j, by omega, h⟩
      · exact ⟨t + j, by omega, by rwa [show d + (t + j) = t + d + j by omega]⟩
    · rintro ⟨j, hj, h⟩
      by_cases hjt : j < t
      · exact Or.inl ⟨j, hjt, h⟩
      · exact Or.inr ⟨j - t, by omega, by rwa [show t + d + (j - t) = d + j by omega]⟩
  have step : ∀ (a t : Nat), (∀ i, a.testBit i = true ↔ ∃ j < t, v.testBit (i + j) = true) →
      ∀ i, (a ||| a >>> t).testBit i = true ↔ ∃ j < 2 * t, v.testBit (i + j) = true := by
    intro a t h i
    rw [Nat.testBit_or, Bool.or_eq_true, Nat.testBit_shiftRight, h i, h (t + i)]
    exact spread (fun x => v.testBit x = true) i t
  have h1 : ∀ i, v.testBit i = true ↔ ∃ j < 1, v.testBit (i + j) = true := by
    intro i
    constructor
    · intro h; exact ⟨0, by omega, h⟩
    · rintro ⟨j, hj, h⟩
      have : j = 0 := by omega
      subst this
      exact h
  exact step _ 16 (step _ 8 (step _ 4 (step _ 2 (step _ 1 h1)))) i

theorem smear_eq {v : Nat} (hv : v ≠ 0) (h32 : v < 2 ^ 32) : smear v = 2 ^ (Nat.log2 v + 1) - 1 := by
  apply Nat.eq_of_testBit_eq
  intro i
  rw [Nat.testBit_two_pow_sub_one, Bool.eq_iff_iff, smear_bit, decide_eq_true_iff]
  have hlt : v < 2 ^ (Nat.log2 v + 1) := Nat.lt_log2_self
  have hle : 2 ^ Nat.log2 v ≤ v := Nat.log2_self_le hv
  have hl32 : Nat.log2 v < 32 := (Nat.log2_lt hv).2 h32
  constructor
  · rintro ⟨j, _, h⟩
    have := Nat.ge_two_pow_of_testBit h
    have h2 : 2 ^ (i + j) < 2 ^ (Nat.log2 v + 1) := lt_of_le_of_lt this hlt
    have := (Nat.pow_lt_pow_iff_right (by omega : 1 < 2)).1 h2
    omega
  · intro hi
    refine ⟨Nat.log2 v - i, by omega, ?_⟩
    rw [show i + (Nat.log2 v - i) = Nat.log2 v by omega]
    exact Nat.testBit_of_two_pow_le_and_two_pow_add_one_gt hle hlt

/-- `lRoundUpPow2` returns the next power of two. -/
theorem roundUpPow2_spec {m : Nat} (hm : 2 ≤ m) (h32 : m ≤ 2 ^ 32) :
    ∃ j, roundUpPow2 m = 2 ^ (j + 1) ∧ m ≤ 2 ^ (j + 1) ∧ 2 ^ j < m := by
  refine ⟨Nat.log2 (m - 1), ?_, ?_, ?_⟩
  · unfold roundUpPow2
    rw [if_neg (by omega), smear_eq (by omega) (by omega)]
    have := Nat.two_pow_pos (Nat.log2 (m - 1) + 1)
    omega
  · have := @Nat.lt_log2_self (m - 1)
    omega
  · have := Nat.log2_self_le (show m - 1 ≠ 0 by omega)
    omega

theorem maxMod_spec (N B : Nat) (hN : 0 < N) (d : Nat → Nat) (c : Nat → Int)
    (hc : ∀ l < N, c l = d l) :
    (∀ l < N, d l % B ≤ (maxMod N c B).toNat) ∧ ∃ l < N, (maxMod N c B).toNat = d l % B := by
  have hv : ∀ l < N, Int.tmod (c l) B = ((d l % B : Nat) : Int) := by
    intro l hl; rw [hc l hl]; rfl
  have key : ∀ (ls : List Nat) (m0 : Nat), (∀ l ∈ ls, l < N) →
      ∃ r : Nat, ls.foldl (fun m i => max m (Int.tmod (c i) B)) (m0 : Int) = r ∧ m0 ≤ r ∧
        (∀ l ∈ ls, d l % B ≤ r) ∧ (r = m0 ∨ ∃ l ∈ ls, r = d l % B) := by
    intro ls
    induction ls with
    | nil => intro m0 _; exact ⟨m0, rfl, le_refl _, by simp, Or.inl rfl⟩
    | cons a ls ih =>
      intro m0 hls
      have ha := hv a (hls a List.mem_cons_self)
      obtain ⟨r, h1, h2, h3, h4⟩ := ih (max m0 (d a % B))
        (fun l hl => hls l (List.mem_cons_of_mem _ hl))
      refine ⟨r, ?_, by omega, ?_, ?_⟩
      · rw [List.foldl_cons, ha, ← h1]
        push_cast
        rfl
      · intro l hl
        rcases List.mem_cons.1 hl with rfl | hl
        · omega
        · exact h3 l hl
      · rcases h4 with h4 | ⟨l, hl, h4⟩
        · rcases Nat.le_total m0 (d a % B) with hle | hle
          · right; exact ⟨a, List.mem_cons_self, by omega⟩
          · left; omega
        · right; exact ⟨l, List.mem_cons_of_mem _ hl, h4⟩
  obtain ⟨r, h1, h2, h3, h4⟩ := key (List.range N) (d 0 % B) (fun l hl => List.mem_range.1 hl)
  have e : maxMod N c B = r := by
    unfold maxMod
    rw [hv 0 hN]
    exact h1
  rw [e]
  refine ⟨fun l hl => h3 l (List.mem_range.2 hl), ?_⟩
  rcases h4 with h4 | ⟨l, hl, h4⟩
  · exact ⟨0, hN, by simpa using h4⟩
  · exact ⟨l, List.mem_range.1 hl, by simpa using h4⟩

/-- The lanes of a constant are the `q`-th block of gang-size consecutive numbers. -/
def IsBlock (g : Graph) (b : Nat) (c : Nat → Nat) (q : Nat) : Prop :=
  ∀ l < g.lanes, g.lane b c l = q * g.lanes + l

theorem block_sameDiv {g : Graph} {b q k : Nat} {c : Nat → Nat}
    (hb : IsBlock g b c q) (hsmall : (q + 1) * g.lanes ≤ 2 ^ 31)
    (hs : sameDiv g b c (2 ^ k) = true) :
    ∀ l < g.lanes, g.lane b c l / 2 ^ k = g.lane b c 0 / 2 ^ k := by
  intro l hl
  have hsm : q * g.lanes + g.lanes ≤ 2 ^ 31 := by rw [Nat.add_mul, Nat.one_mul] at hsmall; exact hsmall
  have i64 : ∀ l < g.lanes, int64Of (g.lane b c l) = ((g.lane b c l : Nat) : Int) := by
    intro l hl
    unfold int64Of
    rw [if_pos]
    rw [hb l hl]
    omega
  have h1 := forall'_true hs l hl
  simp only [beq_iff_eq] at h1
  rw [i64 l hl, i64 0 (by omega)] at h1
  have h2 : ((g.lane b c l / 2 ^ k : Nat) : Int) = ((g.lane b c 0 / 2 ^ k : Nat) : Int) := h1
  exact_mod_cast h2

/-- On targets at least 4 wide, adding `programIndex` plus a multiple of the gang
size is well behaved: the demanded alignment is enough. -/
theorem block_aligned {g : Graph} {b p q k : Nat} {c : Nat → Nat} (hN : g.lanes = 2 ^ (p + 2))
    (hb : IsBlock g b c q) (hsmall : (q + 1) * g.lanes ≤ 2 ^ 31) : AlignmentOk g b c k := by
  intro hs
  have hq := block_sameDiv hb hsmall hs
  have hNpos : 0 < g.lanes := by rw [hN]; exact Nat.two_pow_pos _
  have hN4 : 4 ≤ g.lanes := by
    rw [hN, pow_add]; have := Nat.two_pow_pos p; omega
  have hsm : q * g.lanes + g.lanes ≤ 2 ^ 31 := by rw [Nat.add_mul, Nat.one_mul] at hsmall; exact hsmall
  -- the divisor is at least the gang size
  have hk : p + 2 ≤ k := by
    by_contra hlt
    have e : g.lanes = 2 ^ k * 2 ^ (p + 2 - k) := by rw [hN, ← pow_add]; congr 1; omega
    have h2 : 2 * 2 ^ k ≤ g.lanes := by
      rw [e, Nat.mul_comm]
      exact Nat.mul_le_mul_left _ (by
        calc 2 = 2 ^ 1 := rfl
          _ ≤ _ := Nat.pow_le_pow_right (by omega) (by omega))
    have h3 := hq (2 ^ k) (by have := Nat.two_pow_pos k; omega)
    have hp := Nat.two_pow_pos k
    rw [hb _ (by omega), hb 0 hNpos, Nat.add_div_right _ hp] at h3
    simp at h3
  have hdvd : g.lanes ∣ 2 ^ k := by rw [hN]; exact pow_dvd_pow 2 hk
  obtain ⟨t, ht⟩ := hdvd
  have hp := Nat.two_pow_pos k
  -- the remainders
  have hrem : ∀ l < g.lanes, g.lane b c l % 2 ^ k = (q % t) * g.lanes + l := by
    intro l hl
    have htp : 0 < t := by
      rcases Nat.eq_zero_or_pos t with h0 | h0
      · rw [h0] at ht; omega
      · exact h0
    rw [hb l hl, ht]
    have hqt : q % t < t := Nat.mod_lt _ htp
    have e : q * g.lanes + l = (q % t) * g.lanes + l + g.lanes * t * (q / t) := by
      have := Nat.div_add_mod q t
      calc q * g.lanes + l = (t * (q / t) + q % t) * g.lanes + l := by rw [this]
        _ = _ := by ring
    rw [e, Nat.add_mul_mod_self_left, Nat.mod_eq_of_lt]
    have : (q % t + 1) * g.lanes ≤ t * g.lanes := Nat.mul_le_mul_right _ hqt
    rw [Nat.add_mul, Nat.one_mul] at this
    rw [Nat.mul_comm g.lanes t]
    omega
  have i64 : ∀ l < g.lanes, int64Of (g.lane b c l) = ((g.lane b c l : Nat) : Int) := by
    intro l hl
    unfold int64Of
    rw [if_pos]
    rw [hb l hl]
    omega
  obtain ⟨hge, l0, hl0, hat⟩ := maxMod_spec g.lanes (2 ^ k) hNpos (g.lane b c)
    (fun l => int64Of (g.lane b c l)) i64
  unfold alignment
  generalize hm : (maxMod g.lanes (fun l => int64Of (g.lane b c l)) (2 ^ k : Nat)).toNat = m at *
  have hmax := hge (g.lanes - 1) (by omega)
  rw [hrem _ (by omega)] at hmax
  rw [hrem l0 hl0] at hat
  have hm1 : m = (q % t) * g.lanes + (g.lanes - 1) := by omega
  have hqle : q % t * g.lanes ≤ q * g.lanes := Nat.mul_le_mul_right _ (Nat.mod_le _ _)
  obtain ⟨j, hj1, hj2, hj3⟩ := roundUpPow2_spec (m := m) (by omega) (by omega)
  rw [hj1]
  have hmB : m < 2 ^ k := by
    rw [hm1, ← hrem (g.lanes - 1) (by omega)]
    exact Nat.mod_lt _ hp
  have hjk : j + 1 ≤ k := by
    have : 2 ^ j < 2 ^ k := by omega
    exact (Nat.pow_lt_pow_iff_right (by omega : 1 < 2)).1 this
  refine ⟨pow_dvd_pow 2 hjk, ?_⟩
  have hne : m ≠ 2 ^ (j + 1) := by
    intro e
    have h2 : g.lanes = 2 * 2 ^ (p + 1) := by rw [hN, pow_succ]; ring
    have e2 : q % t * g.lanes = 2 * (q % t * 2 ^ (p + 1)) := by rw [h2]; ring
    rw [pow_succ] at e
    omega
  intro l hl
  have := hge l hl
  omega

/-! ## The conditions are met -/

/-- `foreach (i = 0 ... n) … a[i & 7] … b[i >> 3] …` on a 4-wide target with 64-bit
addressing: the first index (definition 8) is sign-extended (definition 9), the
second is definition 11. -/
def soa : Graph where
  lanes := 4
  node n := [.sconst 0, .sphi [0, 2], .sadd 1 3, .sconst 4, .splat 1, .const (fun l => l),
    .bin .add 4 5, .const fun _ => 7, .bin .and 6 7, .cast .sext 8, .const fun _ => 3,
    .bin .ashr 6 10].getD n .other
  ty n := if n = 9 then 64 else 32

theorem soa_lt {n : Nat} (h : soa.node n ≠ .other) : n < 12 := by
  by_contra hn
  apply h
  obtain ⟨d, rfl⟩ := Nat.exists_eq_add_of_le' (Nat.le_of_not_lt hn)
  rfl

theorem soa_typed : Typed soa where
  lanes := by decide
  pos n := by simp only [soa]; split <;> omega
  width n := by simp only [soa]; split <;> omega
  bin n op a b h := by
    have hn := soa_lt (n := n) (by rw [h]; simp)
    interval_cases n <;> simp [soa] at h ⊢ <;> omega
  trunc n a h := by
    have hn := soa_lt (n := n) (by rw [h]; simp)
    interval_cases n <;> simp [soa] at h
  zext n a h := by
    have hn := soa_lt (n := n) (by rw [h]; simp)
    interval_cases n <;> simp [soa] at h
  sext n a h := by
    have hn := soa_lt (n := n) (by rw [h]; simp)
    interval_cases n <;> simp [soa] at h ⊢
    split <;> omega
  phi n ins h := by
    have hn := soa_lt (n := n) (by rw [h]; simp)
    interval_cases n <;> simp [soa] at h
  splat n a h := by
    have hn := soa_lt (n := n) (by rw [h]; simp)
    interval_cases n <;> simp [soa] at h ⊢
    omega
  sadd n a b h := by
    have hn := soa_lt (n := n) (by rw [h]; simp)
    interval_cases n <;> simp [soa] at h ⊢
    omega
  sphi n ins h := by
    have hn := soa_lt (n := n) (by rw [h]; simp)
    interval_cases n <;> simp [soa] at h ⊢
    subst h
    simp

theorem soa_block : IsBlock soa 5 (fun l => l) 0 := by
  intro l hl
  have : l < 4 := hl
  have e : soa.lane 5 (fun l => l) l = l % 2 ^ 32 := rfl
  rw [e]
  omega

theorem soa_tame : Tame soa fun _ => True where
  bin _ _ _ _ _ _ := ⟨trivial, trivial⟩
  cast _ _ _ _ _ := trivial
  noPhi n ins _ h := by
    have hn := soa_lt (n := n) (by rw [h]; simp)
    interval_cases n <;> simp [soa] at h
  quotient n c k _ h := by
    have hn := soa_lt (n := n) (by rw [h]; simp)
    interval_cases n <;> simp [soa] at h
    · subst h; exact block_sameDiv soa_block (by decide)
    · subst h; intro _ l _; rfl
    · subst h; intro _ l _; rfl
  align n a b c k _ h hc := by
    have hn := soa_lt (n := n) (by rw [h]; simp)
    interval_cases n <;> simp [soa] at h
    obtain ⟨rfl, rfl⟩ := h
    simp [soa] at hc
    subst hc
    exact block_aligned (p := 0) rfl soa_block (by decide)

theorem soa_shifts : ShiftsTame soa fun _ => True := fun _ _ _ _ => trivial

/-- The second iteration, in which the counter is 4 and the index 4, 5, 6, 7. -/
def soaSteps : List (Nat × Nat) :=
  [(0, 0), (3, 0), (1, 0), (2, 0), (1, 2), (4, 0), (5, 0), (6, 0), (7, 0), (8, 0), (9, 0)]

example : lanesAfter soa soaSteps 9 = some [4, 5, 6, 7] := by decide +kernel

example : lanesAfter soa (soaSteps ++ [(10, 0), (11, 0)]) 11 = some [0, 0, 0, 0] := by
  decide +kernel

theorem soa_noWrap {h : History} (hr : Run soa h) : NoWrap soa h where
  zext n a x hn := by
    have := soa_lt (n := n) (by rw [hn]; simp)
    interval_cases n <;> simp [soa] at hn
  sext n a x hn hx s h8 _ l hl := by
    have := soa_lt (n := n) (by rw [hn]; simp)
    interval_cases n <;> simp [soa] at hn
    subst hn
    have h7 : ∀ l, x l ≤ 7 := by
      induction hr with
      | nil => cases hx
      | cons h m u hr' hs ih =>
        rcases List.mem_cons.1 hx with e | hx
        · cases e
          cases hs with
          | bin op a b x y hn ha hb hd =>
            simp only [soa, List.getD_cons_succ, List.getD_cons_zero, Node.bin.injEq] at hn
            obtain ⟨rfl, rfl, rfl⟩ := hn
            intro l
            have hy := run_const hr' (b := 7) rfl (latest_mem hb) l
            simp only [Op.eval]
            rw [hy]
            exact Nat.and_le_right
          | _ => simp_all [soa]
        · exact ih hx
    have hl4 : l < 4 := hl
    have h0 := h7 0
    have e : sextValue (soa.ty 8) (x 0) = x 0 := by
      unfold sextValue
      rw [if_pos]
      show x 0 < 2 ^ 31
      omega
    have e2 : soa.ty 8 - 1 = 31 := rfl
    rw [e, e2]
    obtain ⟨ha, hb⟩ := abs_le.1 h8
    constructor <;> interval_cases l <;> push_cast <;> omega

/-- The analysis recognises the index as linear, and it is, in every execution. -/
example (h : History) (v : Val) (hr : Run soa h) (hv : latest h 9 = some v) :
    IsLinear 4 64 1 v :=
  linear_sound_partial soa_typed soa_tame soa_shifts trivial (by decide) ⟨12, by decide +kernel⟩
    hr (soa_noWrap hr) hv

/-- The analysis recognises the shifted index as uniform, and it is, in every execution. -/
example (h : History) (v : Val) (hr : Run soa h) (hv : latest h 11 = some v) : AllEqual 4 v :=
  all_equal_sound_partial soa_typed soa_tame soa_shifts ⟨12, by decide +kernel⟩ hr hv

end Ispc.LinearSound
