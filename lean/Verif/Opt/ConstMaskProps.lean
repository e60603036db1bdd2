import Verif.Opt.ConstMask
import Mathlib.Tactic.IntervalCases

/-!
# C47: masks that are on at the beginning
-/

namespace Ispc.ConstMask

open Ispc.Vec Ispc.Gather
open Ispc.ForeachActive (Mask movmsk activeLanes)

variable {n : Nat} {α : Type}

/-! ## The mask -/

/-- No undefined element comes before an element that is on. -/
def Ordered (e : List (Option Bool)) : Prop := ∀ i j : Nat, i < j → e[i]? = some none → e[j]? ≠ some (some true)

theorem truePrefix_le (e : List (Option Bool)) : truePrefix e ≤ e.length := by
  induction e with
  | nil => simp [truePrefix]
  | cons b e ih => rcases b with _ | _ | _ <;> simp [truePrefix] <;> omega

theorem Ordered.tail {b : Option Bool} {e : List (Option Bool)} (h : Ordered (b :: e)) : Ordered e := by
  intro i j hij hi
  have := h (i + 1) (j + 1) (by omega)
  simpa using this (by simpa using hi)

theorem truePrefix_none {e : List (Option Bool)} (h : ∀ j : Nat, e[j]? ≠ some (some true)) : truePrefix e = 0 := by
  induction e with
  | nil => rfl
  | cons b e ih =>
    rcases b with _ | _ | _
    · rw [truePrefix]
      exact ih fun j => by simpa using h (j + 1)
    · rfl
    · exact absurd rfl (h 0)

/-- With such a mask the count is the length of a prefix that is on, and what follows is not on. -/
theorem truePrefix_spec {e : List (Option Bool)} (h : Ordered e) :
    (∀ i < truePrefix e, e[i]? = some (some true)) ∧ e[truePrefix e]? ≠ some (some true) := by
  induction e with
  | nil => simp [truePrefix]
  | cons b e ih =>
    rcases b with _ | _ | _
    · have h0 : ∀ j : Nat, e[j]? ≠ some (some true) := fun j => by
        have := h 0 (j + 1) (by omega) rfl
        simpa using this
      have : truePrefix (none :: e) = 0 := by rw [truePrefix]; exact truePrefix_none h0
      rw [this]
      simp
    · simp [truePrefix]
    · obtain ⟨h1, h2⟩ := ih h.tail
      rw [truePrefix]
      refine ⟨fun i hi => ?_, by simpa using h2⟩
      cases i with
      | zero => rfl
      | succ i => simpa using h1 i (by omega)

theorem checkMask_spec {e : List (Option Bool)} {p : Nat} (ho : Ordered e) (h : checkMask e = some p) :
    p ≤ e.length ∧ (∀ i < p, e[i]? = some (some true)) ∧ (∀ i, p ≤ i → e[i]? ≠ some (some true)) ∧
      isPow2 e.length = true ∧ (isPow2 p = true ∨ p = 3) := by
  simp only [checkMask, Bool.and_eq_true, Bool.or_eq_true, beq_iff_eq] at h
  split at h
  · rename_i hc
    obtain ⟨⟨h1, h2⟩, h3⟩ := hc
    cases h
    obtain ⟨s1, s2⟩ := truePrefix_spec ho
    refine ⟨truePrefix_le e, s1, fun i hi => ?_, h1, h3⟩
    rcases Nat.eq_or_lt_of_le hi with rfl | hi
    · exact s2
    · intro hx
      rw [List.all_eq_true] at h2
      have := h2 (some true) (List.mem_iff_getElem?.2 ⟨i - (truePrefix e + 1), by
        rw [List.getElem?_drop]
        rw [show truePrefix e + 1 + (i - (truePrefix e + 1)) = i by omega]
        exact hx⟩)
      simp at this
  · cases h

/-- The mask that is on in the first `p` elements. -/
def first {N : Nat} (p : Nat) : Mask N := fun l => decide (l.val < p)

theorem first_resolves {N : Nat} {e : Const N} {p : Nat} (ho : Ordered (List.ofFn e)) (h : checkMask (List.ofFn e) = some p) :
    Resolves e (first p) := by
  obtain ⟨-, h1, h2, -⟩ := checkMask_spec ho h
  intro l b hb
  have hg : (List.ofFn e)[l.val]? = some (some b) := by simp [hb]
  by_cases hl : l.val < p
  · have := h1 _ hl
    rw [hg] at this
    simp [first, hl]
    simpa using this.symm
  · have := h2 _ (Nat.le_of_not_lt hl)
    rw [hg] at this
    simp [first, hl]
    cases b
    · rfl
    · simp at this

/-! ## Stores -/

theorem filter_first {N p : Nat} (h : p ≤ N) :
    (List.finRange N).filter (first p) = (List.finRange p).map (Fin.castLE h) := by
  apply List.map_injective_iff.2 Fin.val_injective
  have h1 : ((List.finRange N).filter (first p)).map Fin.val = (List.range N).filter (fun i => decide (i < p)) := by
    rw [← List.map_coe_finRange_eq_range, List.filter_map]
    rfl
  have h2 : ((List.finRange p).map (Fin.castLE h)).map Fin.val = List.range p := by
    rw [← List.map_coe_finRange_eq_range, List.map_map]
    rfl
  rw [h1, h2]
  obtain ⟨k, rfl⟩ := Nat.exists_eq_add_of_le h
  rw [List.range_add, List.filter_append]
  rw [List.filter_eq_self.2 (by simp), List.filter_eq_nil_iff.2 (by simp), List.append_nil]

/-- **C47, partial.** A masked store whose mask is a constant with a beginning that is on is replaced by a store that
does the same, if no undefined element of the mask comes before one that is on.  See `store_prefix_wrong`. -/
theorem store_prefix_partial {N p : Nat} (known : Bool) (h64 : N ≤ 64) {e : Const N} (ho : Ordered (List.ofFn e))
    (h : checkMask (List.ofFn e) = some p) :
    ∃ hp : p ≤ N, ∃ r, Resolves e r ∧ ∀ (m : Mem) (ptr : Addr) (vals : Vec N (Elt n)),
      replaceStore hp m ptr vals = maskedStore known m ptr vals r := by
  have hp : p ≤ N := by simpa using (checkMask_spec ho h).1
  refine ⟨hp, _, first_resolves ho h, fun m ptr vals => ?_⟩
  rw [maskedStore_eq known m ptr vals _ h64, replaceStore, storeVec_eq, activeLanes, filter_first hp, List.foldlM_map]
  rfl

/-! ## Loads -/

theorem mapM_get (l : List α) (k : Nat) (h : k ≤ l.length) : (List.range k).mapM (fun i => l[i]?) = some (l.take k) := by
  induction k with
  | zero => simp
  | succ k ih =>
    rw [List.range_succ, List.mapM_append, ih (by omega)]
    have hk : l[k]? = some l[k] := List.getElem?_eq_getElem (by omega)
    rw [List.take_succ, hk]
    simp [hk]

theorem shuffle_range (a b : List α) (k : Nat) (hl : a.length = b.length) (h : k ≤ a.length + b.length) :
    shuffle a b (List.range k) = some ((a ++ b).take k) := by
  rw [shuffle, if_pos hl, mapM_get _ _ (by simpa using h)]

theorem isPow2_iff (n : Nat) : isPow2 n = true ↔ ∃ k, n = 2 ^ k := by
  rw [isPow2, Bool.and_eq_true, decide_eq_true_iff, beq_iff_eq]
  constructor
  · rintro ⟨h1, h2⟩
    exact (Nat.and_sub_one_eq_zero_iff_isPowerOfTwo (by omega)).1 h2
  · intro h
    have h0 : n ≠ 0 := by obtain ⟨k, rfl⟩ := h; exact Nat.two_pow_pos k |>.ne'
    exact ⟨by omega, (Nat.and_sub_one_eq_zero_iff_isPowerOfTwo h0).2 h⟩

theorem mergeLoop_spec (second : List α) (b : Nat) (hs : second.length = 2 ^ b) :
    ∀ (fuel a : Nat) (first : List α), first.length = 2 ^ a → a ≤ b → b - a ≤ fuel →
      mergeLoop fuel first second first.length = some (first ++ second.drop first.length) := by
  intro fuel
  induction fuel with
  | zero =>
    intro a first hf hab hfu
    have : a = b := by omega
    subst this
    simp [mergeLoop, hf, ← hs]
  | succ fuel ih =>
    intro a first hf hab hfu
    rw [mergeLoop]
    by_cases hlt : first.length < second.length
    · rw [if_pos hlt]
      have hab' : a < b := by
        rw [hf, hs] at hlt
        exact (Nat.pow_lt_pow_iff_right (by omega)).1 hlt
      have h2 : 2 * first.length ≤ second.length := by
        rw [hf, hs, ← Nat.pow_succ']
        exact Nat.pow_le_pow_right (by omega) hab'
      have hsub : shrink (secondPart second first.length) first.length =
          some ((second.drop first.length).take first.length) := by
        rw [shrink, secondPart, shuffle_range _ _ _ rfl (by simp; omega), List.take_append_of_le_length (by simp; omega)]
      have hlen : ((second.drop first.length).take first.length).length = first.length := by
        simp; omega
      simp only [hsub, Option.bind_eq_bind, Option.bind_some]
      rw [shuffle_range _ _ _ hlen.symm (by rw [hlen]; omega)]
      simp only [Option.bind_some]
      rw [List.take_of_length_le (by rw [List.length_append, hlen]; omega)]
      have hl : (first ++ (second.drop first.length).take first.length).length = first.length * 2 := by
        rw [List.length_append, hlen]; omega
      have := ih (a + 1) (first ++ (second.drop first.length).take first.length) (by rw [hl, hf, Nat.pow_succ]) hab'
        (by omega)
      rw [hl] at this
      rw [this, List.append_assoc]
      congr 2
      rw [Nat.mul_two, ← List.drop_drop, List.take_append_drop]
    · rw [if_neg hlt, List.drop_of_length_le (by omega)]
      simp

/-- Vectors of two lengths that are powers of two are merged as they should be. -/
theorem merge_pow (first second : List α) (a b : Nat) (hf : first.length = 2 ^ a) (hs : second.length = 2 ^ b) (hab : a ≤ b) :
    merge first second = some (first ++ second.drop first.length) := by
  have h3 : first.length ≠ 3 := by
    rw [hf]
    intro h
    rcases a with _ | _ | a
    · simp at h
    · simp at h
    · rw [Nat.pow_succ] at h; omega
  rw [merge, if_neg h3]
  exact mergeLoop_spec second b hs _ a first hf hab (by rw [hs]; exact (Nat.sub_le _ _).trans (Nat.lt_two_pow_self).le)

/-- With three elements the fourth element of the result is the first one of the pass-through value. -/
theorem merge_three (x y z : α) (s0 s1 s2 s3 : α) (rest : List α) (b : Nat) (hs : (s0 :: s1 :: s2 :: s3 :: rest).length = 2 ^ b) :
    merge [x, y, z] (s0 :: s1 :: s2 :: s3 :: rest) = some (x :: y :: z :: s0 :: rest) := by
  have hb : 2 ≤ b := by
    by_contra h
    have : b = 0 ∨ b = 1 := by omega
    rcases this with rfl | rfl <;> simp at hs
  have e : extend3 [x, y, z] (s0 :: s1 :: s2 :: s3 :: rest) = some [x, y, z, s0] := by
    simp [extend3, shuffle]
  rw [merge, if_pos (show [x, y, z].length = 3 from rfl), e]
  have := mergeLoop_spec (s0 :: s1 :: s2 :: s3 :: rest) b hs (s0 :: s1 :: s2 :: s3 :: rest).length 2 [x, y, z, s0] rfl hb
    (by rw [hs]; exact (Nat.sub_le _ _).trans (Nat.lt_two_pow_self).le)
  simpa using this

/-- Loading the first `p` elements and appending the others of the pass-through value. -/
theorem load_append {N p : Nat} (hp : p ≤ N) (m : Mem) (ptr : Addr) (pass : Res N n) :
    (loadVec (W := p) m n ptr).map (fun r => List.ofFn r ++ (List.ofFn pass).drop p) =
      (maskedLoadPass m n ptr (first p) pass).map List.ofFn := by
  have e := gather_fold m (fun l => laneAddr n ptr l.val) (first p (N := N)) (n := n)
  have e' : maskedLoadIntrinsic m n ptr (first p (N := N)) = _ := e
  rw [maskedLoadPass, e', loadVec_eq]
  by_cases h : ∀ l : Fin p, m.accessible n (laneAddr n ptr l.val)
  · have h' : ∀ l : Fin N, first p l = true → m.accessible n (laneAddr n ptr l.val) := by
      intro l hl
      exact h ⟨l.val, by simpa [first] using hl⟩
    rw [if_pos h, if_pos h']
    simp only [Option.map_some]
    congr 1
    apply List.ext_getElem
    · simp; omega
    · intro i h1 h2
      by_cases hi : i < p
      · rw [List.getElem_append_left (by simpa using hi)]
        simp [first, hi]
      · rw [List.getElem_append_right (by simpa using hi)]
        simp [first, hi]
        congr 2
        omega
  · have h' : ¬ ∀ l : Fin N, first p l = true → m.accessible n (laneAddr n ptr l.val) := by
      intro h'
      exact h fun l => h' (l.castLE hp) (by simp [first])
    rw [if_neg h, if_neg h']
    rfl

/-- **C47, partial.** A masked load whose mask is a constant with a beginning that is on is replaced by a load that does
the same and has the same elements of the pass-through value, if no undefined element of the mask comes before one that
is on, and if, when exactly three elements are on, the first and the fourth element of the pass-through value are
equal.  See `load_prefix_wrong`. -/
theorem load_prefix_partial {N p : Nat} {e : Const N} (ho : Ordered (List.ofFn e))
    (h : checkMask (List.ofFn e) = some p) :
    ∃ r, Resolves e r ∧ ∀ (m : Mem) (ptr : Addr) (pass : Res N n),
      (p = 3 → (List.ofFn pass)[0]? = (List.ofFn pass)[3]?) →
      replaceLoad p m n ptr pass = (maskedLoadPass m n ptr r pass).map fun v => some (List.ofFn v) := by
  obtain ⟨hp, -, -, hN, hpp⟩ := checkMask_spec ho h
  rw [List.length_ofFn] at hp hN
  obtain ⟨b, hb⟩ := (isPow2_iff N).1 hN
  refine ⟨_, first_resolves ho h, fun m ptr pass h3 => ?_⟩
  have key : ∀ r : Res p n, merge (List.ofFn r) (List.ofFn pass) = some (List.ofFn r ++ (List.ofFn pass).drop p) := by
    intro r
    rcases hpp with hpp | rfl
    · obtain ⟨a, ha⟩ := (isPow2_iff p).1 hpp
      have hab : a ≤ b := by
        rw [ha, hb] at hp
        exact (Nat.pow_le_pow_iff_right (by omega)).1 hp
      have := merge_pow (List.ofFn r) (List.ofFn pass) a b (by simp [ha]) (by simp [hb]) hab
      simpa using this
    · have h4 : 4 ≤ N := by
        rcases b with _ | _ | b
        · omega
        · omega
        · have := Nat.two_pow_pos b
          rw [hb, Nat.pow_succ, Nat.pow_succ]; omega
      obtain ⟨s0, s1, s2, s3, rest, hs⟩ : ∃ s0 s1 s2 s3 rest, List.ofFn pass = s0 :: s1 :: s2 :: s3 :: rest := by
        have hl : (List.ofFn pass).length = N := by simp
        match List.ofFn pass, hl with
        | [], h => simp at h; omega
        | [_], h => simp at h; omega
        | [_, _], h => simp at h; omega
        | [_, _, _], h => simp at h; omega
        | s0 :: s1 :: s2 :: s3 :: rest, _ => exact ⟨s0, s1, s2, s3, rest, rfl⟩
      have h3 := h3 rfl
      rw [hs] at h3 ⊢
      have h03 : s0 = s3 := by simpa using h3
      have hl : (s0 :: s1 :: s2 :: s3 :: rest).length = 2 ^ b := by rw [← hs]; simp [hb]
      have hr : List.ofFn r = [r 0, r 1, r 2] := by simp [List.ofFn_succ]
      rw [hr, merge_three _ _ _ _ _ _ _ _ b hl, h03]
      rfl
  have := load_append hp m ptr pass
  rw [replaceLoad]
  have e1 : (loadVec (W := p) m n ptr).map (fun r => merge (List.ofFn r) (List.ofFn pass)) =
      ((loadVec (W := p) m n ptr).map (fun r => List.ofFn r ++ (List.ofFn pass).drop p)).map some := by
    rw [Option.map_map]
    congr 1
    funext r
    exact key r
  rw [e1, this, Option.map_map]
  rfl

/-! ## Examples and counterexamples -/

def maskOf (l : List (Option Bool)) : Const l.length := fun i => l[i]

example : checkMask [some true, some true, some false, some false] = some 2 := by decide
example : checkMask [some true, some true, some true, some false, none, some false, some false, none] = some 3 := by decide
example : checkMask [some true, some false, some true, some false] = none := by decide
example : Ordered [some true, some true, some true, some false, none, some false, some false, none] := by
  intro i j hij hi
  have : i = 4 ∨ i = 7 ∨ 8 ≤ i ∨ i < 4 ∨ i = 5 ∨ i = 6 := by omega
  rcases this with rfl | rfl | h | h | rfl | rfl
  · have : j = 5 ∨ j = 6 ∨ j = 7 ∨ 8 ≤ j := by omega
    rcases this with rfl | rfl | rfl | h
    · simp
    · simp
    · simp
    · rw [List.getElem?_eq_none (by simpa using h)]; simp
  · rw [List.getElem?_eq_none (by simp; omega)]; simp
  · rw [List.getElem?_eq_none (by simpa using h)] at hi; simp at hi
  · interval_cases i <;> simp at hi
  · simp at hi
  · simp at hi

/-- **C47, negative.** With the mask `<on, undef, on, off>` the first two elements are stored and the third one, which is
on, is not. -/
theorem store_prefix_wrong : ∃ (e : Const 4) (m m' : Mem) (vals : Vec 4 (Elt 1)),
    checkMask (List.ofFn e) = some 2 ∧ replaceStore (by decide : 2 ≤ 4) m 0 vals = some m' ∧
    ∀ r, Resolves e r → ∃ m'', maskedStore false m 0 vals r = some m'' ∧ m''.byte 2 = 9 ∧ m'.byte 2 = 2 := by
  refine ⟨fun l => if l = 1 then none else some (l != 3), mem0, _, fun _ _ => 9, by decide, rfl, fun r hr => ?_⟩
  have h0 := hr 0 true rfl
  have h2 := hr 2 true rfl
  have h3 := hr 3 false rfl
  have e : r = (fun l => if l = 1 then r 1 else l != 3) := by
    funext l
    match l with
    | 0 => simpa using h0
    | 1 => rfl
    | 2 => simpa using h2
    | 3 => simpa using h3
  cases h1 : r 1 <;> rw [h1] at e <;> subst e <;> exact ⟨_, rfl, by decide, by decide⟩

/-- **C47, negative.** With three elements on, the fourth element is the first one of the pass-through value: the load
with the mask `<on, on, on, off>` and the pass-through value `<10, 11, 12, 13>` has 10 there. -/
theorem load_prefix_wrong : ∃ (e : Const 4) (m : Mem) (pass v : Res 4 1) (l : List (Option (Elt 1))),
    Ordered (List.ofFn e) ∧ checkMask (List.ofFn e) = some 3 ∧ replaceLoad 3 m 1 0 pass = some (some l) ∧
    (∀ r, Resolves e r → maskedLoadPass m 1 0 r pass = some v) ∧
    v 3 = some (fun _ => 13) ∧ l[3]? = some (some fun _ => 10) := by
  refine ⟨fun l => some (l != 3), mem0, fun l => some fun _ => BitVec.ofNat 8 (10 + l.val),
    fun l => if l = 3 then some fun _ => 13 else some (mem0.elt 1 (laneAddr 1 0 l.val)),
    [some (mem0.elt 1 (laneAddr 1 0 0)), some (mem0.elt 1 (laneAddr 1 0 1)), some (mem0.elt 1 (laneAddr 1 0 2)),
      some fun _ => 10], ?_, by decide, rfl, ?_, rfl, rfl⟩
  · intro i j _ hi
    have : i < 4 := by
      by_contra h
      rw [List.getElem?_eq_none (by simpa using h)] at hi
      cases hi
    rw [List.getElem?_eq_getElem (by simpa using this), List.getElem_ofFn] at hi
    cases hi
  · intro r hr
    have : r = fun l => l != 3 := funext fun l => hr l _ rfl
    subst this
    have e := gather_fold mem0 (fun l => laneAddr 1 0 l.val) (fun l : Fin 4 => l != 3) (n := 1)
    have e' : maskedLoadIntrinsic mem0 1 0 (fun l : Fin 4 => l != 3) = _ := e
    rw [maskedLoadPass, e', if_pos (by decide)]
    simp only [Option.map_some]
    congr 1
    funext l
    match l with
    | 0 => rfl
    | 1 => rfl
    | 2 => rfl
    | 3 => rfl

end Ispc.ConstMask
