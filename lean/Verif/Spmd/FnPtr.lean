import Verif.Foreach.ActiveProps

/-!
# Calls through function pointers

`FunctionEmitContext::CallInst`, src/ctx.cpp:3640-3902, for targets without a hardware mask.
What a call does is arbitrary: a function takes the mask and the memory, and gives the returned
vector and the new memory, or nothing if it fails or does not end.  The arguments are values
that are computed before the call (src/expr.cpp:4245-4262) and part of the function here.
-/

namespace Ispc.FnPtr

open Ispc.ForeachActive

variable {W : Nat} {P V S : Type}

/-- What the functions do: function, mask, memory. -/
abbrev Call (W : Nat) (P V S : Type) := P → Mask W → S → Option ((Fin W → V) × S)

/-- `GetFullMask`, src/ctx.cpp:437-440. -/
def full (fm im : Mask W) : Mask W := fun l => im l && fm l

/-- `bbTest` and `bbCall`, src/ctx.cpp:3799-3894.  `cur` is the memory at `maskPtrInfo`, `res` that
at `resultPtrInfo`.  A function without a mask parameter (`unmasked`, `extern "C"`, src/ctx.cpp:3617-3638)
ignores its mask here. -/
def loop [DecidableEq P] (fm : Mask W) (func : Fin W → P) (call : Call W P V S) :
    Nat → Mask W → (Fin W → V) → S → Option ((Fin W → V) × S)
  | 0, _, _, _ => none
  | k + 1, cur, res, s =>
    if ∃ l, cur l = true then
      let firstLane := cttz (movmsk cur)
      -- `extractelement` out of range is poison
      if h : firstLane < W then
        let fptr := func ⟨firstLane, h⟩
        let fpOverlap : Mask W := fun l => decide (fptr = func l)
        let callMask : Mask W := fun l => cur l && fpOverlap l
        match call fptr (full fm callMask) s with
        | none => none
        | some (r, s') =>
          loop fm func call k (fun l => cur l && !callMask l)
            (fun l => if callMask l then r l else res l) s'
      else none
    else some (res, s)

/-- A call through a varying function pointer, src/ctx.cpp:3742-3901: the internal mask
afterwards (`origMask`), the returned vector and the memory.  `undef` is what the allocated memory
for the result holds. -/
def callVarying [DecidableEq P] (fm : Mask W) (func : Fin W → P) (call : Call W P V S) (undef : Fin W → V)
    (fuel : Nat) (im : Mask W) (s : S) : Option (Mask W × (Fin W → V) × S) :=
  (loop fm func call fuel (full fm im) undef s).map fun r => (im, r)

/-- A call through a uniform function pointer, src/ctx.cpp:3687-3741. -/
def callUniform (fm : Mask W) (f : P) (call : Call W P V S) (im : Mask W) (s : S) :
    Option ((Fin W → V) × S) :=
  call f (full fm im) s

/-! ## Specification -/

/-- The elements of a list without repetitions, in the order of their first occurrence. -/
def distinct [DecidableEq P] : List P → List P
  | [] => []
  | p :: ps => p :: (distinct ps).filter fun q => decide (q ≠ p)

/-- The active instances that have this function. -/
def having [DecidableEq P] (m : Mask W) (func : Fin W → P) (p : P) : Mask W :=
  fun l => m l && decide (func l = p)

/-- Call one function for the active instances that have it; these take their results from
this call. -/
def callOne [DecidableEq P] (m : Mask W) (func : Fin W → P) (call : Call W P V S)
    (x : (Fin W → V) × S) (p : P) : Option ((Fin W → V) × S) :=
  (call p (having m func p) x.2).map fun r =>
    (fun l => if having m func p l then r.1 l else x.1 l, r.2)

/-- The functions that active instances have, in the order of the first instance that has it. -/
def functions [DecidableEq P] (m : Mask W) (func : Fin W → P) : List P :=
  distinct ((activeLanes m).map func)

theorem mem_distinct [DecidableEq P] (ps : List P) (p : P) : p ∈ distinct ps ↔ p ∈ ps := by
  induction ps with
  | nil => simp [distinct]
  | cons q qs ih =>
    simp only [distinct, List.mem_cons, List.mem_filter, ih, decide_eq_true_eq]
    by_cases h : p = q <;> simp [h]

theorem nodup_distinct [DecidableEq P] (ps : List P) : (distinct ps).Nodup := by
  induction ps with
  | nil => simp [distinct]
  | cons q qs ih =>
    simp only [distinct, List.nodup_cons, List.mem_filter, decide_eq_true_eq]
    exact ⟨fun h => h.2 rfl, ih.filter _⟩

theorem distinct_filter [DecidableEq P] (q : P → Bool) (ps : List P) :
    distinct (ps.filter q) = (distinct ps).filter q := by
  induction ps with
  | nil => simp [distinct]
  | cons p ps ih =>
    by_cases h : q p = true
    · rw [List.filter_cons_of_pos h, distinct, distinct, List.filter_cons_of_pos h, ih]
      simp only [List.filter_filter, Bool.and_comm]
    · rw [List.filter_cons_of_neg h, distinct, List.filter_cons_of_neg h, ih, List.filter_filter]
      refine List.filter_congr fun x _ => ?_
      by_cases hx : x = p
      · subst hx; simp [h]
      · simp [hx]

/-- **Exactly one call per function**: the list has exactly the functions that some active
instance has, each once, and every active instance is in the mask of exactly one of them. -/
theorem functions_spec [DecidableEq P] (m : Mask W) (func : Fin W → P) :
    (∀ p, p ∈ functions m func ↔ ∃ l, m l = true ∧ func l = p) ∧ (functions m func).Nodup ∧
      ∀ p l, having m func p l = true ↔ m l = true ∧ func l = p := by
  refine ⟨fun p => ?_, nodup_distinct _, fun p l => by simp [having]⟩
  simp [functions, mem_distinct, activeLanes]

theorem loop_spec [DecidableEq P] (hW : W ≤ 64) (fm : Mask W) (func : Fin W → P) (call : Call W P V S) (m : Mask W)
    (hm : ∀ l, m l = true → fm l = true) (k : Nat) (cur : Mask W) (res : Fin W → V) (s : S)
    (hsub : ∀ l, cur l = true → m l = true)
    (hcl : ∀ l l', cur l = true → m l' = true → func l = func l' → cur l' = true)
    (hk : (activeLanes cur).length < k) :
    loop fm func call k cur res s = (functions cur func).foldlM (callOne m func call) (res, s) := by
  induction k generalizing cur res s with
  | zero => omega
  | succ k ih =>
    have hb := bits_movmsk cur hW
    cases hL : activeLanes cur with
    | nil =>
      have hno : ¬ ∃ l, cur l = true := by
        rintro ⟨l, hl⟩
        have : l ∈ activeLanes cur := by simp [activeLanes, hl]
        rw [hL] at this; simp at this
      simp [loop, hno, functions, hL, distinct]
    | cons i is =>
      rw [hL, List.map_cons] at hb
      obtain ⟨h1, -, -⟩ := cttz_cons hb
      have hmem : i ∈ activeLanes cur := by rw [hL]; simp
      have hi : cur i = true := by simpa [activeLanes] using hmem
      have hany : ∃ l, cur l = true := ⟨i, hi⟩
      have hmask : (fun l => cur l && decide (func i = func l)) = having m func (func i) := by
        funext l
        by_cases hl : func l = func i
        · by_cases hc : cur l = true
          · simp [having, hl, hc, hsub l hc]
          · have : m l = false := by
              by_contra hx
              exact hc (hcl i l hi (by simpa using hx) hl.symm)
            simp [having, hl, hc, this]
        · have : ¬ func i = func l := fun h => hl h.symm
          simp [having, hl, this]
      have hfull : full fm (having m func (func i)) = having m func (func i) := by
        funext l
        simp only [full, having]
        by_cases h : m l = true
        · simp [h, hm l h]
        · simp [h]
      simp only [loop, hany, if_true, h1, i.isLt, dif_pos, Fin.eta, functions, hL, List.map_cons,
        distinct, List.foldlM_cons, callOne]
      rw [show (fun l => cur l && decide (func i = func l)) = having m func (func i) from hmask, hfull]
      cases call (func i) (having m func (func i)) s with
      | none => rfl
      | some r =>
        simp only [Option.map_some, Option.bind_eq_bind, Option.bind_some]
        have hcur : ∀ l, (cur l && !(cur l && decide (func i = func l))) =
            (cur l && decide (func l ≠ func i)) := by
          intro l
          by_cases h : func l = func i
          · simp [h]
          · have : ¬ func i = func l := fun h' => h h'.symm
            simp [h, this]
        have hact : activeLanes (fun l => cur l && !(cur l && decide (func i = func l))) =
            is.filter fun l => decide (func l ≠ func i) := by
          rw [show (fun l => cur l && !(cur l && decide (func i = func l))) =
            fun l => cur l && decide (func l ≠ func i) from funext hcur]
          have : activeLanes (fun l => cur l && decide (func l ≠ func i)) =
              (activeLanes cur).filter fun l => decide (func l ≠ func i) := by
            simp only [activeLanes, List.filter_filter, Bool.and_comm]
          rw [this, hL, List.filter_cons_of_neg (by simp)]
        have hcm : ∀ l, having m func (func i) l = (cur l && decide (func i = func l)) :=
          fun l => (congrFun hmask l).symm
        simp only [hcm]
        rw [ih]
        · congr 1
          simp only [functions]
          rw [hact, ← distinct_filter, List.filter_map]
          rfl
        · intro l hl
          simp only [hcur, Bool.and_eq_true] at hl
          exact hsub l hl.1
        · intro l l' hl hl' he
          simp only [hcur, Bool.and_eq_true, decide_eq_true_eq] at hl ⊢
          exact ⟨hcl l l' hl.1 hl' he, by rw [← he]; exact hl.2⟩
        · rw [hact]
          have := List.length_filter_le (fun l => decide (func l ≠ func i)) is
          rw [hL] at hk
          simp at hk
          omega

/-! ## The properties -/

/-- **A call through a varying function pointer** calls each function that some active instance has
exactly once, with exactly the active instances that have it enabled, in the order of the
first such instance, each on the memory that the previous one left; every active instance gets the
value that its own function returned for it; and the mask afterwards is the mask before.
For all functions, and whatever they do. -/
theorem varying_call [DecidableEq P] (hW : W ≤ 64) (fm im : Mask W) (func : Fin W → P)
    (call : Call W P V S) (undef : Fin W → V) (fuel : Nat) (hf : W < fuel) (s : S) :
    callVarying fm func call undef fuel im s =
      ((functions (full fm im) func).foldlM (callOne (full fm im) func call) (undef, s)).map
        fun r => (im, r) := by
  unfold callVarying
  rw [loop_spec hW fm func call (full fm im) (fun l hl => by simp [full] at hl; exact hl.2)]
  · exact fun l hl => hl
  · exact fun l l' _ hl' _ => hl'
  · exact lt_of_le_of_lt ((List.length_filter_le _ _).trans (by simp)) hf

theorem functions_const [DecidableEq P] (m : Mask W) (f : P) (func : Fin W → P) (hany : ∃ l, m l = true)
    (hall : ∀ l, m l = true → func l = f) : functions m func = [f] := by
  have hmap : ∀ L : List (Fin W), (∀ l ∈ L, func l = f) → ∀ p ∈ distinct (L.map func), p = f := by
    intro L hL p hp
    rw [mem_distinct] at hp
    obtain ⟨l, hl, rfl⟩ := List.mem_map.1 hp
    exact hL l hl
  have h1 := hmap (activeLanes m) (fun l hl => hall l (by simpa [activeLanes] using hl))
  obtain ⟨l, hl⟩ := hany
  have h2 : f ∈ functions m func := ((functions_spec m func).1 f).2 ⟨l, hl, hall l hl⟩
  have h3 := (functions_spec m func).2.1
  unfold functions at h2 h3 ⊢
  match hd : distinct ((activeLanes m).map func), h1, h2, h3 with
  | [], _, h2, _ => simp at h2
  | [q], h1, _, _ => rw [h1 q (by simp)]
  | q :: r :: t, h1, _, h3 =>
    rw [h1 q (by simp), h1 r (by simp)] at h3
    simp at h3

/-- **Converged pointers**: if the active instances all have the same function, and there are
any, the call is the call through a uniform pointer to it. -/
theorem varying_call_converged [DecidableEq P] (hW : W ≤ 64) (fm im : Mask W) (func : Fin W → P)
    (call : Call W P V S) (undef : Fin W → V) (fuel : Nat) (hf : W < fuel) (s : S) (f : P)
    (hany : ∃ l, full fm im l = true) (hall : ∀ l, full fm im l = true → func l = f) :
    callVarying fm func call undef fuel im s =
      (callUniform fm f call im s).map fun r =>
        (im, fun l => if full fm im l then r.1 l else undef l, r.2) := by
  rw [varying_call hW _ _ _ _ _ _ hf, functions_const _ _ _ hany hall]
  have hm : having (full fm im) func f = full fm im := by
    funext l
    by_cases h : full fm im l = true
    · simp [having, h, hall l h]
    · simp [having, h]
  simp only [List.foldlM_cons, List.foldlM_nil, callOne, hm, callUniform]
  cases call f (full fm im) s <;> rfl

/-- With no active instance no function is called. -/
theorem varying_call_all_off [DecidableEq P] (hW : W ≤ 64) (fm im : Mask W) (func : Fin W → P)
    (call : Call W P V S) (undef : Fin W → V) (fuel : Nat) (hf : W < fuel) (s : S)
    (hoff : ∀ l, full fm im l = false) :
    callVarying fm func call undef fuel im s = some (im, undef, s) := by
  rw [varying_call hW _ _ _ _ _ _ hf]
  have : functions (full fm im) func = [] := by
    rw [List.eq_nil_iff_forall_not_mem]
    intro p hp
    obtain ⟨l, hl, -⟩ := ((functions_spec _ _).1 p).1 hp
    simp [hoff l] at hl
  rw [this]
  rfl

/-- Functions that work for each instance on its own: what `f p l` does to the memory of instance
`l`.  `junk` is what is returned for instances that are off. -/
def perInstance {L : Type} (f : P → Fin W → L → V × L) (junk : P → Mask W → (Fin W → L) → Fin W → V) :
    Call W P V (Fin W → L) :=
  fun p m s => some (fun l => if m l then (f p l (s l)).1 else junk p m s l,
    fun l => if m l then (f p l (s l)).2 else s l)

theorem fold_perInstance [DecidableEq P] {L : Type} (f : P → Fin W → L → V × L)
    (junk : P → Mask W → (Fin W → L) → Fin W → V) (m : Mask W) (func : Fin W → P) (ps : List P)
    (hn : ps.Nodup) (res : Fin W → V) (s : Fin W → L) :
    ∃ r, ps.foldlM (callOne m func (perInstance f junk)) (res, s) = some r ∧
      ∀ l, (m l = true → func l ∈ ps → r.1 l = (f (func l) l (s l)).1 ∧ r.2 l = (f (func l) l (s l)).2) ∧
        (¬ (m l = true ∧ func l ∈ ps) → r.1 l = res l ∧ r.2 l = s l) := by
  induction ps generalizing res s with
  | nil => exact ⟨(res, s), rfl, by simp⟩
  | cons p ps ih =>
    rw [List.nodup_cons] at hn
    simp only [List.foldlM_cons, callOne, perInstance, Option.map_some, Option.bind_eq_bind,
      Option.bind_some]
    obtain ⟨r, h1, h2⟩ := ih hn.2
      (fun l => if having m func p l then if having m func p l then (f p l (s l)).1 else
        junk p (having m func p) s l else res l)
      (fun l => if having m func p l then (f p l (s l)).2 else s l)
    refine ⟨r, h1, fun l => ?_⟩
    obtain ⟨g1, g2⟩ := h2 l
    by_cases hl : m l = true
    · by_cases hp : func l = p
      · have hnot : func l ∉ ps := by rw [hp]; exact hn.1
        obtain ⟨q1, q2⟩ := g2 (fun h => hnot h.2)
        have hh : having m func p l = true := by simp [having, hl, hp]
        simp only [hh, if_true] at q1 q2
        subst hp
        refine ⟨fun _ _ => ⟨q1, q2⟩, fun h => absurd ⟨hl, by simp⟩ h⟩
      · have hh : having m func p l = false := by simp [having, hp]
        simp only [hh, Bool.false_eq_true, if_false] at g1 g2
        refine ⟨fun a b => ?_, fun h => ?_⟩
        · simp only [List.mem_cons, hp, false_or] at b
          exact g1 a b
        · exact g2 fun ⟨a, b⟩ => h ⟨a, by simp [b]⟩
    · have hh : having m func p l = false := by simp [having, hl]
      simp only [hh, Bool.false_eq_true, if_false] at g2
      refine ⟨fun a => absurd a hl, fun _ => g2 fun ⟨a, _⟩ => hl a⟩

/-- **Each instance calls its own function**: if functions work for each instance on its own, then
every active instance has the result and the memory that calling its function gives, and
the memory of the others is untouched. -/
theorem varying_call_per_instance [DecidableEq P] {L : Type} (hW : W ≤ 64) (fm im : Mask W) (func : Fin W → P)
    (f : P → Fin W → L → V × L) (junk : P → Mask W → (Fin W → L) → Fin W → V) (undef : Fin W → V)
    (fuel : Nat) (hf : W < fuel) (s : Fin W → L) :
    ∃ res s', callVarying fm func (perInstance f junk) undef fuel im s = some (im, res, s') ∧
      ∀ l, (full fm im l = true → (res l, s' l) = f (func l) l (s l)) ∧
        (full fm im l = false → s' l = s l) := by
  obtain ⟨r, h1, h2⟩ := fold_perInstance f junk (full fm im) func (functions (full fm im) func)
    (functions_spec _ _).2.1 undef s
  refine ⟨r.1, r.2, ?_, fun l => ⟨fun hl => ?_, fun hl => ?_⟩⟩
  · rw [varying_call hW _ _ _ _ _ _ hf, h1]; rfl
  · obtain ⟨a, b⟩ := (h2 l).1 hl (((functions_spec _ _).1 _).2 ⟨l, hl, rfl⟩)
    rw [a, b]
  · exact ((h2 l).2 (by simp [hl])).2

/-- Four instances with functions 7, 5, 7, 5, the last one off: two calls. -/
example : functions (W := 4) (fun l => decide (l.val < 3)) (fun l => if l.val % 2 = 0 then 7 else 5) =
    [7, 5] := by decide

example : (callVarying (W := 4) (fun _ => true) (fun l => if l.val % 2 = 0 then 7 else 5)
    (fun p m (s : List (Nat × List Bool)) =>
      some (fun l => p + l.val, (p, (List.finRange 4).map m) :: s))
    (fun _ => 0) 5 (fun l => decide (l.val < 3)) []).map
      (fun r => ((List.finRange 4).map r.2.1, r.2.2)) =
    some ([7, 6, 9, 0], [(5, [false, true, false, false]), (7, [true, false, true, false])]) := by
  decide +kernel

end Ispc.FnPtr
