import Verif.Builtins.Atomics

/-!
# Atomics, continued: swap, minimum and maximum, and the versions with one operation per instance (C18, C19)
-/

namespace Ispc.Atomics

open Ispc.Vec
open Ispc.Scan (Mem Mem.set activeBelow activeBelow_succ reduceMinS reduceMinS_spec)
open Ispc.ForeachActive (Mask movmsk activeLanes St foreachActive bodyFor foreach_active_serialises movmsk_bit one_shl_bit
  activeLanes_spec)
open Ispc.PerLane (perLane perLane_eq)

variable {W : Nat} {α : Type}

/-! ## Specification -/

/-- Instance `l` performs its operation: whatever the other threads did to memory is in `env`; then, at once, the
location is replaced by `g old l` and the instance gets `old`. -/
def step (env : Nat → Mem α → Mem α) (g : α → Fin W → α) (ptr : Vec W Int) (s : Sys W α) (l : Fin W) : Sys W α :=
  let mem := env s.time s.mem
  ⟨fun q => if q = ptr l then g (mem (ptr l)) l else mem q, fun k => if k = l then mem (ptr l) else s.ret k, s.time + 1⟩

/-! ## Swap -/

theorem bit_test (hW : W ≤ 64) (m : Mask W) {i : Nat} (hi : i < W) :
    movmsk m &&& (1#64 <<< i) = 0#64 ↔ m ⟨i, hi⟩ = false := by
  constructor
  · intro h
    have := congrArg (fun x => x.getLsbD i) h
    simp only [BitVec.getLsbD_and, one_shl_bit, BitVec.getLsbD_zero] at this
    have h64 : i < 64 := by omega
    simp only [h64, decide_true, Bool.and_true] at this
    cases hm : m ⟨i, hi⟩ with
    | false => rfl
    | true => rw [(movmsk_bit m hW i).2 ⟨hi, hm⟩] at this; cases this
  · intro h
    apply BitVec.eq_of_getLsbD_eq
    intro j hj
    rw [BitVec.getLsbD_and, one_shl_bit, BitVec.getLsbD_zero]
    by_cases hji : j = i
    · subst hji
      cases hb : (movmsk m).getLsbD j with
      | false => rfl
      | true =>
        obtain ⟨h1, h2⟩ := (movmsk_bit m hW j).1 hb
        rw [h] at h2; cases h2
    · simp [hji]

theorem swapFirst_spec (hW : W ≤ 64) (m : Mask W) : ∀ (n i : Nat), i + n = W → activeBelow m i = [] →
    (swapFirst (movmsk m) n i = none ∧ activeLanes m = []) ∨
      ∃ (f : Fin W), swapFirst (movmsk m) n i = some f.val ∧ m f = true ∧ activeBelow m f.val = [] := by
  intro n
  induction n with
  | zero =>
    intro i h hb
    left
    refine ⟨rfl, ?_⟩
    have : i = W := by omega
    subst this
    rw [← hb]; unfold activeBelow activeLanes; rw [lanesBelow_all]
  | succ n ih =>
    intro i h hb
    have hi : i < W := by omega
    rw [swapFirst]
    cases hm : m ⟨i, hi⟩ with
    | false =>
      rw [if_pos ((bit_test hW m hi).2 hm)]
      refine ih (i + 1) (by omega) ?_
      rw [activeBelow_succ m hi, hb, hm]; rfl
    | true =>
      rw [if_neg (by rw [bit_test hW m hi, hm]; simp)]
      exact Or.inr ⟨⟨i, hi⟩, rfl, hm, hb⟩

/-- The invariant of the second loop: once the pending lane `last` is given `y`, the lanes seen so far have swapped in
descending order with a location that held `y`, which ends at the first lane's value. -/
def SwapInv (value : Vec W α) (m : Mask W) (first i : Nat) (xEnd : α) (ret0 : Vec W α) (st : Vec W α × Nat) : Prop :=
  (∀ l : Fin W, m l = false → st.1 l = ret0 l) ∧
  ∃ last : Fin W, st.2 = last.val ∧ m last = true ∧ last.val < max i (first + 1) ∧
    ∀ y, Serial (fun _ b => b) value (activeBelow m (max i (first + 1))).reverse y xEnd
      fun l => if l = last then y else st.1 l

theorem serial_congr (f : α → α → α) (v r r' : Vec W α) : ∀ (ls : List (Fin W)) (x x' : α), (∀ l ∈ ls, r l = r' l) →
    Serial f v ls x x' r → Serial f v ls x x' r' := by
  intro ls
  induction ls with
  | nil => intro x x' _ h; exact h
  | cons l ls ih =>
    intro x x' h hs
    exact ⟨by rw [← h l (by simp)]; exact hs.1, ih _ _ (fun k hk => h k (by simp [hk])) hs.2⟩

/-- C19: `atomic_swap_global` of a gang to one location acts as the active instances swapping one after another, in
descending order; the location ends with the lowest active instance's value; inactive instances keep theirs. -/
theorem swap_serial (hW : W ≤ 64) (x : α) (value : Vec W α) (m : Mask W) (ret : Vec W α) :
    ∃ x' r, swapGlobal x value m ret = some (x', r) ∧ Serial (fun _ b => b) value (activeLanes m).reverse x x' r ∧
      ∀ l, m l = false → r l = ret l := by
  unfold swapGlobal
  simp only []
  rcases swapFirst_spec hW m W 0 (by omega) (by simp [activeBelow, lanesBelow_zero]) with ⟨h1, h2⟩ | ⟨f, h1, h2, h3⟩
  · rw [h1, h2]
    exact ⟨x, ret, rfl, rfl, fun _ _ => rfl⟩
  · rw [h1]
    simp only [Option.bind_eq_bind]
    rw [extract_lt _ f.isLt, Option.bind_some]
    have hone : activeBelow m (f.val + 1) = [f] := by rw [activeBelow_succ m f.isLt, h3, h2]; rfl
    obtain ⟨st, hst, hinv⟩ := forLoop_inv (body := fun i (st : Vec W α × Nat) =>
        if movmsk m &&& (1#64 <<< i) = 0#64 then some st
        else (extract value i).bind fun y => (insert st.1 st.2 y).bind fun ret => some (ret, i))
      (fun i st => SwapInv value m f.val i (value f) ret st ∧ (f.val < i → st.2 < i) ∧ (i = f.val → st = (ret, f.val))
        ∧ f.val ≤ i)
      (W - f.val) f.val (ret, f.val)
      (by
        refine ⟨⟨fun _ _ => rfl, f, rfl, h2, by omega, fun y => ?_⟩, fun h => absurd h (Nat.lt_irrefl _), fun _ => rfl,
          Nat.le_refl _⟩
        rw [show max f.val (f.val + 1) = f.val + 1 by omega, hone]
        simp [Serial])
      (by
        rintro i ⟨r, last⟩ hlo hhi ⟨⟨hoff, k, hk, hkm, hkl, hser⟩, hlt, heq, _⟩
        have hi : i < W := by omega
        simp only at hoff hk hser hlt
        cases hm : m ⟨i, hi⟩ with
        | false =>
          have hne : i ≠ f.val := by rintro rfl; rw [h2] at hm; cases hm
          rw [if_pos ((bit_test hW m hi).2 hm)]
          refine ⟨_, rfl, ⟨hoff, k, hk, hkm, by omega, fun y => ?_⟩, fun _ => by have := hlt (by omega); simp only; omega,
            fun h => by omega, by omega⟩
          rw [show max i (f.val + 1) = i by omega] at hser
          rw [show max (i + 1) (f.val + 1) = i + 1 by omega, activeBelow_succ m hi, hm]
          simpa using hser y
        | true =>
          rw [if_neg (by rw [bit_test hW m hi, hm]; simp), extract_lt _ hi, Option.bind_some, hk, insert_lt _ k.isLt,
            Option.bind_some]
          by_cases hfi : i = f.val
          · -- the first lane hands its own value to itself; the entry is overwritten later
            have hkf : k = f := by
              have := heq hfi
              simp only [Prod.mk.injEq] at this
              exact Fin.ext (by omega)
            subst hkf
            refine ⟨_, rfl, ⟨?_, k, by simp [hfi], h2, by omega, fun y => ?_⟩, fun _ => by simp, fun h => by omega, by omega⟩
            · intro l hl
              have : l.val ≠ k.val := by intro h; rw [Fin.ext h, h2] at hl; cases hl
              simp only [this, if_false]
              exact hoff l hl
            · rw [show max (i + 1) (k.val + 1) = k.val + 1 by omega, hone]
              simp [Serial]
          · rw [show max i (f.val + 1) = i by omega] at hser hkl
            refine ⟨_, rfl, ⟨?_, ⟨i, hi⟩, rfl, hm, by simp only; omega, fun y => ?_⟩, fun _ => by simp, fun h => by omega,
              by omega⟩
            · intro l hl
              have : l.val ≠ k.val := by intro h; rw [Fin.ext h, hkm] at hl; cases hl
              simp only [this, if_false]
              exact hoff l hl
            · rw [show max (i + 1) (f.val + 1) = i + 1 by omega, activeBelow_succ m hi, hm]
              simp only [if_true, List.reverse_append, List.reverse_cons, List.reverse_nil, List.nil_append,
                List.cons_append, Serial]
              refine ⟨trivial, serial_congr _ _ _ _ _ _ _ ?_ (hser (value ⟨i, hi⟩))⟩
              intro l hl
              have hli : l.val < i := by
                rw [List.mem_reverse, activeBelow, List.mem_filter, mem_lanesBelow] at hl
                exact hl.1
              have hne : l ≠ ⟨i, hi⟩ := by intro h; rw [h] at hli; exact Nat.lt_irrefl _ hli
              simp only [hne, if_false]
              by_cases hlk : l = k
              · simp [hlk]
              · have : l.val ≠ k.val := fun h => hlk (Fin.ext h)
                simp [hlk, this])
    rw [hst, Option.bind_some]
    obtain ⟨⟨hoff, k, hk, hkm, hkl, hser⟩, _⟩ := hinv
    rw [hk, insert_lt _ k.isLt, Option.bind_some]
    refine ⟨_, _, rfl, ?_, ?_⟩
    · have e1 : max (f.val + (W - f.val)) (f.val + 1) = W := by have := f.isLt; omega
      have e2 : activeBelow m W = activeLanes m := by unfold activeBelow activeLanes; rw [lanesBelow_all]
      rw [e1, e2] at hser
      refine serial_congr _ _ _ _ _ _ _ ?_ (hser x)
      intro l _
      by_cases hlk : l = k
      · simp [hlk]
      · have : l.val ≠ k.val := fun h => hlk (Fin.ext h)
        simp [hlk, this]
    · intro l hl
      have : l.val ≠ k.val := by intro h; rw [Fin.ext h, hkm] at hl; cases hl
      simp only [this, if_false]
      exact hoff l hl

/-- Non-vacuity: three of four instances swap into a location holding 9. -/
example : ∃ r, swapGlobal 9#8 (fun l : Fin 4 => BitVec.ofNat 8 l.val) (fun l => decide (l.val ≠ 1)) (fun _ => 77#8) =
    some (0#8, r) ∧ r 0 = 2#8 ∧ r 1 = 77#8 ∧ r 2 = 3#8 ∧ r 3 = 9#8 := ⟨_, rfl, by decide +kernel⟩

/-! ## Minimum -/

/-- C19, partial: `atomic_min_global` of a gang leaves in memory the least of the old value and all active operands.
Missing: the returned values (`minGlobal_not_serial`). -/
theorem minGlobal_memory_partial {n : Nat} (hW : W ≤ 64) (x : BitVec (n + 1)) (value : Vec W (BitVec (n + 1))) (m : Mask W)
    (ret : Vec W (BitVec (n + 1))) (hact : ∃ l, m l = true) :
    let x' := (minGlobal x value m ret).1
    (x' = x ∨ ∃ l, m l = true ∧ x' = value l) ∧ x'.toInt ≤ x.toInt ∧ ∀ l, m l = true → x'.toInt ≤ (value l).toInt := by
  intro x'
  obtain ⟨⟨k, hk, hv⟩, hle⟩ := reduceMinS_spec value m hact
  have hne : movmsk m ≠ 0#64 := by
    intro h
    obtain ⟨l, hl⟩ := hact
    have := (movmsk_bit m hW l.val).2 ⟨l.isLt, hl⟩
    rw [h, BitVec.getLsbD_zero] at this; cases this
  have hx : x' = if x.sle (reduceMinS value m) then x else reduceMinS value m := by
    show (minGlobal x value m ret).1 = _
    unfold minGlobal
    simp only []
    rw [if_pos hne]
  rw [hx]
  by_cases h : x.sle (reduceMinS value m) = true
  · rw [if_pos h]
    rw [BitVec.sle_eq_decide, decide_eq_true_eq] at h
    exact ⟨Or.inl rfl, Int.le_refl _, fun l hl => Int.le_trans h (hle l hl)⟩
  · rw [if_neg h]
    rw [BitVec.sle_eq_decide, decide_eq_true_eq] at h
    exact ⟨Or.inr ⟨k, hk, hv⟩, by omega, hle⟩

/-- Finding: two instances taking the minimum of 5 and 3 with a location holding 10 both get 10 back; no order of the two
operations explains it. -/
theorem minGlobal_not_serial :
    let v : Vec 2 (BitVec 32) := fun l => if l.val = 0 then 5#32 else 3#32
    let res := minGlobal (n := 31) 10#32 v (fun _ => true) fun _ => 0#32
    res.2 0 = 10#32 ∧ res.2 1 = 10#32 ∧
      ¬ ActsAsSerial (fun a b : BitVec 32 => if a.sle b then a else b) v (fun _ => true) 10#32 res.1 res.2 := by
  intro v res
  refine ⟨by decide +kernel, by decide +kernel, ?_⟩
  rintro ⟨order, hp, hs⟩
  have ha : activeLanes (fun _ : Fin 2 => true) = [0, 1] := by decide +kernel
  rw [ha] at hp
  rcases perm_pair hp with rfl | rfl
  · rw [← serialB_iff] at hs; revert hs; decide +kernel
  · rw [← serialB_iff] at hs; revert hs; decide +kernel

/-! ## One operation per instance -/

theorem foldlM_some {S : Type} (f : S → Fin W → Option S) (g : S → Fin W → S) : ∀ (ls : List (Fin W)) (s : S),
    (∀ s, ∀ l ∈ ls, f s l = some (g s l)) → ls.foldlM f s = some (ls.foldl g s) := by
  intro ls
  induction ls with
  | nil => intro s _; rfl
  | cons l ls ih =>
    intro s h
    rw [List.foldlM_cons, h s l (by simp)]
    exact ih _ fun s k hk => h s k (by simp [hk])

theorem and_comm_mask (im fm : Mask W) : (fun l => im l && fm l) = fun l => fm l && im l := by
  funext l; exact Bool.and_comm _ _

/-- One pass of the loop over global atomics is the atomic step of its instance. -/
theorem globalBody_eq (env : Nat → Mem α → Mem α) (f : α → Nat → Option α) (g : α → Fin W → α)
    (hf : ∀ a l, f a l.val = some (g a l)) (ptrs : Vec W (Option Int)) (ptr : Vec W Int) (l : Fin W)
    (hp : ptrs l = some (ptr l)) (full : Mask W) (hfull : full = fun k => decide (k = l)) (σ : St W (Sys W α)) :
    globalBody env f ptrs l.val full σ = some { σ with data := step env g ptr σ.data l } := by
  unfold globalBody
  simp only [Option.bind_eq_bind]
  rw [extract_lt _ l.isLt, Option.bind_some, hp, Option.bind_some, hf, Option.bind_some, insert_lt _ l.isLt,
    Option.bind_some]
  subst hfull
  congr 2
  unfold step
  simp only [Sys.mk.injEq, and_true]
  refine ⟨rfl, ?_⟩
  funext k
  by_cases h : k = l
  · simp [h]
  · simp [h]

/-- C19: a global atomic through varying pointers acts as each active instance, in order, performing its operation on its
own location, with any interference from other threads between them; the results of inactive instances are untouched. -/
theorem atomicVaryingPtr_serial (hW : W ≤ 64) (env : Nat → Mem α → Mem α) (f : α → Nat → Option α) (g : α → Fin W → α)
    (hf : ∀ a l, f a l.val = some (g a l)) (fm im : Mask W) (hact : ∃ l, im l = true ∧ fm l = true) (ptr : Vec W Int)
    (d : Sys W α) :
    atomicVaryingPtr env f fm im ptr d = some ((activeLanes fun l => im l && fm l).foldl (step env g ptr) d) := by
  unfold atomicVaryingPtr
  rw [foreach_active_serialises hW fm _ ⟨im, d⟩ hact W (Nat.le_refl W)]
  simp only
  rw [foldlM_some _ (step env g ptr) _ d]
  · rfl
  · intro s l hl
    have hl' := (activeLanes_spec (fun l => im l && fm l)).1 l |>.1 hl
    unfold bodyFor
    rw [globalBody_eq env f g hf _ ptr l (by simp [ptrArray, hl']) _ (by funext k; rfl)]
    rfl

/-- C19: the same for the `per_lane` atomics of util.m4 on one location. -/
theorem atomicPerLane_serial (hW : W ≤ 64) (env : Nat → Mem α → Mem α) (f : α → Nat → Option α) (g : α → Fin W → α)
    (hf : ∀ a l, f a l.val = some (g a l)) (known : Bool) (mask : Mask W) (p : Int) (d : Sys W α) :
    atomicPerLane env f known mask p d = some ((activeLanes mask).foldl (step env g fun _ => p) d) := by
  unfold atomicPerLane
  rw [perLane_eq hW]
  refine foldlM_some _ _ _ d fun s l _ => ?_
  simp only [Option.bind_eq_bind]
  rw [hf, Option.bind_some, insert_lt _ l.isLt, Option.bind_some]
  unfold step
  congr 1
  simp only [Sys.mk.injEq, and_true]
  refine ⟨rfl, ?_⟩
  funext k
  by_cases h : k = l
  · simp [h]
  · have : k.val ≠ l.val := fun e => h (Fin.ext e)
    simp [h, this]

theorem rmwOf_eq (op : α → α → α) (value : Vec W α) (a : α) (l : Fin W) :
    rmwOf op value a l.val = some (op a (value l)) := by unfold rmwOf; rw [extract_lt _ l.isLt]; rfl

theorem casOf_eq (eq : α → α → Bool) (cmp new : Vec W α) (a : α) (l : Fin W) :
    casOf eq cmp new a l.val = some (if eq a (cmp l) then new l else a) := by
  unfold casOf; rw [extract_lt _ l.isLt, extract_lt _ l.isLt]; rfl

/-- With nobody interfering, steps on one location are the serial execution. -/
theorem steps_serial (op : α → α → α) (value : Vec W α) (p : Int) : ∀ (ls : List (Fin W)) (d : Sys W α), ls.Nodup →
    let d' := ls.foldl (step (fun _ m => m) (fun a l => op a (value l)) fun _ => p) d
    Serial op value ls (d.mem p) (d'.mem p) d'.ret ∧ (∀ q, q ≠ p → d'.mem q = d.mem q) ∧
      ∀ l, l ∉ ls → d'.ret l = d.ret l := by
  intro ls
  induction ls with
  | nil => intro d _; exact ⟨rfl, fun _ _ => rfl, fun _ _ => rfl⟩
  | cons l ls ih =>
    intro d hn
    rw [List.nodup_cons] at hn
    obtain ⟨h1, h2, h3⟩ := ih (step (fun _ m => m) (fun a l => op a (value l)) (fun _ => p) d l) hn.2
    refine ⟨⟨?_, ?_⟩, ?_, ?_⟩
    · rw [List.foldl_cons, h3 l hn.1]; simp [step]
    · rw [List.foldl_cons]
      have e : (step (fun _ m => m) (fun a l => op a (value l)) (fun _ => p) d l).mem p = op (d.mem p) (value l) := by
        simp [step]
      rw [e] at h1
      exact h1
    · intro q hq
      rw [List.foldl_cons, h2 q hq]
      simp [step, hq]
    · intro k hk
      rw [List.mem_cons, not_or] at hk
      rw [List.foldl_cons, h3 k hk.2]
      simp [step, hk.1]

theorem nodup_activeLanes (m : Mask W) : (activeLanes m).Nodup := List.Nodup.filter _ (List.nodup_finRange W)

/-- Finding: generic `atomic_compare_exchange_global` on one location performs the operation for every instance of the
gang, active or not (generic.ispc:2996-3021). -/
theorem cmpxchgGeneric_all_lanes (hW : W ≤ 64) (h0 : 0 < W) (env : Nat → Mem α → Mem α) (eq : α → α → Bool)
    (cmp new : Vec W α) (p : Int) (d : Sys W α) :
    cmpxchgGeneric env eq cmp new p d =
      some ((List.finRange W).foldl (step env (fun a l => if eq a (cmp l) then new l else a) fun _ => p) d) := by
  unfold cmpxchgGeneric
  rw [foreach_active_serialises hW _ _ ⟨fun _ => true, d⟩ ⟨⟨0, h0⟩, rfl, rfl⟩ W (Nat.le_refl W)]
  simp only
  rw [foldlM_some _ (step env (fun a l => if eq a (cmp l) then new l else a) fun _ => p) _ d]
  · have : (activeLanes fun _ : Fin W => true && true) = List.finRange W := by simp [activeLanes]
    rw [this]; rfl
  · intro s l _
    unfold bodyFor
    rw [globalBody_eq env _ _ (casOf_eq eq cmp new) _ (fun _ => p) l rfl _ (by funext k; simp)]
    rfl

/-- Finding, concretely: with instance 0 alone active and comparing against a value that is not there, instance 1, which
is inactive, changes the location. -/
theorem cmpxchgGeneric_inactive_writes : ∃ d', cmpxchgGeneric (W := 2) (fun _ m => m) (fun a b : BitVec 32 => a == b)
      (fun l => if l.val = 0 then 5#32 else 0#32) (fun _ => 9#32) 100 ⟨fun _ => 0#32, fun _ => 0#32, 0⟩ = some d' ∧
    d'.mem 100 = 9#32 ∧
    ((activeLanes fun l : Fin 2 => decide (l.val = 0)).foldl (step (fun _ m => m)
      (fun a l => if a == (if l.val = 0 then 5#32 else 0#32) then 9#32 else a) fun _ => 100)
      ⟨fun _ => 0#32, fun _ => 0#32, 0⟩).mem 100 = 0#32 := by
  refine ⟨_, cmpxchgGeneric_all_lanes (by decide) (by decide) _ _ _ _ _ _, by decide +kernel, by decide +kernel⟩

/-! ## C18: local atomics -/

theorem localBody_eq (f : α → Nat → Option α) (g : α → Fin W → α) (hf : ∀ a l, f a l.val = some (g a l))
    (ptrs : Vec W (Option Int)) (ptr : Vec W Int) (l : Fin W) (hp : ptrs l = some (ptr l)) (full : Mask W)
    (hfull : full = fun k => decide (k = l)) (σ : St W (Mem α × Vec W α)) (t : Nat) :
    localBody f ptrs l.val full σ = some { σ with data :=
      ((step (fun _ m => m) g ptr ⟨σ.data.1, σ.data.2, t⟩ l).mem, (step (fun _ m => m) g ptr ⟨σ.data.1, σ.data.2, t⟩ l).ret) } := by
  unfold localBody
  simp only [Option.bind_eq_bind]
  rw [extract_lt _ l.isLt, Option.bind_some, hp, Option.bind_some, insert_lt _ l.isLt, Option.bind_some, hf,
    Option.bind_some]
  subst hfull
  congr 2
  unfold step
  simp only [Prod.mk.injEq]
  refine ⟨rfl, ?_⟩
  funext k
  by_cases h : k = l
  · simp [h]
  · simp [h]

theorem local_fold (g : α → Fin W → α) (ptr : Vec W Int) : ∀ (ls : List (Fin W)) (d : Sys W α),
    ls.foldl (fun (s : Mem α × Vec W α) l =>
      ((step (fun _ m => m) g ptr ⟨s.1, s.2, 0⟩ l).mem, (step (fun _ m => m) g ptr ⟨s.1, s.2, 0⟩ l).ret)) (d.mem, d.ret) =
    ((ls.foldl (step (fun _ m => m) g ptr) d).mem, (ls.foldl (step (fun _ m => m) g ptr) d).ret) := by
  intro ls
  induction ls with
  | nil => intro d; rfl
  | cons l ls ih => intro d; rw [List.foldl_cons, List.foldl_cons, ← ih]; rfl

/-- C18: a local atomic through varying pointers acts as the active instances performing it one after another, in
order, each on its own location; locations may coincide. -/
theorem localVaryingPtr_serial (hW : W ≤ 64) (f : α → Nat → Option α) (g : α → Fin W → α)
    (hf : ∀ a l, f a l.val = some (g a l)) (fm im : Mask W) (hact : ∃ l, im l = true ∧ fm l = true) (ptr : Vec W Int)
    (mem : Mem α) (ret : Vec W α) :
    let d' := (activeLanes fun l => im l && fm l).foldl (step (fun _ m => m) g ptr) ⟨mem, ret, 0⟩
    localVaryingPtr f fm im ptr (mem, ret) = some (d'.mem, d'.ret) := by
  intro d'
  unfold localVaryingPtr
  rw [foreach_active_serialises hW fm _ ⟨im, (mem, ret)⟩ hact W (Nat.le_refl W)]
  simp only
  rw [foldlM_some _ (fun (s : Mem α × Vec W α) l =>
      ((step (fun _ m => m) g ptr ⟨s.1, s.2, 0⟩ l).mem, (step (fun _ m => m) g ptr ⟨s.1, s.2, 0⟩ l).ret)) _ (mem, ret)]
  · simp only [Option.map_some]
    have := local_fold g ptr (activeLanes fun l => im l && fm l) ⟨mem, ret, 0⟩
    simp only at this
    rw [this]
  · intro s l hl
    have hl' := (activeLanes_spec (fun l => im l && fm l)).1 l |>.1 hl
    unfold bodyFor
    rw [localBody_eq f g hf _ ptr l (by simp [ptrArray, hl']) _ (by funext k; rfl) _ 0]
    rfl

/-- C18: the same on one location. -/
theorem localUniformPtr_steps (hW : W ≤ 64) (f : α → Nat → Option α) (g : α → Fin W → α)
    (hf : ∀ a l, f a l.val = some (g a l)) (fm im : Mask W) (hact : ∃ l, im l = true ∧ fm l = true) (p : Int)
    (mem : Mem α) (ret : Vec W α) :
    let d' := (activeLanes fun l => im l && fm l).foldl (step (fun _ m => m) g fun _ => p) ⟨mem, ret, 0⟩
    localUniformPtr f fm im p (mem, ret) = some (d'.mem, d'.ret) := by
  intro d'
  unfold localUniformPtr
  rw [foreach_active_serialises hW fm _ ⟨im, (mem, ret)⟩ hact W (Nat.le_refl W)]
  simp only
  rw [foldlM_some _ (fun (s : Mem α × Vec W α) l => ((step (fun _ m => m) g (fun _ => p) ⟨s.1, s.2, 0⟩ l).mem,
      (step (fun _ m => m) g (fun _ => p) ⟨s.1, s.2, 0⟩ l).ret)) _ (mem, ret)]
  · simp only [Option.map_some]
    have := local_fold g (fun _ => p) (activeLanes fun l => im l && fm l) ⟨mem, ret, 0⟩
    simp only at this
    rw [this]
  · intro s l _
    unfold bodyFor
    rw [localBody_eq f g hf _ (fun _ => p) l rfl _ (by funext k; rfl) _ 0]
    rfl

/-- C18: `atomic_OP_local(ptr, value)` on one location: the active instances perform the operation in instance order, each
receives the value it found, other memory and inactive instances' results are unchanged. -/
theorem local_serial (hW : W ≤ 64) (op : α → α → α) (value : Vec W α) (fm im : Mask W)
    (hact : ∃ l, im l = true ∧ fm l = true) (p : Int) (mem : Mem α) (ret : Vec W α) :
    ∃ mem' ret', localUniformPtr (rmwOf op value) fm im p (mem, ret) = some (mem', ret') ∧
      Serial op value (activeLanes fun l => im l && fm l) (mem p) (mem' p) ret' ∧ (∀ q, q ≠ p → mem' q = mem q) ∧
      ∀ l, (im l && fm l) = false → ret' l = ret l := by
  have h := localUniformPtr_steps hW (rmwOf op value) (fun a l => op a (value l)) (rmwOf_eq op value) fm im hact p mem ret
  obtain ⟨h1, h2, h3⟩ := steps_serial op value p (activeLanes fun l => im l && fm l) ⟨mem, ret, 0⟩ (nodup_activeLanes _)
  refine ⟨_, _, h, h1, h2, fun l hl => h3 l ?_⟩
  rw [(activeLanes_spec _).1 l, hl]; simp

/-- Non-vacuity: three of four instances add into a location. -/
example : ∃ (mem' : Mem (BitVec 8)) (ret' : Vec 4 (BitVec 8)), localUniformPtr (rmwOf (· + ·) fun l : Fin 4 => BitVec.ofNat 8 (l.val + 1)) (fun _ => true)
      (fun l => decide (l.val ≠ 1)) 3 ((fun _ => 10#8), fun _ => 0#8) = some (mem', ret') ∧ mem' 3 = 18#8 ∧ ret' 3 = 14#8 :=
  ⟨_, _, rfl, by decide +kernel, by decide +kernel⟩

/-- Finding: `atomic_swap_local` on `double` stores the difference: for any subtraction with `a - b ≠ b`, one instance's
swap does not leave its value in the location. -/
theorem swapDouble_not_swap : ∃ mem' ret', localUniformPtr (W := 1) (rmwOf (swapDouble (fun a b : Int => a - b)) fun _ : Fin 1 => 3)
      (fun _ => true) (fun _ => true) 0 ((fun _ => 10), fun _ => 0) = some (mem', ret') ∧ mem' 0 = 7 ∧
    ¬ ActsAsSerial swapFn (fun _ : Fin 1 => (3 : Int)) (fun _ => true) 10 (mem' 0) ret' := by
  refine ⟨_, _, rfl, by decide +kernel, ?_⟩
  rintro ⟨order, hp, hs⟩
  have ha : activeLanes (fun _ : Fin 1 => true) = [0] := by decide +kernel
  rw [ha, List.perm_singleton] at hp
  subst hp
  rw [← serialB_iff] at hs
  revert hs
  decide +kernel

/-- C18: with a local compare-and-exchange from the same expected value to other values, exactly the first active
instance succeeds when the location holds the expected value. -/
theorem cas_one_winner [DecidableEq α] (c : α) (new : Vec W α) (hnew : ∀ l, new l ≠ c) (p : Int) :
    ∀ (ls : List (Fin W)) (d : Sys W α), ls.Nodup →
    let d' := ls.foldl (step (fun _ m => m) (fun a l => if decide (a = c) then new l else a) fun _ => p) d
    (d.mem p ≠ c → d'.mem p = d.mem p ∧ ∀ l ∈ ls, d'.ret l ≠ c) ∧
      (d.mem p = c → ∀ f t, ls = f :: t → d'.mem p = new f ∧ d'.ret f = c ∧ ∀ l ∈ t, d'.ret l ≠ c) := by
  have keep : ∀ (ls : List (Fin W)) (d : Sys W α) (l : Fin W), l ∉ ls →
      (ls.foldl (step (fun _ m => m) (fun a l => if decide (a = c) then new l else a) fun _ => p) d).ret l = d.ret l := by
    intro ls
    induction ls with
    | nil => intro d l _; rfl
    | cons k ls ih =>
      intro d l h
      rw [List.mem_cons, not_or] at h
      rw [List.foldl_cons, ih _ l h.2]
      simp [step, h.1]
  have lose : ∀ (ls : List (Fin W)) (d : Sys W α), ls.Nodup → d.mem p ≠ c →
      (ls.foldl (step (fun _ m => m) (fun a l => if decide (a = c) then new l else a) fun _ => p) d).mem p = d.mem p ∧
      ∀ l ∈ ls, (ls.foldl (step (fun _ m => m) (fun a l => if decide (a = c) then new l else a) fun _ => p) d).ret l ≠ c := by
    intro ls
    induction ls with
    | nil => intro d _ h; exact ⟨rfl, by simp⟩
    | cons k ls ih =>
      intro d hn h
      rw [List.nodup_cons] at hn
      have hm : (step (fun _ m => m) (fun a l => if decide (a = c) then new l else a) (fun _ => p) d k).mem p = d.mem p := by
        simp [step, h]
      obtain ⟨h1, h2⟩ := ih _ hn.2 (by rw [hm]; exact h)
      rw [hm] at h1
      refine ⟨by rw [List.foldl_cons, h1], fun l hl => ?_⟩
      rcases List.mem_cons.1 hl with rfl | hl
      · rw [List.foldl_cons, keep ls _ l hn.1]
        simpa [step] using h
      · rw [List.foldl_cons]; exact h2 l hl
  intro ls d hn d'
  refine ⟨fun h => lose ls d hn h, ?_⟩
  intro h f t ht
  subst ht
  rw [List.nodup_cons] at hn
  have hm : (step (fun _ m => m) (fun a l => if decide (a = c) then new l else a) (fun _ => p) d f).mem p = new f := by
    simp [step, h]
  obtain ⟨h1, h2⟩ := lose t _ hn.2 (by rw [hm]; exact hnew f)
  rw [hm] at h1
  refine ⟨h1, ?_, h2⟩
  show (List.foldl _ d (f :: t)).ret f = c
  rw [List.foldl_cons, keep t _ f hn.1]
  simpa [step] using h

/-- C18: the same, of `atomic_compare_exchange_local` as written. -/
theorem local_cas_one_winner [DecidableEq α] (hW : W ≤ 64) (c : α) (new : Vec W α) (hnew : ∀ l, new l ≠ c) (fm im : Mask W)
    (p : Int) (mem : Mem α) (ret : Vec W α) (hc : mem p = c) (f : Fin W) (hf : (im f && fm f) = true)
    (hfirst : ∀ l, (im l && fm l) = true → f ≤ l) :
    ∃ mem' ret', localUniformPtr (casOf (fun a b => decide (a = b)) (fun _ => c) new) fm im p (mem, ret) = some (mem', ret') ∧
      mem' p = new f ∧ ret' f = c ∧ ∀ l, (im l && fm l) = true → l ≠ f → ret' l ≠ c := by
  have hact : ∃ l, im l = true ∧ fm l = true := ⟨f, by simpa using hf⟩
  have h := localUniformPtr_steps hW (casOf (fun a b => decide (a = b)) (fun _ => c) new)
    (fun a l => if decide (a = c) then new l else a) (casOf_eq _ _ _) fm im hact p mem ret
  obtain ⟨hmem, hpw⟩ := activeLanes_spec fun l => im l && fm l
  cases hls : activeLanes fun l => im l && fm l with
  | nil => have := (hmem f).2 hf; rw [hls] at this; cases this
  | cons k t =>
    have hk : k = f := by
      have h1 := hfirst k ((hmem k).1 (by rw [hls]; simp))
      have h2 := (hmem f).2 hf
      rw [hls] at h2 hpw
      rcases List.mem_cons.1 h2 with h2 | h2
      · exact h2.symm
      · have := (List.pairwise_cons.1 hpw).1 f h2
        exact absurd h1 (by simp only [Fin.le_def]; omega)
    subst hk
    have hw := (cas_one_winner c new hnew p (k :: t) ⟨mem, ret, 0⟩ (hls ▸ nodup_activeLanes _)).2 hc k t rfl
    rw [hls] at h
    refine ⟨_, _, h, hw.1, hw.2.1, fun l hl hne => hw.2.2 l ?_⟩
    have := (hmem l).2 hl
    rw [hls] at this
    exact (List.mem_cons.1 this).resolve_left hne

/-- C19: `atomic_OP_global` through varying pointers, with arbitrary interference. -/
theorem global_rmw_varying (hW : W ≤ 64) (env : Nat → Mem α → Mem α) (op : α → α → α) (value : Vec W α) (fm im : Mask W)
    (hact : ∃ l, im l = true ∧ fm l = true) (ptr : Vec W Int) (d : Sys W α) :
    atomicVaryingPtr env (rmwOf op value) fm im ptr d =
      some ((activeLanes fun l => im l && fm l).foldl (step env (fun a l => op a (value l)) ptr) d) :=
  atomicVaryingPtr_serial hW env _ _ (rmwOf_eq op value) fm im hact ptr d

/-- C19: `atomic_compare_exchange_global` through varying pointers, with arbitrary interference. -/
theorem global_cas_varying (hW : W ≤ 64) (env : Nat → Mem α → Mem α) (eq : α → α → Bool) (cmp new : Vec W α)
    (fm im : Mask W) (hact : ∃ l, im l = true ∧ fm l = true) (ptr : Vec W Int) (d : Sys W α) :
    atomicVaryingPtr env (casOf eq cmp new) fm im ptr d =
      some ((activeLanes fun l => im l && fm l).foldl (step env (fun a l => if eq a (cmp l) then new l else a) ptr) d) :=
  atomicVaryingPtr_serial hW env _ _ (casOf_eq eq cmp new) fm im hact ptr d

/-- C19: `atomic_add_global`/`atomic_subtract_global` on `float` and `double` to one location (util.m4). -/
theorem global_fp_per_lane (hW : W ≤ 64) (env : Nat → Mem α → Mem α) (op : α → α → α) (value : Vec W α) (known : Bool)
    (mask : Mask W) (p : Int) (d : Sys W α) :
    atomicPerLane env (rmwOf op value) known mask p d =
      some ((activeLanes mask).foldl (step env (fun a l => op a (value l)) fun _ => p) d) :=
  atomicPerLane_serial hW env _ _ (rmwOf_eq op value) known mask p d

/-- C19: `atomic_compare_exchange_global` to one location (util.m4). -/
theorem global_cas_per_lane (hW : W ≤ 64) (env : Nat → Mem α → Mem α) (eq : α → α → Bool) (cmp new : Vec W α) (known : Bool)
    (mask : Mask W) (p : Int) (d : Sys W α) :
    atomicPerLane env (casOf eq cmp new) known mask p d =
      some ((activeLanes mask).foldl (step env (fun a l => if eq a (cmp l) then new l else a) fun _ => p) d) :=
  atomicPerLane_serial hW env _ _ (casOf_eq eq cmp new) known mask p d

/-- Non-vacuity: another thread stores 7 between the two instances' additions. -/
example : ∃ d', atomicVaryingPtr (W := 2) (fun t m => if t = 1 then fun _ => 7#8 else m) (rmwOf (· + ·) fun _ : Fin 2 => 1#8)
      (fun _ => true) (fun _ => true) (fun _ => 4) ⟨fun _ => 0#8, fun _ => 0#8, 0⟩ = some d' ∧ d'.mem 4 = 8#8 ∧
    d'.ret 0 = 0#8 ∧ d'.ret 1 = 7#8 := ⟨_, rfl, by decide +kernel⟩

end Ispc.Atomics
