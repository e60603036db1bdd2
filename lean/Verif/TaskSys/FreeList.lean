import Verif.TaskSys.Sched

/-!
# C27: the task group free list

`AllocTaskGroup` and `FreeTaskGroup` (examples/common/tasksys.cpp:942-971), every read of a slot and every
compare-and-swap a step of its own, for any number of concurrent callers.  A caller is an activation that
needs, owns or gives back one task group (`*taskGroupPtr` in `ISPCLaunch`/`ISPCAlloc`, 975-983 and 1006-1013;
`ISPCSync`, 998-1004).

The code violates the property: see `two_owners`.  `exclusive_partial` is what holds.
-/

namespace Ispc.FreeList

open Ispc.Sched (upd upd_apply)

/-- `MAX_FREE_TASK_GROUPS` (examples/common/tasksys.cpp:942). -/
def maxFree : Nat := 64

/-- Where a caller is. -/
inductive Pc where
  /-- in neither function -/
  | out
  /-- `AllocTaskGroup`, about to read slot `i` (examples/common/tasksys.cpp:946-947) -/
  | scan (i : Nat)
  /-- `AllocTaskGroup`, read `tg` from slot `i`, before the compare-and-swap (949) -/
  | cas (i tg : Nat)
  /-- `FreeTaskGroup(tg)`, about to read slot `i` (962-963) -/
  | fscan (i tg : Nat)
  /-- `FreeTaskGroup(tg)`, read null from slot `i`, before the compare-and-swap (964) -/
  | fcas (i tg : Nat)
deriving DecidableEq

/-- `freeTaskGroups`, the callers, the group each of them owns, and the next group `new` will return. -/
structure St where
  slot : Nat → Option Nat
  pc : Nat → Pc
  handle : Nat → Option Nat
  fresh : Nat

/-- Before the first call. -/
def init : St := ⟨fun _ => none, fun _ => .out, fun _ => none, 0⟩

/-- One step of caller `a`. -/
def exec (s : St) (a : Nat) : St :=
  match s.pc a with
  | .out =>
    match s.handle a with
    -- call AllocTaskGroup (examples/common/tasksys.cpp:980, 1010)
    | none => { s with pc := upd s.pc a (.scan 0) }
    -- call FreeTaskGroup (examples/common/tasksys.cpp:1002)
    | some g => { s with pc := upd s.pc a (.fscan 0 g), handle := upd s.handle a none }
  | .scan i =>
    if i < maxFree then
      match s.slot i with
      | none => { s with pc := upd s.pc a (.scan (i + 1)) }
      | some tg => { s with pc := upd s.pc a (.cas i tg) }
    else -- `return new TaskGroup` (examples/common/tasksys.cpp:956)
      { s with pc := upd s.pc a .out, handle := upd s.handle a (some s.fresh), fresh := s.fresh + 1 }
  | .cas i tg =>
    -- `lAtomicCompareAndSwapPointer(&freeTaskGroups[i], nullptr, tg)`, which returns the old value whether or
    -- not it stored; any non-null result is returned (examples/common/tasksys.cpp:949-952)
    match s.slot i with
    | none => { s with pc := upd s.pc a (.scan (i + 1)) }
    | some ptr =>
      { s with
        slot := if ptr = tg then upd s.slot i none else s.slot
        pc := upd s.pc a .out
        handle := upd s.handle a (some ptr) }
  | .fscan i tg =>
    if i < maxFree then
      match s.slot i with
      | none => { s with pc := upd s.pc a (.fcas i tg) }
      | some _ => { s with pc := upd s.pc a (.fscan (i + 1) tg) }
    else -- `delete tg` (examples/common/tasksys.cpp:970)
      { s with pc := upd s.pc a .out }
  | .fcas i tg =>
    -- (examples/common/tasksys.cpp:964-966)
    match s.slot i with
    | none => { s with slot := upd s.slot i (some tg), pc := upd s.pc a .out }
    | some _ => { s with pc := upd s.pc a (.fscan (i + 1) tg) }

/-- Any interleaving: a schedule is the list of callers taking the next step. -/
def run (sched : List Nat) : St := sched.foldl exec init

/-- No group has two owners. -/
def Exclusive (s : St) : Prop := ∀ a b g, s.handle a = some g → s.handle b = some g → a = b

/-- Caller 0 allocates a group (64 slots scanned) and caller 1 another; caller 0 frees its group into slot 0.
    Caller 2 reads slot 0 and is delayed; caller 3 allocates that group; caller 1 frees its own group into
    slot 0; now the compare-and-swap of caller 2 fails, but returns the group it found, which it takes for
    its own while it stays in the slot; caller 4 takes it from there. -/
def raceSched : List Nat :=
  List.replicate 66 0 ++ List.replicate 66 1 ++ [0, 0, 0] ++ [2, 2] ++ [3, 3, 3] ++ [1, 1, 1] ++ [2] ++ [4, 4, 4]

/-- The property fails: two callers own the same group at the same time. -/
theorem two_owners : ¬ ∀ sched, Exclusive (run sched) := by
  intro h
  have e2 : (run raceSched).handle 2 = some 1 := by decide +kernel
  have e4 : (run raceSched).handle 4 = some 1 := by decide +kernel
  have := h raceSched 2 4 1 e2 e4
  omega

/-- The window in which it goes wrong: a compare-and-swap that finds a group other than the one read. -/
def Lost (s : St) (a : Nat) : Prop := ∃ i tg ptr, s.pc a = .cas i tg ∧ s.slot i = some ptr ∧ ptr ≠ tg

/-- Along the schedule no compare-and-swap of `AllocTaskGroup` finds another group than the one read. -/
def NoLost : List Nat → St → Prop
  | [], _ => True
  | a :: r, s => ¬ Lost s a ∧ NoLost r (exec s a)

/-- The group a caller is giving back. -/
def freeing : Pc → Option Nat
  | .fscan _ g | .fcas _ g => some g
  | _ => none

/-- What a caller has: the group it owns or is giving back. -/
def has (s : St) (a : Nat) : Option Nat := (freeing (s.pc a)).or (s.handle a)

structure Inv (s : St) : Prop where
  uniq : ∀ a b g, has s a = some g → has s b = some g → a = b
  one : ∀ a, s.pc a ≠ .out → s.handle a = none
  slots : ∀ i j g, s.slot i = some g → s.slot j = some g → i = j
  apart : ∀ a i g, has s a = some g → s.slot i ≠ some g
  fresh : ∀ a g, has s a = some g → g < s.fresh
  freshSlot : ∀ i g, s.slot i = some g → g < s.fresh

theorem inv_init : Inv init := by
  constructor <;> simp [init, has, freeing]

theorem inv_exec {s : St} (hi : Inv s) (a : Nat) (hl : ¬ Lost s a) : Inv (exec s a) := by
  obtain ⟨i1, i2, i3, i4, i5, i6⟩ := hi
  have j1 := i2 a
  simp only [has] at i1 i4 i5
  unfold exec
  split
  · rename_i hp
    split <;> refine ⟨?_, ?_, ?_, ?_, ?_, ?_⟩ <;> simp only [has] <;> grind [freeing]
  · rename_i i hp
    have hn : s.handle a = none := j1 (by simp [hp])
    split
    · split <;> refine ⟨?_, ?_, ?_, ?_, ?_, ?_⟩ <;> simp only [has] <;> grind [freeing]
    · refine ⟨?_, ?_, ?_, ?_, ?_, ?_⟩ <;> simp only [has] <;> grind [freeing]
  · rename_i i tg hp
    have hn : s.handle a = none := j1 (by simp [hp])
    split
    · refine ⟨?_, ?_, ?_, ?_, ?_, ?_⟩ <;> simp only [has] <;> grind [freeing]
    · rename_i ptr hs
      have : ptr = tg := by
        by_contra h
        exact hl ⟨i, tg, ptr, hp, hs, h⟩
      subst this
      rw [if_pos rfl]
      refine ⟨?_, ?_, ?_, ?_, ?_, ?_⟩ <;> simp only [has] <;> grind [freeing]
  · rename_i i tg hp
    have hn : s.handle a = none := j1 (by simp [hp])
    split
    · split <;> refine ⟨?_, ?_, ?_, ?_, ?_, ?_⟩ <;> simp only [has] <;> grind [freeing]
    · refine ⟨?_, ?_, ?_, ?_, ?_, ?_⟩ <;> simp only [has] <;> grind [freeing]
  · rename_i i tg hp
    have hn : s.handle a = none := j1 (by simp [hp])
    split <;> refine ⟨?_, ?_, ?_, ?_, ?_, ?_⟩ <;> simp only [has] <;> grind [freeing]

theorem inv_fold {s : St} (hi : Inv s) (sched : List Nat) (h : NoLost sched s) : Inv (sched.foldl exec s) := by
  induction sched generalizing s with
  | nil => exact hi
  | cons a r ih => exact ih (inv_exec hi a h.1) h.2

/-- What holds: as long as no compare-and-swap of `AllocTaskGroup` finds in the slot a group other than the one
    it read a moment before, no group has two owners, and no owned group is on the free list.  (The full
    property, without that condition, is false: `two_owners`.) -/
theorem exclusive_partial (sched : List Nat) (h : NoLost sched init) :
    Exclusive (run sched) ∧ ∀ a i g, (run sched).handle a = some g → (run sched).slot i ≠ some g := by
  have hi := inv_fold inv_init sched h
  have hhas : ∀ a g, (run sched).handle a = some g → has (run sched) a = some g := by
    intro a g hg
    by_cases hp : (run sched).pc a = .out
    · simp [has, hp, freeing, hg]
    · have := hi.one a hp
      rw [show (run sched) = sched.foldl exec init from rfl] at hg
      rw [this] at hg
      simp at hg
  exact ⟨fun a b g ha hb => hi.uniq a b g (hhas a g ha) (hhas b g hb), fun a i g ha => hi.apart a i g (hhas a g ha)⟩

/-- A schedule in which the callers are never inside the two functions at the same time. -/
def Solo : List Nat → St → Prop
  | [], _ => True
  | a :: r, s => (∀ b, b ≠ a → s.pc b = .out) ∧ Solo r (exec s a)

theorem solo_noLost (sched : List Nat) (s : St) (hc : ∀ a i tg, s.pc a = .cas i tg → s.slot i = some tg)
    (h : Solo sched s) : NoLost sched s := by
  induction sched generalizing s with
  | nil => trivial
  | cons a r ih =>
    refine ⟨?_, ih (exec s a) ?_ h.2⟩
    · rintro ⟨i, tg, ptr, h1, h2, h3⟩
      rw [hc a i tg h1] at h2
      exact h3 (Option.some.inj h2).symm
    · intro b i tg
      have hb := h.1 b
      unfold exec
      split <;> (repeat' split) <;> grind

/-- In particular the property holds when calls of the two functions never overlap, for any number of callers
    and any history of them. -/
theorem exclusive_sequential (sched : List Nat) (h : Solo sched init) : Exclusive (run sched) :=
  (exclusive_partial sched (solo_noLost sched init (by intro a i tg h; simp [init] at h) h)).1

/-- `Solo`, decided for schedules of the first `k` callers. -/
def soloB (k : Nat) : List Nat → St → Bool
  | [], _ => true
  | a :: r, s => decide (a < k) && (List.range k).all (fun b => decide (b = a ∨ s.pc b = .out)) && soloB k r (exec s a)

theorem solo_of_soloB (k : Nat) (l : List Nat) (s : St) (h1 : ∀ b, k ≤ b → s.pc b = .out) (h : soloB k l s = true) :
    Solo l s := by
  induction l generalizing s with
  | nil => trivial
  | cons a r ih =>
    simp only [soloB, Bool.and_eq_true, List.all_eq_true, List.mem_range, decide_eq_true_eq] at h
    refine ⟨fun b hb => ?_, ih (exec s a) ?_ h.2⟩
    · by_cases hk : b < k
      · exact (h.1.2 b hk).resolve_left hb
      · exact h1 b (by omega)
    · intro b hb
      have hba : b ≠ a := by omega
      have := h1 b hb
      unfold exec
      split <;> (repeat' split) <;> simp_all

/-- Non-trivial: two callers allocate one after the other, the first frees, a third takes its group over. -/
example : ∃ sched, Solo sched init ∧ (run sched).handle 1 = some 1 ∧ (run sched).handle 2 = some 0 ∧
    (run sched).handle 0 = none := by
  refine ⟨List.replicate 66 0 ++ List.replicate 66 1 ++ [0, 0, 0] ++ [2, 2, 2], ?_, ?_, ?_, ?_⟩
  · exact solo_of_soloB 3 _ _ (by intro b _; rfl) (by decide +kernel)
  all_goals decide +kernel

end Ispc.FreeList
