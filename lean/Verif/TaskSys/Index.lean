import Mathlib.Tactic.Ring
import Mathlib.Tactic.Linarith

/-!
# Task index decomposition (C25)

Model of the index arithmetic of `TaskInfo` (examples/common/tasksys.cpp:144-160) and of the way
`ISPCLaunch` numbers the tasks of one launch (examples/common/tasksys.cpp:690-738, 975-996).
C `int` division/remainder of non-negative operands is `Nat` division/remainder; the product of the three
counts is assumed not to overflow a 32-bit `int` (the C code has undefined behaviour otherwise), which is why
`Nat` is used throughout.
-/

namespace Ispc.TaskSys

/-- `TaskInfo::taskCount3d` (tasksys.cpp:148). -/
structure Counts where
  c0 : Nat
  c1 : Nat
  c2 : Nat

/-- `TaskInfo::taskCount` (tasksys.cpp:152). -/
def Counts.total (c : Counts) : Nat := c.c0 * c.c1 * c.c2

/-- `TaskInfo::taskIndex0` (tasksys.cpp:153). -/
def index0 (c : Counts) (i : Nat) : Nat := i % c.c0

/-- `TaskInfo::taskIndex1` (tasksys.cpp:154). -/
def index1 (c : Counts) (i : Nat) : Nat := (i / c.c0) % c.c1

/-- `TaskInfo::taskIndex2` (tasksys.cpp:155). -/
def index2 (c : Counts) (i : Nat) : Nat := i / (c.c0 * c.c1)

/-- **C25**: for every launch with `n0 x n1 x n2` tasks, every triple below the counts is seen by exactly one
of the tasks `0 .. n0*n1*n2-1`, and that task's `taskIndex` is the row-major rank of the triple. -/
theorem task_index_bijection (c : Counts) (x y z : Nat) (hx : x < c.c0) (hy : y < c.c1) (hz : z < c.c2) :
    ∃! i, i < c.total ∧ index0 c i = x ∧ index1 c i = y ∧ index2 c i = z := by
  have h0 : 0 < c.c0 := by omega
  have h1 : 0 < c.c1 := by omega
  refine ⟨x + c.c0 * (y + c.c1 * z), ⟨?_, ?_, ?_, ?_⟩, ?_⟩
  · unfold Counts.total
    have e1 : y + c.c1 * z + 1 ≤ c.c1 * c.c2 := by nlinarith
    nlinarith
  · simp [index0, Nat.add_mul_mod_self_left, Nat.mod_eq_of_lt hx]
  · simp only [index1]
    rw [Nat.add_mul_div_left _ _ h0, Nat.div_eq_of_lt hx, Nat.zero_add, Nat.add_mul_mod_self_left,
      Nat.mod_eq_of_lt hy]
  · simp only [index2]
    rw [← Nat.div_div_eq_div_mul, Nat.add_mul_div_left _ _ h0, Nat.div_eq_of_lt hx, Nat.zero_add,
      Nat.add_mul_div_left _ _ h1, Nat.div_eq_of_lt hy, Nat.zero_add]
  · rintro i ⟨_, hi0, hi1, hi2⟩
    simp only [index0, index1, index2] at hi0 hi1 hi2
    rw [← Nat.div_div_eq_div_mul] at hi2
    have a := Nat.mod_add_div i c.c0
    have b := Nat.mod_add_div (i / c.c0) c.c1
    rw [hi0] at a
    rw [hi1, hi2] at b
    rw [b]
    exact a.symm

/-- **C25**: no task of the launch sees an index outside the launch domain, and its `taskIndex` is the
row-major rank of the triple it sees. -/
theorem task_index_in_range (c : Counts) (i : Nat) (hi : i < c.total) :
    index0 c i < c.c0 ∧ index1 c i < c.c1 ∧ index2 c i < c.c2 ∧
    i = index0 c i + c.c0 * (index1 c i + c.c1 * index2 c i) := by
  unfold Counts.total at hi
  have h0 : 0 < c.c0 := by
    rcases Nat.eq_zero_or_pos c.c0 with h | h
    · simp [h] at hi
    · exact h
  have h1 : 0 < c.c1 := by
    rcases Nat.eq_zero_or_pos c.c1 with h | h
    · simp [h] at hi
    · exact h
  refine ⟨Nat.mod_lt _ h0, Nat.mod_lt _ h1, ?_, ?_⟩
  · exact Nat.div_lt_of_lt_mul hi
  · simp only [index0, index1, index2]
    rw [← Nat.div_div_eq_div_mul, Nat.mod_add_div, Nat.mod_add_div]

/-- Non-vacuity: task 17 of `launch[3,4,2]` is the task with index triple (2,1,1). -/
example : index0 ⟨3, 4, 2⟩ 17 = 2 ∧ index1 ⟨3, 4, 2⟩ 17 = 1 ∧ index2 ⟨3, 4, 2⟩ 17 = 1 ∧
    17 < (⟨3, 4, 2⟩ : Counts).total := by decide

end Ispc.TaskSys
