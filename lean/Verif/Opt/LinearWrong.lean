import Verif.Opt.LinearExec

/-!
# Offset vectors the analysis gets wrong

Each program below is an ordinary loop on a 4-wide target.  The analysis answers
that the index vector is linear (or uniform), and an execution of the program
makes it something else, so the gather or scatter that uses it is replaced by an
access to other elements.
-/

namespace Ispc.LinearWrong

open Ispc.Linear Ispc.LinearExec

/-- A gang of 4 with the listed definitions, all `w` bits wide. -/
def prog (w : Nat) (ns : List Node) : Graph where
  lanes := 4
  node n := ns.getD n .other
  ty _ := w

/-- `c, c+1, c+2, c+3` -/
def ramp (c : Nat) : Nat → Nat := fun l => c + l

/-- The claim that is false: whenever the analysis says that a definition is
linear, it is linear in every execution. -/
def LinearSound (g : Graph) (n : Nat) (s : Int) : Prop :=
  saysLinear g n s → ∀ hist v, Run g hist → latest hist n = some v → IsLinear g.lanes (g.ty n) s v

/-- The same for uniform definitions. -/
def AllEqualSound (g : Graph) (n : Nat) : Prop :=
  saysAllEqual g n → ∀ hist v, Run g hist → latest hist n = some v → AllEqual g.lanes v

theorem not_linear {g : Graph} {n : Nat} {s : Int} (f : Nat) (es : List (Nat × Nat))
    (ls : List Nat) (hc : check g f (.linear [] s n) = some true)
    (h : lanesAfter g es n = some ls) (l : Nat) (hl : l < g.lanes)
    (hbad : ¬ ((ls.getD l 0 : Int) ≡ ls.getD 0 0 + l * s [ZMOD 2 ^ g.ty n])) :
    ¬ LinearSound g n s := by
  intro hs
  obtain ⟨hist, v, hr, hv, rfl⟩ := reaches h
  have := hs ⟨f, hc⟩ hist v hr hv l hl
  apply hbad
  have e : ∀ i < g.lanes, ((List.range g.lanes).map v).getD i 0 = v i := by
    intro i hi; simp [hi]
  rw [e l hl, e 0 (by omega)]
  exact this

theorem not_allEqual {g : Graph} {n : Nat} (f : Nat) (es : List (Nat × Nat))
    (ls : List Nat) (hc : check g f (.allEq [] n) = some true)
    (h : lanesAfter g es n = some ls) (l : Nat) (hl : l < g.lanes)
    (hbad : ls.getD l 0 ≠ ls.getD 0 0) :
    ¬ AllEqualSound g n := by
  intro hs
  obtain ⟨hist, v, hr, hv, rfl⟩ := reaches h
  have := hs ⟨f, hc⟩ hist v hr hv l hl
  apply hbad
  have e : ∀ i < g.lanes, ((List.range g.lanes).map v).getD i 0 = v i := by
    intro i hi; simp [hi]
  rw [e l hl, e 0 (by omega)]
  exact this

/-- `foreach (i = 0 ... n) … a[(i + 1) & 7] …`: the loop counter (definition 1)
steps by 4 from 0, the index vector is definition 8. -/
def ring : Graph := prog 32
  [.sconst 0, .sphi [0, 2], .sadd 1 3, .sconst 4, .splat 1, .const (ramp 1), .bin .add 4 5,
    .const fun _ => 7, .bin .and 6 7]

/-- `a[(i + 1) & 7]` is taken to be consecutive elements; in the second
iteration the indices are 5, 6, 7, 0. -/
theorem ring_index_wrong : ¬ LinearSound ring 8 1 :=
  not_linear 10
    [(0, 0), (3, 0), (1, 0), (2, 0), (1, 2), (4, 0), (5, 0), (6, 0), (7, 0), (8, 0)]
    [5, 6, 7, 0] (by decide +kernel) (by decide +kernel) 3 (by decide) (by decide +kernel)

/-- `foreach (i = 1016 ... n) … a[(i + 1) & 1023] …` on an 8-wide target. -/
def ring8 : Graph where
  lanes := 8
  node n := [.sconst 1016, .sphi [0, 2], .sadd 1 3, .sconst 8, .splat 1, .const (ramp 1),
    .bin .add 4 5, .const fun _ => 1023, .bin .and 6 7].getD n .other
  ty _ := 32

/-- The last lane of the block that starts at 1016 wants element 0; the vector
load reads element 1024, past the end of a table of 1024. -/
theorem ring8_index_wrong : ¬ LinearSound ring8 8 1 :=
  not_linear 10 [(0, 0), (1, 0), (4, 0), (5, 0), (6, 0), (7, 0), (8, 0)]
    [1017, 1018, 1019, 1020, 1021, 1022, 1023, 0] (by decide +kernel) (by decide +kernel) 7
    (by decide) (by decide +kernel)

/-- `foreach (i = 0 ... n) … a[(i + 1) >> 3] …` -/
def blocked : Graph := prog 32
  [.sconst 0, .sphi [0, 2], .sadd 1 3, .sconst 4, .splat 1, .const (ramp 1), .bin .add 4 5,
    .const fun _ => 3, .bin .ashr 6 7]

/-- `a[(i + 1) >> 3]` is taken to be one element for the whole gang; in the
second iteration the indices are 0, 0, 0, 1. -/
theorem blocked_index_wrong : ¬ AllEqualSound blocked 8 :=
  not_allEqual 10
    [(0, 0), (3, 0), (1, 0), (2, 0), (1, 2), (4, 0), (5, 0), (6, 0), (7, 0), (8, 0)]
    [0, 0, 0, 1] (by decide +kernel) (by decide +kernel) 3 (by decide) (by decide +kernel)

/-- `int64 i; … a[(i + programIndex - 1) >> 3] …` with a 64-bit loop counter
stepping by 4 from 0. -/
def blocked64 : Graph := prog 64
  [.sconst 0, .sphi [0, 2], .sadd 1 3, .sconst 4, .splat 1, .const (ramp (2 ^ 64 - 1)),
    .bin .add 4 5, .const fun _ => 3, .bin .ashr 6 7]

/-- C++ division rounds -1 / 8 to 0, the shift gives -1: in the first iteration
lane 0 wants element -1 and the others element 0. -/
theorem blocked_negative_wrong : ¬ AllEqualSound blocked64 8 :=
  not_allEqual 10 [(0, 0), (1, 0), (4, 0), (5, 0), (6, 0), (7, 0), (8, 0)]
    [2 ^ 64 - 1, 0, 0, 0] (by decide +kernel) (by decide +kernel) 3 (by decide) (by decide +kernel)

/-- `int j = programIndex; for (…) { … a[j >> 3] …; j++; }`: `j` is definition 1. -/
def shifted : Graph := prog 32
  [.const (ramp 0), .phi [0, 2], .bin .add 1 3, .const fun _ => 1, .const fun _ => 3,
    .bin .ashr 1 4]

/-- `a[j >> 3]` is taken to be one element for the whole gang: in the list of phi
nodes that are being examined, `j` is remembered as having equal quotients and
then accepted as having equal elements.  After five iterations the indices are
0, 0, 0, 1. -/
theorem shifted_phi_wrong : ¬ AllEqualSound shifted 5 :=
  not_allEqual 10
    [(0, 0), (3, 0), (4, 0), (1, 0), (2, 0), (1, 2), (2, 0), (1, 2), (2, 0), (1, 2), (2, 0), (1, 2),
      (2, 0), (1, 2), (5, 0)]
    [0, 0, 0, 1] (by decide +kernel) (by decide +kernel) 3 (by decide) (by decide +kernel)

/-- `int j = programIndex; for (…) { … a[j] …; j = n - j; }`: `j` is definition 1. -/
def mirror : Graph := prog 32
  [.const (ramp 0), .phi [0, 4], .sother, .splat 2, .bin .sub 3 1]

/-- `a[j]` is taken to be ascending in every iteration: the list of phi nodes
does not say for which stride.  In the second iteration (with n = 9) the indices
are 9, 8, 7, 6. -/
theorem mirror_phi_wrong : ¬ LinearSound mirror 1 1 :=
  not_linear 10 [(0, 0), (1, 0), (2, 9), (3, 0), (4, 0), (1, 4)]
    [9, 8, 7, 6] (by decide +kernel) (by decide +kernel) 3 (by decide) (by decide +kernel)

/-- `int j = programIndex; for (…) { … a[j] …; j = (j + 1) & 7; }` -/
def ringPhi : Graph := prog 32
  [.const (ramp 0), .phi [0, 5], .const fun _ => 1, .bin .add 1 2, .const fun _ => 7, .bin .and 3 4]

/-- `a[j]` is taken to be consecutive elements; after five iterations the indices
are 5, 6, 7, 0. -/
theorem ring_phi_wrong : ¬ LinearSound ringPhi 1 1 :=
  not_linear 10
    [(0, 0), (2, 0), (4, 0), (1, 0), (3, 0), (5, 0), (1, 5), (3, 0), (5, 0), (1, 5), (3, 0), (5, 0),
      (1, 5), (3, 0), (5, 0), (1, 5), (3, 0), (5, 0), (1, 5)]
    [5, 6, 7, 0] (by decide +kernel) (by decide +kernel) 3 (by decide) (by decide +kernel)

/-- `uint8 v = programIndex; v += u; … a[v] …` with a uniform `u`: the 8-bit sum
(definition 3) is zero-extended to the 32-bit index (definition 4). -/
def narrow : Graph where
  lanes := 4
  node n := [Node.sother, .splat 0, .const (ramp 0), .bin .add 1 2, .cast .zext 3].getD n .other
  ty n := if n = 4 then 32 else 8

/-- `a[v]` is taken to be consecutive elements, although the 8-bit index wraps:
for `u` = 254 the indices are 254, 255, 0, 1. -/
theorem narrow_index_wrong : ¬ LinearSound narrow 4 1 :=
  not_linear 10 [(0, 254), (1, 0), (2, 0), (3, 0), (4, 0)]
    [254, 255, 0, 1] (by decide +kernel) (by decide +kernel) 3 (by decide) (by decide +kernel)

/-- `int j = 0; for (…) { … a[j >> 3] …; j += programIndex; }`: `j` is definition 1. -/
def accumulate : Graph := prog 32
  [.const fun _ => 0, .phi [0, 2], .bin .add 1 3, .const (ramp 0), .const fun _ => 3,
    .bin .ashr 1 4]

/-- The compiler stops on a failed assertion on this program, at any depth of
recursion: `lIsExactMultiple` requires its argument to be uniform, and it is
asked about `j`, which is only being assumed to be. -/
theorem accumulate_assertion (f : Nat) : check accumulate f (.allEq [] 5) = none := by
  by_cases hf : f < 8
  · have : ∀ f < 8, check accumulate f (.allEq [] 5) = none := by decide +kernel
    exact this f hf
  · obtain ⟨d, rfl⟩ := Nat.exists_eq_add_of_le (Nat.le_of_not_lt hf)
    rw [Nat.add_comm]
    rfl

end Ispc.LinearWrong
