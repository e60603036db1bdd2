import Mathlib.Data.List.Basic
import Mathlib.Data.List.FinRange
import Mathlib.Algebra.BigOperators.Group.List.Basic

/-!
# Model of `foreach` and `foreach_tiled` (src/stmt.cpp:1471-2022)

The loop nest that `ForeachStmt::EmitCode` emits, with its basic blocks read as structured loops.  The result of
running it is the sequence of executions of the loop body, each with its execution mask and the value of the
index variables in every program instance.  `none` stands for "did not finish within the fuel" or "used the
result of a signed 32-bit operation that overflowed" (LLVM `nsw` poison).
The loop body cannot change the loop's own counters (they are internal), cannot `break` or `return`
(compile errors inside `foreach`), and a `continue` only turns instances off for the rest of one body execution,
so the body itself is not part of the model.
-/

namespace Ispc.Foreach

/-- Does a value fit a signed 32-bit integer? -/
def i32 (x : Int) : Bool := decide (-2 ^ 31 ≤ x ∧ x < 2 ^ 31)

/-- 32-bit signed arithmetic with `nsw`: no value on overflow. -/
def chk (x : Int) : Option Int := if i32 x then some x else none

/-- One execution of the loop body by the gang. -/
structure Visit (W : Nat) where
  mask : Fin W → Bool
  idx : Fin W → List Int

/-- `lLog2` (stmt.cpp:1525-1532). -/
def lLog2 (i : Nat) : Int := (if i = 0 then 0 else (Nat.log2 i + 1 : Nat)) - 1

/-- `lGetSpans` (stmt.cpp:1543-1567): spans of this dimension and the `dimsLeft` dimensions inside it. -/
def getSpans (tiled : Bool) : Nat → Nat → List Nat
  | 0, items => [items]
  | dimsLeft + 1, items =>
    let a := if tiled = false ∨ lLog2 items ≤ (dimsLeft + 1 : Nat) then 1
      else if 16 ≤ items ∧ dimsLeft + 1 = 1 then 4
      else 2
    a :: getSpans tiled dimsLeft (items / a)

/-- `lCalculateDeltaForVaryingCounter` (stmt.cpp:1478-1501) for a dimension of span `span` with the spans `rest`
of the dimensions inside it. -/
def delta (span : Nat) (rest : List Nat) (lane : Nat) : Nat := (lane / rest.prod) % span

/-- A dimension of the loop after the setup code (stmt.cpp:1616-1672). -/
structure SDim where
  start : Int
  stop : Int
  span : Nat
  aEnd : Int

/-- Setup of one dimension (stmt.cpp:1636-1649): `nItems`, `nExtras`, `alignedEnd`. -/
def setup (start stop : Int) (span : Nat) : Option SDim := do
  let nItems ← chk (stop - start)
  let aEnd ← chk (stop - nItems.tmod span)
  some ⟨start, stop, span, aEnd⟩

variable {W : Nat}

/-- `lUpdateVaryingCounter` (stmt.cpp:1507-1522): the index value of a lane. -/
def lv (D : SDim) (rest : List Nat) (c : Int) (l : Fin W) : Int := c + delta D.span rest l

/-- Execute the body: all index values of the innermost dimension must have been computed without overflow. -/
def body (D : SDim) (c : Int) (mask : Fin W → Bool) (pre : Fin W → List Int) : Option (Visit W) :=
  if ∀ l : Fin W, i32 (lv D [] c l) then some ⟨mask, fun l => pre l ++ [lv D [] c l]⟩ else none

/-- The innermost dimension (stmt.cpp:1754-2011).  `inEx` is `inExtras.back()`: some outer dimension is at its
ragged end; `m` is the outer mask `extrasMaskPtrs[nDims-2]`. -/
def innerLoop (D : SDim) (inEx : Bool) (m : Fin W → Bool) (pre : Fin W → List Int) : Nat → Int → Option (List (Visit W))
  | 0, _ => none
  | k + 1, c =>
    if inEx then
      -- outer_in_extras (1813-1825)
      if c < D.aEnd then do
        -- all_inner_partial_outer (1849-1863), step_inner_index (2004-2011)
        let v ← body D c m pre
        let c' ← chk (c + D.span)
        let vs ← innerLoop D inEx m pre k c'
        some (v :: vs)
      else if c ≠ D.stop then do
        -- both_partial (1868-1892)
        let v ← body D c (fun l => m l && decide (lv D [] c l < D.stop)) pre
        some [v]
      else some []
    else
      -- outer_not_in_extras (1907-1915)
      if c < D.aEnd then do
        -- full_body (1924-1944)
        let v ← body D c (fun _ => true) pre
        let c' ← chk (c + D.span)
        let vs ← innerLoop D inEx m pre k c'
        some (v :: vs)
      else if c < D.stop then do
        -- partial_inner_all_outer, partial_inner_only (1951-1974)
        let v ← body D c (fun l => decide (lv D [] c l < D.stop)) pre
        some [v]
      else some []

/-- An outer dimension (stmt.cpp:1702-1752): test, inner dimensions, step. -/
def outerLoop (D : SDim) (rest : List Nat) (inner : Bool → (Fin W → Bool) → (Fin W → List Int) → Option (List (Visit W)))
    (inEx : Bool) (m : Fin W → Bool) (pre : Fin W → List Int) : Nat → Int → Option (List (Visit W))
  | 0, _ => none
  | k + 1, c =>
    if c < D.stop then
      if ∀ l : Fin W, i32 (lv D rest c l) then do
        let inEx' := (decide (D.stop > D.aEnd) && decide (c = D.aEnd)) || inEx
        let vs ← inner inEx' (fun l => m l && decide (lv D rest c l < D.stop)) (fun l => pre l ++ [lv D rest c l])
        let c' ← chk (c + D.span)
        let ws ← outerLoop D rest inner inEx m pre k c'
        some (vs ++ ws)
      else none
    else some []

/-- The loop nest for a list of dimensions, outermost first. -/
def runDims (fuel : Nat) : List SDim → Bool → (Fin W → Bool) → (Fin W → List Int) → Option (List (Visit W))
  | [], _, _, _ => none
  | [D], inEx, m, pre => innerLoop D inEx m pre fuel D.start
  | D :: ds, inEx, m, pre =>
    outerLoop D (ds.map SDim.span) (runDims fuel ds) inEx m pre fuel D.start

/-- Setup of all dimensions. -/
def setupAll : List (Int × Int) → List Nat → Option (List SDim)
  | [], [] => some []
  | (a, b) :: rs, s :: ss => do
    let D ← setup a b s
    let Ds ← setupAll rs ss
    some (D :: Ds)
  | _, _ => none

/-- `foreach (x₁ = a₁ ... b₁, x₂ = a₂ ... b₂, ...)` for gang width `W`: the sequence of body executions. -/
def foreach (W : Nat) (tiled : Bool) (fuel : Nat) (ranges : List (Int × Int)) : Option (List (Visit W)) := do
  let Ds ← setupAll ranges (getSpans tiled (ranges.length - 1) W)
  runDims fuel Ds false (fun _ => true) (fun _ => [])

/-! ## Specification vocabulary -/

/-- The index tuples the program observes, in execution order: for each body execution the tuples of the active
instances, with the instance. -/
def actives (vs : List (Visit W)) : List (Fin W × List Int) :=
  vs.flatMap fun v => ((List.finRange W).filter v.mask).map fun l => (l, v.idx l)

/-- The tuple lies in the iteration domain. -/
def InBox : List (Int × Int) → List Int → Prop
  | [], [] => True
  | (a, b) :: rs, x :: xs => (a ≤ x ∧ x < b) ∧ InBox rs xs
  | _, _ => False

/-- The 32-bit arithmetic on a range with gang width `W` does not overflow. -/
def NoOverflow (W : Nat) (r : Int × Int) : Prop :=
  -2 ^ 31 ≤ r.1 ∧ -2 ^ 31 ≤ r.2 ∧ r.1 + W < 2 ^ 31 ∧ r.2 + W < 2 ^ 31 ∧ r.2 - r.1 < 2 ^ 31 ∧ r.1 - r.2 ≤ 2 ^ 31

end Ispc.Foreach
