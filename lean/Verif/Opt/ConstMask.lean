import Verif.Builtins.GatherProps
import Verif.Opt.GatherToLoad

/-!
# Operations whose mask is a constant

`IntrinsicsOpt`, `InstructionSimplify`, `lImproveMaskedStore` and `lImproveMaskedLoad` (`src/opt/ImproveMemoryOps.cpp`)
and `ReplaceMaskedMemOps` replace selects, blends, `movmsk`, loads and stores whose mask is a constant.

An element of a constant mask that is `undef` or poison is `none`.  Such an element may be taken for on or off by
whoever reads it, so the operation with the constant mask has the results of the operation with each of the masks that
agree with the defined elements.
-/

namespace Ispc.ConstMask

open Ispc.Vec Ispc.Gather
open Ispc.ForeachActive (Mask movmsk activeLanes)
open Ispc.GatherToLoad (MaskStatus)

/-- A constant mask: the high bits of its elements. -/
abbrev Const (L : Nat) := Vec L (Option Bool)

variable {L n : Nat} {α : Type}

/-! ## Masks of any length -/

/-- `lConstElementsToMask` (src/llvmutil.cpp:1847-1885), which `GetMaskFromValue` (src/llvmutil.cpp:1893-1925) returns:
the loop sets bits as that of `movmsk` does.  The compiler stops with an assertion if there are more than 64
elements. -/
def constBits (e : Const L) : BitVec 64 :=
  let mask := movmsk fun l => e l == some true
  let undefSet := movmsk fun l => e l == none
  if mask ≠ 0#64 then mask ||| undefSet else mask

/-- `GetMaskStatusFromValue` (src/llvmutil.cpp:1930-1951) without a second argument: `gang` is the width of the target,
whatever the length of the mask. -/
def status (gang : Nat) (e : Const L) : MaskStatus :=
  if constBits e = 0#64 then .all_off
  else if (List.range gang).any fun i => !(constBits e).getLsbD i then .mixed else .all_on

/-- `lSimplifySelect` (src/opt/InstructionSimplify.cpp:52-88): the value the `select` is replaced by.  Its last part
looks for a conversion of a conversion and never finds one: `lSimplifyBoolVec` (src/opt/InstructionSimplify.cpp:12-50)
asks whether the truncation is itself an extension. -/
def simplifySelect (gang : Nat) (e : Const L) (a b : Vec L α) : Option (Vec L α) :=
  match status gang e with
  | .all_on => some a
  | .all_off => some b
  | _ => none

/-- What is done with a blend (src/opt/IntrinsicsOptPass.cpp:63-106), the operands being neither equal nor undefined:
the instruction takes the element of the second operand where the mask is on. -/
def simplifyBlend (gang : Nat) (e : Const L) (a b : Vec L α) : Option (Vec L α) :=
  match status gang e with
  | .all_off => some a
  | .all_on => some b
  | _ => none

/-- `lSimplifyCall` (src/opt/InstructionSimplify.cpp:90-106) and the same for the instructions
(src/opt/IntrinsicsOptPass.cpp:107-118): the number that replaces the `movmsk`. -/
def foldMovmsk (e : Const L) : BitVec 64 := constBits e

/-- `lImproveMaskedLoad` (src/opt/ImproveMemoryOps.cpp:1656-1701): the result of the load, or nothing if the call
stays. -/
def improveLoad (gang : Nat) (e : Const L) (m : Mem) (n : Nat) (ptr : Addr) : Option (Option (Res L n)) :=
  match status gang e with
  | .all_off => some (some fun _ => none)
  | .all_on => some (loadVec m n ptr)
  | _ => none

/-- `lImproveMaskedStore` (src/opt/ImproveMemoryOps.cpp:1575-1654), and what is done with `llvm.x86.avx.maskstore`
(src/opt/IntrinsicsOptPass.cpp:155-188). -/
def improveStore (gang : Nat) (e : Const L) (m : Mem) (ptr : Addr) (vals : Vec L (Elt n)) : Option (Option Mem) :=
  match status gang e with
  | .all_off => some (some m)
  | .all_on => some (storeVec m ptr vals)
  | _ => none

/-- `llvm.x86.avx.maskload`: an element that is off is zero (Intel's manual, VMASKMOV). -/
def avxMaskload (m : Mem) (n : Nat) (ptr : Addr) (mask : Mask L) : Option (Res L n) :=
  (maskedLoadIntrinsic m n ptr mask).map fun r l => if mask l then r l else some fun _ => 0

/-- What it is replaced by (src/opt/IntrinsicsOptPass.cpp:119-154). -/
def improveMaskload (gang : Nat) (e : Const L) (m : Mem) (n : Nat) (ptr : Addr) : Option (Option (Res L n)) :=
  improveLoad gang e m n ptr

/-! ## Masks that are on at the beginning: `ReplaceMaskedMemOps` -/

/-- `lIsPowerOf2` (src/opt/ReplaceMaskedMemOps.cpp:17). -/
def isPow2 (n : Nat) : Bool := decide (0 < n) && (n &&& (n - 1)) == 0

/-- The first loop of `lCheckMask` (src/opt/ReplaceMaskedMemOps.cpp:31-42). -/
def truePrefix : List (Option Bool) → Nat
  | [] => 0
  | some true :: e => truePrefix e + 1
  | some false :: _ => 0
  | none :: e => truePrefix e

/-- `lCheckMask` (src/opt/ReplaceMaskedMemOps.cpp:24-63), the second loop being `all`. -/
def checkMask (e : List (Option Bool)) : Option Nat :=
  let p := truePrefix e
  if isPow2 e.length && ((e.drop (p + 1)).all fun b => b != some true) && (isPow2 p || p == 3) then some p else none

/-- `shufflevector a, b, idx`: the compiler stops if the lengths differ or an index is out of range. -/
def shuffle (a b : List α) (idx : List Nat) : Option (List α) :=
  if a.length = b.length then idx.mapM fun i => (a ++ b)[i]? else none

/-- `lShrinkVector` (src/opt/ReplaceMaskedMemOps.cpp:67-76); the second operand, which is poison, is not used. -/
def shrink (v : List α) (k : Nat) : Option (List α) := shuffle v v (List.range k)

/-- `lExtractSecondPartOfConstVec` (src/opt/ReplaceMaskedMemOps.cpp:82-100). -/
def secondPart (v : List α) (k : Nat) : List α := v.drop k

/-- `lExtendVec3ToVec4` (src/opt/ReplaceMaskedMemOps.cpp:104-118). -/
def extend3 (v sec : List α) : Option (List α) := do
  let sec3 ← shuffle sec sec [0, 0, 0]
  shuffle v sec3 [0, 1, 2, 3]

/-- The loop of `lMaskedMergeVectors` (src/opt/ReplaceMaskedMemOps.cpp:146-160); the length doubles, so that as many
rounds as the vector is long are enough. -/
def mergeLoop : Nat → List α → List α → Nat → Option (List α)
  | 0, first, _, _ => some first
  | fuel + 1, first, second, len =>
    if len < second.length then do
      let sub ← shrink (secondPart second len) len
      let first ← shuffle first sub (List.range (len * 2))
      mergeLoop fuel first second (len * 2)
    else some first

/-- `lMaskedMergeVectors` (src/opt/ReplaceMaskedMemOps.cpp:130-163). -/
def merge (first second : List α) : Option (List α) :=
  if first.length = 3 then do
    let first ← extend3 first second
    mergeLoop second.length first second 4
  else mergeLoop second.length first second first.length

/-- `lReplaceMaskedStore` (src/opt/ReplaceMaskedMemOps.cpp:176-196): the first `p` elements are stored. -/
def replaceStore {N p : Nat} (h : p ≤ N) (m : Mem) (ptr : Addr) (vals : Vec N (Elt n)) : Option Mem :=
  storeVec m ptr fun l : Fin p => vals (l.castLE h)

/-- `lReplaceMaskedLoad` (src/opt/ReplaceMaskedMemOps.cpp:203-238): the first `p` elements are loaded, the others are
those of the pass-through value.  The outer option is a fault of the program, the inner one a failure of the
compiler. -/
def replaceLoad {N : Nat} (p : Nat) (m : Mem) (n : Nat) (ptr : Addr) (pass : Res N n) :
    Option (Option (List (Option (Elt n)))) :=
  (loadVec (W := p) m n ptr).map fun r => merge (List.ofFn r) (List.ofFn pass)

/-! ## Specification -/

/-- The masks that a constant mask stands for. -/
def Resolves (e : Const L) (r : Mask L) : Prop := ∀ l b, e l = some b → r l = b

/-- `select r, a, b`. -/
def selectOf (r : Mask L) (a b : Vec L α) : Vec L α := fun l => if r l then a l else b l

/-- `llvm.masked.load` with a pass-through value. -/
def maskedLoadPass {N : Nat} (m : Mem) (n : Nat) (ptr : Addr) (mask : Mask N) (pass : Res N n) : Option (Res N n) :=
  (maskedLoadIntrinsic m n ptr mask).map fun r l => if mask l then r l else pass l

/-! ## Masks of the gang's length -/

theorem movmsk_bit' (h64 : L ≤ 64) (p : Mask L) (i : Nat) :
    (movmsk p).getLsbD i = if hi : i < L then p ⟨i, hi⟩ else false := by
  rw [Bool.eq_iff_iff, ForeachActive.movmsk_bit p h64]
  by_cases h : i < L <;> simp [h]

theorem movmsk_zero (h64 : L ≤ 64) (p : Mask L) : movmsk p = 0#64 ↔ ∀ l, p l = false := by
  constructor
  · intro h l
    have := movmsk_bit' h64 p l.val
    rw [h] at this
    simpa using this.symm
  · intro h
    apply BitVec.eq_of_getLsbD_eq
    intro i _
    rw [movmsk_bit' h64]
    simp [h]

theorem constBits_zero (h64 : L ≤ 64) (e : Const L) : constBits e = 0#64 ↔ ∀ l, e l ≠ some true := by
  have hz := movmsk_zero h64 fun l => e l == some true
  unfold constBits
  by_cases h : (movmsk fun l => e l == some true) = 0#64
  · simpa [h] using hz.1 h
  · have h' : ¬ ∀ l, e l ≠ some true := fun hn => h (hz.2 (by simpa using hn))
    simp only [ne_eq, h, not_false_eq_true, if_true, h', iff_false]
    intro h0
    apply h
    apply BitVec.eq_of_getLsbD_eq
    intro i _
    have := congrArg (fun x : BitVec 64 => x.getLsbD i) h0
    simp only [BitVec.getLsbD_or, BitVec.getLsbD_zero, Bool.or_eq_false_iff] at this
    simpa using this.1

theorem constBits_bit (h64 : L ≤ 64) {e : Const L} (h : constBits e ≠ 0#64) (i : Nat) :
    (constBits e).getLsbD i = if hi : i < L then (e ⟨i, hi⟩).getD true else false := by
  have h' : (movmsk fun l => e l == some true) ≠ 0#64 := by
    intro h0
    exact h ((constBits_zero h64 e).2 (by simpa using (movmsk_zero h64 fun l => e l == some true).1 h0))
  simp only [constBits, h', ne_eq, not_false_eq_true, if_true]
  rw [BitVec.getLsbD_or, movmsk_bit' h64, movmsk_bit' h64]
  by_cases hi : i < L
  · simp only [hi, dif_pos]
    rcases e ⟨i, hi⟩ with _ | _ | _ <;> rfl
  · simp [hi]

theorem status_on {gang : Nat} (hL : L ≤ gang) (h64 : L ≤ 64) {e : Const L} (h : status gang e = .all_on) :
    ∀ l, e l ≠ some false := by
  unfold status at h
  split at h
  · cases h
  · rename_i h0
    split at h
    · cases h
    · rename_i h1
      intro l hl
      apply h1
      rw [List.any_eq_true]
      refine ⟨l.val, List.mem_range.2 (Nat.lt_of_lt_of_le l.isLt hL), ?_⟩
      rw [constBits_bit h64 h0]
      simp [hl]

theorem status_off {gang : Nat} (h64 : L ≤ 64) {e : Const L} (h : status gang e = .all_off) : ∀ l, e l ≠ some true := by
  unfold status at h
  split at h
  · rename_i h0
    exact (constBits_zero h64 e).1 h0
  · split at h <;> cases h

theorem resolves_on {e : Const L} (h : ∀ l, e l ≠ some false) : Resolves e fun _ => true := by
  intro l b hb
  cases b with
  | true => rfl
  | false => exact absurd hb (h l)

theorem resolves_off {e : Const L} (h : ∀ l, e l ≠ some true) : Resolves e fun _ => false := by
  intro l b hb
  cases b with
  | false => rfl
  | true => exact absurd hb (h l)

/-- **C47, partial.** A vector `select` whose mask is not longer than the gang is replaced by a value that it may
have.  For longer masks see `select_wrong`. -/
theorem select_partial {gang : Nat} (hL : L ≤ gang) (h64 : L ≤ 64) {e : Const L} {a b v : Vec L α}
    (h : simplifySelect gang e a b = some v) : ∃ r, Resolves e r ∧ v = selectOf r a b := by
  unfold simplifySelect at h
  split at h
  · rename_i hs
    cases h
    exact ⟨_, resolves_on (status_on hL h64 hs), by funext l; simp [selectOf]⟩
  · rename_i hs
    cases h
    exact ⟨_, resolves_off (status_off h64 hs), by funext l; simp [selectOf]⟩
  · cases h

/-- **C47, negative.** On a target with a gang of four, a `select` of eight elements whose mask is on in the first four
and off in the last four is replaced by its first operand. -/
theorem select_wrong : ∃ (e : Const 8) (a b v : Vec 8 Nat), simplifySelect 4 e a b = some v ∧
    ∀ r, Resolves e r → v ≠ selectOf r a b := by
  refine ⟨fun l => some (l.val < 4), fun _ => 1, fun _ => 0, fun _ => 1, by decide, fun r hr hv => ?_⟩
  have h1 := congrFun hv 7
  have h2 := hr 7 false rfl
  simp [selectOf, h2] at h1

example : simplifySelect 4 (fun _ : Fin 4 => some true) (fun l => l.val) (fun _ => 9) = some fun l => l.val := rfl
example : simplifySelect 4 (fun l : Fin 4 => if l = 2 then none else some true) (fun l => l.val) (fun _ => 9) =
    some fun l => l.val := rfl
example : simplifySelect 4 (fun l : Fin 4 => some (l.val != 2)) (fun l => l.val) (fun _ => 9) = none := rfl

/-- **C47, partial.** The same for the blend instructions. -/
theorem blend_partial {gang : Nat} (hL : L ≤ gang) (h64 : L ≤ 64) {e : Const L} {a b v : Vec L α}
    (h : simplifyBlend gang e a b = some v) : ∃ r, Resolves e r ∧ v = selectOf r b a := by
  unfold simplifyBlend at h
  split at h
  · rename_i hs
    cases h
    exact ⟨_, resolves_off (status_off h64 hs), by funext l; simp [selectOf]⟩
  · rename_i hs
    cases h
    exact ⟨_, resolves_on (status_on hL h64 hs), by funext l; simp [selectOf]⟩
  · cases h

example : simplifyBlend 8 (fun _ : Fin 8 => some true) (fun l => l.val) (fun _ => 9) = some fun _ => 9 := rfl

/-- **C47.** A `movmsk` of a constant is replaced by a value that it may have. -/
theorem movmsk_sound (h64 : L ≤ 64) (e : Const L) : ∃ r, Resolves e r ∧ foldMovmsk e = movmsk r := by
  by_cases h : constBits e = 0#64
  · exact ⟨_, resolves_off ((constBits_zero h64 e).1 h), by rw [foldMovmsk, h, (movmsk_zero h64 _).2 fun _ => rfl]⟩
  · refine ⟨fun l => (e l).getD true, fun l b hb => by simp [hb], ?_⟩
    apply BitVec.eq_of_getLsbD_eq
    intro i _
    rw [foldMovmsk, constBits_bit h64 h, movmsk_bit' h64]

example : foldMovmsk (fun l : Fin 8 => some (l.val % 2 == 0)) = 0x55#64 := by decide
example : foldMovmsk (fun l : Fin 4 => if l = 1 then none else some (l == 3)) = 0xa#64 := by decide

/-! ## Loads and stores -/

theorem masked_on (m : Mem) (ptr : Addr) : maskedLoadIntrinsic m n ptr (fun _ : Fin L => true) = loadVec m n ptr := by
  rw [loadVec_eq]
  refine (gather_fold m (fun l => laneAddr n ptr l.val) _).trans ?_
  simp

theorem masked_off (m : Mem) (ptr : Addr) :
    maskedLoadIntrinsic m n ptr (fun _ : Fin L => false) = some fun _ => none := by
  refine (gather_fold m (fun l => laneAddr n ptr l.val) _).trans ?_
  simp

/-- **C47.** A masked load of the length of the gang is replaced by a load that does the same. -/
theorem load_sound (h64 : L ≤ 64) {e : Const L} {m : Mem} {ptr : Addr} {v : Option (Res L n)}
    (h : improveLoad L e m n ptr = some v) : ∃ r, Resolves e r ∧ v = maskedLoadIntrinsic m n ptr r := by
  unfold improveLoad at h
  split at h
  · rename_i hs
    cases h
    exact ⟨_, resolves_off (status_off h64 hs), (masked_off m ptr).symm⟩
  · rename_i hs
    cases h
    exact ⟨_, resolves_on (status_on (le_refl _) h64 hs), (masked_on m ptr).symm⟩
  · cases h

theorem maskedStore_eq (known : Bool) (m : Mem) (ptr : Addr) (vals : Vec L (Elt n)) (mask : Mask L) (hL : L ≤ 64) :
    maskedStore known m ptr vals mask =
      (activeLanes mask).foldlM (fun m l => m.store (laneAddr n ptr l.val) (vals l)) m := by
  rw [maskedStore, PerLane.perLane_eq hL]
  congr 1
  funext m l
  simp [extract_lt]

/-- **C47.** A masked store of the length of the gang is replaced by a store that does the same. -/
theorem store_sound (known : Bool) (h64 : L ≤ 64) {e : Const L} {m : Mem} {ptr : Addr} {vals : Vec L (Elt n)}
    {v : Option Mem} (h : improveStore L e m ptr vals = some v) :
    ∃ r, Resolves e r ∧ v = maskedStore known m ptr vals r := by
  unfold improveStore at h
  split at h
  · rename_i hs
    cases h
    refine ⟨_, resolves_off (status_off h64 hs), ?_⟩
    rw [maskedStore_eq known m ptr vals _ h64]
    simp [activeLanes]
  · rename_i hs
    cases h
    refine ⟨_, resolves_on (status_on (le_refl _) h64 hs), ?_⟩
    rw [maskedStore_eq known m ptr vals _ h64, storeVec_eq]
    simp [activeLanes]
  · cases h

/-- A memory of which only the first 4096 bytes are mapped. -/
def mem0 : Mem := ⟨fun a => a.toNat < 4096, fun a => a.setWidth 8⟩

example : improveStore 4 (fun _ : Fin 4 => some true) mem0 16 (fun l (_ : Fin 4) => BitVec.ofNat 8 l.val) =
    some (storeVec mem0 16 (fun (l : Fin 4) (_ : Fin 4) => BitVec.ofNat 8 l.val)) := rfl

/-- **C47, negative.** `llvm.x86.avx.maskload` with a mask that is off returns zeros; it is replaced by poison. -/
theorem maskload_wrong : ∃ (e : Const 8) (m : Mem) (v : Res 8 4), improveMaskload 8 e m 4 0 = some (some v) ∧
    ∀ r, Resolves e r → ∃ v', avxMaskload m 4 0 r = some v' ∧ v' 0 = some (fun _ => 0) ∧ v 0 = none := by
  refine ⟨fun _ => some false, mem0, fun _ => none, rfl, fun r hr => ?_⟩
  have : r = fun _ => false := funext fun l => hr l false rfl
  subst this
  refine ⟨fun _ => some fun _ => 0, ?_, rfl, rfl⟩
  rw [avxMaskload, masked_off]
  rfl

/-- **C47, partial.** In the elements that are on it is replaced by a load that does the same. -/
theorem maskload_partial (h64 : L ≤ 64) {e : Const L} {m : Mem} {ptr : Addr} {v : Option (Res L n)}
    (h : improveMaskload L e m n ptr = some v) :
    ∃ r, Resolves e r ∧ (v.isSome = (avxMaskload m n ptr r).isSome) ∧
      ∀ x y, v = some x → avxMaskload m n ptr r = some y → ∀ l, r l = true → x l = y l := by
  obtain ⟨r, h1, rfl⟩ := load_sound h64 h
  refine ⟨r, h1, by simp [avxMaskload], fun x y hx hy l hl => ?_⟩
  rw [avxMaskload, hx] at hy
  cases hy
  simp [hl]

end Ispc.ConstMask
