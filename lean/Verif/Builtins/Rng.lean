import Verif.Builtins.Half
import Verif.Builtins.Vec

/-!
# The random number generator (C38)

`stdlib/stdlib.ispc:7005-7059` with `struct RNGState` (`stdlib/include/core.isph:395-397`).  The `varying` functions are
modelled statement by statement on whole gangs: every assignment through the state pointer and to the local `b` writes the
active instances only.
-/

namespace Ispc.Rng

open Ispc.Vec Ispc.Ieee

abbrev U32 := BitVec 32

/-! ## Model -/

/-- `struct RNGState` (core.isph:395-397); `α` is `U32` for the uniform struct and a vector for the varying one. -/
@[ext] structure State (α : Type) where
  z1 : α
  z2 : α
  z3 : α
  z4 : α
deriving DecidableEq

/-- `random(uniform RNGState *)` (stdlib.ispc:7019-7031). -/
def randomU (st : State U32) : State U32 × U32 :=
  let b : U32 := ((st.z1 <<< 6) ^^^ st.z1) >>> 13
  let st : State U32 := { st with z1 := ((st.z1 &&& 4294967294#32) <<< 18) ^^^ b }
  let b : U32 := ((st.z2 <<< 2) ^^^ st.z2) >>> 27
  let st : State U32 := { st with z2 := ((st.z2 &&& 4294967288#32) <<< 2) ^^^ b }
  let b : U32 := ((st.z3 <<< 13) ^^^ st.z3) >>> 21
  let st : State U32 := { st with z3 := ((st.z3 &&& 4294967280#32) <<< 7) ^^^ b }
  let b : U32 := ((st.z4 <<< 3) ^^^ st.z4) >>> 12
  let st : State U32 := { st with z4 := ((st.z4 &&& 4294967168#32) <<< 13) ^^^ b }
  (st, st.z1 ^^^ st.z2 ^^^ st.z3 ^^^ st.z4)

/-- `seed_rng(uniform RNGState *, uniform unsigned int)` (stdlib.ispc:7053-7059). -/
def seedU (seed : U32) : State U32 where
  z1 := seed
  z2 := seed ^^^ 0xbeeff00d#32
  z3 := ((seed &&& 0xffff#32) <<< 16) ||| (seed >>> 16)
  z4 := ((seed &&& 0xff#32) <<< 24) ||| ((seed &&& 0xff00#32) <<< 8) ||| ((seed &&& 0xff0000#32) >>> 8) |||
    ((seed &&& 0xff000000#32) >>> 24)

/-- `frandom(uniform RNGState *)` (stdlib.ispc:7039-7043); `sub` is the float subtraction, `0x3F800000` is `1.0f`. -/
def frandomU (sub : U32 → U32 → U32) (st : State U32) : State U32 × U32 :=
  let (st, irand) := randomU st
  let irand := irand &&& ((1#32 <<< 23) - 1#32)
  (st, sub (0x3F800000#32 ||| irand) 0x3F800000#32)

variable {W : Nat}

/-- An assignment under a mask. -/
def assign {α : Type} (mask : Fin W → Bool) (old new : Vec W α) : Vec W α := fun l => if mask l then new l else old l

/-- `random(varying RNGState *uniform)` (stdlib.ispc:7005-7017).  `b` is the uninitialised local. -/
def randomV (mask : Fin W → Bool) (st : State (Vec W U32)) (b : Vec W U32) : State (Vec W U32) × Vec W U32 :=
  let b : Vec W U32 := assign mask b fun (l : Fin W) => ((st.z1 l <<< 6) ^^^ st.z1 l) >>> 13
  let st : State (Vec W U32) := { st with z1 := assign mask st.z1 fun (l : Fin W) => ((st.z1 l &&& 4294967294#32) <<< 18) ^^^ b l }
  let b : Vec W U32 := assign mask b fun (l : Fin W) => ((st.z2 l <<< 2) ^^^ st.z2 l) >>> 27
  let st : State (Vec W U32) := { st with z2 := assign mask st.z2 fun (l : Fin W) => ((st.z2 l &&& 4294967288#32) <<< 2) ^^^ b l }
  let b : Vec W U32 := assign mask b fun (l : Fin W) => ((st.z3 l <<< 13) ^^^ st.z3 l) >>> 21
  let st : State (Vec W U32) := { st with z3 := assign mask st.z3 fun (l : Fin W) => ((st.z3 l &&& 4294967280#32) <<< 7) ^^^ b l }
  let b : Vec W U32 := assign mask b fun (l : Fin W) => ((st.z4 l <<< 3) ^^^ st.z4 l) >>> 12
  let st : State (Vec W U32) := { st with z4 := assign mask st.z4 fun (l : Fin W) => ((st.z4 l &&& 4294967168#32) <<< 13) ^^^ b l }
  (st, fun (l : Fin W) => st.z1 l ^^^ st.z2 l ^^^ st.z3 l ^^^ st.z4 l)

/-- `seed_rng(varying RNGState *uniform, unsigned int)` (stdlib.ispc:7045-7051). -/
def seedV (mask : Fin W → Bool) (st : State (Vec W U32)) (seed : Vec W U32) : State (Vec W U32) :=
  let st := { st with z1 := assign mask st.z1 seed }
  let st := { st with z2 := assign mask st.z2 fun l => seed l ^^^ 0xbeeff00d#32 }
  let st := { st with z3 := assign mask st.z3 fun l => ((seed l &&& 0xffff#32) <<< 16) ||| (seed l >>> 16) }
  { st with z4 := assign mask st.z4 fun l => ((seed l &&& 0xff#32) <<< 24) ||| ((seed l &&& 0xff00#32) <<< 8) |||
      ((seed l &&& 0xff0000#32) >>> 8) ||| ((seed l &&& 0xff000000#32) >>> 24) }

/-- `frandom(varying RNGState *uniform)` (stdlib.ispc:7033-7037). -/
def frandomV (sub : U32 → U32 → U32) (mask : Fin W → Bool) (st : State (Vec W U32)) (b : Vec W U32) :
    State (Vec W U32) × Vec W U32 :=
  let (st, irand) := randomV mask st b
  let irand := assign mask irand fun l => irand l &&& ((1#32 <<< 23) - 1#32)
  (st, fun l => sub (0x3F800000#32 ||| irand l) 0x3F800000#32)

/-! ## Histories -/

/-- What a gang does with one generator: seed it or draw from it, under some mask.  `junk` is what the uninitialised local
happens to hold. -/
inductive Op (W : Nat) where
  | seed (mask : Fin W → Bool) (seed : Vec W U32)
  | draw (mask : Fin W → Bool) (junk : Vec W U32)

/-- The gang runs a history; the result is the final state and the drawn vectors with their masks, latest first. -/
def run (st : State (Vec W U32)) : List (Op W) → State (Vec W U32) × List ((Fin W → Bool) × Vec W U32)
  | [] => (st, [])
  | op :: rest =>
    match op with
    | .seed mask s => run (seedV mask st s) rest
    | .draw mask junk =>
      let (st', v) := randomV mask st junk
      let (st'', vs) := run st' rest
      (st'', (mask, v) :: vs)

/-- What one instance asked for: its own seeds (`some s`) and draws (`none`). -/
def ownOps (l : Fin W) : List (Op W) → List (Option U32)
  | [] => []
  | .seed mask s :: rest => if mask l then some (s l) :: ownOps l rest else ownOps l rest
  | .draw mask _ :: rest => if mask l then none :: ownOps l rest else ownOps l rest

/-- The uniform generator runs a history of seeds and draws. -/
def runU (st : State U32) : List (Option U32) → State U32 × List U32
  | [] => (st, [])
  | some s :: rest => runU (seedU s) rest
  | none :: rest =>
    let (st', v) := randomU st
    let (st'', vs) := runU st' rest
    (st'', v :: vs)

/-- One instance's part of a varying state. -/
def State.lane (st : State (Vec W U32)) (l : Fin W) : State U32 := ⟨st.z1 l, st.z2 l, st.z3 l, st.z4 l⟩

theorem randomV_lane (mask : Fin W → Bool) (st : State (Vec W U32)) (b : Vec W U32) (l : Fin W) :
    ((randomV mask st b).1.lane l = if mask l then (randomU (st.lane l)).1 else st.lane l) ∧
      (mask l = true → (randomV mask st b).2 l = (randomU (st.lane l)).2) := by
  cases h : mask l
  · refine ⟨?_, fun h => by simp at h⟩
    simp [randomV, State.lane, assign, h]
  · refine ⟨?_, fun _ => ?_⟩ <;> simp [randomV, randomU, State.lane, assign, h]

theorem seedV_lane (mask : Fin W → Bool) (st : State (Vec W U32)) (s : Vec W U32) (l : Fin W) :
    (seedV mask st s).lane l = if mask l then seedU (s l) else st.lane l := by
  cases h : mask l <;> simp [seedV, seedU, State.lane, assign, h]

/-- **C38**: for every history of seedings and draws under any masks, an instance's state and the numbers it draws are those
of the uniform generator given that instance's own seedings and draws.  In particular instances do not influence each other
and the state of an inactive instance does not advance. -/
theorem streams_independent (ops : List (Op W)) (st : State (Vec W U32)) (l : Fin W) :
    (run st ops).1.lane l = (runU (st.lane l) (ownOps l ops)).1 ∧
      ((run st ops).2.filter (·.1 l)).map (·.2 l) = (runU (st.lane l) (ownOps l ops)).2 := by
  induction ops generalizing st with
  | nil => exact ⟨rfl, rfl⟩
  | cons op rest ih =>
    cases op with
    | seed mask s =>
      have h := seedV_lane mask st s l
      have hi := ih (seedV mask st s)
      rw [h] at hi
      rw [run, ownOps]
      cases hm : mask l
      · rw [hm] at hi; exact hi
      · rw [hm] at hi; exact hi
    | draw mask junk =>
      obtain ⟨h1, h2⟩ := randomV_lane mask st junk l
      have hi := ih (randomV mask st junk).1
      rw [h1] at hi
      rw [run, ownOps]
      cases hm : mask l
      · rw [hm] at hi
        refine ⟨hi.1, ?_⟩
        simp only [List.filter_cons, hm]
        exact hi.2
      · rw [hm] at hi
        refine ⟨hi.1, ?_⟩
        simp only [List.filter_cons, hm, if_true, List.map_cons, h2 hm, runU]
        rw [hi.2]
        rfl

/-- An instance that is off in every operation keeps its state. -/
theorem inactive_state_kept (ops : List (Op W)) (st : State (Vec W U32)) (l : Fin W)
    (hoff : ∀ op ∈ ops, match op with | .seed m _ => m l = false | .draw m _ => m l = false) :
    (run st ops).1.lane l = st.lane l := by
  rw [(streams_independent ops st l).1]
  have : ownOps l ops = [] := by
    induction ops with
    | nil => rfl
    | cons op rest ih =>
      have h := hoff op (by simp)
      have hr := ih fun o ho => hoff o (by simp [ho])
      cases op <;> simp only at h <;> simp [ownOps, h, hr]
  rw [this]
  rfl

/-! ## frandom -/

/-- Every multiple `m < 2^23` of `2^126` units is a binary32. -/
theorem exists_float23 (m : Nat) (hm : m < 2 ^ 23) : ∃ r : Nat, r < inf32 ∧ mag 23 r = m * 2 ^ 126 := by
  by_cases hm0 : m = 0
  · exact ⟨0, by decide, by rw [hm0]; decide⟩
  · obtain ⟨k, hk1, hk2⟩ : ∃ k, 2 ^ k ≤ m ∧ m < 2 ^ (k + 1) := ⟨Nat.log2 m, (Nat.log2_eq_iff hm0).1 rfl⟩
    have hk : k < 23 := by
      by_contra hk
      have : 2 ^ 23 ≤ 2 ^ k := Nat.pow_le_pow_right (by omega) (by omega)
      omega
    have h23 : (2 : Nat) ^ 23 = 2 ^ k * 2 ^ (23 - k) := by rw [← pow_add]; congr 1; omega
    have hmk : (m - 2 ^ k) * 2 ^ (23 - k) < 2 ^ 23 := by
      rw [h23]
      exact (Nat.mul_lt_mul_right (Nat.two_pow_pos _)).2 (by rw [pow_succ] at hk2; omega)
    refine ⟨(k + 104) * 2 ^ 23 + (m - 2 ^ k) * 2 ^ (23 - k), by clear h23; unfold inf32; omega, ?_⟩
    rw [mag_eq 23 _ _ hmk, if_neg (Nat.succ_ne_zero _)]
    have e1 : 2 ^ 23 + (m - 2 ^ k) * 2 ^ (23 - k) = m * 2 ^ (23 - k) := by
      rw [h23, ← Nat.add_mul, Nat.add_sub_cancel' hk1]
    rw [e1, Nat.mul_assoc, ← pow_add]
    congr 2
    clear h23 e1 hmk
    omega

/-- **C38**: `frandom` is the low 23 bits of the drawn number divided by `2^23`, exactly; so it is in `[0, 1)`.
(`2^149` units are `1.0`.) -/
theorem frandom_value (sub : U32 → U32 → U32) (hsub : SubExact sub) (st : State U32) :
    (frandomU sub st).1 = (randomU st).1 ∧ (frandomU sub st).2.toNat < inf32 ∧
      mag 23 (frandomU sub st).2.toNat = ((randomU st).2.toNat % 2 ^ 23) * 2 ^ 126 ∧
      mag 23 (frandomU sub st).2.toNat < 2 ^ 149 := by
  have hlow : ((randomU st).2 &&& ((1#32 <<< 23) - 1#32)).toNat = (randomU st).2.toNat % 2 ^ 23 :=
    Half.low_bits _ 23 (by decide)
  have hm : (randomU st).2.toNat % 2 ^ 23 < 2 ^ 23 := Nat.mod_lt _ (Nat.two_pow_pos _)
  unfold frandomU
  simp only
  generalize (randomU st).2.toNat % 2 ^ 23 = m at hlow hm ⊢
  generalize (randomU st).2 &&& ((1#32 <<< 23) - 1#32) = i at hlow ⊢
  obtain ⟨r, hr1, hr2⟩ := exists_float23 m hm
  have hrn : (BitVec.ofNat 32 r).toNat = r := by
    rw [BitVec.toNat_ofNat, Nat.mod_eq_of_lt (Nat.lt_trans hr1 (by decide))]
  have hor : (0x3F800000#32 ||| i).toNat = 127 * 2 ^ 23 + m := by
    rw [BitVec.toNat_or, hlow, show (0x3F800000#32).toNat = 2 ^ 23 * 127 by decide, ← Nat.two_pow_add_eq_or_of_lt hm]
    ring
  have hone : mag 23 (0x3F800000#32).toNat = 2 ^ 23 * 2 ^ 126 := by
    rw [show (0x3F800000#32).toNat = 127 * 2 ^ 23 + 0 by decide, mag_eq 23 127 0 (Nat.two_pow_pos _), if_neg (by decide), Nat.add_zero]
  have hs : sub (0x3F800000#32 ||| i) 0x3F800000#32 = BitVec.ofNat 32 r := by
    refine hsub _ _ _ (by rw [hor]; unfold inf32; clear hr2; omega) (by decide) (by rw [hrn]; exact hr1) ?_
    rw [hor, hone, hrn, hr2, mag_eq 23 127 m hm, if_neg (by decide), Nat.add_mul]
  rw [hs, hrn, hr2]
  refine ⟨trivial, hr1, rfl, ?_⟩
  calc m * 2 ^ 126 < 2 ^ 23 * 2 ^ 126 := (Nat.mul_lt_mul_right (Nat.two_pow_pos _)).2 hm
    _ = 2 ^ 149 := by rw [← pow_add]

/-- **C38**: the varying `frandom` gives every active instance what the uniform one would. -/
theorem frandom_varying (sub : U32 → U32 → U32) (mask : Fin W → Bool) (st : State (Vec W U32)) (b : Vec W U32) (l : Fin W) :
    ((frandomV sub mask st b).1.lane l = if mask l then (frandomU sub (st.lane l)).1 else st.lane l) ∧
      (mask l = true → (frandomV sub mask st b).2 l = (frandomU sub (st.lane l)).2) := by
  obtain ⟨h1, h2⟩ := randomV_lane mask st b l
  refine ⟨h1, fun hm => ?_⟩
  simp only [frandomV, frandomU, assign, hm, if_true, h2 hm]

/-! ## Not vacuous -/

/-- Two instances, the second inactive in the second of three draws: it sees the same first two numbers as the first. -/
example : let st : State (Vec 2 U32) := ⟨fun _ => 0, fun _ => 0, fun _ => 0, fun _ => 0⟩
    let ops : List (Op 2) := [.seed (fun _ => true) (fun _ => 12345#32), .draw (fun _ => true) (fun _ => 7),
      .draw (fun l => l == 0) (fun _ => 9), .draw (fun _ => true) (fun _ => 1)]
    ((run st ops).2.filter (·.1 1)).map (·.2 1) = (((run st ops).2.filter (·.1 0)).map (·.2 0)).take 2 ∧
      ((run st ops).2.filter (·.1 0)).length = 3 ∧
      ((run st ops).2.filter (·.1 0)).map (·.2 0) ≠ [0, 0, 0] := by decide +kernel

end Ispc.Rng
