import Verif.Builtins.PerLane

/-!
# Atomics (C18, C19)

`builtins/generic.ispc:2790-3021` and `builtins/util.m4:2514-2661` under the wrappers of `stdlib/stdlib.ispc:2910-3271`.
Which of the two a target uses depends on whether its file calls `stdlib_core()` (util.m4:5366, 6110-6152): the sse, avx1,
avx2-i8/i16, avx512 and wasm files do, the neon and avx2-i32/i64 files do not and take the generic definitions.  The Xe
versions (util-xe.m4:1510-1660) are not modelled.

A global atomic on one location by a whole gang is one hardware read-modify-write (integer add, sub, and, or, xor, min, max, swap); the
model is a function from the value `x` that the location holds at that moment, whatever the other threads did before.
Where the code performs one hardware operation per instance, an arbitrary environment `env` changes memory before each
of them.
-/

namespace Ispc.Atomics

open Ispc.Vec
open Ispc.Scan (Mem Mem.set activeBelow activeBelow_succ reduceMinS reduceMaxS)
open Ispc.ForeachActive (Mask movmsk activeLanes St foreachActive bodyFor foreach_active_serialises)
open Ispc.PerLane (perLane perLane_eq)

variable {W : Nat} {α : Type}

/-! ## Specification -/

/-- The instances of `order` perform their operation one after another on a location that holds `x` at first and `x'` in
the end; each of them is given the value it found. -/
def Serial (f : α → α → α) (v : Vec W α) : List (Fin W) → α → α → Vec W α → Prop
  | [], x, x', _ => x' = x
  | l :: order, x, x', r => r l = x ∧ Serial f v order (f x (v l)) x' r

/-- A gang-wide atomic is right if its effect is that of the active instances performing it in some order. -/
def ActsAsSerial (f : α → α → α) (v : Vec W α) (mask : Mask W) (x x' : α) (r : Vec W α) : Prop :=
  ∃ order : List (Fin W), order.Perm (activeLanes mask) ∧ Serial f v order x x' r

/-! ## Model: one hardware operation for the gang -/

/-- The loop shared by `__atomic_{add,sub,and,or,xor}_int{32,64}_global`: the reduction of all lanes and the vector of
prefixes (generic.ispc:2842-2847, util.m4:2543-2549). -/
def prefixLoop (op : α → α → α) (v : Vec W α) (elt : Vec W α) : Option (α × Vec W α) := do
  let red ← extract v 0
  forLoop (fun i (st : α × Vec W α) => do
    let ei ← extract v i
    let elt ← insert st.2 i st.1
    some (op st.1 ei, elt)) 1 (W - 1) (red, elt)

/-- generic.ispc:2835-2962.  `op` is the operation of the loop, `rmw` that of the `atomicrmw`, `ret` that of the returned
vector; they differ in the source for `sub` and `and`.  The result is the new memory value and the returned vector. -/
def atomicGeneric (op rmw ret : α → α → α) (e : α) (x : α) (val : Vec W α) (mask : Mask W) : Option (α × Vec W α) := do
  let elt : Vec W α := fun _ => e
  let v : Vec W α := fun l => if mask l then val l else elt l
  let (red, elt) ← prefixLoop op v elt
  let final := x
  some (rmw x red, fun l => ret (elt l) final)

/-- `global_atomic_associative` (util.m4:2514-2565), with its bit tricks for the identity in the off lanes.  The mask is taken
as already sign-extended or truncated to the element width (util.m4:2429-2510); `%eltvec0` is poison in lanes that the loop
fills, where the model has the identity. -/
def atomicM4 {w : Nat} (op : BitVec w → BitVec w → BitVec w) (e : BitVec w) (x : BitVec w) (val : Vec W (BitVec w))
    (m : Mask W) : Option (BitVec w × Vec W (BitVec w)) := do
  let mask : Vec W (BitVec w) := fun l => if m l then BitVec.allOnes w else 0#w
  let valoff : Vec W (BitVec w) := fun l => val l &&& mask l
  let notmask : Vec W (BitVec w) := fun l => mask l ^^^ BitVec.allOnes w
  let idoff : Vec W (BitVec w) := fun l => e &&& notmask l
  let valp : Vec W (BitVec w) := fun l => valoff l ||| idoff l
  let (red, eltvec) ← prefixLoop op valp fun _ => e
  some (op x red, fun l => op x (eltvec l))

/-- generic.ispc:2835-2866. -/
def addGeneric {w : Nat} := atomicGeneric (W := W) (fun a b : BitVec w => a + b) (· + ·) (· + ·) 0#w
/-- generic.ispc:2867-2878. -/
def subGeneric32 := atomicGeneric (W := W) (fun a b : BitVec 32 => a - b) (· - ·) (· - ·) 0#32
/-- generic.ispc:2879-2890. -/
def subGeneric64 := atomicGeneric (W := W) (fun a b : BitVec 64 => a - b) (· - ·) (· + ·) 0#64
/-- generic.ispc:2891-2914: the hardware operation is a subtraction. -/
def andGeneric {w : Nat} := atomicGeneric (W := W) (fun a b : BitVec w => a &&& b) (· - ·) (· &&& ·) (BitVec.allOnes w)
/-- generic.ispc:2915-2938. -/
def orGeneric {w : Nat} := atomicGeneric (W := W) (fun a b : BitVec w => a ||| b) (· ||| ·) (· ||| ·) 0#w
/-- generic.ispc:2939-2962. -/
def xorGeneric {w : Nat} := atomicGeneric (W := W) (fun a b : BitVec w => a ^^^ b) (· ^^^ ·) (· ^^^ ·) 0#w
/-- util.m4:6110, 6132, `global_atomic_associative(WIDTH, add, i32/i64, ..., 0)`. -/
def addM4 {w : Nat} := atomicM4 (W := W) (fun a b : BitVec w => a + b) 0#w
/-- util.m4:6111, 6133, `global_atomic_associative(WIDTH, sub, i32/i64, ..., 0)`. -/
def subM4 {w : Nat} := atomicM4 (W := W) (fun a b : BitVec w => a - b) 0#w
/-- util.m4:6112, 6134, `global_atomic_associative(WIDTH, and, i32/i64, ..., -1)`. -/
def andM4 {w : Nat} := atomicM4 (W := W) (fun a b : BitVec w => a &&& b) (BitVec.allOnes w)
/-- util.m4:6113, 6135, `global_atomic_associative(WIDTH, or, i32/i64, ..., 0)`. -/
def orM4 {w : Nat} := atomicM4 (W := W) (fun a b : BitVec w => a ||| b) 0#w
/-- util.m4:6114, 6136, `global_atomic_associative(WIDTH, xor, i32/i64, ..., 0)`. -/
def xorM4 {w : Nat} := atomicM4 (W := W) (fun a b : BitVec w => a ^^^ b) 0#w

/-- The first loop of `atomic_swap_global` (stdlib.ispc:2942-2948): the first lane that is on. -/
def swapFirst (mask : BitVec 64) : Nat → Nat → Option Nat
  | 0, _ => none
  | n + 1, i => if mask &&& (1#64 <<< i) = 0#64 then swapFirst mask n (i + 1) else some i

/-- `atomic_swap_global(uniform T * uniform, T)` (stdlib.ispc:2933-2964).  The array `ret` of varying values is
read back only as `ret[programIndex]`, so the model keeps lane `k` of `ret[k]`; the code writes element `lastSwap` under the
mask and lane `lastSwap` is on.  With no lane on, the code writes nothing (the mask is off) and the model returns `ret`. -/
def swapGlobal (x : α) (value : Vec W α) (m : Mask W) (ret : Vec W α) : Option (α × Vec W α) := do
  let mask := movmsk m
  match swapFirst mask W 0 with
  | none => some (x, ret)
  | some first =>
    let memVal := x
    let x' ← extract value first
    let put (ret : Vec W α) (k : Nat) (y : α) : Option (Vec W α) := insert ret k y
    let (ret, lastSwap) ← forLoop (fun i (st : Vec W α × Nat) =>
      if mask &&& (1#64 <<< i) = 0#64 then some st
      else do
        let y ← extract value i
        let ret ← put st.1 st.2 y
        some (ret, i)) first (W - first) (ret, first)
    let ret ← put ret lastSwap memVal
    some (x', ret)

/-- `atomic_min_global`/`atomic_max_global(uniform T * uniform, T)` (stdlib.ispc:2983-2989), signed; `old` is what the
unassigned `ret` holds. -/
def minGlobal {n : Nat} (x : BitVec (n + 1)) (value : Vec W (BitVec (n + 1))) (m : Mask W) (ret : Vec W (BitVec (n + 1))) :
    BitVec (n + 1) × Vec W (BitVec (n + 1)) :=
  let oneval := reduceMinS value m
  if movmsk m ≠ 0#64 then (if x.sle oneval then x else oneval, fun l => if m l then x else ret l) else (x, ret)

/-! ## Model: one operation per instance -/

/-- Memory, the variable that receives the results, and the number of hardware operations done so far. -/
structure Sys (W : Nat) (α : Type) where
  mem : Mem α
  ret : Vec W α
  time : Nat

/-- `ptrArray[programIndex] = ptr;` (stdlib.ispc:2920-2921, 2970-2971, 2995-2996, 3074-3075, 3141-3142, 3254-3255): a masked scatter into an uninitialised array. -/
def ptrArray (m : Mask W) (ptr : Vec W Int) : Vec W (Option Int) := fun l => if m l then some (ptr l) else none

/-- The body of the `foreach_active` loops of the global atomics through varying pointers (stdlib.ispc:2923-2928,
2973-2978, 2998-3003, 3077-3081): `f old i` is the new value that instance `i` stores. -/
def globalBody (env : Nat → Mem α → Mem α) (f : α → Nat → Option α) (ptrs : Vec W (Option Int)) (i : Nat) (full : Mask W)
    (σ : St W (Sys W α)) : Option (St W (Sys W α)) := do
  let p ← (← extract ptrs i)
  let mem := env σ.data.time σ.data.mem
  let r := mem p
  let new ← f r i
  let ins ← insert σ.data.ret i r
  some { σ with data := ⟨mem.set p new, fun l => if full l then ins l else σ.data.ret l, σ.data.time + 1⟩ }

/-- Global atomics through varying pointers (stdlib.ispc:2919-2930, 2969-2980, 2994-3005, 3073-3083), `fm` the function mask, `im` the internal mask. -/
def atomicVaryingPtr (env : Nat → Mem α → Mem α) (f : α → Nat → Option α) (fm im : Mask W) (ptr : Vec W Int) (d : Sys W α) :
    Option (Sys W α) :=
  (foreachActive fm (globalBody env f (ptrArray (fun l => im l && fm l) ptr)) W ⟨im, d⟩).map St.data

/-- `per_lane` atomics of util.m4: `global_atomic_associative_fp` and `global_atomic_exchange` (util.m4:2577-2591, 2637-2652): all
lanes use the same pointer; results go to a stack slot `ret`. -/
def atomicPerLane (env : Nat → Mem α → Mem α) (f : α → Nat → Option α) (known : Bool) (mask : Mask W) (p : Int)
    (d : Sys W α) : Option (Sys W α) :=
  perLane known mask (fun i (d : Sys W α) => do
    let mem := env d.time d.mem
    let r := mem p
    let new ← f r i
    let ret ← insert d.ret i r
    some ⟨mem.set p new, ret, d.time + 1⟩) d

/-- `f` for a read-modify-write with a varying operand. -/
def rmwOf (op : α → α → α) (value : Vec W α) : α → Nat → Option α := fun old i => (extract value i).map (op old)

/-- `f` for compare-and-exchange. -/
def casOf (eq : α → α → Bool) (cmp new : Vec W α) : α → Nat → Option α := fun old i => do
  let c ← extract cmp i
  let n ← extract new i
  some (if eq old c then n else old)

/-- generic `__atomic_cmpxchg_v` (generic.ispc:2996-3021): the template is `unmasked`, so `foreach_active` visits all
lanes. -/
def cmpxchgGeneric (env : Nat → Mem α → Mem α) (eq : α → α → Bool) (cmp new : Vec W α) (p : Int) (d : Sys W α) :
    Option (Sys W α) :=
  (foreachActive (fun _ => true) (globalBody env (casOf eq cmp new) fun _ => some p) W ⟨fun _ => true, d⟩).map St.data

/-- `LOCAL_ATOMIC` loops (stdlib.ispc:3133-3136, 3143-3146; compare-exchange 3245-3250, 3257-3262, whose insert comes last):
no atomic instruction, a load and a store. -/
def localBody (f : α → Nat → Option α) (ptrs : Vec W (Option Int)) (i : Nat) (full : Mask W)
    (σ : St W (Mem α × Vec W α)) : Option (St W (Mem α × Vec W α)) := do
  let p ← (← extract ptrs i)
  let ins ← insert σ.data.2 i (σ.data.1 p)
  let ret : Vec W α := fun l => if full l then ins l else σ.data.2 l
  let new ← f (σ.data.1 p) i
  some { σ with data := (σ.data.1.set p new, ret) }

/-- `atomic_*_local(uniform T * varying, T)` (stdlib.ispc:3139-3148, 3253-3264). -/
def localVaryingPtr (f : α → Nat → Option α) (fm im : Mask W) (ptr : Vec W Int) (d : Mem α × Vec W α) :
    Option (Mem α × Vec W α) :=
  (foreachActive fm (localBody f (ptrArray (fun l => im l && fm l) ptr)) W ⟨im, d⟩).map St.data

/-- `atomic_*_local(uniform T * uniform, T)` (stdlib.ispc:3131-3138, 3243-3252). -/
def localUniformPtr (f : α → Nat → Option α) (fm im : Mask W) (p : Int) (d : Mem α × Vec W α) :
    Option (Mem α × Vec W α) :=
  (foreachActive fm (localBody f fun _ => some p) W ⟨im, d⟩).map St.data

/-- `__swap` for every type but `double` (stdlib.ispc:3155, 3162, 3166, 3173, 3180). -/
def swapFn (_a b : α) : α := b

/-- `__swap(uniform double, uniform double)` (stdlib.ispc:3184): returns `a - b`; `sub` is the type's subtraction. -/
def swapDouble (sub : α → α → α) (a b : α) : α := sub a b

/-! ## Proofs: associative atomics -/

theorem serial_append (f : α → α → α) (v : Vec W α) (r : Vec W α) (l : Fin W) : ∀ (ls : List (Fin W)) (x x' : α),
    Serial f v (ls ++ [l]) x x' r ↔ Serial f v ls x (r l) r ∧ x' = f (r l) (v l) := by
  intro ls
  induction ls with
  | nil =>
    intro x x'
    simp only [List.nil_append, Serial]
    constructor
    · rintro ⟨h1, h2⟩; exact ⟨h1, by rw [h1]; exact h2⟩
    · rintro ⟨h1, h2⟩; exact ⟨h1, by rw [h1] at h2; exact h2⟩
  | cons k ls ih =>
    intro x x'
    simp only [List.cons_append, Serial, ih, and_assoc]

/-- The reduction of the active instances below `k`. -/
def pre (op : α → α → α) (e : α) (val : Vec W α) (mask : Mask W) (k : Nat) : α :=
  (activeBelow mask k).foldl (fun acc l => op acc (val l)) e

theorem pre_succ (op : α → α → α) (e : α) (hr : ∀ a, op a e = a) (val : Vec W α) (mask : Mask W) {k : Nat} (hk : k < W) :
    pre op e val mask (k + 1) = op (pre op e val mask k) (if mask ⟨k, hk⟩ then val ⟨k, hk⟩ else e) := by
  unfold pre
  rw [activeBelow_succ mask hk, List.foldl_append]
  by_cases h : mask ⟨k, hk⟩ = true <;> simp [h, hr]

theorem pre_zero (op : α → α → α) (e : α) (val : Vec W α) (mask : Mask W) : pre op e val mask 0 = e := by
  simp [pre, activeBelow, lanesBelow_zero]

theorem prefixLoop_eq (hW : 0 < W) (op : α → α → α) (e : α) (hl : ∀ a, op e a = a) (hr : ∀ a, op a e = a) (val : Vec W α)
    (mask : Mask W) : prefixLoop op (fun l => if mask l then val l else e) (fun _ => e) =
      some (pre op e val mask W, fun l => pre op e val mask l.val) := by
  unfold prefixLoop
  rw [extract_lt _ hW]
  simp only [Option.bind_eq_bind, Option.bind_some]
  obtain ⟨st, hst, h1, h2⟩ := forLoop_inv (body := fun i (st : α × Vec W α) =>
      (extract (fun l => if mask l then val l else e) i).bind fun ei =>
        (insert st.2 i st.1).bind fun elt => some (op st.1 ei, elt))
    (fun i (st : α × Vec W α) => st.1 = pre op e val mask i ∧
      ∀ l : Fin W, st.2 l = if l.val < i then pre op e val mask l.val else e) (W - 1) 1
    (if mask ⟨0, hW⟩ then val ⟨0, hW⟩ else e, fun _ => e)
    (by
      refine ⟨?_, ?_⟩
      · rw [pre_succ op e hr val mask hW, pre_zero, hl]
      · intro l
        by_cases h : l.val < 1
        · rw [if_pos h, show l.val = 0 by omega, pre_zero]
        · rw [if_neg h])
    (by
      rintro i ⟨red, elt⟩ _ hi ⟨h1, h2⟩
      have hi : i < W := by omega
      simp only at h1 h2
      rw [extract_lt _ hi, Option.bind_some, insert_lt _ hi, Option.bind_some]
      refine ⟨_, rfl, ?_, ?_⟩
      · simp only; rw [pre_succ op e hr val mask hi, h1]
      · intro l
        simp only
        by_cases h : l.val = i
        · rw [if_pos h, if_pos (by omega), h1, h]
        · rw [if_neg h, h2 l]
          by_cases h' : l.val < i
          · rw [if_pos h', if_pos (by omega)]
          · rw [if_neg h', if_neg (by omega)])
  rw [hst]
  have e1 : 1 + (W - 1) = W := by omega
  rw [e1] at h1 h2
  congr 1
  refine Prod.ext h1 ?_
  funext l
  rw [h2 l, if_pos l.isLt]

/-- Adding the prefixes to the old value gives the serial execution in instance order. -/
theorem serial_of_prefixes (op : α → α → α) (e : α) (hr : ∀ a, op a e = a) (ha : ∀ a b c, op (op a b) c = op a (op b c))
    (x : α) (val : Vec W α) (mask : Mask W) (r : Vec W α) (hrr : ∀ l, r l = op x (pre op e val mask l.val)) :
    Serial op val (activeLanes mask) x (op x (pre op e val mask W)) r := by
  have key : ∀ k ≤ W, Serial op val (activeBelow mask k) x (op x (pre op e val mask k)) r := by
    intro k
    induction k with
    | zero => intro _; rw [pre_zero, hr]; simp [activeBelow, lanesBelow_zero, Serial]
    | succ k ih =>
      intro hk
      have hk' : k < W := by omega
      rw [activeBelow_succ mask hk', pre_succ op e hr val mask hk']
      by_cases h : mask ⟨k, hk'⟩ = true
      · rw [if_pos h, if_pos h, serial_append]
        have e1 := hrr ⟨k, hk'⟩
        simp only at e1
        rw [e1]
        exact ⟨ih (by omega), (ha _ _ _).symm⟩
      · rw [if_neg h, if_neg h, List.append_nil, hr]
        exact ih (by omega)
  have := key W (le_refl W)
  have e1 : activeBelow mask W = activeLanes mask := by unfold activeBelow activeLanes; rw [lanesBelow_all]
  rwa [e1] at this

theorem atomicGeneric_serial (hW : 0 < W) (op : α → α → α) (e : α) (hl : ∀ a, op e a = a) (hr : ∀ a, op a e = a)
    (ha : ∀ a b c, op (op a b) c = op a (op b c)) (hc : ∀ a b, op a b = op b a) (x : α) (val : Vec W α) (mask : Mask W) :
    ∃ x' r, atomicGeneric op op op e x val mask = some (x', r) ∧ Serial op val (activeLanes mask) x x' r := by
  unfold atomicGeneric
  simp only []
  rw [prefixLoop_eq hW op e hl hr val mask]
  refine ⟨_, _, rfl, serial_of_prefixes op e hr ha x val mask _ fun l => ?_⟩
  exact hc _ _

theorem valp_eq {w : Nat} (e : BitVec w) (val : Vec W (BitVec w)) (m : Mask W) :
    (fun l => val l &&& (if m l then BitVec.allOnes w else 0#w) |||
      e &&& ((if m l then BitVec.allOnes w else 0#w) ^^^ BitVec.allOnes w)) = fun l => if m l then val l else e := by
  funext l
  by_cases h : m l = true
  · simp [h]
  · simp [h]

theorem atomicM4_serial {w : Nat} (hW : 0 < W) (op : BitVec w → BitVec w → BitVec w) (e : BitVec w) (hl : ∀ a, op e a = a)
    (hr : ∀ a, op a e = a) (ha : ∀ a b c, op (op a b) c = op a (op b c)) (x : BitVec w) (val : Vec W (BitVec w))
    (mask : Mask W) :
    ∃ x' r, atomicM4 op e x val mask = some (x', r) ∧ Serial op val (activeLanes mask) x x' r := by
  unfold atomicM4
  simp only []
  rw [valp_eq, prefixLoop_eq hW op e hl hr val mask]
  exact ⟨_, _, rfl, serial_of_prefixes op e hr ha x val mask _ fun l => rfl⟩

variable {w : Nat} (hW : 0 < W) (x : BitVec w) (val : Vec W (BitVec w)) (mask : Mask W)
include hW

/-- C19: `atomic_add_global` of a gang to one location, generic targets. -/
theorem addGeneric_serial : ∃ x' r, addGeneric x val mask = some (x', r) ∧
    Serial (· + ·) val (activeLanes mask) x x' r :=
  atomicGeneric_serial hW _ _ (BitVec.zero_add) (BitVec.add_zero) BitVec.add_assoc BitVec.add_comm x val mask

/-- C19: `atomic_or_global`, generic targets. -/
theorem orGeneric_serial : ∃ x' r, orGeneric x val mask = some (x', r) ∧
    Serial (· ||| ·) val (activeLanes mask) x x' r :=
  atomicGeneric_serial hW _ _ (fun _ => BitVec.zero_or) (fun _ => BitVec.or_zero) BitVec.or_assoc BitVec.or_comm x val mask

/-- C19: `atomic_xor_global`, generic targets. -/
theorem xorGeneric_serial : ∃ x' r, xorGeneric x val mask = some (x', r) ∧
    Serial (· ^^^ ·) val (activeLanes mask) x x' r :=
  atomicGeneric_serial hW _ _ (fun _ => BitVec.zero_xor) (fun _ => BitVec.xor_zero) BitVec.xor_assoc BitVec.xor_comm x val mask

/-- C19: `atomic_add_global`, util.m4 targets. -/
theorem addM4_serial : ∃ x' r, addM4 x val mask = some (x', r) ∧ Serial (· + ·) val (activeLanes mask) x x' r :=
  atomicM4_serial hW _ _ BitVec.zero_add BitVec.add_zero BitVec.add_assoc x val mask

/-- C19: `atomic_and_global`, util.m4 targets. -/
theorem andM4_serial : ∃ x' r, andM4 x val mask = some (x', r) ∧ Serial (· &&& ·) val (activeLanes mask) x x' r :=
  atomicM4_serial hW _ _ (fun _ => BitVec.allOnes_and) (fun _ => BitVec.and_allOnes) BitVec.and_assoc x val mask

/-- C19: `atomic_or_global`, util.m4 targets. -/
theorem orM4_serial : ∃ x' r, orM4 x val mask = some (x', r) ∧ Serial (· ||| ·) val (activeLanes mask) x x' r :=
  atomicM4_serial hW _ _ (fun _ => BitVec.zero_or) (fun _ => BitVec.or_zero) BitVec.or_assoc x val mask

/-- C19: `atomic_xor_global`, util.m4 targets. -/
theorem xorM4_serial : ∃ x' r, xorM4 x val mask = some (x', r) ∧ Serial (· ^^^ ·) val (activeLanes mask) x x' r :=
  atomicM4_serial hW _ _ (fun _ => BitVec.zero_xor) (fun _ => BitVec.xor_zero) BitVec.xor_assoc x val mask

omit hW

/-- Non-vacuity: instances 0, 2 and 3 add 1, 3 and 4 to a location that holds 10. -/
example : ∃ r, addM4 10#32 (fun l : Fin 4 => BitVec.ofNat 32 (l.val + 1)) (fun l => decide (l.val ≠ 1)) = some (18#32, r) ∧
    r 0 = 10#32 ∧ r 2 = 11#32 ∧ r 3 = 14#32 := ⟨_, rfl, by decide +kernel⟩

/-- Non-vacuity: the same for the conjunction. -/
example : ∃ r, andM4 15#32 (fun l : Fin 4 => BitVec.ofNat 32 (15 - 2 ^ l.val)) (fun l => decide (l.val ≠ 1)) = some (2#32, r) ∧
    r 0 = 15#32 ∧ r 2 = 14#32 ∧ r 3 = 10#32 := ⟨_, rfl, by decide +kernel⟩

/-! ### No update is lost and tickets are unique, whatever the interleaving of gangs -/

theorem serial_add_sum (r : Vec W (BitVec w)) (v : Vec W (BitVec w)) : ∀ (ls : List (Fin W)) (x x' : BitVec w),
    Serial (· + ·) v ls x x' r → x' = x + (ls.map v).sum := by
  intro ls
  induction ls with
  | nil => intro x x' h; simp [Serial] at h; simp [h]
  | cons l ls ih =>
    intro x x' h
    obtain ⟨_, h2⟩ := h
    rw [ih _ _ h2, List.map_cons, List.sum_cons]
    exact BitVec.add_assoc _ _ _

/-- All gangs of all threads, in the order in which their hardware operations happen. -/
def runAdds : List (Vec W (BitVec w) × Mask W) → BitVec w → Option (BitVec w)
  | [], x => some x
  | (v, m) :: cs, x => (addM4 x v m).bind fun p => runAdds cs p.1

/-- C19: after any interleaving of gang-wide atomic additions the location holds the old value plus every active
instance's operand. -/
theorem no_lost_update (hW : 0 < W) : ∀ (calls : List (Vec W (BitVec w) × Mask W)) (x : BitVec w),
    runAdds calls x = some (x + (calls.map fun c => ((activeLanes c.2).map c.1).sum).sum) := by
  intro calls
  induction calls with
  | nil => intro x; simp [runAdds]
  | cons c cs ih =>
    intro x
    obtain ⟨x', r, h1, h2⟩ := addM4_serial hW x c.1 c.2
    obtain ⟨v, m⟩ := c
    rw [runAdds, h1, Option.bind_some, ih x', serial_add_sum r v _ _ _ h2, List.map_cons, List.sum_cons]
    congr 1
    exact BitVec.add_assoc _ _ _

theorem serial_ticket (r : Vec W (BitVec w)) : ∀ (ls : List (Fin W)) (x x' : BitVec w),
    Serial (· + ·) (fun _ => 1#w) ls x x' r → ∀ k (h : k < ls.length), r ls[k] = x + BitVec.ofNat w k := by
  intro ls
  induction ls with
  | nil => intro x x' _ k h; simp at h
  | cons l ls ih =>
    intro x x' h k hk
    obtain ⟨h1, h2⟩ := h
    cases k with
    | zero => simp [h1]
    | succ k =>
      rw [List.getElem_cons_succ, ih _ _ h2 k (by simpa using hk), BitVec.ofNat_add, BitVec.add_assoc]
      congr 1
      exact BitVec.add_comm _ _

/-- C19: `atomic_add_global(p, 1)` hands the active instances of the gang the consecutive values starting at the old one,
in instance order. -/
theorem tickets (hW : 0 < W) : ∃ x' r, addM4 x (fun _ => 1#w) mask = some (x', r) ∧
    ∀ k (h : k < (activeLanes mask).length), r (activeLanes mask)[k] = x + BitVec.ofNat w k := by
  obtain ⟨x', r, h1, h2⟩ := addM4_serial hW x (fun _ => 1#w) mask
  exact ⟨x', r, h1, serial_ticket r _ _ _ h2⟩

/-! ### Findings: subtraction and the generic conjunction -/

/-- Decidable form of `Serial`, to refute it on a concrete gang. -/
def serialB [DecidableEq α] (f : α → α → α) (v : Vec W α) : List (Fin W) → α → α → Vec W α → Bool
  | [], x, x', _ => decide (x' = x)
  | l :: order, x, x', r => decide (r l = x) && serialB f v order (f x (v l)) x' r

theorem serialB_iff [DecidableEq α] (f : α → α → α) (v r : Vec W α) : ∀ (ls : List (Fin W)) (x x' : α),
    serialB f v ls x x' r = true ↔ Serial f v ls x x' r := by
  intro ls
  induction ls with
  | nil => intro x x'; simp [serialB, Serial]
  | cons l ls ih => intro x x'; simp [serialB, Serial, ih]

theorem perm_pair {a b : Fin W} {ls : List (Fin W)} (h : ls.Perm [a, b]) : ls = [a, b] ∨ ls = [b, a] := by
  match ls, h with
  | [], h => have := h.length_eq; simp at this
  | [_], h => have := h.length_eq; simp at this
  | [c, d], h =>
    have hc : c ∈ [a, b] := h.mem_iff.1 (by simp)
    rcases List.mem_cons.1 hc with rfl | hc
    · left
      have := (List.perm_cons c).1 h
      rw [List.perm_singleton] at this
      rw [this]
    · rw [List.mem_singleton] at hc
      subst hc
      right
      have h2 := h.trans (List.Perm.swap c a [])
      have := (List.perm_cons c).1 h2
      rw [List.perm_singleton] at this
      rw [this]
  | _ :: _ :: _ :: _, h => have := h.length_eq; simp at this

/-- Finding: on the targets that use util.m4 (sse, avx1, avx512, wasm), a gang-wide `atomic_subtract_global` is not explained by any order of the
instances: with two instances subtracting 3 and 1 from 10 the location ends at 8. -/
theorem subM4_not_serial : ∃ x' r, subM4 (W := 2) 10#32 (fun l => if l.val = 0 then 3#32 else 1#32) (fun _ => true) =
      some (x', r) ∧ x' = 8#32 ∧
    ¬ ActsAsSerial (· - ·) (fun l : Fin 2 => if l.val = 0 then 3#32 else 1#32) (fun _ => true) 10#32 x' r := by
  refine ⟨_, _, rfl, by decide +kernel, ?_⟩
  rintro ⟨order, hp, hs⟩
  have ha : activeLanes (fun _ : Fin 2 => true) = [0, 1] := by decide +kernel
  rw [ha] at hp
  rcases perm_pair hp with rfl | rfl
  · rw [← serialB_iff] at hs; revert hs; decide +kernel
  · rw [← serialB_iff] at hs; revert hs; decide +kernel

/-- Finding: one active instance is not enough to be right, it must be instance 0: instance 1 alone *adds*. -/
theorem subM4_single_lane_adds : ∃ r, subM4 (W := 2) 10#32 (fun _ => 3#32) (fun l => decide (l.val = 1)) =
    some (13#32, r) := ⟨_, rfl⟩

/-- C19, partial: `atomic_subtract_global` of a gang is right when instance 0 alone is active.  Missing: every other mask
with a non-zero operand (`subM4_not_serial`, `subM4_single_lane_adds`). -/
theorem subM4_serial_partial (hW : 0 < W) (hm : ∀ l : Fin W, mask l = decide (l.val = 0)) :
    ∃ x' r, subM4 x val mask = some (x', r) ∧ Serial (· - ·) val (activeLanes mask) x x' r := by
  have hb : ∀ k, 0 < k → k ≤ W → activeBelow mask k = [⟨0, hW⟩] := by
    intro k
    induction k with
    | zero => intro h; omega
    | succ k ih =>
      intro _ hk
      rw [activeBelow_succ mask (by omega : k < W), hm]
      rcases Nat.eq_zero_or_pos k with rfl | hk0
      · simp [activeBelow, lanesBelow_zero]
      · rw [ih hk0 (by omega)]
        rw [if_neg (by simp; omega), List.append_nil]
  have hact : activeLanes mask = [⟨0, hW⟩] := by
    rw [← hb W hW (le_refl W)]; unfold activeBelow activeLanes; rw [lanesBelow_all]
  unfold subM4 atomicM4
  simp only []
  rw [valp_eq]
  unfold prefixLoop
  rw [extract_lt _ hW]
  simp only [Option.bind_eq_bind, Option.bind_some]
  obtain ⟨st, hst, h1, h2⟩ := forLoop_inv (body := fun i (st : BitVec w × Vec W (BitVec w)) =>
      (extract (fun l => if mask l then val l else 0#w) i).bind fun ei =>
        (insert st.2 i st.1).bind fun elt => some (st.1 - ei, elt))
    (fun i (st : BitVec w × Vec W (BitVec w)) => st.1 = val ⟨0, hW⟩ ∧ st.2 ⟨0, hW⟩ = 0#w) (W - 1) 1
    (if mask ⟨0, hW⟩ then val ⟨0, hW⟩ else 0#w, fun _ => 0#w)
    ⟨by simp [hm], rfl⟩
    (by
      rintro i ⟨red, elt⟩ h1 hi ⟨h2, h3⟩
      have hi : i < W := by omega
      simp only at h2 h3
      rw [extract_lt _ hi, Option.bind_some, insert_lt _ hi, Option.bind_some]
      refine ⟨_, rfl, ?_, ?_⟩
      · have : mask ⟨i, hi⟩ = false := by rw [hm]; simp; omega
        simp [this, h2]
      · have h0 : ¬ (0 = i) := by omega
        simp only [h0, if_false, h3])
  rw [hst, hact]
  refine ⟨_, _, rfl, ?_⟩
  simp only [Serial]
  rw [h1, h2]
  simp

/-- Finding: generic `atomic_and_global` subtracts: 12 and 10 give 2 in place of 8. -/
theorem andGeneric_subtracts : ∃ r, andGeneric (W := 2) 12#32 (fun _ => 10#32) (fun _ => true) = some (2#32, r) ∧
    ¬ ActsAsSerial (· &&& ·) (fun _ : Fin 2 => 10#32) (fun _ => true) 12#32 2#32 r := by
  refine ⟨_, rfl, ?_⟩
  rintro ⟨order, hp, hs⟩
  have ha : activeLanes (fun _ : Fin 2 => true) = [0, 1] := by decide +kernel
  rw [ha] at hp
  rcases perm_pair hp with rfl | rfl
  · rw [← serialB_iff] at hs; revert hs; decide +kernel
  · rw [← serialB_iff] at hs; revert hs; decide +kernel

/-- Finding: generic `atomic_subtract_global` on `int32` returns the negated old value even for one instance. -/
theorem subGeneric32_returns_negated : ∃ r, subGeneric32 (W := 1) 10#32 (fun _ => 3#32) (fun _ => true) = some (7#32, r) ∧
    r 0 = -10#32 := ⟨_, rfl, by decide +kernel⟩

/-- Finding: generic `atomic_subtract_global` on `int64`, two instances. -/
theorem subGeneric64_not_serial : ∃ x' r, subGeneric64 (W := 2) 10#64 (fun l => if l.val = 0 then 3#64 else 1#64)
      (fun _ => true) = some (x', r) ∧
    ¬ ActsAsSerial (· - ·) (fun l : Fin 2 => if l.val = 0 then 3#64 else 1#64) (fun _ => true) 10#64 x' r := by
  refine ⟨_, _, rfl, ?_⟩
  rintro ⟨order, hp, hs⟩
  have ha : activeLanes (fun _ : Fin 2 => true) = [0, 1] := by decide +kernel
  rw [ha] at hp
  rcases perm_pair hp with rfl | rfl
  · rw [← serialB_iff] at hs; revert hs; decide +kernel
  · rw [← serialB_iff] at hs; revert hs; decide +kernel

end Ispc.Atomics
