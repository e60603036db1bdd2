import Verif.Builtins.Aos
import Verif.Builtins.AosNetsData

/-!
# The shuffle networks of the transposes (C17)

Most targets do not use the transposes of `generic.ispc` but networks of `shufflevector`s written out by hand in
`builtins/util.m4:2817-5079` (tables in `AosNetsData.lean`), under the wrappers of util.m4:5082-5281 (Xe: util-xe.m4:1879-3656 and 3657-3852).  Here is what such a
network does to memory, and the proof that every one of them, for all element values and addresses, does what the loops of
`generic.ispc` do.  The tables are program text; the proof is over all the data they are run on: a network moves elements
without looking at them (`run_map`, `writes_map`), so one run of each on symbolic elements decides where each element goes.
-/

namespace Ispc.AosNets

open Ispc.Vec
open Ispc.Scan (Mem Mem.set)

variable {α β : Type}

/-! ## Model -/

/-- The elements of `c` selected by a mask (LLVM LangRef, shufflevector): `-1` gives poison, another index outside `c` is not
a valid program. -/
def pick (c : List (Option α)) : List Int → Option (List (Option α))
  | [] => some []
  | i :: is => do
    let x ← if i = -1 then some none else if i < 0 then none else c[i.toNat]?
    let xs ← pick c is
    some (x :: xs)

/-- The second operand, a register of the same width as the first or `poison`. -/
def operandB (regs : List (List (Option α))) (n : Nat) : Option Nat → Option (List (Option α))
  | none => some (List.replicate n none)
  | some b => do
    let v ← regs[b]?
    if v.length = n then some v else none

/-- `shufflevector` (LLVM LangRef); a register is a list of elements, `none` is poison. -/
def shuffle (regs : List (List (Option α))) (s : Shuf) : Option (List (Option α)) := do
  let a ← regs[s.a]?
  let b ← operandB regs a.length s.b
  pick (a ++ b) s.mask

/-- The shuffles in order, each defining the next register (the bodies of util.m4:2817-5079). -/
def run (regs : List (List (Option α))) : List Shuf → Option (List (List (Option α)))
  | [] => some regs
  | s :: ss => do
    let r ← shuffle regs s
    run (regs ++ [r]) ss

/-- A stored vector as single cells of output `out`; a poison element is not allowed to reach memory. -/
def cells (out : Nat) : Nat → List (Option α) → Option (List ((Nat × Nat) × α))
  | _, [] => some []
  | _, none :: _ => none
  | off, some x :: xs => do
    let ws ← cells out (off + 1) xs
    some (((out, off), x) :: ws)

/-- The stores in order (`store <W x T> %r, <W x T>* %out`, util.m4:2817-5079). -/
def writes (regs : List (List (Option α))) : List Store → Option (List ((Nat × Nat) × α))
  | [] => some []
  | s :: ss => do
    let v ← regs[s.r]?
    let ws ← cells s.out s.off v
    let ws' ← writes regs ss
    some (ws ++ ws')

/-- The vector arguments. -/
def args {N W : Nat} (v : Fin N → Vec W α) : List (List (Option α)) := List.ofFn fun k => List.ofFn fun i => some (v k i)

/-- The writes of a network, by output and offset. -/
def netWrites (net : Net) (v : Fin net.fields → Vec net.width α) : Option (List ((Nat × Nat) × α)) := do
  let regs ← run (args v) net.shufs
  writes regs net.stores

/-- A network: all the vector arguments are values, so memory is only written. -/
def exec (net : Net) (v : Fin net.fields → Vec net.width α) (outs : Nat → Int) (m : Mem α) : Option (Mem α) := do
  let ws ← netWrites net v
  some (ws.foldl (fun m w => m.set (outs w.1.1 + w.1.2) w.2) m)

/-- The wrappers `__aos_to_soaN_T` (util.m4:5099-5120, 5135-5156, 5171-5188, 5202-5219, 5234-5246, 5258-5270): argument `k` is loaded from
`p + k` vectors; the outputs are anywhere.  Addresses in elements. -/
def aosToSoa (net : Net) (m : Mem α) (p : Int) (outs : Nat → Int) : Option (Mem α) :=
  exec net (fun k i => m (p + (k.val * net.width + i.val : Nat))) outs m

/-- The wrappers `__soa_to_aosN_T` (util.m4:5122-5133, 5158-5169, 5190-5200, 5221-5231, 5248-5256, 5272-5280): output `k` is `p + k` vectors. -/
def soaToAos (net : Net) (m : Mem α) (p : Int) (v : Fin net.fields → Vec net.width α) : Option (Mem α) :=
  exec net v (fun k => p + (k * net.width : Nat)) m

/-! ## A network moves elements without looking at them -/

theorem pick_map (f : α → β) (c : List (Option α)) (is : List Int) :
    pick (c.map (Option.map f)) is = (pick c is).map (List.map (Option.map f)) := by
  induction is with
  | nil => rfl
  | cons i is ih =>
    simp only [pick, ih]
    by_cases h : i = -1
    · simp only [h, if_true, Option.bind_eq_bind, Option.bind_some]
      cases pick c is <;> rfl
    · simp only [h, if_false]
      by_cases h' : i < 0
      · simp [h']
      · simp only [h', if_false, List.getElem?_map]
        cases c[i.toNat]? with
        | none => rfl
        | some x => cases pick c is <;> rfl

theorem shuffle_map (f : α → β) (regs : List (List (Option α))) (s : Shuf) :
    shuffle (regs.map (List.map (Option.map f))) s = (shuffle regs s).map (List.map (Option.map f)) := by
  simp only [shuffle, List.getElem?_map]
  cases regs[s.a]? with
  | none => rfl
  | some a =>
    simp only [Option.map_some, Option.bind_eq_bind, Option.bind_some, List.length_map]
    cases hb : s.b with
    | none =>
      simp only [operandB, Option.bind_some]
      rw [← pick_map, List.map_append, List.map_replicate]
      rfl
    | some b =>
      simp only [operandB, List.getElem?_map]
      cases regs[b]? with
      | none => rfl
      | some w =>
        simp only [Option.map_some, Option.bind_eq_bind, Option.bind_some, List.length_map]
        by_cases h : w.length = a.length
        · simp only [h, if_true, Option.bind_some]
          rw [← pick_map, List.map_append]
        · simp [h]

theorem run_map (f : α → β) (ss : List Shuf) : ∀ regs : List (List (Option α)),
    run (regs.map (List.map (Option.map f))) ss = (run regs ss).map (List.map (List.map (Option.map f))) := by
  induction ss with
  | nil => intro regs; rfl
  | cons s ss ih =>
    intro regs
    simp only [run, shuffle_map]
    cases shuffle regs s with
    | none => rfl
    | some r =>
      simp only [Option.map_some, Option.bind_eq_bind, Option.bind_some]
      rw [← ih, List.map_append, List.map_cons, List.map_nil]

theorem cells_map (f : α → β) (out : Nat) (xs : List (Option α)) : ∀ off,
    cells out off (xs.map (Option.map f)) = (cells out off xs).map (List.map (Prod.map id f)) := by
  induction xs with
  | nil => intro off; rfl
  | cons x xs ih =>
    intro off
    cases x with
    | none => rfl
    | some x =>
      simp only [List.map_cons, Option.map_some, cells, ih]
      cases cells out (off + 1) xs <;> rfl

theorem writes_map (f : α → β) (ss : List Store) (regs : List (List (Option α))) :
    writes (regs.map (List.map (Option.map f))) ss = (writes regs ss).map (List.map (Prod.map id f)) := by
  induction ss with
  | nil => rfl
  | cons s ss ih =>
    simp only [writes, ih, List.getElem?_map]
    cases regs[s.r]? with
    | none => rfl
    | some v =>
      simp only [Option.map_some, Option.bind_eq_bind, Option.bind_some, cells_map]
      cases cells s.out s.off v with
      | none => rfl
      | some ws => cases writes regs ss <;> simp

theorem args_map (f : α → β) {N W : Nat} (v : Fin N → Vec W α) :
    args (fun k i => f (v k i)) = (args v).map (List.map (Option.map f)) := by
  simp only [args, List.map_ofFn]
  congr 1
  funext k
  rw [Function.comp_apply, List.map_ofFn]
  rfl

/-- The symbolic arguments: element `i` of argument `k` is the pair `(k, i)`. -/
def sym (N W : Nat) : Fin N → Vec W (Fin N × Fin W) := fun k i => (k, i)

theorem netWrites_map (net : Net) (v : Fin net.fields → Vec net.width α) :
    netWrites net v = (netWrites net (sym _ _)).map (List.map (Prod.map id fun x => v x.1 x.2)) := by
  unfold netWrites
  have h := args_map (fun x : Fin net.fields × Fin net.width => v x.1 x.2) (sym net.fields net.width)
  simp only [sym] at h
  rw [h]
  simp only [Option.bind_eq_bind]
  rw [run_map]
  change (Option.map _ (run (args (sym net.fields net.width)) net.shufs)).bind _ = _
  cases run (args (sym net.fields net.width)) net.shufs with
  | none => rfl
  | some regs => exact writes_map _ _ _

/-! ## The check of one network, and what it gives -/

/-- The symbolic run succeeds, writes only cells of the outputs, with the element `e` says, and every cell at least once. -/
def check (net : Net) (e : Nat → Nat → Nat × Nat) : Bool :=
  match netWrites net (sym _ _) with
  | none => false
  | some ws =>
    ws.all (fun w => Nat.blt w.1.1 net.fields && Nat.blt w.1.2 net.width &&
      (Nat.beq w.2.1.val (e w.1.1 w.1.2).1 && Nat.beq w.2.2.val (e w.1.1 w.1.2).2)) &&
    (List.range net.fields).all fun f => (List.range net.width).all fun l => ws.any fun w => Nat.beq w.1.1 f && Nat.beq w.1.2 l

/-- Element `l` of output `f` of `aos_to_soaN` is element `N * l + f` of the flat input. -/
def aosSource (N W f l : Nat) : Nat × Nat := ((N * l + f) / W, (N * l + f) % W)

/-- Element `c = W * f + l` of the flat output of `soa_to_aosN` is lane `c / N` of field `c % N`. -/
def soaSource (N W f l : Nat) : Nat × Nat := ((f * W + l) % N, (f * W + l) / N)

theorem writes_fold (ws : List ((Nat × Nat) × α)) (addr : Nat × Nat → Int) : ∀ m : Mem α,
    (∀ q, (∀ w ∈ ws, addr w.1 ≠ q) → ws.foldl (fun m w => m.set (addr w.1) w.2) m q = m q) ∧
    (∀ q x, (∀ w ∈ ws, addr w.1 = q → w.2 = x) → (∃ w ∈ ws, addr w.1 = q) →
      ws.foldl (fun m w => m.set (addr w.1) w.2) m q = x) := by
  induction ws with
  | nil => intro m; exact ⟨fun _ _ => rfl, fun q x _ ⟨w, h, _⟩ => absurd h (by simp)⟩
  | cons w ws ih =>
    intro m
    obtain ⟨h1, h2⟩ := ih (m.set (addr w.1) w.2)
    constructor
    · intro q hq
      rw [List.foldl_cons, h1 q fun w' h => hq w' (List.mem_cons_of_mem _ h)]
      unfold Mem.set
      rw [if_neg fun e => hq w List.mem_cons_self e.symm]
    · intro q x hx hex
      rw [List.foldl_cons]
      by_cases h : ∃ w' ∈ ws, addr w'.1 = q
      · exact h2 q x (fun w' hw' => hx w' (List.mem_cons_of_mem _ hw')) h
      · rw [h1 q fun w' hw' e => h ⟨w', hw', e⟩]
        obtain ⟨w', hw', e⟩ := hex
        rcases List.mem_cons.1 hw' with rfl | hw'
        · unfold Mem.set
          rw [if_pos e.symm]
          exact hx _ List.mem_cons_self e
        · exact absurd ⟨w', hw', e⟩ h

/-- What the check means for a run on arbitrary elements. -/
theorem exec_eq {net : Net} {e : Nat → Nat → Nat × Nat} (hc : check net e = true)
    (v : Fin net.fields → Vec net.width α) (outs : Nat → Int) (m : Mem α)
    (hd : ∀ f < net.fields, ∀ g < net.fields, f ≠ g → outs f + net.width ≤ outs g ∨ outs g + net.width ≤ outs f) :
    ∃ m', exec net v outs m = some m' ∧
      (∀ f < net.fields, ∀ l < net.width, ∀ (h1 : (e f l).1 < net.fields) (h2 : (e f l).2 < net.width),
        m' (outs f + l) = v ⟨(e f l).1, h1⟩ ⟨(e f l).2, h2⟩) ∧
      ∀ q, (∀ f < net.fields, q < outs f ∨ outs f + net.width ≤ q) → m' q = m q := by
  unfold check at hc
  cases hw : netWrites net (sym net.fields net.width) with
  | none => rw [hw] at hc; exact absurd hc (by simp)
  | some ws =>
    rw [hw] at hc
    simp only [Bool.and_eq_true, List.all_eq_true, Nat.blt_eq, Nat.beq_eq, List.mem_range, List.any_eq_true] at hc
    obtain ⟨hall, hcov⟩ := hc
    have he : exec net v outs m = some ((ws.map (Prod.map id fun x => v x.1 x.2)).foldl
        (fun m w => m.set (outs w.1.1 + w.1.2) w.2) m) := by
      unfold exec
      rw [netWrites_map, hw]
      rfl
    obtain ⟨h1, h2⟩ := writes_fold (ws.map (Prod.map id fun x => v x.1 x.2)) (fun k => outs k.1 + k.2) m
    refine ⟨_, he, ?_, ?_⟩
    · intro f hf l hl k1 k2
      apply h2
      · intro w hwm hq
        obtain ⟨w0, hw0, rfl⟩ := List.mem_map.1 hwm
        obtain ⟨⟨ha, hb⟩, hv⟩ := hall w0 hw0
        simp only [Prod.map_fst, id] at hq
        have hfg : w0.1.1 = f := by
          by_contra hne
          rcases hd _ ha f hf hne with h | h <;> omega
        have hlg : w0.1.2 = l := by
          rw [hfg] at hq
          omega
        rw [hfg, hlg] at hv
        have e1 : w0.2.1 = ⟨(e f l).1, k1⟩ := Fin.ext hv.1
        have e2 : w0.2.2 = ⟨(e f l).2, k2⟩ := Fin.ext hv.2
        simp only [Prod.map_snd]
        rw [e1, e2]
      · obtain ⟨w0, hw0, hk⟩ := hcov f hf l hl
        refine ⟨_, List.mem_map.2 ⟨w0, hw0, rfl⟩, ?_⟩
        simp only [Prod.map_fst, id, hk.1, hk.2]
    · intro q hq
      apply h1
      intro w hwm hqe
      obtain ⟨w0, hw0, rfl⟩ := List.mem_map.1 hwm
      obtain ⟨⟨ha, hb⟩, _⟩ := hall w0 hw0
      simp only [Prod.map_fst, id] at hqe
      rcases hq _ ha with h | h <;> omega

theorem aos_checks : aosToSoaNets.all (fun e => check e.2 (aosSource e.2.fields e.2.width)) = true := by
  decide +kernel

theorem soa_checks : soaToAosNets.all (fun e => check e.2 (soaSource e.2.fields e.2.width)) = true := by
  decide +kernel

end Ispc.AosNets
