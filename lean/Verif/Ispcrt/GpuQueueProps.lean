import Verif.Ispcrt.GpuQueueInv

/-!
# C53: what the task queue of a GPU device guarantees
-/

namespace Ispc.GpuQueue

/-! ## Specification -/

/-- The command that a call put into a list, if it did not throw. -/
def made : Act → Res → Option Kind
  | .toDevice _, .ok => some .toDevice
  | .toHost _, .ok => some .toHost
  | .copyView _, .ok => some .copyView
  | .launch _, .future _ => some .launch
  | _, _ => none

/-- The commands that the calls of a history made, each with the number of returns of `sync` before it. -/
def issued (c : Cfg) (w : World) (b : Nat) : List Act → List (Kind × Nat)
  | [] => []
  | a :: as =>
    match step c w a with
    | none => []
    | some (w', r) =>
      ((made a r).map fun k => (k, b)).toList ++ issued c w' (if a = .syncReturns then b + 1 else b) as

/-- For each call of `barrier` in a history, the number of commands made before it. -/
def barriers (c : Cfg) (w : World) (n : Nat) : List Act → List Nat
  | [] => []
  | a :: as =>
    match step c w a with
    | none => []
    | some (w', r) =>
      (if a = .barrier then [n] else []) ++ barriers c w' (if (made a r).isSome then n + 1 else n) as

/-- What the device does by itself. -/
def Act.isDevice : Act → Bool
  | .start _ => true
  | .finish _ => true
  | _ => false

/-- With a copy engine, `sync` waits for one of two queues only.  This says that the commands given to the other one
    are nevertheless waited for: if there is a copy to the host, one stands after each kernel and each copy between
    views; if there is none, but a kernel or a copy between views, a kernel stands after each copy to the device. -/
def Covered (w : World) : Prop :=
  ((∃ h, Cur w h ∧ (w.cmd h).kind = .toHost) ∧
    ∀ i, Cur w i → (w.cmd i).kind.isCompute = true → ∃ j, i < j ∧ Cur w j ∧ (w.cmd j).kind = .toHost) ∨
  ((¬ ∃ h, Cur w h ∧ (w.cmd h).kind = .toHost) ∧ (∃ k, Cur w k ∧ (w.cmd k).kind.isCompute = true) ∧
    ∀ i, Cur w i → (w.cmd i).kind = .toDevice → ∃ j, i < j ∧ Cur w j ∧ (w.cmd j).kind = .launch) ∨
  ((¬ ∃ h, Cur w h ∧ (w.cmd h).kind = .toHost) ∧ ¬ ∃ k, Cur w k ∧ (w.cmd k).kind.isCompute = true)

/-! ## The commands of the model are the calls of the history -/

/-- What a step does to the commands there are. -/
theorem step_cmds {c : Cfg} {w w' : World} {n : Nat} {a : Act} {r : Res} (h : Inv c w n) (hs : step c w a = some (w', r))
    (hub : w'.ub = false) :
    (∀ i < w.ncmd, w'.cmd i = w.cmd i) ∧
    (match made a r with
      | none => w'.ncmd = w.ncmd
      | some k => w'.ncmd = w.ncmd + 1 ∧ (w'.cmd w.ncmd).kind = k ∧ (w'.cmd w.ncmd).batch = w.batch ∧
          w'.runs w.ncmd = 0) ∧
    w'.batch = (if a = .syncReturns then w.batch + 1 else w.batch) ∧
    w'.bars = w.bars ++ (if a = .barrier then [w.ncmd] else []) := by
  obtain ⟨O, hC, hE, hn⟩ := h
  unfold step at hs
  rw [hC.noub] at hs
  simp only [Bool.false_eq_true, if_false] at hs
  have hwn : w.wait.isSome ≠ true → w.wait = none := by intro hx; simpa using hx
  cases a with
  | start i =>
    simp only at hs
    split_ifs at hs with hx
    cases hs
    simp [made, World.start]
  | finish i =>
    simp only at hs
    split_ifs at hs with hx
    cases hs
    unfold World.finish
    split <;> simp [made]
  | syncReturns =>
    simp only at hs
    have hse : w' = syncEnd c w ∧ r = .ok := by
      split at hs
      · cases hs
      · cases hs; exact ⟨rfl, rfl⟩
      · split_ifs at hs
        cases hs; exact ⟨rfl, rfl⟩
    obtain ⟨rfl, rfl⟩ := hse
    obtain ⟨_, _, _, _, _, hb, hc, hn', _, _, _, hbars⟩ := syncEnd_inv hC hE hub
    simp [made, hb, hc, hn', hbars]
  | toDevice ok =>
    simp only at hs
    split_ifs at hs with hx
    have hw := hwn hx
    simp only [Option.some.injEq] at hs
    unfold copyToDevice at hs
    rcases hg : w.getEvent with _ | ⟨w1, e⟩
    · rw [hg] at hs; cases hs; simp [made]
    · rw [hg] at hs
      obtain ⟨h1, hE1, hw1, hn, hc, hb, hlt⟩ := getEvent_inv hC hE hw hg
      have hbars : w1.bars = w.bars := by
        unfold World.getEvent World.create at hg
        split at hg
        · cases hg; rfl
        · split at hg
          · cases hg
          · rename_i hq
            split at hq
            · cases hq
            · cases hq; cases hg; rfl
      cases ok
      · cases hs; simp [made, hn, hc, hb, hbars]
      · cases hs
        refine ⟨?_, ?_, ?_, ?_⟩
        · intro i hi; rw [← hc]; exact append_cmd (by rw [hn]; exact hi)
        · simp only [made]
          refine ⟨by show w1.ncmd + 1 = _; rw [hn], ?_, ?_, ?_⟩
          · rw [← hn]; exact congrArg Cmd.kind append_cmd_new
          · rw [← hn, ← hb]; exact congrArg Cmd.batch append_cmd_new
          · rw [← hn]; exact upd_same _ _ _
        · simp [World.append, hb]
        · simp [World.append, hbars]
  | toHost ok =>
    simp only at hs
    split_ifs at hs with hx
    simp only [Option.some.injEq] at hs
    unfold copyToHost at hs
    cases ok
    · cases hs; simp [made]
    · cases hs
      refine ⟨fun i hi => append_cmd hi, ?_, rfl, by simp [World.append]⟩
      simp only [made]
      exact ⟨rfl, congrArg Cmd.kind append_cmd_new, congrArg Cmd.batch append_cmd_new, upd_same _ _ _⟩
  | copyView ok =>
    simp only at hs
    split_ifs at hs with hx
    simp only [Option.some.injEq] at hs
    unfold copyMemoryView computeCmd World.create at hs
    rcases hfr : w.compute.free with _ | ⟨i0, rest⟩
    · rw [hfr] at hs; cases hs; simp [made]
    · rw [hfr] at hs
      cases ok
      · cases hs; simp [made]
      · cases hs
        refine ⟨fun i hi => append_cmd (w := { w with compute := _, index := _, signalled := _, nev := _ }) hi, ?_, rfl,
          by simp [World.append]⟩
        simp only [made]
        exact ⟨rfl, congrArg Cmd.kind (append_cmd_new (w := { w with compute := _, index := _, signalled := _, nev := _ })),
          congrArg Cmd.batch (append_cmd_new (w := { w with compute := _, index := _, signalled := _, nev := _ })),
          upd_same _ _ _⟩
  | launch ok =>
    simp only at hs
    split_ifs at hs with hx
    simp only [Option.some.injEq] at hs
    unfold launch computeCmd World.create at hs
    rcases hfr : w.compute.free with _ | ⟨i0, rest⟩
    · rw [hfr] at hs; cases hs; simp [made]
    · rw [hfr] at hs
      cases ok
      · cases hs; simp [made]
      · cases hs
        refine ⟨fun i hi => append_cmd (w := { w with compute := _, index := _, signalled := _, nev := _ }) hi, ?_, rfl,
          by simp [World.append]⟩
        simp only [made]
        exact ⟨rfl, congrArg Cmd.kind (append_cmd_new (w := { w with compute := _, index := _, signalled := _, nev := _ })),
          congrArg Cmd.batch (append_cmd_new (w := { w with compute := _, index := _, signalled := _, nev := _ })),
          upd_same _ _ _⟩
  | barrier =>
    simp only at hs
    split_ifs at hs with hx
    simp only [Option.some.injEq] at hs
    cases hs
    simp [made]
  | sync =>
    simp only at hs
    split_ifs at hs with hx
    have hw := hwn hx
    simp only [Option.some.injEq, Prod.mk.injEq] at hs
    obtain ⟨rfl, rfl⟩ := hs
    obtain ⟨_, _, _, _, _, hc, hn', hb, _, _, _, hbars⟩ := syncBegin_inv hC hE hw
    simp [made, hc, hn', hb, hbars]

/-- No step follows undefined behaviour. -/
theorem run_mid {c : Cfg} {w1 w' : World} {as : List Act} (hr : run c w1 as = some w') (hub : w'.ub = false) :
    w1.ub = false := by
  cases as with
  | nil => simp only [run, Option.some.injEq] at hr; rw [hr]; exact hub
  | cons b bs =>
    unfold run at hr
    split at hr
    · cases hr
    · rename_i hs2; exact step_ub hs2

theorem issued_run {c : Cfg} : ∀ (acts : List Act) {w w' : World} {n : Nat}, Inv c w n → run c w acts = some w' →
    w'.ub = false →
    (List.range w'.ncmd).map (fun i => ((w'.cmd i).kind, (w'.cmd i).batch)) =
      (List.range w.ncmd).map (fun i => ((w.cmd i).kind, (w.cmd i).batch)) ++ issued c w w.batch acts ∧
    w'.bars = w.bars ++ barriers c w w.ncmd acts := by
  intro acts
  induction acts with
  | nil =>
    intro w w' n h hr hub
    simp only [run, Option.some.injEq] at hr
    subst hr
    simp [issued, barriers]
  | cons a as ih =>
    intro w w' n h hr hub
    unfold run at hr
    unfold issued barriers
    split at hr
    · cases hr
    · rename_i w1 r hs
      have h1 := run_mid hr hub
      obtain ⟨g1, g2, g3, g4⟩ := step_cmds h hs h1
      obtain ⟨i1, i2⟩ := ih (step_inv h hs (fun _ => h1)) hr hub
      rw [hs]
      simp only
      rw [i1, i2, g3, g4]
      have hold : (List.range w.ncmd).map (fun i => ((w1.cmd i).kind, (w1.cmd i).batch)) =
          (List.range w.ncmd).map (fun i => ((w.cmd i).kind, (w.cmd i).batch)) :=
        List.map_congr_left fun i hi => by rw [g1 i (List.mem_range.1 hi)]
      rcases hm : made a r with _ | k
      · rw [hm] at g2
        simp only at g2
        rw [g2, hold]
        simp
      · rw [hm] at g2
        obtain ⟨q1, q2, q3, _⟩ := g2
        rw [q1, List.range_succ, List.map_append, hold]
        simp [q2, q3]

/-- The commands are the calls that did not throw, in their order, and the barriers are the calls of `barrier`. -/
theorem commands_are_calls {c : Cfg} {acts : List Act} {w : World} (hr : run c (init c) acts = some w)
    (hub : w.ub = false) :
    (List.range w.ncmd).map (fun i => ((w.cmd i).kind, (w.cmd i).batch)) = issued c (init c) 0 acts ∧
    w.bars = barriers c (init c) 0 acts := by
  have := issued_run (n := 0) acts ⟨[], (init_inv c).1, (init_inv c).2, Nat.zero_le _⟩ hr hub
  simpa [init] using this

/-! ## Order -/

/-- All copies to the device made before a launch have ended when the kernel starts. -/
theorem launch_after_copies {c : Cfg} {acts : List Act} {w : World} (hr : run c (init c) acts = some w)
    (hub : w.ub = false) {i j : Nat} (hij : i < j) (hj : Started w j) (hki : (w.cmd i).kind = .toDevice)
    (hkj : (w.cmd j).kind = .launch) : w.st i = .done := by
  obtain ⟨O, h, hE, _⟩ := reach hr hub
  have hin : i < w.ncmd := by have := hj.1; omega
  by_cases hi : (w.cmd i).batch = w.batch
  · have hbj : (w.cmd j).batch = w.batch := by
      have := h.mono i j hij hj.1
      have := h.batchLe j hj.1
      omega
    obtain ⟨e, he, hs⟩ := h.waitsL i j ⟨hin, hi⟩ ⟨hj.1, hbj⟩ hij hki hkj
    have := (h.started j ⟨hj.1, hbj⟩ hj.2).1 e he
    exact (h.sig i e ⟨hin, hi⟩ hs).1.1 this
  · exact h.old i hin (by have := h.batchLe i hin; omega)

/-- All kernels, and copies between views, made before a copy to the host have ended when that copy starts. -/
theorem copy_back_after_kernels {c : Cfg} {acts : List Act} {w : World} (hr : run c (init c) acts = some w)
    (hub : w.ub = false) {i j : Nat} (hij : i < j) (hj : Started w j) (hki : (w.cmd i).kind.isCompute = true)
    (hkj : (w.cmd j).kind = .toHost) : w.st i = .done := by
  obtain ⟨O, h, hE, _⟩ := reach hr hub
  have hin : i < w.ncmd := by have := hj.1; omega
  by_cases hi : (w.cmd i).batch = w.batch
  · have hbj : (w.cmd j).batch = w.batch := by
      have := h.mono i j hij hj.1
      have := h.batchLe j hj.1
      omega
    obtain ⟨e, he, hs⟩ := h.waitsH i j ⟨hin, hi⟩ ⟨hj.1, hbj⟩ hij hki hkj
    have := (h.started j ⟨hj.1, hbj⟩ hj.2).1 e he
    exact (h.sig i e ⟨hin, hi⟩ hs).1.1 this
  · exact h.old i hin (by have := h.batchLe i hin; omega)

/-- A barrier orders kernels and copies between views, and with one list all commands: those made before it have ended
    when one made after it starts. -/
theorem barrier_orders_partial {c : Cfg} {acts : List Act} {w : World} (hr : run c (init c) acts = some w)
    (hub : w.ub = false) {b i j : Nat} (hb : b ∈ w.bars) (hib : i < b) (hbj : b ≤ j) (hj : Started w j)
    (hk : c.mode = .oneList ∨ ((w.cmd i).kind.isCompute = true ∧ (w.cmd j).kind.isCompute = true)) :
    w.st i = .done := by
  obtain ⟨O, h, hE, _⟩ := reach hr hub
  have hij : i < j := by omega
  have hin : i < w.ncmd := by have := hj.1; omega
  by_cases hi : (w.cmd i).batch = w.batch
  · have hbj' : (w.cmd j).batch = w.batch := by
      have := h.mono i j hij hj.1
      have := h.batchLe j hj.1
      omega
    have hl : ∀ x, Cur w x → (c.mode = .oneList ∨ (w.cmd x).kind.isCompute = true) → (w.cmd x).list = .compute := by
      intro x hx hq
      rw [(h.role x hx).1]
      rcases hq with hq | hq
      · rw [hq]; rfl
      · have : (w.cmd x).kind.role = .compute := by
          revert hq; cases (w.cmd x).kind <;> simp [Kind.isCompute, Kind.role]
        rw [this]
        cases c.mode <;> rfl
    have hm := h.afterBar j ⟨hj.1, hbj'⟩ b hb hbj i hib ⟨hin, hi⟩
      (hl i ⟨hin, hi⟩ (hk.imp id (·.1))) (hl j ⟨hj.1, hbj'⟩ (hk.imp id (·.2)))
    exact (h.started j ⟨hj.1, hbj'⟩ hj.2).2 i hm
  · exact h.old i hin (by have := h.batchLe i hin; omega)

/-- No command of a call starts before the commands of calls before an earlier `sync` have ended, or before the next
    `sync` is called. -/
theorem batches_in_order {c : Cfg} {acts : List Act} {w : World} (hr : run c (init c) acts = some w)
    (hub : w.ub = false) {i j : Nat} (hin : i < w.ncmd) (hb : (w.cmd i).batch < (w.cmd j).batch) (hj : Started w j) :
    w.st i = .done := by
  obtain ⟨O, h, hE, _⟩ := reach hr hub
  exact h.old i hin (by have := h.batchLe j hj.1; omega)

theorem starts_in_sync {c : Cfg} {acts : List Act} {w : World} (hr : run c (init c) acts = some w)
    (hub : w.ub = false) {i : Nat} (hi : Started w i) (hw : w.wait = none) : (w.cmd i).batch < w.batch := by
  obtain ⟨O, h, hE, _⟩ := reach hr hub
  by_contra hb
  have hc : Cur w i := ⟨hi.1, by have := h.batchLe i hi.1; omega⟩
  have := h.opn hw i hc
  rcases hi.2 with hx | hx <;> rw [hx] at this <;> cases this

/-! ## The return of `sync` -/

/-- When `sync` can return, and the wait covers all commands, all have ended. -/
theorem idle_of_covered {c : Cfg} {w : World} {O : List Nat} (h : InvC c w) (hE : InvE c w O) {q : Option Bool}
    (hq : w.wait = some q) (hd : ∀ b, q = some b → w.queueDone b = true) (hcov : c.mode ≠ .engine ∨ Covered w) :
    ∀ i, Cur w i → w.st i = .done := by
  have hqf := hE.waitq q hq
  have hqd : ∀ b, q = some b → ∀ i, Cur w i → (w.cmd i).queue = b → w.st i = .done := by
    intro b hb i hi hib
    have := hd b hb
    unfold World.queueDone at this
    simp only [List.all_eq_true, List.mem_range, Bool.or_eq_true, decide_eq_true_eq] at this
    rcases this i hi.1 with (hx | hx) | hx
    · exact absurd hib hx
    · exact absurd hx (h.sub (by rw [hq]; simp) i hi)
    · exact hx
  have hany : ∀ r i, Cur w i → (w.cmd i).list = c.mode.listOf r → w.any c r = true := by
    intro r i hi hl
    unfold World.any
    rw [h.count]
    simpa using List.length_pos_of_mem ((h.mem _ i).2 ⟨hi, hl⟩)
  have hpend : ∀ i, Cur w i → (w.cmd i).kind.isCompute = true → w.pend.isEmpty = false := by
    intro i hi hk
    rcases hs : (w.cmd i).signal with _ | e
    · have := (h.sigKind i hi).1 hs
      rw [this] at hk; cases hk
    · have : e ∈ w.pend.map (·.1) := by
        rw [hE.pend]
        exact List.mem_filterMap.2 ⟨i, curs_mem.2 ⟨hi, hk⟩, hs⟩
      rcases hp : w.pend with _ | ⟨a, l⟩
      · rw [hp] at this; cases this
      · rfl
  by_cases hm : c.mode = .engine
  · have hcov : Covered w := by
      rcases hcov with hx | hx
      · exact absurd hm hx
      · exact hx
    have hqk : ∀ i, Cur w i → (w.cmd i).queue = !(w.cmd i).kind.isCompute := by
      intro i hi
      rw [(h.role i hi).2, hm]
      cases (w.cmd i).kind <;> rfl
    have hlk : ∀ r i, Cur w i → (w.cmd i).kind.role = r → w.any c r = true := by
      intro r i hi hk
      refine hany r i hi ?_
      rw [(h.role i hi).1, hk]
    have hnl : ∀ r, w.any c r = true → ∃ i, Cur w i ∧ (w.cmd i).kind.role = r := by
      intro r hr
      unfold World.any at hr
      rw [h.count] at hr
      obtain ⟨i, hi⟩ := List.exists_mem_of_length_pos (by simpa using hr)
      obtain ⟨a, b⟩ := (h.mem _ i).1 hi
      refine ⟨i, a, ?_⟩
      rw [(h.role i a).1, hm] at b
      exact b
    unfold World.waitFor at hqf
    rw [if_pos hm] at hqf
    rcases hcov with ⟨⟨t, ht, htk⟩, hc⟩ | ⟨hnh, ⟨k, hk, hkk⟩, hc⟩ | ⟨hnh, hnk⟩
    · rw [if_pos (hlk .d2h t ht (by rw [htk]; rfl))] at hqf
      have hcopy : ∀ i, Cur w i → (w.cmd i).kind.isCompute = false → w.st i = .done := by
        intro i hi hx
        exact hqd true hqf i hi (by rw [hqk i hi, hx]; rfl)
      intro i hi
      by_cases hx : (w.cmd i).kind.isCompute = true
      · obtain ⟨j, hij, hj, hjk⟩ := hc i hi hx
        have hjd := hcopy j hj (by rw [hjk]; rfl)
        obtain ⟨e, he, hs⟩ := h.waitsH i j hi hj hij hx hjk
        exact (h.sig i e hi hs).1.1 ((h.started j hj (Or.inr hjd)).1 e he)
      · exact hcopy i hi (by simpa using hx)
    · have hnd : w.any c .d2h = false := by
        by_contra hx
        obtain ⟨i, hi, hr⟩ := hnl .d2h (by simpa using hx)
        refine hnh ⟨i, hi, ?_⟩
        revert hr; cases (w.cmd i).kind <;> simp [Kind.role]
      rw [hnd, hpend k hk hkk] at hqf
      simp only [Bool.false_eq_true, if_false, Bool.not_false, if_true] at hqf
      have hcomp : ∀ i, Cur w i → (w.cmd i).kind.isCompute = true → w.st i = .done := by
        intro i hi hx
        exact hqd false hqf i hi (by rw [hqk i hi, hx]; rfl)
      intro i hi
      by_cases hx : (w.cmd i).kind.isCompute = true
      · exact hcomp i hi hx
      · have hik : (w.cmd i).kind = .toDevice := by
          have h1 : (w.cmd i).kind ≠ .toHost := fun hy => hnh ⟨i, hi, hy⟩
          revert hx h1; cases (w.cmd i).kind <;> simp [Kind.isCompute]
        obtain ⟨j, hij, hj, hjk⟩ := hc i hi hik
        have hjd := hcomp j hj (by rw [hjk]; rfl)
        obtain ⟨e, he, hs⟩ := h.waitsL i j hi hj hij hik hjk
        exact (h.sig i e hi hs).1.1 ((h.started j hj (Or.inr hjd)).1 e he)
    · have hnd : w.any c .d2h = false := by
        by_contra hx
        obtain ⟨i, hi, hr⟩ := hnl .d2h (by simpa using hx)
        refine hnh ⟨i, hi, ?_⟩
        revert hr; cases (w.cmd i).kind <;> simp [Kind.role]
      have hnp : w.pend.isEmpty = true := by
        rcases hp : w.pend with _ | ⟨⟨e, f⟩, l⟩
        · rfl
        · exfalso
          have hq2 := hE.pendF e f (by rw [hp]; exact List.mem_cons_self)
          exact hnk ⟨_, hq2.2.2, (hE.fut f hq2.1).2.1⟩
      rw [hnd, hnp] at hqf
      simp only [Bool.false_eq_true, if_false, Bool.not_true] at hqf
      intro i hi
      have hx : (w.cmd i).kind.isCompute = false := by
        by_contra hy; exact hnk ⟨i, hi, by simpa using hy⟩
      have hik : (w.cmd i).kind = .toDevice := by
        have h1 : (w.cmd i).kind ≠ .toHost := fun hy => hnh ⟨i, hi, hy⟩
        revert hx h1; cases (w.cmd i).kind <;> simp [Kind.isCompute]
      rw [if_pos (hlk .h2d i hi (by rw [hik]; rfl))] at hqf
      exact hqd true hqf i hi (by rw [hqk i hi, hx]; rfl)
  · intro i hi
    have hqi : (w.cmd i).queue = false := by
      rw [(h.role i hi).2]
      revert hm
      cases c.mode <;> simp [Mode.queueOf]
    unfold World.waitFor at hqf
    rw [if_neg hm] at hqf
    have hx : (w.any c .d2h || w.any c .h2d || !w.pend.isEmpty) = true := by
      rcases hk : (w.cmd i).kind
      · have := hany .h2d i hi (by rw [(h.role i hi).1, hk]; rfl)
        simp [this]
      · have := hany .d2h i hi (by rw [(h.role i hi).1, hk]; rfl)
        simp [this]
      · have := hpend i hi (by rw [hk]; rfl)
        simp [this]
      · have := hpend i hi (by rw [hk]; rfl)
        simp [this]
    rw [if_pos hx] at hqf
    exact hqd false hqf i hi hqi

theorem step_return {c : Cfg} {w w' : World} {r : Res} (hs : step c w .syncReturns = some (w', r)) :
    ∃ q, w.wait = some q ∧ (∀ b, q = some b → w.queueDone b = true) ∧ w' = syncEnd c w := by
  unfold step at hs
  by_cases hub : w.ub = true
  · rw [if_pos hub] at hs; cases hs
  · rw [if_neg hub] at hs
    simp only at hs
    split at hs
    · cases hs
    · rename_i hq; cases hs; exact ⟨none, hq, by simp, rfl⟩
    · rename_i q hq
      split_ifs at hs with hd
      cases hs
      exact ⟨some q, hq, by intro b hb; cases hb; exact hd, rfl⟩

/-- Without a copy engine nothing is ever reset while it is in use. -/
theorem no_engine_no_ub {c : Cfg} (hm : c.mode ≠ .engine) : ∀ {acts : List Act} {w : World},
    run c (init c) acts = some w → w.ub = false := by
  suffices H : ∀ (acts : List Act) {w w' : World} {n : Nat}, Inv c w n → run c w acts = some w' → w'.ub = false by
    intro acts w hr
    exact H (n := 0) acts ⟨[], (init_inv c).1, (init_inv c).2, Nat.zero_le _⟩ hr
  intro acts
  induction acts with
  | nil =>
    intro w w' n h hr
    simp only [run, Option.some.injEq] at hr
    subst hr
    obtain ⟨O, hC, _⟩ := h
    exact hC.noub
  | cons a as ih =>
    intro w w' n h hr
    unfold run at hr
    split at hr
    · cases hr
    · rename_i w1 r hs
      have h1 : w1.ub = false := by
        obtain ⟨O, hC, hE, _⟩ := h
        by_cases ha : a = .syncReturns
        · subst ha
          obtain ⟨q, hq, hd, rfl⟩ := step_return hs
          have hid := (idle_iff hC).2 (idle_of_covered hC hE hq hd (Or.inl hm))
          unfold syncEnd
          simp only [hid, Bool.not_true, Bool.false_eq_true, if_false]
          have := (finishAll_spec c w.pend { w with lists := fun r => (w.lists r).reset }).2.2.2.2.2.2.2.2.2.2.2.2.2.2.1
          exact this.trans hC.noub
        · obtain ⟨_, hC1, _⟩ := step_inv ⟨O, hC, hE, le_refl _⟩ hs (fun hx => absurd hx ha)
          exact hC1.noub
      exact ih (step_inv h hs (fun _ => h1)) hr

/-- The device does not change what there is to do, and it cannot go wrong by itself. -/
theorem step_device {c : Cfg} {w w' : World} {n : Nat} {a : Act} {r : Res} (h : Inv c w n) (ha : a.isDevice = true)
    (hs : step c w a = some (w', r)) :
    Inv c w' n ∧ w'.cmd = w.cmd ∧ w'.ncmd = w.ncmd ∧ w'.batch = w.batch ∧ w'.wait = w.wait ∧ w'.lists = w.lists := by
  have hne : a ≠ .toDevice false := by rintro rfl; cases ha
  have h1 := step_inv h hs (fun hx => by subst hx; cases ha)
  rw [if_neg hne, Nat.add_zero] at h1
  refine ⟨h1, ?_⟩
  obtain ⟨O, hC, _⟩ := h
  unfold step at hs
  rw [hC.noub] at hs
  simp only [Bool.false_eq_true, if_false] at hs
  cases a with
  | start i =>
    simp only at hs
    split_ifs at hs
    cases hs
    exact ⟨rfl, rfl, rfl, rfl, rfl⟩
  | finish i =>
    simp only at hs
    split_ifs at hs
    cases hs
    unfold World.finish
    split <;> exact ⟨rfl, rfl, rfl, rfl, rfl⟩
  | _ => cases ha

theorem run_device {c : Cfg} : ∀ {acts : List Act} {w w' : World} {n : Nat}, Inv c w n →
    (∀ a ∈ acts, a.isDevice = true) → run c w acts = some w' →
    Inv c w' n ∧ w'.cmd = w.cmd ∧ w'.ncmd = w.ncmd ∧ w'.batch = w.batch ∧ w'.wait = w.wait ∧ w'.lists = w.lists := by
  intro acts
  induction acts with
  | nil =>
    intro w w' n h _ hr
    simp only [run, Option.some.injEq] at hr
    subst hr
    exact ⟨h, rfl, rfl, rfl, rfl, rfl⟩
  | cons a as ih =>
    intro w w' n h hd hr
    unfold run at hr
    split at hr
    · cases hr
    · rename_i w1 r hs
      obtain ⟨g0, g1, g2, g3, g4, g5⟩ := step_device h (hd a List.mem_cons_self) hs
      obtain ⟨k0, k1, k2, k3, k4, k5⟩ := ih g0 (fun b hb => hd b (List.mem_cons_of_mem _ hb)) hr
      exact ⟨k0, k1.trans g1, k2.trans g2, k3.trans g3, k4.trans g4, k5.trans g5⟩

theorem run_append {c : Cfg} : ∀ (as bs : List Act) (w : World), run c w (as ++ bs) = (run c w as).bind fun w => run c w bs := by
  intro as
  induction as with
  | nil => intro bs w; rfl
  | cons a as ih =>
    intro bs w
    simp only [List.cons_append, run]
    split
    · rfl
    · exact ih bs _

/-- The device can run, and end, the commands of any set that contains what its members wait for, and no other. -/
theorem device_can_run {c : Cfg} (P : Nat → Prop) [DecidablePred P] : ∀ (m : Nat) {w : World} {n : Nat}, Inv c w n →
    w.wait ≠ none → m ≤ w.ncmd →
    (∀ j, Cur w j → P j → ∀ i, Cur w i → i < j → (∀ e ∈ (w.cmd j).waits, (w.cmd i).signal = some e → P i) ∧
      (i ∈ (w.cmd j).after → P i)) →
    ∃ sched w', (∀ a ∈ sched, a.isDevice = true) ∧ run c w sched = some w' ∧
      (∀ i < m, Cur w i → P i → w'.st i = .done) ∧ (∀ i, ¬ (P i ∧ i < m) → w'.st i = w.st i) := by
  intro m
  induction m with
  | zero =>
    intro w n h hw _ _
    exact ⟨[], w, by simp, rfl, by intro i hi; omega, by intro i _; rfl⟩
  | succ m ih =>
    intro w n h hw hm hP
    obtain ⟨sched, w1, hd, hr, hdone, hsame⟩ := ih h hw (by omega) hP
    obtain ⟨k0, k1, k2, k3, k4, k5⟩ := run_device h hd hr
    have hcur : ∀ i, Cur w1 i ↔ Cur w i := by intro i; unfold Cur; rw [k1, k2, k3]
    by_cases hc : Cur w m ∧ P m
    swap
    · refine ⟨sched, w1, hd, hr, ?_, ?_⟩
      · intro i hi hci hpi
        rcases Nat.lt_succ_iff_lt_or_eq.1 hi with hi | rfl
        · exact hdone i hi hci hpi
        · exact absurd ⟨hci, hpi⟩ hc
      · intro i hi
        exact hsame i (fun hx => hi ⟨hx.1, by omega⟩)
    · obtain ⟨hcm, hpm⟩ := hc
      obtain ⟨O, hC1, hE1, hO⟩ := id k0
      have hw1 : w1.wait ≠ none := by rw [k4]; exact hw
      have hmn : m < w1.ncmd := by rw [k2]; omega
      have hc1 : Cur w1 m := (hcur m).2 hcm
      -- first, the command is made to run
      obtain ⟨s2, w2, hd2, hr2, hrun2, hsm2⟩ : ∃ s2 w2, (∀ a ∈ s2, a.isDevice = true) ∧ run c w1 s2 = some w2 ∧
          (w2.st m = .running ∨ w2.st m = .done) ∧ ∀ i, i ≠ m → w2.st i = w1.st i := by
        rcases hst : w1.st m with _ | _ | _ | _
        · exact absurd hst (hC1.sub hw1 m hc1)
        · have hcan : w1.canStart m = true := by
            unfold World.canStart
            simp only [Bool.and_eq_true, decide_eq_true_eq, List.all_eq_true]
            refine ⟨⟨⟨hmn, hst⟩, ?_⟩, ?_⟩
            · intro e he
              obtain ⟨i, him, hi, hs, _⟩ := hC1.waits m hc1 e he
              rw [k1] at he hs
              have hpi := (hP m hcm hpm i ((hcur i).1 hi) him).1 e he hs
              have := hdone i him ((hcur i).1 hi) hpi
              exact (hC1.sig i e hi (by rw [k1]; exact hs)).1.2 this
            · intro i hi
              obtain ⟨a, b, _⟩ := hC1.after m hc1 i hi
              rw [k1] at hi
              exact hdone i b ((hcur i).1 a) ((hP m hcm hpm i ((hcur i).1 a) b).2 hi)
          refine ⟨[.start m], w1.start m, by simp [Act.isDevice], ?_, Or.inl (upd_same _ _ _), fun i hi => upd_ne _ _ hi⟩
          simp [run, step, hC1.noub, hcan]
        · exact ⟨[], w1, by simp, rfl, Or.inl hst, fun _ _ => rfl⟩
        · exact ⟨[], w1, by simp, rfl, Or.inr hst, fun _ _ => rfl⟩
      obtain ⟨p0, p1, p2, p3, p4, p5⟩ := run_device k0 hd2 hr2
      obtain ⟨O2, hC2, _⟩ := id p0
      -- then it ends
      obtain ⟨s3, w3, hd3, hr3, hdn3, hsm3⟩ : ∃ s3 w3, (∀ a ∈ s3, a.isDevice = true) ∧ run c w2 s3 = some w3 ∧
          w3.st m = .done ∧ ∀ i, i ≠ m → w3.st i = w2.st i := by
        rcases hrun2 with hst | hst
        · have hfin : (w2.finish c m).st = upd w2.st m .done := by
            unfold World.finish; split <;> rfl
          refine ⟨[.finish m], w2.finish c m, by simp [Act.isDevice], ?_, by rw [hfin, upd_same], ?_⟩
          · simp only [run, step, hC2.noub, Bool.false_eq_true, if_false, hst]
            rw [if_pos ⟨by rw [p2]; exact hmn, trivial⟩]
          · intro i hi; rw [hfin, upd_ne _ _ hi]
        · exact ⟨[], w2, by simp, rfl, hst, fun _ _ => rfl⟩
      refine ⟨sched ++ (s2 ++ s3), w3, ?_, ?_, ?_, ?_⟩
      · intro a ha
        rcases List.mem_append.1 ha with ha | ha
        · exact hd a ha
        · rcases List.mem_append.1 ha with ha | ha
          · exact hd2 a ha
          · exact hd3 a ha
      · rw [run_append, hr, Option.bind_some, run_append, hr2, Option.bind_some, hr3]
      · intro i hi hci hpi
        by_cases him : i = m
        · subst him; exact hdn3
        · rw [hsm3 i him, hsm2 i him]
          exact hdone i (by omega) hci hpi
      · intro i hi
        have him : i ≠ m := by rintro rfl; exact hi ⟨hpm, by omega⟩
        rw [hsm3 i him, hsm2 i him]
        exact hsame i (fun hx => hi ⟨hx.1, by omega⟩)

theorem run_one {c : Cfg} {w w' : World} {a : Act} : run c w [a] = some w' ↔ ∃ r, step c w a = some (w', r) := by
  unfold run
  split
  · rename_i h; simp [h]
  · rename_i w1 r h
    simp only [run, h, Option.some.injEq, Prod.mk.injEq]
    constructor
    · rintro rfl; exact ⟨r, rfl, rfl⟩
    · rintro ⟨_, a, _⟩; exact a

theorem step_sync {c : Cfg} {w : World} (hub : w.ub = false) (hw : w.wait = none) :
    step c w .sync = some (syncBegin c w, .ok) := by
  simp [step, hub, hw]

theorem covered_congr {w w' : World} (h1 : w'.cmd = w.cmd) (h2 : w'.ncmd = w.ncmd) (h3 : w'.batch = w.batch) :
    Covered w' ↔ Covered w := by
  unfold Covered Cur
  rw [h1, h2, h3]

theorem syncEnd_ub {c : Cfg} {w : World} {n : Nat} (h : Inv c w n) :
    (syncEnd c w).ub = false ↔ ∀ i, Cur w i → w.st i = .done := by
  obtain ⟨O, hC, _⟩ := h
  rw [← idle_iff hC]
  unfold syncEnd
  by_cases hid : w.idle = true
  · simp only [hid, Bool.not_true, Bool.false_eq_true, if_false, iff_true]
    have := (finishAll_spec c w.pend { w with lists := fun r => (w.lists r).reset }).2.2.2.2.2.2.2.2.2.2.2.2.2.2.1
    exact this.trans hC.noub
  · simp [hid]

/-- The return of `sync` is possible, and the state that follows. -/
theorem step_return_of {c : Cfg} {w : World} {q : Option Bool} (hub : w.ub = false) (hq : w.wait = some q)
    (hd : ∀ b, q = some b → w.queueDone b = true) : step c w .syncReturns = some (syncEnd c w, .ok) := by
  unfold step
  rw [hub]
  simp only [Bool.false_eq_true, if_false, hq]
  rcases q with _ | b
  · rfl
  · simp only
    rw [if_pos (hd b rfl)]

theorem queueDone_of {c : Cfg} {w : World} {n : Nat} (h : Inv c w n) {b : Bool}
    (hd : ∀ i, Cur w i → (w.cmd i).queue = b → w.st i = .done) : w.queueDone b = true := by
  obtain ⟨O, hC, _⟩ := h
  unfold World.queueDone
  simp only [List.all_eq_true, List.mem_range, Bool.or_eq_true, decide_eq_true_eq]
  intro i hi
  by_cases hq : (w.cmd i).queue = b
  · right
    by_cases hb : (w.cmd i).batch = w.batch
    · exact hd i ⟨hi, hb⟩ hq
    · exact hC.old i hi (by have := hC.batchLe i hi; omega)
  · exact Or.inl (Or.inl hq)

/-- While `sync` waits, the device can always end all commands, so that `sync` can return, with all commands ended. -/
theorem sync_can_return {c : Cfg} {acts : List Act} {w : World} (hr : run c (init c) acts = some w) (hub : w.ub = false)
    (hw : w.wait ≠ none) : ∃ sched w', (∀ a ∈ sched, a.isDevice = true) ∧
      run c w (sched ++ [.syncReturns]) = some w' ∧ w'.ub = false ∧ ∀ i < w'.ncmd, w'.st i = .done := by
  have h := reach hr hub
  obtain ⟨sched, w1, hd, hr1, hdone, _⟩ := device_can_run (fun _ => True) w.ncmd h hw (le_refl _)
    (by intro j _ _ i _ _; exact ⟨fun _ _ _ => trivial, fun _ => trivial⟩)
  obtain ⟨k0, k1, k2, k3, k4, k5⟩ := run_device h hd hr1
  have hcur : ∀ i, Cur w1 i ↔ Cur w i := by intro i; unfold Cur; rw [k1, k2, k3]
  have hall : ∀ i, Cur w1 i → w1.st i = .done := by
    intro i hi
    have := (hcur i).1 hi
    exact hdone i this.1 this trivial
  obtain ⟨q, hq⟩ : ∃ q, w1.wait = some q := by
    rw [k4]; exact Option.ne_none_iff_exists'.1 hw
  obtain ⟨O, hC, hE, _⟩ := id k0
  have hst := step_return_of (c := c) hC.noub hq (fun b _ => queueDone_of k0 (fun i hi _ => hall i hi))
  have hub' := (syncEnd_ub k0).2 hall
  obtain ⟨_, _, _, _, _, _, hc', hn', hs', _⟩ := syncEnd_inv hC hE hub'
  refine ⟨sched, syncEnd c w1, hd, ?_, hub', ?_⟩
  · rw [run_append, hr1, Option.bind_some]
    exact run_one.2 ⟨_, hst⟩
  · intro i hi
    rw [hn'] at hi
    rw [hs']
    by_cases hb : (w1.cmd i).batch = w1.batch
    · exact hall i ⟨hi, hb⟩
    · exact hC.old i hi (by have := hC.batchLe i hi; omega)

/-- `sync` returns with all commands ended whatever the device does, and nothing in use is reset, exactly when there is
    no copy engine or the queue that is waited for covers the other one. -/
theorem sync_safe_iff {c : Cfg} {acts : List Act} {w : World} (hr : run c (init c) acts = some w) (hub : w.ub = false)
    (hw : w.wait = none) :
    (∀ sched w', (∀ a ∈ sched, a.isDevice = true) → run c w (.sync :: sched ++ [.syncReturns]) = some w' →
      w'.ub = false ∧ ∀ i < w'.ncmd, w'.st i = .done) ↔ (c.mode ≠ .engine ∨ Covered w) := by
  have h := reach hr hub
  obtain ⟨O, hC, hE, hO⟩ := id h
  obtain ⟨s1, s2, s3, s4, s5, s6, s7, s8, s9, s10, s11, s12⟩ := syncBegin_inv hC hE hw
  have h1 : Inv c (syncBegin c w) (failed acts) := ⟨O, s1, s2, hO⟩
  have hcurB : ∀ i, Cur (syncBegin c w) i ↔ Cur w i := by intro i; unfold Cur; rw [s6, s7, s8]
  have hrun : ∀ sched, run c w (.sync :: sched ++ [.syncReturns]) =
      (run c (syncBegin c w) sched).bind fun w => run c w [.syncReturns] := by
    intro sched
    rw [← run_append]
    simp only [List.cons_append, run, step_sync hub hw]
  constructor
  · intro hall
    by_contra hcon
    simp only [not_or, not_not] at hcon
    obtain ⟨hm, hncov⟩ := hcon
    -- the set of commands the device runs, and the queue that is waited for
    have hrole : ∀ i, Cur w i → (w.cmd i).list = (w.cmd i).kind.role ∧ (w.cmd i).queue = !(w.cmd i).kind.isCompute := by
      intro i hi
      obtain ⟨a, b⟩ := hC.role i hi
      rw [hm] at a b
      refine ⟨a, ?_⟩
      rw [b]
      cases (w.cmd i).kind <;> rfl
    have hB := s2.waitq
    have key : ∃ (P : Nat → Prop) (_ : DecidablePred P) (b : Bool) (x : Nat), Cur w x ∧ ¬ P x ∧
        World.waitFor c (syncBegin c w) = some b ∧
        (∀ i, Cur w i → (w.cmd i).queue = b → P i) ∧
        (∀ j, Cur w j → P j → ∀ i, Cur w i → i < j → (∀ e ∈ (w.cmd j).waits, (w.cmd i).signal = some e → P i) ∧
          (i ∈ (w.cmd j).after → P i)) := by
      have hwaits : ∀ j, Cur w j → ∀ i, Cur w i → ∀ e ∈ (w.cmd j).waits, (w.cmd i).signal = some e →
          ((w.cmd j).kind = .launch ∧ (w.cmd i).kind = .toDevice) ∨
          ((w.cmd j).kind = .toHost ∧ (w.cmd i).kind.isCompute = true) := by
        intro j hj i hi e he hs
        obtain ⟨k, _, hk, hsk, hx⟩ := hC.waits j hj e he
        have := hC.inj i k e hi hk hs hsk
        subst this; exact hx
      have hafter : ∀ j, Cur w j → ∀ i ∈ (w.cmd j).after, (w.cmd i).kind.role = (w.cmd j).kind.role := by
        intro j hj i hi
        obtain ⟨a, _, b⟩ := hC.after j hj i hi
        rw [← (hrole i a).1, ← (hrole j hj).1]; exact b
      have hanyl : ∀ r, World.any c (syncBegin c w) r = true ↔ ∃ i, Cur w i ∧ (w.cmd i).kind.role = r := by
        intro r
        unfold World.any
        rw [s1.count, s9, hm]
        simp only [Mode.listOf, gt_iff_lt, decide_eq_true_eq]
        constructor
        · intro hpos
          obtain ⟨i, hi⟩ := List.exists_mem_of_length_pos hpos
          obtain ⟨a, b⟩ := (hC.mem r i).1 hi
          exact ⟨i, a, by rw [← (hrole i a).1]; exact b⟩
        · rintro ⟨i, a, b⟩
          exact List.length_pos_of_mem ((hC.mem r i).2 ⟨a, by rw [(hrole i a).1]; exact b⟩)
      have hpe : (syncBegin c w).pend.isEmpty = false ↔ ∃ i, Cur w i ∧ (w.cmd i).kind.isCompute = true := by
        have hmap := s2.pend
        constructor
        · intro hp
          rcases hpd : (syncBegin c w).pend with _ | ⟨⟨e, f⟩, l⟩
          · rw [hpd] at hp; cases hp
          · have hq := s2.pendF e f (by rw [hpd]; exact List.mem_cons_self)
            have hf := (s2.fut f hq.1).2.1
            rw [s6] at hf
            exact ⟨_, (hcurB _).1 hq.2.2, hf⟩
        · rintro ⟨i, hi, hk⟩
          rcases hs : (w.cmd i).signal with _ | e
          · have := (hC.sigKind i hi).1 hs
            rw [this] at hk; cases hk
          · have : e ∈ (syncBegin c w).pend.map (·.1) := by
              rw [hmap]
              refine List.mem_filterMap.2 ⟨i, curs_mem.2 ⟨(hcurB i).2 hi, ?_⟩, ?_⟩
              · rw [s6]; exact hk
              · rw [s6]; exact hs
            rcases hp : (syncBegin c w).pend with _ | ⟨a, l⟩
            · rw [hp] at this; cases this
            · rfl
      have hroleC : ∀ k : Kind, k.role = .compute ↔ k.isCompute = true := by
        intro k; cases k <;> simp [Kind.role, Kind.isCompute]
      have hroleH : ∀ k : Kind, k.role = .d2h ↔ k = .toHost := by intro k; cases k <;> simp [Kind.role]
      unfold Covered at hncov
      by_cases hh : ∃ t, Cur w t ∧ (w.cmd t).kind = .toHost
      · have h2 : ¬ ∀ i, Cur w i → (w.cmd i).kind.isCompute = true →
            ∃ j, i < j ∧ Cur w j ∧ (w.cmd j).kind = .toHost := fun hx => hncov (Or.inl ⟨hh, hx⟩)
        push Not at h2
        obtain ⟨x, hx, hxk, hxn⟩ := h2
        refine ⟨fun i => (w.cmd i).kind.isCompute = false ∨ i < x, inferInstance, true, x, hx, ?_, ?_, ?_, ?_⟩
        · simp [hxk]
        · unfold World.waitFor
          rw [if_pos hm, if_pos]
          obtain ⟨t, a, b⟩ := hh
          exact (hanyl .d2h).2 ⟨t, a, (hroleH _).2 b⟩
        · intro i hi hq
          left
          rw [(hrole i hi).2] at hq
          simpa using hq
        · intro j hj hpj i hi hij
          constructor
          · intro e he hs
            rcases hwaits j hj i hi e he hs with ⟨_, b⟩ | ⟨a, b⟩
            · left; rw [b]; rfl
            · right
              have : ¬ x < j := fun hy => hxn j hy hj a
              have : j ≠ x := by rintro rfl; rw [a] at hxk; cases hxk
              omega
          · intro ha
            have := hafter j hj i ha
            rcases hpj with hp | hp
            · left
              by_contra hc
              have := (hroleC _).1 (this ▸ (hroleC _).2 (by simpa using hc))
              rw [hp] at this; cases this
            · right; omega
      · have h2 : ∃ k, Cur w k ∧ (w.cmd k).kind.isCompute = true := by
          by_contra hx; exact hncov (Or.inr (Or.inr ⟨hh, hx⟩))
        have h3 : ¬ ∀ i, Cur w i → (w.cmd i).kind = .toDevice →
            ∃ j, i < j ∧ Cur w j ∧ (w.cmd j).kind = .launch := fun hx => hncov (Or.inr (Or.inl ⟨hh, h2, hx⟩))
        push Not at h3
        obtain ⟨x, hx, hxk, hxn⟩ := h3
        refine ⟨fun i => (w.cmd i).kind.isCompute = true ∨ i < x, inferInstance, false, x, hx, ?_, ?_, ?_, ?_⟩
        · simp [hxk, Kind.isCompute]
        · unfold World.waitFor
          rw [if_pos hm, if_neg, if_pos]
          · rw [hpe.2 h2]; rfl
          · intro hy
            obtain ⟨t, a, b⟩ := (hanyl .d2h).1 hy
            exact hh ⟨t, a, (hroleH _).1 b⟩
        · intro i hi hq
          left
          rw [(hrole i hi).2] at hq
          simpa using hq
        · intro j hj hpj i hi hij
          constructor
          · intro e he hs
            rcases hwaits j hj i hi e he hs with ⟨a, b⟩ | ⟨a, b⟩
            · right
              have : ¬ x < j := fun hy => hxn j hy hj a
              omega
            · left; exact b
          · intro ha
            have := hafter j hj i ha
            rcases hpj with hp | hp
            · left
              exact (hroleC _).1 (this ▸ (hroleC _).2 hp)
            · right; omega
    obtain ⟨P, _, b, x, hx, hPx, hwf, hPb, hcl⟩ := key
    obtain ⟨sched, w1, hd, hr1, hdone, hsame⟩ := device_can_run P w.ncmd h1 s3 (le_of_eq s7.symm)
      (by
        intro j hj hpj i hi hij
        rw [hcurB] at hj hi
        rw [s6]
        exact hcl j hj hpj i hi hij)
    obtain ⟨k0, k1, k2, k3, k4, k5⟩ := run_device h1 hd hr1
    have hcur : ∀ i, Cur w1 i ↔ Cur w i := by intro i; unfold Cur; rw [k1, k2, k3, s6, s7, s8]
    obtain ⟨q, hq⟩ : ∃ q, (syncBegin c w).wait = some q := Option.ne_none_iff_exists'.1 s3
    have hqb : q = some b := by rw [hB q hq]; exact hwf
    obtain ⟨O1, hC1, hE1, _⟩ := id k0
    have hst := step_return_of (c := c) hC1.noub (by rw [k4]; exact hq) (fun b' hb' => queueDone_of k0 (by
      intro i hi hqi
      rw [hcur] at hi
      rw [hqb] at hb'
      cases hb'
      rw [k1, s6] at hqi
      exact hdone i hi.1 ((hcurB i).2 hi) (hPb i hi hqi)))
    have hfin := (hall sched (syncEnd c w1) hd (by
      rw [hrun, hr1, Option.bind_some]
      exact run_one.2 ⟨_, hst⟩)).1
    have := (syncEnd_ub k0).1 hfin x ((hcur x).2 hx)
    rw [hsame x (fun hy => hPx hy.1), s4 x hx] at this
    cases this
  · intro hcov sched w' hd hrr
    rw [hrun] at hrr
    rcases hrs : run c (syncBegin c w) sched with _ | w1
    · rw [hrs] at hrr; cases hrr
    · rw [hrs, Option.bind_some, run_one] at hrr
      obtain ⟨r, hst⟩ := hrr
      obtain ⟨k0, k1, k2, k3, k4, k5⟩ := run_device h1 hd hrs
      obtain ⟨q, hq, hqd, rfl⟩ := step_return hst
      obtain ⟨O1, hC1, hE1, _⟩ := id k0
      have hcov1 : c.mode ≠ .engine ∨ Covered w1 :=
        hcov.imp id fun hx => (covered_congr (by rw [k1, s6]) (by rw [k2, s7]) (by rw [k3, s8])).2 hx
      have hall := idle_of_covered hC1 hE1 hq hqd hcov1
      have hub' := (syncEnd_ub k0).2 hall
      obtain ⟨_, _, _, _, _, _, hc', hn', hs', _⟩ := syncEnd_inv hC1 hE1 hub'
      refine ⟨hub', ?_⟩
      intro i hi
      rw [hn'] at hi
      rw [hs']
      by_cases hb : (w1.cmd i).batch = w1.batch
      · exact hall i ⟨hi, hb⟩
      · exact hC1.old i hi (by have := hC1.batchLe i hi; omega)

/-! ## Every command runs once -/

/-- In every history each command starts at most once, and a command has started if and only if the history says so. -/
theorem starts_once {c : Cfg} {acts : List Act} {w : World} (hr : run c (init c) acts = some w) (hub : w.ub = false)
    (i : Nat) : acts.count (.start i) ≤ 1 ∧ (acts.count (.start i) = 1 ↔ Started w i) := by
  have key : ∀ (acts : List Act) {w w' : World} {n : Nat}, Inv c w n → run c w acts = some w' → w'.ub = false →
      (if i < w'.ncmd then w'.runs i else 0) = (if i < w.ncmd then w.runs i else 0) + acts.count (.start i) := by
    intro acts
    induction acts with
    | nil =>
      intro w w' n h hr hub
      simp only [run, Option.some.injEq] at hr
      subst hr
      simp
    | cons a as ih =>
      intro w w' n h hr hub
      unfold run at hr
      split at hr
      · cases hr
      · rename_i w1 r hs
        have h1 := run_mid hr hub
        have hi1 := step_inv h hs (fun _ => h1)
        rw [ih hi1 hr hub, List.count_cons]
        obtain ⟨O, hC, hE, _⟩ := id h
        obtain ⟨O1, hC1, hE1, _⟩ := id hi1
        obtain ⟨_, g2, _, _⟩ := step_cmds h hs h1
        have goal : (if i < w1.ncmd then w1.runs i else 0) = (if i < w.ncmd then w.runs i else 0) +
            (if (a == Act.start i) = true then 1 else 0) := by
          by_cases hst : ∃ k, a = .start k
          · obtain ⟨k, rfl⟩ := hst
            unfold step at hs
            rw [hC.noub] at hs
            simp only [Bool.false_eq_true, if_false] at hs
            split_ifs at hs with hcan
            cases hs
            have hk : k < w.ncmd := (start_inv hC hE hcan).1.1
            show (if i < w.ncmd then upd w.runs k (w.runs k + 1) i else 0) = _
            by_cases hik : i = k
            · subst hik; simp [hk, upd_same]
            · have : k ≠ i := fun h => hik h.symm
              rw [upd_ne _ _ hik]; simp [this]
          · have hne : (a == Act.start i) = false := by
              simp only [beq_eq_false_iff_ne]
              intro hx; exact hst ⟨i, hx⟩
            rw [hne]
            simp only [Bool.false_eq_true, if_false, Nat.add_zero]
            -- no other step changes the count
            have hruns : (∀ j < w.ncmd, w1.runs j = w.runs j) := by
              intro j hj
              unfold step at hs
              rw [hC.noub] at hs
              simp only [Bool.false_eq_true, if_false] at hs
              have hwn : w.wait.isSome ≠ true → w.wait = none := by intro hx; simpa using hx
              cases a with
              | start k => exact absurd ⟨k, rfl⟩ hst
              | finish k =>
                simp only at hs
                split_ifs at hs
                cases hs
                unfold World.finish
                split <;> rfl
              | syncReturns =>
                simp only at hs
                have hse : w1 = syncEnd c w := by
                  split at hs
                  · cases hs
                  · cases hs; rfl
                  · split_ifs at hs
                    cases hs; rfl
                subst hse
                unfold syncEnd
                split
                · rfl
                · exact congrFun (finishAll_spec c w.pend { w with lists := fun r => (w.lists r).reset }).2.2.2.1 j
              | sync =>
                simp only at hs
                split_ifs at hs with hx
                have hw := hwn hx
                cases hs
                have hb := (syncBegin_inv hC hE hw)
                rw [hC1.runs j (by rw [hb.2.2.2.2.2.2.1]; exact hj), hC.runs j hj]
                by_cases hcj : Cur w j
                · rw [hb.2.2.2.1 j hcj, hC.opn hw j hcj]; simp
                · rw [hb.2.2.2.2.1 j hcj]
              | barrier =>
                simp only at hs
                split_ifs at hs
                cases hs; rfl
              | toHost ok =>
                simp only at hs
                split_ifs at hs
                unfold copyToHost at hs
                cases ok <;> cases hs
                · rfl
                · exact upd_ne _ _ (Nat.ne_of_lt hj)
              | toDevice ok =>
                simp only at hs
                split_ifs at hs
                simp only [Option.some.injEq] at hs
                unfold copyToDevice at hs
                rcases hg : w.getEvent with _ | ⟨w2, e⟩
                · rw [hg] at hs; cases hs; rfl
                · rw [hg] at hs
                  have hg2 : w2.runs = w.runs ∧ w2.ncmd = w.ncmd := by
                    unfold World.getEvent World.create at hg
                    split at hg
                    · cases hg; exact ⟨rfl, rfl⟩
                    · split at hg
                      · cases hg
                      · rename_i hq
                        split at hq
                        · cases hq
                        · cases hq; cases hg; exact ⟨rfl, rfl⟩
                  cases ok <;> cases hs
                  · rw [hg2.1]
                  · show upd w2.runs w2.ncmd 0 j = _
                    rw [upd_ne _ _ (by rw [hg2.2]; omega), hg2.1]
              | copyView ok =>
                simp only at hs
                split_ifs at hs
                simp only [Option.some.injEq] at hs
                unfold copyMemoryView computeCmd World.create at hs
                rcases hfr : w.compute.free with _ | ⟨i0, rest⟩
                · rw [hfr] at hs; cases hs; rfl
                · rw [hfr] at hs
                  cases ok <;> cases hs
                  · rfl
                  · exact upd_ne _ _ (Nat.ne_of_lt hj)
              | launch ok =>
                simp only at hs
                split_ifs at hs
                simp only [Option.some.injEq] at hs
                unfold launch computeCmd World.create at hs
                rcases hfr : w.compute.free with _ | ⟨i0, rest⟩
                · rw [hfr] at hs; cases hs; rfl
                · rw [hfr] at hs
                  cases ok <;> cases hs
                  · rfl
                  · exact upd_ne _ _ (Nat.ne_of_lt hj)
            rcases hm : made a r with _ | k
            · rw [hm] at g2
              simp only at g2
              rw [g2]
              by_cases hi : i < w.ncmd
              · simp [hi, hruns i hi]
              · simp [hi]
            · rw [hm] at g2
              obtain ⟨q1, _, _, q4⟩ := g2
              by_cases hi : i < w.ncmd
              · simp [hi, hruns i hi, q1, Nat.lt_succ_of_lt hi]
              · by_cases hi2 : i = w.ncmd
                · subst hi2
                  simp [q4]
                · have : ¬ i < w1.ncmd := by omega
                  simp [hi, this]
        rw [goal]
        omega
  have h := reach hr hub
  obtain ⟨O, hC, hE, _⟩ := id h
  have hk := key (n := 0) acts ⟨[], (init_inv c).1, (init_inv c).2, Nat.zero_le _⟩ hr hub
  simp only [init, Nat.not_lt_zero, if_false, Nat.zero_add] at hk
  rw [← hk]
  by_cases hi : i < w.ncmd
  · rw [if_pos hi, hC.runs i hi]
    unfold Started
    rcases hst : w.st i <;> simp [hi]
  · rw [if_neg hi]
    unfold Started
    simp [hi]

/-- When `sync` has returned, every command of every call has run exactly once. -/
theorem after_sync_all_ran {c : Cfg} {acts : List Act} {w : World} (hr : run c (init c) (acts ++ [.syncReturns]) = some w)
    (hub : w.ub = false) {i : Nat} (hi : i < w.ncmd) : w.st i = .done ∧
    (acts ++ [Act.syncReturns]).count (Act.start i) = 1 := by
  have hd : w.st i = .done := by
    obtain ⟨O, hC, hE, _⟩ := reach hr hub
    refine hC.old i hi ?_
    rw [run_append] at hr
    rcases hr1 : run c (init c) acts with _ | w1
    · rw [hr1] at hr; cases hr
    · rw [hr1, Option.bind_some, run_one] at hr
      obtain ⟨r, hs⟩ := hr
      have hub1 := step_ub hs
      obtain ⟨_, g2, g3, _⟩ := step_cmds (reach hr1 hub1) hs hub
      obtain ⟨g1, _⟩ := step_cmds (reach hr1 hub1) hs hub
      obtain ⟨O1, hC1, _⟩ := reach hr1 hub1
      simp only [made] at g2
      rw [g2] at hi
      rw [g1 i hi, g3, if_pos rfl]
      have := hC1.batchLe i hi
      omega
  exact ⟨hd, (starts_once hr hub i).2.2 ⟨hi, Or.inr hd⟩⟩

/-! ## Futures -/

/-- A launch that does not throw gives a new future, for the command it made. -/
theorem launch_future {c : Cfg} {w w' : World} {ok : Bool} {f : Nat}
    (hs : step c w (.launch ok) = some (w', .future f)) :
    f = w.nfut ∧ w'.nfut = w.nfut + 1 ∧ w'.futureOf f = w.ncmd ∧ w'.time f = none ∧ ∀ g < w.nfut, w'.futureOf g = w.futureOf g ∧
      w'.time g = w.time g := by
  unfold step at hs
  split_ifs at hs
  simp only [Option.some.injEq] at hs
  unfold launch computeCmd World.create at hs
  rcases hfr : w.compute.free with _ | ⟨i0, rest⟩
  · rw [hfr] at hs; cases hs
  · rw [hfr] at hs
    cases ok
    · cases hs
    · cases hs
      exact ⟨rfl, rfl, upd_same _ _ _, upd_same _ _ _, fun g hg =>
        ⟨upd_ne _ _ (Nat.ne_of_lt hg), upd_ne _ _ (Nat.ne_of_lt hg)⟩⟩

/-- A future is valid exactly when `sync` has returned after the call that made it; then its time is that of its own
    command, and of no other. -/
theorem future_spec {c : Cfg} {acts : List Act} {w : World} (hr : run c (init c) acts = some w) (hub : w.ub = false)
    {f : Nat} (hf : f < w.nfut) :
    (w.time f ≠ none ↔ (w.cmd (w.futureOf f)).batch < w.batch) ∧
    (w.time f ≠ none → w.st (w.futureOf f) = .done) ∧
    (∀ s e, c.ticks (w.futureOf f) = (s, e) → c.bits ≤ 64 → s ≤ e → e - s < 2 ^ c.bits → w.time f ≠ none →
      w.time f = some ((e - s) * c.res % 2 ^ 64)) ∧
    ∀ g < w.nfut, w.futureOf f = w.futureOf g → f = g := by
  obtain ⟨O, hC, hE, _⟩ := reach hr hub
  obtain ⟨a, b, d, g⟩ := hE.fut f hf
  have hble := hC.batchLe _ a
  have h1 : w.time f ≠ none ↔ (w.cmd (w.futureOf f)).batch < w.batch := by
    constructor
    · intro ht
      by_contra hb
      exact ht (d ⟨a, by omega⟩).1
    · intro hb
      rw [g (fun hc => by have := hc.2; omega)]
      simp
  refine ⟨h1, fun ht => hC.old _ a (h1.1 ht), ?_, fun g' hg' h => hE.futInj f hf g' hg' h⟩
  intro s e hse hbits hle hlt ht
  rw [g (fun hc => by have := h1.1 ht; have := hc.2; omega), hse]
  simp only
  rw [elapsed_spec hbits c.res s e hle hlt]

/-! ## The pools of events -/

/-- The number of commands of a kind made since `sync` last returned. -/
def number (w : World) (p : Kind → Bool) : Nat := (curs w p).length

theorem filterMap_length {w : World} {p : Kind → Bool} (h : ∀ i ∈ curs w p, (w.cmd i).signal ≠ none) :
    ((curs w p).filterMap fun i => (w.cmd i).signal).length = number w p := by
  unfold number
  revert h
  generalize curs w p = l
  intro h
  induction l with
  | nil => rfl
  | cons a l ih =>
    rcases hs : (w.cmd a).signal with _ | e
    · exact absurd hs (h a List.mem_cons_self)
    · rw [List.filterMap_cons, hs]
      simp only [List.length_cons]
      rw [ih (fun i hi => h i (List.mem_cons_of_mem _ hi))]

/-- A kernel can be launched, and a copy between views made, exactly as long as fewer than the maximum have been since
    `sync` last returned. -/
theorem launch_throws_iff {c : Cfg} {acts : List Act} {w : World} (hr : run c (init c) acts = some w) (hub : w.ub = false)
    (hw : w.wait = none) :
    number w Kind.isCompute ≤ min (c.maxLaunches.getD 100000) 100000 ∧
    (step c w (.launch true) = some (w, .threw) ↔ number w Kind.isCompute = min (c.maxLaunches.getD 100000) 100000) ∧
    (step c w (.copyView true) = some (w, .threw) ↔ number w Kind.isCompute = min (c.maxLaunches.getD 100000) 100000) := by
  have hcl : min (c.maxLaunches.getD 100000) 100000 = c.launches := rfl
  rw [hcl]
  obtain ⟨O, hC, hE, _⟩ := reach hr hub
  have hlen := hE.pool.length_eq
  have hp : w.pend.length = number w Kind.isCompute := by
    rw [← filterMap_length, ← hE.pend, List.length_map]
    intro i hi hs
    obtain ⟨a, b⟩ := curs_mem.1 hi
    rw [(hC.sigKind i a).1 hs] at b; cases b
  rw [List.length_append, List.length_map, List.length_range', hp] at hlen
  refine ⟨by omega, ?_, ?_⟩
  · simp only [step, hub, hw, Bool.false_eq_true, if_false, Option.isSome_none, launch, computeCmd, World.create]
    rcases hfr : w.compute.free with _ | ⟨i0, rest⟩
    · rw [hfr] at hlen
      simp only [List.length_nil] at hlen
      simp only [true_iff]
      omega
    · rw [hfr] at hlen
      simp only [List.length_cons] at hlen
      simp only [if_true, Option.some.injEq, Prod.mk.injEq, reduceCtorEq, and_false, false_iff]
      omega
  · simp only [step, hub, hw, Bool.false_eq_true, if_false, Option.isSome_none, copyMemoryView, computeCmd, World.create]
    rcases hfr : w.compute.free with _ | ⟨i0, rest⟩
    · rw [hfr] at hlen
      simp only [List.length_nil] at hlen
      simp only [true_iff]
      omega
    · rw [hfr] at hlen
      simp only [List.length_cons] at hlen
      simp only [if_true, Option.some.injEq, Prod.mk.injEq, reduceCtorEq, and_false, false_iff]
      omega

/-- The events of two kernels that have not been waited for never have the same place in the pool; and when `sync` has
    returned all places are free. -/
theorem pool_spec {c : Cfg} {acts : List Act} {w : World} (hr : run c (init c) acts = some w) (hub : w.ub = false) :
    (w.pend.map fun p => w.index p.1).Nodup ∧ (∀ p ∈ w.pend, w.index p.1 < c.launches ∧ w.index p.1 ∉ w.compute.free) ∧
    (number w Kind.isCompute = 0 → w.compute.free.Perm (List.range' 0 c.launches)) := by
  obtain ⟨O, hC, hE, _⟩ := reach hr hub
  have hnd : (w.compute.free ++ w.pend.map fun p => w.index p.1).Nodup := hE.pool.nodup_iff.2 (List.nodup_range')
  rw [List.nodup_append] at hnd
  refine ⟨hnd.2.1, ?_, ?_⟩
  · intro p hp
    have hm : w.index p.1 ∈ w.pend.map fun p => w.index p.1 := List.mem_map.2 ⟨p, hp, rfl⟩
    refine ⟨?_, fun hf => hnd.2.2 _ hf _ hm rfl⟩
    have := hE.pool.mem_iff.1 (List.mem_append_right _ hm)
    simpa using this
  · intro hz
    have hp : w.pend = [] := by
      have hq := hE.pend
      have : curs w Kind.isCompute = [] := List.length_eq_zero_iff.1 hz
      rw [this] at hq
      simpa using hq
    have := hE.pool
    rw [hp] at this
    simpa using this

/-- A copy to the device does not throw as long as there have been fewer than 100000 since `sync` last returned,
    counting all those that Level Zero ever refused, and Level Zero does not refuse it. -/
theorem copy_ok_partial {c : Cfg} {acts : List Act} {w : World} (hr : run c (init c) acts = some w) (hub : w.ub = false)
    (hw : w.wait = none) (hn : number w (· == .toDevice) + failed acts < poolCap) :
    ∃ w', step c w (.toDevice true) = some (w', .ok) := by
  obtain ⟨O, hC, hE, hO⟩ := reach hr hub
  simp only [step, hub, hw, Bool.false_eq_true, if_false, Option.isSome_none, copyToDevice]
  rcases hg : w.getEvent with _ | ⟨w1, e⟩
  · exfalso
    unfold World.getEvent World.create at hg
    split at hg
    · cases hg
    · rename_i hnone
      rcases hfr : w.copy.free with _ | ⟨i0, rest⟩
      · have hlen := hE.cpool.length_eq
        rw [hfr, List.nil_append, List.length_map, List.length_range'] at hlen
        have hsub : ∀ e ∈ w.copy.events, e ∈ (w.lists (c.mode.listOf .h2d)).events ++ O := by
          intro e he
          have hs : w.signalled e = false := by
            have := List.find?_eq_none.1 hnone e he
            simpa using this
          exact List.mem_append.2 (hE.copyFree e he hs)
        have hle := (List.subperm_of_subset hE.copyNodup hsub).length_le
        rw [List.length_append, hE.events, filterMap_length, hlen] at hle
        · omega
        · intro i hi hs
          obtain ⟨a, b⟩ := curs_mem.1 hi
          rw [(hC.sigKind i a).1 hs] at b; cases b
      · rw [hfr] at hg; cases hg
  · exact ⟨_, rfl⟩

/-- The state after `n` copies to the device that were refused. -/
theorem refused {c : Cfg} : ∀ n, n ≤ poolCap → ∃ w, run c (init c) (List.replicate n (.toDevice false)) = some w ∧
    w.ub = false ∧ w.wait = none ∧ w.copy.free.length = poolCap - n ∧ ∀ e ∈ w.copy.events, w.signalled e = false ∧ e < w.nev := by
  intro n
  induction n with
  | zero =>
    intro _
    refine ⟨init c, rfl, rfl, rfl, ?_, ?_⟩
    · simp only [init, List.length_range']; omega
    · intro e he; simp [init] at he
  | succ n ih =>
    intro hn
    obtain ⟨w, hr, hub, hw, hl, hs⟩ := ih (by omega)
    rcases hfr : w.copy.free with _ | ⟨i0, rest⟩
    · rw [hfr] at hl; simp only [List.length_nil] at hl; omega
    · have hfind : w.copy.events.find? (fun e => w.signalled e) = none := by
        rw [List.find?_eq_none]
        intro e he
        simp [(hs e he).1]
      have hst : step c w (.toDevice false) = some ({ w with
          index := upd w.index w.nev i0, signalled := upd w.signalled w.nev false, nev := w.nev + 1
          copy := { free := rest, events := w.copy.events ++ [w.nev] } }, .threw) := by
        simp [step, hub, hw, copyToDevice, World.getEvent, World.create, hfind, hfr]
      refine ⟨{ w with
          index := upd w.index w.nev i0, signalled := upd w.signalled w.nev false, nev := w.nev + 1
          copy := { free := rest, events := w.copy.events ++ [w.nev] } }, ?_, hub, hw, ?_, ?_⟩
      · rw [List.replicate_succ', run_append, hr, Option.bind_some]
        exact run_one.2 ⟨_, hst⟩
      · rw [hfr] at hl; simp only [List.length_cons] at hl; simp only; omega
      · intro e he
        simp only [List.mem_append, List.mem_singleton] at he
        rcases he with he | rfl
        · refine ⟨?_, by have := (hs e he).2; simp only; omega⟩
          simp only
          rw [upd_ne _ _ (by have := (hs e he).2; omega)]
          exact (hs e he).1
        · exact ⟨upd_same _ _ _, by simp only; omega⟩

/-- Copies that Level Zero refused use up the pool for ever: after 100000 of them no copy to the device works again,
    although none is in any list. -/
theorem refused_copies_use_up_pool (c : Cfg) : ∃ w, run c (init c) (List.replicate poolCap (.toDevice false)) = some w ∧
    w.ncmd = 0 ∧ step c w (.toDevice true) = some (w, .threw) := by
  obtain ⟨w, hr, hub, hw, hl, hs⟩ := refused (c := c) poolCap (le_refl _)
  refine ⟨w, hr, ?_, ?_⟩
  · have := (commands_are_calls hr hub).1
    have hiss : ∀ n w b, issued c w b (List.replicate n (.toDevice false)) = [] := by
      intro n
      induction n with
      | zero => intros; rfl
      | succ n ih =>
        intro w b
        rw [List.replicate_succ]
        unfold issued
        split
        · rfl
        · rename_i w' r hs
          rw [ih]
          have : r = .threw := by
            unfold step at hs
            split_ifs at hs
            simp only [Option.some.injEq] at hs
            unfold copyToDevice at hs
            split at hs
            · cases hs; rfl
            · cases hs; rfl
          subst this
          rfl
    rw [hiss] at this
    simpa using this
  · have hfr : w.copy.free = [] := List.length_eq_zero_iff.1 (by omega)
    have hfind : w.copy.events.find? (fun e => w.signalled e) = none := by
      rw [List.find?_eq_none]
      intro e he
      simp [(hs e he).1]
    simp [step, hub, hw, copyToDevice, World.getEvent, World.create, hfind, hfr]

/-! ## Cases -/

/-- A setting for the examples: command `i` runs from tick `1000 + 10 i` to tick `1007 + 10 i`, the device counts ticks
    with 10 bits, of 80 nanoseconds each. -/
def exCfg (m : Mode) : Cfg := ⟨m, none, 10, 80, fun i => (1000 + 10 * i, 1007 + 10 * i)⟩

/-- What a history comes to: the states of the commands, the times of the futures, undefined behaviour. -/
def outcome (m : Mode) (acts : List Act) : Option (List St × List (Option Nat) × Bool) :=
  (run (exCfg m) (init (exCfg m)) acts).map fun w =>
    ((List.range w.ncmd).map w.st, (List.range w.nfut).map w.time, w.ub)

/-- The usual order: copy, kernel, copy back, `sync`. -/
def usual : List Act :=
  [.toDevice true, .toDevice true, .launch true, .barrier, .launch true, .toHost true, .sync,
   .start 0, .start 1, .finish 1, .finish 0, .start 2, .finish 2, .start 3, .finish 3, .start 4, .finish 4, .syncReturns]

example : outcome .engine usual = some ([.done, .done, .done, .done, .done], [some 560, some 560], false) := by decide +kernel
example : outcome .lists usual = some ([.done, .done, .done, .done, .done], [some 560, some 560], false) := by decide +kernel
example : outcome .oneList usual = some ([.done, .done, .done, .done, .done], [some 560, some 560], false) := by decide +kernel

/-- The kernel cannot start before the copies have ended. -/
example : outcome .engine (usual.take 9 ++ [.finish 0, .start 2]) = none := by decide +kernel
/-- Nor the second kernel before the first has ended, nor the copy back. -/
example : outcome .engine (usual.take 12 ++ [.start 3]) = none := by decide +kernel
example : outcome .engine (usual.take 12 ++ [.start 4]) = none := by decide +kernel

/-- With a copy engine, a kernel after the last copy to the host is not waited for: `sync` resets its list while it
    runs. -/
example : outcome .engine [.launch true, .toHost true, .launch true, .sync, .start 0, .finish 0, .start 1, .finish 1,
    .start 2, .syncReturns] = some ([.done, .done, .running], [none, none], true) := by decide +kernel
/-- Nor is a copy to the device after the last kernel. -/
example : outcome .engine [.launch true, .toDevice true, .sync, .start 0, .finish 0, .syncReturns] =
    some ([.done, .queued], [none], true) := by decide +kernel
/-- The same histories cannot happen without a copy engine. -/
example : outcome .lists [.launch true, .toHost true, .launch true, .sync, .start 0, .finish 0, .start 1, .finish 1,
    .start 2, .syncReturns] = none := by decide +kernel
example : outcome .lists [.launch true, .toDevice true, .sync, .start 0, .finish 0, .syncReturns] = none := by
  decide +kernel

/-- A barrier does not order copies, if there are three lists: the second kernel, after the barrier, starts before the
    copy to the host, before the barrier, has ended, or even started. -/
example : outcome .lists [.launch true, .toHost true, .barrier, .launch true, .sync, .start 0, .finish 0, .start 2] =
    some ([.done, .queued, .running], [none, none], false) := by decide +kernel
example : outcome .oneList [.launch true, .toHost true, .barrier, .launch true, .sync, .start 0, .finish 0, .start 2] =
    none := by decide +kernel

/-- A copy between views waits neither for the copy to the device before it, nor does a kernel wait for it. -/
example : outcome .lists [.toDevice true, .copyView true, .launch true, .sync, .start 1, .start 0, .finish 0, .start 2] =
    some ([.done, .running, .running], [none, none], false) := by decide +kernel

/-- The usual order is covered. -/
example : ∃ w, run (exCfg .engine) (init (exCfg .engine)) (usual.take 6) = some w ∧ w.ub = false ∧ w.wait = none ∧
    Covered w := by
  refine ⟨_, rfl, rfl, rfl, Or.inl ⟨⟨4, ⟨by decide +kernel, by decide +kernel⟩, by decide +kernel⟩, ?_⟩⟩
  intro i hi hk
  have hlt : i < 5 := hi.1
  refine ⟨4, ?_, ⟨by decide +kernel, by decide +kernel⟩, by decide +kernel⟩
  by_contra hx
  have : i = 4 := by omega
  subst this
  revert hk
  decide +kernel

/-- A limit on launches. -/
example : let c : Cfg := ⟨.lists, some 2, 10, 80, fun i => (i, i)⟩
    issued c (init c) 0 [.launch true, .copyView true, .launch true, .toHost true] =
      [(.launch, 0), (.copyView, 0), (.toHost, 0)] := by decide +kernel

end Ispc.GpuQueue
