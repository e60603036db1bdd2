import Verif.Ispcrt.GpuQueue
import Mathlib.Tactic.Ring
import Mathlib.Algebra.Order.Ring.Nat
import Mathlib.Data.List.Nodup
import Mathlib.Data.List.Perm.Basic

/-!
# C53: what the task queue of a GPU device guarantees
-/

namespace Ispc.GpuQueue

/-- The command belongs to the calls made since `sync` last returned. -/
def Cur (w : World) (i : Nat) : Prop := i < w.ncmd ∧ (w.cmd i).batch = w.batch

/-- A command has started: it is running or has ended. -/
def Started (w : World) (i : Nat) : Prop := i < w.ncmd ∧ (w.st i = .running ∨ w.st i = .done)

theorem upd_same {κ α : Type} [DecidableEq κ] (f : κ → α) (k : κ) (v : α) : upd f k v k = v := by simp [upd]
theorem upd_ne {κ α : Type} [DecidableEq κ] (f : κ → α) {k x : κ} (v : α) (h : x ≠ k) : upd f k v x = f x := by
  simp [upd, h]

/-! ## Time, and the number of instances -/

/-- A future's time is the number of ticks between the start and the end of the kernel, times the resolution, for every
    width of the counter, if the kernel takes less time than the counter needs to come round. -/
theorem elapsed_spec {bits : Nat} (hb : bits ≤ 64) (res s e : Nat) (hse : s ≤ e) (hlt : e - s < 2 ^ bits) :
    elapsed bits res (s % 2 ^ bits) (e % 2 ^ bits) = (e - s) * res % 2 ^ 64 := by
  have hM : maxStamp bits = 2 ^ bits - 1 := by
    unfold maxStamp
    split_ifs with h
    · rfl
    · have : bits = 64 := by omega
      rw [this]
  unfold elapsed
  rw [hM]
  have hp : 0 < 2 ^ bits := Nat.pos_of_ne_zero (by simp)
  generalize 2 ^ bits = P at hp hlt ⊢
  congr 2
  have h1 := Nat.mod_lt s hp
  have h2 := Nat.mod_lt e hp
  have h3 := Nat.div_add_mod s P
  have h4 := Nat.div_add_mod e P
  have hq : s / P ≤ e / P := Nat.div_le_div_right hse
  have hq2 : e / P ≤ s / P + 1 := by
    by_contra hcon
    have : P * (s / P + 2) ≤ P * (e / P) := Nat.mul_le_mul_left _ (by omega)
    rw [Nat.mul_add] at this
    omega
  rcases (show e / P = s / P ∨ e / P = s / P + 1 by omega) with hx | hx
  · rw [hx] at h4
    rw [if_pos (by omega)]
    omega
  · rw [hx, Nat.mul_add, Nat.mul_one] at h4
    rw [if_neg (by omega)]
    omega

/-- A launch starts as many instances as asked for exactly when the size fits 32 bits and the group size that Level Zero
    suggests divides it. -/
theorem instances_iff (dim suggested : Nat) :
    instances dim suggested = dim ↔ dim < 2 ^ 32 ∧ max (suggested % 2 ^ 32) 1 ∣ dim := by
  unfold instances groups
  have hg : 0 < max (suggested % 2 ^ 32) 1 := by omega
  generalize max (suggested % 2 ^ 32) 1 = g at hg
  constructor
  · intro h
    have h1 : dim % 2 ^ 32 / g * g ≤ dim % 2 ^ 32 := Nat.div_mul_le_self _ _
    have h2 : dim % 2 ^ 32 < 2 ^ 32 := Nat.mod_lt _ (by norm_num)
    exact ⟨by omega, ⟨dim % 2 ^ 32 / g, by rw [Nat.mul_comm]; exact h.symm⟩⟩
  · rintro ⟨h, hd⟩
    rw [Nat.mod_eq_of_lt h]
    exact Nat.div_mul_cancel hd

example : instances 1024 256 = 1024 := by decide
example : instances (2 ^ 32) 256 = 0 := by decide
example : instances 1000 256 = 768 := by decide

/-! ## The invariant -/

/-- Which list a command goes to. -/
def Kind.role : Kind → Role
  | .toDevice => .h2d
  | .toHost => .d2h
  | _ => .compute

/-- What always holds of the commands. -/
structure InvC (c : Cfg) (w : World) : Prop where
  noub : w.ub = false
  batchLe : ∀ i < w.ncmd, (w.cmd i).batch ≤ w.batch
  mono : ∀ i j, i < j → j < w.ncmd → (w.cmd i).batch ≤ (w.cmd j).batch
  old : ∀ i < w.ncmd, (w.cmd i).batch < w.batch → w.st i = .done
  runs : ∀ i < w.ncmd, w.runs i = if w.st i = .listed ∨ w.st i = .queued then 0 else 1
  role : ∀ i, Cur w i → (w.cmd i).list = c.mode.listOf (w.cmd i).kind.role ∧
    (w.cmd i).queue = c.mode.queueOf (w.cmd i).kind.role
  mem : ∀ r i, i ∈ (w.lists r).cmds ↔ Cur w i ∧ (w.cmd i).list = r
  count : ∀ r, (w.lists r).count = (w.lists r).cmds.length
  fence : ∀ r, ∀ i ∈ (w.lists r).fence, i ∈ (w.lists r).cmds
  fenceBar : ∀ b ∈ w.bars, ∀ i ∈ (w.lists .compute).cmds, i < b → i ∈ (w.lists .compute).fence
  bars : ∀ b ∈ w.bars, b ≤ w.ncmd
  after : ∀ j, Cur w j → ∀ i ∈ (w.cmd j).after, Cur w i ∧ i < j ∧ (w.cmd i).list = (w.cmd j).list
  afterBar : ∀ j, Cur w j → ∀ b ∈ w.bars, b ≤ j → ∀ i, i < b → Cur w i → (w.cmd i).list = .compute →
    (w.cmd j).list = .compute → i ∈ (w.cmd j).after
  opn : w.wait = none → ∀ i, Cur w i → w.st i = .listed
  sub : w.wait ≠ none → ∀ i, Cur w i → w.st i ≠ .listed
  submitted : w.wait = none → ∀ r, (w.lists r).submitted = false
  sig : ∀ i e, Cur w i → (w.cmd i).signal = some e → (w.signalled e = true ↔ w.st i = .done) ∧ e < w.nev ∧
    (w.st i = .done → w.stamp e = ((c.ticks i).1 % 2 ^ c.bits, (c.ticks i).2 % 2 ^ c.bits))
  sigKind : ∀ i, Cur w i → ((w.cmd i).signal = none ↔ (w.cmd i).kind = .toHost)
  inj : ∀ i j e, Cur w i → Cur w j → (w.cmd i).signal = some e → (w.cmd j).signal = some e → i = j
  waits : ∀ j, Cur w j → ∀ e ∈ (w.cmd j).waits, ∃ i < j, Cur w i ∧ (w.cmd i).signal = some e ∧
    (((w.cmd j).kind = .launch ∧ (w.cmd i).kind = .toDevice) ∨
      ((w.cmd j).kind = .toHost ∧ (w.cmd i).kind.isCompute = true))
  waitsL : ∀ i j, Cur w i → Cur w j → i < j → (w.cmd i).kind = .toDevice → (w.cmd j).kind = .launch →
    ∃ e ∈ (w.cmd j).waits, (w.cmd i).signal = some e
  waitsH : ∀ i j, Cur w i → Cur w j → i < j → (w.cmd i).kind.isCompute = true → (w.cmd j).kind = .toHost →
    ∃ e ∈ (w.cmd j).waits, (w.cmd i).signal = some e
  started : ∀ j, Cur w j → (w.st j = .running ∨ w.st j = .done) →
    (∀ e ∈ (w.cmd j).waits, w.signalled e = true) ∧ ∀ i ∈ (w.cmd j).after, w.st i = .done

/-- The commands of the current calls of one kind, in order. -/
def curs (w : World) (p : Kind → Bool) : List Nat :=
  (List.range w.ncmd).filter fun i => decide ((w.cmd i).batch = w.batch) && p (w.cmd i).kind

/-- What always holds of the events and the futures; `O` are the events of copies that failed. -/
structure InvE (c : Cfg) (w : World) (O : List Nat) : Prop where
  events : (w.lists (c.mode.listOf .h2d)).events = (curs w (· == .toDevice)).filterMap fun i => (w.cmd i).signal
  pend : w.pend.map (·.1) = (curs w Kind.isCompute).filterMap fun i => (w.cmd i).signal
  pendF : ∀ e f, (e, f) ∈ w.pend → f < w.nfut ∧ (w.cmd (w.futureOf f)).signal = some e ∧ Cur w (w.futureOf f)
  fut : ∀ f < w.nfut, w.futureOf f < w.ncmd ∧ (w.cmd (w.futureOf f)).kind.isCompute = true ∧
    (Cur w (w.futureOf f) → w.time f = none ∧ ∃ e, (e, f) ∈ w.pend) ∧
    (¬ Cur w (w.futureOf f) → w.time f = some (elapsed c.bits c.res ((c.ticks (w.futureOf f)).1 % 2 ^ c.bits)
      ((c.ticks (w.futureOf f)).2 % 2 ^ c.bits)))
  futInj : ∀ f < w.nfut, ∀ g < w.nfut, w.futureOf f = w.futureOf g → f = g
  pool : (w.compute.free ++ w.pend.map fun p => w.index p.1).Perm (List.range' 0 c.launches)
  cpool : (w.copy.free ++ w.copy.events.map w.index).Perm (List.range' 0 poolCap)
  copyLt : ∀ e ∈ w.copy.events, e < w.nev
  copyNodup : w.copy.events.Nodup
  copySig : ∀ i e, Cur w i → (w.cmd i).signal = some e → (e ∈ w.copy.events ↔ (w.cmd i).kind = .toDevice)
  copyFree : ∀ e ∈ w.copy.events, w.signalled e = false →
    e ∈ (w.lists (c.mode.listOf .h2d)).events ∨ e ∈ O
  onodup : O.Nodup
  osub : ∀ e ∈ O, e ∈ w.copy.events
  orphan : ∀ e ∈ O, w.signalled e = false ∧ ∀ i, Cur w i → (w.cmd i).signal ≠ some e
  waitq : ∀ q, w.wait = some q → q = w.waitFor c

theorem init_inv (c : Cfg) : InvC c (init c) ∧ InvE c (init c) [] := by
  constructor
  · constructor <;> simp [init, CL.empty, Cur]
  · constructor <;> simp [init, CL.empty, Cur, curs]

/-! ## Appending a command -/

theorem InvC.append {c : Cfg} {w : World} (h : InvC c w) (hw : w.wait = none) {k : Kind} {waits : List Nat}
    {signal : Option Nat}
    (hk : signal = none ↔ k = .toHost)
    (hs : ∀ e, signal = some e → w.signalled e = false ∧ e < w.nev ∧ ∀ i, Cur w i → (w.cmd i).signal ≠ some e)
    (h1 : ∀ e ∈ waits, ∃ i, Cur w i ∧ (w.cmd i).signal = some e ∧
      ((k = .launch ∧ (w.cmd i).kind = .toDevice) ∨ (k = .toHost ∧ (w.cmd i).kind.isCompute = true)))
    (h2 : k = .launch → ∀ i, Cur w i → (w.cmd i).kind = .toDevice → ∃ e ∈ waits, (w.cmd i).signal = some e)
    (h3 : k = .toHost → ∀ i, Cur w i → (w.cmd i).kind.isCompute = true → ∃ e ∈ waits, (w.cmd i).signal = some e) :
    InvC c (w.append c k k.role waits signal) := by
  generalize hw' : w.append c k k.role waits signal = w'
  have e1 : w'.ncmd = w.ncmd + 1 := by rw [← hw']; rfl
  have e2 : ∀ i, i ≠ w.ncmd → w'.cmd i = w.cmd i := by
    intro i hi; rw [← hw']; exact upd_ne _ _ hi
  have e3 : w'.cmd w.ncmd = ⟨k, c.mode.listOf k.role, c.mode.queueOf k.role, waits, signal,
      (w.lists (c.mode.listOf k.role)).fence, w.batch⟩ := by
    rw [← hw']; exact upd_same _ _ _
  have e4 : ∀ i, i ≠ w.ncmd → w'.st i = w.st i ∧ w'.runs i = w.runs i := by
    intro i hi; rw [← hw']; exact ⟨upd_ne _ _ hi, upd_ne _ _ hi⟩
  have e5 : w'.st w.ncmd = .listed ∧ w'.runs w.ncmd = 0 := by
    rw [← hw']; exact ⟨upd_same _ _ _, upd_same _ _ _⟩
  have e6 : w'.signalled = w.signalled ∧ w'.stamp = w.stamp ∧ w'.nev = w.nev ∧ w'.batch = w.batch ∧ w'.bars = w.bars ∧
      w'.wait = w.wait ∧ w'.ub = w.ub := by rw [← hw']; exact ⟨rfl, rfl, rfl, rfl, rfl, rfl, rfl⟩
  have e7 : ∀ r, r ≠ c.mode.listOf k.role → w'.lists r = w.lists r := by
    intro r hr; rw [← hw']; exact upd_ne _ _ hr
  have e8 : w'.lists (c.mode.listOf k.role) = { w.lists (c.mode.listOf k.role) with
      cmds := (w.lists (c.mode.listOf k.role)).cmds ++ [w.ncmd]
      count := (w.lists (c.mode.listOf k.role)).count + 1, submitted := false } := by
    rw [← hw']; exact upd_same _ _ _
  obtain ⟨g1, g2, g3, g4, g5, g6, g7⟩ := e6
  have hcur : ∀ i, Cur w' i ↔ (Cur w i ∨ i = w.ncmd) := by
    intro i
    unfold Cur
    rw [e1, g4]
    by_cases hi : i = w.ncmd
    · subst hi; rw [e3]; simp
    · rw [e2 i hi]; constructor
      · rintro ⟨a, b⟩; exact Or.inl ⟨by omega, b⟩
      · rintro (⟨a, b⟩ | a)
        · exact ⟨by omega, b⟩
        · exact absurd a hi
  have hlt : ∀ i, Cur w i → i ≠ w.ncmd := fun i hi => Nat.ne_of_lt hi.1
  clear hw'
  constructor
  · rw [g7]; exact h.noub
  · intro i hi
    rw [g4]
    by_cases hx : i = w.ncmd
    · subst hx; rw [e3]
    · rw [e2 i hx]; exact h.batchLe i (by omega)
  · intro i j hij hj
    by_cases hx : j = w.ncmd
    · subst hx; rw [e3, e2 i (by omega)]; exact h.batchLe i (by omega)
    · rw [e2 j hx, e2 i (by omega)]; exact h.mono i j hij (by omega)
  · intro i hi hb
    by_cases hx : i = w.ncmd
    · subst hx; rw [e3, g4] at hb; exact absurd hb (lt_irrefl _)
    · rw [e2 i hx, g4] at hb; rw [(e4 i hx).1]; exact h.old i (by omega) hb
  · intro i hi
    by_cases hx : i = w.ncmd
    · subst hx; rw [e5.1, e5.2]; simp
    · rw [(e4 i hx).1, (e4 i hx).2]; exact h.runs i (by omega)
  · intro i hi
    rcases (hcur i).1 hi with hc | rfl
    · rw [e2 i (hlt i hc)]; exact h.role i hc
    · rw [e3]; exact ⟨rfl, rfl⟩
  · intro r i
    by_cases hr : r = c.mode.listOf k.role
    · subst hr
      rw [e8]
      simp only [List.mem_append, List.mem_singleton]
      by_cases hx : i = w.ncmd
      · subst hx; rw [e3]; simp [hcur]
      · rw [e2 i hx, hcur]; simp only [hx, or_false]; exact h.mem _ i
    · rw [e7 r hr]
      by_cases hx : i = w.ncmd
      · subst hx; rw [e3, h.mem]
        constructor
        · intro hq; exact absurd rfl (hlt _ hq.1)
        · intro hq; exact absurd hq.2.symm hr
      · rw [e2 i hx, hcur, h.mem]; simp [hx]
  · intro r
    by_cases hr : r = c.mode.listOf k.role
    · subst hr; rw [e8]; simp [h.count]
    · rw [e7 r hr]; exact h.count r
  · intro r i hi
    by_cases hr : r = c.mode.listOf k.role
    · subst hr; rw [e8] at hi ⊢; exact List.mem_append_left _ (h.fence _ i hi)
    · rw [e7 r hr] at hi ⊢; exact h.fence r i hi
  · intro b hb i hi hib
    rw [g5] at hb
    by_cases hr : Role.compute = c.mode.listOf k.role
    · rw [hr, e8] at hi ⊢
      simp only [List.mem_append, List.mem_singleton] at hi
      rcases hi with hi | rfl
      · rw [← hr] at hi ⊢; exact h.fenceBar b hb i hi hib
      · have := h.bars b hb; omega
    · rw [e7 _ hr] at hi ⊢; exact h.fenceBar b hb i hi hib
  · intro b hb
    rw [g5] at hb; rw [e1]; have := h.bars b hb; omega
  · intro j hj i hi
    rcases (hcur j).1 hj with hc | rfl
    · rw [e2 j (hlt j hc)] at hi ⊢
      obtain ⟨a, b, d⟩ := h.after j hc i hi
      rw [e2 i (hlt i a)]
      exact ⟨(hcur i).2 (Or.inl a), b, d⟩
    · rw [e3] at hi ⊢
      have hm := (h.mem _ i).1 (h.fence _ i hi)
      rw [e2 i (hlt i hm.1)]
      exact ⟨(hcur i).2 (Or.inl hm.1), hm.1.1, hm.2⟩
  · intro j hj b hb hbj i hib hi hl1 hl2
    rw [g5] at hb
    have hij : i < j := by omega
    have hin : i ≠ w.ncmd := by
      have := hj.1; omega
    have hi' : Cur w i := by
      rcases (hcur i).1 hi with hx | hx
      · exact hx
      · exact absurd hx hin
    rw [e2 i hin] at hl1
    rcases (hcur j).1 hj with hc | rfl
    · rw [e2 j (hlt j hc)] at hl2 ⊢
      exact h.afterBar j hc b hb hbj i hib hi' hl1 hl2
    · rw [e3] at hl2 ⊢
      simp only at hl2 ⊢
      rw [hl2]
      exact h.fenceBar b hb i ((h.mem _ i).2 ⟨hi', hl1⟩) hib
  · intro _ i hi
    rcases (hcur i).1 hi with hc | rfl
    · rw [(e4 i (hlt i hc)).1]; exact h.opn hw i hc
    · exact e5.1
  · intro hn; rw [g6] at hn; exact absurd hw hn
  · intro _ r
    by_cases hr : r = c.mode.listOf k.role
    · subst hr; rw [e8]
    · rw [e7 r hr]; exact h.submitted hw r
  · intro i e hi he
    rw [g1, g2, g3]
    rcases (hcur i).1 hi with hc | rfl
    · rw [e2 i (hlt i hc)] at he
      rw [(e4 i (hlt i hc)).1]
      exact h.sig i e hc he
    · rw [e3] at he
      obtain ⟨a, b, _⟩ := hs e he
      rw [e5.1, a]
      exact ⟨by simp, b, by simp⟩
  · intro i hi
    rcases (hcur i).1 hi with hc | rfl
    · rw [e2 i (hlt i hc)]; exact h.sigKind i hc
    · rw [e3]; exact hk
  · intro i j e hi hj he1 he2
    rcases (hcur i).1 hi with hc | rfl <;> rcases (hcur j).1 hj with hd | rfl
    · rw [e2 i (hlt i hc)] at he1; rw [e2 j (hlt j hd)] at he2
      exact h.inj i j e hc hd he1 he2
    · rw [e2 i (hlt i hc)] at he1; rw [e3] at he2
      exact absurd he1 ((hs e he2).2.2 i hc)
    · rw [e2 j (hlt j hd)] at he2; rw [e3] at he1
      exact absurd he2 ((hs e he1).2.2 j hd)
    · rfl
  · intro j hj e he
    rcases (hcur j).1 hj with hc | rfl
    · rw [e2 j (hlt j hc)] at he ⊢
      obtain ⟨i, a, b, d⟩ := h.waits j hc e he
      refine ⟨i, a, (hcur i).2 (Or.inl b), ?_⟩
      rw [e2 i (hlt i b)]; exact d
    · rw [e3] at he ⊢
      obtain ⟨i, b, d⟩ := h1 e he
      refine ⟨i, b.1, (hcur i).2 (Or.inl b), ?_⟩
      rw [e2 i (hlt i b)]; exact d
  · intro i j hi hj hij hki hkj
    have hin : i ≠ w.ncmd := by have := hj.1; omega
    have hi' : Cur w i := by
      rcases (hcur i).1 hi with hx | hx
      · exact hx
      · exact absurd hx hin
    rw [e2 i hin] at hki ⊢
    rcases (hcur j).1 hj with hc | rfl
    · rw [e2 j (hlt j hc)] at hkj ⊢; exact h.waitsL i j hi' hc hij hki hkj
    · rw [e3] at hkj ⊢; exact h2 hkj i hi' hki
  · intro i j hi hj hij hki hkj
    have hin : i ≠ w.ncmd := by have := hj.1; omega
    have hi' : Cur w i := by
      rcases (hcur i).1 hi with hx | hx
      · exact hx
      · exact absurd hx hin
    rw [e2 i hin] at hki ⊢
    rcases (hcur j).1 hj with hc | rfl
    · rw [e2 j (hlt j hc)] at hkj ⊢; exact h.waitsH i j hi' hc hij hki hkj
    · rw [e3] at hkj ⊢; exact h3 hkj i hi' hki
  · intro j hj hst
    rcases (hcur j).1 hj with hc | rfl
    · rw [(e4 j (hlt j hc)).1] at hst
      rw [h.opn hw j hc] at hst
      simp at hst
    · rw [e5.1] at hst; simp at hst

/-- The events, pools and futures do not matter to the commands. -/
theorem InvC.events {c : Cfg} {w w' : World} (h : InvC c w) (hw : w.wait = none) (e1 : w'.cmd = w.cmd)
    (e2 : w'.ncmd = w.ncmd) (e3 : w'.st = w.st) (e4 : w'.runs = w.runs) (e5 : w'.stamp = w.stamp)
    (e6 : ∀ r, (w'.lists r).cmds = (w.lists r).cmds ∧ (w'.lists r).fence = (w.lists r).fence ∧
      (w'.lists r).count = (w.lists r).count ∧ (w'.lists r).submitted = (w.lists r).submitted)
    (e7 : w'.batch = w.batch) (e8 : w'.bars = w.bars) (e9 : w'.wait = w.wait) (e10 : w'.ub = w.ub)
    (e11 : w.nev ≤ w'.nev)
    (e12 : ∀ i e, Cur w i → (w.cmd i).signal = some e → w'.signalled e = w.signalled e) : InvC c w' := by
  have hcur : ∀ i, Cur w' i ↔ Cur w i := by intro i; unfold Cur; rw [e1, e2, e7]
  constructor
  · rw [e10]; exact h.noub
  · rw [e1, e2, e7]; exact h.batchLe
  · rw [e1, e2]; exact h.mono
  · rw [e1, e2, e3, e7]; exact h.old
  · rw [e2, e3, e4]; exact h.runs
  · intro i hi; rw [e1]; exact h.role i ((hcur i).1 hi)
  · intro r i; rw [(e6 r).1, e1, hcur]; exact h.mem r i
  · intro r; rw [(e6 r).1, (e6 r).2.2.1]; exact h.count r
  · intro r i hi; rw [(e6 r).2.1] at hi; rw [(e6 r).1]; exact h.fence r i hi
  · intro b hb i hi; rw [e8] at hb; rw [(e6 _).1] at hi; rw [(e6 _).2.1]; exact h.fenceBar b hb i hi
  · rw [e8, e2]; exact h.bars
  · intro j hj i hi; rw [e1] at hi ⊢; rw [hcur] at hj ⊢; exact h.after j hj i hi
  · intro j hj b hb hbj i hib hi; rw [e8] at hb; rw [e1]; rw [hcur] at hj hi; exact h.afterBar j hj b hb hbj i hib hi
  · intro _ i hi; rw [e3]; exact h.opn hw i ((hcur i).1 hi)
  · intro hn; rw [e9] at hn; exact absurd hw hn
  · intro _ r; rw [(e6 r).2.2.2]; exact h.submitted hw r
  · intro i e hi he
    rw [hcur] at hi; rw [e1] at he
    rw [e3, e5, e12 i e hi he]
    obtain ⟨a, b, d⟩ := h.sig i e hi he
    exact ⟨a, by omega, d⟩
  · intro i hi; rw [e1]; exact h.sigKind i ((hcur i).1 hi)
  · intro i j e hi hj; rw [e1]; rw [hcur] at hi hj; exact h.inj i j e hi hj
  · intro j hj e he
    rw [e1] at he ⊢
    obtain ⟨i, a, b, d⟩ := h.waits j ((hcur j).1 hj) e he
    exact ⟨i, a, (hcur i).2 b, d⟩
  · intro i j hi hj; rw [e1]; rw [hcur] at hi hj; exact h.waitsL i j hi hj
  · intro i j hi hj; rw [e1]; rw [hcur] at hi hj; exact h.waitsH i j hi hj
  · intro j hj hst
    rw [hcur] at hj
    rw [e3, h.opn hw j hj] at hst
    simp at hst

theorem curs_append (c : Cfg) (w : World) (k : Kind) (r : Role) (waits : List Nat) (signal : Option Nat)
    (p : Kind → Bool) :
    (curs (w.append c k r waits signal) p).filterMap (fun i => ((w.append c k r waits signal).cmd i).signal) =
      ((curs w p).filterMap fun i => (w.cmd i).signal) ++ (if p k then signal.toList else []) := by
  have hc : ∀ i ∈ List.range w.ncmd, (w.append c k r waits signal).cmd i = w.cmd i := by
    intro i hi
    exact upd_ne _ _ (Nat.ne_of_lt (List.mem_range.1 hi))
  have hn : (w.append c k r waits signal).cmd w.ncmd = ⟨k, c.mode.listOf r, c.mode.queueOf r, waits, signal,
      (w.lists (c.mode.listOf r)).fence, w.batch⟩ := upd_same _ _ _
  unfold curs
  rw [show (w.append c k r waits signal).ncmd = w.ncmd + 1 from rfl, List.range_succ, List.filter_append,
    List.filterMap_append, show (w.append c k r waits signal).batch = w.batch from rfl]
  congr 1
  · rw [List.filter_congr (fun i hi => by rw [hc i hi])]
    refine List.filterMap_congr ?_
    intro i hi
    rw [hc i (List.mem_filter.1 hi).1]
  · simp only [List.filter_cons, List.filter_nil, hn]
    by_cases hp : p k = true
    · simp only [hp, decide_true, Bool.and_self, if_true]
      cases signal <;> simp [hn]
    · simp [hp]

theorem curs_mem {w : World} {p : Kind → Bool} {i : Nat} : i ∈ curs w p ↔ Cur w i ∧ p (w.cmd i).kind = true := by
  unfold curs Cur
  simp [and_assoc]

/-- A copy to the device takes an event that is not in use. -/
theorem getEvent_inv {c : Cfg} {w w' : World} {O : List Nat} (h : InvC c w) (hE : InvE c w O) (hw : w.wait = none)
    {e : Nat} (hg : w.getEvent = some (w', e)) :
    InvC c w' ∧ InvE c w' (e :: O) ∧ w'.wait = none ∧ w'.ncmd = w.ncmd ∧ w'.cmd = w.cmd ∧ w'.batch = w.batch ∧ e < w'.nev := by
  unfold World.getEvent at hg
  split at hg
  · rename_i e' hf
    cases hg
    have hsig : w.signalled e = true := by
      have := List.find?_some hf; simpa using this
    have hmem : e ∈ w.copy.events := List.mem_of_find?_eq_some hf
    have hno : ∀ i, Cur w i → (w.cmd i).signal ≠ some e := by
      intro i hi he
      have := ((h.sig i e hi he).1.1 hsig)
      rw [h.opn hw i hi] at this; cases this
    have heO : e ∉ O := by
      intro ho; have := (hE.orphan e ho).1; rw [hsig] at this; cases this
    refine ⟨h.events hw rfl rfl rfl rfl rfl (fun _ => ⟨rfl, rfl, rfl, rfl⟩) rfl rfl rfl rfl (le_refl _) ?_,
      ?_, hw, rfl, rfl, rfl, hE.copyLt e hmem⟩
    · intro i e' hi he
      exact upd_ne _ _ (by rintro rfl; exact hno i hi he)
    · refine { hE with copyFree := ?_, onodup := ?_, osub := ?_, orphan := ?_ }
      · intro x hx hxs
        by_cases hxe : x = e
        · subst hxe; exact Or.inr (List.mem_cons_self)
        · simp only [upd_ne _ _ hxe] at hxs
          rcases hE.copyFree x hx hxs with a | a
          · exact Or.inl a
          · exact Or.inr (List.mem_cons_of_mem _ a)
      · exact List.nodup_cons.2 ⟨heO, hE.onodup⟩
      · intro x hx
        rcases List.mem_cons.1 hx with rfl | hx
        · exact hmem
        · exact hE.osub x hx
      · intro x hx
        rcases List.mem_cons.1 hx with rfl | hx'
        · exact ⟨upd_same _ _ _, hno⟩
        · have hxe : x ≠ e := by rintro rfl; exact heO hx'
          exact ⟨by simp only [upd_ne _ _ hxe]; exact (hE.orphan x hx').1, (hE.orphan x hx').2⟩
  · unfold World.create at hg
    rcases hfr : w.copy.free with _ | ⟨i0, rest⟩
    · rw [hfr] at hg; cases hg
    · rw [hfr] at hg
      simp only [Option.some.injEq, Prod.mk.injEq] at hg
      obtain ⟨hg, rfl⟩ := hg
      subst hg
      have hno : ∀ i, Cur w i → (w.cmd i).signal ≠ some w.nev := by
        intro i hi he
        exact absurd (h.sig i _ hi he).2.1 (lt_irrefl _)
      have hnc : w.nev ∉ w.copy.events := fun hx => absurd (hE.copyLt _ hx) (lt_irrefl _)
      have heO : w.nev ∉ O := fun hx => hnc (hE.osub _ hx)
      have hpe : ∀ x ∈ w.pend, x.1 ≠ w.nev := by
        rintro ⟨x, f⟩ hx rfl
        obtain ⟨_, a, b⟩ := hE.pendF _ _ hx
        exact hno _ b a
      refine ⟨h.events hw rfl rfl rfl rfl rfl (fun _ => ⟨rfl, rfl, rfl, rfl⟩) rfl rfl rfl rfl (Nat.le_succ _) ?_,
        ?_, hw, rfl, rfl, rfl, Nat.lt_succ_self _⟩
      · intro i e' hi he
        exact upd_ne _ _ (by rintro rfl; exact hno i hi he)
      · refine { hE with pool := ?_, cpool := ?_, copyLt := ?_, copyNodup := ?_, copySig := ?_, copyFree := ?_, onodup := ?_,
                         osub := ?_, orphan := ?_ }
        · have e1 : (w.pend.map fun p => upd w.index w.nev i0 p.1) = w.pend.map fun p => w.index p.1 :=
            List.map_congr_left fun x hx => upd_ne _ _ (hpe x hx)
          simp only [e1]; exact hE.pool
        · have e1 : (w.copy.events.map (upd w.index w.nev i0)) = w.copy.events.map w.index :=
            List.map_congr_left fun x hx => upd_ne _ _ (by rintro rfl; exact hnc hx)
          have := hE.cpool
          rw [hfr] at this
          simp only [List.map_append, e1, List.map_cons, List.map_nil, upd_same]
          refine List.Perm.trans ?_ this
          rw [← List.append_assoc]
          exact (List.perm_append_singleton i0 _)
        · intro x hx
          simp only [List.mem_append, List.mem_singleton] at hx ⊢
          rcases hx with hx | rfl
          · have := hE.copyLt x hx; omega
          · omega
        · simp only [List.nodup_append, hE.copyNodup, true_and]
          refine ⟨by simp, ?_⟩
          intro a ha b hb hab
          simp only [List.mem_singleton] at hb
          subst hb; subst hab; exact hnc ha
        · intro i x hi hx
          simp only [List.mem_append, List.mem_singleton]
          rw [hE.copySig i x hi hx]
          constructor
          · rintro (a | rfl)
            · exact a
            · exact absurd hx (hno i hi)
          · exact Or.inl
        · intro x hx hxs
          simp only [List.mem_append, List.mem_singleton] at hx
          by_cases hxe : x = w.nev
          · subst hxe; exact Or.inr (List.mem_cons_self)
          · simp only [upd_ne _ _ hxe] at hxs
            rcases hx with hx | hx
            · rcases hE.copyFree x hx hxs with a | a
              · exact Or.inl a
              · exact Or.inr (List.mem_cons_of_mem _ a)
            · exact absurd hx hxe
        · exact List.nodup_cons.2 ⟨heO, hE.onodup⟩
        · intro x hx
          simp only [List.mem_append, List.mem_singleton]
          rcases List.mem_cons.1 hx with rfl | hx
          · exact Or.inr rfl
          · exact Or.inl (hE.osub x hx)
        · intro x hx
          rcases List.mem_cons.1 hx with rfl | hx
          · exact ⟨upd_same _ _ _, hno⟩
          · have hxe : x ≠ w.nev := by rintro rfl; exact heO hx
            exact ⟨by simp only [upd_ne _ _ hxe]; exact (hE.orphan x hx).1, (hE.orphan x hx).2⟩

theorem append_cur {c : Cfg} {w : World} {k : Kind} {r : Role} {waits : List Nat} {signal : Option Nat} {i : Nat} :
    Cur (w.append c k r waits signal) i ↔ (Cur w i ∨ i = w.ncmd) := by
  unfold Cur
  by_cases hi : i = w.ncmd
  · subst hi; simp [World.append, upd_same]
  · have : (w.append c k r waits signal).cmd i = w.cmd i := upd_ne _ _ hi
    rw [this]
    simp only [World.append]
    constructor
    · rintro ⟨a, b⟩; exact Or.inl ⟨by omega, b⟩
    · rintro (⟨a, b⟩ | a)
      · exact ⟨by omega, b⟩
      · exact absurd a hi

theorem append_cmd {c : Cfg} {w : World} {k : Kind} {r : Role} {waits : List Nat} {signal : Option Nat} {i : Nat}
    (hi : i < w.ncmd) : (w.append c k r waits signal).cmd i = w.cmd i := upd_ne _ _ (Nat.ne_of_lt hi)

theorem append_cmd_new {c : Cfg} {w : World} {k : Kind} {r : Role} {waits : List Nat} {signal : Option Nat} :
    (w.append c k r waits signal).cmd w.ncmd = ⟨k, c.mode.listOf r, c.mode.queueOf r, waits, signal,
      (w.lists (c.mode.listOf r)).fence, w.batch⟩ := upd_same _ _ _

theorem append_events {c : Cfg} {w : World} {k : Kind} {r : Role} {waits : List Nat} {signal : Option Nat} (x : Role) :
    ((w.append c k r waits signal).lists x).events = (w.lists x).events := by
  by_cases hx : x = c.mode.listOf r
  · subst hx; simp [World.append, upd_same]
  · simp [World.append, upd_ne _ _ hx]

/-- What a future says does not change when a command is added. -/
theorem fut_append {c : Cfg} {w : World} {O : List Nat} (hE : InvE c w O) {k : Kind} {r : Role} {waits : List Nat}
    {signal : Option Nat} {f : Nat} (hf : f < w.nfut) :
    w.futureOf f < w.ncmd + 1 ∧ ((w.append c k r waits signal).cmd (w.futureOf f)).kind.isCompute = true ∧
    (Cur (w.append c k r waits signal) (w.futureOf f) ↔ Cur w (w.futureOf f)) ∧
    (w.append c k r waits signal).cmd (w.futureOf f) = w.cmd (w.futureOf f) := by
  obtain ⟨a, b, _, _⟩ := hE.fut f hf
  refine ⟨by omega, by rw [append_cmd a]; exact b, ?_, append_cmd a⟩
  rw [append_cur]
  constructor
  · rintro (x | x)
    · exact x
    · omega
  · exact Or.inl

theorem copyToDevice_inv {c : Cfg} {w : World} {O : List Nat} (h : InvC c w) (hE : InvE c w O) (hw : w.wait = none)
    (ok : Bool) : ∃ O', InvC c (copyToDevice c w ok).1 ∧ InvE c (copyToDevice c w ok).1 O' ∧
      O'.length ≤ O.length + (if ok then 0 else 1) := by
  unfold copyToDevice
  rcases hg : w.getEvent with _ | ⟨w1, e⟩
  · exact ⟨O, h, hE, by omega⟩
  · obtain ⟨h1, hE1, hw1, hn, hc, hb, hlt⟩ := getEvent_inv h hE hw hg
    simp only
    cases ok
    · exact ⟨e :: O, h1, hE1, by simp⟩
    · simp only [if_true]
      have hfresh := hE1.orphan e List.mem_cons_self
      have hC2 := h1.append hw1 (k := .toDevice) (waits := []) (signal := some e) (by simp)
        (by intro x hx; cases hx; exact ⟨hfresh.1, hlt, hfresh.2⟩) (by simp) (by simp) (by simp)
      have heO : e ∉ O := (List.nodup_cons.1 hE1.onodup).1
      refine ⟨O, ?_, ?_, by omega⟩
      · refine hC2.events hw1 rfl rfl rfl rfl rfl ?_ rfl rfl rfl rfl (le_refl _) (fun _ _ _ _ => rfl)
        intro r
        by_cases hr : r = c.mode.listOf .h2d
        · subst hr; simp only [upd_same]; exact ⟨rfl, rfl, rfl, rfl⟩
        · simp only [upd_ne _ _ hr]; exact ⟨rfl, rfl, rfl, rfl⟩
      · have hsub : ∀ x, x ∈ w1.copy.events → w1.signalled x = false →
            x ∈ (w1.lists (c.mode.listOf .h2d)).events ++ [e] ∨ x ∈ O := by
          intro x hx hs
          rcases hE1.copyFree x hx hs with a | a
          · exact Or.inl (List.mem_append_left _ a)
          · rcases List.mem_cons.1 a with rfl | a
            · exact Or.inl (by simp)
            · exact Or.inr a
        constructor
        · simp only [upd_same]
          rw [append_events]
          have := curs_append c w1 .toDevice .h2d [] (some e) (· == .toDevice)
          simp at this
          exact (congrArg (· ++ [e]) hE1.events).trans this.symm
        · have := curs_append c w1 .toDevice .h2d [] (some e) Kind.isCompute
          simp [Kind.isCompute] at this
          exact hE1.pend.trans this.symm
        · intro x f hx
          obtain ⟨a, b, d⟩ := hE1.pendF x f hx
          obtain ⟨_, _, q3, q4⟩ := fut_append hE1 (k := .toDevice) (r := .h2d) (waits := []) (signal := some e) a
          refine ⟨a, ?_, q3.2 d⟩
          show ((World.append c w1 _ _ _ _).cmd (w1.futureOf f)).signal = some x
          rw [q4]; exact b
        · intro f hf
          obtain ⟨q1, q2, q3, q4⟩ := fut_append hE1 (k := .toDevice) (r := .h2d) (waits := []) (signal := some e) hf
          obtain ⟨_, _, a, b⟩ := hE1.fut f hf
          exact ⟨q1, q2, fun hx => a (q3.1 hx), fun hx => b (fun hy => hx (q3.2 hy))⟩
        · exact hE1.futInj
        · exact hE1.pool
        · exact hE1.cpool
        · exact hE1.copyLt
        · exact hE1.copyNodup
        · intro i x hi hx
          rcases append_cur.1 hi with hi' | rfl
          · have e1 : ((World.append c w1 .toDevice .h2d [] (some e)).cmd i) = w1.cmd i := append_cmd hi'.1
            simp only [e1] at hx ⊢
            exact hE1.copySig i x hi' hx
          · simp only [append_cmd_new] at hx ⊢
            cases hx
            exact ⟨fun _ => by first | rfl | trivial, fun _ => hE1.osub e List.mem_cons_self⟩
        · intro x hx hs
          simp only [upd_same]
          rw [append_events]
          exact hsub x hx hs
        · exact (List.nodup_cons.1 hE1.onodup).2
        · intro x hx; exact hE1.osub x (List.mem_cons_of_mem _ hx)
        · intro x hx
          refine ⟨(hE1.orphan x (List.mem_cons_of_mem _ hx)).1, ?_⟩
          intro i hi he
          rcases append_cur.1 hi with hi' | rfl
          · have e1 : ((World.append c w1 .toDevice .h2d [] (some e)).cmd i) = w1.cmd i := append_cmd hi'.1
            simp only [e1] at he
            exact (hE1.orphan x (List.mem_cons_of_mem _ hx)).2 i hi' he
          · simp only [append_cmd_new] at he
            cases he
            exact heO hx
        · intro q hq
          have hq' : w1.wait = some q := hq
          rw [hw1] at hq'; cases hq'

theorem copyToHost_inv {c : Cfg} {w : World} {O : List Nat} (h : InvC c w) (hE : InvE c w O) (hw : w.wait = none)
    (ok : Bool) : InvC c (copyToHost c w ok).1 ∧ InvE c (copyToHost c w ok).1 O := by
  unfold copyToHost
  cases ok
  · exact ⟨h, hE⟩
  · simp only [if_true]
    have hpend : ∀ e, e ∈ w.pend.map (·.1) ↔ ∃ i, Cur w i ∧ (w.cmd i).kind.isCompute = true ∧ (w.cmd i).signal = some e := by
      intro e
      rw [hE.pend, List.mem_filterMap]
      simp only [curs_mem, and_assoc]
    constructor
    · refine h.append hw (k := .toHost) (by simp) (by simp) ?_ (by simp) ?_
      · intro e he
        obtain ⟨i, a, b, d⟩ := (hpend e).1 he
        exact ⟨i, a, d, Or.inr ⟨rfl, b⟩⟩
      · intro _ i hi hk
        rcases hs : (w.cmd i).signal with _ | e
        · have := (h.sigKind i hi).1 hs
          rw [this] at hk; cases hk
        · exact ⟨e, (hpend e).2 ⟨i, hi, hk, hs⟩, rfl⟩
    · constructor
      · rw [append_events]
        have := curs_append c w .toHost .d2h (w.pend.map (·.1)) none (· == .toDevice)
        simp at this
        exact hE.events.trans this.symm
      · have := curs_append c w .toHost .d2h (w.pend.map (·.1)) none Kind.isCompute
        simp [Kind.isCompute] at this
        exact hE.pend.trans this.symm
      · intro x f hx
        obtain ⟨a, b, d⟩ := hE.pendF x f hx
        obtain ⟨_, _, q3, q4⟩ := fut_append hE (k := .toHost) (r := .d2h) (waits := w.pend.map (·.1)) (signal := none) a
        refine ⟨a, ?_, q3.2 d⟩
        show ((World.append c w _ _ _ _).cmd (w.futureOf f)).signal = some x
        rw [q4]; exact b
      · intro f hf
        obtain ⟨q1, q2, q3, q4⟩ := fut_append hE (k := .toHost) (r := .d2h) (waits := w.pend.map (·.1)) (signal := none) hf
        obtain ⟨_, _, a, b⟩ := hE.fut f hf
        exact ⟨q1, q2, fun hx => a (q3.1 hx), fun hx => b (fun hy => hx (q3.2 hy))⟩
      · exact hE.futInj
      · exact hE.pool
      · exact hE.cpool
      · exact hE.copyLt
      · exact hE.copyNodup
      · intro i x hi hx
        rcases append_cur.1 hi with hi' | rfl
        · rw [append_cmd hi'.1] at hx ⊢
          exact hE.copySig i x hi' hx
        · rw [append_cmd_new] at hx; cases hx
      · intro x hx hs
        rw [append_events]
        exact hE.copyFree x hx hs
      · exact hE.onodup
      · exact hE.osub
      · intro x hx
        refine ⟨(hE.orphan x hx).1, ?_⟩
        intro i hi he
        rcases append_cur.1 hi with hi' | rfl
        · rw [append_cmd hi'.1] at he
          exact (hE.orphan x hx).2 i hi' he
        · rw [append_cmd_new] at he; cases he
      · intro q hq
        have hq' : w.wait = some q := hq
        rw [hw] at hq'; cases hq'

theorem computeCmd_inv {c : Cfg} {w : World} {O : List Nat} (h : InvC c w) (hE : InvE c w O) (hw : w.wait = none)
    (k : Kind) (hk : k.isCompute = true) (waits : List Nat)
    (hwaits : waits = if k = .launch then (w.lists (c.mode.listOf .h2d)).events else []) (ok : Bool) :
    InvC c (computeCmd c w k waits ok).1 ∧ InvE c (computeCmd c w k waits ok).1 O := by
  unfold computeCmd World.create
  rcases hfr : w.compute.free with _ | ⟨i0, rest⟩
  · exact ⟨h, hE⟩
  · simp only
    have hno : ∀ i, Cur w i → (w.cmd i).signal ≠ some w.nev := by
      intro i hi he
      exact absurd (h.sig i _ hi he).2.1 (lt_irrefl _)
    have hnc : w.nev ∉ w.copy.events := fun hx => absurd (hE.copyLt _ hx) (lt_irrefl _)
    have hpe : ∀ x ∈ w.pend, x.1 ≠ w.nev := by
      rintro ⟨x, f⟩ hx rfl
      obtain ⟨_, a, b⟩ := hE.pendF _ _ hx
      exact hno _ b a
    have hOn : ∀ x ∈ O, x ≠ w.nev := by rintro x hx rfl; exact hnc (hE.osub _ hx)
    have e1 : (w.pend.map fun p => upd w.index w.nev i0 p.1) = w.pend.map fun p => w.index p.1 :=
      List.map_congr_left fun x hx => upd_ne _ _ (hpe x hx)
    have e2 : (w.copy.events.map (upd w.index w.nev i0)) = w.copy.events.map w.index :=
      List.map_congr_left fun x hx => upd_ne _ _ (by rintro rfl; exact hnc hx)
    have hpool := hE.pool
    rw [hfr] at hpool
    cases ok
    · -- the event is given back
      simp only [Bool.false_eq_true, if_false]
      refine ⟨h.events hw rfl rfl rfl rfl rfl (fun _ => ⟨rfl, rfl, rfl, rfl⟩) rfl rfl rfl rfl (Nat.le_succ _) ?_, ?_⟩
      · intro i e' hi he
        exact upd_ne _ _ (by rintro rfl; exact hno i hi he)
      · refine { hE with pool := ?_, cpool := ?_, copyLt := ?_, copyFree := ?_, orphan := ?_ }
        · simp only [World.delete, upd_same, e1]
          refine List.Perm.trans ?_ hpool
          rw [List.append_assoc]
          simp only [List.cons_append]
          exact List.perm_middle
        · simp only [e2]; exact hE.cpool
        · intro x hx; have := hE.copyLt x hx; simp only; omega
        · intro x hx hs
          simp only [upd_ne _ _ (show x ≠ w.nev by rintro rfl; exact hnc hx)] at hs
          exact hE.copyFree x hx hs
        · intro x hx
          exact ⟨by simp only [upd_ne _ _ (hOn x hx)]; exact (hE.orphan x hx).1, (hE.orphan x hx).2⟩
    · simp only [if_true]
      generalize hw1 : ({ w with index := upd w.index w.nev i0, signalled := upd w.signalled w.nev false, nev := w.nev + 1
                                 compute := { w.compute with free := rest } } : World) = w1
      have d1 : w1.cmd = w.cmd ∧ w1.ncmd = w.ncmd ∧ w1.batch = w.batch ∧ w1.lists = w.lists ∧ w1.pend = w.pend ∧
          w1.nfut = w.nfut ∧ w1.futureOf = w.futureOf ∧ w1.time = w.time ∧ w1.copy = w.copy ∧ w1.nev = w.nev + 1 ∧
          w1.index = upd w.index w.nev i0 ∧ w1.signalled = upd w.signalled w.nev false ∧ w1.wait = w.wait ∧
          w1.compute.free = rest := by
        subst hw1; exact ⟨rfl, rfl, rfl, rfl, rfl, rfl, rfl, rfl, rfl, rfl, rfl, rfl, rfl, rfl⟩
      obtain ⟨d1, d2, d3, d4, d5, d6, d7, d8, d9, d10, d11, d12, d13, d14⟩ := d1
      have hcur1 : ∀ i, Cur w1 i ↔ Cur w i := by intro i; unfold Cur; rw [d1, d2, d3]
      have hC1 : InvC c w1 := by
        subst hw1
        refine h.events hw rfl rfl rfl rfl rfl (fun _ => ⟨rfl, rfl, rfl, rfl⟩) rfl rfl rfl rfl (Nat.le_succ _) ?_
        intro i e' hi he
        exact upd_ne _ _ (by rintro rfl; exact hno i hi he)
      have hev : ∀ e, e ∈ (w.lists (c.mode.listOf .h2d)).events ↔
          ∃ i, Cur w i ∧ (w.cmd i).kind = .toDevice ∧ (w.cmd i).signal = some e := by
        intro e
        rw [hE.events, List.mem_filterMap]
        simp only [curs_mem, and_assoc, beq_iff_eq]
      have hrole : k.role = .compute := by cases k <;> first | rfl | cases hk
      have hkd : (k == Kind.toDevice) = false := by cases k <;> first | rfl | cases hk
      have hkh : k ≠ .toHost := by rintro rfl; cases hk
      have hC2 := hC1.append (by rw [d13]; exact hw) (k := k) (waits := waits) (signal := some w.nev)
        (by simp [hkh])
        (by
          intro x hx; cases hx
          refine ⟨by rw [d12, upd_same], by rw [d10]; omega, ?_⟩
          intro i hi; rw [hcur1] at hi; rw [d1]; exact hno i hi)
        (by
          intro e he
          rw [hwaits] at he
          split_ifs at he with hl
          · obtain ⟨i, a, b, d⟩ := (hev e).1 he
            exact ⟨i, (hcur1 i).2 a, by rw [d1]; exact d, Or.inl ⟨hl, by rw [d1]; exact b⟩⟩
          · cases he)
        (by
          intro hl i hi hki
          rw [hcur1] at hi; rw [d1] at hki ⊢
          rcases hs : (w.cmd i).signal with _ | e
          · have := (h.sigKind i hi).1 hs
            rw [this] at hki; cases hki
          · refine ⟨e, ?_, rfl⟩
            rw [hwaits, if_pos hl]
            exact (hev e).2 ⟨i, hi, hki, hs⟩)
        (by intro hl; exact absurd hl hkh)
      rw [hrole] at hC2
      have hC3 : InvC c { World.append c w1 k .compute waits (some w.nev) with
          pend := (World.append c w1 k .compute waits (some w.nev)).pend ++ [(w.nev, w1.nfut)]
          time := upd (World.append c w1 k .compute waits (some w.nev)).time w1.nfut none
          futureOf := upd (World.append c w1 k .compute waits (some w.nev)).futureOf w1.nfut w1.ncmd
          nfut := w1.nfut + 1 } :=
        hC2.events (by show w1.wait = none; rw [d13]; exact hw) rfl rfl rfl rfl rfl (fun _ => ⟨rfl, rfl, rfl, rfl⟩)
          rfl rfl rfl rfl (le_refl _) (fun _ _ _ _ => rfl)
      have hcurs : ∀ p, ((curs (World.append c w1 k .compute waits (some w.nev)) p).filterMap fun i =>
          ((World.append c w1 k .compute waits (some w.nev)).cmd i).signal) =
          ((curs w p).filterMap fun i => (w.cmd i).signal) ++ (if p k then [w.nev] else []) := by
        intro p
        rw [curs_append]
        unfold curs; rw [d1, d2, d3]; rfl
      have hcmd : ∀ i, i < w.ncmd → (World.append c w1 k .compute waits (some w.nev)).cmd i = w.cmd i := by
        intro i hi; rw [append_cmd (by rw [d2]; exact hi), d1]
      have hnew : (World.append c w1 k .compute waits (some w.nev)).cmd w.ncmd = ⟨k, c.mode.listOf .compute,
          c.mode.queueOf .compute, waits, some w.nev, (w1.lists (c.mode.listOf .compute)).fence, w1.batch⟩ := by
        rw [← d2]; exact append_cmd_new
      have hcur2 : ∀ i, Cur (World.append c w1 k .compute waits (some w.nev)) i ↔ (Cur w i ∨ i = w.ncmd) := by
        intro i; rw [append_cur, hcur1, d2]
      generalize hw2 : ({ World.append c w1 k .compute waits (some w.nev) with
          pend := (World.append c w1 k .compute waits (some w.nev)).pend ++ [(w.nev, w1.nfut)]
          time := upd (World.append c w1 k .compute waits (some w.nev)).time w1.nfut none
          futureOf := upd (World.append c w1 k .compute waits (some w.nev)).futureOf w1.nfut w1.ncmd
          nfut := w1.nfut + 1 } : World) = w2 at hC3
      have g1 : ∀ i, i < w.ncmd → w2.cmd i = w.cmd i := by subst hw2; exact hcmd
      have g2 : (w2.cmd w.ncmd).kind = k ∧ (w2.cmd w.ncmd).signal = some w.nev := by
        subst hw2; exact ⟨congrArg Cmd.kind hnew, congrArg Cmd.signal hnew⟩
      have g3 : ∀ i, Cur w2 i ↔ (Cur w i ∨ i = w.ncmd) := by subst hw2; exact hcur2
      have g4 : ∀ p, ((curs w2 p).filterMap fun i => (w2.cmd i).signal) =
          ((curs w p).filterMap fun i => (w.cmd i).signal) ++ (if p k then [w.nev] else []) := by
        subst hw2; exact hcurs
      have g5 : ∀ r, (w2.lists r).events = (w.lists r).events := by
        intro r; subst hw2; rw [← d4]; exact append_events (k := k) (waits := waits) (signal := some w.nev) r
      have g6 : w2.pend = w.pend ++ [(w.nev, w.nfut)] := by subst hw2; rw [← d5, ← d6]; rfl
      have g7 : w2.nfut = w.nfut + 1 := by subst hw2; rw [← d6]
      have g8 : w2.futureOf = upd w.futureOf w.nfut w.ncmd := by subst hw2; rw [← d6, ← d7, ← d2]; rfl
      have g9 : w2.time = upd w.time w.nfut none := by subst hw2; rw [← d6, ← d8]; rfl
      have g10 : w2.copy = w.copy := by subst hw2; exact d9
      have g11 : w2.nev = w.nev + 1 := by subst hw2; exact d10
      have g12 : w2.index = upd w.index w.nev i0 := by subst hw2; exact d11
      have g13 : w2.signalled = upd w.signalled w.nev false := by subst hw2; exact d12
      have g14 : w2.wait = none := by subst hw2; exact d13.trans hw
      have g15 : w2.compute.free = rest := by subst hw2; exact d14
      have g16 : w2.ncmd = w.ncmd + 1 := by subst hw2; rw [← d2]; rfl
      suffices key : InvE c w2 O by subst hw2; subst hw1; exact ⟨hC3, key⟩
      clear hw2 hC3 hcurs hcmd hnew hcur2 hC2 hC1 hcur1
      constructor
      · rw [g5, g4, hE.events]
        simp [hkd]
      · rw [g6, g4, List.map_append, hE.pend, if_pos hk]
        rfl
      · intro x f hx
        rw [g6] at hx
        rw [g7, g8]
        simp only [List.mem_append, List.mem_singleton, Prod.mk.injEq] at hx
        rcases hx with hx | ⟨rfl, rfl⟩
        · obtain ⟨a, b, d⟩ := hE.pendF x f hx
          rw [upd_ne _ _ (by omega), g1 _ d.1]
          exact ⟨by omega, b, (g3 _).2 (Or.inl d)⟩
        · rw [upd_same]
          exact ⟨by omega, g2.2, (g3 _).2 (Or.inr rfl)⟩
      · intro f hf
        rw [g7] at hf
        rw [g8, g16, g9, g6]
        by_cases hff : f = w.nfut
        · subst hff
          rw [upd_same, upd_same, g2.1]
          exact ⟨by omega, hk, fun _ => ⟨rfl, w.nev, by simp⟩, fun hx => absurd ((g3 _).2 (Or.inr rfl)) hx⟩
        · obtain ⟨a, b, d, g⟩ := hE.fut f (by omega)
          rw [upd_ne _ _ hff, upd_ne _ _ hff, g1 _ a]
          refine ⟨by omega, b, ?_, ?_⟩
          · intro hx
            rcases (g3 _).1 hx with hx | hx
            · obtain ⟨q1, e, q2⟩ := d hx
              exact ⟨q1, e, by simp [q2]⟩
            · omega
          · intro hx
            exact g (fun hy => hx ((g3 _).2 (Or.inl hy)))
      · intro f hf g hg
        rw [g7] at hf hg
        rw [g8]
        intro hfg
        by_cases hff : f = w.nfut <;> by_cases hgg : g = w.nfut
        · rw [hff, hgg]
        · subst hff
          rw [upd_same, upd_ne _ _ hgg] at hfg
          have := (hE.fut g (by omega)).1; omega
        · subst hgg
          rw [upd_same, upd_ne _ _ hff] at hfg
          have := (hE.fut f (by omega)).1; omega
        · rw [upd_ne _ _ hgg, upd_ne _ _ hff] at hfg
          exact hE.futInj f (by omega) g (by omega) hfg
      · rw [g15, g6, List.map_append, g12, e1]
        simp only [List.map_cons, List.map_nil, upd_same]
        refine List.Perm.trans ?_ hpool
        rw [← List.append_assoc]
        exact List.perm_append_singleton i0 _
      · rw [g10, g12, e2]; exact hE.cpool
      · intro x hx
        rw [g10] at hx; rw [g11]
        have := hE.copyLt x hx; omega
      · rw [g10]; exact hE.copyNodup
      · intro i x hi hx
        rw [g10]
        rcases (g3 i).1 hi with hi' | rfl
        · rw [g1 i hi'.1] at hx ⊢
          exact hE.copySig i x hi' hx
        · rw [g2.2] at hx
          rw [g2.1]
          cases hx
          refine ⟨fun hy => absurd hy hnc, ?_⟩
          rintro rfl
          cases hk
      · intro x hx hs
        rw [g10] at hx
        rw [g13, upd_ne _ _ (show x ≠ w.nev by rintro rfl; exact hnc hx)] at hs
        rw [g5]
        exact hE.copyFree x hx hs
      · exact hE.onodup
      · rw [g10]; exact hE.osub
      · intro x hx
        refine ⟨?_, ?_⟩
        · rw [g13, upd_ne _ _ (hOn x hx)]; exact (hE.orphan x hx).1
        · intro i hi he
          rcases (g3 i).1 hi with hi' | rfl
          · rw [g1 i hi'.1] at he
            exact (hE.orphan x hx).2 i hi' he
          · rw [g2.2] at he
            cases he
            exact hOn _ hx rfl
      · intro q hq
        rw [g14] at hq; cases hq

/-! ## Barriers -/

theorem barrier_inv {c : Cfg} {w : World} {O : List Nat} (h : InvC c w) (hE : InvE c w O) (hw : w.wait = none) :
    InvC c (barrier w).1 ∧ InvE c (barrier w).1 O := by
  generalize hw' : (barrier w).1 = w'
  have e1 : w'.cmd = w.cmd ∧ w'.ncmd = w.ncmd ∧ w'.st = w.st ∧ w'.runs = w.runs ∧ w'.stamp = w.stamp ∧
      w'.batch = w.batch ∧ w'.wait = w.wait ∧ w'.ub = w.ub ∧ w'.nev = w.nev ∧ w'.signalled = w.signalled ∧
      w'.bars = w.bars ++ [w.ncmd] ∧ w'.pend = w.pend ∧ w'.nfut = w.nfut ∧ w'.futureOf = w.futureOf ∧ w'.time = w.time ∧
      w'.compute = w.compute ∧ w'.copy = w.copy ∧ w'.index = w.index := by
    subst hw'; exact ⟨rfl, rfl, rfl, rfl, rfl, rfl, rfl, rfl, rfl, rfl, rfl, rfl, rfl, rfl, rfl, rfl, rfl, rfl⟩
  obtain ⟨e1, e2, e3, e4, e5, e6, e7, e8, e9, e10, e11, e12, e13, e14, e15, e16, e17, e18⟩ := e1
  have e20 : ∀ r, (w'.lists r).cmds = (w.lists r).cmds ∧ (w'.lists r).count = (w.lists r).count ∧
      (w'.lists r).submitted = (w.lists r).submitted ∧ (w'.lists r).events = (w.lists r).events ∧
      (r ≠ .compute → (w'.lists r).fence = (w.lists r).fence) := by
    intro r; subst hw'
    by_cases hr : r = .compute
    · subst hr; simp [barrier, upd_same]
    · simp [barrier, upd_ne _ _ hr]
  have e21 : (w'.lists .compute).fence = (w.lists .compute).cmds := by subst hw'; simp [barrier, upd_same]
  have hcur : ∀ i, Cur w' i ↔ Cur w i := by intro i; unfold Cur; rw [e1, e2, e6]
  have hcurs : ∀ p, curs w' p = curs w p := by intro p; unfold curs; rw [e1, e2, e6]
  clear hw'
  constructor
  · constructor
    · rw [e8]; exact h.noub
    · rw [e1, e2, e6]; exact h.batchLe
    · rw [e1, e2]; exact h.mono
    · rw [e1, e2, e3, e6]; exact h.old
    · rw [e2, e3, e4]; exact h.runs
    · intro i hi; rw [e1]; exact h.role i ((hcur i).1 hi)
    · intro r i; rw [(e20 r).1, e1, hcur]; exact h.mem r i
    · intro r; rw [(e20 r).1, (e20 r).2.1]; exact h.count r
    · intro r i hi
      rw [(e20 r).1]
      by_cases hr : r = .compute
      · subst hr; rw [e21] at hi; exact hi
      · rw [(e20 r).2.2.2.2 hr] at hi; exact h.fence r i hi
    · intro b hb i hi hib; rw [e21]; rw [(e20 _).1] at hi; exact hi
    · intro b hb
      rw [e11] at hb; rw [e2]
      rcases List.mem_append.1 hb with hb | hb
      · exact h.bars b hb
      · rw [List.mem_singleton] at hb; omega
    · intro j hj i hi; rw [e1] at hi ⊢; rw [hcur] at hj ⊢; exact h.after j hj i hi
    · intro j hj b hb hbj i hib hi
      rw [e11] at hb; rw [e1]; rw [hcur] at hj hi
      rcases List.mem_append.1 hb with hb | hb
      · exact h.afterBar j hj b hb hbj i hib hi
      · rw [List.mem_singleton] at hb
        have := hj.1; omega
    · intro _ i hi; rw [e3]; exact h.opn hw i ((hcur i).1 hi)
    · intro hn; rw [e7] at hn; exact absurd hw hn
    · intro _ r; rw [(e20 r).2.2.1]; exact h.submitted hw r
    · intro i e hi he
      rw [hcur] at hi; rw [e1] at he; rw [e3, e5, e9, e10]
      exact h.sig i e hi he
    · intro i hi; rw [e1]; exact h.sigKind i ((hcur i).1 hi)
    · intro i j e hi hj; rw [e1]; rw [hcur] at hi hj; exact h.inj i j e hi hj
    · intro j hj e he
      rw [e1] at he ⊢
      obtain ⟨i, a, b, d⟩ := h.waits j ((hcur j).1 hj) e he
      exact ⟨i, a, (hcur i).2 b, d⟩
    · intro i j hi hj; rw [e1]; rw [hcur] at hi hj; exact h.waitsL i j hi hj
    · intro i j hi hj; rw [e1]; rw [hcur] at hi hj; exact h.waitsH i j hi hj
    · intro j hj hst
      rw [hcur] at hj
      rw [e3, h.opn hw j hj] at hst
      simp at hst
  · constructor
    · rw [(e20 _).2.2.2.1, hcurs, e1]; exact hE.events
    · rw [e12, hcurs, e1]; exact hE.pend
    · intro e f; rw [e12, e13, e14, e1, hcur]; exact hE.pendF e f
    · intro f; rw [e13, e14, e2, e1, hcur, e15, e12]; exact hE.fut f
    · rw [e13, e14]; exact hE.futInj
    · rw [e16, e12, e18]; exact hE.pool
    · rw [e17, e18]; exact hE.cpool
    · rw [e17, e9]; exact hE.copyLt
    · rw [e17]; exact hE.copyNodup
    · intro i e hi; rw [e1, e17]; exact hE.copySig i e ((hcur i).1 hi)
    · intro e; rw [e17, e10, (e20 _).2.2.2.1]; exact hE.copyFree e
    · exact hE.onodup
    · rw [e17]; exact hE.osub
    · intro e he; rw [e10, e1]; exact ⟨(hE.orphan e he).1, fun i hi => (hE.orphan e he).2 i ((hcur i).1 hi)⟩
    · intro q hq; rw [e7, hw] at hq; cases hq

/-! ## The call of `sync` -/

/-- `w'` is `w` after the lists in `S` have been submitted. -/
structure Subm (w w' : World) (S : Role → Prop) : Prop where
  same : w'.cmd = w.cmd ∧ w'.ncmd = w.ncmd ∧ w'.runs = w.runs ∧ w'.stamp = w.stamp ∧
      w'.batch = w.batch ∧ w'.wait = w.wait ∧ w'.ub = w.ub ∧ w'.nev = w.nev ∧ w'.signalled = w.signalled ∧
      w'.bars = w.bars ∧ w'.pend = w.pend ∧ w'.nfut = w.nfut ∧ w'.futureOf = w.futureOf ∧ w'.time = w.time ∧
      w'.compute = w.compute ∧ w'.copy = w.copy ∧ w'.index = w.index
  lists : ∀ r, (w'.lists r).cmds = (w.lists r).cmds ∧ (w'.lists r).count = (w.lists r).count ∧
      (w'.lists r).fence = (w.lists r).fence ∧ (w'.lists r).events = (w.lists r).events
  sub : ∀ r, (w'.lists r).submitted = true → S r
  sub2 : ∀ r, S r → (w.lists r).cmds = [] ∨ (w'.lists r).submitted = true
  st : ∀ i, ((∃ r, S r ∧ i ∈ (w.lists r).cmds) → w'.st i = .queued) ∧
    ((¬ ∃ r, S r ∧ i ∈ (w.lists r).cmds) → w'.st i = w.st i)

theorem Subm.submit {c : Cfg} {w w' : World} {S : Role → Prop} (hcount : ∀ r, (w.lists r).count = (w.lists r).cmds.length)
    (hone : ∀ r s i, i ∈ (w.lists r).cmds → i ∈ (w.lists s).cmds → r = s)
    (hst : ∀ r, ∀ i ∈ (w.lists r).cmds, w.st i = .listed) (h : Subm w w' S) (r : Role) : Subm w (w'.submit c r) (fun x => S x ∨ x = c.mode.listOf r) := by
  unfold World.submit
  simp only
  by_cases hc : (!(w'.lists (c.mode.listOf r)).submitted && decide ((w'.lists (c.mode.listOf r)).count > 0)) = true
  · rw [if_pos hc]
    have hany : ((w'.lists (c.mode.listOf r)).cmds.any fun i => w'.st i != .listed) = false := by
      rw [List.any_eq_false]
      intro i hi
      rw [(h.lists _).1] at hi
      have hn : ¬ ∃ x, S x ∧ i ∈ (w.lists x).cmds := by
        rintro ⟨x, hx, hm⟩
        obtain rfl := hone _ _ _ hm hi
        rcases h.sub2 _ hx with h0 | h0
        · rw [h0] at hm; cases hm
        · rw [h0] at hc; cases hc
      rw [(h.st i).2 hn, hst _ i hi]
      simp
    constructor
    · obtain ⟨a1, a2, a3, a4, a5, a6, a7, a8⟩ := h.same
      refine ⟨a1, a2, a3, a4, a5, a6, ?_, a8⟩
      simp only
      rw [hany, Bool.or_false, a7]
    · intro x
      by_cases hx : x = c.mode.listOf r
      · subst hx; simp only [upd_same]; exact h.lists _
      · simp only [upd_ne _ _ hx]; exact h.lists x
    · intro x hs
      by_cases hx : x = c.mode.listOf r
      · exact Or.inr hx
      · simp only [upd_ne _ _ hx] at hs; exact Or.inl (h.sub x hs)
    · intro x hs
      by_cases hx : x = c.mode.listOf r
      · subst hx; simp only [upd_same]; exact Or.inr trivial
      · simp only [upd_ne _ _ hx]; exact h.sub2 x (hs.resolve_right hx)
    · intro i
      simp only [(h.lists _).1]
      by_cases hi : i ∈ (w.lists (c.mode.listOf r)).cmds
      · simp only [hi, if_true]
        exact ⟨fun _ => trivial, fun hn => absurd ⟨_, Or.inr rfl, hi⟩ hn⟩
      · simp only [hi, if_false]
        constructor
        · rintro ⟨x, hx | rfl, hm⟩
          · exact (h.st i).1 ⟨x, hx, hm⟩
          · exact absurd hm hi
        · intro hn
          exact (h.st i).2 (fun ⟨x, hx, hm⟩ => hn ⟨x, Or.inl hx, hm⟩)
  · rw [if_neg hc]
    have hall : ∀ i, (∃ x, (S x ∨ x = c.mode.listOf r) ∧ i ∈ (w.lists x).cmds) ↔ ∃ x, S x ∧ i ∈ (w.lists x).cmds := by
      intro i
      constructor
      · rintro ⟨x, hx | rfl, hm⟩
        · exact ⟨x, hx, hm⟩
        · refine ⟨_, ?_, hm⟩
          apply h.sub
          by_contra hs
          apply hc
          have hpos := List.length_pos_of_mem hm
          rw [← hcount, ← (h.lists _).2.1] at hpos
          simp only [Bool.not_eq_true] at hs
          simp [hs, hpos]
      · rintro ⟨x, hx, hm⟩; exact ⟨x, Or.inl hx, hm⟩
    refine ⟨h.same, h.lists, fun x hs => Or.inl (h.sub x hs), ?_, fun i => by rw [hall]; exact h.st i⟩
    rintro x (hx | rfl)
    · exact h.sub2 x hx
    · rw [Bool.and_eq_true, not_and_or] at hc
      rcases hc with hc | hc
      · right; simpa using hc
      · left
        rw [(h.lists _).2.1, hcount] at hc
        simpa using hc

theorem syncBegin_inv {c : Cfg} {w : World} {O : List Nat} (h : InvC c w) (hE : InvE c w O) (hw : w.wait = none) :
    InvC c (syncBegin c w) ∧ InvE c (syncBegin c w) O ∧ (syncBegin c w).wait ≠ none ∧
      (∀ i, Cur w i → (syncBegin c w).st i = .queued) ∧ (∀ i, ¬ Cur w i → (syncBegin c w).st i = w.st i) ∧
      (syncBegin c w).cmd = w.cmd ∧ (syncBegin c w).ncmd = w.ncmd ∧ (syncBegin c w).batch = w.batch ∧
      (∀ r, ((syncBegin c w).lists r).cmds = (w.lists r).cmds) ∧ (syncBegin c w).nfut = w.nfut ∧
      (syncBegin c w).futureOf = w.futureOf ∧ (syncBegin c w).bars = w.bars := by
  have h0 : Subm w w (fun _ => False) :=
    ⟨⟨rfl, rfl, rfl, rfl, rfl, rfl, rfl, rfl, rfl, rfl, rfl, rfl, rfl, rfl, rfl, rfl, rfl⟩,
      fun _ => ⟨rfl, rfl, rfl, rfl⟩, fun r hs => (by rw [h.submitted hw r] at hs; cases hs), fun _ hx => hx.elim,
      fun i => ⟨fun ⟨_, hx, _⟩ => hx.elim, fun _ => rfl⟩⟩
  have hone : ∀ r s i, i ∈ (w.lists r).cmds → i ∈ (w.lists s).cmds → r = s := fun r s i h1 h2 =>
    ((h.mem r i).1 h1).2.symm.trans ((h.mem s i).1 h2).2
  have hli : ∀ r, ∀ i ∈ (w.lists r).cmds, w.st i = .listed := fun r i hi => h.opn hw i ((h.mem r i).1 hi).1
  have h3 := ((h0.submit (c := c) h.count hone hli .h2d).submit (c := c) h.count hone hli .compute).submit (c := c)
    h.count hone hli .d2h
  unfold syncBegin
  simp only
  generalize ((w.submit c .h2d).submit c .compute).submit c .d2h = w3 at h3
  have hS : ∀ i, (∃ r, (((False ∨ r = c.mode.listOf .h2d) ∨ r = c.mode.listOf .compute) ∨ r = c.mode.listOf .d2h) ∧
      i ∈ (w.lists r).cmds) ↔ Cur w i := by
    intro i
    constructor
    · rintro ⟨r, _, hm⟩; exact ((h.mem r i).1 hm).1
    · intro hi
      refine ⟨(w.cmd i).list, ?_, (h.mem _ i).2 ⟨hi, rfl⟩⟩
      rw [(h.role i hi).1]
      cases (w.cmd i).kind <;> simp [Kind.role]
  obtain ⟨⟨e1, e2, e3, e4, e5, e6, e7, e8, e9, e10, e11, e12, e13, e14, e15, e16, e17⟩, hl, _, _, hst⟩ := h3
  have hst1 : ∀ i, Cur w i → w3.st i = .queued := fun i hi => (hst i).1 ((hS i).2 hi)
  have hst2 : ∀ i, ¬ Cur w i → w3.st i = w.st i := fun i hi => (hst i).2 (fun hx => hi ((hS i).1 hx))
  have hcur : ∀ x, Cur { w3 with wait := x } = Cur w := by
    intro x; funext i; unfold Cur; simp only [e1, e2, e5]
  have hcurs : ∀ x p, curs { w3 with wait := x } p = curs w p := by
    intro x p; unfold curs; simp only [e1, e2, e5]
  generalize hx : some (World.waitFor c w3) = x
  have hxx : x ≠ none := by rw [← hx]; simp
  refine ⟨?_, ?_, hxx, hst1, hst2, e1, e2, e5, fun r => (hl r).1, e12, e13, e10⟩
  · constructor
    · exact e7.trans h.noub
    · simp only [e1, e2, e5]; exact h.batchLe
    · simp only [e1, e2]; exact h.mono
    · simp only [e1, e2, e5]
      intro i hi hb
      rw [hst2 i (fun hc => by have := hc.2; omega)]
      exact h.old i hi hb
    · simp only [e2, e3]
      intro i hi
      rw [h.runs i hi]
      by_cases hc : Cur w i
      · rw [hst1 i hc, h.opn hw i hc]; simp
      · rw [hst2 i hc]
    · rw [hcur]; simp only [e1]; exact h.role
    · rw [hcur]; simp only [e1]; intro r i; rw [(hl r).1]; exact h.mem r i
    · intro r; simp only; rw [(hl r).1, (hl r).2.1]; exact h.count r
    · intro r i; simp only; rw [(hl r).1, (hl r).2.2.1]; exact h.fence r i
    · simp only [e10]; rw [(hl _).1, (hl _).2.2.1]; exact h.fenceBar
    · simp only [e10, e2]; exact h.bars
    · rw [hcur]; simp only [e1]; exact h.after
    · rw [hcur]; simp only [e1, e10]; exact h.afterBar
    · intro hn; exact absurd hn hxx
    · rw [hcur]; intro _ i hi
      simp only
      rw [hst1 i hi]; simp
    · intro hn; exact absurd hn hxx
    · rw [hcur]; simp only [e1, e9, e4, e8]
      intro i e hi he
      rw [hst1 i hi]
      obtain ⟨a, b, _⟩ := h.sig i e hi he
      rw [h.opn hw i hi] at a
      refine ⟨⟨fun hs => ?_, fun hs => (by cases hs)⟩, b, fun hs => (by cases hs)⟩
      have := a.1 hs
      cases this
    · rw [hcur]; simp only [e1]; exact h.sigKind
    · rw [hcur]; simp only [e1]; exact h.inj
    · rw [hcur]; simp only [e1]; exact h.waits
    · rw [hcur]; simp only [e1]; exact h.waitsL
    · rw [hcur]; simp only [e1]; exact h.waitsH
    · rw [hcur]; intro j hj hs
      simp only at hs
      rw [hst1 j hj] at hs
      simp at hs
  · constructor
    · rw [hcurs]; simp only [(hl _).2.2.2, e1]; exact hE.events
    · rw [hcurs]; simp only [e11, e1]; exact hE.pend
    · rw [hcur]; simp only [e11, e12, e13, e1]; exact hE.pendF
    · rw [hcur]; simp only [e12, e13, e2, e1, e14, e11]; exact hE.fut
    · simp only [e12, e13]; exact hE.futInj
    · simp only [e15, e11, e17]; exact hE.pool
    · simp only [e16, e17]; exact hE.cpool
    · simp only [e16, e8]; exact hE.copyLt
    · simp only [e16]; exact hE.copyNodup
    · rw [hcur]; simp only [e1, e16]; exact hE.copySig
    · simp only [e16, e9, (hl _).2.2.2]; exact hE.copyFree
    · exact hE.onodup
    · simp only [e16]; exact hE.osub
    · rw [hcur]; simp only [e9, e1]; exact hE.orphan
    · intro q hq
      have hq' : x = some q := hq
      rw [← hx] at hq'
      cases hq'
      rfl

/-! ## Commands start and end -/

theorem start_inv {c : Cfg} {w : World} {O : List Nat} (h : InvC c w) (hE : InvE c w O) {i : Nat}
    (hs : w.canStart i = true) : Cur w i ∧ w.wait ≠ none ∧ InvC c (w.start i) ∧ InvE c (w.start i) O := by
  unfold World.canStart at hs
  simp only [Bool.and_eq_true, decide_eq_true_eq, List.all_eq_true] at hs
  obtain ⟨⟨⟨hi, hq⟩, hwt⟩, hat⟩ := hs
  have hcur : Cur w i := by
    refine ⟨hi, ?_⟩
    by_contra hb
    have := h.old i hi (by have := h.batchLe i hi; omega)
    rw [hq] at this; cases this
  have hwn : w.wait ≠ none := by
    intro hw
    have := h.opn hw i hcur
    rw [hq] at this; cases this
  refine ⟨hcur, hwn, ?_, { hE with }⟩
  have hne : ∀ j, j ≠ i → (w.start i).st j = w.st j ∧ (w.start i).runs j = w.runs j :=
    fun j hj => ⟨upd_ne _ _ hj, upd_ne _ _ hj⟩
  have hsm : (w.start i).st i = .running ∧ (w.start i).runs i = w.runs i + 1 := ⟨upd_same _ _ _, upd_same _ _ _⟩
  refine { h with old := ?_, runs := ?_, opn := ?_, sub := ?_, sig := ?_, started := ?_ }
  · intro j hj hb
    have : j ≠ i := by rintro rfl; have := hcur.2; have hb' : (w.cmd j).batch < w.batch := hb; omega
    rw [(hne j this).1]; exact h.old j hj hb
  · intro j hj
    by_cases hji : j = i
    · subst hji; rw [hsm.1, hsm.2, h.runs j hi, hq]; simp
    · rw [(hne j hji).1, (hne j hji).2]; exact h.runs j hj
  · intro hn; exact absurd hn hwn
  · intro _ j hj
    by_cases hji : j = i
    · subst hji; rw [hsm.1]; simp
    · rw [(hne j hji).1]; exact h.sub hwn j hj
  · intro j e hj he
    by_cases hji : j = i
    · subst hji
      rw [hsm.1]
      obtain ⟨a, b, _⟩ := h.sig j e hj he
      rw [hq] at a
      exact ⟨⟨fun hx => (by have := a.1 hx; cases this), fun hx => (by cases hx)⟩, b, fun hx => (by cases hx)⟩
    · rw [(hne j hji).1]; exact h.sig j e hj he
  · intro j hj hst
    have hdone : ∀ k ∈ (w.cmd j).after, w.st k = .done → (w.start i).st k = .done := by
      intro k hk hd
      have : k ≠ i := by rintro rfl; rw [hq] at hd; cases hd
      rw [(hne k this).1]; exact hd
    by_cases hji : j = i
    · subst hji; exact ⟨hwt, fun k hk => hdone k hk (hat k hk)⟩
    · rw [(hne j hji).1] at hst
      obtain ⟨a, b⟩ := h.started j hj hst
      exact ⟨a, fun k hk => hdone k hk (b k hk)⟩

theorem finish_inv {c : Cfg} {w : World} {O : List Nat} (h : InvC c w) (hE : InvE c w O) {i : Nat}
    (hi : i < w.ncmd) (hq : w.st i = .running) :
    Cur w i ∧ w.wait ≠ none ∧ InvC c (w.finish c i) ∧ InvE c (w.finish c i) O := by
  have hcur : Cur w i := by
    refine ⟨hi, ?_⟩
    by_contra hb
    have := h.old i hi (by have := h.batchLe i hi; omega)
    rw [hq] at this; cases this
  have hwn : w.wait ≠ none := by
    intro hw
    have := h.opn hw i hcur
    rw [hq] at this; cases this
  refine ⟨hcur, hwn, ?_⟩
  generalize hw' : w.finish c i = w'
  have e1 : w'.cmd = w.cmd ∧ w'.ncmd = w.ncmd ∧ w'.runs = w.runs ∧
      w'.batch = w.batch ∧ w'.wait = w.wait ∧ w'.ub = w.ub ∧ w'.nev = w.nev ∧ w'.lists = w.lists ∧
      w'.bars = w.bars ∧ w'.pend = w.pend ∧ w'.nfut = w.nfut ∧ w'.futureOf = w.futureOf ∧ w'.time = w.time ∧
      w'.compute = w.compute ∧ w'.copy = w.copy ∧ w'.index = w.index ∧ w'.st = upd w.st i .done := by
    subst hw'
    unfold World.finish
    split <;> exact ⟨rfl, rfl, rfl, rfl, rfl, rfl, rfl, rfl, rfl, rfl, rfl, rfl, rfl, rfl, rfl, rfl, rfl⟩
  have hsg : ∀ e, (w.cmd i).signal ≠ some e → w'.signalled e = w.signalled e ∧ w'.stamp e = w.stamp e := by
    intro e he
    subst hw'
    unfold World.finish
    split
    · exact ⟨rfl, rfl⟩
    · rename_i x hx
      have hex : e ≠ x := by rintro rfl; exact he hx
      exact ⟨upd_ne _ _ hex, upd_ne _ _ hex⟩
  have hsi : ∀ e, (w.cmd i).signal = some e → w'.signalled e = true ∧
      w'.stamp e = ((c.ticks i).1 % 2 ^ c.bits, (c.ticks i).2 % 2 ^ c.bits) := by
    intro e he
    subst hw'
    unfold World.finish
    rw [he]
    exact ⟨upd_same _ _ _, upd_same _ _ _⟩
  have hmono : ∀ e, w.signalled e = true → w'.signalled e = true := by
    intro e he
    by_cases hx : (w.cmd i).signal = some e
    · exact (hsi e hx).1
    · rw [(hsg e hx).1]; exact he
  clear hw'
  obtain ⟨e1, e2, e3, e4, e5, e6, e7, e8, e9, e10, e11, e12, e13, e14, e15, e16, e17⟩ := e1
  have hC : ∀ j, Cur w' j ↔ Cur w j := by intro j; unfold Cur; rw [e1, e2, e4]
  have hcurs : ∀ p, curs w' p = curs w p := by intro p; unfold curs; rw [e1, e2, e4]
  have hne : ∀ j, j ≠ i → w'.st j = w.st j := by intro j hj; rw [e17]; exact upd_ne _ _ hj
  have hsm : w'.st i = .done := by rw [e17]; exact upd_same _ _ _
  constructor
  · constructor
    · rw [e6]; exact h.noub
    · rw [e1, e2, e4]; exact h.batchLe
    · rw [e1, e2]; exact h.mono
    · rw [e1, e2, e4]
      intro j hj hb
      have : j ≠ i := by rintro rfl; have := hcur.2; omega
      rw [hne j this]; exact h.old j hj hb
    · rw [e2, e3]
      intro j hj
      by_cases hji : j = i
      · subst hji; rw [hsm, h.runs j hi, hq]; simp
      · rw [hne j hji]; exact h.runs j hj
    · intro j hj; rw [e1]; exact h.role j ((hC j).1 hj)
    · intro r j; rw [e8, hC, e1]; exact h.mem r j
    · rw [e8]; exact h.count
    · rw [e8]; exact h.fence
    · rw [e8, e9]; exact h.fenceBar
    · rw [e9, e2]; exact h.bars
    · intro j hj k hk; rw [e1] at hk ⊢; rw [hC] at hj ⊢; exact h.after j hj k hk
    · intro j hj b hb hbj k hkb hk; rw [e9] at hb; rw [e1]; rw [hC] at hj hk; exact h.afterBar j hj b hb hbj k hkb hk
    · intro hn; rw [e5] at hn; exact absurd hn hwn
    · intro _ j hj
      by_cases hji : j = i
      · subst hji; rw [hsm]; simp
      · rw [hne j hji]; exact h.sub hwn j ((hC j).1 hj)
    · intro hn; rw [e5] at hn; exact absurd hn hwn
    · intro j e hj he
      rw [hC] at hj; rw [e1] at he; rw [e7]
      by_cases hji : j = i
      · subst hji
        obtain ⟨a, b⟩ := hsi e he
        exact ⟨⟨fun _ => hsm, fun _ => a⟩, (h.sig j e hj he).2.1, fun _ => b⟩
      · have hx : (w.cmd i).signal ≠ some e := fun hx => hji (h.inj j i e hj hcur he hx)
        rw [hne j hji, (hsg e hx).1, (hsg e hx).2]
        exact h.sig j e hj he
    · intro j hj; rw [e1]; exact h.sigKind j ((hC j).1 hj)
    · intro j k e hj hk; rw [e1]; rw [hC] at hj hk; exact h.inj j k e hj hk
    · intro j hj e he
      rw [e1] at he ⊢
      obtain ⟨k, a, b, d⟩ := h.waits j ((hC j).1 hj) e he
      exact ⟨k, a, (hC k).2 b, d⟩
    · intro j k hj hk; rw [e1]; rw [hC] at hj hk; exact h.waitsL j k hj hk
    · intro j k hj hk; rw [e1]; rw [hC] at hj hk; exact h.waitsH j k hj hk
    · intro j hj hst
      rw [hC] at hj; rw [e1]
      have hst' : w.st j = .running ∨ w.st j = .done := by
        by_cases hji : j = i
        · subst hji; exact Or.inl hq
        · rw [hne j hji] at hst; exact hst
      obtain ⟨a, b⟩ := h.started j hj hst'
      refine ⟨fun e he => hmono e (a e he), ?_⟩
      intro k hk
      by_cases hki : k = i
      · subst hki; exact hsm
      · rw [hne k hki]; exact b k hk
  · constructor
    · rw [e8, hcurs, e1]; exact hE.events
    · rw [e10, hcurs, e1]; exact hE.pend
    · intro e f; rw [e10, e11, e12, e1, hC]; exact hE.pendF e f
    · intro f; rw [e11, e12, e2, e1, hC, e13, e10]; exact hE.fut f
    · rw [e11, e12]; exact hE.futInj
    · rw [e14, e10, e16]; exact hE.pool
    · rw [e15, e16]; exact hE.cpool
    · rw [e15, e7]; exact hE.copyLt
    · rw [e15]; exact hE.copyNodup
    · intro j e hj; rw [e1, e15]; exact hE.copySig j e ((hC j).1 hj)
    · intro e he hs
      rw [e15] at he; rw [e8]
      refine hE.copyFree e he ?_
      by_contra hx
      rw [hmono e (by simpa using hx)] at hs; cases hs
    · exact hE.onodup
    · rw [e15]; exact hE.osub
    · intro e he
      obtain ⟨a, b⟩ := hE.orphan e he
      rw [(hsg e (b i hcur)).1, e1]
      exact ⟨a, fun j hj => b j ((hC j).1 hj)⟩
    · intro q hq'
      rw [e5] at hq'
      have := hE.waitq q hq'
      rw [this]
      unfold World.waitFor World.any
      rw [e8, e10]

/-! ## The return of `sync` -/

theorem finishAll_spec (c : Cfg) : ∀ (l : List (Nat × Nat)) (w : World),
    (w.finishAll c l).cmd = w.cmd ∧ (w.finishAll c l).ncmd = w.ncmd ∧ (w.finishAll c l).st = w.st ∧
    (w.finishAll c l).runs = w.runs ∧ (w.finishAll c l).signalled = w.signalled ∧
    (w.finishAll c l).stamp = w.stamp ∧ (w.finishAll c l).index = w.index ∧ (w.finishAll c l).nev = w.nev ∧
    (w.finishAll c l).lists = w.lists ∧ (w.finishAll c l).copy = w.copy ∧
    (w.finishAll c l).futureOf = w.futureOf ∧ (w.finishAll c l).nfut = w.nfut ∧ (w.finishAll c l).batch = w.batch ∧
    (w.finishAll c l).bars = w.bars ∧ (w.finishAll c l).ub = w.ub ∧
    (w.finishAll c l).compute.free = w.compute.free ++ (l.map fun p => w.index p.1) ∧
    (∀ f, (∀ e, (e, f) ∉ l) → (w.finishAll c l).time f = w.time f) ∧
    (∀ f e, (e, f) ∈ l → (∀ e', (e', f) ∈ l → e' = e) →
      (w.finishAll c l).time f = some (elapsed c.bits c.res (w.stamp e).1 (w.stamp e).2)) := by
  intro l
  induction l with
  | nil => intro w; simp [World.finishAll]
  | cons a l ih =>
    obtain ⟨e, f⟩ := a
    intro w
    unfold World.finishAll
    obtain ⟨h1, h2, h3, h4, h5, h6, h7, h8, h9, h10, h11, h12, h13, h14, h15, h16, h17, h18⟩ := ih
      { w with time := upd w.time f (some (elapsed c.bits c.res (w.stamp e).1 (w.stamp e).2))
               compute := w.delete w.compute e }
    refine ⟨h1, h2, h3, h4, h5, h6, h7, h8, h9, h10, h11, h12, h13, h14, h15, ?_, ?_, ?_⟩
    · rw [h16]; simp [World.delete]
    · intro g hg
      rw [h17 g (fun e' he' => hg e' (List.mem_cons_of_mem _ he'))]
      exact upd_ne _ _ (by rintro rfl; exact hg e List.mem_cons_self)
    · intro g e' hm hu
      by_cases hin : (e', g) ∈ l
      · exact h18 g e' hin (fun x hx => hu x (List.mem_cons_of_mem _ hx))
      · have hno : ∀ x, (x, g) ∉ l := by
          intro x hx
          have := hu x (List.mem_cons_of_mem _ hx)
          subst this; exact hin hx
        rw [h17 g hno]
        rcases List.mem_cons.1 hm with hm | hm
        · cases hm; exact upd_same _ _ _
        · exact absurd hm hin

theorem reset_spec {l : CL} (h1 : l.count = l.cmds.length) (h2 : ∀ i ∈ l.fence, i ∈ l.cmds) : l.reset = CL.empty := by
  unfold CL.reset
  split_ifs with h
  · rfl
  · have hz : l.cmds = [] := List.length_eq_zero_iff.1 (by omega)
    have hf : l.fence = [] := by
      rcases hf : l.fence with _ | ⟨a, t⟩
      · rfl
      · have := h2 a (by rw [hf]; exact List.mem_cons_self)
        rw [hz] at this; cases this
    obtain ⟨a, b, _, _, _⟩ := l
    simp only at hz hf
    subst hz; subst hf
    rfl

theorem idle_iff {c : Cfg} {w : World} (h : InvC c w) : w.idle = true ↔ ∀ i, Cur w i → w.st i = .done := by
  unfold World.idle
  simp only [List.all_eq_true, List.mem_cons, List.not_mem_nil, or_false, beq_iff_eq]
  constructor
  · intro hh i hi
    exact hh (w.cmd i).list (by cases (w.cmd i).list <;> simp) i ((h.mem _ i).2 ⟨hi, rfl⟩)
  · intro hh r _ i hi
    exact hh i ((h.mem r i).1 hi).1

theorem syncEnd_inv {c : Cfg} {w : World} {O : List Nat} (h : InvC c w) (hE : InvE c w O) (hub : (syncEnd c w).ub = false) :
    InvC c (syncEnd c w) ∧ InvE c (syncEnd c w) O ∧ (∀ i, Cur w i → w.st i = .done) ∧ (syncEnd c w).wait = none ∧
      (syncEnd c w).pend = [] ∧ (syncEnd c w).batch = w.batch + 1 ∧ (syncEnd c w).cmd = w.cmd ∧
      (syncEnd c w).ncmd = w.ncmd ∧ (syncEnd c w).st = w.st ∧ (syncEnd c w).nfut = w.nfut ∧
      (syncEnd c w).futureOf = w.futureOf ∧ (syncEnd c w).bars = w.bars := by
  unfold syncEnd at *
  by_cases hid : w.idle = true
  swap
  · simp [hid] at hub
  simp only [hid, Bool.not_true, Bool.false_eq_true, if_false] at hub ⊢
  have hdone := (idle_iff h).1 hid
  have hrs : (fun r => (w.lists r).reset) = fun _ => CL.empty := by
    funext r; exact reset_spec (h.count r) (h.fence r)
  rw [hrs]
  obtain ⟨h1, h2, h3, h4, h5, h6, h7, h8, h9, h10, h11, h12, h13, h14, h15, h16, h17, h18⟩ :=
    finishAll_spec c w.pend { w with lists := fun _ => CL.empty }
  generalize World.finishAll c { w with lists := fun _ => CL.empty } w.pend = w1 at *
  simp only at h1 h2 h3 h4 h5 h6 h7 h8 h9 h10 h11 h12 h13 h14 h15 h16 h17 h18
  have hno : ∀ i, ¬ Cur { w1 with pend := [], batch := w1.batch + 1, wait := none } i := by
    rintro i ⟨a, b⟩
    simp only [h2] at a
    simp only [h1, h13] at b
    have := h.batchLe i a
    omega
  have hcurs : ∀ p, curs { w1 with pend := [], batch := w1.batch + 1, wait := none } p = [] := by
    intro p
    rw [List.eq_nil_iff_forall_not_mem]
    intro i hi
    exact hno i (curs_mem.1 hi).1
  refine ⟨?_, ?_, hdone, by first | rfl | trivial, by first | rfl | trivial, by simp only [h13], h1, h2, h3, h12, h11, h14⟩
  · constructor
    · exact h15.trans h.noub
    · simp only [h1, h2, h13]; intro i hi; have := h.batchLe i hi; omega
    · simp only [h1, h2]; exact h.mono
    · simp only [h1, h2, h3, h13]
      intro i hi hb
      by_cases hc : Cur w i
      · exact hdone i hc
      · refine h.old i hi ?_
        have := h.batchLe i hi
        have : (w.cmd i).batch ≠ w.batch := fun hx => hc ⟨hi, hx⟩
        omega
    · simp only [h2, h3, h4]; exact h.runs
    · intro i hi; exact absurd hi (hno i)
    · intro r i
      simp only [h9, CL.empty]
      exact ⟨fun hx => by simp at hx, fun hx => absurd hx.1 (hno i)⟩
    · intro r; simp only [h9, CL.empty, List.length_nil]
    · intro r i; simp [h9, CL.empty]
    · intro b _ i; simp [h9, CL.empty]
    · simp only [h14, h2]; exact h.bars
    · intro i hi; exact absurd hi (hno i)
    · intro i hi; exact absurd hi (hno i)
    · intro _ i hi; exact absurd hi (hno i)
    · intro hn; simp at hn
    · intro _ r; simp [h9, CL.empty]
    · intro i _ hi; exact absurd hi (hno i)
    · intro i hi; exact absurd hi (hno i)
    · intro i _ _ hi; exact absurd hi (hno i)
    · intro i hi; exact absurd hi (hno i)
    · intro i _ hi; exact absurd hi (hno i)
    · intro i _ hi; exact absurd hi (hno i)
    · intro i hi; exact absurd hi (hno i)
  · constructor
    · rw [hcurs]; simp [h9, CL.empty]
    · rw [hcurs]; rfl
    · intro e f hx; simp at hx
    · simp only [h12, h11, h2, h1]
      intro f hf
      obtain ⟨a, b, d, g⟩ := hE.fut f hf
      refine ⟨a, b, ?_, fun _ => ?_⟩
      · rintro ⟨q1, q2⟩
        simp only [h13] at q2
        have := h.batchLe _ a
        omega
      by_cases hc : Cur w (w.futureOf f)
      · obtain ⟨_, e, he⟩ := d hc
        obtain ⟨_, q1, q2⟩ := hE.pendF e f he
        rw [h18 f e he (fun e' he' => by
          have := (hE.pendF e' f he').2.1
          rw [q1] at this; cases this; rfl)]
        rw [(h.sig _ e q2 q1).2.2 (hdone _ q2)]
      · rw [h17 f (fun e he => hc (hE.pendF e f he).2.2)]
        exact g hc
    · simp only [h12, h11]; exact hE.futInj
    · simp only [h16, List.map_nil, List.append_nil]; exact hE.pool
    · simp only [h10, h7]; exact hE.cpool
    · simp only [h10, h8]; exact hE.copyLt
    · simp only [h10]; exact hE.copyNodup
    · intro i _ hi; exact absurd hi (hno i)
    · simp only [h10, h5]
      intro e he hs
      right
      rcases hE.copyFree e he hs with hx | hx
      · rw [hE.events, List.mem_filterMap] at hx
        obtain ⟨i, hi, hsi⟩ := hx
        have hci := (curs_mem.1 hi).1
        have := (h.sig i e hci hsi).1.2 (hdone i hci)
        rw [hs] at this; cases this
      · exact hx
    · exact hE.onodup
    · simp only [h10]; exact hE.osub
    · simp only [h5]
      intro e he
      exact ⟨(hE.orphan e he).1, fun i hi => absurd hi (hno i)⟩
    · intro q hq; simp at hq

/-! ## Histories -/

/-- The number of copies to the device that Level Zero refused. -/
def failed : List Act → Nat
  | [] => 0
  | .toDevice false :: as => failed as + 1
  | _ :: as => failed as

/-- What holds of a task queue, with at most `n` events lost. -/
def Inv (c : Cfg) (w : World) (n : Nat) : Prop := ∃ O, InvC c w ∧ InvE c w O ∧ O.length ≤ n

theorem step_inv {c : Cfg} {w w' : World} {n : Nat} {a : Act} {r : Res} (h : Inv c w n) (hs : step c w a = some (w', r))
    (hub : a = .syncReturns → w'.ub = false) : Inv c w' (n + if a = .toDevice false then 1 else 0) := by
  obtain ⟨O, hC, hE, hn⟩ := h
  unfold step at hs
  rw [hC.noub] at hs
  simp only [Bool.false_eq_true, if_false] at hs
  have hwn : w.wait.isSome ≠ true → w.wait = none := by intro hx; simpa using hx
  cases a with
  | start i =>
    simp only at hs
    split_ifs at hs with hx
    cases hs
    obtain ⟨_, _, a, b⟩ := start_inv hC hE hx
    exact ⟨O, a, b, by simpa using hn⟩
  | finish i =>
    simp only at hs
    split_ifs at hs with hx
    cases hs
    obtain ⟨_, _, a, b⟩ := finish_inv hC hE hx.1 hx.2
    exact ⟨O, a, b, by simpa using hn⟩
  | syncReturns =>
    simp only at hs
    have hse : w' = syncEnd c w := by
      split at hs
      · cases hs
      · cases hs; rfl
      · split_ifs at hs
        cases hs; rfl
    subst hse
    obtain ⟨a, b, _⟩ := syncEnd_inv hC hE (hub rfl)
    exact ⟨O, a, b, by simpa using hn⟩
  | toDevice ok =>
    simp only at hs
    split_ifs at hs with hx
    have hw := hwn hx
    simp only [Option.some.injEq] at hs
    obtain ⟨O', a, b, d⟩ := copyToDevice_inv hC hE hw ok
    rw [hs] at a b
    refine ⟨O', a, b, ?_⟩
    cases ok <;> simp at d ⊢ <;> omega
  | toHost ok =>
    simp only at hs
    split_ifs at hs with hx
    have hw := hwn hx
    simp only [Option.some.injEq] at hs
    obtain ⟨a, b⟩ := copyToHost_inv hC hE hw ok
    rw [hs] at a b
    exact ⟨O, a, b, by simpa using hn⟩
  | copyView ok =>
    simp only at hs
    split_ifs at hs with hx
    have hw := hwn hx
    simp only [Option.some.injEq] at hs
    obtain ⟨a, b⟩ := computeCmd_inv hC hE hw .copyView rfl [] rfl ok
    have : (copyMemoryView c w ok).1 = (computeCmd c w .copyView [] ok).1 := by
      unfold copyMemoryView
      split
      · rename_i hq; rw [hq]
      · rfl
    rw [← this, hs] at a b
    exact ⟨O, a, b, by simpa using hn⟩
  | launch ok =>
    simp only at hs
    split_ifs at hs with hx
    have hw := hwn hx
    simp only [Option.some.injEq] at hs
    obtain ⟨a, b⟩ := computeCmd_inv hC hE hw .launch rfl _ rfl ok
    unfold launch at hs
    simp only [if_true] at a b
    rw [hs] at a b
    exact ⟨O, a, b, by simpa using hn⟩
  | barrier =>
    simp only at hs
    split_ifs at hs with hx
    have hw := hwn hx
    simp only [Option.some.injEq] at hs
    obtain ⟨a, b⟩ := barrier_inv hC hE hw
    rw [hs] at a b
    exact ⟨O, a, b, by simpa using hn⟩
  | sync =>
    simp only at hs
    split_ifs at hs with hx
    have hw := hwn hx
    simp only [Option.some.injEq, Prod.mk.injEq] at hs
    obtain ⟨a, b, _⟩ := syncBegin_inv hC hE hw
    rw [hs.1] at a b
    exact ⟨O, a, b, by simpa using hn⟩

theorem step_ub {c : Cfg} {w w' : World} {a : Act} {r : Res} (hs : step c w a = some (w', r)) : w.ub = false := by
  unfold step at hs
  by_cases h : w.ub = true
  · rw [if_pos h] at hs; cases hs
  · simpa using h

theorem run_inv {c : Cfg} : ∀ (acts : List Act) {w w' : World} {n : Nat}, Inv c w n → run c w acts = some w' → w'.ub = false →
    Inv c w' (n + failed acts) := by
  intro acts
  induction acts with
  | nil =>
    intro w w' n h hr hub
    simp only [run, Option.some.injEq] at hr
    subst hr
    simpa [failed] using h
  | cons a as ih =>
    intro w w' n h hr hub
    unfold run at hr
    split at hr
    · cases hr
    · rename_i w1 r hs
      have h1 : w1.ub = false := by
        cases as with
        | nil => simp only [run, Option.some.injEq] at hr; rw [hr]; exact hub
        | cons b bs =>
          unfold run at hr
          split at hr
          · cases hr
          · rename_i hs2; exact step_ub hs2
      have := ih (step_inv h hs (fun _ => h1)) hr hub
      have hf : failed (a :: as) = (if a = .toDevice false then 1 else 0) + failed as := by
        cases a with
        | toDevice ok => cases ok <;> simp [failed]; omega
        | _ => simp [failed]
      rw [hf, ← Nat.add_assoc]
      exact this

/-- Every state that can be reached, without undefined behaviour so far, meets the invariant. -/
theorem reach {c : Cfg} {acts : List Act} {w : World} (hr : run c (init c) acts = some w) (hub : w.ub = false) :
    Inv c w (failed acts) := by
  have := run_inv (n := 0) acts ⟨[], (init_inv c).1, (init_inv c).2, Nat.zero_le _⟩ hr hub
  simpa using this

end Ispc.GpuQueue
