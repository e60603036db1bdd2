import Mathlib.Data.Nat.Find
import Verif.TaskSys.SchedProps

/-!
# Every launched task runs, whatever the schedule (C24)

Runs of the task system of `Verif/TaskSys/Sched.lean` in which no thread that can go on is kept from it for
ever (`Fair`), of a program that asks for finitely many launches, syncs and calls (`Asks`).
-/

namespace Ispc.Sched

/-! ## Specification -/

/-- A run: an initial state, and steps; a run may also stay where it is. -/
structure Run (ok : Nat → Prop) (n : Nat) (w : Nat → Bool) (ρ : Nat → St) : Prop where
  init : ρ 0 = init n w
  step : ∀ i, Step ok (ρ i) (ρ (i + 1)) ∨ ρ (i + 1) = ρ i

/-- The activation `a` can move. -/
def Ready (ok : Nat → Prop) (s : St) (a : Nat) : Prop :=
  s.pc a ≠ .unborn ∧ ∃ s', Step ok s s' ∧ s'.pc a ≠ s.pc a

/-- An activation that can move from some time on does move: the scheduler of the operating system forgets no
    thread, and no function computes for ever. -/
def Fair (ok : Nat → Prop) (ρ : Nat → St) : Prop :=
  ∀ a i, (∀ j, i ≤ j → Ready ok (ρ j) a) → ∃ j, i ≤ j ∧ (ρ (j + 1)).pc a ≠ (ρ j).pc a

/-- A function asks for a task group, a launch, a sync or a call. -/
def Asks (s s' : St) : Prop :=
  ∃ a, s.pc a = .code ∧ s'.pc a ≠ .done ∧ (s'.pc a ≠ .code ∨ s'.handle a ≠ s.handle a)

/-! ## Work left -/

/-- Work left for a frame, with the posts of the semaphore it will make. -/
def pcv (h : Option Nat) : Pc → Nat
  | .idle | .done | .unborn => 0
  | .woken => 1
  | .code => if h = none then 1 else 4
  | .calling _ => 5
  | .enq _ c => 7 + 14 * c
  | .add c => 6 + 3 * c
  | .post k => 5 + 3 * k
  | .sync | .lock => 3
  | .fetched _ _ => 7
  | .called _ _ _ _ => 5
  | .dec _ _ => 4

def wv (s : St) (a : Nat) : Nat := pcv (s.handle a) (s.pc a) + 10 * held s a

/-- All the work left. -/
def work (s : St) : Nat := tot (wv s) s.na + 2 * s.sem

/-- A turn in `sync` while tasks of the group are unfinished and none is waiting. -/
def Spin (s s' : St) : Prop :=
  ∃ a g p, s' = s.goto a p ∧ s.handle a = some g ∧
    ((s.pc a = .sync ∧ p = .lock ∧ 0 < s.unfin g) ∨ (s.pc a = .lock ∧ p = .sync ∧ s.waiting g = []))

theorem tot_sub {f f' : Nat → Nat} (a k : Nat) (ha : a < k) (h : ∀ b, b ≠ a → f' b ≤ f b) :
    tot f' k + f a ≤ tot f k + f' a := by
  rw [tot_eq f a k ha, tot_eq f' a k ha]
  have := tot_le (f := upd f a 0) (f' := upd f' a 0) k (by
    intro b _
    simp only [upd_apply]
    split
    · exact Nat.le_refl _
    · exact h b (by assumption))
  omega

/-- A frame moves, and the rest stays. -/
theorem work_goto {s s' : St} (h1 : Inv1 s) (a : Nat) (p : Pc) (ha : s.pc a ≠ .unborn)
    (hpc : s'.pc = upd s.pc a p) (hh : s'.handle = s.handle) (hw : s'.waiting = s.waiting)
    (hna : s'.na = s.na) (hlt : pcv (s.handle a) p + 2 * s'.sem < pcv (s.handle a) (s.pc a) + 2 * s.sem) :
    work s' < work s := by
  have := tot_sub (f := wv s) (f' := wv s') a s.na (live_of_pc h1 a ha) (by
    intro b hb
    simp only [wv, held, hpc, hh, hw, upd_apply, if_neg hb]
    exact Nat.le_refl _)
  have e : wv s' a = pcv (s.handle a) p + 10 * held s a := by
    simp only [wv, held, hpc, hh, hw, upd_apply, if_true]
  have e2 : wv s a = pcv (s.handle a) (s.pc a) + 10 * held s a := rfl
  simp only [work, hna]
  omega

/-- A task of the group of `o` is taken by `a`. -/
theorem work_take {s : St} (h1 : Inv1 s) (a o g n : Nat) (ns act' : List Nat) (ha : s.pc a ≠ .unborn)
    (ho : s.handle o = some g) (hw : s.waiting g = n :: ns) (hb : 0 < pcv (s.handle a) (s.pc a)) :
    work (s.take a g n ns act') < work s := by
  have hal := live_of_pc h1 a ha
  have hol := live_of_handle h1 o g ho
  have hrest : ∀ b, b ≠ a → b ≠ o → wv (s.take a g n ns act') b ≤ wv s b := by
    intro b hb hbo
    simp only [wv, held, St.take, upd_apply, if_neg hb]
    cases hhb : s.handle b with
    | none => exact Nat.le_refl _
    | some x =>
      have : x ≠ g := by rintro rfl; exact hbo (h1.huniq _ _ _ hhb ho)
      simp only [if_neg this]
      exact Nat.le_refl _
  have hlt : tot (wv (s.take a g n ns act')) s.na < tot (wv s) s.na := by
    by_cases hao : a = o
    · subst hao
      apply tot_lt a s.na hal (fun b hb => hrest b hb hb)
      simp only [wv, held, St.take, upd_apply, if_true, ho, hw, pcv, List.length_cons]
      rw [ho] at hb
      omega
    · apply tot_lt2 a o s.na hal hol hao hrest
      have e1 : wv (s.take a g n ns act') o + 10 = wv s o := by
        simp only [wv, held, St.take, upd_apply, if_neg (fun x : o = a => hao x.symm), ho, if_true, hw, List.length_cons]
        omega
      have e2 : wv (s.take a g n ns act') a + pcv (s.handle a) (s.pc a) = wv s a + 7 := by
        simp only [wv, held, St.take, upd_apply, if_true, pcv]
        cases hha : s.handle a with
        | none => simp only; omega
        | some x =>
          have : x ≠ g := by rintro rfl; exact hao (h1.huniq _ _ _ hha ho)
          simp only [if_neg this]
          omega
      omega
  show tot _ s.na + 2 * s.sem < _
  unfold work
  omega

/-- **Every step asks for something, leaves less work, or is a turn of a waiting thread.** -/
theorem step_work {ok : Nat → Prop} {s s' : St} (h1 : Inv1 s) (h2 : Inv2 s) (h4' : s'.crash = false)
    (hs : Step ok s s') : Asks s s' ∨ work s' < work s ∨ Spin s s' := by
  cases hs with
  | wake a hp hsem =>
    refine .inr (.inl (work_goto h1 a .woken (by rw [hp]; simp) rfl rfl rfl rfl ?_))
    simp only [hp, pcv]
    show 1 + 2 * (s.sem - 1) < _
    omega
  | wokenNone a hp hact =>
    exact .inr (.inl (work_goto h1 a .idle (by rw [hp]; simp) rfl rfl rfl rfl (by
      rw [hp]; simp [pcv, St.goto])))
  | wokenTake a g rest n ns hp hact hw =>
    have hlt : n < s.next g := ((h2.waitIff g n).1 (by rw [hw]; simp)).1
    obtain ⟨o, ho⟩ := owned h2 g n hlt
    exact .inr (.inl (work_take h1 a o g n ns rest (by rw [hp]; simp) ho hw (by rw [hp]; simp [pcv])))
  | wokenCrash a g rest hp hact hw => cases h4'
  | start a g n hp =>
    refine .inr (.inl ?_)
    have ha := live_of_pc h1 a (by rw [hp]; simp)
    have hna : s.handle s.na = none := by
      have := h1.frame s.na
      rw [h1.fresh s.na (Nat.le_refl _)] at this
      exact this.2
    show tot _ (s.na + 1) + 2 * s.sem < _
    simp only [tot, work]
    have e : wv (s.startTask a g n) s.na = 1 := by
      simp [wv, held, St.startTask, St.spawn, hna, pcv]
    have e1 : wv (s.startTask a g n) a + 2 = wv s a := by
      have : a ≠ s.na := by omega
      simp only [wv, held, St.startTask, St.spawn, upd_apply, if_neg this, if_true, hp, pcv]
      omega
    have e2 : tot (wv (s.startTask a g n)) s.na + 2 ≤ tot (wv s) s.na := by
      rw [tot_eq (wv s) a s.na ha, tot_eq (wv (s.startTask a g n)) a s.na ha]
      have := tot_le (f := upd (wv s) a 0) (f' := upd (wv (s.startTask a g n)) a 0) s.na (by
        intro b hb
        simp only [upd_apply]
        split
        · exact Nat.le_refl _
        · rename_i hne
          have : b ≠ s.na := by omega
          simp only [wv, held, St.startTask, St.spawn, upd_apply, if_neg this, if_neg hne]
          exact Nat.le_refl _)
      omega
    omega
  | finish a g n t c hp hc =>
    exact .inr (.inl (work_goto h1 a (.dec g n) (by rw [hp]; simp) rfl rfl rfl rfl (by
      rw [hp]; simp [pcv, St.goto])))
  | dec a g n hp =>
    refine .inr (.inl (work_goto h1 a _ (by rw [hp]; simp) rfl rfl rfl rfl ?_))
    rw [hp]
    split <;> simp [pcv, St.goto]
  | allocGroup a g hp hh hg =>
    refine .inl ⟨a, hp, ?_, .inr ?_⟩
    · show s.pc a ≠ .done
      rw [hp]; simp
    · show upd s.handle a (some g) a ≠ _
      rw [hh]; simp
  | launch a g arg cnt hp hh hok =>
    exact .inl ⟨a, hp, by simp [St.launch], .inl (by simp [St.launch])⟩
  | enqueue a g base cnt hp hh =>
    refine .inr (.inl ?_)
    have ha := live_of_pc h1 a (by rw [hp]; simp)
    have : tot (wv (s.enqueue a g base cnt)) s.na < tot (wv s) s.na := by
      apply tot_lt a s.na ha
      · intro b hb
        simp only [wv, held, St.enqueue, upd_apply, if_neg hb]
        cases hhb : s.handle b with
        | none => exact Nat.le_refl _
        | some x =>
          have : x ≠ g := by rintro rfl; exact hb (h1.huniq _ _ _ hhb hh)
          simp only [if_neg this]
          exact Nat.le_refl _
      · simp only [wv, held, St.enqueue, upd_apply, if_true, hp, hh, pcv, List.length_append, List.length_reverse,
          List.length_range']
        omega
    show tot _ s.na + 2 * s.sem < _
    unfold work
    omega
  | add a g cnt hp hh =>
    exact .inr (.inl (work_goto h1 a (.post cnt) (by rw [hp]; simp) rfl rfl rfl rfl (by
      rw [hp]; simp only [pcv, St.goto]; omega)))
  | post a k hp =>
    refine .inr (.inl (work_goto h1 a (.post k) (by rw [hp]; simp) rfl rfl rfl rfl ?_))
    rw [hp]
    simp only [pcv]
    show _ + 2 * (s.sem + 1) < _
    omega
  | postEnd a hp =>
    refine .inr (.inl (work_goto h1 a .code (by rw [hp]; simp) rfl rfl rfl rfl ?_))
    rw [hp]
    simp only [pcv, St.goto]
    split <;> omega
  | syncStart a g hp hh =>
    exact .inl ⟨a, hp, by simp [St.goto], .inl (by simp [St.goto])⟩
  | syncExit a g hp hh hu =>
    refine .inr (.inl ?_)
    have ha := live_of_pc h1 a (by rw [hp]; simp)
    have : tot (wv { s.goto a .code with handle := upd s.handle a none, next := upd s.next g 0 }) s.na < tot (wv s) s.na := by
      apply tot_lt a s.na ha
      · intro b hb
        simp only [wv, held, St.goto, upd_apply, if_neg hb]
        exact Nat.le_refl _
      · simp only [wv, held, St.goto, upd_apply, if_true, hp, pcv, hh]
        omega
    show tot _ s.na + 2 * s.sem < _
    unfold work
    omega
  | syncHelp a g hp hh hu => exact .inr (.inr ⟨a, g, .lock, rfl, hh, .inl ⟨hp, rfl, hu⟩⟩)
  | lockOwn a g n ns hp hh hw =>
    exact .inr (.inl (work_take h1 a a g n ns _ (by rw [hp]; simp) hh hw (by rw [hp]; simp [pcv])))
  | lockNone a g hp hh hw hact => exact .inr (.inr ⟨a, g, .sync, rfl, hh, .inr ⟨hp, rfl, hw⟩⟩)
  | lockOther a g g' rest n ns hp hh hw hact hw' =>
    have hlt : n < s.next g' := ((h2.waitIff g' n).1 (by rw [hw']; simp)).1
    obtain ⟨o, ho⟩ := owned h2 g' n hlt
    exact .inr (.inl (work_take h1 a o g' n ns rest (by rw [hp]; simp) ho hw' (by rw [hp]; simp [pcv])))
  | lockCrash a g g' rest hp hh hw hact hw' => cases h4'
  | call a hp =>
    have hne : a ≠ s.na := by
      have := live_of_pc h1 a (by rw [hp]; simp)
      omega
    exact .inl ⟨a, hp, by simp [St.spawn, hne], .inl (by simp [St.spawn, hne])⟩
  | back a c hp hc =>
    refine .inr (.inl (work_goto h1 a .code (by rw [hp]; simp) rfl rfl rfl rfl ?_))
    rw [hp]
    simp only [pcv, St.goto]
    split <;> omega
  | ret a hp hh =>
    exact .inr (.inl (work_goto h1 a .done (by rw [hp]; simp) rfl rfl rfl rfl (by
      rw [hp, hh]; simp [pcv, St.goto])))

/-! ## Runs -/

theorem run_reach_all {ok : Nat → Prop} {n : Nat} {w : Nat → Bool} {ρ : Nat → St} (h : Run ok n w ρ) (i : Nat) :
    Reach ok n w (ρ i) := by
  induction i with
  | zero => rw [h.init]; exact .init
  | succ i ih =>
    rcases h.step i with hs | hs
    · exact .step _ _ ih hs
    · rw [hs]; exact ih

/-- The same but for turns of waiting threads. -/
structure Same (s s' : St) : Prop where
  rest : s' = { s with pc := s'.pc }
  pc : ∀ a, s'.pc a = s.pc a ∨ ((s.pc a = .sync ∨ s.pc a = .lock) ∧ (s'.pc a = .sync ∨ s'.pc a = .lock))

theorem Same.refl (s : St) : Same s s := ⟨rfl, fun _ => .inl rfl⟩

theorem Same.trans {s s' s'' : St} (h : Same s s') (h' : Same s' s'') : Same s s'' := by
  refine ⟨?_, fun a => ?_⟩
  · rw [h'.rest, h.rest]
  · rcases h.pc a with e | e <;> rcases h'.pc a with e' | e'
    · exact .inl (e'.trans e)
    · rw [e] at e'; exact .inr e'
    · rw [← e'] at e; exact .inr e
    · exact .inr ⟨e.1, e'.2⟩

theorem Spin.same {s s' : St} (h : Spin s s') : Same s s' := by
  obtain ⟨a, g, p, rfl, _, h⟩ := h
  refine ⟨rfl, fun b => ?_⟩
  simp only [St.goto, upd_apply]
  split
  · rename_i hb
    subst hb
    rcases h with ⟨h1, h2, _⟩ | ⟨h1, h2, _⟩
    · exact .inr ⟨.inl h1, .inr h2⟩
    · exact .inr ⟨.inr h1, .inl h2⟩
  · exact .inl rfl

theorem Spin.work_eq {s s' : St} (h : Spin s s') : work s' = work s := by
  obtain ⟨a, g, p, rfl, _, h⟩ := h
  have e : wv (s.goto a p) = wv s := by
    funext b
    simp only [wv, held, St.goto, upd_apply]
    split
    · rename_i hb
      subst hb
      rcases h with ⟨h1, rfl, _⟩ | ⟨h1, rfl, _⟩ <;> rw [h1] <;> rfl
    · rfl
  show tot (wv (s.goto a p)) s.na + 2 * s.sem = _
  rw [e]
  rfl

/-- An activation that is busy can move, unless it waits for another that has not returned. -/
theorem ready {ok : Nat → Prop} {s : St} (h1 : Inv1 s) (h2 : Inv2 s) (a : Nat) (hb : busy (s.pc a))
    (hw : ∀ c, waitsFor (s.pc a) = some c → s.pc c = .done) : Ready ok s a := by
  have hf := h1.frame a
  have hu : s.pc a ≠ .unborn := by intro h; rw [h] at hb; exact hb
  have hlt := live_of_pc h1 a hu
  have hsome : s.handle a ≠ none → ∃ g, s.handle a = some g := fun h => by
    cases hh : s.handle a with
    | none => exact absurd hh h
    | some g => exact ⟨g, rfl⟩
  refine ⟨hu, ?_⟩
  cases hp : s.pc a with
  | idle => rw [hp] at hb; exact hb.elim
  | woken => rw [hp] at hb; exact hb.elim
  | done => rw [hp] at hb; exact hb.elim
  | unborn => exact absurd hp hu
  | code =>
    cases hh : s.handle a with
    | none => exact ⟨_, Step.ret s a hp hh, by simp [St.goto]⟩
    | some g => exact ⟨_, Step.syncStart s a g hp hh, by simp [St.goto]⟩
  | calling c => exact ⟨_, Step.back s a c hp (hw c (by rw [hp]; rfl)), by simp [St.goto]⟩
  | called g n t c => exact ⟨_, Step.finish s a g n t c hp (hw c (by rw [hp]; rfl)), by simp [St.goto]⟩
  | fetched g n =>
    refine ⟨_, Step.start s a g n hp, ?_⟩
    have : a ≠ s.na := by omega
    simp [St.startTask, St.spawn, this]
  | dec g n =>
    refine ⟨_, Step.dec s a g n hp, ?_⟩
    simp only [St.goto, upd_apply, if_true]
    split <;> simp
  | enq base cnt =>
    rw [hp] at hf
    obtain ⟨g, hh⟩ := hsome hf.2
    exact ⟨_, Step.enqueue s a g base cnt hp hh, by simp [St.enqueue]⟩
  | add cnt =>
    rw [hp] at hf
    obtain ⟨g, hh⟩ := hsome hf.2
    exact ⟨_, Step.add s a g cnt hp hh, by simp [St.goto]⟩
  | post k =>
    cases k with
    | zero => exact ⟨_, Step.postEnd s a hp, by simp [St.goto]⟩
    | succ k => exact ⟨_, Step.post s a k hp, by simp [St.goto]⟩
  | sync =>
    rw [hp] at hf
    obtain ⟨g, hh⟩ := hsome hf.2
    by_cases hu : s.unfin g ≤ 0
    · exact ⟨_, Step.syncExit s a g hp hh hu, by simp [St.goto]⟩
    · exact ⟨_, Step.syncHelp s a g hp hh (by omega), by simp [St.goto]⟩
  | lock =>
    rw [hp] at hf
    obtain ⟨g, hh⟩ := hsome hf.2
    cases hwt : s.waiting g with
    | cons n ns => exact ⟨_, Step.lockOwn s a g n ns hp hh hwt, by simp [St.take]⟩
    | nil =>
      cases hact : s.active with
      | nil => exact ⟨_, Step.lockNone s a g hp hh hwt hact, by simp [St.goto]⟩
      | cons g' rest =>
        cases hw' : s.waiting g' with
        | nil => exact absurd hw' ((h2.actIff g').1 (by rw [hact]; simp))
        | cons n ns => exact ⟨_, Step.lockOther s a g g' rest n ns hp hh hwt hact hw', by simp [St.take]⟩

/-- When nothing is busy, every task launched has run. -/
theorem quiet_finished {ok : Nat → Prop} (hok : ∀ c, ok c → 0 < c) {n : Nat} {w : Nat → Bool} {s : St}
    (h : Reach ok n w s) (hb : ∀ a, ¬ busy (s.pc a)) (l k : Nat) (hl : l < s.nl) (hk : k < s.lsize l) :
    s.started (s.taskOf l k) = 1 ∧ s.finished (s.taskOf l k) = 1 := by
  obtain ⟨h1, -, -, -⟩ := inv_reach hok h
  apply no_handle_all_finished hok h (s.launcher l) _ l hl rfl k hk
  have hf := h1.frame (s.launcher l)
  have hnb := hb (s.launcher l)
  cases hp : s.pc (s.launcher l) <;> rw [hp] at hf hnb <;> simp [busy, FrameOk] at hf hnb <;> exact hf.2

/-- A sequence that moves only from `p` to `q` moves no more once it has. -/
theorem stays {x : Nat → Pc} {p q : Pc} {T j : Nat} (hpq : p ≠ q) (hx : ∀ i, T ≤ i → x (i + 1) ≠ x i → x i = p ∧ x (i + 1) = q)
    (hj : T ≤ j) (hm : x (j + 1) ≠ x j) : ∀ i, j + 1 ≤ i → x (i + 1) = x i := by
  have hq : ∀ d, x (j + 1 + d) = q := by
    intro d
    induction d with
    | zero => exact (hx j hj hm).2
    | succ d ih =>
      by_contra hc
      have hne : x (j + 1 + d + 1) ≠ x (j + 1 + d) := by rw [ih]; exact hc
      exact hpq ((hx (j + 1 + d) (by omega) hne).1.symm.trans ih)
  intro i hi
  obtain ⟨d, rfl⟩ := Nat.exists_eq_add_of_le hi
  rw [hq d]
  exact hq (d + 1)

/-- **In every fair run of a program that asks for finitely many launches, syncs and calls there is a time from which on every function
has returned and every task launched has run exactly once, to the end.** -/
theorem fair_finishes {ok : Nat → Prop} (hok : ∀ c, ok c → 0 < c) {n : Nat} {w : Nat → Bool} {ρ : Nat → St}
    (hr : Run ok n w ρ) (hf : Fair ok ρ) (hfin : ∃ T, ∀ i, T ≤ i → ¬ Asks (ρ i) (ρ (i + 1))) :
    ∃ T, ∀ i, T ≤ i → (∀ a, ¬ busy ((ρ i).pc a)) ∧
      ∀ l k, l < (ρ i).nl → k < (ρ i).lsize l →
        (ρ i).started ((ρ i).taskOf l k) = 1 ∧ (ρ i).finished ((ρ i).taskOf l k) = 1 := by
  obtain ⟨T, hT⟩ := hfin
  have inv := fun i => inv_reach hok (run_reach_all hr i)
  have hstep : ∀ i, T ≤ i → work (ρ (i + 1)) < work (ρ i) ∨ Spin (ρ i) (ρ (i + 1)) ∨ ρ (i + 1) = ρ i := by
    intro i hi
    rcases hr.step i with hs | hs
    · rcases step_work (inv i).1 (inv i).2.1 (inv (i + 1)).2.2.2.noCrash hs with h | h | h
      · exact absurd h (hT i hi)
      · exact .inl h
      · exact .inr (.inl h)
    · exact .inr (.inr hs)
  have hmono : ∀ i, T ≤ i → ∀ d, work (ρ (i + d)) ≤ work (ρ i) := by
    intro i hi d
    induction d with
    | zero => exact Nat.le_refl _
    | succ d ih =>
      refine Nat.le_trans ?_ ih
      rcases hstep (i + d) (by omega) with h | h | h
      · exact Nat.le_of_lt h
      · exact Nat.le_of_eq h.work_eq
      · exact Nat.le_of_eq (congrArg work h)
  -- the work left is least from `T₁` on
  have hmin : ∃ m, ∃ i, T ≤ i ∧ work (ρ i) = m := ⟨_, T, Nat.le_refl _, rfl⟩
  classical
  obtain ⟨T₁, hT₁, hm⟩ := Nat.find_spec hmin
  have hconst : ∀ i, T₁ ≤ i → work (ρ i) = work (ρ T₁) := by
    intro i hi
    obtain ⟨d, rfl⟩ := Nat.exists_eq_add_of_le hi
    refine Nat.le_antisymm (hmono T₁ hT₁ d) ?_
    rw [hm]
    exact Nat.find_min' hmin ⟨T₁ + d, by omega, rfl⟩
  have hspin : ∀ i, T₁ ≤ i → Spin (ρ i) (ρ (i + 1)) ∨ ρ (i + 1) = ρ i := by
    intro i hi
    rcases hstep i (by omega) with h | h
    · have e1 := hconst i hi
      have e2 := hconst (i + 1) (by omega)
      omega
    · exact h
  have hsame : ∀ i, T₁ ≤ i → Same (ρ T₁) (ρ i) := by
    intro i hi
    obtain ⟨d, rfl⟩ := Nat.exists_eq_add_of_le hi
    induction d with
    | zero => exact .refl _
    | succ d ih =>
      rcases hspin (T₁ + d) (by omega) with h | h
      · exact (ih (by omega)).trans h.same
      · rw [show T₁ + (d + 1) = T₁ + d + 1 from rfl, h]
        exact ih (by omega)
  generalize hs : ρ T₁ = s at *
  obtain ⟨h1, h2, -, h4⟩ : Inv1 s ∧ Inv2 s ∧ Inv3 s ∧ Inv4 s := hs ▸ inv T₁
  -- what is neither in `sync` nor waiting for another moves
  have hstuck : ∀ a, busy (s.pc a) → s.pc a ≠ .sync → s.pc a ≠ .lock → ∃ c, waitsFor (s.pc a) = some c ∧ s.pc c ≠ .done := by
    intro a hb hns hnl
    by_contra hc
    have hpc : ∀ j, T₁ ≤ j → (ρ j).pc a = s.pc a := by
      intro j hj
      rcases (hsame j hj).pc a with h | h
      · exact h
      · rcases h.1 with h | h
        · exact absurd h hns
        · exact absurd h hnl
    obtain ⟨j, hj, hne⟩ := hf a T₁ (by
      intro j hj
      refine ready (inv j).1 (inv j).2.1 a (by rw [hpc j hj]; exact hb) fun c hw => ?_
      rw [hpc j hj] at hw
      have hd : s.pc c = .done := by
        by_contra hd
        exact hc ⟨c, hw, hd⟩
      rcases (hsame j hj).pc c with h | h
      · rw [h]; exact hd
      · rw [hd] at h
        rcases h.1 with h | h <;> cases h)
    exact hne ((hpc (j + 1) (by omega)).trans (hpc j hj).symm)
  have hchild : ∀ a c, waitsFor (s.pc a) = some c → s.pc c ≠ .done → busy (s.pc c) := by
    intro a c hw hd
    have hcc := h4.childB a c hw
    have hfr := h1.frame c
    rw [hcc.1] at hfr
    cases hp : s.pc c <;> rw [hp] at hfr <;> simp [busy, FrameOk] at hfr ⊢
    · exact hd hp
    · exact hcc.2 hp
  -- whoever is busy has a younger one that is
  have hnext : ∀ a, busy (s.pc a) → ∃ c, a < c ∧ busy (s.pc c) := by
    intro a hb
    by_cases hsl : s.pc a = .sync ∨ s.pc a = .lock
    · have hh : ∃ g, s.handle a = some g := by
        have hfr := h1.frame a
        cases hh : s.handle a with
        | some g => exact ⟨g, rfl⟩
        | none => rcases hsl with h | h <;> rw [h, hh] at hfr <;> exact absurd rfl hfr.2
      obtain ⟨g, hh⟩ := hh
      have hpc : ∀ j, T₁ ≤ j → (ρ j).pc a = .sync ∨ (ρ j).pc a = .lock := by
        intro j hj
        rcases (hsame j hj).pc a with h | h
        · rw [h]; exact hsl
        · exact h.2
      have hmoves : ∀ i, T₁ ≤ i → ∃ j, i ≤ j ∧ (ρ (j + 1)).pc a ≠ (ρ j).pc a := by
        intro i hi
        refine hf a i fun j hj => ready (inv j).1 (inv j).2.1 a ?_ fun c hw => ?_
        · rcases hpc j (by omega) with h | h <;> rw [h] <;> trivial
        · rcases hpc j (by omega) with h | h <;> rw [h] at hw <;> cases hw
      have hmove : ∀ i, T₁ ≤ i → (ρ (i + 1)).pc a ≠ (ρ i).pc a →
          ((ρ i).pc a = .sync ∧ (ρ (i + 1)).pc a = .lock ∧ 0 < s.unfin g) ∨
            ((ρ i).pc a = .lock ∧ (ρ (i + 1)).pc a = .sync ∧ s.waiting g = []) := by
        intro i hi hne
        rcases hspin i hi with h | h
        · obtain ⟨b, g', p, e, hhb, h⟩ := h
          have hab : a = b := by
            by_contra hab
            rw [e] at hne
            simp [St.goto, hab] at hne
          subst hab
          have hr' := (hsame i hi).rest
          have e1 : (ρ i).handle a = s.handle a := by rw [hr']
          have e2 : (ρ i).unfin g' = s.unfin g' := by rw [hr']
          have e3 : (ρ i).waiting g' = s.waiting g' := by rw [hr']
          rw [e1, hh] at hhb
          cases hhb
          rw [e2, e3] at h
          have e4 : (ρ (i + 1)).pc a = p := by rw [e]; simp [St.goto]
          rw [e4]
          exact h
        · rw [h] at hne
          exact absurd rfl hne
      have hunf : 0 < s.unfin g := by
        by_contra hu
        have hx : ∀ i, T₁ ≤ i → (ρ (i + 1)).pc a ≠ (ρ i).pc a → (ρ i).pc a = .lock ∧ (ρ (i + 1)).pc a = .sync := by
          intro i hi hne
          rcases hmove i hi hne with h | h
          · exact absurd h.2.2 hu
          · exact ⟨h.1, h.2.1⟩
        obtain ⟨j, hj, hm⟩ := hmoves T₁ (Nat.le_refl _)
        obtain ⟨k, hk, hm'⟩ := hmoves (j + 1) (by omega)
        exact hm' (stays (x := fun i => (ρ i).pc a) (by simp) hx hj hm k hk)
      have hwt : s.waiting g = [] := by
        by_contra hw
        have hx : ∀ i, T₁ ≤ i → (ρ (i + 1)).pc a ≠ (ρ i).pc a → (ρ i).pc a = .sync ∧ (ρ (i + 1)).pc a = .lock := by
          intro i hi hne
          rcases hmove i hi hne with h | h
          · exact ⟨h.1, h.2.1⟩
          · exact absurd h.2.2 hw
        obtain ⟨j, hj, hm⟩ := hmoves T₁ (Nat.le_refl _)
        obtain ⟨k, hk, hm'⟩ := hmoves (j + 1) (by omega)
        exact hm' (stays (x := fun i => (ρ i).pc a) (by simp) hx hj hm k hk)
      -- a task of the group is not over
      have hc := h2.count a g hh
      have hun : unadded (s.pc a) = 0 := by rcases hsl with h | h <;> rw [h] <;> rfl
      rw [hun] at hc
      have : ∃ m, m < s.next g ∧ s.stat g m ≠ .over := by
        by_contra hn
        have : ovr (s.stat g) (s.next g) = s.next g := by
          rw [ovr_congr (s.stat g) (fun _ => .over) (s.next g) (by
            intro m hm
            simp only [iff_true]
            by_contra h
            exact hn ⟨m, hm, h⟩)]
          generalize s.next g = k
          induction k with
          | zero => rfl
          | succ k ih => rw [ovr_succ, ih]; rfl
        omega
      obtain ⟨m, hm, hm'⟩ := this
      cases hst : s.stat g m with
      | over => exact absurd hst hm'
      | waiting =>
        have := (h2.waitIff g m).2 ⟨hm, hst⟩
        rw [hwt] at this
        simp at this
      | pending =>
        obtain ⟨b, base, cnt, y1, y2, _⟩ := (h2.pend g m).1 ⟨hm, hst⟩
        have := h1.huniq _ _ _ y1 hh
        subst this
        rcases hsl with h | h <;> rw [h] at y2 <;> cases y2
      | flight b =>
        have hb' := (h2.flight b g m).2 ⟨hm, hst⟩
        have hbusy : busy (s.pc b) := by
          cases hq : s.pc b <;> rw [hq] at hb' <;> simp [flies] at hb' <;> trivial
        obtain ⟨c, hw, hd⟩ := hstuck b hbusy (by intro h; rw [h] at hb'; cases hb') (by intro h; rw [h] at hb'; cases hb')
        refine ⟨c, ?_, hchild b c hw hd⟩
        cases hq : s.pc b <;> rw [hq] at hb' hw <;> simp [flies] at hb' <;> simp [waitsFor] at hw
        obtain ⟨rfl, rfl⟩ := hb'
        subst hw
        exact h4.born a b _ _ _ _ hq hh
    · rw [not_or] at hsl
      obtain ⟨c, hw, hd⟩ := hstuck a hb hsl.1 hsl.2
      exact ⟨c, (h1.child a c hw).1, hchild a c hw hd⟩
  have hquiet : ∀ a, ¬ busy (s.pc a) := by
    intro a hb
    have : ∀ d, ∃ b, d ≤ b ∧ busy (s.pc b) := by
      intro d
      induction d with
      | zero => exact ⟨a, Nat.zero_le _, hb⟩
      | succ d ih =>
        obtain ⟨b, hb1, hb2⟩ := ih
        obtain ⟨c, hc1, hc2⟩ := hnext b hb2
        exact ⟨c, by omega, hc2⟩
    obtain ⟨b, hb1, hb2⟩ := this s.na
    rw [h1.fresh b hb1] at hb2
    exact hb2
  refine ⟨T₁, fun i hi => ?_⟩
  have hq : ∀ a, ¬ busy ((ρ i).pc a) := by
    intro a hb
    rcases (hsame i hi).pc a with h | h
    · rw [h] at hb
      exact hquiet a hb
    · apply hquiet a
      rcases h.1 with h | h <;> rw [h] <;> trivial
  exact ⟨hq, quiet_finished hok (run_reach_all hr i) hq⟩

/-! ## A run that meets the hypotheses -/

/-- The run that takes the given steps, and stays where they lead. -/
def play (okb : Nat → Bool) (n : Nat) (w : Nat → Bool) (l : List (Nat × Choice)) : Nat → St
  | 0 => init n w
  | i + 1 => match l[i]? with
    | none => play okb n w l i
    | some (a, ch) => (exec okb (play okb n w l i) a ch).getD (play okb n w l i)

theorem play_run (okb : Nat → Bool) (n : Nat) (w : Nat → Bool) (l : List (Nat × Choice)) :
    Run (fun c => okb c = true) n w (play okb n w l) := by
  have h : ∀ i, Reach (fun c => okb c = true) n w (play okb n w l i) ∧
      (Step (fun c => okb c = true) (play okb n w l i) (play okb n w l (i + 1)) ∨ play okb n w l (i + 1) = play okb n w l i) := by
    have hs : ∀ i, Reach (fun c => okb c = true) n w (play okb n w l i) →
        (Step (fun c => okb c = true) (play okb n w l i) (play okb n w l (i + 1)) ∨ play okb n w l (i + 1) = play okb n w l i) := by
      intro i hr
      simp only [play]
      split
      · exact .inr rfl
      · rename_i a ch _
        cases hx : exec okb (play okb n w l i) a ch with
        | none => exact .inr rfl
        | some s' => exact .inl (exec_step (reach_inv1 hr) a ch hx)
    intro i
    induction i with
    | zero => exact ⟨.init, hs 0 .init⟩
    | succ i ih =>
      have : Reach (fun c => okb c = true) n w (play okb n w l (i + 1)) := by
        rcases ih.2 with h | h
        · exact .step _ _ ih.1 h
        · rw [h]; exact ih.1
      exact ⟨this, hs _ this⟩
  exact ⟨rfl, fun i => (h i).2⟩

theorem play_end (okb : Nat → Bool) (n : Nat) (w : Nat → Bool) (l : List (Nat × Choice)) (i : Nat) (h : l.length ≤ i) :
    play okb n w l i = play okb n w l l.length := by
  obtain ⟨d, rfl⟩ := Nat.exists_eq_add_of_le h
  induction d with
  | zero => rfl
  | succ d ih =>
    rw [← ih (by omega)]
    show play okb n w l (l.length + d + 1) = _
    simp only [play]
    rw [List.getElem?_eq_none (by omega)]

/-- When every function has returned and there is no worker, there is no step. -/
theorem no_step {ok : Nat → Prop} {s s' : St} (h : ∀ a, s.pc a = .done ∨ s.pc a = .unborn) : ¬ Step ok s s' := by
  intro hs
  cases hs <;> rename_i a <;> grind

/-- One application thread and no worker: the thread launches two tasks, the first of which launches a third, runs the
    second and the first while it waits, and the third while that one waits. -/
def aloneRun : List (Nat × Choice) :=
  [(0, .alloc 0), (0, .launch 7 2), (0, .go), (0, .go), (0, .go), (0, .go), (0, .go),
   (0, .sync), (0, .go), (0, .go), (0, .go), (1, .ret), (0, .go), (0, .go), (0, .go), (0, .go), (0, .go),
   (2, .alloc 1), (2, .launch 8 1), (2, .go), (2, .go), (2, .go), (2, .go), (2, .sync), (2, .go), (2, .go), (2, .go),
   (3, .ret), (2, .go), (2, .go), (2, .go), (2, .ret), (0, .go), (0, .go), (0, .go), (0, .ret)]

/-- The hypotheses of `fair_finishes` are met, by a run in which two launches are made and three tasks run. -/
example : ∃ ρ, Run (fun c => decide (0 < c) = true) 1 (fun _ => false) ρ ∧ Fair (fun c => decide (0 < c) = true) ρ ∧
    (∃ T, ∀ i, T ≤ i → ¬ Asks (ρ i) (ρ (i + 1))) ∧ (ρ 60).nl = 2 ∧ (ρ 60).lsize 0 = 2 ∧ (ρ 60).lsize 1 = 1 ∧
    (ρ 3).started ⟨0, 7, 0, 2⟩ = 0 := by
  let ρ := play (fun c => decide (0 < c)) 1 (fun _ => false) aloneRun
  have hr : Run (fun c => decide (0 < c) = true) 1 (fun _ => false) ρ := play_run _ _ _ _
  have hc : decide ((ρ aloneRun.length).pc 0 = .done ∧ (ρ aloneRun.length).pc 1 = .done ∧ (ρ aloneRun.length).pc 2 = .done ∧
      (ρ aloneRun.length).pc 3 = .done ∧ (ρ aloneRun.length).na = 4 ∧ (ρ aloneRun.length).nl = 2 ∧
      (ρ aloneRun.length).lsize 0 = 2 ∧ (ρ aloneRun.length).lsize 1 = 1) = true := by decide +kernel
  obtain ⟨e0, e1, e2, e3, e4, e5, e6, e7⟩ := of_decide_eq_true hc
  have hend : ∀ i, aloneRun.length ≤ i → ρ i = ρ aloneRun.length := play_end _ _ _ _
  have hq : ∀ a, (ρ aloneRun.length).pc a = .done ∨ (ρ aloneRun.length).pc a = .unborn := by
    intro a
    by_cases ha : a < 4
    · have : a = 0 ∨ a = 1 ∨ a = 2 ∨ a = 3 := by omega
      rcases this with rfl | rfl | rfl | rfl
      · exact .inl e0
      · exact .inl e1
      · exact .inl e2
      · exact .inl e3
    · exact .inr ((reach_inv1 (run_reach_all hr _)).fresh a (by omega))
  refine ⟨ρ, hr, ?_, ⟨aloneRun.length, ?_⟩, ?_, ?_, ?_, ?_⟩
  · intro a i h
    obtain ⟨_, s', hs, _⟩ := h (i + aloneRun.length) (by omega)
    rw [hend _ (by omega)] at hs
    exact absurd hs (no_step hq)
  · rintro i hi ⟨a, h1, -, h2⟩
    rw [hend i hi, hend (i + 1) (by omega)] at h2
    rw [hend i hi] at h1
    rcases h2 with h2 | h2
    · exact h2 h1
    · exact h2 rfl
  · rw [hend 60 (by decide)]; exact e5
  · rw [hend 60 (by decide)]; exact e6
  · rw [hend 60 (by decide)]; exact e7
  · decide +kernel

end Ispc.Sched
