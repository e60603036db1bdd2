import Verif.TaskSys.SchedInv
import Mathlib.Logic.Relation

/-!
# C24: every launched task runs exactly once, and sync waits for all of them

All theorems are about every reachable state of `Verif/TaskSys/Sched.lean`: any number of threads, workers,
groups, launches, nested calls and nested launches, any interleaving.
-/

namespace Ispc.Sched

/-- The record of task `i` of launch `l`: the arguments given to that launch, the index, and the number of
    tasks launched. -/
def St.taskOf (s : St) (l i : Nat) : TaskInfo := ⟨l, s.larg l, i, s.lsize l⟩

/-- Launches made by activation `a`, or by the functions it calls and the tasks it launches, at any depth. -/
inductive Below (s : St) : Nat → Nat → Prop where
  | own (a l) : l < s.nl → s.launcher l = a → Below s a l
  | callee (a c l) : s.parent c = some a → s.task c = none → Below s c l → Below s a l
  | task (a c l i l') : l < s.nl → s.launcher l = a → i < s.lsize l → s.task c = some (s.taskOf l i) →
      Below s c l' → Below s a l'

theorem launched_taskOf {s : St} {l i : Nat} (h : l < s.nl) (hi : i < s.lsize l) : Launched s (s.taskOf l i) :=
  ⟨h, rfl, rfl, hi⟩

/-- No task is started twice, whatever the interleaving. -/
theorem started_at_most_once {ok : Nat → Prop} (hok : ∀ c, ok c → 0 < c) {n : Nat} {w : Nat → Bool} {s : St}
    (h : Reach ok n w s) (t : TaskInfo) : s.started t ≤ 1 ∧ s.finished t ≤ s.started t := by
  obtain ⟨h1, h2, h3, h4⟩ := inv_reach hok h
  by_cases hl : Launched s t
  · rcases h3.cover t hl with ⟨g, m, y1, y2, y3⟩ | h
    · have := h3.runs _ g m y1 y2
      rw [y3] at this
      rw [this.1, this.2]
      cases hs : s.stat g m with
      | flight b =>
        have hb := (h2.flight b g m).2 ⟨y2, hs⟩
        simp only [stN, fiN]
        cases hp : s.pc b <;> rw [hp] at hb <;> simp [flies] at hb <;> simp [begun, ended]
      | _ => simp [stN, fiN]
    · omega
  · have := h3.other t hl
    omega

/-- Only launched tasks are run, with the arguments, index and count of their launch. -/
theorem only_launched_run {ok : Nat → Prop} (hok : ∀ c, ok c → 0 < c) {n : Nat} {w : Nat → Bool} {s : St}
    (h : Reach ok n w s) (t : TaskInfo) (ht : 0 < s.started t) :
    t.launch < s.nl ∧ t.index < s.lsize t.launch ∧ t = s.taskOf t.launch t.index := by
  obtain ⟨h1, h2, h3, h4⟩ := inv_reach hok h
  by_contra hc
  have hl : ¬ Launched s t := by
    rintro ⟨x1, x2, x3, x4⟩
    apply hc
    refine ⟨x1, by omega, ?_⟩
    obtain ⟨l, a, i, k⟩ := t
    simp only [St.taskOf] at *
    rw [x2, x3]
  have := h3.other t hl
  omega

/-- A function that holds no task group, that is one that launched nothing since its last `sync` or has
    returned, has no unfinished task: each task of each of its launches was run exactly once, to the end. -/
theorem no_handle_all_finished {ok : Nat → Prop} (hok : ∀ c, ok c → 0 < c) {n : Nat} {w : Nat → Bool} {s : St}
    (h : Reach ok n w s) (a : Nat) (ha : s.handle a = none) (l : Nat) (hl : l < s.nl) (hla : s.launcher l = a)
    (i : Nat) (hi : i < s.lsize l) : s.started (s.taskOf l i) = 1 ∧ s.finished (s.taskOf l i) = 1 := by
  obtain ⟨h1, h2, h3, h4⟩ := inv_reach hok h
  rcases h3.cover _ (launched_taskOf hl hi) with ⟨g, m, y1, _⟩ | h
  · have e : (s.taskOf l i).launch = l := rfl
    rw [e, hla, ha] at y1
    simp at y1
  · exact h

/-- `sync` returns only when every task the function has launched has run exactly once, to the end. -/
theorem sync_waits {ok : Nat → Prop} (hok : ∀ c, ok c → 0 < c) {n : Nat} {w : Nat → Bool} {s s' : St}
    (h : Reach ok n w s) (hs : Step ok s s') (a : Nat) (hp : s.pc a = .sync) (hp' : s'.pc a = .code)
    (l : Nat) (hl : l < s'.nl) (hla : s'.launcher l = a) (i : Nat) (hi : i < s'.lsize l) :
    s'.started (s'.taskOf l i) = 1 ∧ s'.finished (s'.taskOf l i) = 1 := by
  apply no_handle_all_finished hok (.step s s' h hs) a _ l hl hla i hi
  have h1 := (inv_reach hok h).1
  have h4 := h1.fresh s.na (Nat.le_refl _)
  cases hs <;> simp only [St.goto, St.take, St.spawn, St.startTask, St.launch, St.enqueue] at * <;> grind

/-- A returned function has finished everything: also what its callees and its tasks launched. -/
theorem done_below {ok : Nat → Prop} (hok : ∀ c, ok c → 0 < c) {n : Nat} {w : Nat → Bool} {s : St}
    (h : Reach ok n w s) (a l : Nat) (hb : Below s a l) (ha : s.handle a = none)
    (hc : waitsFor (s.pc a) = none) (i : Nat) (hi : i < s.lsize l) :
    s.started (s.taskOf l i) = 1 ∧ s.finished (s.taskOf l i) = 1 := by
  have hr := h
  obtain ⟨h1, h2, h3, h4⟩ := inv_reach hok h
  have hdone : ∀ c, s.pc c = .done → s.handle c = none ∧ waitsFor (s.pc c) = none := by
    intro c hc
    have := h1.frame c
    rw [hc] at this ⊢
    exact ⟨this.2, rfl⟩
  induction hb with
  | own a l x y => exact no_handle_all_finished hok hr a ha l x y i hi
  | callee a c l x y z ih =>
    rcases h4.parB c a x with h | h
    · exact ih (hdone c h).1 (hdone c h).2 hi
    · rw [hc] at h; simp at h
  | task a c l j l' x y z hk hb ih =>
    have hp : ∃ b, s.parent c = some b := by
      cases hpar : s.parent c with
      | none => rw [h4.taskPar c hpar] at hk; simp at hk
      | some b => exact ⟨b, rfl⟩
    obtain ⟨b, hb'⟩ := hp
    rcases h4.parB c b hb' with h | h
    · exact ih (hdone c h).1 (hdone c h).2 hi
    · exfalso
      have hfin := no_handle_all_finished hok hr a ha l x y j z
      cases hq : s.pc b <;> rw [hq] at h <;> simp [waitsFor] at h
      · subst h
        have := h4.callB b _ hq
        rw [this] at hk; simp at hk
      · subst h
        rename_i g m t _
        have ht := h4.taskB b _ _ _ _ hq
        rw [hk] at ht
        have ht' := Option.some.inj ht
        have hm := (h2.flight b g m).1 (by rw [hq]; rfl)
        obtain ⟨o, ho⟩ := owned h2 g m hm.1
        have r := h3.runs o g m ho hm.1
        have e := h3.calledInfo _ _ _ _ _ hq
        rw [← e, ← ht', hm.2] at r
        simp [fiN, hq, ended] at r
        omega

/-- Nothing goes wrong inside the task system: no group on the active list is without waiting tasks when one
    is taken from it (`assert(tg->waitingTasks.size() > 0)`), as long as no launch is empty. -/
theorem no_crash {ok : Nat → Prop} (hok : ∀ c, ok c → 0 < c) {n : Nat} {w : Nat → Bool} {s : St}
    (h : Reach ok n w s) : s.crash = false := (inv_reach hok h).2.2.2.noCrash

/-! ## Progress -/

/-- Sum of `f` below `k`. -/
def tot (f : Nat → Nat) : Nat → Nat
  | 0 => 0
  | k + 1 => tot f k + f k

theorem tot_le {f f' : Nat → Nat} (k : Nat) (h : ∀ b, b < k → f' b ≤ f b) : tot f' k ≤ tot f k := by
  induction k with
  | zero => exact Nat.le_refl _
  | succ k ih =>
    have := ih (fun b hb => h b (by omega))
    have := h k (by omega)
    simp only [tot]
    omega

theorem tot_eq (f : Nat → Nat) (a k : Nat) (h : a < k) : tot f k = tot (upd f a 0) k + f a := by
  induction k with
  | zero => omega
  | succ k ih =>
    simp only [tot]
    rcases Nat.lt_succ_iff_lt_or_eq.1 h with h' | h'
    · rw [ih h', upd_apply, if_neg (by omega)]
      omega
    · subst h'
      have : tot (upd f a 0) a = tot f a := by
        apply Nat.le_antisymm <;> apply tot_le <;> intro b hb <;> simp [Nat.ne_of_lt hb]
      rw [this]
      simp

theorem tot_lt {f f' : Nat → Nat} (a k : Nat) (ha : a < k) (h : ∀ b, b ≠ a → f' b ≤ f b) (hlt : f' a < f a) :
    tot f' k < tot f k := by
  rw [tot_eq f a k ha, tot_eq f' a k ha]
  have := tot_le (f := upd f a 0) (f' := upd f' a 0) k (by
    intro b _
    simp only [upd_apply]
    split
    · exact Nat.le_refl _
    · exact h b (by assumption))
  omega

theorem tot_lt2 {f f' : Nat → Nat} (a o k : Nat) (ha : a < k) (ho : o < k) (hne : a ≠ o)
    (h : ∀ b, b ≠ a → b ≠ o → f' b ≤ f b) (hlt : f' a + f' o < f a + f o) : tot f' k < tot f k := by
  rw [tot_eq f a k ha, tot_eq f' a k ha, tot_eq (upd f a 0) o k ho, tot_eq (upd f' a 0) o k ho]
  have := tot_le (f := upd (upd f a 0) o 0) (f' := upd (upd f' a 0) o 0) k (by
    intro b _
    simp only [upd_apply]
    split
    · exact Nat.le_refl _
    · split
      · exact Nat.le_refl _
      · apply h <;> assumption)
  have e1 : upd f a 0 o = f o := by rw [upd_apply, if_neg (fun x => hne x.symm)]
  have e2 : upd f' a 0 o = f' o := by rw [upd_apply, if_neg (fun x => hne x.symm)]
  omega

/-- Work left for a frame. -/
def pcw (h : Option Nat) : Pc → Nat
  | .idle | .woken | .done | .unborn => 0
  | .code => if h = none then 1 else 4
  | .calling _ => 5
  | .enq _ c => 7 + 11 * c
  | .add c => 6 + c
  | .post k => 5 + k
  | .sync | .lock => 3
  | .fetched _ _ => 7
  | .called _ _ _ _ => 5
  | .dec _ _ => 4

def held (s : St) (a : Nat) : Nat :=
  match s.handle a with
  | none => 0
  | some g => (s.waiting g).length

/-- Work left for an activation, with the tasks waiting in its group. -/
def wt (s : St) (a : Nat) : Nat := pcw (s.handle a) (s.pc a) + 10 * held s a

def busy : Pc → Prop
  | .idle | .woken | .done | .unborn => False
  | _ => True

/-- The state can move on to one with less work left, without new launches. -/
def Progress (ok : Nat → Prop) (s : St) : Prop :=
  ∃ s', Relation.ReflTransGen (Step ok) s s' ∧ s'.nl = s.nl ∧ tot (wt s') s'.na < tot (wt s) s.na

theorem progress_one {ok : Nat → Prop} {s s' : St} (hs : Step ok s s') (a : Nat) (hnl : s'.nl = s.nl)
    (hna : s'.na = s.na) (ha : a < s.na) (h : ∀ b, b ≠ a → wt s' b ≤ wt s b) (hlt : wt s' a < wt s a) :
    Progress ok s :=
  ⟨s', Relation.ReflTransGen.single hs, hnl, by rw [hna]; exact tot_lt a s.na ha h hlt⟩

/-- One frame moves to a place with less work left. -/
theorem progress_goto {ok : Nat → Prop} {s s' : St} (hs : Step ok s s') (a : Nat) (p : Pc) (ha : a < s.na)
    (hpc : s'.pc = upd s.pc a p) (hh : s'.handle = s.handle) (hw : s'.waiting = s.waiting) (hnl : s'.nl = s.nl)
    (hna : s'.na = s.na) (hlt : pcw (s.handle a) p < pcw (s.handle a) (s.pc a)) : Progress ok s := by
  apply progress_one hs a hnl hna ha
  · intro b hb
    simp only [wt, held, hpc, hh, hw, upd_apply, if_neg hb]
    exact Nat.le_refl _
  · simp only [wt, held, hpc, hh, hw, upd_apply, if_true]
    omega

theorem progress_start {ok : Nat → Prop} {s : St} (h1 : Inv1 s) (a g n : Nat) (hp : s.pc a = .fetched g n) :
    Progress ok s := by
  have ha := live_of_pc h1 a (by rw [hp]; simp)
  refine ⟨_, Relation.ReflTransGen.single (Step.start s a g n hp), rfl, ?_⟩
  have hna : s.handle s.na = none := by
    have := h1.frame s.na
    rw [h1.fresh s.na (Nat.le_refl _)] at this
    exact this.2
  show tot _ (s.na + 1) < _
  simp only [tot]
  have e : wt (s.startTask a g n) s.na = 1 := by
    simp [wt, held, St.startTask, St.spawn, hna, pcw]
  rw [e, tot_eq (wt s) a s.na ha, tot_eq (wt (s.startTask a g n)) a s.na ha]
  have e1 : wt (s.startTask a g n) a + 2 = wt s a := by
    have : a ≠ s.na := by omega
    simp only [wt, held, St.startTask, St.spawn, upd_apply, if_neg this, if_true, hp, pcw]
    omega
  have := tot_le (f := upd (wt s) a 0) (f' := upd (wt (s.startTask a g n)) a 0) s.na (by
    intro b hb
    simp only [upd_apply]
    split
    · exact Nat.le_refl _
    · rename_i hne
      have : b ≠ s.na := by omega
      simp only [wt, held, St.startTask, St.spawn, upd_apply, if_neg this, if_neg hne]
      exact Nat.le_refl _)
  omega

theorem progress_back {ok : Nat → Prop} {s : St} (h1 : Inv1 s) (h4 : Inv4 s) (a c : Nat)
    (hw : waitsFor (s.pc a) = some c) (hc : ¬ busy (s.pc c)) : Progress ok s := by
  have hcc := h4.childB a c hw
  have ha := live_of_pc h1 a (by intro h; rw [h] at hw; simp [waitsFor] at hw)
  have hd : s.pc c = .done := by
    have hf := h1.frame c
    rw [hcc.1] at hf
    cases hp : s.pc c <;> rw [hp] at hf hc <;> simp [busy, FrameOk] at hf hc
    exact absurd hp hcc.2
  cases hp : s.pc a <;> rw [hp] at hw <;> simp [waitsFor] at hw
  · subst hw
    exact progress_goto (Step.back s a _ hp hd) a .code ha rfl rfl rfl rfl rfl (by
      rw [hp]; simp only [pcw]; split <;> omega)
  · subst hw
    exact progress_goto (Step.finish s a _ _ _ _ hp hd) a (.dec _ _) ha rfl rfl rfl rfl rfl (by
      rw [hp]; simp only [pcw]; omega)

theorem progress_dec {ok : Nat → Prop} {s : St} (h1 : Inv1 s) (a g n : Nat) (hp : s.pc a = .dec g n) :
    Progress ok s :=
  progress_goto (Step.dec s a g n hp) a _ (live_of_pc h1 a (by rw [hp]; simp)) rfl rfl rfl rfl rfl (by
    rw [hp]; split <;> simp only [pcw] <;> omega)

theorem progress_exit {ok : Nat → Prop} {s : St} (h1 : Inv1 s) (a g : Nat) (hp : s.pc a = .sync)
    (hh : s.handle a = some g) (hu : s.unfin g ≤ 0) : Progress ok s := by
  apply progress_one (Step.syncExit s a g hp hh hu) a rfl rfl (live_of_pc h1 a (by rw [hp]; simp))
  · intro b hb
    simp only [wt, held, St.goto, upd_apply, if_neg hb]
    exact Nat.le_refl _
  · simp only [wt, held, St.goto, upd_apply, if_true, hp, pcw, hh]
    omega

theorem progress_lock {ok : Nat → Prop} {s : St} (h1 : Inv1 s) (h2 : Inv2 s) (h4 : Inv4 s) (a g : Nat)
    (hp : s.pc a = .lock) (hh : s.handle a = some g) (hmax : ∀ b, a < b → ¬ busy (s.pc b)) : Progress ok s := by
  have ha := live_of_pc h1 a (by rw [hp]; simp)
  cases hw : s.waiting g with
  | cons n ns =>
    apply progress_one (Step.lockOwn s a g n ns hp hh hw) a rfl rfl ha
    · intro b hb
      simp only [wt, held, St.take, upd_apply, if_neg hb]
      cases hhb : s.handle b with
      | none => exact Nat.le_refl _
      | some x =>
        have : x ≠ g := by rintro rfl; exact hb (h1.huniq _ _ _ hhb hh)
        simp only [if_neg this]
        exact Nat.le_refl _
    · simp only [wt, held, St.take, upd_apply, if_true, hp, hh, hw, pcw, List.length_cons]
      omega
  | nil =>
    cases hact : s.active with
    | cons g' rest =>
      have hne := (h2.actIff g').1 (by rw [hact]; simp)
      cases hw' : s.waiting g' with
      | nil => exact absurd hw' hne
      | cons n ns =>
        have hgg : g' ≠ g := by rintro rfl; rw [hw] at hw'; simp at hw'
        have hlt : n < s.next g' := ((h2.waitIff g' n).1 (by rw [hw']; simp)).1
        obtain ⟨o, ho⟩ := owned h2 g' n hlt
        have hao : a ≠ o := by rintro rfl; rw [hh] at ho; exact hgg (Option.some.inj ho).symm
        refine ⟨_, Relation.ReflTransGen.single (Step.lockOther s a g g' rest n ns hp hh hw hact hw'), rfl, ?_⟩
        apply tot_lt2 a o _ ha (live_of_handle h1 o g' ho) hao
        · intro b hb hbo
          simp only [wt, held, St.take, upd_apply, if_neg hb]
          cases hhb : s.handle b with
          | none => exact Nat.le_refl _
          | some x =>
            have : x ≠ g' := by rintro rfl; exact hbo (h1.huniq _ _ _ hhb ho)
            simp only [if_neg this]
            exact Nat.le_refl _
        · simp only [wt, held, St.take, upd_apply, if_true, hp, hh, hw, ho, hw', pcw, List.length_cons,
            if_neg (fun x : o = a => hao x.symm), if_neg (fun x : g = g' => hgg x.symm), List.length_nil]
          omega
    | nil =>
      by_cases hu : s.unfin g ≤ 0
      · have st := Step.lockNone (ok := ok) s a g hp hh hw hact
        have i1 := inv1_step h1 st
        obtain ⟨s', r, e1, e2⟩ := progress_exit (ok := ok) (s := s.goto a .sync) i1 a g (by simp [St.goto]) hh hu
        refine ⟨s', Relation.ReflTransGen.head st r, e1, Nat.lt_of_lt_of_le e2 ?_⟩
        apply tot_le
        intro b _
        simp only [wt, held, St.goto, upd_apply]
        split
        · rename_i h; subst h; rw [hp]; exact Nat.le_refl _
        · exact Nat.le_refl _
      · -- some number of this group is not over
        have hc := h2.count a g hh
        rw [hp] at hc
        simp only [unadded] at hc
        have : ∃ m, m < s.next g ∧ s.stat g m ≠ .over := by
          by_contra hn
          have : ovr (s.stat g) (s.next g) = s.next g := by
            rw [ovr_congr (s.stat g) (fun _ => .over) (s.next g) (by
              intro m hm
              simp only [iff_true]
              by_contra h
              exact hn ⟨m, hm, h⟩)]
            generalize s.next g = k
            induction k with
            | zero => rfl
            | succ k ih => rw [ovr_succ, ih]; rfl
          omega
        obtain ⟨m, hm, hm'⟩ := this
        cases hs : s.stat g m with
        | over => exact absurd hs hm'
        | waiting =>
          have := (h2.waitIff g m).2 ⟨hm, hs⟩
          rw [hw] at this
          simp at this
        | pending =>
          obtain ⟨b, base, cnt, y1, y2, _⟩ := (h2.pend g m).1 ⟨hm, hs⟩
          have := h1.huniq _ _ _ y1 hh
          subst this
          rw [hp] at y2
          simp at y2
        | flight b =>
          have hb := (h2.flight b g m).2 ⟨hm, hs⟩
          cases hq : s.pc b <;> rw [hq] at hb <;> simp [flies] at hb
          · exact progress_start h1 b _ _ hq
          · rename_i g' m' t c
            obtain ⟨rfl, rfl⟩ := hb
            exact progress_back h1 h4 b c (by rw [hq]; rfl) (hmax c (h4.born a b g' m' t c hq hh))
          · exact progress_dec h1 b _ _ hq

theorem progress {ok : Nat → Prop} {s : St} (hok : ∀ c, ok c → 0 < c) (h1 : Inv1 s) (h2 : Inv2 s)
    (h4 : Inv4 s) (a : Nat) (hb : busy (s.pc a)) (hmax : ∀ b, a < b → ¬ busy (s.pc b)) : Progress ok s := by
  have ha := live_of_pc h1 a (by intro h; rw [h] at hb; exact hb)
  have hf := h1.frame a
  have hsome : s.handle a ≠ none → ∃ g, s.handle a = some g := fun h => by
    cases hh : s.handle a with
    | none => exact absurd hh h
    | some g => exact ⟨g, rfl⟩
  cases hp : s.pc a with
  | idle => rw [hp] at hb; exact hb.elim
  | woken => rw [hp] at hb; exact hb.elim
  | done => rw [hp] at hb; exact hb.elim
  | unborn => rw [hp] at hb; exact hb.elim
  | code =>
    cases hh : s.handle a with
    | none => exact progress_goto (Step.ret s a hp hh) a .done ha rfl rfl rfl rfl rfl (by rw [hp, hh]; simp [pcw])
    | some g =>
      exact progress_goto (Step.syncStart s a g hp hh) a .sync ha rfl rfl rfl rfl rfl (by rw [hp, hh]; simp [pcw])
  | calling c => exact progress_back h1 h4 a c (by rw [hp]; rfl) (hmax c (h1.child a c (by rw [hp]; rfl)).1)
  | called g n t c => exact progress_back h1 h4 a c (by rw [hp]; rfl) (hmax c (h1.child a c (by rw [hp]; rfl)).1)
  | fetched g n => exact progress_start h1 a g n hp
  | dec g n => exact progress_dec h1 a g n hp
  | enq base cnt =>
    rw [hp] at hf
    obtain ⟨g, hh⟩ := hsome hf.2
    apply progress_one (Step.enqueue s a g base cnt hp hh) a rfl rfl ha
    · intro b hb
      simp only [wt, held, St.enqueue, upd_apply, if_neg hb]
      cases hhb : s.handle b with
      | none => exact Nat.le_refl _
      | some x =>
        have : x ≠ g := by rintro rfl; exact hb (h1.huniq _ _ _ hhb hh)
        simp only [if_neg this]
        exact Nat.le_refl _
    · simp only [wt, held, St.enqueue, upd_apply, if_true, hp, hh, pcw, List.length_append, List.length_reverse,
        List.length_range']
      omega
  | add cnt =>
    rw [hp] at hf
    obtain ⟨g, hh⟩ := hsome hf.2
    exact progress_goto (Step.add s a g cnt hp hh) a (.post cnt) ha rfl rfl rfl rfl rfl (by rw [hp]; simp [pcw])
  | post k =>
    rw [hp] at hf
    cases k with
    | zero =>
      exact progress_goto (Step.postEnd s a hp) a .code ha rfl rfl rfl rfl rfl (by
        rw [hp]; simp only [pcw]; split <;> omega)
    | succ k =>
      exact progress_goto (Step.post s a k hp) a (.post k) ha rfl rfl rfl rfl rfl (by rw [hp]; simp [pcw])
  | sync =>
    rw [hp] at hf
    obtain ⟨g, hh⟩ := hsome hf.2
    by_cases hu : s.unfin g ≤ 0
    · exact progress_exit h1 a g hp hh hu
    · have st := Step.syncHelp (ok := ok) s a g hp hh (by omega)
      obtain ⟨s', r, e1, e2⟩ := progress_lock (ok := ok) (s := s.goto a .lock) (inv1_step h1 st)
        (inv2_step hok h1 h2 st) (inv4_step h1 h2 h4 st) a g (by simp [St.goto]) hh (by
          intro b hb
          simp only [St.goto, upd_apply, if_neg (Nat.ne_of_gt hb)]
          exact hmax b hb)
      refine ⟨s', Relation.ReflTransGen.head st r, e1, Nat.lt_of_lt_of_le e2 ?_⟩
      apply tot_le
      intro b _
      simp only [wt, held, St.goto, upd_apply]
      split
      · rename_i h; subst h; rw [hp]; exact Nat.le_refl _
      · exact Nat.le_refl _
  | lock =>
    rw [hp] at hf
    obtain ⟨g, hh⟩ := hsome hf.2
    exact progress_lock h1 h2 h4 a g hp hh hmax

theorem reach_trans {ok : Nat → Prop} {n : Nat} {w : Nat → Bool} {s s' : St} (h : Reach ok n w s)
    (r : Relation.ReflTransGen (Step ok) s s') : Reach ok n w s' := by
  induction r with
  | refl => exact h
  | tail _ st ih => exact .step _ _ ih st

/-- The system never gets stuck: from every reachable state it can go on, without any further launch, to one
    in which every task launched so far has run exactly once, to the end, and every function has returned.
    (So no deadlock between threads waiting in `sync`, and no task is lost.) -/
theorem can_always_finish {ok : Nat → Prop} (hok : ∀ c, ok c → 0 < c) {n : Nat} {w : Nat → Bool} {s : St}
    (h : Reach ok n w s) :
    ∃ s', Relation.ReflTransGen (Step ok) s s' ∧ s'.nl = s.nl ∧ (∀ a, ¬ busy (s'.pc a)) ∧
      ∀ l i, l < s'.nl → i < s'.lsize l →
        s'.started (s'.taskOf l i) = 1 ∧ s'.finished (s'.taskOf l i) = 1 := by
  generalize hk : tot (wt s) s.na = k
  induction k using Nat.strong_induction_on generalizing s with
  | _ k ih =>
    obtain ⟨h1, h2, h3, h4⟩ := inv_reach hok h
    by_cases hb : ∃ a, busy (s.pc a)
    · -- the youngest busy activation
      have : ∃ a, busy (s.pc a) ∧ ∀ b, a < b → ¬ busy (s.pc b) := by
        by_contra hn
        have hstep : ∀ j, ∃ a, j ≤ a ∧ busy (s.pc a) := by
          intro j
          induction j with
          | zero => obtain ⟨a, ha⟩ := hb; exact ⟨a, Nat.zero_le _, ha⟩
          | succ j ihj =>
            obtain ⟨a, h1, h2⟩ := ihj
            by_contra hn2
            apply hn
            refine ⟨a, h2, fun b hab hbb => hn2 ⟨b, by omega, hbb⟩⟩
        obtain ⟨a, ha, hb'⟩ := hstep s.na
        rw [h1.fresh a ha] at hb'
        exact hb'
      obtain ⟨a, ha, hmax⟩ := this
      obtain ⟨s', r, e1, e2⟩ := progress hok h1 h2 h4 a ha hmax
      obtain ⟨s'', r', e3, e4, e5⟩ := ih _ (by omega) (reach_trans h r) rfl
      exact ⟨s'', r.trans r', by omega, e4, e5⟩
    · refine ⟨s, .refl, rfl, fun a ha => hb ⟨a, ha⟩, ?_⟩
      intro l i hl hi
      apply no_handle_all_finished hok h (s.launcher l) _ l hl rfl i hi
      have hf := h1.frame (s.launcher l)
      have hnb : ¬ busy (s.pc (s.launcher l)) := fun x => hb ⟨_, x⟩
      cases hp : s.pc (s.launcher l) <;> rw [hp] at hf hnb <;> simp [busy, FrameOk] at hf hnb <;> exact hf.2

/-! ## Concrete runs -/

/-- What an activation does next where the program has a choice. -/
inductive Choice where
  | go | alloc (g : Nat) | launch (arg cnt : Nat) | sync | call | ret

/-- The next step of activation `a`, as a function. -/
def exec (okb : Nat → Bool) (s : St) (a : Nat) (ch : Choice) : Option St :=
  match s.pc a with
  | .idle => if 0 < s.sem then some { s.goto a .woken with sem := s.sem - 1 } else none
  | .woken =>
    match s.active with
    | [] => some (s.goto a .idle)
    | g :: rest =>
      match s.waiting g with
      | [] => some { s with crash := true }
      | n :: ns => some (s.take a g n ns rest)
  | .code =>
    match ch with
    | .go => none
    | .alloc g =>
      if s.handle a = none ∧ ∀ b, b < s.na → s.handle b ≠ some g
      then some { s with handle := upd s.handle a (some g) } else none
    | .launch arg cnt =>
      match s.handle a with
      | none => none
      | some g => if okb cnt then some (s.launch a g arg cnt) else none
    | .sync =>
      match s.handle a with
      | none => none
      | some _ => some (s.goto a .sync)
    | .call => some (s.spawn a (.calling s.na) none)
    | .ret => if s.handle a = none then some (s.goto a .done) else none
  | .calling c => match s.pc c with
    | .done => some (s.goto a .code)
    | _ => none
  | .enq base cnt =>
    match s.handle a with
    | none => none
    | some g => some (s.enqueue a g base cnt)
  | .add cnt =>
    match s.handle a with
    | none => none
    | some g => some { s.goto a (.post cnt) with unfin := upd s.unfin g (s.unfin g + cnt) }
  | .post 0 => some (s.goto a .code)
  | .post (k + 1) => some { s.goto a (.post k) with sem := s.sem + 1 }
  | .sync =>
    match s.handle a with
    | none => none
    | some g =>
      if s.unfin g ≤ 0 then
        some { s.goto a .code with
          handle := upd s.handle a none
          next := upd s.next g 0 }
      else some (s.goto a .lock)
  | .lock =>
    match s.handle a with
    | none => none
    | some g =>
      match s.waiting g with
      | n :: ns => some (s.take a g n ns (s.active.erase g))
      | [] =>
        match s.active with
        | [] => some (s.goto a .sync)
        | g' :: rest =>
          match s.waiting g' with
          | [] => some { s with crash := true }
          | n :: ns => some (s.take a g' n ns rest)
  | .fetched g n => some (s.startTask a g n)
  | .called g n t c => match s.pc c with
    | .done => some { s.goto a (.dec g n) with finished := bump s.finished t }
    | _ => none
  | .dec g n =>
    some { s.goto a (if s.worker a then .idle else .sync) with
      unfin := upd s.unfin g (s.unfin g - 1)
      stat := upd2 s.stat g n .over }
  | .done => none
  | .unborn => none

theorem exec_step {okb : Nat → Bool} {s s' : St} (h1 : Inv1 s) (a : Nat) (ch : Choice)
    (h : exec okb s a ch = some s') : Step (fun c => okb c = true) s s' := by
  unfold exec at h
  split at h
  · split at h
    · cases h; exact .wake s a (by assumption) (by assumption)
    · simp at h
  · split at h
    · cases h; exact .wokenNone s a (by assumption) (by assumption)
    · split at h
      · cases h; exact .wokenCrash s a _ _ (by assumption) (by assumption) (by assumption)
      · cases h; exact .wokenTake s a _ _ _ _ (by assumption) (by assumption) (by assumption)
  · split at h
    · simp at h
    · split at h
      · rename_i hc
        cases h
        refine .allocGroup s a _ (by assumption) hc.1 ?_
        intro b hb
        exact hc.2 b (live_of_handle h1 b _ hb) hb
      · simp at h
    · split at h
      · simp at h
      · split at h
        · cases h; exact .launch s a _ _ _ (by assumption) (by assumption) (by assumption)
        · simp at h
    · split at h
      · simp at h
      · cases h; exact .syncStart s a _ (by assumption) (by assumption)
    · cases h; exact .call s a (by assumption)
    · split at h
      · cases h; exact .ret s a (by assumption) (by assumption)
      · simp at h
  · split at h
    · cases h; exact .back s a _ (by assumption) (by assumption)
    · simp at h
  · split at h
    · simp at h
    · cases h; exact .enqueue s a _ _ _ (by assumption) (by assumption)
  · split at h
    · simp at h
    · cases h; exact .add s a _ _ (by assumption) (by assumption)
  · cases h; exact .postEnd s a (by assumption)
  · cases h; exact .post s a _ (by assumption)
  · split at h
    · simp at h
    · split at h
      · cases h; exact .syncExit s a _ (by assumption) (by assumption) (by assumption)
      · cases h; exact .syncHelp s a _ (by assumption) (by assumption) (by omega)
  · split at h
    · simp at h
    · split at h
      · cases h; exact .lockOwn s a _ _ _ (by assumption) (by assumption) (by assumption)
      · split at h
        · cases h; exact .lockNone s a _ (by assumption) (by assumption) (by assumption) (by assumption)
        · split at h
          · cases h
            exact .lockCrash s a _ _ _ (by assumption) (by assumption) (by assumption) (by assumption)
              (by assumption)
          · cases h
            exact .lockOther s a _ _ _ _ _ (by assumption) (by assumption) (by assumption) (by assumption)
              (by assumption)
  · cases h; exact .start s a _ _ (by assumption)
  · split at h
    · cases h; exact .finish s a _ _ _ _ (by assumption) (by assumption)
    · simp at h
  · cases h; exact .dec s a _ _ (by assumption)
  · simp at h
  · simp at h

/-- A sequence of steps. -/
def execs (okb : Nat → Bool) : List (Nat × Choice) → St → Option St
  | [], s => some s
  | (a, ch) :: r, s => (exec okb s a ch).bind (execs okb r)

theorem reach_inv1 {ok : Nat → Prop} {n : Nat} {w : Nat → Bool} {s : St} (h : Reach ok n w s) : Inv1 s := by
  induction h with
  | init => exact inv1_init n w
  | step s s' _ hs ih => exact inv1_step ih hs

theorem execs_reach {okb : Nat → Bool} {n : Nat} {w : Nat → Bool} (l : List (Nat × Choice)) {s s' : St}
    (h : Reach (fun c => okb c = true) n w s) (he : execs okb l s = some s') :
    Reach (fun c => okb c = true) n w s' := by
  induction l generalizing s with
  | nil => cases he; exact h
  | cons x r ih =>
    obtain ⟨a, ch⟩ := x
    simp only [execs] at he
    cases hx : exec okb s a ch with
    | none => rw [hx] at he; simp at he
    | some s1 =>
      rw [hx] at he
      exact ih (.step _ _ h (exec_step (reach_inv1 h) a ch hx)) he

/-- One application thread (activation 0), one worker (activation 1): two tasks are launched, the worker
    runs one, the waiting thread runs the other, spins, and returns from `sync`. -/
def sampleRun : List (Nat × Choice) :=
  [(0, .alloc 0), (0, .launch 7 2), (0, .go), (0, .go), (0, .go), (0, .go), (0, .go),
   (1, .go), (1, .go), (1, .go),
   (0, .sync), (0, .go), (0, .go), (0, .go), (3, .ret), (0, .go), (0, .go), (0, .go), (0, .go),
   (2, .ret), (1, .go), (1, .go)]

theorem run_reach {okb : Nat → Bool} {n : Nat} {w : Nat → Bool} (l : List (Nat × Choice)) {β : Type} (f : St → β)
    (v : β) (h : (execs okb l (init n w)).map f = some v) :
    ∃ s, Reach (fun c => okb c = true) n w s ∧ execs okb l (init n w) = some s ∧ f s = v := by
  cases he : execs okb l (init n w) with
  | none => rw [he] at h; simp at h
  | some s =>
    rw [he] at h
    exact ⟨s, execs_reach l .init he, rfl, Option.some.inj h⟩

/-- The hypotheses of `sync_waits` (and of the other theorems) are met: after `sampleRun` activation 0 is
    at the test in `sync`, and its next step returns, with two tasks launched and run. -/
example : ∃ s s', Reach (fun c => decide (0 < c) = true) 2 (fun a => a == 1) s ∧
    Step (fun c => decide (0 < c) = true) s s' ∧
    s.pc 0 = .sync ∧ s'.pc 0 = .code ∧ s'.nl = 1 ∧ s'.launcher 0 = 0 ∧ s'.lsize 0 = 2 ∧
    s'.finished ⟨0, 7, 1, 2⟩ = 1 ∧ s'.sem = 1 := by
  obtain ⟨s, hr, he, hv⟩ := run_reach (okb := fun c => decide (0 < c)) (n := 2) (w := fun a => a == 1) sampleRun
    (fun s : St => (decide (s.pc 0 = .sync),
      (exec (fun c => decide (0 < c)) s 0 .go).map (fun s' : St => decide (s'.pc 0 = .code ∧ s'.nl = 1 ∧
        s'.launcher 0 = 0 ∧ s'.lsize 0 = 2 ∧ s'.finished ⟨0, 7, 1, 2⟩ = 1 ∧ s'.sem = 1))))
    (true, some true) (by decide +kernel)
  rw [Prod.mk.injEq] at hv
  obtain ⟨h1, h2⟩ := hv
  cases hx : exec (fun c => decide (0 < c)) s 0 .go with
  | none => rw [hx] at h2; simp at h2
  | some s' =>
    rw [hx] at h2
    exact ⟨s, s', hr, exec_step (reach_inv1 hr) 0 .go hx, of_decide_eq_true h1,
      of_decide_eq_true (Option.some.inj h2)⟩

/-- The worker was woken by a task that the launching thread has run itself; then an empty launch. -/
def emptyRun : List (Nat × Choice) :=
  [(0, .alloc 0), (0, .launch 7 1), (0, .go), (0, .go), (0, .go), (0, .go),
   (0, .sync), (0, .go), (0, .go), (0, .go), (2, .ret), (0, .go), (0, .go), (0, .go),
   (0, .alloc 0), (0, .launch 7 0), (0, .go), (1, .go), (1, .go)]

/-- `launch[0] f()` breaks the task system: a group without waiting tasks is put on the active list, and the
    next thread that looks for work fails `assert(tg->waitingTasks.size() > 0)` (without assertions: reads
    the last element of an empty vector).  So the theorems above need `0 < c`. -/
theorem empty_launch_crash :
    ∃ s, Reach (fun _ => True) 2 (fun a => a == 1) s ∧ s.crash = true := by
  obtain ⟨s, hr, _, hv⟩ := run_reach (okb := fun _ => true) (n := 2) (w := fun a => a == 1) emptyRun
    (fun s => s.crash) true (by decide +kernel)
  refine ⟨s, ?_, hv⟩
  have : (fun _ : Nat => (true = true)) = (fun _ => True) := by funext; simp
  rw [this] at hr
  exact hr

/-- A function that launches, with a task that launches, both below activation 0: the hypotheses of
    `done_below` are met at depth two. -/
def nestedRun : List (Nat × Choice) :=
  [(0, .call), (2, .alloc 0), (2, .launch 7 1), (2, .go), (2, .go), (2, .go), (2, .go),
   (2, .sync), (2, .go), (2, .go), (2, .go),
   (3, .alloc 1), (3, .launch 8 1), (3, .go), (3, .go), (3, .go), (3, .go), (1, .go), (1, .go), (1, .go), (4, .ret),
   (1, .go), (1, .go), (3, .sync), (3, .go), (3, .ret), (2, .go), (2, .go), (2, .go), (2, .ret), (0, .go)]

example : ∃ s, Reach (fun c => decide (0 < c) = true) 2 (fun a => a == 1) s ∧ Below s 0 1 ∧
    s.handle 0 = none ∧ waitsFor (s.pc 0) = none ∧ 0 < s.lsize 1 := by
  obtain ⟨s, hr, _, hv⟩ := run_reach (okb := fun c => decide (0 < c)) (n := 2) (w := fun a => a == 1) nestedRun
    (fun s : St => decide (s.nl = 2 ∧ s.launcher 0 = 2 ∧ s.launcher 1 = 3 ∧ s.lsize 0 = 1 ∧ s.parent 2 = some 0 ∧
      s.task 2 = none ∧ s.task 3 = some (s.taskOf 0 0) ∧ s.handle 0 = none ∧ s.pc 0 = .code ∧ s.lsize 1 = 1))
    true (by decide +kernel)
  obtain ⟨e1, e2, e3, e4, e5, e6, e7, e8, e9, e10⟩ := of_decide_eq_true hv
  refine ⟨s, hr, ?_, e8, by rw [e9]; rfl, by omega⟩
  exact .callee 0 2 1 e5 e6 (.task 2 3 0 0 1 (by omega) e2 (by omega) e7 (.own 3 1 (by omega) e3))

end Ispc.Sched
