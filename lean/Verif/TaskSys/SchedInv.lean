import Verif.TaskSys.Sched
import Mathlib.Data.List.Nodup

/-!
# Invariants of the task system

Proof-side only: the properties are stated in `Verif/TaskSys/SchedProps.lean`.
-/

namespace Ispc.Sched

/-- What kind of frame may be where. -/
def FrameOk (w : Bool) (h : Option Nat) : Pc → Prop
  | .idle | .woken => w = true ∧ h = none
  | .code | .calling _ => w = false
  | .done | .unborn => w = false ∧ h = none
  | .fetched _ _ | .called _ _ _ _ | .dec _ _ => (w = true ∧ h = none) ∨ (w = false ∧ h ≠ none)
  | .enq _ _ | .add _ | .post _ | .sync | .lock => w = false ∧ h ≠ none

/-- The activation a frame waits for. -/
def waitsFor : Pc → Option Nat
  | .calling c | .called _ _ _ c => some c
  | _ => none

/-- The task number a frame has in hand. -/
def flies : Pc → Option (Nat × Nat)
  | .fetched g n | .called g n _ _ | .dec g n => some (g, n)
  | _ => none

/-- Tasks of a launch not yet added to the count of unfinished tasks. -/
def unadded : Pc → Nat
  | .enq _ c | .add c => c
  | _ => 0

/-- Handles and frames. -/
structure Inv1 (s : St) : Prop where
  huniq : ∀ a b g, s.handle a = some g → s.handle b = some g → a = b
  frame : ∀ a, FrameOk (s.worker a) (s.handle a) (s.pc a)
  fresh : ∀ a, s.na ≤ a → s.pc a = .unborn
  child : ∀ a c, waitsFor (s.pc a) = some c → a < c ∧ c < s.na

theorem FrameOk.fetch {w : Bool} {h : Option Nat} (g n : Nat)
    (hf : FrameOk w h .woken ∨ FrameOk w h .lock) : FrameOk w h (.fetched g n) := by
  simp only [FrameOk] at *
  tauto

theorem inv1_init (n : Nat) (w : Nat → Bool) : Inv1 (init n w) := by
  constructor
  · intro a b g h; simp [init] at h
  · intro a; simp only [init]; by_cases h : a < n <;> cases hw : w a <;> simp [h, FrameOk]
  · intro a h; simp only [init] at *; simp [Nat.not_lt.2 h]
  · intro a c h; simp only [init] at h; by_cases h' : a < n <;> cases hw : w a <;> simp [h', hw, waitsFor] at h

theorem inv1_step {ok : Nat → Prop} {s s' : St} (hi : Inv1 s) (hs : Step ok s s') : Inv1 s' := by
  obtain ⟨h1, h2, h3, h4⟩ := hi
  have hlive : ∀ a, s.pc a ≠ .unborn → a < s.na := fun a h => by
    by_contra h'; exact h (h3 a (by omega))
  cases hs <;>
    refine ⟨?_, ?_, ?_, ?_⟩ <;>
    simp only [St.goto, St.take, St.spawn, St.startTask, St.launch, St.enqueue] <;> 
    grind [FrameOk, waitsFor]

/-! ## Queues and the count of unfinished tasks -/

/-- How many of the numbers below `k` are over. -/
def ovr (st : Nat → Loc) (k : Nat) : Nat := (List.range k).countP (fun n => decide (st n = .over))

theorem ovr_zero (st : Nat → Loc) : ovr st 0 = 0 := rfl

theorem ovr_succ (st : Nat → Loc) (k : Nat) : ovr st (k + 1) = ovr st k + (if st k = .over then 1 else 0) := by
  simp [ovr, List.range_succ, List.countP_append, List.countP_cons]

theorem ovr_le (st : Nat → Loc) (k : Nat) : ovr st k ≤ k := by
  induction k with
  | zero => simp [ovr_zero]
  | succ k ih => rw [ovr_succ]; split <;> omega

theorem ovr_all (st : Nat → Loc) (k : Nat) (h : ovr st k = k) : ∀ n, n < k → st n = .over := by
  induction k with
  | zero => intro n hn; omega
  | succ k ih =>
    rw [ovr_succ] at h
    have := ovr_le st k
    intro n hn
    split at h
    · rcases Nat.lt_succ_iff_lt_or_eq.1 hn with h' | h'
      · exact ih (by omega) n h'
      · subst h'; assumption
    · omega

theorem ovr_congr (st st' : Nat → Loc) (k : Nat) (h : ∀ n, n < k → (st n = .over ↔ st' n = .over)) :
    ovr st k = ovr st' k := by
  induction k with
  | zero => rfl
  | succ k ih =>
    rw [ovr_succ, ovr_succ, ih (fun n hn => h n (by omega))]
    have := h k (by omega)
    by_cases h' : st k = .over
    · rw [if_pos h', if_pos (this.1 h')]
    · rw [if_neg h', if_neg (fun x => h' (this.2 x))]

theorem ovr_upd (st : Nat → Loc) (k n : Nat) (hn : n < k) (h : st n ≠ .over) :
    ovr (upd st n .over) k = ovr st k + 1 := by
  induction k with
  | zero => omega
  | succ k ih =>
    rw [ovr_succ, ovr_succ]
    rcases Nat.lt_succ_iff_lt_or_eq.1 hn with h' | h'
    · rw [ih h']
      have : upd st n .over k = st k := by rw [upd_apply, if_neg (by omega)]
      rw [this]; omega
    · subst h'
      rw [ovr_congr (upd st n .over) st n (fun m hm => by rw [upd_apply, if_neg (by omega)])]
      simp [h]

theorem ovr_add (st : Nat → Loc) (k c : Nat) (h : ∀ n, k ≤ n → st n ≠ .over) : ovr st (k + c) = ovr st k := by
  induction c with
  | zero => rfl
  | succ c ih => rw [← Nat.add_assoc, ovr_succ, ih, if_neg (h _ (by omega)), Nat.add_zero]

/-- Queues, task numbers in hand, and the count of unfinished tasks. -/
structure Inv2 (s : St) : Prop where
  actNodup : s.active.Nodup
  actIff : ∀ g, g ∈ s.active ↔ s.waiting g ≠ []
  inActIff : ∀ g, s.inAct g = true ↔ s.waiting g ≠ []
  free : ∀ g, (∀ a, s.handle a ≠ some g) → s.next g = 0 ∧ s.unfin g = 0
  waitNodup : ∀ g, (s.waiting g).Nodup
  waitIff : ∀ g n, n ∈ s.waiting g ↔ n < s.next g ∧ s.stat g n = .waiting
  flight : ∀ a g n, flies (s.pc a) = some (g, n) ↔ n < s.next g ∧ s.stat g n = .flight a
  pend : ∀ g n, (n < s.next g ∧ s.stat g n = .pending) ↔
    ∃ a base cnt, s.handle a = some g ∧ s.pc a = .enq base cnt ∧ base ≤ n ∧ n < base + cnt
  enqNext : ∀ a g base cnt, s.pc a = .enq base cnt → s.handle a = some g → base + cnt = s.next g ∧ 0 < cnt
  count : ∀ a g, s.handle a = some g →
    s.unfin g = (s.next g : Int) - (ovr (s.stat g) (s.next g) : Int) - (unadded (s.pc a) : Int)

theorem inv2_init (n : Nat) (w : Nat → Bool) : Inv2 (init n w) := by
  constructor <;> simp [init, ovr_zero]
  intro a g n_1
  by_cases h' : a < n <;> cases hw : w a <;> simp [h', flies]

/-- Steps that change only the place of one activation, between places that hold no task number and owe
    nothing to the count. -/
theorem inv2_goto {s : St} (hi : Inv2 s) (a : Nat) (p : Pc) (h1 : flies (s.pc a) = flies p)
    (h2 : unadded (s.pc a) = unadded p) (h3 : ∀ b c, s.pc a ≠ .enq b c) (h4 : ∀ b c, p ≠ .enq b c) :
    Inv2 (s.goto a p) := by
  obtain ⟨i1, i2, i3, i4, i5, i6, i7, i8, i9, i10⟩ := hi
  refine ⟨i1, i2, i3, i4, i5, i6, ?_, ?_, ?_, ?_⟩
  · intro b g n
    have := i7 b g n
    simp only [St.goto, upd_apply]
    split <;> simp_all
  · intro g n
    have := i8 g n
    simp only [St.goto, upd_apply]
    rw [this]
    constructor
    · rintro ⟨b, base, cnt, x1, x2, x3⟩
      have : b ≠ a := by rintro rfl; exact h3 _ _ x2
      exact ⟨b, base, cnt, x1, by simpa [this] using x2, x3⟩
    · rintro ⟨b, base, cnt, x1, x2, x3⟩
      have : b ≠ a := by rintro rfl; simp only [if_true] at x2; exact h4 _ _ x2
      exact ⟨b, base, cnt, x1, by simpa [this] using x2, x3⟩
  · intro b g base cnt hb
    simp only [St.goto, upd_apply] at *
    split at hb
    · exact absurd hb (h4 _ _)
    · exact i9 b g base cnt hb
  · intro b g hb
    have := i10 b g hb
    simp only [St.goto, upd_apply]
    split <;> simp_all

theorem inv2_take {s : St} (h1 : Inv1 s) (hi : Inv2 s) (a g n : Nat) (ns act' : List Nat)
    (hw : s.waiting g = n :: ns) (hact : act' = s.active.erase g) (hp : s.pc a = .woken ∨ s.pc a = .lock) :
    Inv2 (s.take a g n ns act') := by
  obtain ⟨i1, i2, i3, i4, i5, i6, i7, i8, i9, i10⟩ := hi
  have hn : n < s.next g ∧ s.stat g n = .waiting := (i6 g n).1 (by simp [hw])
  have hnd := i5 g
  rw [hw] at hnd
  subst hact
  have hmem : ∀ x, x ∈ s.active.erase g ↔ x ≠ g ∧ x ∈ s.active := fun x => i1.mem_erase_iff
  refine ⟨?_, ?_, ?_, ?_, ?_, ?_, ?_, ?_, ?_, ?_⟩ <;> simp only [St.take]
  · split
    · exact i1.erase g
    · exact i1
  · intro x; split <;> grind
  · intro x; split <;> grind
  · exact i4
  · intro x; grind
  · intro x m
    have := i6 x m
    grind
  · intro b x m
    have := i7 b x m
    have := i7 a x m
    grind [flies]
  · intro x m
    have := i8 x m
    grind
  · grind
  · intro b x hb
    have := i10 b x hb
    have e : ovr (upd2 s.stat g n (.flight a) x) (s.next x) = ovr (s.stat x) (s.next x) := by
      apply ovr_congr
      intro m hm
      grind
    rw [e, this]
    grind [unadded]

theorem inv2_spawn {s : St} (h1 : Inv1 s) (hi : Inv2 s) (a : Nat) (p : Pc) (t : Option TaskInfo)
    (hf : flies (s.pc a) = flies p) (h2 : unadded (s.pc a) = unadded p) (h3 : ∀ b c, s.pc a ≠ .enq b c)
    (h4 : ∀ b c, p ≠ .enq b c) (ha : s.pc a ≠ .unborn) : Inv2 (s.spawn a p t) := by
  have hlt : a < s.na := by
    by_contra h'; exact ha (h1.fresh a (by omega))
  have hna := h1.fresh s.na (by omega)
  have g1 := inv2_goto hi a p hf h2 h3 h4
  have hna' : (s.goto a p).pc s.na = .unborn := by simp only [St.goto, upd_apply]; rw [if_neg (by omega), hna]
  have g2 := inv2_goto g1 s.na .code (by rw [hna']; rfl) (by rw [hna']; rfl) (by rw [hna']; simp) (by simp)
  exact ⟨g2.1, g2.2, g2.3, g2.4, g2.5, g2.6, g2.7, g2.8, g2.9, g2.10⟩

theorem inv2_dec {s : St} (hi : Inv2 s) (a g n : Nat) (hp : s.pc a = .dec g n)
    (p : Pc) (hp1 : p = .idle ∨ p = .sync) :
    Inv2 { s.goto a p with
        unfin := upd s.unfin g (s.unfin g - 1)
        stat := upd2 s.stat g n .over } := by
  obtain ⟨i1, i2, i3, i4, i5, i6, i7, i8, i9, i10⟩ := hi
  have hn : n < s.next g ∧ s.stat g n = .flight a := (i7 a g n).1 (by simp [hp, flies])
  refine ⟨i1, i2, i3, ?_, i5, ?_, ?_, ?_, ?_, ?_⟩ <;> simp only [St.goto]
  · intro x hx
    have := i4 x hx
    grind
  · intro x m
    have := i6 x m
    grind
  · intro b x m
    have := i7 b x m
    have := i7 a x m
    grind [flies]
  · intro x m
    have := i8 x m
    grind
  · grind
  · intro b x hb
    have := i10 b x hb
    by_cases hx : x = g
    · subst hx
      have e : ovr (upd2 s.stat x n .over x) (s.next x) = ovr (s.stat x) (s.next x) + 1 := by
        rw [← ovr_upd (s.stat x) (s.next x) n hn.1 (by rw [hn.2]; simp)]
        apply ovr_congr
        intro m hm
        grind
      rw [e]
      grind [unadded]
    · have e : ovr (upd2 s.stat g n .over x) (s.next x) = ovr (s.stat x) (s.next x) := by
        apply ovr_congr
        intro m hm
        grind
      rw [e]
      grind [unadded]

theorem inv2_launch {s : St} (h1 : Inv1 s) (hi : Inv2 s) (a g arg cnt : Nat) (hp : s.pc a = .code)
    (hh : s.handle a = some g) (hc : 0 < cnt) : Inv2 (s.launch a g arg cnt) := by
  obtain ⟨i1, i2, i3, i4, i5, i6, i7, i8, i9, i10⟩ := hi
  have hu := h1.huniq
  refine ⟨i1, i2, i3, ?_, i5, ?_, ?_, ?_, ?_, ?_⟩ <;> simp only [St.launch]
  · intro x hx
    have := i4 x hx
    grind
  · intro x m
    have := i6 x m
    grind
  · intro b x m
    have := i7 b x m
    have := i7 a x m
    grind [flies]
  · intro x m
    have := i8 x m
    constructor
    · rintro ⟨y1, y2⟩
      by_cases hx : x = g ∧ s.next g ≤ m
      · obtain ⟨rfl, hm⟩ := hx
        exact ⟨a, s.next x, cnt, hh, by simp, hm, by simpa using y1⟩
      · obtain ⟨b, base, c, z1, z2, z3⟩ := this.1 (by grind)
        exact ⟨b, base, c, z1, by grind, z3⟩
    · rintro ⟨b, base, c, z1, z2, z3, z4⟩
      by_cases hb : b = a
      · subst hb; grind
      · have := this.2 ⟨b, base, c, z1, by grind, z3, z4⟩
        grind
  · intro b x base c y1 y2
    have := i9 b x base c
    grind
  · intro b x hb
    have := i10 b x hb
    by_cases hx : x = g
    · subst hx
      have hba := hu _ _ _ hb hh
      subst hba
      simp only [upd_apply, if_true, true_and]
      rw [ovr_add _ _ _ (by intro n hn; simp [hn])]
      rw [ovr_congr _ (s.stat x) (s.next x) (by intro n hn; simp [Nat.not_le.2 hn])]
      simp only [unadded, hp] at *
      omega
    · have hba : b ≠ a := by rintro rfl; rw [hh] at hb; exact hx (Option.some.inj hb).symm
      simp only [upd_apply, if_neg hx, if_neg hba, hx, false_and, if_false]
      exact this

theorem inv2_enqueue {s : St} (h1 : Inv1 s) (hi : Inv2 s) (a g base cnt : Nat) (hp : s.pc a = .enq base cnt)
    (hh : s.handle a = some g) : Inv2 (s.enqueue a g base cnt) := by
  obtain ⟨i1, i2, i3, i4, i5, i6, i7, i8, i9, i10⟩ := hi
  have hu := h1.huniq
  obtain ⟨hb1, hb2⟩ := i9 a g base cnt hp hh
  have hpen : ∀ n, base ≤ n → n < base + cnt → s.stat g n = .pending := fun n x y =>
    ((i8 g n).2 ⟨a, base, cnt, hh, hp, x, y⟩).2
  have hne : (List.range' base cnt).reverse ++ s.waiting g ≠ [] := by
    intro h
    have := congrArg List.length h
    simp at this
    omega
  refine ⟨?_, ?_, ?_, i4, ?_, ?_, ?_, ?_, ?_, ?_⟩ <;> simp only [St.enqueue]
  · split
    · exact i1
    · have := i2 g
      have := i3 g
      grind
  · intro x
    have := i2 x
    have := i3 x
    have := i3 g
    grind
  · intro x
    have := i3 x
    grind
  · intro x
    by_cases hx : x = g
    · subst hx
      simp only [upd_apply, if_true]
      rw [List.nodup_append]
      refine ⟨List.nodup_reverse.2 List.nodup_range', i5 x, ?_⟩
      rintro m hm _ hm' rfl
      rw [List.mem_reverse, List.mem_range'_1] at hm
      have := (i6 x m).1 hm'
      rw [hpen m hm.1 hm.2] at this
      simp at this
    · simp only [upd_apply, if_neg hx]; exact i5 x
  · intro x m
    have := i6 x m
    by_cases hx : x = g
    · subst hx
      simp only [upd_apply, if_true, List.mem_append, List.mem_reverse, List.mem_range'_1, true_and]
      grind
    · simp only [upd_apply, if_neg hx]; grind
  · intro b x m
    have := hpen m
    have := i7 b x m
    have := i7 a x m
    grind [flies]
  · intro x m
    have := i8 x m
    constructor
    · rintro ⟨y1, y2⟩
      obtain ⟨b, base', c, z1, z2, z3, z4⟩ := this.1 (by grind)
      refine ⟨b, base', c, z1, ?_, z3, z4⟩
      by_cases hb : b = a
      · subst hb; grind
      · grind
    · rintro ⟨b, base', c, z1, z2, z3, z4⟩
      by_cases hb : b = a
      · subst hb; grind
      · have hba : x ≠ g := by rintro rfl; exact hb (hu _ _ _ z1 hh)
        have := this.2 ⟨b, base', c, z1, by grind, z3, z4⟩
        grind
  · intro b x base' c y1 y2
    have := i9 b x base' c
    grind
  · intro b x hb
    have := i10 b x hb
    have e : ovr (fun n => if x = g ∧ base ≤ n ∧ n < base + cnt then .waiting else s.stat x n) (s.next x)
        = ovr (s.stat x) (s.next x) := by
      apply ovr_congr
      intro m hm
      grind
    rw [e]
    grind [unadded]

theorem inv2_syncExit {s : St} (h1 : Inv1 s) (hi : Inv2 s) (a g : Nat) (hp : s.pc a = .sync)
    (hh : s.handle a = some g) (hu0 : s.unfin g ≤ 0) :
    Inv2 { s.goto a .code with
        handle := upd s.handle a none
        next := upd s.next g 0 } := by
  obtain ⟨i1, i2, i3, i4, i5, i6, i7, i8, i9, i10⟩ := hi
  have hu := h1.huniq
  have hc := i10 a g hh
  have hle := ovr_le (s.stat g) (s.next g)
  simp only [hp, unadded] at hc
  have hall := ovr_all (s.stat g) (s.next g) (by omega)
  refine ⟨i1, i2, i3, ?_, i5, ?_, ?_, ?_, ?_, ?_⟩ <;> simp only [St.goto]
  · intro x hx
    by_cases hxg : x = g
    · subst hxg; simp; omega
    · have : ∀ b, s.handle b ≠ some x := by
        intro b hb
        have := hx b
        simp only [upd_apply] at this
        split at this
        · grind
        · exact this hb
      have := i4 x this
      grind
  · intro x m
    have := i6 x m
    grind
  · intro b x m
    have := i7 b x m
    have := i7 a x m
    grind [flies]
  · intro x m
    have := i8 x m
    constructor
    · rintro ⟨y1, y2⟩
      obtain ⟨b, base', c, z1, z2, z3, z4⟩ := this.1 (by grind)
      refine ⟨b, base', c, ?_, ?_, z3, z4⟩ <;> grind
    · rintro ⟨b, base', c, z1, z2, z3, z4⟩
      have hb : b ≠ a := by grind
      have := this.2 ⟨b, base', c, by grind, by grind, z3, z4⟩
      grind
  · intro b x base' c y1 y2
    have := i9 b x base' c
    grind
  · intro b x hb
    have hb' : b ≠ a := by grind
    have hb2 : s.handle b = some x := by grind
    have hx : x ≠ g := by rintro rfl; exact hb' (hu _ _ _ hb2 hh)
    have := i10 b x hb2
    grind [unadded]

theorem inv2_alloc {s : St} (hi : Inv2 s) (a g : Nat) (hp : s.pc a = .code)
    (hf : ∀ b, s.handle b ≠ some g) (hh : s.handle a = none) :
    Inv2 { s with handle := upd s.handle a (some g) } := by
  obtain ⟨i1, i2, i3, i4, i5, i6, i7, i8, i9, i10⟩ := hi
  have h0 := i4 g hf
  refine ⟨i1, i2, i3, ?_, i5, i6, i7, ?_, ?_, ?_⟩ <;> simp only []
  · intro x hx
    apply i4 x
    intro b hb
    have := hx b
    grind
  · intro x m
    have := i8 x m
    rw [this]
    constructor
    · rintro ⟨b, base', c, z1, z2, z3, z4⟩
      refine ⟨b, base', c, ?_, z2, z3, z4⟩
      grind
    · rintro ⟨b, base', c, z1, z2, z3, z4⟩
      refine ⟨b, base', c, ?_, z2, z3, z4⟩
      grind
  · intro b x base' c y1 y2
    have := i9 b x base' c
    grind
  · intro b x hb
    by_cases hba : b = a
    · subst hba
      simp only [upd_apply, if_true, Option.some.injEq] at hb
      subst hb
      simp [h0.1, h0.2, hp, unadded, ovr_zero]
    · exact i10 b x (by grind)

theorem inv2_add {s : St} (h1 : Inv1 s) (hi : Inv2 s) (a g cnt : Nat) (hp : s.pc a = .add cnt)
    (hh : s.handle a = some g) :
    Inv2 { s.goto a (.post cnt) with unfin := upd s.unfin g (s.unfin g + cnt) } := by
  obtain ⟨i1, i2, i3, i4, i5, i6, i7, i8, i9, i10⟩ := hi
  have hu := h1.huniq
  refine ⟨i1, i2, i3, ?_, i5, i6, ?_, ?_, ?_, ?_⟩ <;> simp only [St.goto]
  · intro x hx
    have := i4 x hx
    grind
  · intro b x m
    have := i7 b x m
    have := i7 a x m
    grind [flies]
  · intro x m
    have := i8 x m
    rw [this]
    constructor
    · rintro ⟨b, base', c, z1, z2, z3, z4⟩
      refine ⟨b, base', c, z1, ?_, z3, z4⟩
      grind
    · rintro ⟨b, base', c, z1, z2, z3, z4⟩
      refine ⟨b, base', c, z1, ?_, z3, z4⟩
      grind
  · intro b x base' c y1 y2
    have := i9 b x base' c
    grind
  · intro b x hb
    have := i10 b x hb
    grind [unadded]

/-- Fields that these invariants do not look at. -/
theorem Inv2.congr {s s' : St} (h : Inv2 s) (e1 : s'.active = s.active) (e2 : s'.waiting = s.waiting)
    (e3 : s'.inAct = s.inAct) (e4 : s'.handle = s.handle) (e5 : s'.next = s.next) (e6 : s'.unfin = s.unfin)
    (e7 : s'.stat = s.stat) (e8 : s'.pc = s.pc) : Inv2 s' := by
  obtain ⟨i1, i2, i3, i4, i5, i6, i7, i8, i9, i10⟩ := h
  constructor <;> simp only [e1, e2, e3, e4, e5, e6, e7, e8] <;> assumption

theorem inv2_step {ok : Nat → Prop} (hok : ∀ c, ok c → 0 < c) {s s' : St} (h1 : Inv1 s) (hi : Inv2 s)
    (hs : Step ok s s') : Inv2 s' := by
  have her : ∀ g rest, s.active = g :: rest → rest = s.active.erase g := fun g rest h => by rw [h]; simp
  cases hs with
  | wake a hp _ =>
    exact (inv2_goto hi a .woken (by rw [hp]; rfl) (by rw [hp]; rfl) (by rw [hp]; simp) (by simp)).congr
      rfl rfl rfl rfl rfl rfl rfl rfl
  | wokenNone a hp _ =>
    exact inv2_goto hi a .idle (by rw [hp]; rfl) (by rw [hp]; rfl) (by rw [hp]; simp) (by simp)
  | wokenTake a g rest n ns hp ha hw => exact inv2_take h1 hi a g n ns rest hw (her g rest ha) (Or.inl hp)
  | wokenCrash a g rest hp ha hw => exact hi.congr rfl rfl rfl rfl rfl rfl rfl rfl
  | start a g n hp =>
    exact (inv2_spawn h1 hi a (.called g n (s.info g n) s.na) (some (s.info g n)) (by rw [hp]; rfl)
      (by rw [hp]; rfl) (by rw [hp]; simp) (by simp) (by rw [hp]; simp)).congr
      rfl rfl rfl rfl rfl rfl rfl rfl
  | finish a g n t c hp hc =>
    exact (inv2_goto hi a (.dec g n) (by rw [hp]; rfl) (by rw [hp]; rfl) (by rw [hp]; simp) (by simp)).congr
      rfl rfl rfl rfl rfl rfl rfl rfl
  | dec a g n hp => exact inv2_dec hi a g n hp _ (by split <;> simp)
  | allocGroup a g hp hh hf => exact inv2_alloc hi a g hp hf hh
  | launch a g arg cnt hp hh hc => exact inv2_launch h1 hi a g arg cnt hp hh (hok cnt hc)
  | enqueue a g base cnt hp hh => exact inv2_enqueue h1 hi a g base cnt hp hh
  | add a g cnt hp hh => exact inv2_add h1 hi a g cnt hp hh
  | post a k hp =>
    exact (inv2_goto hi a (.post k) (by rw [hp]; rfl) (by rw [hp]; rfl) (by rw [hp]; simp) (by simp)).congr
      rfl rfl rfl rfl rfl rfl rfl rfl
  | postEnd a hp =>
    exact inv2_goto hi a .code (by rw [hp]; rfl) (by rw [hp]; rfl) (by rw [hp]; simp) (by simp)
  | syncStart a g hp _ =>
    exact inv2_goto hi a .sync (by rw [hp]; rfl) (by rw [hp]; rfl) (by rw [hp]; simp) (by simp)
  | syncExit a g hp hh hu => exact inv2_syncExit h1 hi a g hp hh hu
  | syncHelp a g hp hh hu =>
    exact inv2_goto hi a .lock (by rw [hp]; rfl) (by rw [hp]; rfl) (by rw [hp]; simp) (by simp)
  | lockOwn a g n ns hp hh hw => exact inv2_take h1 hi a g n ns _ hw rfl (Or.inr hp)
  | lockNone a g hp hh hw ha =>
    exact inv2_goto hi a .sync (by rw [hp]; rfl) (by rw [hp]; rfl) (by rw [hp]; simp) (by simp)
  | lockOther a g g' rest n ns hp hh hw ha hw' =>
    exact inv2_take h1 hi a g' n ns rest hw' (her g' rest ha) (Or.inr hp)
  | lockCrash a g g' rest hp hh hw ha hw' => exact hi.congr rfl rfl rfl rfl rfl rfl rfl rfl
  | call a hp =>
    exact inv2_spawn h1 hi a _ _ (by rw [hp]; rfl) (by rw [hp]; rfl) (by rw [hp]; simp) (by simp)
      (by rw [hp]; simp)
  | back a c hp hc =>
    exact inv2_goto hi a .code (by rw [hp]; rfl) (by rw [hp]; rfl) (by rw [hp]; simp) (by simp)
  | ret a hp hh =>
    exact inv2_goto hi a .done (by rw [hp]; rfl) (by rw [hp]; rfl) (by rw [hp]; simp) (by simp)

/-! ## What is run -/

/-- Has the task in hand been started / has it returned. -/
def begun : Pc → Nat
  | .fetched _ _ => 0
  | _ => 1

def ended : Pc → Nat
  | .dec _ _ => 1
  | _ => 0

def stN (pc : Nat → Pc) : Loc → Nat
  | .flight b => begun (pc b)
  | .over => 1
  | _ => 0

def fiN (pc : Nat → Pc) : Loc → Nat
  | .flight b => ended (pc b)
  | .over => 1
  | _ => 0

/-- Is this the record of a task that was launched. -/
def Launched (s : St) (t : TaskInfo) : Prop :=
  t.launch < s.nl ∧ t.arg = s.larg t.launch ∧ t.count = s.lsize t.launch ∧ t.index < t.count

structure Inv3 (s : St) : Prop where
  inf : ∀ a g n, s.handle a = some g → n < s.next g →
    Launched s (s.info g n) ∧ s.launcher (s.info g n).launch = a
  inj : ∀ a g m n, s.handle a = some g → m < s.next g → n < s.next g → s.info g m = s.info g n → m = n
  calledInfo : ∀ a g n t c, s.pc a = .called g n t c → t = s.info g n
  runs : ∀ a g n, s.handle a = some g → n < s.next g →
    s.started (s.info g n) = stN s.pc (s.stat g n) ∧ s.finished (s.info g n) = fiN s.pc (s.stat g n)
  cover : ∀ t, Launched s t →
    (∃ g n, s.handle (s.launcher t.launch) = some g ∧ n < s.next g ∧ s.info g n = t) ∨
    (s.started t = 1 ∧ s.finished t = 1)
  other : ∀ t, ¬ Launched s t → s.started t = 0 ∧ s.finished t = 0

theorem inv3_init (n : Nat) (w : Nat → Bool) : Inv3 (init n w) := by
  constructor <;> simp [init, Launched]
  intro a g m t c
  by_cases h' : a < n <;> cases hw : w a <;> simp [h']

/-- Frames change, but no group, record or count does, and what is in hand is as far as before. -/
theorem inv3_frames {s s' : St} (hi : Inv3 s) (e1 : s'.handle = s.handle) (e2 : s'.next = s.next)
    (e3 : s'.info = s.info) (e4 : s'.nl = s.nl) (e5 : s'.launcher = s.launcher) (e6 : s'.larg = s.larg)
    (e7 : s'.lsize = s.lsize) (e8 : s'.started = s.started) (e9 : s'.finished = s.finished)
    (h1 : ∀ a g n t c, s'.pc a = .called g n t c → s.pc a = .called g n t c)
    (h2 : ∀ a g n, s.handle a = some g → n < s.next g →
      stN s'.pc (s'.stat g n) = stN s.pc (s.stat g n) ∧ fiN s'.pc (s'.stat g n) = fiN s.pc (s.stat g n)) :
    Inv3 s' := by
  obtain ⟨i1, i2, i3, i4, i5, i6⟩ := hi
  refine ⟨?_, ?_, ?_, ?_, ?_, ?_⟩ <;> simp only [e1, e2, e3, e4, e5, e6, e7, e8, e9, Launched] at * <;> grind

/-- Only group owners have numbers. -/
theorem owned {s : St} (h2 : Inv2 s) (g n : Nat) (h : n < s.next g) : ∃ a, s.handle a = some g := by
  by_contra h'
  have := h2.free g (fun a x => h' ⟨a, x⟩)
  omega

/-- Different numbers, different records. -/
theorem info_inj {s : St} (h1 : Inv1 s) (h2 : Inv2 s) (h3 : Inv3 s) (g n g' n' : Nat) (hn : n < s.next g)
    (hn' : n' < s.next g') (h : s.info g n = s.info g' n') : g = g' ∧ n = n' := by
  obtain ⟨a, ha⟩ := owned h2 g n hn
  obtain ⟨b, hb⟩ := owned h2 g' n' hn'
  have x := (h3.inf a g n ha hn).2
  have y := (h3.inf b g' n' hb hn').2
  rw [← h, x] at y
  subst y
  rw [ha] at hb
  have := Option.some.inj hb
  subst this
  exact ⟨rfl, h3.inj a g n n' ha hn hn' h⟩

/-- One frame moves, holding nothing before and after. -/
theorem inv3_goto {s s' : St} (h2 : Inv2 s) (hi : Inv3 s) (a : Nat) (p : Pc) (hf : flies (s.pc a) = none)
    (hp : ∀ g n t c, p ≠ .called g n t c) (e : s' = { s.goto a p with sem := s'.sem }) : Inv3 s' := by
  have hpc : s'.pc = upd s.pc a p := by rw [e]; rfl
  have hst : s'.stat = s.stat := by rw [e]; rfl
  apply inv3_frames hi <;> try (rw [e]; rfl)
  · intro b g n t c
    rw [hpc, upd_apply]
    split
    · intro h; exact absurd h (hp _ _ _ _)
    · exact id
  · intro b g n hb hn
    rw [hpc, hst]
    have := h2.flight a g n
    cases hs : s.stat g n with
    | flight c =>
      have : c ≠ a := by rintro rfl; rw [hf] at this; simp at this; exact this hn hs
      simp [stN, fiN, this]
    | _ => simp [stN, fiN]

theorem inv3_take {s : St} (h2 : Inv2 s) (hi : Inv3 s) (a g n : Nat) (ns act' : List Nat)
    (hw : s.waiting g = n :: ns) (hp : s.pc a = .woken ∨ s.pc a = .lock) : Inv3 (s.take a g n ns act') := by
  have hn : n < s.next g ∧ s.stat g n = .waiting := (h2.waitIff g n).1 (by simp [hw])
  apply inv3_frames hi <;> try rfl
  · intro b x m t c
    simp only [St.take]
    grind
  · intro b x m hb hm
    simp only [St.take]
    have := h2.flight a x m
    have hf : flies (s.pc a) = none := by rcases hp with h | h <;> rw [h] <;> rfl
    by_cases hx : x = g ∧ m = n
    · obtain ⟨rfl, rfl⟩ := hx
      simp [hn.2, stN, fiN, begun, ended]
    · simp only [upd2_apply, if_neg hx]
      cases hs : s.stat x m with
      | flight c =>
        have : c ≠ a := by rintro rfl; rw [hf] at this; simp at this; exact this hm hs
        simp [stN, fiN, this]
      | _ => simp [stN, fiN]

theorem inv3_spawn {s : St} (h1 : Inv1 s) (h2 : Inv2 s) (hi : Inv3 s) (a : Nat) (hp : s.pc a = .code) :
    Inv3 (s.spawn a (.calling s.na) none) := by
  have hna := h1.fresh s.na (by omega)
  apply inv3_frames hi <;> try rfl
  · intro b x m t c
    simp only [St.spawn]
    grind
  · intro b x m hb hm
    simp only [St.spawn]
    have h := h2.flight a x m
    have h' := h2.flight s.na x m
    cases hs : s.stat x m with
    | flight c =>
      have c1 : c ≠ a := by rintro rfl; rw [hp] at h; simp [flies] at h; exact h hm hs
      have c2 : c ≠ s.na := by rintro rfl; rw [hna] at h'; simp [flies] at h'; exact h' hm hs
      simp [stN, fiN, c1, c2]
    | _ => simp [stN, fiN]

theorem inv3_start {s : St} (h1 : Inv1 s) (h2 : Inv2 s) (hi : Inv3 s) (a g n : Nat) (hp : s.pc a = .fetched g n) :
    Inv3 (s.startTask a g n) := by
  have hna := h1.fresh s.na (by omega)
  have hal : a < s.na := by by_contra h'; have := h1.fresh a (by omega); rw [hp] at this; simp at this
  have hn : n < s.next g ∧ s.stat g n = .flight a := (h2.flight a g n).1 (by simp [hp, flies])
  obtain ⟨o, ho⟩ := owned h2 g n hn.1
  have hinj := info_inj h1 h2 hi g n
  obtain ⟨i1, i2, i3, i4, i5, i6⟩ := hi
  refine ⟨i1, i2, ?_, ?_, ?_, ?_⟩
  · intro b x m t c
    simp only [St.startTask, St.spawn]
    grind
  · intro b x m hb hm
    have r := i4 b x m hb hm
    have h := h2.flight a x m
    have h' := h2.flight s.na x m
    simp only [St.startTask, St.spawn] at *
    by_cases hx : x = g ∧ m = n
    · obtain ⟨rfl, rfl⟩ := hx
      have : a ≠ s.na := by omega
      simp [hn.2, stN, fiN, begun, ended, this, hp] at r ⊢
      exact r
    · have : s.info x m ≠ s.info g n := by
        intro he
        have := hinj x m hn.1 hm he.symm
        exact hx ⟨this.1.symm, this.2.symm⟩
      rw [bump_apply, if_neg this, r.1, r.2]
      cases hs : s.stat x m with
      | flight c =>
        have c1 : c ≠ a := by
          rintro rfl; rw [hp] at h; simp [flies] at h
          have := h.2 ⟨hm, hs⟩
          exact hx ⟨this.1.symm, this.2.symm⟩
        have c2 : c ≠ s.na := by rintro rfl; rw [hna] at h'; simp [flies] at h'; exact h' hm hs
        simp [stN, fiN, c1, c2]
      | _ => simp [stN, fiN]
  · intro t ht
    simp only [St.startTask, St.spawn]
    rcases i5 t ht with h | h
    · exact Or.inl h
    · right
      have : t ≠ s.info g n := by
        rintro rfl
        have := i4 o g n ho hn.1
        rw [hn.2] at this
        simp [stN, hp, begun] at this
        omega
      simp [this, h]
  · intro t ht
    simp only [St.startTask, St.spawn] at *
    have : t ≠ s.info g n := by rintro rfl; exact ht (i1 o g n ho hn.1).1
    simp only [bump_apply, if_neg this]
    exact i6 t ht

theorem inv3_finish {s : St} (h1 : Inv1 s) (h2 : Inv2 s) (hi : Inv3 s) (a g n c : Nat) (t : TaskInfo)
    (hp : s.pc a = .called g n t c) :
    Inv3 { s.goto a (.dec g n) with finished := bump s.finished t } := by
  have hn : n < s.next g ∧ s.stat g n = .flight a := (h2.flight a g n).1 (by simp [hp, flies])
  obtain ⟨o, ho⟩ := owned h2 g n hn.1
  have hinj := info_inj h1 h2 hi g n
  obtain ⟨i1, i2, i3, i4, i5, i6⟩ := hi
  have ht := i3 _ _ _ _ _ hp
  subst ht
  refine ⟨i1, i2, ?_, ?_, ?_, ?_⟩
  · intro b x m t c
    simp only [St.goto]
    grind
  · intro b x m hb hm
    have r := i4 b x m hb hm
    have h := h2.flight a x m
    simp only [St.goto] at *
    by_cases hx : x = g ∧ m = n
    · obtain ⟨rfl, rfl⟩ := hx
      simp [hn.2, stN, fiN, begun, ended, hp] at r ⊢
      exact r
    · have : s.info x m ≠ s.info g n := by
        intro he
        have := hinj x m hn.1 hm he.symm
        exact hx ⟨this.1.symm, this.2.symm⟩
      rw [bump_apply, if_neg this, r.1, r.2]
      cases hs : s.stat x m with
      | flight c =>
        have c1 : c ≠ a := by
          rintro rfl; rw [hp] at h; simp [flies] at h
          have := h.2 ⟨hm, hs⟩
          exact hx ⟨this.1.symm, this.2.symm⟩
        simp [stN, fiN, c1]
      | _ => simp [stN, fiN]
  · intro t ht
    simp only [St.goto]
    rcases i5 t ht with h | h
    · exact Or.inl h
    · right
      have : t ≠ s.info g n := by
        rintro rfl
        have := i4 o g n ho hn.1
        rw [hn.2] at this
        simp [fiN, hp, ended] at this
        omega
      simp [this, h]
  · intro t ht
    simp only [St.goto] at *
    have : t ≠ s.info g n := by rintro rfl; exact ht (i1 o g n ho hn.1).1
    simp only [bump_apply, if_neg this]
    exact i6 t ht

theorem inv3_dec {s : St} (h2 : Inv2 s) (hi : Inv3 s) (a g n : Nat) (hp : s.pc a = .dec g n)
    (p : Pc) (hp1 : p = .idle ∨ p = .sync) (u : Nat → Int) :
    Inv3 { s.goto a p with
        unfin := u
        stat := upd2 s.stat g n .over } := by
  have hn : n < s.next g ∧ s.stat g n = .flight a := (h2.flight a g n).1 (by simp [hp, flies])
  apply inv3_frames hi <;> try rfl
  · intro b x m t c
    simp only [St.goto]
    grind
  · intro b x m hb hm
    simp only [St.goto]
    have h := h2.flight a x m
    by_cases hx : x = g ∧ m = n
    · obtain ⟨rfl, rfl⟩ := hx
      simp [hn.2, stN, fiN, begun, ended, hp]
    · simp only [upd2_apply, if_neg hx]
      cases hs : s.stat x m with
      | flight c =>
        have c1 : c ≠ a := by
          rintro rfl; rw [hp] at h; simp [flies] at h
          have := h.2 ⟨hm, hs⟩
          exact hx ⟨this.1.symm, this.2.symm⟩
        simp [stN, fiN, c1]
      | _ => simp [stN, fiN]

theorem inv3_launch {s : St} (h1 : Inv1 s) (h2 : Inv2 s) (hi : Inv3 s) (a g arg cnt : Nat) (hp : s.pc a = .code)
    (hh : s.handle a = some g) : Inv3 (s.launch a g arg cnt) := by
  have hu := h1.huniq
  obtain ⟨i1, i2, i3, i4, i5, i6⟩ := hi
  have hold : ∀ b x m, s.handle b = some x → m < s.next x → (s.info x m).launch < s.nl :=
    fun b x m hb hm => (i1 b x m hb hm).1.1
  have hnew : ∀ t : TaskInfo, t.launch = s.nl → s.started t = 0 ∧ s.finished t = 0 := by
    intro t ht
    apply i6
    rintro ⟨x, _⟩
    omega
  have hna : ∀ x m, s.stat x m = .flight a → ¬ m < s.next x := by
    intro x m hs hm
    have h := h2.flight a x m
    rw [hp] at h; simp [flies] at h; exact h hm hs
  refine ⟨?_, ?_, ?_, ?_, ?_, ?_⟩
  · intro b x m hb hm
    simp only [St.launch, Launched, upd_apply] at *
    by_cases hx : x = g ∧ s.next g ≤ m
    · obtain ⟨rfl, hx⟩ := hx
      rw [if_pos rfl] at hm
      have := hu _ _ _ hb hh
      simp [hx, hm, this]
      omega
    · have hm' : m < s.next x := by grind
      have h := i1 b x m hb hm'
      have : (s.info x m).launch ≠ s.nl := by have := hold b x m hb hm'; omega
      have e : ¬ (x = g ∧ s.next g ≤ m ∧ m < s.next g + cnt) := fun h => hx ⟨h.1, h.2.1⟩
      simp only [if_neg e, if_neg this]
      refine ⟨⟨?_, h.1.2⟩, h.2⟩
      have := h.1.1
      omega
  · intro b x m k hb hm hk
    simp only [St.launch, upd_apply] at *
    have o1 := hold b x m hb
    have o2 := hold b x k hb
    have j := i2 b x m k hb
    by_cases hx : x = g
    · subst hx
      simp only [if_true, true_and] at *
      by_cases c1 : s.next x ≤ m ∧ m < s.next x + cnt <;> by_cases c2 : s.next x ≤ k ∧ k < s.next x + cnt
      · rw [if_pos c1, if_pos c2]
        simp
        omega
      · rw [if_pos c1, if_neg c2]
        intro h
        have := o2 (by omega)
        rw [← h] at this
        simp at this
      · rw [if_neg c1, if_pos c2]
        intro h
        have := o1 (by omega)
        rw [h] at this
        simp at this
      · rw [if_neg c1, if_neg c2]
        exact j (by omega) (by omega)
    · simp only [if_neg hx, hx, false_and, if_false] at *
      exact j hm hk
  · intro b x m t c hb
    have h2' := h2.flight b x m
    simp only [St.launch, upd_apply] at *
    split at hb
    · simp at hb
    · have h := i3 b x m t c hb
      have := h2'.1 (by rw [hb]; rfl)
      have hlt : m < s.next x := this.1
      rw [h]
      grind
  · intro b x m hb hm
    simp only [St.launch] at *
    by_cases hx : x = g ∧ s.next g ≤ m
    · obtain ⟨rfl, hx⟩ := hx
      simp only [upd_apply, if_true] at hm
      simp only [hx, hm, and_self, if_true, stN, fiN]
      exact hnew _ rfl
    · have hm' : m < s.next x := by grind
      have r := i4 b x m hb hm'
      have e : ¬ (x = g ∧ s.next g ≤ m ∧ m < s.next g + cnt) := fun h => hx ⟨h.1, h.2.1⟩
      rw [if_neg e, if_neg hx, r.1, r.2]
      cases hs : s.stat x m with
      | flight c =>
        have : c ≠ a := by rintro rfl; exact hna x m hs hm'
        simp [stN, fiN, this]
      | _ => simp [stN, fiN]
  · intro t ht
    by_cases hl : t.launch = s.nl
    · left
      obtain ⟨l, ar, i, k⟩ := t
      simp only at hl
      subst hl
      simp only [St.launch, Launched, upd_apply, if_true] at *
      refine ⟨g, s.next g + i, hh, ?_, ?_⟩
      · rw [if_pos rfl]; omega
      · rw [if_pos (by omega)]
        simp
        omega
    · have hL : Launched s t := by
        simp only [St.launch, Launched, upd_apply, if_neg hl] at *
        exact ⟨by omega, ht.2⟩
      rcases i5 t hL with ⟨x, m, y1, y2, y3⟩ | h
      · left
        simp only [St.launch, upd_apply, if_neg hl]
        refine ⟨x, m, y1, ?_, ?_⟩
        · split
          · rename_i h; subst h; omega
          · exact y2
        · rw [if_neg, y3]
          rintro ⟨rfl, h⟩
          omega
      · exact Or.inr h
  · intro t ht
    have : ¬ Launched s t := by
      intro hL
      apply ht
      simp only [St.launch, Launched, upd_apply] at *
      have : t.launch ≠ s.nl := by omega
      simp only [if_neg this]
      exact ⟨by omega, hL.2⟩
    exact i6 t this

theorem inv3_enqueue {s : St} (h2 : Inv2 s) (hi : Inv3 s) (a g base cnt : Nat)
    (hp : s.pc a = .enq base cnt) (hh : s.handle a = some g) : Inv3 (s.enqueue a g base cnt) := by
  have hpen : ∀ n, base ≤ n → n < base + cnt → s.stat g n = .pending := fun n x y =>
    ((h2.pend g n).2 ⟨a, base, cnt, hh, hp, x, y⟩).2
  apply inv3_frames hi <;> try rfl
  · intro b x m t c
    simp only [St.enqueue]
    grind
  · intro b x m hb hm
    simp only [St.enqueue]
    have h := h2.flight a x m
    rw [hp] at h
    simp [flies] at h
    by_cases hx : x = g ∧ base ≤ m ∧ m < base + cnt
    · rw [if_pos hx]
      obtain ⟨rfl, y⟩ := hx
      rw [hpen m y.1 y.2]
      exact ⟨rfl, rfl⟩
    · rw [if_neg hx]
      cases hs : s.stat x m with
      | flight c =>
        have : c ≠ a := by rintro rfl; exact h hm hs
        simp [stN, fiN, this]
      | _ => simp [stN, fiN]

theorem inv3_syncExit {s : St} (h1 : Inv1 s) (h2 : Inv2 s) (hi : Inv3 s) (a g : Nat) (hp : s.pc a = .sync)
    (hh : s.handle a = some g) (hu0 : s.unfin g ≤ 0) :
    Inv3 { s.goto a .code with
        handle := upd s.handle a none
        next := upd s.next g 0 } := by
  have hu := h1.huniq
  have hc := h2.count a g hh
  have hle := ovr_le (s.stat g) (s.next g)
  simp only [hp, unadded] at hc
  have hall := ovr_all (s.stat g) (s.next g) (by omega)
  have hfl := h2.flight
  obtain ⟨i1, i2, i3, i4, i5, i6⟩ := hi
  have key : ∀ b x m, upd s.handle a none b = some x → m < upd s.next g 0 x → s.handle b = some x ∧ m < s.next x := by
    intro b x m hb hm
    have hb' : b ≠ a := by rintro rfl; simp at hb
    rw [upd_apply, if_neg hb'] at hb
    have : x ≠ g := by rintro rfl; exact hb' (hu _ _ _ hb hh)
    rw [upd_apply, if_neg this] at hm
    exact ⟨hb, hm⟩
  refine ⟨?_, ?_, ?_, ?_, ?_, i6⟩ <;> simp only [St.goto]
  · intro b x m hb hm
    obtain ⟨y1, y2⟩ := key b x m hb hm
    exact i1 b x m y1 y2
  · intro b x m k hb hm hk
    obtain ⟨y1, y2⟩ := key b x m hb hm
    obtain ⟨y3, y4⟩ := key b x k hb hk
    exact i2 b x m k y1 y2 y4
  · intro b x m t c
    grind
  · intro b x m hb hm
    obtain ⟨y1, y2⟩ := key b x m hb hm
    rw [(i4 b x m y1 y2).1, (i4 b x m y1 y2).2]
    have h := hfl a x m
    rw [hp] at h
    simp [flies] at h
    cases hs : s.stat x m with
    | flight c =>
      have : c ≠ a := by rintro rfl; exact h y2 hs
      simp [stN, fiN, this]
    | _ => simp [stN, fiN]
  · intro t ht
    rcases i5 t ht with ⟨x, m, y1, y2, y3⟩ | h
    · by_cases ha : s.launcher t.launch = a
      · right
        rw [ha, hh] at y1
        have := Option.some.inj y1
        subst this
        have r := i4 a g m hh y2
        rw [y3, hall m y2] at r
        exact r
      · left
        refine ⟨x, m, by rw [upd_apply, if_neg ha]; exact y1, ?_, y3⟩
        have : x ≠ g := by rintro rfl; exact ha (hu _ _ _ y1 hh)
        rw [upd_apply, if_neg this]; exact y2
    · exact Or.inr h

theorem inv3_alloc {s : St} (h2 : Inv2 s) (hi : Inv3 s) (a g : Nat)
    (hf : ∀ b, s.handle b ≠ some g) (hh : s.handle a = none) :
    Inv3 { s with handle := upd s.handle a (some g) } := by
  have h0 := h2.free g hf
  obtain ⟨i1, i2, i3, i4, i5, i6⟩ := hi
  have key : ∀ b x m, upd s.handle a (some g) b = some x → m < s.next x → s.handle b = some x := by
    intro b x m hb hm
    have : x ≠ g := by rintro rfl; omega
    grind
  refine ⟨?_, ?_, i3, ?_, ?_, i6⟩ <;> simp only []
  · intro b x m hb hm
    exact i1 b x m (key b x m hb hm) hm
  · intro b x m k hb hm
    exact i2 b x m k (key b x m hb hm) hm
  · intro b x m hb hm
    exact i4 b x m (key b x m hb hm) hm
  · intro t ht
    rcases i5 t ht with ⟨x, m, y1, y2, y3⟩ | h
    · left
      refine ⟨x, m, ?_, y2, y3⟩
      rw [upd_apply, if_neg]
      · exact y1
      · intro h; rw [h, hh] at y1; simp at y1
    · exact Or.inr h

theorem inv3_step {ok : Nat → Prop} {s s' : St} (h1 : Inv1 s) (h2 : Inv2 s) (hi : Inv3 s)
    (hs : Step ok s s') : Inv3 s' := by
  cases hs with
  | wake a hp _ => exact inv3_goto h2 hi a .woken (by rw [hp]; rfl) (by simp) rfl
  | wokenNone a hp _ => exact inv3_goto h2 hi a .idle (by rw [hp]; rfl) (by simp) rfl
  | wokenTake a g rest n ns hp ha hw => exact inv3_take h2 hi a g n ns rest hw (Or.inl hp)
  | wokenCrash a g rest hp ha hw =>
    exact inv3_frames hi rfl rfl rfl rfl rfl rfl rfl rfl rfl (fun _ _ _ _ _ => id) (fun _ _ _ _ _ => ⟨rfl, rfl⟩)
  | start a g n hp => exact inv3_start h1 h2 hi a g n hp
  | finish a g n t c hp hc => exact inv3_finish h1 h2 hi a g n c t hp
  | dec a g n hp => exact inv3_dec h2 hi a g n hp _ (by split <;> simp) _
  | allocGroup a g hp hh hf => exact inv3_alloc h2 hi a g hf hh
  | launch a g arg cnt hp hh hc => exact inv3_launch h1 h2 hi a g arg cnt hp hh
  | enqueue a g base cnt hp hh => exact inv3_enqueue h2 hi a g base cnt hp hh
  | add a g cnt hp hh =>
    have := inv3_goto h2 hi a (.post cnt) (by rw [hp]; rfl) (by simp) (s' := s.goto a (.post cnt)) rfl
    exact inv3_frames this rfl rfl rfl rfl rfl rfl rfl rfl rfl (fun _ _ _ _ _ => id) (fun _ _ _ _ _ => ⟨rfl, rfl⟩)
  | post a k hp => exact inv3_goto h2 hi a (.post k) (by rw [hp]; rfl) (by simp) rfl
  | postEnd a hp => exact inv3_goto h2 hi a .code (by rw [hp]; rfl) (by simp) rfl
  | syncStart a g hp _ => exact inv3_goto h2 hi a .sync (by rw [hp]; rfl) (by simp) rfl
  | syncExit a g hp hh hu => exact inv3_syncExit h1 h2 hi a g hp hh hu
  | syncHelp a g hp hh hu => exact inv3_goto h2 hi a .lock (by rw [hp]; rfl) (by simp) rfl
  | lockOwn a g n ns hp hh hw => exact inv3_take h2 hi a g n ns _ hw (Or.inr hp)
  | lockNone a g hp hh hw ha => exact inv3_goto h2 hi a .sync (by rw [hp]; rfl) (by simp) rfl
  | lockOther a g g' rest n ns hp hh hw ha hw' => exact inv3_take h2 hi a g' n ns rest hw' (Or.inr hp)
  | lockCrash a g g' rest hp hh hw ha hw' =>
    exact inv3_frames hi rfl rfl rfl rfl rfl rfl rfl rfl rfl (fun _ _ _ _ _ => id) (fun _ _ _ _ _ => ⟨rfl, rfl⟩)
  | call a hp => exact inv3_spawn h1 h2 hi a hp
  | back a c hp hc => exact inv3_goto h2 hi a .code (by rw [hp]; rfl) (by simp) rfl
  | ret a hp hh => exact inv3_goto h2 hi a .done (by rw [hp]; rfl) (by simp) rfl

/-! ## Who waits for whom -/

structure Inv4 (s : St) : Prop where
  parB : ∀ c a, s.parent c = some a → s.pc c = .done ∨ waitsFor (s.pc a) = some c
  taskB : ∀ a g n t c, s.pc a = .called g n t c → s.task c = some t
  callB : ∀ a c, s.pc a = .calling c → s.task c = none
  born : ∀ a b g n t c, s.pc b = .called g n t c → s.handle a = some g → a < c
  newborn : ∀ c, s.na ≤ c → s.task c = none ∧ s.parent c = none
  taskPar : ∀ c, s.parent c = none → s.task c = none
  childB : ∀ a c, waitsFor (s.pc a) = some c → s.worker c = false ∧ s.pc c ≠ .unborn
  noCrash : s.crash = false

theorem inv4_init (n : Nat) (w : Nat → Bool) : Inv4 (init n w) := by
  constructor <;> simp [init] <;> intro a <;> by_cases h : a < n <;> cases hw : w a <;> simp [h, waitsFor]

theorem live_of_pc {s : St} (h1 : Inv1 s) (a : Nat) (h : s.pc a ≠ .unborn) : a < s.na := by
  by_contra h'; exact h (h1.fresh a (by omega))

theorem live_of_handle {s : St} (h1 : Inv1 s) (a g : Nat) (h : s.handle a = some g) : a < s.na := by
  apply live_of_pc h1
  intro h'
  have := h1.frame a
  rw [h', h] at this
  simp [FrameOk] at this

theorem inv4_par {ok : Nat → Prop} {s s' : St} (h1 : Inv1 s) (hi : Inv4 s) (hs : Step ok s s') :
    ∀ c a, s'.parent c = some a → s'.pc c = .done ∨ waitsFor (s'.pc a) = some c := by
  have i1 := hi.parB
  have i4 := hi.newborn
  have hlive := live_of_pc h1
  cases hs <;> simp only [St.goto, St.take, St.spawn, St.startTask, St.launch, St.enqueue] <;>
    intro c a' hc <;> have := i1 c a' <;> grind [waitsFor]

theorem inv4_task {ok : Nat → Prop} {s s' : St} (h1 : Inv1 s) (hi : Inv4 s) (hs : Step ok s s') :
    ∀ a g n t c, s'.pc a = .called g n t c → s'.task c = some t := by
  have i1 := hi.taskB
  have hch := h1.child
  cases hs <;> simp only [St.goto, St.take, St.spawn, St.startTask, St.launch, St.enqueue] <;>
    intro a' g' n' t' c' hc <;> have := i1 a' g' n' t' c' <;> have := hch a' c' <;> grind [waitsFor]

theorem inv4_call {ok : Nat → Prop} {s s' : St} (h1 : Inv1 s) (hi : Inv4 s) (hs : Step ok s s') :
    ∀ a c, s'.pc a = .calling c → s'.task c = none := by
  have i1 := hi.callB
  have hch := h1.child
  cases hs <;> simp only [St.goto, St.take, St.spawn, St.startTask, St.launch, St.enqueue] <;>
    intro a' c' hc <;> have := i1 a' c' <;> have := hch a' c' <;> grind [waitsFor]

theorem inv4_born {ok : Nat → Prop} {s s' : St} (h1 : Inv1 s) (h2 : Inv2 s) (hi : Inv4 s) (hs : Step ok s s') :
    ∀ a b g n t c, s'.pc b = .called g n t c → s'.handle a = some g → a < c := by
  have i1 := hi.born
  have hlive := live_of_handle h1
  have hfree := h2.free
  cases hs <;> simp only [St.goto, St.take, St.spawn, St.startTask, St.launch, St.enqueue] <;>
    intro a' b' g' n' t' c' hc hh <;> have := i1 a' b' g' n' t' c' <;> have := hlive a' g' <;>
    have := (h2.flight b' g' n').1 <;> grind [flies]

theorem inv4_newborn {ok : Nat → Prop} {s s' : St} (hi : Inv4 s) (hs : Step ok s s') :
    ∀ c, s'.na ≤ c → s'.task c = none ∧ s'.parent c = none := by
  have i1 := hi.newborn
  cases hs <;> simp only [St.goto, St.take, St.spawn, St.startTask, St.launch, St.enqueue] <;>
    intro c hc <;> have := i1 c <;> grind

theorem inv4_taskPar {ok : Nat → Prop} {s s' : St} (hi : Inv4 s) (hs : Step ok s s') :
    ∀ c, s'.parent c = none → s'.task c = none := by
  have i1 := hi.taskPar
  cases hs <;> simp only [St.goto, St.take, St.spawn, St.startTask, St.launch, St.enqueue] <;>
    intro c hc <;> have := i1 c <;> grind

theorem inv4_child {ok : Nat → Prop} {s s' : St} (h1 : Inv1 s) (hi : Inv4 s) (hs : Step ok s s') :
    ∀ a c, waitsFor (s'.pc a) = some c → s'.worker c = false ∧ s'.pc c ≠ .unborn := by
  have i1 := hi.childB
  have hch := h1.child
  have hw : s.worker s.na = false := by
    have h := h1.frame s.na
    rw [h1.fresh s.na (Nat.le_refl _)] at h
    exact h.1
  cases hs <;> simp only [St.goto, St.take, St.spawn, St.startTask, St.launch, St.enqueue] <;>
    intro a' c' hc <;> have := i1 a' c' <;> have := hch a' c' <;> grind [waitsFor]

theorem inv4_crash {ok : Nat → Prop} {s s' : St} (h2 : Inv2 s) (hi : Inv4 s) (hs : Step ok s s') :
    s'.crash = false := by
  have i1 := hi.noCrash
  have := h2.actIff
  cases hs <;> simp only [St.goto, St.take, St.spawn, St.startTask, St.launch, St.enqueue] <;> grind

theorem inv4_step {ok : Nat → Prop} {s s' : St} (h1 : Inv1 s) (h2 : Inv2 s) (hi : Inv4 s)
    (hs : Step ok s s') : Inv4 s' :=
  ⟨inv4_par h1 hi hs, inv4_task h1 hi hs, inv4_call h1 hi hs, inv4_born h1 h2 hi hs, inv4_newborn hi hs,
    inv4_taskPar hi hs, inv4_child h1 hi hs, inv4_crash h2 hi hs⟩

/-- All invariants hold in every reachable state, as long as no launch is empty. -/
theorem inv_reach {ok : Nat → Prop} (hok : ∀ c, ok c → 0 < c) {n : Nat} {w : Nat → Bool} {s : St}
    (h : Reach ok n w s) : Inv1 s ∧ Inv2 s ∧ Inv3 s ∧ Inv4 s := by
  induction h with
  | init => exact ⟨inv1_init n w, inv2_init n w, inv3_init n w, inv4_init n w⟩
  | step s s' _ hs ih =>
    obtain ⟨h1, h2, h3, h4⟩ := ih
    exact ⟨inv1_step h1 hs, inv2_step hok h1 h2 hs, inv3_step h1 h2 h3 hs, inv4_step h1 h2 h4 hs⟩

end Ispc.Sched
