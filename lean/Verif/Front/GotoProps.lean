import Verif.Front.Goto
import Mathlib.Data.List.Nodup

/-!
# C92: theorems about labels and goto
-/

namespace Ispc.Goto

/-! ## Specification -/

/-- No label is in a statement that has several copies: `cif` and its kin, and `foreach`. -/
def Stmt.Once : Stmt → Prop
  | .code | .leave | .goto _ => True
  | .label _ s => s.Once
  | .seq a b | .ifUniform a b => a.Once ∧ b.Once
  | .ifVarying coherent a b => a.Once ∧ b.Once ∧ (coherent = true → a.labels = [] ∧ b.labels = [])
  | .loopUniform s => s.Once
  | .loopVarying coherent s => s.Once ∧ (coherent = true → s.labels = [])
  | .foreach s => s.labels = []

/-- Can the end of the statement be reached, if its start can (`c`)? `v` is varying control flow, where `return` and its
    kin only switch off program instances. -/
def Stmt.falls (v : Bool) : Stmt → Bool → Bool
  | .code, c => c
  | .leave, c => c && v
  | .goto _, _ => false
  | .label _ s, _ => s.falls v true
  | .seq a b, c => b.falls v (a.falls v c)
  | .ifUniform _ _, c | .ifVarying _ _ _, c | .loopUniform _, c | .loopVarying _ _, c | .foreach _, c => c

/-- No label is in an `if` or a loop whose start cannot be reached. -/
def Stmt.Live (v : Bool) : Stmt → Bool → Prop
  | .code, _ | .leave, _ | .goto _, _ => True
  | .label _ s, _ => s.Live v true
  | .seq a b, c => a.Live v c ∧ b.Live v (a.falls v c)
  | .ifUniform a b, c => if c then a.Live v true ∧ b.Live v true else a.labels = [] ∧ b.labels = []
  | .ifVarying _ a b, c => if c then a.Live true true ∧ b.Live true true else a.labels = [] ∧ b.labels = []
  | .loopUniform s, c => if c then s.Live v true else s.labels = []
  | .loopVarying _ s, c => if c then s.Live true true else s.labels = []
  | .foreach s, c => if c then s.Live true true else s.labels = []

/-- A `goto` somewhere in the statement that can be reached, under varying control flow (`v`). -/
inductive Stmt.GotoAt : Stmt → Bool → Bool → String → Bool → Prop
  | goto (l : String) (v : Bool) : GotoAt (.goto l) v true l v
  | label (l : String) {s v c l' v'} (h : GotoAt s v true l' v') : GotoAt (.label l s) v c l' v'
  | left {a b v c l v'} (h : GotoAt a v c l v') : GotoAt (.seq a b) v c l v'
  | right {a b v c l v'} (h : GotoAt b v (a.falls v c) l v') : GotoAt (.seq a b) v c l v'
  | thenU {a b v l v'} (h : GotoAt a v true l v') : GotoAt (.ifUniform a b) v true l v'
  | elseU {a b v l v'} (h : GotoAt b v true l v') : GotoAt (.ifUniform a b) v true l v'
  | thenV {co a b v l v'} (h : GotoAt a true true l v') : GotoAt (.ifVarying co a b) v true l v'
  | elseV {co a b v l v'} (h : GotoAt b true true l v') : GotoAt (.ifVarying co a b) v true l v'
  | loopU {s v l v'} (h : GotoAt s v true l v') : GotoAt (.loopUniform s) v true l v'
  | loopV {co s v l v'} (h : GotoAt s true true l v') : GotoAt (.loopVarying co s) v true l v'
  | foreach {s v l v'} (h : GotoAt s true true l v') : GotoAt (.foreach s) v true l v'

/-! ## The emission -/

theorem emit_cur (known : List String) (s : Stmt) : ∀ (v fe c : Bool), (emit known v fe s c).ok = true →
    (emit known v fe s c).cur = s.falls v c := by
  induction s with
  | code => intro v fe c _; rfl
  | leave => intro v fe c _; rfl
  | goto l =>
    intro v fe c h
    simp only [emit] at h ⊢
    split_ifs at h ⊢ with h1 h2 h3 h4 <;> simp_all [Stmt.falls, Out.nothing]
  | label l s ih => intro v fe c h; exact ih v fe true h
  | seq a b iha ihb =>
    intro v fe c h
    simp only [emit, Out.both, Bool.and_eq_true] at h ⊢
    have := iha v fe c h.1
    rw [this] at h ⊢
    exact ihb v fe _ h.2
  | ifUniform a b _ _ => intro v fe c _; cases c <;> simp [emit, Stmt.falls, Out.nothing, Out.both]
  | ifVarying co a b _ _ => intro v fe c _; cases c <;> cases co <;> simp [emit, Stmt.falls, Out.nothing, Out.both]
  | loopUniform s _ => intro v fe c _; cases c <;> simp [emit, Stmt.falls, Out.nothing]
  | loopVarying co s _ => intro v fe c _; cases c <;> cases co <;> simp [emit, Stmt.falls, Out.nothing, Out.both]
  | foreach s _ => intro v fe c _; cases c <;> simp [emit, Stmt.falls, Out.nothing, Out.both]

theorem fills_none (known : List String) (s : Stmt) : ∀ (v fe c : Bool), s.labels = [] →
    (emit known v fe s c).fills = [] := by
  induction s with
  | code => intro v fe c _; rfl
  | leave => intro v fe c _; rfl
  | goto l => intro v fe c _; simp only [emit]; split_ifs <;> rfl
  | label l s ih => intro v fe c h; simp [Stmt.labels] at h
  | seq a b iha ihb =>
    intro v fe c h
    simp only [Stmt.labels, List.append_eq_nil_iff] at h
    simp [emit, Out.both, iha v fe c h.1, ihb v fe _ h.2]
  | ifUniform a b iha ihb =>
    intro v fe c h
    simp only [Stmt.labels, List.append_eq_nil_iff] at h
    cases c <;> simp [emit, Out.both, Out.nothing, iha v fe _ h.1, ihb v fe _ h.2]
  | ifVarying co a b iha ihb =>
    intro v fe c h
    simp only [Stmt.labels, List.append_eq_nil_iff] at h
    cases c <;> cases co <;> simp [emit, Out.both, Out.nothing, iha true fe _ h.1, ihb true fe _ h.2]
  | loopUniform s ih => intro v fe c h; cases c <;> simp [emit, Out.nothing, ih v fe _ h]
  | loopVarying co s ih =>
    intro v fe c h; cases c <;> cases co <;> simp [emit, Out.nothing, Out.both, ih true fe _ h]
  | foreach s ih => intro v fe c h; cases c <;> simp [emit, Out.nothing, Out.both, ih true true _ h]

theorem fills_eq (known : List String) (s : Stmt) : ∀ (v fe c : Bool), s.Once → s.Live v c →
    (emit known v fe s c).ok = true → (emit known v fe s c).fills = s.labels := by
  induction s with
  | code => intro v fe c _ _ _; rfl
  | leave => intro v fe c _ _ _; rfl
  | goto l => intro v fe c _ _ _; simp only [emit]; split_ifs <;> rfl
  | label l s ih =>
    intro v fe c ho hl h
    simp only [emit, Stmt.labels]
    rw [ih v fe true ho hl h]
  | seq a b iha ihb =>
    intro v fe c ho hl h
    simp only [emit, Out.both, Bool.and_eq_true] at h
    have hc := emit_cur known a v fe c h.1
    simp only [emit, Out.both, Stmt.labels]
    rw [iha v fe c ho.1 hl.1 h.1]
    rw [hc] at h ⊢
    rw [ihb v fe _ ho.2 hl.2 h.2]
  | ifUniform a b iha ihb =>
    intro v fe c ho hl h
    cases c with
    | false => simp [Stmt.Live] at hl; simp [emit, Out.nothing, Stmt.labels, hl]
    | true =>
      simp only [emit, Out.both, Bool.not_true, Bool.false_eq_true, if_false, Bool.and_eq_true] at h
      simp only [Stmt.Live, if_true] at hl
      simp [emit, Out.both, Stmt.labels, iha v fe _ ho.1 hl.1 h.1, ihb v fe _ ho.2 hl.2 h.2]
  | ifVarying co a b iha ihb =>
    intro v fe c ho hl h
    cases c with
    | false => simp [Stmt.Live] at hl; simp [emit, Out.nothing, Stmt.labels, hl]
    | true =>
      cases co with
      | true =>
        have := ho.2.2 rfl
        rw [fills_none known _ v fe true (by simp [Stmt.labels, this])]
        simp [Stmt.labels, this]
      | false =>
        simp only [emit, Out.both, Bool.not_true, Bool.false_eq_true, if_false, Bool.and_eq_true] at h
        simp only [Stmt.Live, if_true] at hl
        simp [emit, Out.both, Stmt.labels, iha true fe _ ho.1 hl.1 h.1, ihb true fe _ ho.2.1 hl.2 h.2]
  | loopUniform s ih =>
    intro v fe c ho hl h
    cases c with
    | false => simp [Stmt.Live] at hl; simp [emit, Out.nothing, Stmt.labels, hl]
    | true =>
      simp only [emit, Bool.not_true, Bool.false_eq_true, if_false] at h
      simp only [Stmt.Live, if_true] at hl
      simp [emit, Stmt.labels, ih v fe _ ho hl h]
  | loopVarying co s ih =>
    intro v fe c ho hl h
    cases c with
    | false => simp [Stmt.Live] at hl; simp [emit, Out.nothing, Stmt.labels, hl]
    | true =>
      cases co with
      | true =>
        have := ho.2 rfl
        rw [fills_none known _ v fe true (by simp [Stmt.labels, this])]
        simp [Stmt.labels, this]
      | false =>
        simp only [emit, Bool.not_true, Bool.false_eq_true, if_false] at h
        simp only [Stmt.Live, if_true] at hl
        simp [emit, Stmt.labels, ih true fe _ ho.1 hl h]
  | foreach s ih =>
    intro v fe c ho hl h
    have ho : s.labels = [] := ho
    rw [fills_none known _ v fe c (by simp [Stmt.labels, ho])]
    simp [Stmt.labels, ho]

/-- The labels jumped to are those of the `goto`s that can be reached, none of which is under varying control flow or
    without its label. -/
theorem goto_jumps (known : List String) (s : Stmt) (v c : Bool) (l : String) (v' : Bool) (h : s.GotoAt v c l v') :
    ∀ fe, (emit known v fe s c).ok = true → v' = false ∧ l ∈ known ∧ l ∈ (emit known v fe s c).jumps := by
  induction h with
  | goto l v =>
    intro fe hok
    simp only [emit] at hok ⊢
    split_ifs at hok ⊢ <;> simp_all
  | label l h ih => intro fe hok; exact ih fe hok
  | left h ih =>
    intro fe hok
    simp only [emit, Out.both, Bool.and_eq_true] at hok
    obtain ⟨h1, h2, h3⟩ := ih fe hok.1
    exact ⟨h1, h2, List.mem_append_left _ h3⟩
  | @right a b v c l v' h ih =>
    intro fe hok
    simp only [emit, Out.both, Bool.and_eq_true] at hok
    have hc := emit_cur known a v fe c hok.1
    rw [hc] at hok
    obtain ⟨h1, h2, h3⟩ := ih fe hok.2
    refine ⟨h1, h2, ?_⟩
    simp only [emit, Out.both]
    rw [hc]
    exact List.mem_append_right _ h3
  | thenU h ih =>
    intro fe hok
    simp only [emit, Out.both, Bool.not_true, Bool.false_eq_true, if_false, Bool.and_eq_true] at hok ⊢
    obtain ⟨h1, h2, h3⟩ := ih fe hok.1
    exact ⟨h1, h2, List.mem_append_left _ h3⟩
  | elseU h ih =>
    intro fe hok
    simp only [emit, Out.both, Bool.not_true, Bool.false_eq_true, if_false, Bool.and_eq_true] at hok ⊢
    obtain ⟨h1, h2, h3⟩ := ih fe hok.2
    exact ⟨h1, h2, List.mem_append_right _ h3⟩
  | @thenV co a b v l v' h ih =>
    intro fe hok
    have hx : (emit known true fe a true).ok = true := by
      cases co <;> simp [emit, Out.both] at hok <;> simp [hok]
    obtain ⟨h1, h2, h3⟩ := ih fe hx
    refine ⟨h1, h2, ?_⟩
    cases co <;> simp [emit, Out.both, h3]
  | @elseV co a b v l v' h ih =>
    intro fe hok
    have hx : (emit known true fe b true).ok = true := by
      cases co <;> simp [emit, Out.both] at hok <;> simp [hok]
    obtain ⟨h1, h2, h3⟩ := ih fe hx
    refine ⟨h1, h2, ?_⟩
    cases co <;> simp [emit, Out.both, h3]
  | loopU h ih =>
    intro fe hok
    simp only [emit, Bool.not_true, Bool.false_eq_true, if_false] at hok ⊢
    exact ih fe hok
  | @loopV co s v l v' h ih =>
    intro fe hok
    have hx : (emit known true fe s true).ok = true := by
      cases co <;> simp [emit, Out.both] at hok <;> simp [hok]
    obtain ⟨h1, h2, h3⟩ := ih fe hx
    refine ⟨h1, h2, ?_⟩
    cases co <;> simp [emit, Out.both, h3]
  | @foreach s v l v' h ih =>
    intro fe hok
    have hx : (emit known true true s true).ok = true := by
      simpa [emit, Out.both] using hok
    obtain ⟨h1, h2, h3⟩ := ih true hx
    exact ⟨h1, h2, by simp [emit, Out.both, h3]⟩

theorem jumps_known (known : List String) (s : Stmt) : ∀ (v fe c : Bool), ∀ l ∈ (emit known v fe s c).jumps,
    l ∈ known := by
  induction s with
  | code => intro v fe c l h; simp [emit, Out.nothing] at h
  | leave => intro v fe c l h; simp [emit, Out.nothing] at h
  | goto l' =>
    intro v fe c l h
    simp only [emit] at h
    split_ifs at h <;> simp_all [Out.nothing]
  | label l' s ih => intro v fe c l h; exact ih v fe true l h
  | seq a b iha ihb =>
    intro v fe c l h
    simp only [emit, Out.both, List.mem_append] at h
    exact h.elim (iha v fe c l) (ihb v fe _ l)
  | ifUniform a b iha ihb =>
    intro v fe c l h
    cases c <;> simp [emit, Out.both, Out.nothing] at h
    exact h.elim (iha v fe _ l) (ihb v fe _ l)
  | ifVarying co a b iha ihb =>
    intro v fe c l h
    cases c <;> cases co <;> simp [emit, Out.both, Out.nothing] at h
    · exact h.elim (iha true fe _ l) (ihb true fe _ l)
    · exact (show l ∈ (emit known true fe a true).jumps ∨ l ∈ (emit known true fe b true).jumps by tauto).elim
        (iha true fe _ l) (ihb true fe _ l)
  | loopUniform s ih =>
    intro v fe c l h
    cases c <;> simp [emit, Out.nothing] at h
    exact ih v fe _ l h
  | loopVarying co s ih =>
    intro v fe c l h
    cases c <;> cases co <;> simp [emit, Out.both, Out.nothing] at h
    · exact ih true fe _ l h
    · exact ih true fe _ l h
  | foreach s ih =>
    intro v fe c l h
    cases c <;> simp [emit, Out.both, Out.nothing] at h
    exact ih true true _ l h

/-! ## The property -/

/-- **Every `goto` that can be reached is under uniform control flow and has its label**, or the function is refused. -/
theorem goto_checked (body : Stmt) (o : Out) (h : compile body = some o) (l : String) (v : Bool)
    (hg : body.GotoAt false true l v) : v = false ∧ l ∈ body.labels ∧ l ∈ o.jumps := by
  simp only [compile] at h
  split_ifs at h with h1 h2
  simp only [Option.some.injEq] at h
  subst h
  exact goto_jumps body.labels body false true l v hg false h2

/-- **Every label has one block, filled exactly once**, so that every `goto` goes to its statement, if no label is in a
    statement with several copies or in one that cannot be reached. -/
theorem filled_once_partial (body : Stmt) (ho : body.Once) (hl : body.Live false true) (o : Out)
    (h : compile body = some o) : (∀ l ∈ body.labels, o.fills.count l = 1) ∧ ∀ l ∈ o.jumps, o.fills.count l = 1 := by
  simp only [compile] at h
  split_ifs at h with h1 h2
  simp only [Option.some.injEq] at h
  subst h
  have e := fills_eq body.labels body false false true ho hl h2
  have key : ∀ l ∈ body.labels, (emit body.labels false false body true).fills.count l = 1 := by
    intro l hm
    rw [e]
    exact List.count_eq_one_of_mem h1 hm
  exact ⟨key, fun l hm => key l (jumps_known body.labels body false false true l hm)⟩

/-- **Labels that occur twice are refused.** -/
theorem duplicate_rejected (body : Stmt) (h : ¬ body.labels.Nodup) : compile body = none := by
  simp [compile, h]

/-- A loop written with `goto`, with a label in a varying `if` that is not coherent. -/
def sample : Stmt := .seq (.label "again" (.ifVarying false (.label "in" .code) .code))
  (.seq (.ifUniform (.goto "again") .code) .leave)

example : sample.Once ∧ sample.Live false true ∧ (compile sample).isSome = true ∧
    sample.GotoAt false true "again" false := by
  refine ⟨by simp [sample, Stmt.Once], by simp [sample, Stmt.Live, Stmt.falls], by decide +kernel, ?_⟩
  exact .right (.left (.thenU (.goto _ _)))

/-! ## What fails -/

/-- **A label in `cif` or in `foreach` is compiled several times into one block**: the function is accepted, without any
    `goto`, but the code behind the first copy is put behind the end of the block. -/
theorem copies_wrong :
    (∃ o, compile (.ifVarying true (.label "l" .code) .code) = some o ∧ o.fills.count "l" = 3) ∧
    (∃ o, compile (.loopVarying true (.label "l" .code)) = some o ∧ o.fills.count "l" = 2) ∧
    ∃ o, compile (.foreach (.label "l" .code)) = some o ∧ o.fills.count "l" = 2 :=
  ⟨⟨_, rfl, by decide +kernel⟩, ⟨_, rfl, by decide +kernel⟩, _, rfl, by decide +kernel⟩

/-- **A label in an `if` behind a `goto` is not compiled**: the `goto` jumps to a block without instructions. -/
theorem skipped_wrong : ∃ o, compile (.seq (.goto "l") (.ifUniform (.label "l" .code) .code)) = some o ∧
    "l" ∈ o.jumps ∧ o.fills.count "l" = 0 :=
  ⟨_, rfl, by decide +kernel, by decide +kernel⟩

/-- **A `goto` may jump into a varying `if`**: only its own place is checked, not that of the label, so that the body runs
    without the mask of the `if`. -/
theorem into_varying_wrong : ∃ o, compile (.seq (.goto "l") (.label "m" (.ifVarying false (.label "l" .code) .code))) =
    some o ∧ "l" ∈ o.jumps ∧ o.fills.count "l" = 1 :=
  ⟨_, rfl, by decide +kernel, by decide +kernel⟩

/-- **A `goto` that cannot be reached is not checked**: its label need not exist. -/
theorem unreachable_wrong : ∃ o, compile (.seq .leave (.goto "missing")) = some o := ⟨_, rfl⟩

end Ispc.Goto
