import Verif.Front.InstancesProps

/-!
# Instances and specializations: the properties
-/

namespace Ispc.Insts

open Ispc.Types Ispc.Promote Ispc.Templ

/-- The compiler comes to an end with the file, and this is what it has then. -/
def Ends (env : Nat → Tmpl) (es : List Ev) (st : St) : Prop := ∃ n, run env n es St.init = some st

/-! ## What stays -/

/-- Instances stay where they are, with the same arguments, and never lose
their function. -/
def Keeps (a b : St) : Prop :=
  ∀ (i : Nat) (x : Inst), a.insts[i]? = some x →
    ∃ y, b.insts[i]? = some y ∧ y.key = x.key ∧ (x.body.isSome = true → y.body.isSome = true)

theorem Keeps.refl (a : St) : Keeps a a := fun _ x h => ⟨x, h, rfl, id⟩

theorem Keeps.trans {a b c : St} (h : Keeps a b) (h' : Keeps b c) : Keeps a c := by
  intro i x hx
  obtain ⟨y, hy, hk, hb⟩ := h i x hx
  obtain ⟨z, hz, hk', hb'⟩ := h' i y hy
  exact ⟨z, hz, hk'.trans hk, fun h => hb' (hb h)⟩

theorem Ext.keeps {env : Nat → Tmpl} {a b : St} (h : Ext env a b) : Keeps a b :=
  fun _ x hx => ⟨x, h.get hx, rfl, id⟩

theorem keeps_push (x : Inst) (st : St) : Keeps st (push x st) := by
  intro i y hy
  refine ⟨y, ?_, rfl, id⟩
  simp only [push]
  rw [List.getElem?_append_left]
  · exact hy
  · exact (List.getElem?_eq_some_iff.1 hy).1

theorem keeps_update {i : Nat} {f : Inst → Inst} (hk : ∀ x, (f x).key = x.key)
    (hb : ∀ x, x.body.isSome = true → (f x).body.isSome = true) (st : St) :
    Keeps st (update i f st) := by
  intro j y hy
  by_cases h : i = j
  · subst h
    exact ⟨f y, getElem?_modify_eq hy, hk y, hb y⟩
  · exact ⟨y, by simp only [update]; rw [getElem?_modify_ne h]; exact hy, rfl, id⟩

theorem keeps_fail (st : St) : Keeps st (fail st) := Keeps.refl st

theorem keeps_declare (env : Nat → Tmpl) (ts : List Nat) (args : List TArg) (ft : FTy) (st : St) :
    Keeps st (declare env ts args ft st) := by
  simp only [declare]
  split
  · exact keeps_fail st
  · split
    · exact keeps_fail st
    · split
      · exact keeps_fail st
      · split
        · exact Keeps.refl st
        · exact keeps_push _ st

theorem keeps_step {env : Nat → Tmpl} {n : Nat} {e : Ev} {st st' : St}
    (h : step env n st e = some st') : Keeps st st' := by
  cases e with
  | call k => exact (use_ext _ _ _ _ h).keeps
  | explicit ts args ft =>
    simp only [step, explicit] at h
    split at h
    · cases h; exact keeps_fail st
    · split at h
      · cases h; exact keeps_fail st
      · exact (add_ext h).keeps
  | declare ts args ft =>
    simp only [step, Option.some.injEq] at h
    subst h
    exact keeps_declare env ts args ft st
  | define ts args ft id calls =>
    refine (keeps_declare env ts args ft st).trans ?_
    simp only [step, define] at h
    split at h
    · cases h; exact keeps_fail _
    · split at h
      · cases h; exact Keeps.refl _
      · split at h
        · cases h
        · rename_i st1 h1
          cases h
          exact ((keeps_update (by simp) (by simp) _).trans
            (runAll_ext (use_ext n) _ h1).keeps).trans (keeps_update (by simp) (by simp) _)

theorem keeps_run {env : Nat → Tmpl} {n : Nat} : ∀ {es : List Ev} {st st' : St},
    run env n es st = some st' → Keeps st st'
  | [], st, st', h => by
    simp only [run, Option.some.injEq] at h
    subst h
    exact Keeps.refl st
  | e :: es, st, st', h => by
    simp only [run] at h
    split at h
    · cases h
    · rename_i st1 h1
      exact (keeps_step h1).trans (keeps_run h)

theorem run_append {env : Nat → Tmpl} {n : Nat} : ∀ {es es' : List Ev} {st st' : St},
    run env n (es ++ es') st = some st' →
      ∃ st1, run env n es st = some st1 ∧ run env n es' st1 = some st'
  | [], es', st, st', h => ⟨st, rfl, h⟩
  | e :: es, es', st, st', h => by
    simp only [List.cons_append, run] at h ⊢
    split at h
    · cases h
    · exact run_append h

theorem distinct_eq : ∀ {l : List Inst} {i j : Nat} {x y : Inst}, distinct l = true →
    l[i]? = some x → l[j]? = some y → keyEq x.key y.key = true → i = j
  | [], _, _, _, _, _, h, _, _ => by simp at h
  | a :: l, i, j, x, y, hd, hx, hy, hk => by
    simp only [distinct, Bool.and_eq_true, List.all_eq_true, Bool.not_eq_true'] at hd
    cases i with
    | zero =>
      cases j with
      | zero => rfl
      | succ j =>
        simp only [List.getElem?_cons_zero, Option.some.injEq] at hx
        simp only [List.getElem?_cons_succ] at hy
        subst hx
        have := hd.1 y (List.mem_of_getElem? hy)
        rw [this] at hk
        cases hk
    | succ i =>
      cases j with
      | zero =>
        simp only [List.getElem?_cons_zero, Option.some.injEq] at hy
        simp only [List.getElem?_cons_succ] at hx
        subst hy
        have := hd.1 x (List.mem_of_getElem? hx)
        rw [keyEq_symm hk] at this
        cases this
      | succ j =>
        simp only [List.getElem?_cons_succ] at hx hy
        rw [distinct_eq hd.2 hx hy hk]

theorem accepted_err {st : St} (h : accepted st = true) : st.err = false := by
  simp only [accepted, Bool.and_eq_true, Bool.not_eq_true'] at h
  exact h.1

theorem accepted_distinct {st : St} (h : accepted st = true) : distinct st.insts = true := by
  simp only [accepted, generates, Bool.and_eq_true] at h
  exact h.2.2

theorem accepted_body {st : St} (h : accepted st = true) {x : Inst} (hx : x ∈ st.insts) :
    ∃ b, x.body = some b := by
  simp only [accepted, generates, Bool.and_eq_true, List.all_eq_true] at h
  exact Option.isSome_iff_exists.1 (h.2.1 x hx)

/-- Every call refers to an instance with its arguments. -/
def CallsOk (st : St) : Prop :=
  ∀ c ∈ st.calls, ∃ x, st.insts[c.2]? = some x ∧ keyEq x.key c.1 = true

theorem CallsOk.keeps {a b : St} (h : CallsOk a) (hk : Keeps a b) (hc : b.calls = a.calls) :
    CallsOk b := by
  intro c hcm
  rw [hc] at hcm
  obtain ⟨x, hx, hkx⟩ := h c hcm
  obtain ⟨y, hy, hyk, _⟩ := hk _ x hx
  exact ⟨y, hy, by rw [hyk]; exact hkx⟩

theorem CallsOk.ext {env : Nat → Tmpl} {a b : St} (h : CallsOk a) (he : Ext env a b) :
    CallsOk b := by
  obtain ⟨cs, hc, hq⟩ := he.calls
  intro c hcm
  rw [hc] at hcm
  rcases List.mem_append.1 hcm with hcm | hcm
  · obtain ⟨x, hx, hkx⟩ := h c hcm
    exact ⟨x, he.get hx, hkx⟩
  · exact hq c hcm

theorem declare_calls (env : Nat → Tmpl) (ts : List Nat) (args : List TArg) (ft : FTy) (st : St) :
    (declare env ts args ft st).calls = st.calls := by
  simp only [declare]
  repeat' split
  all_goals rfl

theorem calls_step {env : Nat → Tmpl} {n : Nat} {e : Ev} {st st' : St} (hc : CallsOk st)
    (h : step env n st e = some st') : CallsOk st' := by
  cases e with
  | call k => exact hc.ext (use_ext _ _ _ _ h)
  | explicit ts args ft =>
    simp only [step, explicit] at h
    split at h
    · cases h; exact hc
    · split at h
      · cases h; exact hc
      · exact hc.ext (add_ext h)
  | declare ts args ft =>
    have hk := keeps_step h
    simp only [step, Option.some.injEq] at h
    subst h
    exact hc.keeps hk (declare_calls env ts args ft st)
  | define ts args ft id calls =>
    have hc1 := hc.keeps (keeps_declare env ts args ft st) (declare_calls env ts args ft st)
    simp only [step, define] at h
    split at h
    · cases h; exact hc1
    · split at h
      · cases h; exact hc1
      · split at h
        · cases h
        · rename_i st1 h1
          cases h
          have hc2 := (hc1.keeps (keeps_update (by simp) (by simp) _) rfl).ext
            (runAll_ext (use_ext n) _ h1)
          exact hc2.keeps (keeps_update (by simp) (by simp) _) rfl

theorem calls_run {env : Nat → Tmpl} {n : Nat} : ∀ {es : List Ev} {st st' : St}, CallsOk st →
    run env n es st = some st' → CallsOk st'
  | [], st, st', hc, h => by
    simp only [run, Option.some.injEq] at h
    subst h
    exact hc
  | e :: es, st, st', hc, h => by
    simp only [run] at h
    split at h
    · cases h
    · rename_i st1 h1
      exact calls_run (calls_step hc h1) h

/-! ## The properties -/

/-- Two template arguments are the same: equal types, or constants of the same
type and value. -/
inductive SameArg : TArg → TArg → Prop
  | types {t u : Ty} : equal t u = true → SameArg (.ty t) (.ty u)
  | values (b : Basic) (k : Int) : SameArg (.num b k) (.num b k)

/-- The same template with the same arguments, one by one. -/
def SameKey (a b : Key) : Prop := a.t = b.t ∧ List.Forall₂ SameArg a.args b.args

theorem keyEq_iff {a b : Key} : keyEq a b = true ↔ SameKey a b := by
  have h1 : ∀ x y, argEq x y = true ↔ SameArg x y := by
    intro x y
    constructor
    · intro h
      cases x <;> cases y <;> simp only [argEq, decide_eq_true_eq, Bool.false_eq_true] at h
      · exact .types h
      · obtain ⟨rfl, rfl⟩ := h
        exact .values _ _
    · rintro (h | ⟨b, k⟩)
      · exact h
      · simp [argEq]
  have h2 : ∀ xs ys, argsEq xs ys = true ↔ List.Forall₂ SameArg xs ys := by
    intro xs
    induction xs with
    | nil => intro ys; cases ys <;> simp [argsEq]
    | cons x xs ih => intro ys; cases ys <;> simp [argsEq, h1, ih]
  simp only [keyEq, SameKey, Bool.and_eq_true, decide_eq_true_eq, h2]

/-- **In a file that is accepted, two calls refer to the same function exactly
when they name the same template with the same arguments** (the types being
equal, the constants of equal type and value), whatever was declared,
specialized and instantiated in between. -/
theorem one_instance {env : Nat → Tmpl} {es : List Ev} {st : St}
    (hrun : Ends env es st) (hacc : accepted st = true) :
    ∀ c ∈ st.calls, ∀ c' ∈ st.calls, c.2 = c'.2 ↔ SameKey c.1 c'.1 := by
  simp only [← keyEq_iff]
  obtain ⟨n, hrun⟩ := hrun
  have hcalls : CallsOk st := calls_run (by simp [CallsOk, St.init]) hrun
  intro c hc c' hc'
  obtain ⟨x, hx, hk⟩ := hcalls c hc
  obtain ⟨y, hy, hk'⟩ := hcalls c' hc'
  constructor
  · intro h
    rw [h, hy] at hx
    cases hx
    exact keyEq_trans (keyEq_symm hk) hk'
  · intro h
    exact distinct_eq (accepted_distinct hacc) hx hy
      (keyEq_trans hk (keyEq_trans h (keyEq_symm hk')))

/-- **In a file that is accepted, a call runs the body that a specialization
gives for its arguments, wherever in the file that body stands, and the
template's body with its arguments when there is none**, provided that the
specializations have the return type of the template and repeat `unmasked`
(see `return_wrong` and `unmasked_wrong`). -/
theorem specialization_partial {env : Nat → Tmpl} (hR : Respects env) {es : List Ev} {st : St}
    (hc : ∀ e ∈ es, Conforms env e) (hrun : Ends env es st) (hacc : accepted st = true) :
    ∀ c ∈ st.calls, ∃ x, st.insts[c.2]? = some x ∧ keyEq x.key c.1 = true ∧
      (∀ id, Defines env es c.1 id → x.body = some (.written id)) ∧
      ((¬ ∃ id, Defines env es c.1 id) → x.body = some (.gen x.key)) := by
  obtain ⟨n, hrun⟩ := hrun
  obtain ⟨_, hG⟩ := good_run hR es [] hc (fun _ => good_init env) hrun (accepted_err hacc)
  rw [List.nil_append] at hG
  intro c hcm
  obtain ⟨x, hx, hk⟩ := hG.calls c hcm
  refine ⟨x, hx, hk, ?_, ?_⟩
  · intro id hd
    obtain ⟨y, hy, hyk, hb⟩ := hG.defined _ id hd
    obtain ⟨j, hj⟩ := List.getElem?_of_mem hy
    have := distinct_eq (accepted_distinct hacc) hx hj (keyEq_trans hk (keyEq_symm hyk))
    rw [← this, hx] at hj
    cases hj
    exact hb
  · intro hn
    have hmem := List.mem_of_getElem? hx
    obtain ⟨b, hb⟩ := accepted_body hacc hmem
    cases b with
    | gen g => rw [hb, hG.gen x hmem g hb]
    | written id => exact absurd ⟨id, (hG.written x hmem id hb).congr hk⟩ hn

/-- **No two bodies are accepted for the same instance.** -/
theorem one_body_partial {env : Nat → Tmpl} (hR : Respects env) {es : List Ev} {st : St}
    (hc : ∀ e ∈ es, Conforms env e) (hrun : Ends env es st) (hacc : accepted st = true)
    {k : Key} {id id' : Nat} (h : Defines env es k id) (h' : Defines env es k id') : id = id' := by
  obtain ⟨n, hrun⟩ := hrun
  obtain ⟨_, hG⟩ := good_run hR es [] hc (fun _ => good_init env) hrun (accepted_err hacc)
  rw [List.nil_append] at hG
  obtain ⟨x, hx, hxk, hb⟩ := hG.defined _ id h
  obtain ⟨y, hy, hyk, hb'⟩ := hG.defined _ id' h'
  obtain ⟨i, hi⟩ := List.getElem?_of_mem hx
  obtain ⟨j, hj⟩ := List.getElem?_of_mem hy
  have := distinct_eq (accepted_distinct hacc) hi hj (keyEq_trans hxk (keyEq_symm hyk))
  rw [this, hj] at hi
  cases hi
  rw [hb] at hb'
  cases hb'
  rfl

/-- The specialization an item declares or defines. -/
def Specializes (env : Nat → Tmpl) (e : Ev) (k : Key) : Prop :=
  ∃ ts args ft, target env ts args ft = some k ∧
    (e = .declare ts args ft ∨ ∃ id calls, e = .define ts args ft id calls)

theorem run_err {env : Nat → Tmpl} (hR : Respects env) {n : Nat} {es es' : List Ev} {st st' : St}
    (hc : ∀ e ∈ es', Conforms env e) (hg : st.err = false → Good env es st)
    (h : run env n es' st = some st') (he : st'.err = false) : st.err = false :=
  (good_run hR es' es hc hg h he).1

/-- **A specialization that follows a call with its arguments, without having
been declared before, is an error** (docs/ispc.rst:5224-5225). -/
theorem late_rejected_partial {env : Nat → Tmpl} (hR : Respects env) {p q r : List Ev} {e : Ev}
    {k k' : Key} {st : St} (hc : ∀ e' ∈ p ++ .call k :: (q ++ e :: r), Conforms env e')
    (hp : ¬ Mentions env p k) (he : Specializes env e k') (hk : keyEq k' k = true)
    (hrun : Ends env (p ++ .call k :: (q ++ e :: r)) st) : accepted st = false := by
  obtain ⟨n, hrun⟩ := hrun
  cases hacc : accepted st with
  | false => rfl
  | true =>
  exfalso
  have hcp : ∀ e' ∈ p, Conforms env e' := fun e' h => hc e' (by simp [h])
  have hcq : ∀ e' ∈ q, Conforms env e' := fun e' h => hc e' (by simp [h])
  have hcr : ∀ e' ∈ r, Conforms env e' := fun e' h => hc e' (by simp [h])
  have hce : Conforms env e := hc e (by simp)
  obtain ⟨s1, h1, h⟩ := run_append hrun
  simp only [run] at h
  split at h
  · cases h
  rename_i s2 h2
  obtain ⟨s3, h3, h⟩ := run_append h
  simp only [run] at h
  split at h
  · cases h
  rename_i s4 h4
  have G1 : s1.err = false → Good env p s1 := fun he1 => by
    have := (good_run hR p [] hcp (fun _ => good_init env) h1 he1).2
    simpa using this
  have G2 : s2.err = false → Good env (p ++ [.call k]) s2 := fun he2 =>
    (good_step hR (e := .call k) trivial G1 h2 he2).2
  have G3 : s3.err = false → Good env ((p ++ [.call k]) ++ q) s3 := fun he3 =>
    (good_run hR q _ hcq G2 h3 he3).2
  have G4 : s4.err = false → Good env (((p ++ [.call k]) ++ q) ++ [e]) s4 := fun he4 =>
    (good_step hR hce G3 h4 he4).2
  have e4 : s4.err = false := run_err hR hcr G4 h (accepted_err hacc)
  have e3 : s3.err = false := (good_step hR hce G3 h4 e4).1
  have e2 : s2.err = false := run_err hR hcq G2 h3 e3
  -- the instance the call refers to
  obtain ⟨i, x, hx, hxk, hxb⟩ : ∃ (i : Nat) (x : Inst), s2.insts[i]? = some x ∧ keyEq x.key k = true ∧
      x.body.isSome = true := by
    have hex : ∃ (i : Nat) (x : Inst), s2.insts[i]? = some x ∧ keyEq x.key k = true := by
      obtain ⟨cs, hcs, hq⟩ := (use_ext _ _ _ _ h2).calls
      have : ∃ i, (k, i) ∈ s2.calls := by
        revert h2
        simp only [step]
        cases n with
        | zero =>
          simp only [use]
          split
          · intro h2; cases h2; exact ⟨_, List.mem_append_right _ (List.mem_singleton.2 rfl)⟩
          · intro h2; cases h2
        | succ n =>
          simp only [use]
          split
          · intro h2; cases h2; exact ⟨_, List.mem_append_right _ (List.mem_singleton.2 rfl)⟩
          · split
            · intro h2; cases h2
            · intro h2; cases h2; exact ⟨_, List.mem_append_right _ (List.mem_singleton.2 rfl)⟩
      obtain ⟨i, hi⟩ := this
      obtain ⟨x, hx, hk⟩ := (G2 e2).calls _ hi
      exact ⟨i, x, hx, hk⟩
    obtain ⟨i, x, hx, hxk⟩ := hex
    refine ⟨i, x, hx, hxk, ?_⟩
    cases hb : x.body with
    | some b => rfl
    | none =>
      exfalso
      obtain ⟨e', hm, k2, hk2, r2⟩ := (G2 e2).declared x (List.mem_of_getElem? hx) (by simp [hb])
      refine hp ⟨e', ?_, k2, keyEq_trans hk2 hxk, r2⟩
      rcases List.mem_append.1 hm with hm | hm
      · exact hm
      · cases List.mem_singleton.1 hm
        exact r2.elim
  obtain ⟨y, hy, hyk, hyb⟩ := keeps_run h3 i x hx
  have hyk' : keyEq y.key k' = true := by rw [hyk]; exact keyEq_trans hxk (keyEq_symm hk)
  -- what the declaration finds
  obtain ⟨ts, args, ft, ht, hev⟩ := he
  have hs : SameSignature env ts args ft := by
    rcases hev with rfl | ⟨id, calls, rfl⟩ <;> exact hce
  have hde : (declare env ts args ft s3).err = false := by
    rcases hev with rfl | ⟨id, calls, rfl⟩
    · simp only [step, Option.some.injEq] at h4
      rw [h4]; exact e4
    · revert h4
      simp only [step, define, ht]
      split
      · intro h4; cases h4; exact e4
      · split
        · intro h4; cases h4
        · rename_i s5 h5
          intro h4
          cases h4
          have := (runAll_ext (use_ext n) _ h5).err
          rw [update_err] at e4 this
          rw [← this]; exact e4
  obtain ⟨_, k2, ht2, hcase⟩ := declare_ok hR hs G3 hde
  rw [ht] at ht2
  cases ht2
  rcases hcase with ⟨_, j, z, _, hz, hzk, hzb⟩ | ⟨hl, _⟩
  · have hij : i ≠ j := by
      rintro rfl
      rw [hy] at hz
      cases hz
      have := hyb hxb
      rw [hzb] at this
      cases this
    obtain ⟨y', hy', hyk2, _⟩ := keeps_step h4 i y hy
    obtain ⟨y'', hy'', hyk3, _⟩ := keeps_run h i y' hy'
    obtain ⟨z', hz', hzk2, _⟩ := keeps_step h4 j z hz
    obtain ⟨z'', hz'', hzk3, _⟩ := keeps_run h j z' hz'
    refine hij (distinct_eq (accepted_distinct hacc) hy'' hz'' ?_)
    rw [hyk3, hyk2, hzk3, hzk2]
    exact keyEq_trans hyk' (keyEq_symm hzk)
  · have := lookup_none.1 hl y (List.mem_of_getElem? hy)
    rw [hyk'] at this
    cases this

/-! ## Coming to an end -/

/-- **When the bodies of templates only ask for instances of smaller rank, the
compiler comes to an end with every call.** -/
theorem terminates {env : Nat → Tmpl} {rank : Key → Nat}
    (hr : ∀ k, ∀ j ∈ (env k.t).calls k.args, rank j < rank k) :
    ∀ (n : Nat) (k : Key) (st : St), rank k < n → ∃ st', use env n k st = some st'
  | 0, k, st, h => by omega
  | n + 1, k, st, h => by
    have hall : ∀ (ks : List Key) (st : St), (∀ j ∈ ks, rank j < n) →
        ∃ st', runAll (use env n) ks st = some st' := by
      intro ks
      induction ks with
      | nil => exact fun st _ => ⟨st, rfl⟩
      | cons j ks ih =>
        intro st hj
        obtain ⟨s1, h1⟩ := terminates hr n j st (hj j (by simp))
        obtain ⟨s2, h2⟩ := ih s1 (fun i hi => hj i (by simp [hi]))
        exact ⟨s2, by simp only [runAll, h1, h2]⟩
    simp only [use]
    split
    · exact ⟨_, rfl⟩
    · obtain ⟨s1, h1⟩ := hall ((env k.t).calls k.args) st
        (fun j hj => by have := hr k j hj; omega)
      rw [h1]
      exact ⟨_, rfl⟩

/-- No request adds an instance whose own addition does not come to an end. -/
theorem use_avoids {env : Nat → Tmpl} {k : Key} : ∀ (n : Nat),
    (∀ m, m ≤ n → ∀ j st, keyEq j k = true → lookup k st = none → use env m j st = none) →
    ∀ (j : Key) (st st' : St), lookup k st = none → use env n j st = some st' →
      lookup k st' = none := by
  intro n
  induction n with
  | zero =>
    intro hno j st st' hl h
    simp only [use] at h
    split at h
    · cases h; exact hl
    · cases h
  | succ n ih =>
    intro hno j st st' hl h
    have hj : keyEq j k = false := by
      cases hjk : keyEq j k with
      | false => rfl
      | true =>
        rw [hno (n + 1) (Nat.le_refl _) j st hjk hl] at h
        cases h
    have hall : ∀ (ks : List Key) (st st' : St), lookup k st = none →
        runAll (use env n) ks st = some st' → lookup k st' = none := by
      intro ks
      induction ks with
      | nil =>
        intro st st' hl h
        simp only [runAll, Option.some.injEq] at h
        subst h
        exact hl
      | cons i ks ihk =>
        intro st st' hl h
        simp only [runAll] at h
        split at h
        · cases h
        · rename_i s1 h1
          exact ihk _ _ (ih (fun m hm => hno m (by omega)) i st s1 hl h1) h
    simp only [use] at h
    split at h
    · cases h; exact hl
    · split at h
      · cases h
      · rename_i s1 h1
        cases h
        have := hall _ _ _ hl h1
        rw [lookup_none] at this ⊢
        intro x hx
        simp only [record, push, List.mem_append, List.mem_singleton] at hx
        rcases hx with hx | rfl
        · exact this x hx
        · exact hj

/-- **A template whose body asks for the instance it is the body of — a
recursive function — is instantiated without end**, because the instance is
entered in the list only after its body has been checked. -/
theorem recursion_never {env : Nat → Tmpl} {k : Key}
    (hself : ∀ j, keyEq j k = true → ∃ i ∈ (env j.t).calls j.args, keyEq i k = true) :
    ∀ (n : Nat) (j : Key) (st : St), keyEq j k = true → lookup k st = none →
      use env n j st = none := by
  intro n
  induction n using Nat.strongRecOn with
  | ind n ih =>
    intro j st hj hl
    have hlj : lookup j st = none := by
      rw [lookup_none] at hl ⊢
      intro x hx
      cases h : keyEq x.key j with
      | false => rfl
      | true =>
        have := hl x hx
        rw [keyEq_trans h hj] at this
        cases this
    cases n with
    | zero => simp only [use, hlj]
    | succ n =>
      obtain ⟨i, hi, hik⟩ := hself j hj
      have hall : ∀ (ks : List Key) (st : St), i ∈ ks → lookup k st = none →
          runAll (use env n) ks st = none := by
        intro ks
        induction ks with
        | nil => intro st h _; simp at h
        | cons a ks ihk =>
          intro st hm hl
          simp only [runAll]
          cases ha : use env n a st with
          | none => rfl
          | some s1 =>
            have hl1 := use_avoids n (fun m hm' => ih m (by omega)) a st s1 hl ha
            rcases List.mem_cons.1 hm with rfl | hm
            · rw [ih n (by omega) i st hik hl] at ha
              cases ha
            · exact ihk s1 hm hl1
      simp only [use, hlj, hall _ st hi hl]

/-! ## Concrete files -/

def int : Ty := .atomic .int32 .varying false
def float : Ty := .atomic .float .varying false
/-- `int` as it is written in an argument list -/
def int' : Ty := .atomic .int32 .unbound false

def headTy : List TArg → Ty
  | .ty t :: _ => t
  | _ => int

/-- `template <typename T> T f(T x)` (0), the same `unmasked` (1),
`template <typename T> T r(T x) { … r<T>(…) … }` (2),
`template <int N> int h(int x)` (3), `template <typename T> T u(T x) { … f<T>(x) … f<float>(…) … }`
(4). -/
def demo : Nat → Tmpl
  | 0 => ⟨1, headTy, fun a => [headTy a], false, fun _ => []⟩
  | 1 => ⟨1, headTy, fun a => [headTy a], true, fun _ => []⟩
  | 2 => ⟨1, headTy, fun a => [headTy a], false, fun a => [⟨2, a⟩]⟩
  | 3 => ⟨1, fun _ => int, fun _ => [int], false, fun _ => []⟩
  | _ => ⟨1, headTy, fun a => [headTy a], false, fun a => [⟨0, a⟩, ⟨0, [.ty float]⟩]⟩

theorem demo_respects : Respects demo := by
  have hh : ∀ a b, argsEq a b = true → equal (headTy a) (headTy b) = true := by
    intro a b h
    cases a with
    | nil => cases b with
      | nil => exact equal_refl _
      | cons _ _ => simp [argsEq] at h
    | cons x a => cases b with
      | nil => simp [argsEq] at h
      | cons y b =>
        simp only [argsEq, Bool.and_eq_true] at h
        cases x <;> cases y <;> simp_all [argEq, headTy, equal_refl]
  intro t a b h
  have := hh a b h
  rcases t with _ | _ | _ | _ | t <;> simp [demo, tysEq, this, equal_refl]

/-- `template <> int f<int>(int) { … }` and the like -/
def spec (t : Nat) (ret : Ty) (id : Nat) (calls : List Key) : Ev :=
  .define [t] [.ty int'] ⟨ret, [int], false⟩ id calls

def fInt : Key := ⟨0, [.ty int]⟩
def fFloat : Key := ⟨0, [.ty float]⟩

/-- A declared specialization is used before it is defined, `u<int>` uses it
too, and `f<float>` is made from the template. -/
def good : List Ev :=
  [.declare [0] [.ty int'] ⟨int, [int], false⟩, .call fInt, .call ⟨4, [.ty int]⟩,
    spec 0 int 7 [fInt], .call fFloat]

def goodSt : St :=
  { insts := [⟨fInt, ⟨int, [int], false⟩, some (.written 7)⟩,
      ⟨fFloat, ⟨float, [float], false⟩, some (.gen fFloat)⟩,
      ⟨⟨4, [.ty int]⟩, ⟨int, [int], false⟩, some (.gen ⟨4, [.ty int]⟩)⟩]
    calls := [(fInt, 0), (fInt, 0), (fFloat, 1), (⟨4, [.ty int]⟩, 2), (fInt, 0), (fFloat, 1)]
    err := false }

theorem good_ends : Ends demo good goodSt := ⟨3, by decide +kernel⟩

theorem good_accepted : accepted goodSt = true := by decide +kernel

theorem good_conforms : ∀ e ∈ good, Conforms demo e := by
  intro e he
  simp only [good, spec, List.mem_cons, List.not_mem_nil, or_false] at he
  have hs : SameSignature demo [0] [.ty int'] ⟨int, [int], false⟩ := by
    intro k hk
    have : k = fInt := by
      have h2 : target demo [0] [.ty int'] ⟨int, [int], false⟩ = some fInt := by decide +kernel
      rw [h2] at hk
      exact (Option.some.inj hk).symm
    subst this
    decide +kernel
  rcases he with rfl | rfl | rfl | rfl | rfl
  · exact hs
  · trivial
  · trivial
  · exact hs
  · trivial

example : ∀ c ∈ goodSt.calls, ∀ c' ∈ goodSt.calls, c.2 = c'.2 ↔ SameKey c.1 c'.1 :=
  one_instance good_ends good_accepted

example : ∀ c ∈ goodSt.calls, ∃ x, goodSt.insts[c.2]? = some x ∧ keyEq x.key c.1 = true ∧
    (∀ id, Defines demo good c.1 id → x.body = some (.written id)) ∧
    ((¬ ∃ id, Defines demo good c.1 id) → x.body = some (.gen x.key)) :=
  specialization_partial demo_respects good_conforms good_ends good_accepted

example : Defines demo good fInt 7 :=
  ⟨[0], [.ty int'], ⟨int, [int], false⟩, [fInt], by decide +kernel, fInt, by decide +kernel,
    by decide +kernel⟩

/-- The files of `late_rejected_partial` exist, and the compiler comes to an
end with them. -/
example : ∃ st, Ends demo ([] ++ .call fInt :: ([] ++ spec 0 int 7 [] :: [])) st ∧
    ¬ Mentions demo [] fInt ∧ Specializes demo (spec 0 int 7 []) fInt ∧ accepted st = false :=
  ⟨_, ⟨2, rfl⟩, by simp [Mentions], ⟨_, _, _, by decide +kernel, Or.inr ⟨_, _, rfl⟩⟩,
    by decide +kernel⟩

/-- Without a body the specialization is an error at the end. -/
example : ∃ st, Ends demo [.declare [0] [.ty int'] ⟨int, [int], false⟩, .call fInt] st ∧
    st.err = false ∧ accepted st = false :=
  ⟨_, ⟨2, rfl⟩, by decide +kernel, by decide +kernel⟩

/-- The templates 0, 3 and 4 meet the condition of `terminates`. -/
example : ∀ (st : St), ∃ st', use (fun t => if t = 2 then demo 0 else demo t) 3
    ⟨4, [.ty int]⟩ st = some st' := by
  intro st
  refine terminates (rank := fun k => if k.t < 4 then 0 else 1) ?_ 3 _ st (by decide)
  rintro ⟨t, a⟩ j hj
  rcases t with _ | _ | _ | _ | t <;> simp [demo] at hj
  rcases hj with rfl | rfl <;> (simp; rw [if_neg (by omega)]; omega)

/-- A recursive template, as `template <typename T> T r(T x) { … r<T>(…) … }`,
sends the compiler into endless recursion at its first call. -/
theorem recursion_wrong : ¬ ∃ st, Ends demo [.call ⟨2, [.ty int]⟩] st := by
  rintro ⟨st, n, h⟩
  have := recursion_never (env := demo) (k := ⟨2, [.ty int]⟩) (by
    rintro ⟨t, a⟩ hj
    have ht : t = 2 := by
      simp only [keyEq, Bool.and_eq_true, decide_eq_true_eq] at hj
      exact hj.1
    subst ht
    exact ⟨⟨2, a⟩, by simp [demo], hj⟩) n ⟨2, [.ty int]⟩ St.init (keyEq_refl _) rfl
  simp only [run, step, this] at h
  cases h

/-- A specialization with another return type is accepted, even after a call
with its arguments: the function whose calls have been checked to give an
`int` is replaced by one that returns a `float`. -/
theorem return_wrong : ∃ es st, Ends demo es st ∧ accepted st = true ∧
    es = [.call fInt, spec 0 float 7 []] ∧ (demo 0).ret [.ty int] = int ∧
    ∃ x, st.insts[0]? = some x ∧ st.calls = [(fInt, 0)] ∧ x.body = some (.written 7) ∧
      x.fty.ret = float :=
  ⟨_, _, ⟨2, rfl⟩, by decide +kernel, rfl, rfl, _, rfl, rfl, rfl, rfl⟩

/-- A specialization of an `unmasked` template that does not repeat the word is
not found to be defined already: a second body is accepted and replaces the
first, also for the calls before it. -/
theorem unmasked_wrong : ∃ es st, Ends demo es st ∧ accepted st = true ∧
    es = [spec 1 int 7 [], .call ⟨1, [.ty int]⟩, spec 1 int 8 []] ∧
    ∃ x, st.insts[0]? = some x ∧ st.calls = [(⟨1, [.ty int]⟩, 0)] ∧ x.body = some (.written 8) :=
  ⟨_, _, ⟨2, rfl⟩, by decide +kernel, rfl, _, rfl, rfl, rfl⟩

/-- An explicit instantiation after a call with the same arguments is
rejected: it never looks for the instance that is there. -/
theorem explicit_wrong : ∃ es st, Ends demo es st ∧ accepted st = false ∧ st.err = false ∧
    es = [.call fInt, .explicit [0] [.ty int'] ⟨int, [int], false⟩] :=
  ⟨_, _, ⟨2, rfl⟩, by decide +kernel, by decide +kernel, rfl⟩

/-- The parameter `N` of `h` is an `int`; the specialization for `h<4>` is not
used by `h<4u>`. -/
theorem constant_wrong : ∃ es st, Ends demo es st ∧ accepted st = true ∧
    es = [.define [3] [.num .int32 4] ⟨int, [int], false⟩ 7 [], .call ⟨3, [.num .uint32 4]⟩] ∧
    ∃ x, st.insts[1]? = some x ∧ st.calls = [(⟨3, [.num .uint32 4]⟩, 1)] ∧
      x.body = some (.gen ⟨3, [.num .uint32 4]⟩) :=
  ⟨_, _, ⟨2, rfl⟩, by decide +kernel, rfl, _, rfl, rfl, rfl⟩

end Ispc.Insts
