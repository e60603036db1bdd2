import Verif.Front.Instances

/-!
# What the handling of instances and specializations guarantees
-/

namespace Ispc.Insts

open Ispc.Types Ispc.Promote Ispc.Templ

/-! ## The comparisons are equivalences -/

theorem argEq_refl (a : TArg) : argEq a a = true := by
  cases a <;> simp [argEq, equal_refl]

theorem argEq_symm {a b : TArg} (h : argEq a b = true) : argEq b a = true := by
  cases a <;> cases b <;> simp_all [argEq]
  exact equal_symm h

theorem argEq_trans {a b c : TArg} (h : argEq a b = true) (h' : argEq b c = true) :
    argEq a c = true := by
  cases a <;> cases b <;> cases c <;> simp_all [argEq]
  exact equal_trans h h'

theorem argsEq_refl (a : List TArg) : argsEq a a = true := by
  induction a with
  | nil => rfl
  | cons x xs ih => simp [argsEq, argEq_refl, ih]

theorem argsEq_symm : ∀ {a b : List TArg}, argsEq a b = true → argsEq b a = true
  | [], [], _ => rfl
  | [], _ :: _, h => by simp [argsEq] at h
  | _ :: _, [], h => by simp [argsEq] at h
  | a :: as, b :: bs, h => by
    simp only [argsEq, Bool.and_eq_true] at h ⊢
    exact ⟨argEq_symm h.1, argsEq_symm h.2⟩

theorem argsEq_trans : ∀ {a b c : List TArg}, argsEq a b = true → argsEq b c = true →
    argsEq a c = true
  | [], [], _, _, h => h
  | [], _ :: _, _, h, _ => by simp [argsEq] at h
  | _ :: _, [], _, h, _ => by simp [argsEq] at h
  | _ :: _, _ :: _, [], _, h => by simp [argsEq] at h
  | a :: as, b :: bs, c :: cs, h, h' => by
    simp only [argsEq, Bool.and_eq_true] at h h' ⊢
    exact ⟨argEq_trans h.1 h'.1, argsEq_trans h.2 h'.2⟩

theorem keyEq_refl (a : Key) : keyEq a a = true := by simp [keyEq, argsEq_refl]

theorem keyEq_symm {a b : Key} (h : keyEq a b = true) : keyEq b a = true := by
  simp only [keyEq, Bool.and_eq_true, decide_eq_true_eq] at h ⊢
  exact ⟨h.1.symm, argsEq_symm h.2⟩

theorem keyEq_trans {a b c : Key} (h : keyEq a b = true) (h' : keyEq b c = true) :
    keyEq a c = true := by
  simp only [keyEq, Bool.and_eq_true, decide_eq_true_eq] at h h' ⊢
  exact ⟨h.1.trans h'.1, argsEq_trans h.2 h'.2⟩

theorem tysEq_refl (a : List Ty) : tysEq a a = true := by
  induction a with
  | nil => rfl
  | cons x xs ih => simp [tysEq, equal_refl, ih]

theorem tysEq_symm : ∀ {a b : List Ty}, tysEq a b = true → tysEq b a = true
  | [], [], _ => rfl
  | [], _ :: _, h => by simp [tysEq] at h
  | _ :: _, [], h => by simp [tysEq] at h
  | a :: as, b :: bs, h => by
    simp only [tysEq, Bool.and_eq_true] at h ⊢
    exact ⟨equal_symm h.1, tysEq_symm h.2⟩

theorem tysEq_trans : ∀ {a b c : List Ty}, tysEq a b = true → tysEq b c = true →
    tysEq a c = true
  | [], [], _, _, h => h
  | [], _ :: _, _, h, _ => by simp [tysEq] at h
  | _ :: _, [], _, h, _ => by simp [tysEq] at h
  | _ :: _, _ :: _, [], _, h => by simp [tysEq] at h
  | a :: as, b :: bs, c :: cs, h, h' => by
    simp only [tysEq, Bool.and_eq_true] at h h' ⊢
    exact ⟨equal_trans h.1 h'.1, tysEq_trans h.2 h'.2⟩

theorem ftyEq_refl (a : FTy) : ftyEq a a = true := by simp [ftyEq, equal_refl, tysEq_refl]

theorem ftyEq_symm {a b : FTy} (h : ftyEq a b = true) : ftyEq b a = true := by
  simp only [ftyEq, Bool.and_eq_true, decide_eq_true_eq] at h ⊢
  exact ⟨⟨equal_symm h.1.1, h.1.2.symm⟩, tysEq_symm h.2⟩

theorem ftyEq_trans {a b c : FTy} (h : ftyEq a b = true) (h' : ftyEq b c = true) :
    ftyEq a c = true := by
  simp only [ftyEq, Bool.and_eq_true, decide_eq_true_eq] at h h' ⊢
  exact ⟨⟨equal_trans h.1.1 h'.1.1, h.1.2.trans h'.1.2⟩, tysEq_trans h.2 h'.2⟩

/-! ## Looking up -/

theorem lookupFrom_some {k : Key} : ∀ {l : List Inst} {i j : Nat}, lookupFrom k i l = some j →
    i ≤ j ∧ ∃ x, l[j - i]? = some x ∧ keyEq x.key k = true
  | [], _, _, h => by simp [lookupFrom] at h
  | x :: xs, i, j, h => by
    simp only [lookupFrom] at h
    split at h
    · rename_i hx
      cases h
      exact ⟨Nat.le_refl _, x, by simp, hx⟩
    · obtain ⟨hle, y, hy, hk⟩ := lookupFrom_some h
      refine ⟨by omega, y, ?_, hk⟩
      have : j - i = (j - (i + 1)) + 1 := by omega
      rw [this]
      simpa using hy

theorem lookup_some {k : Key} {st : St} {i : Nat} (h : lookup k st = some i) :
    ∃ x, st.insts[i]? = some x ∧ keyEq x.key k = true := by
  have := (lookupFrom_some h).2
  simpa using this

theorem lookupFrom_none {k : Key} : ∀ {l : List Inst} {i : Nat}, lookupFrom k i l = none ↔
    ∀ x ∈ l, keyEq x.key k = false
  | [], _ => by simp [lookupFrom]
  | x :: xs, i => by
    simp only [lookupFrom]
    split
    · rename_i hx
      simp [hx]
    · rename_i hx
      rw [lookupFrom_none]
      simp [hx]

theorem lookup_none {k : Key} {st : St} : lookup k st = none ↔
    ∀ x ∈ st.insts, keyEq x.key k = false := lookupFrom_none

theorem lookupFrom_append {k : Key} {y : Inst} : ∀ {l : List Inst} {i : Nat},
    lookupFrom k i l = none → keyEq y.key k = true → lookupFrom k i (l ++ [y]) = some (i + l.length)
  | [], i, _, hy => by simp [lookupFrom, hy]
  | x :: xs, i, h, hy => by
    simp only [lookupFrom] at h
    split at h
    · cases h
    · rename_i hx
      simp only [List.cons_append, lookupFrom, hx]
      rw [if_neg (by simp), lookupFrom_append h hy]
      simp; omega

theorem lookup_push {k : Key} {st : St} {y : Inst} (h : lookup k st = none)
    (hy : keyEq y.key k = true) : lookup k (push y st) = some st.insts.length := by
  have := lookupFrom_append (i := 0) h hy
  simpa [lookup, push] using this

/-! ## What requests for instances do -/

/-- `st'` has the instances of `st` followed by instances of templates, and its
new calls refer to instances with their arguments. -/
structure Ext (env : Nat → Tmpl) (st st' : St) : Prop where
  err : st'.err = st.err
  insts : ∃ new, st'.insts = st.insts ++ new ∧
    ∀ x ∈ new, x.body = some (.gen x.key) ∧ x.fty = (env x.key.t).fty x.key.args
  calls : ∃ cs, st'.calls = st.calls ++ cs ∧
    ∀ c ∈ cs, ∃ x, st'.insts[c.2]? = some x ∧ keyEq x.key c.1 = true

theorem Ext.refl (env : Nat → Tmpl) (st : St) : Ext env st st :=
  ⟨rfl, ⟨[], by simp, by simp⟩, ⟨[], by simp, by simp⟩⟩

theorem Ext.get {env : Nat → Tmpl} {st st' : St} (h : Ext env st st') {i : Nat} {x : Inst}
    (hx : st.insts[i]? = some x) : st'.insts[i]? = some x := by
  obtain ⟨new, hn, _⟩ := h.insts
  rw [hn, List.getElem?_append_left]
  · exact hx
  · exact (List.getElem?_eq_some_iff.1 hx).1

theorem Ext.trans {env : Nat → Tmpl} {a b c : St} (h : Ext env a b) (h' : Ext env b c) :
    Ext env a c := by
  have hg := fun {i : Nat} {x : Inst} => @Ext.get env b c h' i x
  obtain ⟨n, hn, hp⟩ := h.insts
  obtain ⟨n', hn', hp'⟩ := h'.insts
  obtain ⟨cs, hc, hq⟩ := h.calls
  obtain ⟨cs', hc', hq'⟩ := h'.calls
  refine ⟨h'.err.trans h.err, ⟨n ++ n', by rw [hn', hn]; simp, ?_⟩, ⟨cs ++ cs', by rw [hc', hc]; simp, ?_⟩⟩
  · intro x hx
    rcases List.mem_append.1 hx with hx | hx
    · exact hp x hx
    · exact hp' x hx
  · intro x hx
    rcases List.mem_append.1 hx with hx | hx
    · obtain ⟨y, hy, hk⟩ := hq x hx
      exact ⟨y, hg hy, hk⟩
    · exact hq' x hx

theorem ext_record {env : Nat → Tmpl} {k : Key} {i : Nat} {st : St} {x : Inst}
    (hx : st.insts[i]? = some x) (hk : keyEq x.key k = true) : Ext env st (record k i st) :=
  ⟨rfl, ⟨[], by simp [record], by simp⟩,
    ⟨[(k, i)], by simp [record], by simpa [record] using ⟨x, hx, hk⟩⟩⟩

theorem ext_push (env : Nat → Tmpl) (k : Key) (st : St) :
    Ext env st (push ⟨k, (env k.t).fty k.args, some (.gen k)⟩ st) :=
  ⟨rfl, ⟨[⟨k, (env k.t).fty k.args, some (.gen k)⟩], by simp [push], by simp⟩,
    ⟨[], by simp [push], by simp⟩⟩

theorem runAll_ext {env : Nat → Tmpl} {f : Key → St → Option St}
    (hf : ∀ k st st', f k st = some st' → Ext env st st') :
    ∀ (ks : List Key) {st st' : St}, runAll f ks st = some st' → Ext env st st'
  | [], st, st', h => by
    simp only [runAll, Option.some.injEq] at h
    subst h
    exact Ext.refl env st
  | k :: ks, st, st', h => by
    simp only [runAll] at h
    split at h
    · cases h
    · rename_i st1 h1
      exact (hf _ _ _ h1).trans (runAll_ext hf ks h)

theorem use_ext {env : Nat → Tmpl} : ∀ (n : Nat) (k : Key) (st st' : St),
    use env n k st = some st' → Ext env st st'
  | 0, k, st, st', h => by
    simp only [use] at h
    split at h
    · rename_i i hl
      cases h
      obtain ⟨x, hx, hk⟩ := lookup_some hl
      exact ext_record hx hk
    · cases h
  | n + 1, k, st, st', h => by
    simp only [use] at h
    split at h
    · rename_i i hl
      cases h
      obtain ⟨x, hx, hk⟩ := lookup_some hl
      exact ext_record hx hk
    · split at h
      · cases h
      · rename_i st1 h1
        cases h
        have e1 := runAll_ext (use_ext n) _ h1
        refine (e1.trans (ext_push env k st1)).trans
          (ext_record (x := ⟨k, (env k.t).fty k.args, some (.gen k)⟩) ?_ (keyEq_refl k))
        simp [push]

theorem add_ext {env : Nat → Tmpl} {n : Nat} {k : Key} {st st' : St}
    (h : add env n k st = some st') : Ext env st st' := by
  simp only [add] at h
  split at h
  · cases h
  · rename_i st1 h1
    cases h
    exact (runAll_ext (use_ext n) _ h1).trans (ext_push env k st1)

/-! ## Specification -/

/-- Equal arguments give equal types. -/
def Respects (env : Nat → Tmpl) : Prop :=
  ∀ t a b, argsEq a b = true →
    equal ((env t).ret a) ((env t).ret b) = true ∧ tysEq ((env t).params a) ((env t).params b) = true

/-- The specialization has the return type the template has for these
arguments, and says `unmasked` when the template does. -/
def SameSignature (env : Nat → Tmpl) (ts : List Nat) (args : List TArg) (ft : FTy) : Prop :=
  ∀ k, target env ts args ft = some k →
    equal ft.ret ((env k.t).ret k.args) = true ∧ ft.unmasked = (env k.t).unmasked

def Conforms (env : Nat → Tmpl) : Ev → Prop
  | .declare ts args ft => SameSignature env ts args ft
  | .define ts args ft _ _ => SameSignature env ts args ft
  | _ => True

/-- The file has the body `id` for the instance `k`. -/
def Defines (env : Nat → Tmpl) (es : List Ev) (k : Key) (id : Nat) : Prop :=
  ∃ ts args ft calls, Ev.define ts args ft id calls ∈ es ∧
    ∃ k', target env ts args ft = some k' ∧ keyEq k' k = true

/-- The file declares or defines a specialization for the instance `k`. -/
def Mentions (env : Nat → Tmpl) (es : List Ev) (k : Key) : Prop :=
  ∃ e ∈ es, ∃ k', keyEq k' k = true ∧
    match e with
    | .declare ts args ft => target env ts args ft = some k'
    | .define ts args ft _ _ => target env ts args ft = some k'
    | _ => False

/-! ## The invariant -/

structure Good (env : Nat → Tmpl) (es : List Ev) (st : St) : Prop where
  calls : ∀ c ∈ st.calls, ∃ x, st.insts[c.2]? = some x ∧ keyEq x.key c.1 = true
  fty : ∀ x ∈ st.insts, ftyEq x.fty ((env x.key.t).fty x.key.args) = true
  gen : ∀ x ∈ st.insts, ∀ g, x.body = some (.gen g) → g = x.key
  written : ∀ x ∈ st.insts, ∀ id, x.body = some (.written id) → Defines env es x.key id
  declared : ∀ x ∈ st.insts, (∀ g, x.body ≠ some (.gen g)) → Mentions env es x.key
  defined : ∀ k id, Defines env es k id →
    ∃ x ∈ st.insts, keyEq x.key k = true ∧ x.body = some (.written id)

theorem good_init (env : Nat → Tmpl) : Good env [] St.init := by
  constructor <;> simp [St.init, Defines]

theorem Defines.mono {env : Nat → Tmpl} {es es' : List Ev} {k : Key} {id : Nat}
    (h : Defines env es k id) : Defines env (es ++ es') k id := by
  obtain ⟨ts, args, ft, calls, hm, r⟩ := h
  exact ⟨ts, args, ft, calls, List.mem_append_left _ hm, r⟩

theorem Mentions.mono {env : Nat → Tmpl} {es es' : List Ev} {k : Key}
    (h : Mentions env es k) : Mentions env (es ++ es') k := by
  obtain ⟨e, hm, r⟩ := h
  exact ⟨e, List.mem_append_left _ hm, r⟩

theorem Defines.congr {env : Nat → Tmpl} {es : List Ev} {k k' : Key} {id : Nat}
    (h : Defines env es k id) (hk : keyEq k k' = true) : Defines env es k' id := by
  obtain ⟨ts, args, ft, calls, hm, k2, ht, h2⟩ := h
  exact ⟨ts, args, ft, calls, hm, k2, ht, keyEq_trans h2 hk⟩

/-- New instances of templates and calls keep the invariant, whatever event
without a body they are due to. -/
theorem Good.ext {env : Nat → Tmpl} {es : List Ev} {st st' : St} (hg : Good env es st)
    (h : Ext env st st') : Good env es st' := by
  obtain ⟨n, hn, hp⟩ := h.insts
  obtain ⟨cs, hc, hq⟩ := h.calls
  constructor
  · intro c hcm
    rw [hc] at hcm
    rcases List.mem_append.1 hcm with hcm | hcm
    · obtain ⟨x, hx, hk⟩ := hg.calls c hcm
      exact ⟨x, h.get hx, hk⟩
    · exact hq c hcm
  · intro x hx
    rw [hn] at hx
    rcases List.mem_append.1 hx with hx | hx
    · exact hg.fty x hx
    · rw [(hp x hx).2]
      exact ftyEq_refl _
  · intro x hx g hb
    rw [hn] at hx
    rcases List.mem_append.1 hx with hx | hx
    · exact hg.gen x hx g hb
    · rw [(hp x hx).1] at hb
      cases hb
      rfl
  · intro x hx id hb
    rw [hn] at hx
    rcases List.mem_append.1 hx with hx | hx
    · exact hg.written x hx id hb
    · rw [(hp x hx).1] at hb
      cases hb
  · intro x hx hb
    rw [hn] at hx
    rcases List.mem_append.1 hx with hx | hx
    · exact hg.declared x hx hb
    · exact absurd (hp x hx).1 (hb _)
  · intro k id hd
    obtain ⟨x, hx, r⟩ := hg.defined k id hd
    exact ⟨x, by rw [hn]; exact List.mem_append_left _ hx, r⟩

/-- An event that is no definition adds nothing to what is defined. -/
theorem defines_snoc {env : Nat → Tmpl} {es : List Ev} {e : Ev} {k : Key} {id : Nat}
    (he : ∀ ts args ft id calls, e ≠ .define ts args ft id calls) :
    Defines env (es ++ [e]) k id ↔ Defines env es k id := by
  constructor
  · rintro ⟨ts, args, ft, calls, hm, r⟩
    rcases List.mem_append.1 hm with hm | hm
    · exact ⟨ts, args, ft, calls, hm, r⟩
    · exact absurd (List.mem_singleton.1 hm).symm (he _ _ _ _ _)
  · exact Defines.mono

theorem Good.snoc {env : Nat → Tmpl} {es : List Ev} {e : Ev} {st : St} (hg : Good env es st)
    (he : ∀ ts args ft id calls, e ≠ .define ts args ft id calls) : Good env (es ++ [e]) st :=
  ⟨hg.calls, hg.fty, hg.gen, fun x hx id hb => (hg.written x hx id hb).mono,
    fun x hx hb => (hg.declared x hx hb).mono,
    fun k id hd => hg.defined k id ((defines_snoc he).1 hd)⟩

theorem target_params {env : Nat → Tmpl} {args : List TArg} {ft : FTy} :
    ∀ {ts : List Nat} {k : Key}, matchTemplate env args ft ts = some k →
      tysEq ft.params ((env k.t).params k.args) = true
  | [], _, h => by simp [matchTemplate] at h
  | t :: ts, k, h => by
    simp only [matchTemplate] at h
    split at h
    · rename_i hc
      cases h
      exact hc.2
    · exact target_params h

theorem same_fty {env : Nat → Tmpl} {ts : List Nat} {args : List TArg} {ft : FTy} {k : Key}
    (hs : SameSignature env ts args ft) (ht : target env ts args ft = some k) :
    ftyEq ft ((env k.t).fty k.args) = true := by
  obtain ⟨h1, h2⟩ := hs k ht
  simp [ftyEq, Tmpl.fty, h1, h2, target_params ht]

theorem fty_congr {env : Nat → Tmpl} (hR : Respects env) {a b : Key} (h : keyEq a b = true) :
    ftyEq ((env a.t).fty a.args) ((env b.t).fty b.args) = true := by
  simp only [keyEq, Bool.and_eq_true, decide_eq_true_eq] at h
  obtain ⟨ht, ha⟩ := h
  have := hR b.t a.args b.args ha
  simp [ftyEq, Tmpl.fty, ht, this.1, this.2]

/-- What a declaration that reports nothing leaves behind: the instance is
there without a function. -/
theorem declare_ok {env : Nat → Tmpl} (hR : Respects env) {es : List Ev} {ts : List Nat}
    {args : List TArg} {ft : FTy} {st : St} (hs : SameSignature env ts args ft)
    (hg : st.err = false → Good env es st) (he : (declare env ts args ft st).err = false) :
    st.err = false ∧ ∃ k, target env ts args ft = some k ∧
      ((declare env ts args ft st = st ∧ ∃ i x, lookup k st = some i ∧ st.insts[i]? = some x ∧
          keyEq x.key k = true ∧ x.body = none) ∨
       (lookup k st = none ∧
          declare env ts args ft st = push ⟨k, inherit ft (env k.t).unmasked, none⟩ st)) := by
  revert he
  simp only [declare]
  cases ht : target env ts args ft with
  | none => simp [fail]
  | some k =>
    simp only
    by_cases h1 : (!(env k.t).unmasked && ft.unmasked) = true
    · rw [if_pos h1]; simp [fail]
    rw [if_neg h1]
    by_cases h2 : alreadyDefined st k ft = true
    · rw [if_pos h2]; simp [fail]
    rw [if_neg h2]
    cases hl : lookup k st with
    | none =>
      intro he
      refine ⟨he, k, rfl, Or.inr ⟨hl, rfl⟩⟩
    | some i =>
      intro he
      refine ⟨he, k, rfl, Or.inl ⟨rfl, ?_⟩⟩
      obtain ⟨x, hx, hk⟩ := lookup_some hl
      refine ⟨i, x, hl, hx, hk, ?_⟩
      have hmem : x ∈ st.insts := List.mem_of_getElem? hx
      have hf : ftyEq x.fty ft = true :=
        ftyEq_trans ((hg he).fty x hmem) (ftyEq_trans (fty_congr hR hk) (ftyEq_symm (same_fty hs ht)))
      simp only [alreadyDefined, hl, instAt, hx, hf, Bool.true_and] at h2
      cases hb : x.body with
      | none => rfl
      | some b => simp [hb] at h2

theorem inherit_fty {env : Nat → Tmpl} {ft : FTy} {k : Key} {u : Bool}
    (h : ftyEq ft ((env k.t).fty k.args) = true) (hu : u = (env k.t).unmasked) :
    ftyEq (inherit ft u) ((env k.t).fty k.args) = true := by
  simp only [ftyEq, Bool.and_eq_true, Tmpl.fty, inherit] at h ⊢
  exact ⟨⟨h.1.1, decide_eq_true hu⟩, h.2⟩

theorem mentions_last {env : Nat → Tmpl} {es : List Ev} {ts : List Nat} {args : List TArg}
    {ft : FTy} {k k' : Key} (ht : target env ts args ft = some k) (hk : keyEq k k' = true) :
    Mentions env (es ++ [.declare ts args ft]) k' :=
  ⟨.declare ts args ft, by simp, k, hk, ht⟩

/-- Declaring keeps the invariant. -/
theorem good_declare {env : Nat → Tmpl} (hR : Respects env) {es : List Ev} {ts : List Nat}
    {args : List TArg} {ft : FTy} {st : St} (hs : SameSignature env ts args ft)
    (hg : st.err = false → Good env es st) (he : (declare env ts args ft st).err = false) :
    Good env (es ++ [.declare ts args ft]) (declare env ts args ft st) := by
  obtain ⟨h0, k, ht, h⟩ := declare_ok hR hs hg he
  have hG := (hg h0).snoc (e := .declare ts args ft) (by intros; simp)
  rcases h with ⟨hd, _⟩ | ⟨hl, hd⟩
  · rw [hd]; exact hG
  · rw [hd]
    constructor
    · intro c hc
      obtain ⟨x, hx, hk⟩ := hG.calls c hc
      refine ⟨x, ?_, hk⟩
      simp only [push]
      rw [List.getElem?_append_left]
      · exact hx
      · exact (List.getElem?_eq_some_iff.1 hx).1
    · intro x hx
      rcases List.mem_append.1 hx with hx | hx
      · exact hG.fty x hx
      · cases List.mem_singleton.1 hx
        exact inherit_fty (same_fty hs ht) rfl
    · intro x hx g hb
      rcases List.mem_append.1 hx with hx | hx
      · exact hG.gen x hx g hb
      · cases List.mem_singleton.1 hx
        simp at hb
    · intro x hx id hb
      rcases List.mem_append.1 hx with hx | hx
      · exact hG.written x hx id hb
      · cases List.mem_singleton.1 hx
        simp at hb
    · intro x hx hb
      rcases List.mem_append.1 hx with hx | hx
      · exact hG.declared x hx hb
      · cases List.mem_singleton.1 hx
        exact mentions_last ht (keyEq_refl k)
    · intro k' id hd
      obtain ⟨x, hx, r⟩ := hG.defined k' id hd
      exact ⟨x, List.mem_append_left _ hx, r⟩

theorem getElem?_modify_eq {l : List Inst} {i : Nat} {f : Inst → Inst} {x : Inst}
    (h : l[i]? = some x) : (l.modify i f)[i]? = some (f x) := by
  simp [h]

theorem getElem?_modify_ne {l : List Inst} {i j : Nat} {f : Inst → Inst} (h : i ≠ j) :
    (l.modify i f)[j]? = l[j]? := by
  simp [h]

/-- Where an element of a changed list comes from. -/
theorem mem_modify {l : List Inst} {i : Nat} {f : Inst → Inst} {x y : Inst} (hx : l[i]? = some x)
    (hy : y ∈ l.modify i f) : y = f x ∨ ∃ j, j ≠ i ∧ l[j]? = some y := by
  obtain ⟨j, hj⟩ := List.getElem?_of_mem hy
  by_cases h : i = j
  · subst h
    rw [getElem?_modify_eq hx] at hj
    exact Or.inl (Option.some.inj hj).symm
  · rw [getElem?_modify_ne h] at hj
    exact Or.inr ⟨j, fun e => h e.symm, hj⟩

/-- The symbol found gets the type written; the invariant is kept. -/
theorem good_retype {env : Nat → Tmpl} (hR : Respects env) {es : List Ev} {ft : FTy} {st : St}
    {i : Nat} {x : Inst} {k : Key} (hG : Good env es st) (hx : st.insts[i]? = some x)
    (hk : keyEq x.key k = true) (hf : ftyEq ft ((env k.t).fty k.args) = true) :
    Good env es (update i (fun x => { x with fty := inherit ft x.fty.unmasked }) st) := by
  have hmem : x ∈ st.insts := List.mem_of_getElem? hx
  have hnew : ∀ (j : Nat) (y : Inst), st.insts[j]? = some y →
      ∃ y', (st.insts.modify i (fun x => { x with fty := inherit ft x.fty.unmasked }))[j]? = some y' ∧
        y'.key = y.key ∧ y'.body = y.body := by
    intro j y hy
    by_cases h : i = j
    · subst h
      refine ⟨_, getElem?_modify_eq hy, rfl, rfl⟩
    · exact ⟨y, by rw [getElem?_modify_ne h]; exact hy, rfl, rfl⟩
  have hold : ∀ y ∈ (st.insts.modify i (fun x => { x with fty := inherit ft x.fty.unmasked })),
      ∃ y0 ∈ st.insts, y.key = y0.key ∧ y.body = y0.body := by
    intro y hy
    rcases mem_modify hx hy with rfl | ⟨j, _, hj⟩
    · exact ⟨x, hmem, rfl, rfl⟩
    · exact ⟨y, List.mem_of_getElem? hj, rfl, rfl⟩
  constructor
  · intro c hc
    obtain ⟨y, hy, hky⟩ := hG.calls c hc
    obtain ⟨y', hy', h1, _⟩ := hnew _ y hy
    exact ⟨y', hy', by rw [h1]; exact hky⟩
  · intro y hy
    rcases mem_modify hx hy with rfl | ⟨j, _, hj⟩
    · have hxf := hG.fty x hmem
      have hu : x.fty.unmasked = (env x.key.t).unmasked := by
        simp only [ftyEq, Bool.and_eq_true, Tmpl.fty] at hxf
        exact of_decide_eq_true hxf.1.2
      exact inherit_fty (ftyEq_trans hf (ftyEq_symm (fty_congr hR hk))) hu
    · exact hG.fty y (List.mem_of_getElem? hj)
  · intro y hy g hb
    obtain ⟨y0, h0, hk0, hb0⟩ := hold y hy
    rw [hk0]
    exact hG.gen y0 h0 g (hb0 ▸ hb)
  · intro y hy id hb
    obtain ⟨y0, h0, hk0, hb0⟩ := hold y hy
    rw [hk0]
    exact hG.written y0 h0 id (hb0 ▸ hb)
  · intro y hy hb
    obtain ⟨y0, h0, hk0, hb0⟩ := hold y hy
    rw [hk0]
    exact hG.declared y0 h0 (fun g => hb0 ▸ hb g)
  · intro k' id hd
    obtain ⟨y, hy, hky, hb⟩ := hG.defined k' id hd
    obtain ⟨j, hj⟩ := List.getElem?_of_mem hy
    obtain ⟨y', hy', h1, h2⟩ := hnew j y hj
    exact ⟨y', List.mem_of_getElem? hy', by rw [h1]; exact hky, by rw [h2]; exact hb⟩

theorem defines_define {env : Nat → Tmpl} {es : List Ev} {ts : List Nat} {args : List TArg}
    {ft : FTy} {id id' : Nat} {calls : List Key} {k k' : Key} (ht : target env ts args ft = some k)
    (h : Defines env (es ++ [.define ts args ft id calls]) k' id') :
    Defines env es k' id' ∨ (id' = id ∧ keyEq k k' = true) := by
  obtain ⟨ts', args', ft', calls', hm, k2, ht2, hk2⟩ := h
  rcases List.mem_append.1 hm with hm | hm
  · exact Or.inl ⟨ts', args', ft', calls', hm, k2, ht2, hk2⟩
  · cases List.mem_singleton.1 hm
    rw [ht] at ht2
    cases ht2
    exact Or.inr ⟨rfl, hk2⟩

/-- The declaration made for a definition is mentioned by the definition. -/
theorem mentions_define {env : Nat → Tmpl} {es : List Ev} {ts : List Nat} {args : List TArg}
    {ft : FTy} {id : Nat} {calls : List Key} {k : Key}
    (h : Mentions env (es ++ [.declare ts args ft]) k) :
    Mentions env (es ++ [.define ts args ft id calls]) k := by
  obtain ⟨e, hm, k', hk, r⟩ := h
  rcases List.mem_append.1 hm with hm | hm
  · exact ⟨e, List.mem_append_left _ hm, k', hk, r⟩
  · cases List.mem_singleton.1 hm
    exact ⟨.define ts args ft id calls, by simp, k', hk, r⟩

theorem update_err (i : Nat) (f : Inst → Inst) (st : St) : (update i f st).err = st.err := rfl

/-- A definition keeps the invariant. -/
theorem good_define {env : Nat → Tmpl} (hR : Respects env) {es : List Ev} {n : Nat} {ts : List Nat}
    {args : List TArg} {ft : FTy} {id : Nat} {calls : List Key} {st st' : St}
    (hs : SameSignature env ts args ft) (hg : st.err = false → Good env es st)
    (hd : define env n ts args ft id calls (declare env ts args ft st) = some st')
    (he : st'.err = false) :
    st.err = false ∧ Good env (es ++ [.define ts args ft id calls]) st' := by
  have he1 : (declare env ts args ft st).err = false := by
    revert hd
    simp only [define]
    cases target env ts args ft with
    | none => intro hd; cases hd; simp [fail] at he
    | some k =>
      simp only
      cases lookup k (declare env ts args ft st) with
      | none => intro hd; cases hd; exact he
      | some i =>
        simp only
        split
        · intro hd; cases hd
        · rename_i st1 h1
          intro hd
          cases hd
          have := (runAll_ext (use_ext n) _ h1).err
          rw [update_err] at he this
          rw [← this]; exact he
  obtain ⟨h0, k, ht, hcase⟩ := declare_ok hR hs hg he1
  refine ⟨h0, ?_⟩
  have hG := good_declare hR hs hg he1
  -- the instance declared
  obtain ⟨i, x, hl, hx, hk, hb⟩ : ∃ i x, lookup k (declare env ts args ft st) = some i ∧
      (declare env ts args ft st).insts[i]? = some x ∧ keyEq x.key k = true ∧ x.body = none := by
    rcases hcase with ⟨hd1, i, x, h1, h2, h3, h4⟩ | ⟨hl, hd1⟩
    · exact ⟨i, x, by rw [hd1]; exact h1, by rw [hd1]; exact h2, h3, h4⟩
    · refine ⟨st.insts.length, ⟨k, inherit ft (env k.t).unmasked, none⟩, ?_, ?_, keyEq_refl k, rfl⟩
      · rw [hd1]; exact lookup_push hl (keyEq_refl k)
      · rw [hd1]; simp [push]
  simp only [define, ht, hl] at hd
  have hG2 := good_retype hR hG hx hk (same_fty hs ht)
  have hx2 : (update i (fun x => { x with fty := inherit ft x.fty.unmasked })
      (declare env ts args ft st)).insts[i]? =
      some { x with fty := inherit ft x.fty.unmasked } := getElem?_modify_eq hx
  split at hd
  · cases hd
  rename_i st1 h1
  cases hd
  have e1 := runAll_ext (use_ext n) _ h1
  have hG3 := hG2.ext e1
  have hx3 := e1.get hx2
  have hnew : ∀ (j : Nat) (y : Inst), st1.insts[j]? = some y →
      ∃ y', (st1.insts.modify i (fun x => { x with body := some (.written id) }))[j]? = some y' ∧
        y'.key = y.key ∧ (y'.body = y.body ∨ (j = i ∧ y'.body = some (.written id))) := by
    intro j y hy
    by_cases h : i = j
    · subst h
      exact ⟨_, getElem?_modify_eq hy, rfl, Or.inr ⟨rfl, rfl⟩⟩
    · exact ⟨y, by rw [getElem?_modify_ne h]; exact hy, rfl, Or.inl rfl⟩
  constructor
  · intro c hc
    obtain ⟨y, hy, hky⟩ := hG3.calls c hc
    obtain ⟨y', hy', h1, _⟩ := hnew _ y hy
    exact ⟨y', hy', by rw [h1]; exact hky⟩
  · intro y hy
    rcases mem_modify hx3 hy with rfl | ⟨j, _, hj⟩
    · have := hG3.fty _ (List.mem_of_getElem? hx3)
      exact this
    · exact hG3.fty y (List.mem_of_getElem? hj)
  · intro y hy g hbg
    rcases mem_modify hx3 hy with rfl | ⟨j, _, hj⟩
    · simp at hbg
    · exact hG3.gen y (List.mem_of_getElem? hj) g hbg
  · intro y hy id' hbw
    rcases mem_modify hx3 hy with rfl | ⟨j, _, hj⟩
    · simp only [Option.some.injEq, Body.written.injEq] at hbw
      subst hbw
      exact ⟨ts, args, ft, calls, by simp, k, ht, keyEq_symm hk⟩
    · have := hG3.written y (List.mem_of_getElem? hj) id' hbw
      exact ((defines_snoc (by intros; simp)).1 this).mono
  · intro y hy hbw
    rcases mem_modify hx3 hy with rfl | ⟨j, _, hj⟩
    · exact ⟨.define ts args ft id calls, by simp, k, keyEq_symm hk, ht⟩
    · exact mentions_define (hG3.declared y (List.mem_of_getElem? hj) hbw)
  · intro k' id' hdef
    rcases defines_define ht hdef with hdef | ⟨rfl, hkk⟩
    · obtain ⟨y, hy, hky, hyb⟩ := hG3.defined k' id' hdef.mono
      obtain ⟨j, hj⟩ := List.getElem?_of_mem hy
      have hji : j ≠ i := by
        rintro rfl
        rw [hx3] at hj
        cases hj
        simp [hb] at hyb
      obtain ⟨y', hy', h1, h2⟩ := hnew j y hj
      refine ⟨y', List.mem_of_getElem? hy', by rw [h1]; exact hky, ?_⟩
      rcases h2 with h2 | ⟨h2, _⟩
      · rw [h2]; exact hyb
      · exact absurd h2 hji
    · exact ⟨_, List.mem_of_getElem? (getElem?_modify_eq hx3), keyEq_trans hk hkk, rfl⟩

/-- Every event keeps the invariant. -/
theorem good_step {env : Nat → Tmpl} (hR : Respects env) {es : List Ev} {n : Nat} {e : Ev}
    {st st' : St} (hc : Conforms env e) (hg : st.err = false → Good env es st)
    (h : step env n st e = some st') (he : st'.err = false) :
    st.err = false ∧ Good env (es ++ [e]) st' := by
  cases e with
  | call k =>
    have e1 := use_ext _ _ _ _ h
    have h0 : st.err = false := by rw [← e1.err]; exact he
    exact ⟨h0, ((hg h0).ext e1).snoc (by intros; simp)⟩
  | explicit ts args ft =>
    simp only [step, explicit] at h
    split at h
    · cases h; simp [fail] at he
    · split at h
      · cases h; simp [fail] at he
      · have e1 := add_ext h
        have h0 : st.err = false := by rw [← e1.err]; exact he
        exact ⟨h0, ((hg h0).ext e1).snoc (by intros; simp)⟩
  | declare ts args ft =>
    simp only [step, Option.some.injEq] at h
    subst h
    exact ⟨(declare_ok hR hc hg he).1, good_declare hR hc hg he⟩
  | define ts args ft id calls => exact good_define hR hc hg h he

theorem good_run {env : Nat → Tmpl} (hR : Respects env) {n : Nat} :
    ∀ (es' es : List Ev) {st st' : St}, (∀ e ∈ es', Conforms env e) →
      (st.err = false → Good env es st) → run env n es' st = some st' → st'.err = false →
      st.err = false ∧ Good env (es ++ es') st'
  | [], es, st, st', _, hg, h, he => by
    simp only [run, Option.some.injEq] at h
    subst h
    exact ⟨he, by simpa using hg he⟩
  | e :: es', es, st, st', hc, hg, h, he => by
    simp only [run] at h
    split at h
    · cases h
    rename_i st1 h1
    have hstep : st1.err = false → st.err = false ∧ Good env (es ++ [e]) st1 :=
      fun h2 => good_step hR (hc e (by simp)) hg h1 h2
    obtain ⟨h2, hG⟩ := good_run hR es' (es ++ [e]) (fun e' he' => hc e' (by simp [he']))
      (fun h2 => (hstep h2).2) h he
    exact ⟨(hstep h2).1, by simpa using hG⟩

end Ispc.Insts
