import Verif.Front.RedeclareProps

/-!
# Repeated declarations of a global name: the claims

`es` is what a file says about one name of the global scope, in order.
-/

namespace Ispc.Redecl

open Ispc.Types Ispc.Promote Ispc.Insts

/-! ## Variables -/

/-- **A name is that of a variable or of functions, not of both.** -/
theorem kinds (es : List Ev) (h : accepted (run es) = true) :
    varDecls es = [] ∨ fnDecls es = [] := by
  have hI := inv es (accepted_iff.1 h).1
  rcases hI.xor with hx | hx
  · exact .inl (VInv.nil_ds (hx ▸ hI.v))
  · exact .inr (FInv.nil_ds (hx ▸ hI.f))

/-- **All declarations of a variable have the same type.** -/
theorem var_types (es : List Ev) (h : accepted (run es) = true) :
    ∀ d ∈ varDecls es, ∀ d' ∈ varDecls es, equal d.ty d'.ty = true := by
  intro d hd d' hd'
  have hI := inv es (accepted_iff.1 h).1
  cases hds : varDecls es with
  | nil => rw [hds] at hd; cases hd
  | cons d0 rest =>
    obtain ⟨g, -, -, -, ht, -⟩ := hI.v.2 d0 rest hds
    exact equal_trans (equal_symm (ht d hd)) (ht d' hd')

/-- **The memory of the variable** is defined in the file exactly if one of its
declarations is not `extern`, and starts with the value that the first such
declaration gives, zero if it has no initialiser. -/
theorem initial_value (es : List Ev) (h : accepted (run es) = true) (hne : varDecls es ≠ []) :
    ∃ g, (run es).var = some g ∧ g.init = firstValue (varDecls es) := by
  have hI := inv es (accepted_iff.1 h).1
  cases hds : varDecls es with
  | nil => exact absurd hds hne
  | cons d0 rest =>
    obtain ⟨g, hg, -, -, -, -, -, -, -, hi, -⟩ := hI.v.2 d0 rest hds
    exact ⟨g, hg, hds ▸ hi⟩

/-- **One definition, the part that holds**: if the first declaration of a
variable is not `extern`, there is no other. -/
theorem single_partial (es : List Ev) (h : accepted (run es) = true) (d0 : VDecl)
    (rest : List VDecl) (hds : varDecls es = d0 :: rest) (hd : d0.sc ≠ .extern) : rest = [] := by
  have hI := inv es (accepted_iff.1 h).1
  obtain ⟨g, -, -, -, -, -, -, -, hs, -⟩ := hI.v.2 d0 rest hds
  exact hs hd

/-- A read whose value is put in at compile time is one of a `const` variable. -/
theorem read_const (es : List Ev) (h : accepted (run es) = true) (v : Int)
    (hr : Read.fold v ∈ (run es).reads) : ∀ d ∈ varDecls es, d.ty.isConst = true := by
  have hI := inv es (accepted_iff.1 h).1
  obtain ⟨d, hd, hv⟩ := hI.r v hr
  intro d' hd'
  rw [equal_isConst (var_types es h d' hd' d hd)]
  unfold cvalOf at hv
  split at hv
  · cases hv
  · split at hv
    · split at hv
      · rename_i hc; simp only [Bool.and_eq_true] at hc; exact hc.1
      · cases hv
    · cases hv

theorem cvalOf_value {d : VDecl} {v : Int} (h : cvalOf d = some v) :
    d.sc ≠ .extern ∧ d.init.value = v := by
  unfold cvalOf at h
  split at h
  · cases h
  · rename_i hs
    refine ⟨hs, ?_⟩
    split at h
    · rename_i w ce hi
      split at h
      · cases h; rw [hi]; rfl
      · cases h
    · cases h

theorem firstValue_one {ds : List VDecl} {d : VDecl} (hd : d ∈ ds) (hs : d.sc ≠ .extern)
    (h1 : (ds.filter fun d => decide (d.sc ≠ .extern)).length ≤ 1) :
    firstValue ds = some d.init.value := by
  induction ds with
  | nil => cases hd
  | cons x xs ih =>
    simp only [firstValue]
    simp only [List.mem_cons] at hd
    by_cases hx : x.sc = .extern
    · rw [if_pos hx]
      rcases hd with rfl | hd
      · exact absurd hx hs
      · exact ih hd (by simpa [List.filter_cons, hx] using h1)
    · rw [if_neg hx]
      rcases hd with rfl | hd
      · rfl
      · exfalso
        have hm : d ∈ xs.filter fun d => decide (d.sc ≠ .extern) := by simp [hd, hs]
        have : 0 < (xs.filter fun d => decide (d.sc ≠ .extern)).length :=
          List.length_pos_of_mem hm
        simp only [List.filter_cons, hx, ne_eq, not_false_eq_true, decide_true, ↓reduceIte,
          List.length_cons] at h1 this
        omega

/-- **Reads see the memory, the part that holds**: with one declaration that is
not `extern`, a value put in for a read at compile time is the value that the
memory has. -/
theorem read_value_partial (es : List Ev) (h : accepted (run es) = true)
    (h1 : ((varDecls es).filter fun d => decide (d.sc ≠ .extern)).length ≤ 1) (v : Int)
    (hr : Read.fold v ∈ (run es).reads) :
    ∃ g, (run es).var = some g ∧ g.init = some v := by
  have hI := inv es (accepted_iff.1 h).1
  obtain ⟨d, hd, hv⟩ := hI.r v hr
  obtain ⟨hs, hval⟩ := cvalOf_value hv
  obtain ⟨g, hg, hi⟩ := initial_value es h (by intro he; rw [he] at hd; cases hd)
  exact ⟨g, hg, by rw [hi, firstValue_one hd hs h1, hval]⟩

/-- Each read in the file is compiled. -/
theorem reads_all (es : List Ev) (h : accepted (run es) = true) :
    (run es).reads.length = readsOf es := (inv es (accepted_iff.1 h).1).reads

/-- **Variables that may be assigned are in memory that may be written, the
part that holds**: if the `const` among the specifiers is that of the type of
the variable, then memory is constant exactly for variables of `const` type. -/
theorem writable_partial (es : List Ev) (h : accepted (run es) = true)
    (hc : ∀ d ∈ varDecls es, d.specConst = d.ty.isConst) (d : VDecl) (hd : d ∈ varDecls es) :
    ∃ g, (run es).var = some g ∧ g.isConst = d.ty.isConst := by
  have hI := inv es (accepted_iff.1 h).1
  cases hds : varDecls es with
  | nil => rw [hds] at hd; cases hd
  | cons d0 rest =>
    obtain ⟨g, hg, -, -, -, -, -, -, -, -, l, hl, hk, -⟩ := hI.v.2 d0 rest hds
    have hlm : l ∈ varDecls es := List.mem_of_getLast? hl
    exact ⟨g, hg, by rw [hk, hc l hlm, equal_isConst (var_types es h l hlm d hd)]⟩

/-- **`static`, the part that holds**: if the declarations agree, the variable is
internal to the file exactly if they say `static`. -/
theorem static_partial (es : List Ev) (h : accepted (run es) = true)
    (hs : ∀ d ∈ varDecls es, ∀ d' ∈ varDecls es, d.sc = .static → d'.sc = .static)
    (d : VDecl) (hd : d ∈ varDecls es) :
    ∃ g, (run es).var = some g ∧ g.internal = decide (d.sc = .static) := by
  have hI := inv es (accepted_iff.1 h).1
  cases hds : varDecls es with
  | nil => rw [hds] at hd; cases hd
  | cons d0 rest =>
    obtain ⟨g, hg, -, hsc, -⟩ := hI.v.2 d0 rest hds
    have h0 : d0 ∈ varDecls es := by rw [hds]; simp
    refine ⟨g, hg, ?_⟩
    unfold GVar.internal
    rw [hsc]
    by_cases hx : d.sc = .static
    · simp [hx, hs d hd d0 h0 hx]
    · have : d0.sc ≠ .static := fun hy => hx (hs d0 h0 d hd hy)
      simp [hx, this]

/-- **Which declarations of a variable go together.** -/
theorem var_accepted_iff (ds : List VDecl) :
    accepted (run (ds.map .var)) = true ↔
      (∀ d ∈ ds, ∀ d' ∈ ds, equal d.ty d'.ty = true) ∧
      (∀ d ∈ ds, d.sc ≠ .externC ∧ d.sc ≠ .externSYCL) ∧
      (∀ d ∈ ds, d.sc = .extern → d.init = .absent) ∧
      (∀ d ∈ ds, d.init ≠ .bad) ∧
      (∀ d0 rest, ds = d0 :: rest → d0.sc ≠ .extern → rest = []) := by
  have hvd : ∀ l : List VDecl, varDecls (l.map .var) = l := by
    intro l
    induction l with
    | nil => rfl
    | cons d l ih => simp [varDecls, ih]
  have hfd : ∀ l : List VDecl, fnDecls (l.map .var) = [] := by
    intro l
    induction l with
    | nil => rfl
    | cons d l ih => simp [fnDecls, ih]
  constructor
  · intro h
    have hI := inv _ (accepted_iff.1 h).1
    have hv := hI.v
    have ht := var_types _ h
    rw [hvd] at hv ht
    refine ⟨ht, ?_⟩
    cases ds with
    | nil => simp
    | cons d0 rest =>
      obtain ⟨g, hg, -, -, -, h4, h5, h6, h7, -⟩ := hv.2 d0 rest rfl
      refine ⟨h4, h5, h6, ?_⟩
      intro e0 r he hs
      simp only [List.cons.injEq] at he
      obtain ⟨rfl, rfl⟩ := he
      exact h7 hs
  · rintro ⟨h1, h2, h3, h4, h5⟩
    suffices hs : (run (ds.map .var)).err = false by
      refine accepted_iff.2 ⟨hs, ?_⟩
      intro f hf
      obtain ⟨i, hi⟩ := List.mem_iff_getElem?.1 hf
      obtain ⟨d, hd, -⟩ := (inv _ hs).f.from_ i f hi
      rw [hfd] at hd; cases hd
    induction ds using List.reverseRecOn with
    | nil => rfl
    | append_singleton ds d ih =>
      have hih := ih (fun a ha b hb => h1 a (by simp [ha]) b (by simp [hb]))
        (fun a ha => h2 a (by simp [ha])) (fun a ha => h3 a (by simp [ha]))
        (fun a ha => h4 a (by simp [ha]))
        (fun d0 rest he hs => by
          have := h5 d0 (rest ++ [d]) (by simp [he]) hs
          simp at this)
      rw [List.map_append, List.map_singleton, run_snoc]
      have hI := inv _ hih
      have hv := hI.v
      have hff := hI.f
      rw [hvd] at hv
      rw [hfd] at hff
      have hfn : (run (ds.map .var)).fns = [] := by
        cases hh : (run (ds.map .var)).fns with
        | nil => rfl
        | cons f fs =>
          obtain ⟨x, hx, -⟩ := hff.from_ 0 f (by rw [hh]; rfl)
          cases hx
      have hi : (initOf d).2 = false := by
        have a := h3 d (by simp)
        have b := h4 d (by simp)
        unfold initOf
        by_cases hs : d.sc = .extern
        · simp [hs, a hs]
        · cases hd : d.init <;> simp_all
      have hc : ¬(d.sc = .externC ∨ d.sc = .externSYCL) := by
        have := h2 d (by simp); simp [this]
      simp only [step, addVar, hfn, List.isEmpty_nil, Bool.not_true, Bool.false_eq_true, ↓reduceIte,
        hc, hi]
      by_cases hnil : ds = []
      · subst hnil; rfl
      · obtain ⟨d0, rest, hds⟩ := List.exists_cons_of_ne_nil hnil
        obtain ⟨g, hg, hgt, hgs, -⟩ := hv.2 d0 rest hds
        have hext : d0.sc = .extern := by
          by_contra hx
          have := h5 d0 (rest ++ [d]) (by simp [hds]) hx
          simp at this
        have heq : equal g.ty d.ty = true := by
          rw [hgt]; exact h1 d0 (by simp [hds]) d (by simp)
        have hany : g.sc.anyExtern = true := by rw [hgs, hext]; rfl
        simp [hg, redeclare, heq, hany, hih]

/-! ## Functions -/

/-- **Two declarations of functions of a file that take the same parameters
declare the same function**: they agree on everything else. -/
theorem same_params (es : List Ev) (h : accepted (run es) = true) :
    ∀ d ∈ fnDecls es, ∀ d' ∈ fnDecls es, tysEq d.ty.tys d'.ty.tys = true →
      ftyEq d.ty d'.ty = true := by
  intro d hd d' hd' ht
  have hI := (inv es (accepted_iff.1 h).1).f
  obtain ⟨i, f, hf, he⟩ := hI.has d hd
  obtain ⟨j, g, hg, he'⟩ := hI.has d' hd'
  by_cases hij : i = j
  · subst hij
    rw [hf] at hg
    cases hg
    exact ftyEq_trans (ftyEq_symm he) he'
  · have := hI.apart i j f g hf hg hij
    rw [tysEq_trans (ftyEq_tys he) (tysEq_trans ht (tysEq_symm (ftyEq_tys he')))] at this
    cases this

/-- **An exported function is alone with its name**, which is the one that the
generated header gives to C and C++. -/
theorem exported_alone (es : List Ev) (h : accepted (run es) = true) (d : FDecl)
    (hd : d ∈ fnDecls es) (hx : d.ty.exported = true) :
    ∀ d' ∈ fnDecls es, ftyEq d.ty d'.ty = true := by
  intro d' hd'
  have hI := (inv es (accepted_iff.1 h).1).f
  obtain ⟨i, f, hf, he⟩ := hI.has d hd
  obtain ⟨j, g, hg, he'⟩ := hI.has d' hd'
  have hl := hI.exp i f hf ((ftyEq_iff.1 he).2.2.1.trans hx)
  have hi : i < (run es).fns.length := by
    rcases Nat.lt_or_ge i (run es).fns.length with h' | h'
    · exact h'
    · rw [List.getElem?_eq_none h'] at hf; cases hf
  have hj : j < (run es).fns.length := by
    rcases Nat.lt_or_ge j (run es).fns.length with h' | h'
    · exact h'
    · rw [List.getElem?_eq_none h'] at hg; cases hg
  have hij : i = j := by omega
  subst hij
  rw [hf] at hg
  cases hg
  exact ftyEq_trans (ftyEq_symm he) he'

/-- **A name stands for at most one foreign function**: every `extern "C"` or
`extern "SYCL"` declaration repeats the first declaration of the name.  It is no
task. -/
theorem foreign_first (es : List Ev) (h : accepted (run es) = true) (d : FDecl)
    (hd : d ∈ fnDecls es) (hx : d.ty.externC = true ∨ d.ty.externSYCL = true) :
    d.ty.task = false ∧
      ∀ d0 rest, fnDecls es = d0 :: rest → ftyEq d0.ty d.ty = true := by
  have hI := (inv es (accepted_iff.1 h).1).f
  obtain ⟨i, f, hf, he⟩ := hI.has d hd
  have hfo : f.ty.foreign = true := by
    rw [foreign_eq he]
    unfold FTy.foreign
    rcases hx with hx | hx <;> simp [hx]
  obtain ⟨rfl, ht⟩ := hI.foreign i f hf hfo
  refine ⟨(ftyEq_iff.1 he).2.1.symm.trans ht, ?_⟩
  intro d0 rest hds
  obtain ⟨g, hg, hge⟩ := hI.first d0 rest hds
  rw [hf] at hg
  cases hg
  exact ftyEq_trans (ftyEq_symm hge) he

/-- **At most one body** is given for each list of parameters. -/
theorem one_body (es : List Ev) (h : accepted (run es) = true) :
    (fnDefs es).Pairwise fun a b => tysEq a.1.ty.tys b.1.ty.tys = false := by
  have hI := (inv es (accepted_iff.1 h).1).f
  have hb := (accepted_iff.1 h).2
  rw [List.pairwise_iff_getElem]
  intro i j hi hj hij
  cases ht : tysEq ((fnDefs es)[i]).1.ty.tys ((fnDefs es)[j]).1.ty.tys with
  | false => rfl
  | true =>
    exfalso
    have hmi := List.getElem_mem hi
    have hmj := List.getElem_mem hj
    have he := same_params es h _ (hI.sub _ hmi) _ (hI.sub _ hmj) ht
    obtain ⟨k, f, hf, hfe⟩ := hI.has _ (hI.sub _ hmi)
    have hlen := hb f (List.mem_of_getElem? hf)
    rw [hI.body k f hf, List.length_map] at hlen
    have hsub : ([(fnDefs es)[i], (fnDefs es)[j]] : List _).Sublist (fnDefs es) := by
      have h1 : (fnDefs es) = (fnDefs es).take j ++ (fnDefs es)[j] :: (fnDefs es).drop (j + 1) := by
        rw [← List.drop_eq_getElem_cons hj, List.take_append_drop]
      have h2 : (fnDefs es)[i] ∈ (fnDefs es).take j := by
        rw [List.mem_take_iff_getElem]
        exact ⟨i, by omega, rfl⟩
      have h3 : ([(fnDefs es)[i]] ++ [(fnDefs es)[j]]).Sublist
          ((fnDefs es).take j ++ (fnDefs es)[j] :: (fnDefs es).drop (j + 1)) :=
        (List.singleton_sublist.2 h2).append (List.singleton_sublist.2 List.mem_cons_self)
      rw [← h1] at h3
      exact h3
    have hsub' := hsub.filter (fun p => ftyEq f.ty p.1.ty)
    have := hsub'.length_le
    simp only [List.filter_cons, hfe, ftyEq_trans hfe he, ↓reduceIte, List.filter_nil,
      List.length_cons, List.length_nil] at this
    omega

/-- The function that a definition gives a body has that body and no other. -/
theorem body (es : List Ev) (h : accepted (run es) = true) (d : FDecl) (id : Nat)
    (hd : (d, id) ∈ fnDefs es) :
    ∃ f ∈ (run es).fns, ftyEq f.ty d.ty = true ∧ f.bodies = [id] := by
  have hI := (inv es (accepted_iff.1 h).1).f
  have hb := (accepted_iff.1 h).2
  obtain ⟨k, f, hf, hfe⟩ := hI.has _ (hI.sub _ hd)
  have hm := List.mem_of_getElem? hf
  refine ⟨f, hm, hfe, ?_⟩
  have hlen := hb f hm
  have hin : id ∈ f.bodies := by
    rw [hI.body k f hf]
    exact List.mem_map.2 ⟨(d, id), List.mem_filter.2 ⟨hd, hfe⟩, rfl⟩
  match hfb : f.bodies with
  | [] => rw [hfb] at hin; cases hin
  | [x] => rw [hfb] at hin; simp at hin; rw [hin]
  | x :: y :: r => rw [hfb] at hlen; simp at hlen

/-- **Calls of the same function**: each call of the file is compiled, to a call
of a function with the parameters that were chosen, and calls with the same
parameters go to the same function. -/
theorem call_target (es : List Ev) (h : accepted (run es) = true) :
    (run es).calls.map (fun c => (c.params, c.n)) = callsOf es ∧
    (∀ c ∈ (run es).calls, ∃ f : Fn, (run es).fns[c.idx]? = some f ∧
      tysEq f.ty.tys c.params = true) ∧
    (∀ c ∈ (run es).calls, ∀ c' ∈ (run es).calls,
      (tysEq c.params c'.params = true ↔ c.idx = c'.idx)) := by
  have hI := inv es (accepted_iff.1 h).1
  refine ⟨hI.calls, fun c hc => (hI.c c hc).1, ?_⟩
  intro c hc c' hc'
  obtain ⟨f, hf, he⟩ := (hI.c c hc).1
  obtain ⟨f', hf', he'⟩ := (hI.c c' hc').1
  constructor
  · intro ht
    by_contra hne
    have := hI.f.apart _ _ f f' hf hf' hne
    rw [tysEq_trans he (tysEq_trans ht (tysEq_symm he'))] at this
    cases this
  · intro hidx
    rw [hidx, hf'] at hf
    cases hf
    exact tysEq_trans (tysEq_symm he) he'

theorem fill_some {ds : List (Option Int)} (h : ∀ x ∈ ds, x.isSome = true) :
    ∃ vs, fill ds = some vs ∧ vs.map some = ds := by
  induction ds with
  | nil => exact ⟨[], rfl, rfl⟩
  | cons x xs ih =>
    obtain ⟨vs, hv, hm⟩ := ih fun y hy => h y (by simp [hy])
    cases x with
    | none => have := h none (by simp); cases this
    | some v => exact ⟨v :: vs, by simp [fill, hv], by simp [hm]⟩

theorem defaultsOk_true {ds : List (Option Int)} (h : defaultsOk true ds = true) :
    ∀ x ∈ ds, x.isSome = true := by
  induction ds with
  | nil => simp
  | cons y ys ih =>
    cases y with
    | none => simp [defaultsOk] at h
    | some v =>
      intro x hx
      simp only [List.mem_cons] at hx
      rcases hx with rfl | hx
      · rfl
      · exact ih (by simpa [defaultsOk] using h) x hx

theorem defaultsOk_drop {ds : List (Option Int)} {v : Int} :
    ∀ (n : Nat), defaultsOk false ds = true → ds[n]? = some (some v) →
      ∀ x ∈ ds.drop n, x.isSome = true := by
  induction ds with
  | nil => intro n _ h; simp at h
  | cons y ys ih =>
    intro n hd hn
    cases y with
    | some w =>
      have ht : ∀ x ∈ ys, x.isSome = true := defaultsOk_true (by simpa [defaultsOk] using hd)
      intro x hx
      have := List.mem_of_mem_drop hx
      simp only [List.mem_cons] at this
      rcases this with rfl | hx
      · rfl
      · exact ht x hx
    | none =>
      cases n with
      | zero => simp at hn
      | succ n => exact ih n (by simpa [defaultsOk] using hd) (by simpa using hn)

/-- **Default values, the part that holds**: if all declarations of a function
have the same default values, then a call that leaves out arguments passes
these values for them. -/
theorem default_partial (es : List Ev) (h : accepted (run es) = true)
    (hs : ∀ d ∈ fnDecls es, ∀ d' ∈ fnDecls es, tysEq d.ty.tys d'.ty.tys = true →
      d.ty.defs = d'.ty.defs)
    (c : Call) (hc : c ∈ (run es).calls) :
    ∃ d ∈ fnDecls es, tysEq d.ty.tys c.params = true ∧
      ∃ vs, emit (run es) c = some vs ∧ vs.map some = d.ty.defs.drop c.n := by
  have hI := inv es (accepted_iff.1 h).1
  obtain ⟨⟨f, hf, he⟩, d, hd, hde, hn⟩ := hI.c c hc
  refine ⟨d, hd, hde, ?_⟩
  obtain ⟨x, hx, hxf⟩ := hI.f.from_ _ f hf
  obtain ⟨y, hy, hye, hyd⟩ := hI.f.dflt _ f hf
  have e1 : d.ty.defs = x.ty.defs :=
    hs d hd x hx (tysEq_trans hde (by rw [hxf]; exact tysEq_symm he))
  have e2 : d.ty.defs = y.ty.defs :=
    hs d hd y hy (tysEq_trans hde (tysEq_trans (tysEq_symm he) (ftyEq_tys hye)))
  have hall : ∀ z ∈ d.ty.defs.drop c.n, z.isSome = true := by
    unfold enough at hn
    simp only [Bool.or_eq_true, decide_eq_true_eq] at hn
    rcases hn with hn | hn
    · rw [hn]; simp
    · split at hn
      · rename_i v hv
        exact defaultsOk_drop _ (e2 ▸ hyd) hv
      · cases hn
  obtain ⟨vs, hv, hm⟩ := fill_some hall
  refine ⟨vs, ?_, hm⟩
  unfold emit
  rw [hf]
  simp only
  rw [← hxf, ← e1]
  exact hv

theorem findParams_none {ps : List Ty} : ∀ (fs : List Fn) (k : Nat), findParams ps k fs = none →
    ∀ f ∈ fs, tysEq f.ty.tys ps = false
  | [], _, _ => by simp
  | f :: fs, k, h => by
    simp only [findParams] at h
    split at h
    · cases h
    · rename_i hf
      intro g hg
      simp only [List.mem_cons] at hg
      rcases hg with rfl | hg
      · simpa using hf
      · exact findParams_none fs _ h g hg

/-- **Calls are accepted, the part that holds**: if all declarations of the
function have the same default values, a call that writes all arguments, or
enough for a default value to come next, is accepted. -/
theorem call_accepted_partial (es : List Ev) (h : accepted (run es) = true)
    (hs : ∀ d ∈ fnDecls es, ∀ d' ∈ fnDecls es, tysEq d.ty.tys d'.ty.tys = true →
      d.ty.defs = d'.ty.defs)
    (d : FDecl) (hd : d ∈ fnDecls es) (n : Nat)
    (hn : n = d.ty.params.length ∨ ∃ v, (d.ty.params.map (·.2))[n]? = some (some v)) :
    accepted (run (es ++ [.call d.ty.tys n])) = true := by
  have hI := inv es (accepted_iff.1 h).1
  obtain ⟨he, hb⟩ := accepted_iff.1 h
  rw [run_snoc]
  simp only [step, callFn]
  obtain ⟨i, f, hf, hfe⟩ := hI.f.has d hd
  cases hp : findParams d.ty.tys 0 (run es).fns with
  | none =>
    have := findParams_none _ _ hp f (List.mem_of_getElem? hf)
    rw [ftyEq_tys hfe] at this; cases this
  | some r =>
    obtain ⟨j, g⟩ := r
    obtain ⟨-, hj, hg⟩ := findParams_spec _ _ _ _ hp
    obtain ⟨x, hx, hxg⟩ := hI.f.from_ _ g hj
    have hdef : g.ty.defs = d.ty.defs := by
      rw [← hxg]
      exact hs x hx d hd (by rw [hxg]; exact hg)
    have hen : enough g.ty n = true := by
      unfold enough
      rw [hdef]
      rcases hn with hn | ⟨v, hv⟩
      · simp [hn, FTy.defs]
      · rw [show d.ty.defs[n]? = some (some v) from hv]; simp
    simp only [hen, ↓reduceIte]
    exact accepted_iff.2 ⟨he, hb⟩

example : accepted (run [.declare ⟨⟨.atomic .int32 .uniform false,
    [(.atomic .int32 .uniform false, none), (.atomic .int32 .uniform false, some 3)],
    false, false, false, false, false⟩, false⟩]) = true := by decide +kernel

/-- **`static` functions, the part that holds**: a function is internal to the
file exactly if the first of its declarations says `static`. -/
theorem fn_static_partial (es : List Ev) (h : accepted (run es) = true) (f : Fn)
    (hf : f ∈ (run es).fns) :
    ∃ d, (fnDecls es).find? (fun d => ftyEq f.ty d.ty) = some d ∧ f.static = d.static := by
  obtain ⟨i, hi⟩ := List.mem_iff_getElem?.1 hf
  exact (inv es (accepted_iff.1 h).1).f.stat i f hi

theorem scan_ok {t : FTy} : ∀ (fs : List Fn),
    (∀ f ∈ fs, ftyEq f.ty t = true ∨ (tysEq f.ty.tys t.tys = false ∧ f.ty.exported = false ∧
      t.exported = false)) → (scan t fs false).2 = false ∧ (scan t fs false).1 ≠ .params
  | [], _ => by simp [scan]
  | f :: fs, h => by
    simp only [scan]
    rcases h f (by simp) with he | ⟨h1, h2, h3⟩
    · simp [he]
    · have hne : ftyEq f.ty t = false := by
        cases hh : ftyEq f.ty t with
        | false => rfl
        | true => rw [ftyEq_tys hh] at h1; cases h1
      simp only [hne, h1, h2, h3, Bool.or_false, Bool.false_eq_true, ↓reduceIte]
      exact scan_ok fs fun g hg => h g (by simp [hg])

/-- **Which declarations of functions go together**: any two are of one
function, or take different parameters and are not exported; a foreign one
repeats the first; the first declaration of each function has default values
for the last parameters only. -/
theorem fn_accepted_iff (ds : List FDecl) :
    accepted (run (ds.map .declare)) = true ↔
      (∀ d ∈ ds, ∀ d' ∈ ds, ftyEq d.ty d'.ty = true ∨
        (tysEq d.ty.tys d'.ty.tys = false ∧ d.ty.exported = false ∧ d'.ty.exported = false)) ∧
      (∀ d0 rest, ds = d0 :: rest → ∀ d ∈ ds, d.ty.foreign = true →
        d.ty.task = false ∧ ftyEq d0.ty d.ty = true) ∧
      (∀ pre d post, ds = pre ++ d :: post → (∀ x ∈ pre, ftyEq x.ty d.ty = false) →
        defaultsOk false d.ty.defs = true) := by
  have hfd : ∀ l : List FDecl, fnDecls (l.map .declare) = l := by
    intro l
    induction l with
    | nil => rfl
    | cons d l ih => simp [fnDecls, ih]
  have hdd : ∀ l : List FDecl, fnDefs (l.map .declare) = [] := by
    intro l
    induction l with
    | nil => rfl
    | cons d l ih => simp [fnDefs, ih]
  have hvd : ∀ l : List FDecl, varDecls (l.map .declare) = [] := by
    intro l
    induction l with
    | nil => rfl
    | cons d l ih => simp [varDecls, ih]
  have hacc : ∀ l : List FDecl, accepted (run (l.map .declare)) = true ↔
      (run (l.map .declare)).err = false := by
    intro l
    refine ⟨fun h => (accepted_iff.1 h).1, fun h => accepted_iff.2 ⟨h, ?_⟩⟩
    intro f hf
    obtain ⟨i, hi⟩ := List.mem_iff_getElem?.1 hf
    rw [(inv _ h).f.body i f hi, hdd]
    simp
  constructor
  · intro h
    have hsp := same_params _ h
    have hea := exported_alone _ h
    have hff := foreign_first _ h
    rw [hfd] at hsp hea hff
    refine ⟨?_, ?_, ?_⟩
    · intro d hd d' hd'
      cases ht : tysEq d.ty.tys d'.ty.tys with
      | true => exact .inl (hsp d hd d' hd' ht)
      | false =>
        right
        refine ⟨rfl, ?_, ?_⟩
        · cases hx : d.ty.exported with
          | false => rfl
          | true => rw [ftyEq_tys (hea d hd hx d' hd')] at ht; cases ht
        · cases hx : d'.ty.exported with
          | false => rfl
          | true => rw [ftyEq_tys (ftyEq_symm (hea d' hd' hx d hd))] at ht; cases ht
    · intro d0 rest hds d hd hx
      have hx' : d.ty.externC = true ∨ d.ty.externSYCL = true := by
        simpa [FTy.foreign] using hx
      obtain ⟨h1, h2⟩ := hff d hd hx'
      exact ⟨h1, h2 d0 rest hds⟩
    · intro pre d post hds hno
      have herr : (run ((pre ++ [d]).map .declare)).err = false := by
        have hall := (hacc ds).1 h
        clear h hsp hea hff
        subst hds
        induction post using List.reverseRecOn with
        | nil => exact hall
        | append_singleton post e ih =>
          apply ih
          rw [show pre ++ d :: (post ++ [e]) = (pre ++ d :: post) ++ [e] by simp,
            List.map_append, List.map_singleton, run_snoc] at hall
          exact (addFn_spec hall).1
      rw [List.map_append, List.map_singleton, run_snoc] at herr
      obtain ⟨h1, -, ⟨-, f, hf, hfe⟩ | ⟨-, -, -, hok⟩⟩ := addFn_spec herr
      · exfalso
        obtain ⟨i, hi⟩ := List.mem_iff_getElem?.1 hf
        obtain ⟨x, hx, hxe⟩ := (inv _ h1).f.from_ i f hi
        rw [hfd] at hx
        have := hno x hx
        rw [hxe, hfe] at this; cases this
      · exact hok
  · rw [hacc]
    induction ds using List.reverseRecOn with
    | nil => intro _; rfl
    | append_singleton ds d ih =>
      rintro ⟨h1, h2, h3⟩
      have hih := ih ⟨fun a ha b hb => h1 a (by simp [ha]) b (by simp [hb]),
        fun d0 rest he a ha hx => h2 d0 (rest ++ [d]) (by simp [he]) a (by simp [ha]) hx,
        fun pre a post he hno => h3 pre a (post ++ [d]) (by simp [he]) hno⟩
      rw [List.map_append, List.map_singleton, run_snoc]
      have hI := inv _ hih
      have hv := hI.v
      have hf := hI.f
      rw [hvd] at hv
      rw [hfd] at hf
      have hvar : (run (ds.map .declare)).var = none := hv.1 rfl
      have hok := scan_ok (t := d.ty) (run (ds.map .declare)).fns (by
        intro f hfm
        obtain ⟨i, hi⟩ := List.mem_iff_getElem?.1 hfm
        obtain ⟨x, hx, hxe⟩ := hf.from_ i f hi
        rw [← hxe]
        exact h1 x (by simp [hx]) d (by simp))
      simp only [step, addFn, hvar, Option.isSome_none, Bool.false_eq_true, ↓reduceIte, hok.1]
      rcases scan_spec _ hok.1 with ⟨hs, -⟩ | ⟨hs, hno⟩
      · simp only [hs]; exact hih
      · simp only [hs]
        have hnone : ∀ x ∈ ds, ftyEq x.ty d.ty = false := by
          intro x hx
          obtain ⟨i, f, hif, he⟩ := hf.has x hx
          cases hh : ftyEq x.ty d.ty with
          | false => rfl
          | true =>
            have := (hno f (List.mem_of_getElem? hif)).1
            rw [ftyEq_tys (ftyEq_trans he hh)] at this; cases this
        have hd := h3 ds d [] rfl hnone
        have hfor : (d.ty.externC || d.ty.externSYCL) = true →
            d.ty.task = false ∧ (run (ds.map .declare)).fns = [] := by
          intro hx
          have hds : ds = [] := by
            cases hds : ds with
            | nil => rfl
            | cons d0 rest =>
              exfalso
              have := (h2 d0 (rest ++ [d]) (by simp [hds]) d (by simp) hx).2
              rw [hnone d0 (by simp [hds])] at this; cases this
          subst hds
          cases ht : d.ty.task with
          | false => exact ⟨rfl, rfl⟩
          | true =>
            have := (h2 d [] rfl d (by simp) hx).1
            rw [ht] at this; cases this
        cases hx : (d.ty.externC || d.ty.externSYCL) with
        | false => simp [hd, hih]
        | true =>
          obtain ⟨ht, hn⟩ := hfor hx
          simp [ht, hn, hd, hih]

/-! ## Cases -/

namespace Ex

def int : Ty := .atomic .int32 .uniform false
def cint : Ty := .atomic .int32 .uniform true
def float : Ty := .atomic .float .uniform false
def vint : Ty := .atomic .int32 .varying false
/-- `const float * uniform` -/
def cptr : Ty := .ptr (.atomic .float .uniform true) .uniform false false false 0

/-- `extern const uniform int x;` -/
def xExt : VDecl := ⟨cint, true, .extern, .absent⟩
/-- `const uniform int x = v;` -/
def xDef (v : Int) : VDecl := ⟨cint, true, .none, .const v true⟩

/-- `ret f(params)` -/
def fn (ret : Ty) (ps : List (Ty × Option Int)) : FTy := ⟨ret, ps, false, false, false, false, false⟩
def decl (t : FTy) : FDecl := ⟨t, false⟩

/-- `extern const uniform int x; const uniform int x = 5;` and a read after each. -/
def file1 : List Ev := [.var xExt, .read, .var (xDef 5), .read, .var xExt, .read]

/-- Overloads with default values:
`int f(int, int = 3); int f(float); int f(int a, int b = 3) { … }`, and calls. -/
def file2 : List Ev :=
  [.declare (decl (fn int [(int, none), (int, some 3)])), .call [int, int] 1,
   .declare (decl (fn int [(float, none)])), .call [float] 1,
   .define (decl (fn int [(int, none), (int, some 3)])) 7, .call [int, int] 2]

/-- `export void f(int); export void f(int) { … }` -/
def file3 : List Ev :=
  [.declare (decl { fn int [(int, none)] with exported := true }),
   .define (decl { fn int [(int, none)] with exported := true }) 1]

/-- `extern "C" int f(int); int f(float) { … } extern "C" int f(int);` -/
def file4 : List Ev :=
  [.declare (decl { fn int [(int, none)] with externC := true }),
   .define (decl (fn int [(float, none)])) 1,
   .declare (decl { fn int [(int, none)] with externC := true })]

end Ex

open Ex

example : accepted (run file1) = true ∧ (run file1).reads = [.load, .fold 5, .load] ∧
    varDecls file1 = [xExt, xDef 5, xExt] ∧
    ((varDecls file1).filter fun d => decide (d.sc ≠ .extern)).length ≤ 1 ∧
    firstValue (varDecls file1) = some 5 ∧
    (run file1).var = some ⟨cint, .extern, some 5, true, none⟩ := by decide +kernel

example : accepted (run file2) = true ∧
    (run file2).calls = [⟨[int, int], 0, 1⟩, ⟨[float], 1, 1⟩, ⟨[int, int], 0, 2⟩] ∧
    (run file2).calls.map (emit (run file2)) = [some [3], some [], some []] ∧
    (run file2).fns.map (·.bodies) = [[7], []] := by decide +kernel

/-- The hypothesis of `default_partial` holds of a file with calls that leave
arguments out. -/
example : ∀ d ∈ fnDecls file2, ∀ d' ∈ fnDecls file2, tysEq d.ty.tys d'.ty.tys = true →
      d.ty.defs = d'.ty.defs := by decide +kernel

example : accepted (run file3) = true ∧ (fnDecls file3).length = 2 := by decide +kernel

example : accepted (run file4) = true ∧ (run file4).fns.length = 2 := by decide +kernel

/-- Files that are rejected: a variable after a function, different types,
`extern "C"` for a variable, two definitions, other results, an overload of an
exported function, a foreign function after another, a second body. -/
example :
    accepted (run [.declare (decl (fn int [])), .var (xDef 1)]) = false ∧
    accepted (run [.var xExt, .var ⟨int, false, .none, .absent⟩]) = false ∧
    accepted (run [.var ⟨int, false, .externC, .absent⟩]) = false ∧
    accepted (run [.var (xDef 1), .var (xDef 1)]) = false ∧
    accepted (run [.declare (decl (fn int [(int, none)])), .declare (decl (fn float [(int, none)]))])
      = false ∧
    accepted (run (file3 ++ [.declare (decl (fn int [(float, none)]))])) = false ∧
    accepted (run [.declare (decl (fn int [])),
      .declare (decl { fn int [(int, none)] with externC := true })]) = false ∧
    accepted (run (file3 ++ [.define (decl { fn int [(int, none)] with exported := true }) 2]))
      = false := by decide +kernel

/-! ## What does not hold -/

/-- **Two definitions of a variable are accepted** after an `extern`
declaration: `extern const uniform int x; const uniform int x = 5;
const uniform int x = 6;` keeps 5 in memory, but reads that follow are compiled
as 6. -/
theorem redefinition_wrong : ∃ es, accepted (run es) = true ∧
    ((varDecls es).filter fun d => decide (d.sc ≠ .extern)).length = 2 ∧
    ∃ g, (run es).var = some g ∧ g.init = some 5 ∧ Read.fold 6 ∈ (run es).reads :=
  ⟨[.var xExt, .var (xDef 5), .var (xDef 6), .read], by decide +kernel, by decide +kernel,
    ⟨cint, .extern, some 5, true, some 6⟩, by decide +kernel, rfl, by decide +kernel⟩

/-- **An `extern` declaration that follows the definition is an error**, as when
the definition comes before the inclusion of a header. -/
theorem extern_after_wrong : ∃ d d' : VDecl, d.sc = .extern ∧ d.init = .absent ∧ d'.sc = .none ∧
    equal d.ty d'.ty = true ∧ accepted (run [.var d, .var d']) = true ∧
    accepted (run [.var d', .var d]) = false :=
  ⟨xExt, xDef 5, rfl, rfl, rfl, by decide +kernel, by decide +kernel, by decide +kernel⟩

/-- **A `static` definition gets external linkage** after an `extern`
declaration. -/
theorem static_wrong : ∃ es, accepted (run es) = true ∧ (∃ d ∈ varDecls es, d.sc = .static) ∧
    ∃ g, (run es).var = some g ∧ g.internal = false :=
  ⟨[.var xExt, .var { xDef 3 with sc := .static }], by decide +kernel,
    ⟨{ xDef 3 with sc := .static }, by decide +kernel, rfl⟩,
    ⟨cint, .extern, some 3, true, some 3⟩, by decide +kernel, by decide +kernel⟩

/-- **A pointer to `const` is put in constant memory although it may be
assigned**: `const float * uniform p;`.  Its type is not `const`, so that
assignments are accepted (`C65`), but the memory that they write is constant. -/
theorem const_pointer_wrong : ∃ d : VDecl, accepted (run [.var d]) = true ∧
    d.ty.isConst = false ∧ ∃ g, (run [.var d]).var = some g ∧ g.isConst = true :=
  ⟨⟨cptr, true, .none, .absent⟩, by decide +kernel, by decide +kernel,
    ⟨cptr, .none, some 0, true, none⟩, by decide +kernel, rfl⟩

/-- **A call disappears**: with `int f(int = 3);`, a call `f()`, and a definition
`int f(int x) { … }` that does not repeat the value, no error is reported and
no code is generated for the call. -/
theorem default_dropped_wrong : ∃ es, accepted (run es) = true ∧
    ∃ c ∈ (run es).calls, emit (run es) c = none :=
  ⟨[.declare (decl (fn int [(int, some 3)])), .call [int] 0,
    .define (decl (fn int [(int, none)])) 1], by decide +kernel,
    ⟨[int], 0, 0⟩, by decide +kernel, by decide +kernel⟩

/-- **A call passes a value that was declared after it**: with `int f(int = 3);`,
a call `f()`, and a definition `int f(int x = 5) { … }`, the call passes 5. -/
theorem default_changed_wrong : ∃ pre post, accepted (run (pre ++ post)) = true ∧
    (∀ d ∈ fnDecls pre, d.ty.defs = [some 3]) ∧
    ∃ c ∈ (run pre).calls, emit (run pre) c = some [3] ∧ emit (run (pre ++ post)) c = some [5] :=
  ⟨[.declare (decl (fn int [(int, some 3)])), .call [int] 0],
    [.define (decl (fn int [(int, some 5)])) 1], by decide +kernel, by decide +kernel,
    ⟨[int], 0, 0⟩, by decide +kernel, by decide +kernel, by decide +kernel⟩

/-- **The values of a repeated declaration are not checked**: `int f(int, int);
int f(int a = 1, int b) { … }` is accepted, and a call `f()` after it is too,
but it has no code. -/
theorem default_unchecked_wrong : ∃ es, accepted (run es) = true ∧
    (∃ d ∈ fnDecls es, defaultsOk false d.ty.defs = false) ∧
    ∃ c ∈ (run es).calls, emit (run es) c = none :=
  ⟨[.declare (decl (fn int [(int, none), (int, none)])),
    .define (decl (fn int [(int, some 1), (int, none)])) 1, .call [int, int] 0], by decide +kernel,
    ⟨decl (fn int [(int, some 1), (int, none)]), by decide +kernel, by decide +kernel⟩,
    ⟨[int, int], 0, 0⟩, by decide +kernel, by decide +kernel⟩

/-- **A default value of a later declaration is ignored**: after `int f(int);
int f(int = 3);` the call `f()` is an error. -/
theorem default_ignored_wrong : ∃ es ps n, accepted (run es) = true ∧
    (∃ d ∈ fnDecls es, tysEq d.ty.tys ps = true ∧ enough d.ty n = true) ∧
    accepted (run (es ++ [.call ps n])) = false :=
  ⟨[.declare (decl (fn int [(int, none)])), .declare (decl (fn int [(int, some 3)]))], [int], 0,
    by decide +kernel, ⟨decl (fn int [(int, some 3)]), by decide +kernel, by decide +kernel,
      by decide +kernel⟩, by decide +kernel⟩

/-- **A function defined `static` is external** after a declaration without
`static`. -/
theorem fn_static_wrong : ∃ es, accepted (run es) = true ∧
    ∃ d i, (d, i) ∈ fnDefs es ∧ d.static = true ∧ ∀ f ∈ (run es).fns, f.static = false :=
  ⟨[.declare (decl (fn int [])), .define ⟨fn int [], true⟩ 1], by decide +kernel,
    ⟨fn int [], true⟩, 1, by decide +kernel, rfl, by decide +kernel⟩

end Ispc.Redecl
