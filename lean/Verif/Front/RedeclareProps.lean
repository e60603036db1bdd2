import Verif.Front.Redeclare
import Mathlib.Data.List.Induction

/-!
# Repeated declarations of a global name: what holds
-/

namespace Ispc.Redecl

open Ispc.Types Ispc.Promote Ispc.Insts

/-! ## What a file says, without the compiler -/

/-- The declarations of the variable, in order. -/
def varDecls : List Ev → List VDecl
  | [] => []
  | .var d :: es => d :: varDecls es
  | _ :: es => varDecls es

/-- The declarations of functions, those of definitions included. -/
def fnDecls : List Ev → List FDecl
  | [] => []
  | .declare d :: es => d :: fnDecls es
  | .define d _ :: es => d :: fnDecls es
  | _ :: es => fnDecls es

/-- The definitions of functions. -/
def fnDefs : List Ev → List (FDecl × Nat)
  | [] => []
  | .define d i :: es => (d, i) :: fnDefs es
  | _ :: es => fnDefs es

/-- The calls. -/
def callsOf : List Ev → List (List Ty × Nat)
  | [] => []
  | .call ps n :: es => (ps, n) :: callsOf es
  | _ :: es => callsOf es

/-- The number of reads. -/
def readsOf : List Ev → Nat
  | [] => 0
  | .read :: es => readsOf es + 1
  | _ :: es => readsOf es

/-- The value that an initialiser gives: zero when there is none. -/
def Init.value : Init → Int
  | .const v _ => v
  | _ => 0

/-- The initial value of the variable: that of the first declaration that is
not `extern`. -/
def firstValue : List VDecl → Option Int
  | [] => none
  | d :: ds => if d.sc = .extern then firstValue ds else some d.init.value

/-! ## Steps -/

theorem varDecls_append (a b : List Ev) : varDecls (a ++ b) = varDecls a ++ varDecls b := by
  induction a with
  | nil => rfl
  | cons e es ih => cases e <;> simp [varDecls, ih]

theorem fnDecls_append (a b : List Ev) : fnDecls (a ++ b) = fnDecls a ++ fnDecls b := by
  induction a with
  | nil => rfl
  | cons e es ih => cases e <;> simp [fnDecls, ih]

theorem fnDefs_append (a b : List Ev) : fnDefs (a ++ b) = fnDefs a ++ fnDefs b := by
  induction a with
  | nil => rfl
  | cons e es ih => cases e <;> simp [fnDefs, ih]

theorem callsOf_append (a b : List Ev) : callsOf (a ++ b) = callsOf a ++ callsOf b := by
  induction a with
  | nil => rfl
  | cons e es ih => cases e <;> simp [callsOf, ih]

theorem readsOf_append (a b : List Ev) : readsOf (a ++ b) = readsOf a + readsOf b := by
  induction a with
  | nil => simp [readsOf]
  | cons e es ih => cases e <;> simp [readsOf, ih] <;> omega

theorem run_snoc (es : List Ev) (e : Ev) : run (es ++ [e]) = step (run es) e := by
  simp [run, List.foldl_append]

theorem ftyEq_iff {a b : FTy} : ftyEq a b = true ↔
    equal a.ret b.ret = true ∧ a.task = b.task ∧ a.exported = b.exported ∧
      a.externC = b.externC ∧ a.externSYCL = b.externSYCL ∧ a.unmasked = b.unmasked ∧
      tysEq a.tys b.tys = true := by
  simp only [ftyEq, Bool.and_eq_true, decide_eq_true_eq, and_assoc]

theorem ftyEq_refl (a : FTy) : ftyEq a a = true :=
  ftyEq_iff.2 ⟨equal_refl _, rfl, rfl, rfl, rfl, rfl, tysEq_refl _⟩

theorem ftyEq_symm {a b : FTy} (h : ftyEq a b = true) : ftyEq b a = true := by
  obtain ⟨h1, h2, h3, h4, h5, h6, h7⟩ := ftyEq_iff.1 h
  exact ftyEq_iff.2 ⟨equal_symm h1, h2.symm, h3.symm, h4.symm, h5.symm, h6.symm, tysEq_symm h7⟩

theorem ftyEq_trans {a b c : FTy} (h : ftyEq a b = true) (h' : ftyEq b c = true) :
    ftyEq a c = true := by
  obtain ⟨h1, h2, h3, h4, h5, h6, h7⟩ := ftyEq_iff.1 h
  obtain ⟨k1, k2, k3, k4, k5, k6, k7⟩ := ftyEq_iff.1 h'
  exact ftyEq_iff.2 ⟨equal_trans h1 k1, h2.trans k2, h3.trans k3, h4.trans k4, h5.trans k5,
    h6.trans k6, tysEq_trans h7 k7⟩

theorem ftyEq_tys {a b : FTy} (h : ftyEq a b = true) : tysEq a.tys b.tys = true :=
  (ftyEq_iff.1 h).2.2.2.2.2.2

theorem equal_isConst {a b : Ty} (h : equal a b = true) : a.isConst = b.isConst := by
  simp only [equal, checkEq, Bool.and_eq_true, constOk] at h
  simpa using h.1

/-! ## The variable -/

/-- What is known about the variable after the declarations `ds`. -/
def VInv (ds : List VDecl) (o : Option GVar) : Prop :=
  (ds = [] → o = none) ∧
  ∀ d0 rest, ds = d0 :: rest → ∃ g, o = some g ∧ g.ty = d0.ty ∧ g.sc = d0.sc ∧
    (∀ d ∈ ds, equal g.ty d.ty = true) ∧
    (∀ d ∈ ds, d.sc ≠ .externC ∧ d.sc ≠ .externSYCL) ∧
    (∀ d ∈ ds, d.sc = .extern → d.init = .absent) ∧
    (∀ d ∈ ds, d.init ≠ .bad) ∧
    (d0.sc ≠ .extern → rest = []) ∧
    g.init = firstValue ds ∧
    (∃ l, ds.getLast? = some l ∧ g.isConst = l.specConst ∧ g.cval = cvalOf l)

theorem firstValue_append (a b : List VDecl) :
    firstValue (a ++ b) = (firstValue a).or (firstValue b) := by
  induction a with
  | nil => rfl
  | cons d ds ih =>
    simp only [List.cons_append, firstValue]
    split
    · exact ih
    · rfl

theorem initOf_ok {d : VDecl} (h : (initOf d).2 = false) :
    (initOf d).1 = firstValue [d] ∧ (d.sc = .extern → d.init = .absent) ∧ d.init ≠ .bad := by
  unfold initOf at h ⊢
  by_cases hs : d.sc = .extern
  · simp [hs] at h
    simp [hs, firstValue, h]
  · cases hi : d.init <;> simp [hs, hi] at h ⊢ <;> simp [firstValue, hs, hi, Init.value]

theorem addVar_inv {d : VDecl} {st : St} {ds : List VDecl} (hv : VInv ds st.var)
    (h : (addVar d st).err = false) :
    st.err = false ∧ st.fns = [] ∧ (addVar d st).fns = [] ∧ VInv (ds ++ [d]) (addVar d st).var ∧
      (addVar d st).reads = st.reads ∧ (addVar d st).calls = st.calls := by
  unfold addVar at h ⊢
  by_cases hf : st.fns = []
  case neg =>
    have : st.fns.isEmpty = false := by cases hh : st.fns <;> simp_all
    simp [this, fail] at h
  simp only [hf, List.isEmpty_nil, Bool.not_true, Bool.false_eq_true, ↓reduceIte] at h ⊢
  by_cases hc : d.sc = .externC ∨ d.sc = .externSYCL
  · simp [hc, fail] at h
  simp only [hc, ↓reduceIte] at h ⊢
  have hni : (initOf d).2 = false := by
    cases hi : (initOf d).2 with
    | false => rfl
    | true =>
      exfalso
      simp only [hi, ↓reduceIte, fail] at h
      cases hg : st.var with
      | none => simp [hg] at h
      | some g =>
        simp only [hg, redeclare, fail] at h
        split at h
        · simp at h
        · split at h <;> simp at h
  simp only [hni, Bool.false_eq_true, ↓reduceIte] at h ⊢
  obtain ⟨hi1, hi2, hi3⟩ := initOf_ok hni
  have hc' : d.sc ≠ .externC ∧ d.sc ≠ .externSYCL := by simpa [not_or] using hc
  cases ds with
  | nil =>
    have hn := hv.1 rfl
    simp only [hn] at h ⊢
    refine ⟨h, trivial, hf, ⟨by simp, ?_⟩, trivial, trivial⟩
    intro d0 rest he
    simp only [List.nil_append, List.cons.injEq] at he
    obtain ⟨rfl, rfl⟩ := he
    refine ⟨_, rfl, rfl, rfl, ?_, ?_, ?_, ?_, fun _ => rfl, ?_, d, by simp, rfl, rfl⟩
    · intro x hx; simp at hx; subst hx; exact equal_refl _
    · intro x hx; simp at hx; subst hx; exact hc'
    · intro x hx; simp at hx; subst hx; exact hi2
    · intro x hx; simp at hx; subst hx; exact hi3
    · exact hi1
  | cons d0 rest =>
    obtain ⟨g, hg, h1, h2, h3, h4, h5, h6, h7, h8, l, h9, h10, h11⟩ := hv.2 d0 rest rfl
    simp only [hg, redeclare] at h ⊢
    split at h
    · simp [fail] at h
    rename_i hne
    split at h
    · simp [fail] at h
    rename_i hnr
    rw [if_neg hne, if_neg hnr]
    simp only [Bool.or_eq_true, Bool.and_eq_true, Bool.not_eq_true', not_or,
      Bool.not_eq_false, decide_eq_true_eq] at hne
    have hge : equal g.ty d.ty = true := hne.1
    -- the first declaration is extern
    have hext : d0.sc = .extern := by
      by_contra hx
      have hr := h7 hx
      subst hr
      have hsome : g.init.isSome = true := by
        rw [h8]; simp [firstValue, hx]
      have hany : g.sc.anyExtern = false := by
        rw [h2]
        have := h4 d0 (by simp)
        cases hd : d0.sc <;> simp_all [SC.anyExtern]
      simp [hsome, hany] at hnr
    refine ⟨h, trivial, hf, ⟨by simp, ?_⟩, rfl, rfl⟩
    intro e0 rest' he
    simp only [List.cons_append, List.cons.injEq] at he
    obtain ⟨rfl, rfl⟩ := he
    refine ⟨_, rfl, h1, h2, ?_, ?_, ?_, ?_, fun hx => absurd hext hx, ?_, d, List.getLast?_concat (l := _ :: _), rfl, rfl⟩
    · intro x hx
      simp only [List.cons_append, List.mem_cons, List.mem_append, List.not_mem_nil, or_false] at hx
      rcases hx with rfl | hx | rfl
      · exact h3 _ (by simp)
      · exact h3 _ (by simp [hx])
      · exact hge
    · intro x hx
      simp only [List.cons_append, List.mem_cons, List.mem_append, List.not_mem_nil, or_false] at hx
      rcases hx with rfl | hx | rfl
      · exact h4 _ (by simp)
      · exact h4 _ (by simp [hx])
      · exact hc'
    · intro x hx
      simp only [List.cons_append, List.mem_cons, List.mem_append, List.not_mem_nil, or_false] at hx
      rcases hx with rfl | hx | rfl
      · exact h5 _ (by simp)
      · exact h5 _ (by simp [hx])
      · exact hi2
    · intro x hx
      simp only [List.cons_append, List.mem_cons, List.mem_append, List.not_mem_nil, or_false] at hx
      rcases hx with rfl | hx | rfl
      · exact h6 _ (by simp)
      · exact h6 _ (by simp [hx])
      · exact hi3
    · show (if g.init.isNone then (initOf d).1 else g.init) = _
      rw [firstValue_append, ← h8, hi1]
      cases hgi : g.init <;> simp

theorem read_inv {st : St} (h : (read st).err = false) :
    st.err = false ∧ (read st).var = st.var ∧ (read st).fns = st.fns ∧
      (read st).calls = st.calls ∧
      ∃ g, st.var = some g ∧ (read st).reads = st.reads ++
        [match g.cval with | some v => Read.fold v | none => Read.load] := by
  unfold read at h ⊢
  cases hv : st.var with
  | none => simp [hv, fail] at h
  | some g =>
    simp only [hv] at h
    exact ⟨h, rfl, rfl, rfl, g, rfl, rfl⟩

/-! ## The functions -/

theorem scan_err {t : FTy} : ∀ (fs : List Fn) (e : Bool), e = true → (scan t fs e).2 = true
  | [], _, h => h
  | f :: fs, e, h => by
    simp only [scan]
    split
    · exact h
    · split
      · rfl
      · exact scan_err fs _ (by simp [h])

/-- What the loop has found when it reports nothing. -/
theorem scan_spec {t : FTy} : ∀ (fs : List Fn), (scan t fs false).2 = false →
    ((scan t fs false).1 = .same ∧ ∃ f ∈ fs, ftyEq f.ty t = true) ∨
    ((scan t fs false).1 = .none ∧ ∀ f ∈ fs, tysEq f.ty.tys t.tys = false ∧
      t.exported = false ∧ f.ty.exported = false)
  | [], _ => by right; simp [scan]
  | f :: fs, h => by
    simp only [scan] at h ⊢
    split
    · rename_i hf; left; exact ⟨rfl, f, by simp, hf⟩
    · rename_i hf
      rw [if_neg hf] at h
      split at h
      · simp at h
      rename_i hp
      rw [if_neg hp]
      have he : (false || t.exported || f.ty.exported) = false := by
        cases hh : (false || t.exported || f.ty.exported) with
        | false => rfl
        | true => rw [scan_err fs _ hh] at h; cases h
      rw [he] at h ⊢
      rcases scan_spec fs h with ⟨h1, g, hg, h2⟩ | ⟨h1, h2⟩
      · left; exact ⟨h1, g, by simp [hg], h2⟩
      · right
        refine ⟨h1, ?_⟩
        intro x hx
        simp only [List.mem_cons] at hx
        rcases hx with rfl | hx
        · simp at he
          exact ⟨by simpa using hp, he.1, he.2⟩
        · exact h2 x hx

/-- Whether the function is `extern "C"` or `extern "SYCL"`. -/
def FTy.foreign (t : FTy) : Bool := t.externC || t.externSYCL

/-- What `addFn` does when it reports no error. -/
theorem addFn_spec {d : FDecl} {st : St} (h : (addFn d st).err = false) :
    st.err = false ∧ st.var = none ∧
    ((addFn d st = st ∧ ∃ f ∈ st.fns, ftyEq f.ty d.ty = true) ∨
     (addFn d st = { st with fns := st.fns ++ [⟨d.ty, d.static, []⟩] } ∧
      (∀ f ∈ st.fns, tysEq f.ty.tys d.ty.tys = false ∧ d.ty.exported = false ∧
        f.ty.exported = false) ∧
      (d.ty.foreign = true → d.ty.task = false ∧ st.fns = []) ∧
      defaultsOk false d.ty.defs = true)) := by
  unfold addFn at h ⊢
  cases hv : st.var with
  | some g => simp [hv, fail] at h
  | none =>
  simp only [hv, Option.isSome_none, Bool.false_eq_true, ↓reduceIte] at h ⊢
  have hs : (scan d.ty st.fns false).2 = false := by
    cases hh : (scan d.ty st.fns false).2 with
    | false => rfl
    | true =>
      exfalso
      simp only [hh, ↓reduceIte, fail] at h
      split at h
      · simp at h
      · simp at h
      · split at h
        · simp at h
        · split at h
          · simp at h
          · split at h <;> simp at h
  simp only [hs, Bool.false_eq_true, ↓reduceIte] at h ⊢
  rcases scan_spec _ hs with ⟨h1, h2⟩ | ⟨h1, h2⟩
  · simp only [h1] at h ⊢
    exact ⟨h, trivial, .inl ⟨trivial, h2⟩⟩
  · simp only [h1] at h ⊢
    split at h
    · simp [fail] at h
    rename_i ht
    split at h
    · simp [fail] at h
    rename_i he
    rw [if_neg ht, if_neg he]
    have hd : defaultsOk false d.ty.defs = true := by
      cases hh : defaultsOk false d.ty.defs with
      | true => rfl
      | false => simp [hh, fail] at h
    simp only [hd, ↓reduceIte] at h ⊢
    refine ⟨h, trivial, .inr ⟨by simp [hv], h2, ?_, trivial⟩⟩
    intro hf
    unfold FTy.foreign at hf
    simp only [hf, Bool.true_and] at ht he
    refine ⟨by simpa using ht, ?_⟩
    cases hh : st.fns <;> simp_all

theorem findTy_spec {t : FTy} : ∀ (fs : List Fn) (k i : Nat), findTy t k fs = some i →
    k ≤ i ∧ ∃ f : Fn, fs[i - k]? = some f ∧ ftyEq f.ty t = true
  | [], _, _, h => by simp [findTy] at h
  | f :: fs, k, i, h => by
    simp only [findTy] at h
    split at h
    · rename_i hf
      simp only [Option.some.injEq] at h
      subst h
      exact ⟨Nat.le_refl _, f, by simp, hf⟩
    · obtain ⟨h1, g, h2, h3⟩ := findTy_spec fs (k + 1) i h
      refine ⟨by omega, g, ?_, h3⟩
      have : i - k = (i - (k + 1)) + 1 := by omega
      rw [this]; simpa using h2

theorem findTy_none {t : FTy} : ∀ (fs : List Fn) (k : Nat), findTy t k fs = none →
    ∀ f ∈ fs, ftyEq f.ty t = false
  | [], _, _ => by simp
  | f :: fs, k, h => by
    simp only [findTy] at h
    split at h
    · simp at h
    · rename_i hf
      intro g hg
      simp only [List.mem_cons] at hg
      rcases hg with rfl | hg
      · simpa using hf
      · exact findTy_none fs _ h g hg

theorem findParams_spec {ps : List Ty} : ∀ (fs : List Fn) (k i : Nat) (f : Fn),
    findParams ps k fs = some (i, f) → k ≤ i ∧ fs[i - k]? = some f ∧ tysEq f.ty.tys ps = true
  | [], _, _, _, h => by simp [findParams] at h
  | f :: fs, k, i, g, h => by
    simp only [findParams] at h
    split at h
    · rename_i hf
      simp only [Option.some.injEq, Prod.mk.injEq] at h
      obtain ⟨rfl, rfl⟩ := h
      exact ⟨Nat.le_refl _, by simp, hf⟩
    · obtain ⟨h1, h2, h3⟩ := findParams_spec fs (k + 1) i g h
      refine ⟨by omega, ?_, h3⟩
      have : i - k = (i - (k + 1)) + 1 := by omega
      rw [this]; simpa using h2

/-- What is known about the functions after the declarations `ds`, of which
`dfs` have bodies. -/
structure FInv (ds : List FDecl) (dfs : List (FDecl × Nat)) (fns : List Fn) : Prop where
  sub : ∀ p ∈ dfs, p.1 ∈ ds
  has : ∀ d ∈ ds, ∃ (i : Nat) (f : Fn), fns[i]? = some f ∧ ftyEq f.ty d.ty = true
  from_ : ∀ (i : Nat) (f : Fn), fns[i]? = some f → ∃ d ∈ ds, d.ty = f.ty
  apart : ∀ (i j : Nat) (f g : Fn), fns[i]? = some f → fns[j]? = some g → i ≠ j →
    tysEq f.ty.tys g.ty.tys = false
  exp : ∀ (i : Nat) (f : Fn), fns[i]? = some f → f.ty.exported = true → fns.length ≤ 1
  foreign : ∀ (i : Nat) (f : Fn), fns[i]? = some f → f.ty.foreign = true →
    i = 0 ∧ f.ty.task = false
  first : ∀ d0 rest, ds = d0 :: rest → ∃ f : Fn, fns[0]? = some f ∧ ftyEq f.ty d0.ty = true
  dflt : ∀ (i : Nat) (f : Fn), fns[i]? = some f →
    ∃ d ∈ ds, ftyEq f.ty d.ty = true ∧ defaultsOk false d.ty.defs = true
  body : ∀ (i : Nat) (f : Fn), fns[i]? = some f →
    f.bodies = (dfs.filter fun p => ftyEq f.ty p.1.ty).map (·.2)
  stat : ∀ (i : Nat) (f : Fn), fns[i]? = some f →
    ∃ d, ds.find? (fun d => ftyEq f.ty d.ty) = some d ∧ f.static = d.static

theorem foreign_eq {a b : FTy} (h : ftyEq a b = true) : a.foreign = b.foreign := by
  obtain ⟨h1, h2, h3, h4, h5, h6, h7⟩ := ftyEq_iff.1 h
  simp [FTy.foreign, h4, h5]

theorem getElem?_snoc {α : Type} {l : List α} {x y : α} {i : Nat} :
    (l ++ [x])[i]? = some y ↔ l[i]? = some y ∨ (i = l.length ∧ x = y) := by
  rw [List.getElem?_append]
  by_cases h : i < l.length
  · rw [if_pos h]
    constructor
    · exact .inl
    · rintro (h' | ⟨h', -⟩)
      · exact h'
      · omega
  · rw [if_neg h]
    have hn : l[i]? = none := by simp; omega
    rw [hn]
    by_cases h' : i = l.length
    · subst h'; simp
    · have : i - l.length ≠ 0 := by omega
      simp only [h', false_and, or_false, reduceCtorEq, iff_false]
      rw [List.getElem?_cons]
      simp [this]

theorem FInv.same {ds : List FDecl} {dfs : List (FDecl × Nat)} {fns : List Fn} {d : FDecl}
    (hi : FInv ds dfs fns) (hm : ∃ f ∈ fns, ftyEq f.ty d.ty = true) : FInv (ds ++ [d]) dfs fns where
  sub p hp := List.mem_append_left _ (hi.sub p hp)
  has x hx := by
    simp only [List.mem_append, List.mem_singleton] at hx
    rcases hx with hx | rfl
    · exact hi.has x hx
    · obtain ⟨f, hf, he⟩ := hm
      obtain ⟨i, hif⟩ := List.mem_iff_getElem?.1 hf
      exact ⟨i, f, hif, he⟩
  from_ i f hf := by
    obtain ⟨x, hx, h⟩ := hi.from_ i f hf
    exact ⟨x, List.mem_append_left _ hx, h⟩
  apart := hi.apart
  exp := hi.exp
  foreign := hi.foreign
  first d0 rest he := by
    cases ds with
    | nil =>
      obtain ⟨f, hf, -⟩ := hm
      obtain ⟨i, hif⟩ := List.mem_iff_getElem?.1 hf
      obtain ⟨x, hx, -⟩ := hi.from_ i f hif
      simp at hx
    | cons e es =>
      simp only [List.cons_append, List.cons.injEq] at he
      obtain ⟨rfl, -⟩ := he
      exact hi.first _ _ rfl
  dflt i f hf := by
    obtain ⟨x, hx, h⟩ := hi.dflt i f hf
    exact ⟨x, List.mem_append_left _ hx, h⟩
  body := hi.body
  stat i f hf := by
    obtain ⟨x, hx, h⟩ := hi.stat i f hf
    exact ⟨x, by rw [List.find?_append, hx]; rfl, h⟩

theorem FInv.add {ds : List FDecl} {dfs : List (FDecl × Nat)} {fns : List Fn} {d : FDecl}
    (hi : FInv ds dfs fns)
    (h1 : ∀ f ∈ fns, tysEq f.ty.tys d.ty.tys = false ∧ d.ty.exported = false ∧
        f.ty.exported = false)
    (h2 : d.ty.foreign = true → d.ty.task = false ∧ fns = [])
    (h3 : defaultsOk false d.ty.defs = true) :
    FInv (ds ++ [d]) dfs (fns ++ [⟨d.ty, d.static, []⟩]) where
  sub p hp := List.mem_append_left _ (hi.sub p hp)
  has x hx := by
    simp only [List.mem_append, List.mem_singleton] at hx
    rcases hx with hx | rfl
    · obtain ⟨i, f, hf, he⟩ := hi.has x hx
      exact ⟨i, f, getElem?_snoc.2 (.inl hf), he⟩
    · exact ⟨fns.length, _, getElem?_snoc.2 (.inr ⟨rfl, rfl⟩), ftyEq_refl _⟩
  from_ i f hf := by
    rcases getElem?_snoc.1 hf with hf | ⟨-, rfl⟩
    · obtain ⟨x, hx, h⟩ := hi.from_ i f hf
      exact ⟨x, List.mem_append_left _ hx, h⟩
    · exact ⟨d, by simp, rfl⟩
  apart i j f g hf hg hij := by
    rcases getElem?_snoc.1 hf with hf | ⟨hf, rfl⟩ <;> rcases getElem?_snoc.1 hg with hg | ⟨hg, rfl⟩
    · exact hi.apart i j f g hf hg hij
    · exact (h1 f (List.mem_of_getElem? hf)).1
    · cases hh : tysEq d.ty.tys g.ty.tys with
      | false => rfl
      | true =>
        have := (h1 g (List.mem_of_getElem? hg)).1
        rw [tysEq_symm hh] at this; cases this
    · omega
  exp i f hf he := by
    rcases getElem?_snoc.1 hf with hf | ⟨hf, rfl⟩
    · have := (h1 f (List.mem_of_getElem? hf)).2.2
      rw [he] at this; cases this
    · cases fns with
      | nil => simp
      | cons g gs =>
        have := (h1 g (by simp)).2.1
        rw [show d.ty.exported = true from he] at this; cases this
  foreign i f hf he := by
    rcases getElem?_snoc.1 hf with hf | ⟨hl, rfl⟩
    · exact hi.foreign i f hf he
    · obtain ⟨ht, hn⟩ := h2 he
      subst hn
      exact ⟨hl, ht⟩
  first d0 rest he := by
    cases ds with
    | nil =>
      have hn : fns = [] := by
        cases fns with
        | nil => rfl
        | cons g gs => obtain ⟨x, hx, -⟩ := hi.from_ 0 g rfl; simp at hx
      simp only [List.nil_append, List.cons.injEq] at he
      obtain ⟨rfl, -⟩ := he
      subst hn
      exact ⟨_, rfl, ftyEq_refl _⟩
    | cons e es =>
      simp only [List.cons_append, List.cons.injEq] at he
      obtain ⟨rfl, -⟩ := he
      obtain ⟨f, hf, h⟩ := hi.first _ _ rfl
      exact ⟨f, getElem?_snoc.2 (.inl hf), h⟩
  dflt i f hf := by
    rcases getElem?_snoc.1 hf with hf | ⟨hf, rfl⟩
    · obtain ⟨x, hx, h⟩ := hi.dflt i f hf
      exact ⟨x, List.mem_append_left _ hx, h⟩
    · exact ⟨d, by simp, ftyEq_refl _, h3⟩
  body i f hf := by
    rcases getElem?_snoc.1 hf with hf | ⟨hf, rfl⟩
    · exact hi.body i f hf
    · rw [List.filter_eq_nil_iff.2]
      · rfl
      · intro p hp he
        obtain ⟨k, g, hg, hge⟩ := hi.has _ (hi.sub p hp)
        have := (h1 g (List.mem_of_getElem? hg)).1
        rw [ftyEq_tys (ftyEq_trans hge (ftyEq_symm he))] at this; cases this
  stat i f hf := by
    rcases getElem?_snoc.1 hf with hf | ⟨hf, rfl⟩
    · obtain ⟨x, hx, h⟩ := hi.stat i f hf
      exact ⟨x, by rw [List.find?_append, hx]; rfl, h⟩
    · refine ⟨d, ?_, rfl⟩
      rw [List.find?_append, List.find?_eq_none.2]
      · simp [ftyEq_refl]
      · intro x hx he
        obtain ⟨k, g, hg, hge⟩ := hi.has x hx
        have := (h1 g (List.mem_of_getElem? hg)).1
        rw [ftyEq_tys (ftyEq_trans hge (ftyEq_symm he))] at this; cases this

theorem find?_congr' {α : Type} {p q : α → Bool} {l : List α} (h : ∀ x ∈ l, p x = q x) :
    l.find? p = l.find? q := by
  induction l with
  | nil => rfl
  | cons x xs ih =>
    rw [List.find?_cons, List.find?_cons, h x (by simp), ih fun y hy => h y (by simp [hy])]

theorem ftyEq_congr {a b : FTy} (h : ftyEq a b = true) (c : FTy) : ftyEq a c = ftyEq b c := by
  cases h1 : ftyEq a c <;> cases h2 : ftyEq b c
  · rfl
  · rw [ftyEq_trans h h2] at h1; cases h1
  · rw [ftyEq_trans (ftyEq_symm h) h1] at h2; cases h2
  · rfl

theorem FInv.define {ds : List FDecl} {dfs : List (FDecl × Nat)} {fns : List Fn} {d : FDecl}
    {k : Nat} {f0 : Fn} (id : Nat)
    (hi : FInv ds dfs fns) (hd : d ∈ ds) (hk : fns[k]? = some f0) (he0 : ftyEq f0.ty d.ty = true) :
    FInv ds (dfs ++ [(d, id)]) (fns.modify k (Fn.define d id)) := by
  have key : ∀ (i : Nat) (f : Fn), (fns.modify k (Fn.define d id))[i]? = some f →
      ∃ f' : Fn, fns[i]? = some f' ∧ f.ty.tys.length = f'.ty.tys.length ∧
        ftyEq f.ty f'.ty = true ∧ f.static = f'.static ∧
        (i = k ∧ f = Fn.define d id f' ∨ i ≠ k ∧ f = f') := by
    intro i f hf
    rw [List.getElem?_modify] at hf
    by_cases hik : k = i
    · subst hik
      simp only [hk, ↓reduceIte, Option.map_eq_map, Option.map_some, Option.some.injEq] at hf
      subst hf
      have hl : ∀ (a b : List Ty), tysEq a b = true → a.length = b.length := by
        intro a
        induction a with
        | nil => intro b h; cases b <;> simp_all [tysEq]
        | cons x xs ih =>
          intro b h
          cases b with
          | nil => simp [tysEq] at h
          | cons y ys =>
            simp only [tysEq, Bool.and_eq_true] at h
            simp [ih ys h.2]
      exact ⟨f0, hk, hl _ _ (ftyEq_tys (ftyEq_symm he0)), ftyEq_symm he0, rfl, .inl ⟨rfl, rfl⟩⟩
    · simp only [hik, ↓reduceIte] at hf
      cases hg : fns[i]? with
      | none => simp [hg] at hf
      | some g =>
        simp only [hg, Option.map_eq_map, Option.map_some, Option.some.injEq] at hf
        subst hf
        exact ⟨g, rfl, rfl, ftyEq_refl _, rfl, .inr ⟨fun h => hik h.symm, rfl⟩⟩
  have back : ∀ (i : Nat) (f : Fn), fns[i]? = some f →
      ∃ f' : Fn, (fns.modify k (Fn.define d id))[i]? = some f' ∧ ftyEq f'.ty f.ty = true := by
    intro i f hf
    rw [List.getElem?_modify]
    by_cases hik : k = i
    · subst hik
      rw [hk] at hf
      cases hf
      exact ⟨Fn.define d id f0, by simp [hk], ftyEq_symm he0⟩
    · exact ⟨f, by simp [hik, hf], ftyEq_refl _⟩
  refine ⟨?_, ?_, ?_, ?_, ?_, ?_, ?_, ?_, ?_, ?_⟩
  · intro p hp
    simp only [List.mem_append, List.mem_singleton] at hp
    rcases hp with hp | rfl
    · exact hi.sub p hp
    · exact hd
  · intro x hx
    obtain ⟨i, f, hf, he⟩ := hi.has x hx
    obtain ⟨f', hf', he'⟩ := back i f hf
    exact ⟨i, f', hf', ftyEq_trans he' he⟩
  · intro i f hf
    obtain ⟨f', hf', -, -, -, ⟨-, rfl⟩ | ⟨-, rfl⟩⟩ := key i f hf
    · exact ⟨d, hd, rfl⟩
    · exact hi.from_ i _ hf'
  · intro i j f g hf hg hij
    obtain ⟨f', hf', -, hfe, -, -⟩ := key i f hf
    obtain ⟨g', hg', -, hge, -, -⟩ := key j g hg
    cases hh : tysEq f.ty.tys g.ty.tys with
    | false => rfl
    | true =>
      have := hi.apart i j f' g' hf' hg' hij
      rw [tysEq_trans (tysEq_symm (ftyEq_tys hfe)) (tysEq_trans hh (ftyEq_tys hge))] at this
      cases this
  · intro i f hf he
    obtain ⟨f', hf', -, hfe, -, -⟩ := key i f hf
    rw [List.length_modify]
    exact hi.exp i f' hf' ((ftyEq_iff.1 hfe).2.2.1 ▸ he)
  · intro i f hf he
    obtain ⟨f', hf', -, hfe, -, -⟩ := key i f hf
    have := hi.foreign i f' hf' (foreign_eq hfe ▸ he)
    exact ⟨this.1, (ftyEq_iff.1 hfe).2.1.trans this.2⟩
  · intro d0 rest he
    obtain ⟨f, hf, h⟩ := hi.first d0 rest he
    obtain ⟨f', hf', he'⟩ := back 0 f hf
    exact ⟨f', hf', ftyEq_trans he' h⟩
  · intro i f hf
    obtain ⟨f', hf', -, hfe, -, -⟩ := key i f hf
    obtain ⟨x, hx, h, h'⟩ := hi.dflt i f' hf'
    exact ⟨x, hx, ftyEq_trans hfe h, h'⟩
  · intro i f hf
    obtain ⟨f', hf', -, hfe, -, ⟨rfl, rfl⟩ | ⟨hne, rfl⟩⟩ := key i f hf
    · rw [List.filter_append, List.map_append]
      show f'.bodies ++ [id] = _
      rw [hi.body _ f' hf']
      congr 1
      · congr 1
        apply List.filter_congr
        intro p _
        exact ftyEq_congr (ftyEq_symm hfe) _
      · simp [Fn.define, ftyEq_refl]
    · rw [List.filter_append, List.map_append, hi.body _ f hf']
      have : ftyEq f.ty d.ty = false := by
        cases hh : ftyEq f.ty d.ty with
        | false => rfl
        | true =>
          have := hi.apart i k f f0 hf' hk hne
          rw [ftyEq_tys (ftyEq_trans hh (ftyEq_symm he0))] at this; cases this
      simp [this]
  · intro i f hf
    obtain ⟨f', hf', -, hfe, hst, -⟩ := key i f hf
    obtain ⟨x, hx, h⟩ := hi.stat i f' hf'
    refine ⟨x, ?_, hst.trans h⟩
    rw [← hx]
    exact find?_congr' fun y _ => ftyEq_congr hfe _

/-- Growing: functions keep their numbers. -/
def Grows (a b : List Fn) : Prop :=
  ∀ (i : Nat) (f : Fn), a[i]? = some f → ∃ f' : Fn, b[i]? = some f' ∧ ftyEq f'.ty f.ty = true

theorem Grows.refl (a : List Fn) : Grows a a := fun _ f h => ⟨f, h, ftyEq_refl _⟩

theorem addFn_inv {d : FDecl} {st : St} {ds : List FDecl} {dfs : List (FDecl × Nat)}
    (hi : FInv ds dfs st.fns) (h : (addFn d st).err = false) :
    st.err = false ∧ st.var = none ∧ (addFn d st).var = none ∧
      (addFn d st).reads = st.reads ∧ (addFn d st).calls = st.calls ∧
      FInv (ds ++ [d]) dfs (addFn d st).fns ∧ Grows st.fns (addFn d st).fns := by
  obtain ⟨h1, h2, ⟨h3, h4⟩ | ⟨h3, h4, h5, h6⟩⟩ := addFn_spec h
  · rw [h3]; exact ⟨h1, h2, h2, rfl, rfl, hi.same h4, Grows.refl _⟩
  · rw [h3]
    exact ⟨h1, h2, h2, rfl, rfl, hi.add h4 h5 h6,
      fun i f hf => ⟨f, getElem?_snoc.2 (.inl hf), ftyEq_refl _⟩⟩

theorem defFn_inv {d : FDecl} {id : Nat} {st : St} {ds : List FDecl} {dfs : List (FDecl × Nat)}
    (hi : FInv ds dfs st.fns) (h : (defFn d id st).err = false) :
    st.err = false ∧ st.var = none ∧ (defFn d id st).var = none ∧
      (defFn d id st).reads = st.reads ∧ (defFn d id st).calls = st.calls ∧
      FInv (ds ++ [d]) (dfs ++ [(d, id)]) (defFn d id st).fns ∧
      Grows st.fns (defFn d id st).fns := by
  have ha : (addFn d st).err = false := by
    unfold defFn at h
    simp only at h
    split at h <;> exact h
  obtain ⟨h1, h2, h3, h4, h5, h6, h7⟩ := addFn_inv hi ha
  unfold defFn
  simp only
  cases hf : findTy d.ty 0 (addFn d st).fns with
  | none =>
    exfalso
    obtain ⟨i, f, hif, he⟩ := h6.has d (by simp)
    have := findTy_none _ _ hf f (List.mem_of_getElem? hif)
    rw [he] at this; cases this
  | some k =>
    obtain ⟨-, f0, hk, he⟩ := findTy_spec _ _ _ hf
    rw [Nat.sub_zero] at hk
    refine ⟨h1, h2, h3, h4, h5, h6.define id (by simp) hk he, ?_⟩
    intro i f hif
    obtain ⟨f', hf', he'⟩ := h7 i f hif
    rw [List.getElem?_modify]
    by_cases hik : k = i
    · subst hik
      rw [hk] at hf'
      cases hf'
      exact ⟨Fn.define d id f0, by simp [hk], ftyEq_trans (ftyEq_symm he) he'⟩
    · exact ⟨f', by simp [hik, hf'], he'⟩

/-! ## Calls and reads -/

/-- What is known about the calls. -/
def CInv (ds : List FDecl) (fns : List Fn) (calls : List Call) : Prop :=
  ∀ c ∈ calls, (∃ f : Fn, fns[c.idx]? = some f ∧ tysEq f.ty.tys c.params = true) ∧
    ∃ d ∈ ds, tysEq d.ty.tys c.params = true ∧ enough d.ty c.n = true

theorem CInv.grow {ds ds' : List FDecl} {fns fns' : List Fn} {calls : List Call}
    (hc : CInv ds fns calls) (hs : ∀ d ∈ ds, d ∈ ds') (hg : Grows fns fns') :
    CInv ds' fns' calls := by
  intro c hcm
  obtain ⟨⟨f, hf, he⟩, d, hd, he', hn⟩ := hc c hcm
  obtain ⟨f', hf', hfe⟩ := hg _ _ hf
  exact ⟨⟨f', hf', tysEq_trans (ftyEq_tys hfe) he⟩, d, hs d hd, he', hn⟩

theorem callFn_inv {ps : List Ty} {n : Nat} {st : St} {ds : List FDecl} {dfs : List (FDecl × Nat)}
    (hi : FInv ds dfs st.fns) (hc : CInv ds st.fns st.calls) (h : (callFn ps n st).err = false) :
    st.err = false ∧ (callFn ps n st).var = st.var ∧ (callFn ps n st).fns = st.fns ∧
      (callFn ps n st).reads = st.reads ∧
      (∃ i, (callFn ps n st).calls = st.calls ++ [⟨ps, i, n⟩]) ∧
      CInv ds (callFn ps n st).fns (callFn ps n st).calls := by
  unfold callFn at h ⊢
  cases hf : findParams ps 0 st.fns with
  | none => simp [hf, fail] at h
  | some r =>
    obtain ⟨i, f⟩ := r
    simp only [hf] at h ⊢
    split at h
    · rename_i he
      rw [if_pos he]
      refine ⟨h, rfl, rfl, rfl, ⟨i, rfl⟩, ?_⟩
      obtain ⟨-, h2, h3⟩ := findParams_spec _ _ _ _ hf
      rw [Nat.sub_zero] at h2
      intro c hcm
      simp only [List.mem_append, List.mem_singleton] at hcm
      rcases hcm with hcm | rfl
      · exact hc c hcm
      · obtain ⟨d, hd, hde⟩ := hi.from_ i f h2
        exact ⟨⟨f, h2, h3⟩, d, hd, hde ▸ h3, hde ▸ he⟩
    · simp [fail] at h

/-- What is known about the reads: a folded one has the value that the last
declaration before it gave. -/
def RInv (ds : List VDecl) (reads : List Read) : Prop :=
  ∀ v, Read.fold v ∈ reads → ∃ d ∈ ds, cvalOf d = some v

structure Inv (es : List Ev) (st : St) : Prop where
  v : VInv (varDecls es) st.var
  f : FInv (fnDecls es) (fnDefs es) st.fns
  c : CInv (fnDecls es) st.fns st.calls
  r : RInv (varDecls es) st.reads
  xor : st.var = none ∨ st.fns = []
  calls : st.calls.map (fun c => (c.params, c.n)) = callsOf es
  reads : st.reads.length = readsOf es

theorem FInv.nil_ds {dfs : List (FDecl × Nat)} {ds : List FDecl} (h : FInv ds dfs []) :
    ds = [] := by
  cases ds with
  | nil => rfl
  | cons d ds => obtain ⟨i, f, hf, -⟩ := h.has d (by simp); simp at hf

theorem VInv.nil_ds {ds : List VDecl} (h : VInv ds none) : ds = [] := by
  cases ds with
  | nil => rfl
  | cons d ds => obtain ⟨g, hg, -⟩ := h.2 d ds rfl; cases hg

theorem inv (es : List Ev) : (run es).err = false → Inv es (run es) := by
  induction es using List.reverseRecOn with
  | nil =>
    intro _
    refine ⟨⟨fun _ => rfl, by intro d0 rest h; cases h⟩, ?_, ?_, ?_, .inl rfl, rfl, rfl⟩
    · constructor <;> intros <;> simp_all [fnDecls, fnDefs, run, St.init]
    · intro c hc; simp [run, St.init] at hc
    · intro v hv; simp [run, St.init] at hv
  | append_singleton es e ih =>
    intro h
    rw [run_snoc] at h ⊢
    cases e with
    | var d =>
      have hpre : (run es).err = false := by
        by_contra hx
        have hx' : (run es).err = true := by simpa using hx
        revert h
        simp only [step, addVar, redeclare, fail]
        repeat' split
        all_goals simp_all
      have hI := ih hpre
      obtain ⟨h1, h2, h3, h4, h5, h6⟩ := addVar_inv hI.v h
      constructor
      · rw [varDecls_append]; exact h4
      · rw [fnDecls_append, fnDefs_append]
        simp only [fnDecls, fnDefs, List.append_nil, step]
        rw [h3, ← h2]; exact hI.f
      · rw [fnDecls_append]
        simp only [fnDecls, List.append_nil, step]
        rw [h3, ← h2, h6]; exact hI.c
      · rw [varDecls_append]
        simp only [step]
        rw [h5]
        intro v hv
        obtain ⟨x, hx, hxv⟩ := hI.r v hv
        exact ⟨x, List.mem_append_left _ hx, hxv⟩
      · exact .inr h3
      · rw [callsOf_append]
        simp only [step, callsOf, List.append_nil]
        rw [h6]; exact hI.calls
      · rw [readsOf_append]
        simp only [step, readsOf, Nat.add_zero]
        rw [h5]; exact hI.reads
    | read =>
      obtain ⟨h1, h2, h3, h4, g, h5, h6⟩ := read_inv h
      have hI := ih h1
      constructor
      · rw [varDecls_append]
        simp only [varDecls, List.append_nil, step]; rw [h2]; exact hI.v
      · rw [fnDecls_append, fnDefs_append]
        simp only [fnDecls, fnDefs, List.append_nil, step]; rw [h3]; exact hI.f
      · rw [fnDecls_append]
        simp only [fnDecls, List.append_nil, step]; rw [h3, h4]; exact hI.c
      · rw [varDecls_append]
        simp only [varDecls, List.append_nil, step]
        rw [h6]
        intro v hv
        simp only [List.mem_append, List.mem_singleton] at hv
        rcases hv with hv | hv
        · exact hI.r v hv
        · cases hds : varDecls es with
          | nil =>
            have := hI.v.1 hds
            rw [h5] at this; cases this
          | cons d0 rest =>
            obtain ⟨g', hg', -, -, -, -, -, -, -, -, l, hl, -, hc⟩ := hI.v.2 d0 rest hds
            rw [h5] at hg'
            cases hg'
            refine ⟨l, hds ▸ List.mem_of_getLast? hl, ?_⟩
            rw [← hc]
            cases hgc : g.cval with
            | none => rw [hgc] at hv; cases hv
            | some w => rw [hgc] at hv; cases hv; rfl
      · simp only [step]; rw [h2, h3]; exact hI.xor
      · rw [callsOf_append]
        simp only [step, callsOf, List.append_nil]; rw [h4]; exact hI.calls
      · rw [readsOf_append]
        simp only [step, readsOf]; rw [h6]; simp [hI.reads]
    | declare d =>
      have hpre : (run es).err = false := (addFn_spec h).1
      have hI := ih hpre
      obtain ⟨h1, h2, h3, h4, h5, h6, h7⟩ := addFn_inv hI.f h
      constructor
      · rw [varDecls_append]
        simp only [varDecls, List.append_nil, step]; rw [h3, ← h2]; exact hI.v
      · rw [fnDecls_append, fnDefs_append]
        simp only [fnDecls, fnDefs, List.append_nil, step]; exact h6
      · rw [fnDecls_append]
        simp only [fnDecls, step]; rw [h5]
        exact hI.c.grow (fun x hx => List.mem_append_left _ hx) h7
      · rw [varDecls_append]
        simp only [varDecls, List.append_nil, step]; rw [h4]; exact hI.r
      · exact .inl h3
      · rw [callsOf_append]
        simp only [step, callsOf, List.append_nil]; rw [h5]; exact hI.calls
      · rw [readsOf_append]
        simp only [step, readsOf, Nat.add_zero]; rw [h4]; exact hI.reads
    | define d id =>
      have ha : (addFn d (run es)).err = false := by
        have h' := h
        simp only [step, defFn] at h'
        split at h' <;> exact h'
      have hI := ih (addFn_spec ha).1
      obtain ⟨h1, h2, h3, h4, h5, h6, h7⟩ := defFn_inv hI.f h
      constructor
      · rw [varDecls_append]
        simp only [varDecls, List.append_nil, step]; rw [h3, ← h2]; exact hI.v
      · rw [fnDecls_append, fnDefs_append]
        simp only [fnDecls, fnDefs, step]; exact h6
      · rw [fnDecls_append]
        simp only [fnDecls, step]; rw [h5]
        exact hI.c.grow (fun x hx => List.mem_append_left _ hx) h7
      · rw [varDecls_append]
        simp only [varDecls, List.append_nil, step]; rw [h4]; exact hI.r
      · exact .inl h3
      · rw [callsOf_append]
        simp only [step, callsOf, List.append_nil]; rw [h5]; exact hI.calls
      · rw [readsOf_append]
        simp only [step, readsOf, Nat.add_zero]; rw [h4]; exact hI.reads
    | call ps n =>
      have hpre : (run es).err = false := by
        revert h
        simp only [step, callFn, fail]
        repeat' split
        all_goals simp
      have hI := ih hpre
      obtain ⟨h1, h2, h3, h4, ⟨i, h5⟩, h6⟩ := callFn_inv hI.f hI.c h
      constructor
      · rw [varDecls_append]
        simp only [varDecls, List.append_nil, step]; rw [h2]; exact hI.v
      · rw [fnDecls_append, fnDefs_append]
        simp only [fnDecls, fnDefs, List.append_nil, step]; rw [h3]; exact hI.f
      · rw [fnDecls_append]
        simp only [fnDecls, List.append_nil, step]; exact h6
      · rw [varDecls_append]
        simp only [varDecls, List.append_nil, step]; rw [h4]; exact hI.r
      · simp only [step]; rw [h2, h3]; exact hI.xor
      · rw [callsOf_append]
        simp only [step, callsOf]; rw [h5]; simp [hI.calls]
      · rw [readsOf_append]
        simp only [step, readsOf, Nat.add_zero]; rw [h4]; exact hI.reads

theorem accepted_iff {st : St} : accepted st = true ↔
    st.err = false ∧ ∀ f ∈ st.fns, f.bodies.length ≤ 1 := by
  simp [accepted]

end Ispc.Redecl
