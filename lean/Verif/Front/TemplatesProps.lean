import Verif.Front.TemplatesDeduce

/-!
# What the deduction of template arguments guarantees
-/

namespace Ispc.Templ

open Ispc.Types

/-! ## What is collected for one name -/

/-- Two template arguments are the same. -/
inductive ArgEq : TArg → TArg → Prop
  | ty {t u : Ty} : equal t u = true → ArgEq (.ty t) (.ty u)
  | num {b : Basic} {k : Int} : ArgEq (.num b k) (.num b k)

/-- The names of a call's deductions are those of the template. -/
structure Named (f : Template) (m : Map) (ds : List (Name × TArg)) : Prop where
  ty : ∀ n t, (n, TArg.ty t) ∈ ds → (⟨n, none⟩ : TParam) ∈ f.tps ∧ m n = none ∧ Plain t
  num : ∀ n b k, (n, TArg.num b k) ∈ ds → (∃ b', (⟨n, some b'⟩ : TParam) ∈ f.tps) ∧ b = .int32 ∧ 0 < k

theorem table_plain {v : Var} {c : Bool} {t d : Ty} (h : Plain t) (hT : Table v c t d) :
    Plain d := by
  have ht : Plain (if c && t.isConst then t.asNonConst else t) := by
    split
    · exact plain_asNonConst h
    · exact h
  simp only [Table] at hT
  split at hT
  · rw [hT.2]; exact plain_asVarying ht
  · rw [hT]; exact plain_asUniform ht
  · rw [hT]; exact ht

theorem yields_plain {p : Par} {a : Ty} {e : List (Name × TArg)} (hY : Yields p a e)
    (h : ∀ n v c t, Facing p a n v c t → Plain t) : ∀ n t, (n, TArg.ty t) ∈ e → Plain t := by
  intro n t ht
  cases hY with
  | chain hp hf hT =>
    simp at ht
    obtain ⟨rfl, rfl⟩ := ht
    exact table_plain (h _ _ _ _ (.chain hp hf)) hT
  | vec hp hT =>
    simp at ht
    obtain ⟨rfl, rfl⟩ := ht
    exact table_plain (h _ _ _ _ (.vec hp)) hT

theorem named {f : Template} {m : Map} {as : List Ty} {ds : List (Name × TArg)} (hw : WF f)
    (ha : ArgsOk (f.ps.map fun p => p.1.resolve m) as)
    (h : Tells (f.ps.map fun p => p.1.resolve m) as ds) : Named f m ds := by
  have key : ∀ d ∈ ds, ∃ p ∈ f.ps, ∃ a e, Yields (p.1.resolve m) a e ∧ d ∈ e ∧
      (∀ n v c t, Facing (p.1.resolve m) a n v c t → Plain t) ∧
      (∀ q x t k, Passed (p.1.resolve m) a (.vec q (.sym x)) (.vec t k) → 0 < k) := by
    intro d hd
    obtain ⟨i, p, a, e, h1, h2, h3, hY, hde⟩ := tells_mem h d hd
    have hok := ha i p a h1 h2
    simp only [List.getElem?_map, Option.map_eq_some_iff] at h1
    obtain ⟨q, hq, rfl⟩ := h1
    exact ⟨q, List.mem_of_getElem? hq, a, e, hY, hde, hok.2⟩
  constructor
  · intro n t hn
    obtain ⟨p, hp, a, e, hY, hde, hpl, _⟩ := key _ hn
    have hpn := yields_plain hY hpl n t hde
    rcases (yields_resolve hY).2 _ hde with ⟨t', h1, h2, h3⟩ | ⟨x, k, h1, h2⟩
    · exact ⟨hw.tys p hp n h2, h3, hpn⟩
    · cases h2
  · intro n b k hn
    obtain ⟨p, hp, a, e, hY, hde, hpl, hk⟩ := key _ hn
    rcases (yields_resolve hY).2 _ hde with ⟨t', h1, h2, h3⟩ | ⟨x, k', h1, h2⟩
    · cases h1
    · have hx := hw.vals p hp x h1
      cases h2
      rw [List.take_of_length_le hx.2]
      refine ⟨hx.1, rfl, ?_⟩
      cases hY with
      | chain => simp at hde
      | vec hp' hT =>
        simp at hde
        have := hk _ _ _ _ hp'
        omega

theorem mem_pick {n : Name} {d : TArg} {ds : List (Name × TArg)} :
    d ∈ pick n ds ↔ (n, d) ∈ ds := by
  simp only [pick, List.mem_filterMap]
  constructor
  · rintro ⟨⟨k, x⟩, hx, h⟩
    simp only at h
    split at h
    · rename_i hk
      cases h
      subst hk
      exact hx
    · cases h
  · intro h
    exact ⟨(n, d), h, by simp⟩

/-- The types deduced for a name. -/
def tysOf (n : Name) (ds : List (Name × TArg)) : List Ty :=
  ds.filterMap fun d => match d with
    | (k, .ty t) => if k = n then some t else none
    | _ => none

theorem mem_tysOf {n : Name} {t : Ty} {ds : List (Name × TArg)} :
    t ∈ tysOf n ds ↔ (n, .ty t) ∈ ds := by
  simp only [tysOf, List.mem_filterMap]
  constructor
  · rintro ⟨⟨k, x⟩, hx, h⟩
    cases x with
    | ty u =>
      simp only at h
      split at h
      · rename_i hk
        cases h
        subst hk
        exact hx
      · cases h
    | num b k => cases h
  · intro h
    exact ⟨(n, .ty t), h, by simp⟩

theorem pick_tys {n : Name} : ∀ {ds : List (Name × TArg)}, (∀ b k, (n, TArg.num b k) ∉ ds) →
    pick n ds = (tysOf n ds).map .ty
  | [], _ => rfl
  | (k, d) :: ds, h => by
    have ih := pick_tys (n := n) (ds := ds) fun b k hk => h b k (by simp [hk])
    simp only [pick, tysOf] at ih ⊢
    cases d with
    | ty t =>
      by_cases hk : k = n
      · simp [hk, ih]
      · simp [hk, ih]
    | num b j =>
      by_cases hk : k = n
      · subst hk
        exact absurd (by simp) (h b j)
      · simp [hk, ih]

theorem regular_tys {n : Name} {ds : List (Name × TArg)} (h : Regular ds) :
    (tysOf n ds).Pairwise fun t u => t.isVarying = true → u.isUniform = true → Same t u := by
  unfold tysOf
  refine List.Pairwise.filterMap _ ?_ h
  rintro ⟨k, d⟩ ⟨k', d'⟩ hR t ht u hu
  cases d <;> cases d' <;> simp only [reduceCtorEq] at ht hu
  rename_i x y
  split at ht
  · split at hu
    · rename_i h1 h2
      cases ht; cases hu
      subst h1 h2
      exact hR k' _ _ rfl rfl
    · cases hu
  · cases ht

/-- The types agree but for variability. -/
def Agree (l : List Ty) : Prop := ∀ t ∈ l, ∀ u ∈ l, Same t u

theorem accept_regular {l : List Ty} {r : Ty} (hl : ∀ t ∈ l, Plain t) (ha : Accept l r)
    (h : l.Pairwise fun t u => t.isVarying = true → u.isUniform = true → Same t u) :
    ∀ t ∈ l, Same r t := by
  intro t ht
  obtain ⟨pre, post, he⟩ := List.append_of_mem ht
  by_cases hc : t.isVarying = true ∨ ∀ u ∈ pre, u.isVarying = false
  · exact ha.same pre t post he hc
  · push Not at hc
    obtain ⟨htv, u, hu, huv⟩ := hc
    have htu : t.isUniform = true := (plain_not_varying (hl t ht)).1 (by simpa using htv)
    have huv : u.isVarying = true := by simpa using huv
    have hut : Same u t := by
      rw [he, List.pairwise_append] at h
      exact h.2.2 u hu t (by simp) huv htu
    obtain ⟨pre', post', he'⟩ := List.append_of_mem (show u ∈ l by rw [he]; simp [hu])
    exact same_trans (ha.same pre' u post' he' (.inl huv)) hut

theorem accept_agree {l : List Ty} (hl : l ≠ []) (hp : ∀ t ∈ l, Plain t) (h : Agree l) :
    ∃ r, Accept l r := by
  by_cases hv : ∃ t ∈ l, t.isVarying = true
  · obtain ⟨t, ht, htv⟩ := hv
    refine ⟨t, ht, ⟨fun _ => ⟨t, ht, htv⟩, fun _ => htv⟩, ?_⟩
    intro pre x post he _
    exact h t ht x (by rw [he]; simp)
  · cases l with
    | nil => exact absurd rfl hl
    | cons t l =>
      refine ⟨t, by simp, ⟨fun h' => ⟨t, by simp, h'⟩, fun h' => absurd h' hv⟩, ?_⟩
      intro pre x post he _
      exact h t (by simp) x (by rw [he]; simp)

theorem joins_num : ∀ {l : List TArg} {b : Basic} {k : Int} {o : Option TArg},
    (∀ d ∈ l, ∃ b k, d = .num b k) → joins (some (.num b k)) l = some o →
    o = some (.num b k) ∧ ∀ d ∈ l, d = .num b k
  | [], b, k, o, _, h => by
    simp only [joins, Option.some.injEq] at h
    exact ⟨h.symm, by simp⟩
  | d :: l, b, k, o, hl, h => by
    obtain ⟨b', k', rfl⟩ := hl d (by simp)
    simp only [joins, join] at h
    split at h
    · rename_i x hx
      split at hx
      · rename_i hb
        cases hx
        obtain ⟨rfl, rfl⟩ := hb
        have := joins_num (fun d hd => hl d (by simp [hd])) h
        exact ⟨this.1, by simpa using this.2⟩
      · cases hx
    · cases h

theorem joins_same : ∀ {l : List TArg} {b : Basic} {k : Int}, (∀ d ∈ l, d = .num b k) →
    joins (some (.num b k)) l = some (some (.num b k))
  | [], b, k, _ => rfl
  | d :: l, b, k, h => by
    obtain rfl := h d (by simp)
    simp only [joins, join, and_self, if_true]
    exact joins_same fun d hd => h d (by simp [hd])

theorem kinds {tps : List TParam} {n : Name} {w : Option Basic} : ∀ {ex : List TArg},
    (tps.map TParam.name).Nodup → KindsOk tps ex → (⟨n, w⟩ : TParam) ∈ tps →
    ∀ a, explicitMap tps ex n = some a → (w = none ↔ ∃ t, a = .ty t) := by
  induction tps with
  | nil => intro ex _ _ h; cases h
  | cons p ps ih =>
    intro ex hnd hk hm a ha
    simp only [List.map_cons, List.nodup_cons] at hnd
    cases ex with
    | nil => cases ha
    | cons x ex =>
      simp only [explicitMap] at ha
      rcases List.mem_cons.1 hm with rfl | hm
      · simp only [if_true, Option.some.injEq] at ha
        subst ha
        exact hk.1
      · rw [if_neg] at ha
        · exact ih hnd.2 hk.2 hm a ha
        · rintro rfl
          exact hnd.1 (List.mem_map.2 ⟨_, hm, rfl⟩)

/-- What the instance's arguments are, given what the arguments of the call
tell. -/
structure Result (f : Template) (ex targs : List TArg) (ds : List (Name × TArg)) : Prop where
  /-- Explicit arguments are kept. -/
  kept : ∀ n a, explicitMap f.tps ex n = some a → explicitMap f.tps targs n = some a
  /-- The other type parameters are what their deductions allow. -/
  ty : ∀ n, (⟨n, none⟩ : TParam) ∈ f.tps → explicitMap f.tps ex n = none →
    ∃ t, explicitMap f.tps targs n = some (.ty t) ∧ Accept (tysOf n ds) t
  /-- The other value parameters have the one value that has been deduced. -/
  num : ∀ n b, (⟨n, some b⟩ : TParam) ∈ f.tps →
    (explicitMap f.tps ex n = none → ∃ d, (n, d) ∈ ds) ∧
    ∀ d, (n, d) ∈ ds → explicitMap f.tps targs n = some d

theorem result {f : Template} {ex targs : List TArg} {ds : List (Name × TArg)} {m' : Map}
    (hw : WF f) (hk : KindsOk f.tps ex) (hn : Named f (explicitMap f.tps ex) ds)
    (hf : fold (explicitMap f.tps ex) ds = .ok m') (hc : complete m' f.tps ex = some targs) :
    Result f ex targs ds := by
  have hcs := complete_spec hw.nodup hc
  rw [fold_ok] at hf
  refine ⟨hcs.1, ?_, ?_⟩
  · intro n hp hex
    obtain ⟨a, ha, hta⟩ := (hcs.2 _ hp hex).1 rfl
    have hnum : ∀ b k, (n, TArg.num b k) ∉ ds := by
      intro b k hb
      obtain ⟨⟨b', hb'⟩, _⟩ := hn.num n b k hb
      have := nodup_value hw.nodup hp hb'
      cases this
    have hj := hf n
    simp only at ha hta
    rw [hex, pick_tys hnum, ha] at hj
    cases hl : tysOf n ds with
    | nil => rw [hl] at hj; simp [joins] at hj
    | cons t l =>
      have hpl : ∀ x ∈ t :: l, Plain x := by
        intro x hx
        rw [← hl, mem_tysOf] at hx
        exact (hn.ty n x hx).2.2
      rw [hl] at hj
      simp only [List.map_cons, joins, join, Option.map_none] at hj
      rw [joins_ty] at hj
      cases hjt : joinTys t l with
      | none => rw [hjt] at hj; cases hj
      | some r =>
        rw [hjt] at hj
        simp only [Option.map_some, Option.some.injEq] at hj
        subst hj
        exact ⟨r, hta, (joinTys_iff hpl).1 r hjt⟩
  · intro n b hp
    have hnum : ∀ d ∈ pick n ds, ∃ b k, d = .num b k := by
      intro d hd
      rw [mem_pick] at hd
      cases d with
      | num b k => exact ⟨b, k, rfl⟩
      | ty t =>
        have := nodup_value hw.nodup hp (hn.ty n t hd).1
        cases this
    have hj := hf n
    cases hex : explicitMap f.tps ex n with
    | none =>
      obtain ⟨b', k, hm, hta⟩ := (hcs.2 _ hp hex).2 b rfl
      simp only at hm hta
      rw [hex, hm] at hj
      cases hl : pick n ds with
      | nil => rw [hl] at hj; simp [joins] at hj
      | cons d l =>
        rw [hl] at hnum hj
        obtain ⟨b1, k1, rfl⟩ := hnum d (by simp)
        simp only [joins, join] at hj
        have := joins_num (fun d hd => hnum d (by simp [hd])) hj
        simp only [Option.some.injEq] at this
        have hfst : (n, TArg.num b1 k1) ∈ ds := by rw [← mem_pick, hl]; simp
        refine ⟨fun _ => ⟨_, hfst⟩, ?_⟩
        intro d hd
        rw [← mem_pick, hl] at hd
        rw [hta, this.1]
        rcases List.mem_cons.1 hd with rfl | hd
        · rfl
        · rw [this.2 d hd]
    | some a =>
      refine ⟨fun h => (by cases h), ?_⟩
      intro d hd
      rw [hcs.1 n a hex]
      have : ∃ b k, a = .num b k := by
        cases a with
        | num b k => exact ⟨b, k, rfl⟩
        | ty t =>
          have := (kinds hw.nodup hk hp _ hex).2 ⟨t, rfl⟩
          cases this
      obtain ⟨b', k, rfl⟩ := this
      rw [hex] at hj
      have := joins_num hnum hj
      rw [this.2 d (mem_pick.2 hd)]

/-- A candidate that needs deduction. -/
theorem candidate_result {f : Template} {ex targs : List TArg} {args : List Ty} (hw : WF f)
    (hk : KindsOk f.tps ex)
    (ha : ArgsOk (f.ps.map fun p => p.1.resolve (explicitMap f.tps ex)) args)
    (hlt : ex.length < f.tps.length) (h : candidate f ex args = .ok targs) :
    ∃ ds, Tells (f.ps.map fun p => p.1.resolve (explicitMap f.tps ex)) args ds ∧
      Named f (explicitMap f.tps ex) ds ∧ Result f ex targs ds := by
  simp only [candidate] at h
  split at h
  · cases h
  split at h
  · cases h
  rw [if_neg (by omega), if_neg (by omega)] at h
  split at h
  · rename_i m' hm
    split at h
    · rename_i l hl
      cases h
      obtain ⟨ds, hT, hf⟩ := (deduceAll_ok ha).1 hm
      exact ⟨ds, hT, named hw ha hT, result hw hk (named hw ha hT) hf hl⟩
    · cases h
  · cases h
  · cases h
  · cases h

/-! ## Arguments fit the parameters of the instance -/

theorem equal_of_same {a b : Ty} (ha : Plain a) (hb : Plain b) (hu : a.isUniform = b.isUniform)
    (h : Same a b) : equal a b = true := (equal_iff_same ha hb).2 ⟨hu, h⟩

/-- The version of a type that a written variability asks for. -/
def atVar (v : Var) (r : Ty) : Ty :=
  match v with
  | .uniform => r.asUniform
  | .varying => r.asVarying
  | _ => r

theorem bindParm_eq (r : Ty) (v : Var) (c : Bool) :
    bindParm r v c = if c then (atVar v r).asConst else atVar v r := by
  cases v <;> rfl

theorem atVar_plain {v : Var} {r : Ty} (h : Plain r) : Plain (atVar v r) := by
  unfold atVar
  split
  · exact plain_asUniform h
  · exact plain_asVarying h
  · exact h

theorem bindParm_plain {t : Ty} {v : Var} {c : Bool} (h : Plain t) : Plain (bindParm t v c) := by
  rw [bindParm_eq]
  split
  · exact plain_asConst (atVar_plain h)
  · exact atVar_plain h

theorem up_self {t r : Ty} (ht : Plain t) (hr : Plain r) (hs : Same r t)
    (hv : t.isVarying = true → r.isVarying = true) : Up t r := by
  cases hu : t.isUniform
  · left
    refine equal_of_same ht hr ?_ (same_symm hs)
    rw [hu, (plain_not_uniform hr).2 (hv ((plain_not_uniform ht).1 hu))]
  · cases hru : r.isUniform
    · right
      refine ⟨hu, equal_of_same (plain_asVarying ht) hr ?_ ?_⟩
      · rw [hru, (plain_not_uniform (plain_asVarying ht)).2 (isVarying_asVarying ht)]
      · exact same_trans (same_asVarying ht) (same_symm hs)
    · left
      exact equal_of_same ht hr (by rw [hu, hru]) (same_symm hs)

theorem up_atVar {v : Var} {t d r : Ty} (ht : Plain t) (hr : Plain r)
    (hT : Table v false t d) (hs : Same r d) (hv : d.isVarying = true → r.isVarying = true) :
    Up t (atVar v r) := by
  simp only [Table, Bool.false_and, Bool.false_eq_true, if_false] at hT
  cases v with
  | uniform =>
    obtain ⟨hu, rfl⟩ := hT
    refine up_self ht (plain_asUniform hr) ?_ ?_
    · exact same_trans (same_asUniform hr) (same_trans hs (same_asVarying ht))
    · intro h
      rw [(plain_not_varying ht).2 hu] at h
      cases h
  | varying =>
    simp only at hT
    subst hT
    refine up_self ht (plain_asVarying hr) ?_ fun _ => isVarying_asVarying hr
    exact same_trans (same_asVarying hr) (same_trans hs (same_asUniform ht))
  | soa w =>
    simp only at hT
    subst hT
    exact up_self ht hr hs hv
  | unbound =>
    simp only at hT
    subst hT
    exact up_self ht hr hs hv

theorem up_const {t r : Ty} (ht : Plain t) (hr : Plain r) (h : Up t r) : Up t.asConst r.asConst := by
  rcases h with h | ⟨h1, h2⟩
  · exact .inl (equal_asConst ht hr h)
  · right
    refine ⟨?_, ?_⟩
    · simpa [Ty.isUniform, variability_asConst ht] using h1
    · rw [asConst_asVarying ht]
      exact equal_asConst (plain_asVarying ht) hr h2

/-- The part of an argument that faces a type parameter is received by what the
parameter stands for. -/
theorem receives {v : Var} {c c2 : Bool} {t d r : Ty} (ht : Plain t) (hr : Plain r)
    (hT : Table v c t d) (hs : Same r d) (hv : d.isVarying = true → r.isVarying = true)
    (hc : c = true → c2 = true) : Receives t (bindParm r v c2) := by
  rw [bindParm_eq]
  cases c2 with
  | false =>
    have : c = false := by cases c <;> simp_all
    subst this
    exact .inl (up_atVar ht hr hT hs hv)
  | true =>
    right
    by_cases hcc : (c && t.isConst) = true
    · have hT' : Table v false t.asNonConst d := by
        simpa [Table, hcc] using hT
      have := up_const (plain_asNonConst ht) (atVar_plain hr)
        (up_atVar (plain_asNonConst ht) hr hT' hs hv)
      rwa [nonConst_const ht] at this
    · have hT' : Table v false t d := by
        simpa [Table, hcc] using hT
      exact up_const ht (atVar_plain hr) (up_atVar ht hr hT' hs hv)

theorem bindVar_plain : ∀ {t : Ty} {w : Var}, Plain t → bindVar w t = t
  | .atomic b v c, w, h => by
    have : v ≠ .unbound := by rcases h with rfl | rfl <;> simp
    simp [bindVar, this]
  | .enum n p v c, w, h => by
    have : v ≠ .unbound := by rcases h with rfl | rfl <;> simp
    simp [bindVar, this]
  | .struct n v c, w, h => by
    have : v ≠ .unbound := by rcases h with rfl | rfl <;> simp
    simp [bindVar, this]
  | .ptr b v c s f a, w, h => by
    have : v ≠ .unbound := by rcases h.1 with rfl | rfl <;> simp
    have hb : bindVar .uniform b = b := by
      rcases h.2.2 with hb | ⟨fl, r, ps, rfl⟩
      · exact bindVar_plain hb
      · rfl
    simp [bindVar, this, hb]
  | .array b n, w, h => by simp [bindVar, bindVar_plain (t := b) h]
  | .vec b n, w, h => by simp [bindVar, bindVar_plain (t := b) h]

/-- Below pointers and references. -/
theorem faces_fits {m : Map} {n : Name} {r : Ty} {v : Var} {c : Bool} {t : Ty}
    (hm : m n = some (.ty r)) (hr : Plain r) (hR : Receives t (bindParm r v c)) :
    ∀ {p : Par} {a : Ty} {w : Var}, Faces p a n v c t →
      ∃ s, (p.resolve m).close = some s ∧ Fits a (bindVar w s)
  | .parm k w q, a, w', h => by
    cases h
    refine ⟨bindParm r v c, ?_, ?_⟩
    · simp [Par.resolve, Map.ty, hm, TArg.asTy, Par.close]
    · rw [bindVar_plain (bindParm_plain hr)]
      exact .leaf hR
  | .ptr b w q, a, w', h => by
    cases h with
    | ptr h =>
      obtain ⟨s, hs, hf⟩ := faces_fits hm hr hR (w := .uniform) h
      exact ⟨.ptr s w q false false 0, by simp [Par.resolve, Par.close, hs], .ptr hf⟩
  | .ref b, a, w', h => by
    cases h with
    | ref h =>
      obtain ⟨s, hs, hf⟩ := faces_fits hm hr hR (w := w') h
      exact ⟨mkRef s 0, by simp [Par.resolve, Par.close, hs], .ref hf⟩
  | .con _, _, _, h => by cases h
  | .vec _ _, _, _, h => by cases h
  | .array _ _, _, _, h => by cases h

theorem bindParm_not_ref {r : Ty} {v : Var} {c : Bool} (h : Plain r) (u : Ty) (w : Var) (q : Bool)
    (k : Nat) : bindParm r v c ≠ .ref u w q k := by
  intro he
  have := bindParm_plain (v := v) (c := c) h
  rw [he] at this
  exact this

/-- An argument fits the parameter, when the arguments of the instance agree
with what it told. -/
theorem yields_fits {m : Map} {p : Par} {a : Ty} {e : List (Name × TArg)} (hY : Yields p a e)
    (hpl : ∀ n v c t, Facing p a n v c t → Plain t)
    (hk : ∀ q x t k, Passed p a (.vec q (.sym x)) (.vec t k) → 0 < k ∧ x.length ≤ 15)
    (hty : ∀ n d, (n, TArg.ty d) ∈ e → ∃ r, m n = some (.ty r) ∧ Plain r ∧ Same r d ∧
      (d.isVarying = true → r.isVarying = true))
    (hnum : ∀ n b k, (n, TArg.num b k) ∈ e → m n = some (.num b k)) :
    ∃ s, p.instantiate m = some s ∧ ArgFits a s := by
  cases hY with
  | @chain p' a' t d n v c hp hf hT =>
    obtain ⟨r, hm, hr, hs, hv⟩ := hty n d (by simp)
    have ht : Plain t := hpl n v c t (.chain hp hf)
    have hR : Receives t (bindParm r v c) := receives ht hr hT hs hv id
    cases hp with
    | byRef =>
      obtain ⟨s, h1, h2⟩ := faces_fits hm hr hR (w := .varying) hf
      exact ⟨mkRef (bindVar .varying s) 0, by simp [Par.instantiate, Par.resolve, Par.close, h1, bindVar, mkRef],
        .ref h2⟩
    | toRef hne =>
      obtain ⟨s, h1, h2⟩ := faces_fits hm hr hR (w := .varying) hf
      refine ⟨mkRef (bindVar .varying s) 0, by simp [Par.instantiate, Par.resolve, Par.close, h1, bindVar, mkRef],
        .ref ?_⟩
      have : a.refTarget = a := by
        cases a with
        | ref u v c k => exact absurd rfl (hne u v c k)
        | _ => rfl
      rw [this]
      exact h2
    | @parm _ _ c2 _ _ hval =>
      cases hf
      refine ⟨bindParm r v c2, ?_, .val hval (bindParm_not_ref hr) (.leaf (receives ht hr hT hs hv (by simp)))⟩
      simp [Par.instantiate, Par.resolve, Map.ty, hm, TArg.asTy, Par.close, bindVar_plain (bindParm_plain hr)]
    | @ptr b w c2 _ _ hval =>
      cases hf with
      | ptr hf =>
        obtain ⟨s, h1, h2⟩ := faces_fits hm hr hR (w := .uniform) hf
        refine ⟨_, by simp only [Par.instantiate, Par.resolve, Par.close, h1, Option.map_some]; rfl, ?_⟩
        exact .val hval (by simp [bindVar]) (.ptr h2)
    | vec => cases hf
  | @vec t d n x v c k hp hT =>
    obtain ⟨r, hm, hr, hs, hv⟩ := hty n d (by simp)
    have ht : Plain t := hpl n v c t (.vec hp)
    have hx := hk _ _ _ _ hp
    have hmx : m x = some (.num .int32 k) := by
      have := hnum (x.take 15) .int32 k (by simp)
      rwa [List.take_of_length_le hx.2] at this
    have hcount : Count.resolve m (.sym x) = .fixed k := by
      have : (0 : Int) < k := by omega
      simp [Count.resolve, hmx, hx.1]
    have hty' : ∀ c2, (c = true → c2 = true) →
        ((Par.vec (.parm n v c2) (.sym x)).resolve m).close = some (.vec (bindParm r v c2) k) ∧
        Fits (.vec t k) (bindVar .varying (.vec (bindParm r v c2) k)) := by
      intro c2 hc2
      constructor
      · simp [Par.resolve, Map.ty, hm, TArg.asTy, Par.close, hcount]
      · simp only [bindVar, bindVar_plain (bindParm_plain hr)]
        exact .vec (.leaf (receives ht hr hT hs hv hc2))
    cases hp with
    | byRef =>
      obtain ⟨h1, h2⟩ := hty' c id
      refine ⟨mkRef (bindVar .varying (.vec (bindParm r v c) k)) 0, ?_, .ref h2⟩
      rw [Par.instantiate, Par.resolve, Par.close, h1]
      rfl
    | toRef hne =>
      obtain ⟨h1, h2⟩ := hty' c id
      refine ⟨mkRef (bindVar .varying (.vec (bindParm r v c) k)) 0, ?_, .ref h2⟩
      rw [Par.instantiate, Par.resolve, Par.close, h1]
      rfl
    | @vec _ _ c2 _ _ _ hval =>
      obtain ⟨h1, h2⟩ := hty' c2 (by simp)
      refine ⟨_, by rw [Par.instantiate, h1]; rfl, .val hval (by simp [bindVar]) h2⟩

/-- **C75**: when the deduction succeeds, every argument that faces a template
parameter fits the type that the parameter has in the instance: the same type
below the same pointers and short vectors, where a uniform value may become
varying and `const` may be added.  Missing: deductions where a uniform type
comes after a varying type that differs otherwise (`late_uniform_wrong`). -/
theorem sound_partial {f : Template} {ex targs : List TArg} {args : List Ty} (hw : WF f)
    (hk : KindsOk f.tps ex)
    (ha : ArgsOk (f.ps.map fun p => p.1.resolve (explicitMap f.tps ex)) args)
    (hlt : ex.length < f.tps.length) (h : candidate f ex args = .ok targs)
    (hreg : ∀ ds, Tells (f.ps.map fun p => p.1.resolve (explicitMap f.tps ex)) args ds → Regular ds)
    (i : Nat) (p : Par × Bool) (a : Ty) (hp : f.ps[i]? = some p) (hai : args[i]? = some a)
    (hd : (p.1.resolve (explicitMap f.tps ex)).dep = true) :
    ∃ s, (signature f targs)[i]? = some (some s) ∧ ArgFits a s := by
  obtain ⟨ds, hT, hn, hr⟩ := candidate_result hw hk ha hlt h
  have hri : (f.ps.map fun p => p.1.resolve (explicitMap f.tps ex))[i]? =
      some (p.1.resolve (explicitMap f.tps ex)) := by simp [hp]
  obtain ⟨e, hY, he⟩ := tells_at hT hri hai hd
  have hok := ha i _ a hri hai
  have hres := (yields_resolve hY).1
  rw [hres] at hY hok
  have hsig : (signature f targs)[i]? = some (p.1.instantiate (explicitMap f.tps targs)) := by
    simp [signature, hp]
  have hmem : p ∈ f.ps := List.mem_of_getElem? hp
  have key : ∃ s, p.1.instantiate (explicitMap f.tps targs) = some s ∧ ArgFits a s := by
    refine yields_fits hY hok.2.1 ?_ ?_ ?_
    · intro q x t k hpq
      refine ⟨hok.2.2 _ _ _ _ hpq, (hw.vals p hmem x ?_).2⟩
      revert hpq
      cases p.1 with
      | ref b => intro h; cases h <;> simp [Par.valNames]
      | vec b k => intro h; cases h; simp [Par.valNames]
      | _ => intro h; cases h
    · intro n d hd
      have hdn := hn.ty n d (he _ hd)
      obtain ⟨r, hm, hacc⟩ := hr.ty n hdn.1 hdn.2.1
      have hpl : ∀ t ∈ tysOf n ds, Plain t := fun t ht => (hn.ty n t (mem_tysOf.1 ht)).2.2
      have hdm : d ∈ tysOf n ds := mem_tysOf.2 (he _ hd)
      exact ⟨r, hm, hpl r hacc.mem, accept_regular hpl hacc (regular_tys (hreg ds hT)) d hdm,
        fun hv => hacc.var.2 ⟨d, hdm, hv⟩⟩
    · intro n b k hd
      obtain ⟨⟨b', hb'⟩, _⟩ := hn.num n b k (he _ hd)
      exact (hr.num n b' hb').2 _ (he _ hd)
  obtain ⟨s, h1, h2⟩ := key
  exact ⟨s, by rw [hsig, h1], h2⟩

/-! ## When the deduction succeeds -/

theorem table_unique {v : Var} {c : Bool} {t d d' : Ty} (h : Table v c t d) (h' : Table v c t d') :
    d = d' := by
  simp only [Table] at h h'
  cases v with
  | uniform => rw [h.2, h'.2]
  | varying => rw [h, h']
  | soa w => rw [h, h']
  | unbound => rw [h, h']

theorem faces_unique {n n' : Name} {v v' : Var} {c c' : Bool} {t t' : Ty} :
    ∀ {p : Par} {a : Ty}, Faces p a n v c t → Faces p a n' v' c' t' →
      n = n' ∧ v = v' ∧ c = c' ∧ t = t'
  | .parm .., _, h, h' => by cases h; cases h'; exact ⟨rfl, rfl, rfl, rfl⟩
  | .ptr .., _, h, h' => by
    cases h with
    | ptr h => cases h' with | ptr h' => exact faces_unique h h'
  | .ref .., _, h, h' => by
    cases h with
    | ref h => cases h' with | ref h' => exact faces_unique h h'
  | .con _, _, h, _ => by cases h
  | .vec _ _, _, h, _ => by cases h
  | .array _ _, _, h, _ => by cases h

theorem yields_unique {p : Par} {a : Ty} {e e' : List (Name × TArg)} (ha : Plain a.refTarget)
    (h : Yields p a e) (h' : Yields p a e') : e = e' := by
  cases h with
  | chain hp hf hT =>
    cases h' with
    | chain hp' hf' hT' =>
      have := (adjust_passed ha hp).symm.trans (adjust_passed ha hp')
      cases this
      obtain ⟨rfl, rfl, rfl, rfl⟩ := faces_unique hf hf'
      rw [table_unique hT hT']
    | vec hp' hT' =>
      have := (adjust_passed ha hp).symm.trans (adjust_passed ha hp')
      cases this
      cases hf
  | vec hp hT =>
    cases h' with
    | chain hp' hf' hT' =>
      have := (adjust_passed ha hp).symm.trans (adjust_passed ha hp')
      cases this
      cases hf'
    | vec hp' hT' =>
      have := (adjust_passed ha hp).symm.trans (adjust_passed ha hp')
      cases this
      rw [table_unique hT hT']

theorem tells_exists : ∀ {ps : List Par} {as : List Ty}, ps.length ≤ as.length →
    (∀ (i : Nat) (p : Par) (a : Ty), ps[i]? = some p → as[i]? = some a → p.dep = true →
      ∃ e, Yields p a e) → ∃ ds, Tells ps as ds
  | [], as, _, _ => ⟨[], .nil⟩
  | p :: ps, [], hl, _ => by simp at hl
  | p :: ps, a :: as, hl, h => by
    obtain ⟨ds, hds⟩ := tells_exists (ps := ps) (as := as) (by simpa using hl)
      fun i q b hq hb hd => h (i + 1) q b (by simpa using hq) (by simpa using hb) hd
    cases hd : p.dep with
    | false => exact ⟨ds, .skip hd hds⟩
    | true =>
      obtain ⟨e, he⟩ := h 0 p a rfl rfl hd
      exact ⟨e ++ ds, .cons hd he hds⟩

theorem explicit_drop : ∀ {tps : List TParam} {ex : List TArg} {p : TParam},
    (tps.map TParam.name).Nodup → p ∈ tps.drop ex.length → explicitMap tps ex p.name = none
  | [], _, _, _, h => by simp at h
  | q :: qs, [], p, _, _ => rfl
  | q :: qs, a :: as, p, hnd, h => by
    simp only [List.map_cons, List.nodup_cons] at hnd
    simp only [List.length_cons, List.drop_succ_cons] at h
    simp only [explicitMap]
    rw [if_neg, explicit_drop hnd.2 h]
    intro he
    exact hnd.1 (he ▸ List.mem_map.2 ⟨p, List.mem_of_mem_drop h, rfl⟩)

theorem fold_total {m : Map} {ds : List (Name × TArg)}
    (h : ∀ n, ∃ o, joins (m n) (pick n ds) = some o) : ∃ m', fold m ds = .ok m' := by
  obtain ⟨m', hm'⟩ := Classical.axiomOfChoice h
  exact ⟨m', fold_ok.2 hm'⟩

/-- Deductions that agree are accepted. -/
theorem solve {f : Template} {ex : List TArg} {ds : List (Name × TArg)} (hw : WF f)
    (hn : Named f (explicitMap f.tps ex) ds)
    (hty : ∀ n, Agree (tysOf n ds))
    (hnum : ∀ n b k b' k', (n, TArg.num b k) ∈ ds → (n, TArg.num b' k') ∈ ds → k = k')
    (hex : ∀ n b k, (n, TArg.num b k) ∈ ds → ∀ a, explicitMap f.tps ex n = some a → a = .num b k)
    (hall : ∀ p ∈ f.tps.drop ex.length, ∃ d, (p.name, d) ∈ ds) :
    ∃ m' targs, fold (explicitMap f.tps ex) ds = .ok m' ∧ complete m' f.tps ex = some targs := by
  have tyCase : ∀ n t, (n, TArg.ty t) ∈ ds → ∃ r,
      joins (explicitMap f.tps ex n) (pick n ds) = some (some (.ty r)) := by
    intro n t ht
    have h0 := hn.ty n t ht
    have hno : ∀ b k, (n, TArg.num b k) ∉ ds := by
      intro b k hb
      obtain ⟨⟨b', hb'⟩, _⟩ := hn.num n b k hb
      have := nodup_value hw.nodup h0.1 hb'
      cases this
    rw [h0.2.1, pick_tys hno]
    have hm : t ∈ tysOf n ds := mem_tysOf.2 ht
    have hpl : ∀ x ∈ tysOf n ds, Plain x := fun x hx => (hn.ty n x (mem_tysOf.1 hx)).2.2
    obtain ⟨r, hr⟩ := accept_agree (List.ne_nil_of_mem hm) hpl (hty n)
    cases hl : tysOf n ds with
    | nil => rw [hl] at hm; cases hm
    | cons x l =>
      rw [hl] at hpl hr
      obtain ⟨r', hr'⟩ := (joinTys_iff hpl).2 ⟨r, hr⟩
      refine ⟨r', ?_⟩
      simp only [List.map_cons, joins, join, Option.map_none]
      rw [joins_ty, hr']
      rfl
  have numCase : ∀ n b k, (n, TArg.num b k) ∈ ds →
      joins (explicitMap f.tps ex n) (pick n ds) = some (some (.num b k)) := by
    intro n b k hb
    have h0 := hn.num n b k hb
    have hall : ∀ d ∈ pick n ds, d = .num b k := by
      intro d hd
      rw [mem_pick] at hd
      cases d with
      | ty t =>
        obtain ⟨⟨b', hb'⟩, _⟩ := h0
        have := nodup_value hw.nodup (hn.ty n t hd).1 hb'
        cases this
      | num b' k' =>
        rw [hnum n b k b' k' hb hd, h0.2.1, (hn.num n b' k' hd).2.1]
    cases he : explicitMap f.tps ex n with
    | some a =>
      rw [hex n b k hb a he]
      exact joins_same hall
    | none =>
      cases hl : pick n ds with
      | nil =>
        have := mem_pick.2 hb
        rw [hl] at this
        cases this
      | cons d l =>
        rw [hl] at hall
        rw [hall d (by simp)]
        simp only [joins, join]
        exact joins_same fun d hd => hall d (by simp [hd])
  have htot : ∀ n, ∃ o, joins (explicitMap f.tps ex n) (pick n ds) = some o := by
    intro n
    cases hl : pick n ds with
    | nil => exact ⟨_, rfl⟩
    | cons d l =>
      have hd : (n, d) ∈ ds := by rw [← mem_pick, hl]; simp
      rw [← hl]
      cases d with
      | ty t =>
        obtain ⟨r, hr⟩ := tyCase n t hd
        exact ⟨_, hr⟩
      | num b k => exact ⟨_, numCase n b k hd⟩
  obtain ⟨m', hm'⟩ := fold_total htot
  have hj := fold_ok.1 hm'
  obtain ⟨targs, ht⟩ := complete_exists (m := m') (tps := f.tps) (ex := ex) (by
    intro p hp
    obtain ⟨d, hd⟩ := hall p hp
    have hpm := List.mem_of_mem_drop hp
    constructor
    · intro hv
      cases d with
      | ty t =>
        obtain ⟨r, hr⟩ := tyCase p.name t hd
        rw [hj] at hr
        exact ⟨_, Option.some.inj hr⟩
      | num b k =>
        have := numCase p.name b k hd
        rw [hj] at this
        exact ⟨_, Option.some.inj this⟩
    · intro b hv
      cases d with
      | ty t =>
        have := nodup_value hw.nodup (hn.ty _ t hd).1 (show (⟨p.name, p.value⟩ : TParam) ∈ f.tps from hpm)
        rw [hv] at this
        cases this
      | num b k =>
        have := numCase p.name b k hd
        rw [hj] at this
        exact ⟨_, _, Option.some.inj this⟩)
  exact ⟨m', targs, hm', ht⟩

theorem candidate_of {f : Template} {ex targs : List TArg} {args : List Ty}
    {ds : List (Name × TArg)} {m' : Map} (hlen : args.length = f.ps.length)
    (hlt : ex.length < f.tps.length)
    (ha : ArgsOk (f.ps.map fun p => p.1.resolve (explicitMap f.tps ex)) args)
    (hT : Tells (f.ps.map fun p => p.1.resolve (explicitMap f.tps ex)) args ds)
    (hf : fold (explicitMap f.tps ex) ds = .ok m') (hc : complete m' f.tps ex = some targs) :
    candidate f ex args = .ok targs := by
  simp only [candidate]
  rw [if_neg (by omega), if_neg (by omega), if_neg (by omega), if_neg (by omega),
    (deduceAll_ok ha).2 ⟨ds, hT, hf⟩]
  simp only [hc]

/-! ## The order of the parameters -/

theorem zip_mem {α β : Type} {l : List α} {l' : List β} {x : α} {y : β} :
    (x, y) ∈ l.zip l' ↔ ∃ i : Nat, l[i]? = some x ∧ l'[i]? = some y := by
  rw [List.mem_iff_getElem?]
  simp only [List.getElem?_zip_eq_some]

/-- What two lists of deductions have in common after a permutation. -/
theorem tells_perm {m : Map} {ps qs : List (Par × Bool)} {as bs : List Ty}
    {ds es : List (Name × TArg)} (h : ∀ x ∈ ps.zip as, x ∈ qs.zip bs)
    (hb : ArgsOk (qs.map fun p => p.1.resolve m) bs)
    (hd : Tells (ps.map fun p => p.1.resolve m) as ds)
    (he : Tells (qs.map fun p => p.1.resolve m) bs es) : ∀ d ∈ ds, d ∈ es := by
  intro d hdd
  obtain ⟨i, p, a, e, h1, h2, h3, hY, hde⟩ := tells_mem hd d hdd
  simp only [List.getElem?_map, Option.map_eq_some_iff] at h1
  obtain ⟨q, hq, rfl⟩ := h1
  obtain ⟨j, hj1, hj2⟩ := zip_mem.1 (h _ (zip_mem.2 ⟨i, hq, h2⟩))
  have hj1' : (qs.map fun p => p.1.resolve m)[j]? = some (q.1.resolve m) := by simp [hj1]
  obtain ⟨e', hY', he'⟩ := tells_at he hj1' hj2 h3
  have := yields_unique (hb j _ a hj1' hj2).1 hY hY'
  exact he' d (this ▸ hde)

/-- **C75**: the order of the parameters does not matter.  When the call of one
template succeeds, so does the call of the template with the parameters, and
the arguments, in another order, and the template arguments are the same. -/
theorem order_partial {f g : Template} {ex targs : List TArg} {args args' : List Ty} (hw : WF f)
    (htps : g.tps = f.tps) (hk : KindsOk f.tps ex)
    (ha : ArgsOk (f.ps.map fun p => p.1.resolve (explicitMap f.tps ex)) args)
    (hlen : args.length = f.ps.length) (hlen' : args'.length = g.ps.length)
    (hperm : (f.ps.zip args).Perm (g.ps.zip args'))
    (hlt : ex.length < f.tps.length) (h : candidate f ex args = .ok targs)
    (hreg : ∀ ds, Tells (f.ps.map fun p => p.1.resolve (explicitMap f.tps ex)) args ds → Regular ds) :
    ∃ targs', candidate g ex args' = .ok targs' ∧ ∀ p ∈ f.tps, ∃ x y,
      explicitMap f.tps targs p.name = some x ∧ explicitMap f.tps targs' p.name = some y ∧
      ArgEq x y := by
  obtain ⟨ds, hT, hn, hr⟩ := candidate_result hw hk ha hlt h
  have hps : ∀ p ∈ g.ps, p ∈ f.ps := by
    have h1 : (f.ps.zip args).map Prod.fst = f.ps := List.map_fst_zip (by omega)
    have h2 : (g.ps.zip args').map Prod.fst = g.ps := List.map_fst_zip (by omega)
    intro p hp
    rw [← h2] at hp
    rw [← h1]
    exact (hperm.map Prod.fst).mem_iff.2 hp
  have hwg : WF g := by
    refine ⟨by rw [htps]; exact hw.nodup, ?_, ?_⟩
    · intro p hp
      rw [htps]
      exact hw.tys p (hps p hp)
    · intro p hp
      rw [htps]
      exact hw.vals p (hps p hp)
  have hag : ArgsOk (g.ps.map fun p => p.1.resolve (explicitMap g.tps ex)) args' := by
    intro i p a h1 h2
    simp only [List.getElem?_map, Option.map_eq_some_iff] at h1
    obtain ⟨q, hq, rfl⟩ := h1
    obtain ⟨j, hj1, hj2⟩ := zip_mem.1 (hperm.mem_iff.2 (zip_mem.2 ⟨i, hq, h2⟩))
    rw [htps]
    exact ha j _ a (by simp [hj1]) hj2
  obtain ⟨es, hE⟩ := tells_exists
    (ps := g.ps.map fun p => p.1.resolve (explicitMap g.tps ex)) (as := args') (by simp [hlen']) (by
      intro i p a h1 h2 hd
      simp only [List.getElem?_map, Option.map_eq_some_iff] at h1
      obtain ⟨q, hq, rfl⟩ := h1
      obtain ⟨j, hj1, hj2⟩ := zip_mem.1 (hperm.mem_iff.2 (zip_mem.2 ⟨i, hq, h2⟩))
      rw [htps] at hd ⊢
      obtain ⟨e, he, _⟩ := tells_at hT (by simp [hj1]) hj2 hd
      exact ⟨e, he⟩)
  have hng := named hwg hag hE
  have hsub : ∀ d, d ∈ ds ↔ d ∈ es := by
    intro d
    rw [htps] at hE hag
    exact ⟨tells_perm (fun x hx => hperm.mem_iff.1 hx) hag hT hE d,
      tells_perm (fun x hx => hperm.mem_iff.2 hx) ha hE hT d⟩
  have hpl : ∀ n, ∀ t ∈ tysOf n ds, Plain t := fun n t ht => (hn.ty n t (mem_tysOf.1 ht)).2.2
  have htm : ∀ n t, t ∈ tysOf n es ↔ t ∈ tysOf n ds := by
    intro n t
    rw [mem_tysOf, mem_tysOf, hsub]
  have hsame : ∀ n t, t ∈ tysOf n ds → ∃ r, explicitMap f.tps targs n = some (.ty r) ∧
      Plain r ∧ (∀ u ∈ tysOf n ds, Same r u) := by
    intro n t ht
    have h0 := hn.ty n t (mem_tysOf.1 ht)
    obtain ⟨r, hm, hacc⟩ := hr.ty n h0.1 h0.2.1
    exact ⟨r, hm, hpl n r hacc.mem, accept_regular (hpl n) hacc (regular_tys (hreg ds hT))⟩
  obtain ⟨m', targs', hf', hc'⟩ := solve (f := g) (ex := ex) (ds := es) hwg hng (by
      intro n t ht u hu
      rw [htm] at ht hu
      obtain ⟨r, _, _, hs⟩ := hsame n t ht
      exact same_trans (same_symm (hs t ht)) (hs u hu)) (by
      intro n b k b' k' hb hb'
      rw [← hsub] at hb hb'
      obtain ⟨⟨w, hw'⟩, _⟩ := hn.num n b k hb
      have h1 := (hr.num n w hw').2 _ hb
      rw [(hr.num n w hw').2 _ hb'] at h1
      cases h1
      rfl) (by
      intro n b k hb a he
      rw [← hsub] at hb
      rw [htps] at he
      obtain ⟨⟨w, hw'⟩, _⟩ := hn.num n b k hb
      have h1 := (hr.num n w hw').2 _ hb
      rw [hr.kept n a he] at h1
      exact Option.some.inj h1) (by
      intro p hp
      rw [htps] at hp
      have hpm := List.mem_of_mem_drop hp
      have hnone := explicit_drop hw.nodup hp
      cases hv : p.value with
      | none =>
        obtain ⟨t, _, hacc⟩ := hr.ty p.name (by rw [← hv]; exact hpm) hnone
        exact ⟨_, (hsub _).1 (mem_tysOf.1 hacc.mem)⟩
      | some b =>
        obtain ⟨d, hd⟩ := (hr.num p.name b (by rw [← hv]; exact hpm)).1 hnone
        exact ⟨d, (hsub _).1 hd⟩)
  have hcand := candidate_of hlen' (by rw [htps]; exact hlt) hag hE hf' hc'
  have hrg := result hwg (by rw [htps]; exact hk) hng hf' hc'
  refine ⟨targs', hcand, ?_⟩
  intro p hp
  cases he : explicitMap f.tps ex p.name with
  | some a =>
    refine ⟨a, a, hr.kept _ _ he, ?_, ?_⟩
    · have := hrg.kept p.name a (by rw [htps]; exact he)
      rwa [htps] at this
    · cases a with
      | ty t => exact .ty (Promote.equal_refl t)
      | num b k => exact .num
  | none =>
    cases hv : p.value with
    | none =>
      have hpm : (⟨p.name, none⟩ : TParam) ∈ f.tps := by rw [← hv]; exact hp
      obtain ⟨t, h1, hacc⟩ := hr.ty p.name hpm he
      obtain ⟨u, h2, hacc'⟩ := hrg.ty p.name (by rw [htps]; exact hpm) (by rw [htps]; exact he)
      rw [htps] at h2
      refine ⟨_, _, h1, h2, .ty ?_⟩
      have hum : u ∈ tysOf p.name ds := (htm _ _).1 hacc'.mem
      have hs : Same t u :=
        accept_regular (hpl _) hacc (regular_tys (hreg ds hT)) u hum
      have hv1 : t.isVarying = true ↔ u.isVarying = true := by
        rw [hacc.var, hacc'.var]
        exact exists_congr fun x => by rw [htm]
      have pt := hpl _ t hacc.mem
      have pu := hpl _ u hum
      refine equal_of_same pt pu ?_ hs
      have h3 := plain_not_uniform pt
      have h4 := plain_not_uniform pu
      cases h5 : t.isUniform <;> cases h6 : u.isUniform <;> simp_all
    | some b =>
      have hpm : (⟨p.name, some b⟩ : TParam) ∈ f.tps := by rw [← hv]; exact hp
      obtain ⟨d, hd⟩ := (hr.num p.name b hpm).1 he
      have h1 := (hr.num p.name b hpm).2 d hd
      have h2 := (hrg.num p.name b (by rw [htps]; exact hpm)).2 d ((hsub _).1 hd)
      rw [htps] at h2
      refine ⟨d, d, h1, h2, ?_⟩
      cases d with
      | ty t => exact .ty (Promote.equal_refl t)
      | num b k => exact .num

/-! ## Completeness -/

theorem equal_asNonConst : ∀ {a b : Ty}, Plain a → Plain b → equal a b = true →
    equal a.asNonConst b.asNonConst = true
  | .atomic .., b, _, _, h => by
    cases b <;> simp_all [equal, checkEq, checkEqBody, constOk_iff, Ty.asNonConst, Ty.isConst]
  | .enum .., b, _, _, h => by
    cases b <;> simp_all [equal, checkEq, checkEqBody, constOk_iff, Ty.asNonConst, Ty.isConst]
  | .struct .., b, _, _, h => by
    cases b <;> simp_all [equal, checkEq, checkEqBody, constOk_iff, Ty.asNonConst, Ty.isConst]
  | .ptr _ _ c _ _ _, b, ha, hb, h => by
    cases b with
    | ptr _ _ c' _ _ _ =>
      cases c <;> cases c' <;>
        simp_all [equal, checkEq, checkEqBody, constOk_iff, Ty.asNonConst, Ty.isConst]
    | _ => simp_all [equal, checkEq, checkEqBody]
  | .array a _, b, ha, hb, h => by
    cases b with
    | array b n =>
      rw [array_equal] at h
      simp only [Ty.asNonConst, array_equal]
      exact ⟨h.1, equal_asNonConst (a := a) (b := b) ha hb h.2⟩
    | _ => simp_all [equal, checkEq, checkEqBody]
  | .vec a _, b, ha, hb, h => by
    cases b with
    | vec b n =>
      rw [vec_equal] at h
      simp only [Ty.asNonConst, vec_equal]
      exact ⟨h.1, equal_asNonConst (a := a) (b := b) ha hb h.2⟩
    | _ => simp_all [equal, checkEq, checkEqBody]

theorem asNonConst_asUniform : ∀ {t : Ty}, Plain t →
    t.asNonConst.asUniform = t.asUniform.asNonConst
  | .atomic .., _ => rfl
  | .enum .., _ => rfl
  | .ptr _ _ c _ _ _, _ => by cases c <;> rfl
  | .struct .., _ => rfl
  | .array b _, h => by
    have h : Plain b := h
    rw [array_asUniform h]
    simp only [Ty.asNonConst]
    rw [array_asUniform (plain_asNonConst h), asNonConst_asUniform h]
  | .vec b _, h => by
    have h : Plain b := h
    rw [vec_asUniform h]
    simp only [Ty.asNonConst]
    rw [vec_asUniform (plain_asNonConst h), asNonConst_asUniform h]

theorem same_asNonConst {a b : Ty} (ha : Plain a) (hb : Plain b) (h : Same a b) :
    Same a.asNonConst b.asNonConst := by
  rw [Same, asNonConst_asUniform ha, asNonConst_asUniform hb]
  exact equal_asNonConst (plain_asUniform ha) (plain_asUniform hb) h

theorem equal_isConst : ∀ {a b : Ty}, equal a b = true → a.isConst = b.isConst := by
  intro a b h
  simp only [equal, checkEq, Bool.and_eq_true] at h
  exact constOk_iff.1 h.1

theorem same_isConst {a b : Ty} (ha : Plain a) (hb : Plain b) (h : Same a b) :
    a.isConst = b.isConst := by
  have := equal_isConst h
  rwa [isConst_asUniform ha, isConst_asUniform hb] at this

/-- The type `t` is what `T`, written with variability `v` and with or without
`const`, is when `T` is `s`. -/
structure Stands (s : Ty) (v : Var) (c : Bool) (t : Ty) : Prop where
  same : Same t (if c then s.asConst else s)
  const : c = true → s.isConst = false
  var : match v with
    | .uniform => t.isUniform = true
    | .varying => t.isVarying = true
    | _ => t.isUniform = s.isUniform

theorem stands_table {s : Ty} {v : Var} {c : Bool} {t : Ty} (hs : Plain s) (ht : Plain t)
    (h : Stands s v c t) : ∃ d, Table v c t d ∧ Same d s := by
  generalize ht' : (if c && t.isConst then t.asNonConst else t) = t'
  have key : Plain t' ∧ Same t' s ∧ t'.variability = t.variability := by
    rw [← ht']
    cases c with
    | false =>
      simp only [Bool.false_and, Bool.false_eq_true, if_false]
      exact ⟨ht, h.same, trivial⟩
    | true =>
      have h1 : Same t s.asConst := h.same
      have h2 : t.isConst = true := by
        rw [same_isConst ht (plain_asConst hs) h1, isConst_asConst hs]
      simp only [h2, Bool.true_and, if_true]
      refine ⟨plain_asNonConst ht, ?_, variability_asNonConst ht⟩
      have := same_asNonConst ht (plain_asConst hs) h1
      rwa [const_nonConst hs (h.const rfl)] at this
  obtain ⟨hp', hsame, hvar⟩ := key
  simp only [Table, ht']
  cases v with
  | uniform =>
    refine ⟨_, ⟨?_, rfl⟩, same_trans (same_asVarying hp') hsame⟩
    have := h.var
    simpa [Ty.isUniform, hvar] using this
  | varying => exact ⟨_, rfl, same_trans (same_asUniform hp') hsame⟩
  | soa w => exact ⟨_, rfl, hsame⟩
  | unbound => exact ⟨_, rfl, hsame⟩

theorem resolve_none : ∀ {p : Par}, p.resolve (fun _ => none) = p
  | .con _ => rfl
  | .parm .. => rfl
  | .ptr b _ _ => by rw [Par.resolve, resolve_none (p := b)]
  | .ref b => by rw [Par.resolve, resolve_none (p := b)]
  | .vec b n => by
    have : Count.resolve (fun _ => none) n = n := by cases n <;> rfl
    rw [Par.resolve, resolve_none (p := b), this]
  | .array b n => by
    have : Count.resolve (fun _ => none) n = n := by cases n <;> rfl
    rw [Par.resolve, resolve_none (p := b), this]

theorem explicit_nil (tps : List TParam) : explicitMap tps [] = fun _ => none := by
  cases tps <;> rfl

/-- With `σ` for the type parameters and `κ` for the values, the parameter has
exactly the type of the argument. -/
inductive Exact (σ : Name → Ty) (κ : Name → Nat) (p : Par) (a : Ty) : Prop
  | chain {p' : Par} {a' t : Ty} {n : Name} {v : Var} {c : Bool} : Passed p a p' a' →
      Faces p' a' n v c t → Stands (σ n) v c t → Exact σ κ p a
  | vec {t : Ty} {n x : Name} {v : Var} {c : Bool} :
      Passed p a (.vec (.parm n v c) (.sym x)) (.vec t (κ x)) → Stands (σ n) v c t → Exact σ κ p a

theorem yields_exact {σ : Name → Ty} {κ : Name → Nat} {p : Par} {a : Ty}
    (hσ : ∀ n, Plain (σ n)) (hpl : ∀ n v c t, Facing p a n v c t → Plain t)
    (hx : ∀ x ∈ p.valNames, x.length ≤ 15) (h : Exact σ κ p a) :
    ∃ e, Yields p a e ∧ (∀ n t, (n, TArg.ty t) ∈ e → Same t (σ n)) ∧
      (∀ n b k, (n, TArg.num b k) ∈ e → k = κ n) ∧
      (∀ n ∈ p.tyNames, ∃ t, (n, TArg.ty t) ∈ e) ∧
      (∀ n ∈ p.valNames, ∃ b k, (n, TArg.num b k) ∈ e) := by
  cases h with
  | @chain p' a' t n v c hp hf hs =>
    obtain ⟨d, hT, hd⟩ := stands_table (hσ n) (hpl n v c t (.chain hp hf)) hs
    refine ⟨_, .chain hp hf hT, ?_, by simp, ?_⟩
    · intro k t hk
      simp at hk
      obtain ⟨rfl, rfl⟩ := hk
      exact hd
    · have hfn := (faces_resolve (m := fun _ => none) (p := p') (by rw [resolve_none]; exact hf)).2
      have hpn : p.tyNames = p'.tyNames ∧ p.valNames = p'.valNames := by
        cases hp <;> exact ⟨rfl, rfl⟩
      rw [hpn.1, hpn.2, hfn.1, hfn.2.1]
      simp
  | @vec t n x v c hp hs =>
    obtain ⟨d, hT, hd⟩ := stands_table (hσ n) (hpl n v c t (.vec hp)) hs
    have hpn : p.tyNames = [n] ∧ p.valNames = [x] := by
      cases hp <;> exact ⟨rfl, rfl⟩
    have hx15 : x.take 15 = x := List.take_of_length_le (hx x (by simp [hpn.2]))
    refine ⟨_, .vec hp hT, ?_, ?_, ?_, ?_⟩
    · intro k t hk
      simp at hk
      obtain ⟨rfl, rfl⟩ := hk
      exact hd
    · intro k b j hk
      simp [hx15] at hk
      obtain ⟨rfl, rfl, rfl⟩ := hk
      rfl
    · rw [hpn.1]; simp
    · rw [hpn.2]; simp [hx15]

/-- **C75**: when some choice of types and values makes every dependent
parameter exactly the type of its argument, the call needs no explicit template
arguments: the deduction succeeds, and finds these types, up to variability,
and these values.  Missing: the variability (`mixed_wrong`). -/
theorem complete_partial {f : Template} {args : List Ty} {σ : Name → Ty} {κ : Name → Nat}
    (hw : WF f) (htps : f.tps ≠ []) (ha : ArgsOk (f.ps.map (·.1)) args)
    (hlen : args.length = f.ps.length) (hσ : ∀ n, Plain (σ n))
    (hex : ∀ (i : Nat) (p : Par × Bool) (a : Ty), f.ps[i]? = some p → args[i]? = some a →
      p.1.dep = true → Exact σ κ p.1 a)
    (hall : ∀ n v, (⟨n, v⟩ : TParam) ∈ f.tps → ∃ p ∈ f.ps, p.1.dep = true ∧
      match v with
      | none => n ∈ p.1.tyNames
      | some _ => n ∈ p.1.valNames) :
    ∃ targs, candidate f [] args = .ok targs ∧ ∀ n v, (⟨n, v⟩ : TParam) ∈ f.tps →
      match v with
      | none => ∃ t, explicitMap f.tps targs n = some (.ty t) ∧ Same t (σ n)
      | some _ => explicitMap f.tps targs n = some (.num .int32 (κ n)) := by
  have hmap : (f.ps.map fun p => p.1.resolve (explicitMap f.tps [])) = f.ps.map (·.1) := by
    rw [explicit_nil]
    simp only [resolve_none]
  have hal := ha
  rw [← hmap] at hal
  have key : ∀ (i : Nat) (p : Par × Bool) (a : Ty), f.ps[i]? = some p → args[i]? = some a →
      p.1.dep = true → ∃ e, Yields p.1 a e ∧ (∀ n t, (n, TArg.ty t) ∈ e → Same t (σ n)) ∧
      (∀ n b k, (n, TArg.num b k) ∈ e → k = κ n) ∧
      (∀ n ∈ p.1.tyNames, ∃ t, (n, TArg.ty t) ∈ e) ∧
      (∀ n ∈ p.1.valNames, ∃ b k, (n, TArg.num b k) ∈ e) := by
    intro i p a hp hai hd
    refine yields_exact hσ (ha i p.1 a (by simp [hp]) hai).2.1 ?_ (hex i p a hp hai hd)
    exact fun x hx => (hw.vals p (List.mem_of_getElem? hp) x hx).2
  obtain ⟨ds, hT⟩ := tells_exists (ps := f.ps.map (·.1)) (as := args) (by simp [hlen]) (by
    intro i p a h1 h2 hd
    simp only [List.getElem?_map, Option.map_eq_some_iff] at h1
    obtain ⟨q, hq, rfl⟩ := h1
    obtain ⟨e, he, _⟩ := key i q a hq h2 hd
    exact ⟨e, he⟩)
  have hT' := hT
  rw [← hmap] at hT'
  have hn := named hw hal hT'
  have hmem : ∀ d ∈ ds, (∀ n t, d = (n, TArg.ty t) → Same t (σ n)) ∧
      (∀ n b k, d = (n, TArg.num b k) → k = κ n) := by
    intro d hd
    obtain ⟨i, p, a, e, h1, h2, h3, hY, hde⟩ := tells_mem hT d hd
    have hpl := (ha i p a h1 h2).1
    simp only [List.getElem?_map, Option.map_eq_some_iff] at h1
    obtain ⟨q, hq, rfl⟩ := h1
    obtain ⟨e', hY', k1, k2, _⟩ := key i q a hq h2 h3
    have := yields_unique hpl hY hY'
    subst this
    constructor
    · rintro n t rfl
      exact k1 n t hde
    · rintro n b k rfl
      exact k2 n b k hde
  have hfull : ∀ n v, (⟨n, v⟩ : TParam) ∈ f.tps → ∃ d, (n, d) ∈ ds := by
    intro n v hv
    obtain ⟨p, hp, hd, hname⟩ := hall n v hv
    obtain ⟨i, hi⟩ := List.mem_iff_getElem?.1 hp
    have hlt : i < args.length := by
      rw [hlen]
      exact (List.getElem?_eq_some_iff.1 hi).1
    obtain ⟨a, hai⟩ : ∃ a, args[i]? = some a := ⟨_, List.getElem?_eq_getElem hlt⟩
    obtain ⟨e, hY, he⟩ := tells_at hT (by simp [hi]) hai hd
    obtain ⟨e', hY', _, _, k3, k4⟩ := key i p a hi hai hd
    have := yields_unique (ha i p.1 a (by simp [hi]) hai).1 hY hY'
    subst this
    cases v with
    | none =>
      obtain ⟨t, ht⟩ := k3 n hname
      exact ⟨_, he _ ht⟩
    | some b =>
      obtain ⟨b, k, ht⟩ := k4 n hname
      exact ⟨_, he _ ht⟩
  obtain ⟨m', targs, hf, hc⟩ := solve (f := f) (ex := []) (ds := ds) hw hn (by
      intro n t ht u hu
      rw [mem_tysOf] at ht hu
      exact same_trans ((hmem _ ht).1 n t rfl) (same_symm ((hmem _ hu).1 n u rfl))) (by
      intro n b k b' k' hb hb'
      rw [(hmem _ hb).2 n b k rfl, (hmem _ hb').2 n b' k' rfl]) (by
      intro n b k hb a he
      rw [explicit_nil] at he
      cases he) (by
      intro p hp
      exact hfull p.name p.value (List.mem_of_mem_drop hp))
  have hlt : ([] : List TArg).length < f.tps.length := by
    simpa using List.length_pos_of_ne_nil htps
  have hr := result hw (by cases f.tps <;> trivial) hn hf hc
  refine ⟨targs, candidate_of hlen hlt hal hT' hf hc, ?_⟩
  intro n v hv
  cases v with
  | none =>
    obtain ⟨t, h1, h2⟩ := hr.ty n hv (by rw [explicit_nil])
    exact ⟨t, h1, (hmem _ (mem_tysOf.1 h2.mem)).1 n t rfl⟩
  | some b =>
    obtain ⟨d, hd⟩ := (hr.num n b hv).1 (by rw [explicit_nil])
    rw [show explicitMap f.tps targs n = some d from (hr.num n b hv).2 d hd]
    cases d with
    | ty t =>
      have := nodup_value hw.nodup hv (hn.ty n t hd).1
      cases this
    | num b' k =>
      rw [(hn.num n b' k hd).2.1, (hmem _ hd).2 n b' k rfl]

/-! ## A template that meets the hypotheses -/

namespace Ex

def T : Name := ['T']
def N : Name := ['N']
def int (v : Var) : Ty := .atomic .int32 v false
def float (v : Var) : Ty := .atomic .float v false

/-- `template <typename T, int N> void f(T a, const T<N> &v)`. -/
def f : Template :=
  ⟨[⟨T, none⟩, ⟨N, some .int32⟩],
    [(.parm T .unbound false, false), (.ref (.vec (.parm T .unbound true) (.sym N)), false)]⟩

/-- A uniform variable and a constant short vector. -/
def args : List Ty := [mkRef (float .uniform) 0, .vec (.atomic .float .varying true) 4]

theorem wf : WF f := by
  refine ⟨by decide, by decide, ?_⟩
  intro p hp
  simp only [f, List.mem_cons, List.not_mem_nil, or_false] at hp
  rcases hp with rfl | rfl
  · simp [Par.valNames]
  · intro n hn
    simp only [Par.valNames, List.nil_append, List.mem_singleton] at hn
    subst hn
    exact ⟨⟨.int32, by decide⟩, by decide⟩

theorem argsOk : ArgsOk (f.ps.map (·.1)) args := by
  intro i p a hp ha
  match i with
  | 0 =>
    cases hp; cases ha
    refine ⟨.inl rfl, ?_, ?_⟩
    · intro n v c t h
      cases h with
      | chain hp hf =>
        cases hp with
        | parm hv =>
          have hv := (value_iff (by exact Or.inl rfl)).1 hv
          cases hf
          subst hv
          exact .inl rfl
      | vec hp => cases hp
    · intro q x t k h
      cases h
  | 1 =>
    cases hp; cases ha
    refine ⟨.inr rfl, ?_, ?_⟩
    · intro n v c t h
      cases h with
      | chain hp hf => cases hp; cases hf
      | vec hp => cases hp; exact .inr rfl
    · intro q x t k h
      cases h; decide
  | i + 2 => simp [f] at hp

theorem mapEq : (f.ps.map fun p => p.1.resolve (explicitMap f.tps [])) = f.ps.map (·.1) := rfl

theorem regular : ∀ ds, Tells (f.ps.map (·.1)) args ds → Regular ds := by
  intro ds h
  have h0 : Yields (.parm T .unbound false) (mkRef (float .uniform) 0) [(T, .ty (float .uniform))] :=
    .chain (.parm (.ref (.other (by simp [float]) (by simp [float])))) .here rfl
  have h1 : Yields (.ref (.vec (.parm T .unbound true) (.sym N)))
      (.vec (.atomic .float .varying true) 4)
      [(T, .ty (float .varying)), (N, .num .int32 4)] :=
    .vec (.toRef (by simp)) rfl
  cases h with
  | skip hd _ => exact absurd hd (by decide)
  | cons _ hY h =>
    rw [yields_unique (by exact Or.inl rfl) hY h0]
    cases h with
    | skip hd _ => exact absurd hd (by decide)
    | cons _ hY h =>
      rw [yields_unique (by exact Or.inr rfl) hY h1]
      cases h with
      | nil =>
        simp only [Regular, List.append_nil, List.cons_append, List.nil_append,
          List.pairwise_cons, List.mem_cons, List.not_mem_nil, or_false]
        refine ⟨?_, ?_, by simp, .nil⟩
        · rintro x hx n t u h1 h2 hv
          cases h1
          cases hv
        · rintro x rfl n t u h1 h2
          cases h2

theorem ok : candidate f [] args = .ok [.ty (float .varying), .num .int32 4] := by decide +kernel

example : ∃ s, (signature f [.ty (float .varying), .num .int32 4])[1]? = some (some s) ∧
    ArgFits (.vec (.atomic .float .varying true) 4) s :=
  sound_partial (ex := []) wf trivial argsOk (by decide) ok regular 1 _ _ rfl rfl (by decide)

example : ∃ targs', candidate ⟨f.tps, f.ps.reverse⟩ [] args.reverse = .ok targs' ∧
    ∀ p ∈ f.tps, ∃ x y, explicitMap f.tps [.ty (float .varying), .num .int32 4] p.name = some x ∧
      explicitMap f.tps targs' p.name = some y ∧ ArgEq x y :=
  order_partial (g := ⟨f.tps, f.ps.reverse⟩) wf rfl trivial argsOk rfl rfl
    (List.Perm.swap _ _ _) (by decide) ok regular

/-- Both parameters are of the arguments' types when `T` is `varying float`. -/
example : ∃ targs, candidate f [] [float .varying, .vec (.atomic .float .varying true) 4] =
    .ok targs ∧ ∀ n v, (⟨n, v⟩ : TParam) ∈ f.tps →
      match v with
      | none => ∃ t, explicitMap f.tps targs n = some (.ty t) ∧ Same t (float .varying)
      | some _ => explicitMap f.tps targs n = some (.num .int32 4) := by
  refine complete_partial (f := f) (σ := fun _ => float .varying) (κ := fun _ => 4) wf (by decide) ?_
    rfl (fun _ => .inr rfl) ?_ ?_
  · intro i p a hp ha
    match i with
    | 0 =>
      cases hp; cases ha
      refine ⟨.inr rfl, ?_, ?_⟩
      · intro n v c t h
        cases h with
        | chain hp hf =>
          cases hp with
          | parm hv =>
            have hv := (value_iff (by exact Or.inr rfl)).1 hv
            cases hf
            subst hv
            exact .inr rfl
        | vec hp => cases hp
      · intro q x t k h
        cases h
    | 1 => exact argsOk 1 p a hp ha
    | i + 2 => simp [f] at hp
  · intro i p a hp ha _
    match i with
    | 0 =>
      cases hp; cases ha
      exact .chain (.parm (.other (by simp [float]) (by simp [float]))) .here
        ⟨same_refl _, by simp, rfl⟩
    | 1 =>
      cases hp; cases ha
      exact .vec (n := T) (x := N) (.toRef (by simp)) ⟨same_refl _, fun _ => rfl, rfl⟩
    | i + 2 => simp [f] at hp
  · intro n v h
    simp only [f, List.mem_cons, TParam.mk.injEq, List.not_mem_nil, or_false] at h
    rcases h with ⟨rfl, rfl⟩ | ⟨rfl, rfl⟩
    · exact ⟨(.parm T .unbound false, false), by decide, by decide, by decide⟩
    · exact ⟨(.ref (.vec (.parm T .unbound true) (.sym N)), false), by decide, by decide, by decide⟩

/-- What a parameter is told does not conflict: two uniform types that differ
are refused. -/
example : candidate ⟨[⟨T, none⟩], [(.parm T .unbound false, false), (.parm T .unbound false, false)]⟩
    [] [int .uniform, float .uniform] = .fail := by decide +kernel

end Ex

/-- `template <typename T> void foo(v T t)`. -/
def Ex.one (v : Var) : Template := ⟨[⟨Ex.T, none⟩], [(.parm Ex.T v false, false)]⟩

theorem one_candidate {v : Var} {t : Ty} (ht : Plain t) (hna : ∀ e n, t ≠ .array e n) :
    candidate (Ex.one v) [] [t] = match fromTable v t.asNonConst with
      | .ok d => .ok [.ty d]
      | .fail => .fail
      | .null => .null
      | .outside => .outside := by
  have hv : valueOf t = t.asNonConst := by
    have : t.refTarget = t := by cases t <;> first | rfl | exact absurd ht (by simp [Plain])
    simp only [valueOf, this]
  have h1 : deduceOne (explicitMap [⟨Ex.T, none⟩] []) (.parm Ex.T v false) t =
      match fromTable v t.asNonConst with
      | .ok d => compat (fun _ => none) Ex.T (.ty d)
      | .fail => .fail
      | .null => .null
      | .outside => .outside := by
    simp only [deduceOne, adjust, Par.nonConst, hv, deduceParam, Bool.false_and,
      Bool.false_eq_true, if_false, explicit_nil]
    cases fromTable v t.asNonConst <;> rfl
  simp only [candidate, Ex.one, List.length_cons, List.length_nil, Nat.lt_irrefl, if_false,
    false_and, List.map_cons, List.map_nil, deduceAll, explicit_nil, resolve_none, Par.dep,
    Par.typeDep, Bool.true_or, if_true]
  rw [explicit_nil] at h1
  rw [h1]
  cases fromTable v t.asNonConst <;> simp [compat, Map.ty, complete, Map.set, TArg.asTy]

/-- **C75**: the table of the documentation, for every type that can be passed:
`T` is the argument's type for `foo1(T t)`; for `foo2(uniform T t)` it is the
varying version of a uniform argument's type, and a varying argument is
refused; for `foo3(varying T t)` it is the uniform version. -/
theorem table {t : Ty} (ht : Plain t) (hna : ∀ e n, t ≠ .array e n) :
    candidate (Ex.one .unbound) [] [t] = .ok [.ty t.asNonConst] ∧
    (t.isUniform = true → candidate (Ex.one .uniform) [] [t] = .ok [.ty t.asNonConst.asVarying]) ∧
    (t.isVarying = true → candidate (Ex.one .uniform) [] [t] = .fail) ∧
    candidate (Ex.one .varying) [] [t] = .ok [.ty t.asNonConst.asUniform] := by
  have hp := plain_asNonConst ht
  have hvar := variability_asNonConst ht
  refine ⟨?_, ?_, ?_, ?_⟩
  · rw [one_candidate ht hna, (fromTable_ok (v := .unbound) hp).2 rfl]
  · intro hu
    rw [one_candidate ht hna, (fromTable_ok (v := .uniform) hp).2 ⟨?_, rfl⟩]
    simpa [Ty.isUniform, hvar] using hu
  · intro hv
    have : t.asNonConst.isVarying = true := by simpa [Ty.isVarying, hvar] using hv
    rw [one_candidate ht hna]
    simp [fromTable, this]
  · rw [one_candidate ht hna, (fromTable_ok (v := .varying) hp).2 rfl]

example : candidate (Ex.one .uniform) [] [.atomic .int32 .uniform true] =
    .ok [.ty (Ex.int .varying)] :=
  (table (t := .atomic .int32 .uniform true) (.inl rfl) (by simp)).2.1 rfl

/-- **C75**: explicit template arguments are the instance's arguments, and the
deduction only adds to them. -/
theorem explicit_kept {f : Template} {ex targs : List TArg} {args : List Ty}
    (h : candidate f ex args = .ok targs) : ex <+: targs ∧ targs.length = f.tps.length := by
  have hc : ∀ {m : Map} {tps : List TParam} {ex targs : List TArg}, ex.length ≤ tps.length →
      complete m tps ex = some targs → ex <+: targs ∧ targs.length = tps.length := by
    intro m tps
    induction tps with
    | nil =>
      intro ex targs hl h
      cases ex with
      | nil => cases h; exact ⟨List.prefix_refl _, rfl⟩
      | cons a as => simp at hl
    | cons p ps ih =>
      intro ex targs hl h
      cases ex with
      | cons a as =>
        simp only [complete, Option.map_eq_some_iff] at h
        obtain ⟨l, hl', rfl⟩ := h
        obtain ⟨h1, h2⟩ := ih (by simpa using hl) hl'
        exact ⟨by simpa using h1, by simpa using h2⟩
      | nil =>
        refine ⟨List.nil_prefix, ?_⟩
        simp only [complete] at h
        split at h
        · simp only [Option.map_eq_some_iff] at h
          obtain ⟨l, hl', rfl⟩ := h
          simpa using (ih (by simp) hl').2
        · simp only [Option.map_eq_some_iff] at h
          obtain ⟨l, hl', rfl⟩ := h
          simpa using (ih (by simp) hl').2
        · cases h
  simp only [candidate] at h
  split at h
  · cases h
  split at h
  · cases h
  split at h
  · rename_i hlen
    split at h
    · cases h
      exact ⟨List.prefix_refl _, hlen⟩
    · cases h
  split at h
  · cases h
  · rename_i hnlt
    split at h
    · split at h
      · rename_i l hl
        cases h
        exact hc (by omega) hl
      · cases h
    · cases h
    · cases h
    · cases h

example : candidate Ex.f [.ty (Ex.float .uniform)] Ex.args = .fail ∧
    candidate ⟨[⟨Ex.T, none⟩, ⟨Ex.N, none⟩], [(.parm Ex.N .unbound false, false)]⟩
      [.ty (Ex.float .uniform)] [Ex.int .varying] =
      .ok [.ty (Ex.float .uniform), .ty (Ex.int .varying)] := by decide +kernel

/-- The type of a template argument: the argument itself, or the type of the constant. -/
def TArg.itsType : TArg → Ty
  | .ty t => t
  | .num b _ => .atomic b .uniform true

/-- **C75**: if all template arguments are given, nothing is deduced; the candidate is used exactly if the number of arguments fits and each argument
for a value parameter can be converted to the parameter's type. -/
theorem explicit_all {f : Template} {ex targs : List TArg} {args : List Ty} (hlen : ex.length = f.tps.length) :
    candidate f ex args = .ok targs ↔
      targs = ex ∧ args.length ≤ f.ps.length ∧
        (args.length < f.ps.length → ∃ p, f.ps[args.length]? = some p ∧ p.2 = true) ∧
        ∀ (i : Nat) (p : TParam) (a : TArg) (b : Basic), f.tps[i]? = some p → ex[i]? = some a → p.value = some b →
          Overload.canConvert a.itsType (.atomic b .uniform true) = true := by
  have hv : ∀ {tps : List TParam} {ex : List TArg}, valuesOk tps ex = true ↔
      ∀ (i : Nat) (p : TParam) (a : TArg) (b : Basic), tps[i]? = some p → ex[i]? = some a → p.value = some b →
        Overload.canConvert a.itsType (.atomic b .uniform true) = true := by
    intro tps
    induction tps with
    | nil => intro ex; simp [valuesOk]
    | cons q qs ih =>
      intro ex
      cases ex with
      | nil => simp [valuesOk]
      | cons c cs =>
        rw [show valuesOk (q :: qs) (c :: cs) = ((match q.value, c with
          | some b, .num b' _ => Overload.canConvert (.atomic b' .uniform true) (.atomic b .uniform true)
          | some b, .ty t => Overload.canConvert t (.atomic b .uniform true)
          | none, _ => true) && valuesOk qs cs) from rfl, Bool.and_eq_true, ih]
        constructor
        · rintro ⟨h1, h2⟩ i p a b hp ha hb
          cases i with
          | zero =>
            simp only [List.getElem?_cons_zero, Option.some.injEq] at hp ha
            subst hp ha
            rw [hb] at h1
            cases c <;> exact h1
          | succ i => exact h2 i p a b (by simpa using hp) (by simpa using ha) hb
        · intro h
          refine ⟨?_, fun i p a b hp ha hb => h (i + 1) p a b (by simpa using hp) (by simpa using ha) hb⟩
          cases hq : q.value with
          | none => rfl
          | some b =>
            have := h 0 q c b rfl rfl hq
            cases c <;> exact this
  unfold candidate
  by_cases h1 : f.ps.length < args.length
  · rw [if_pos h1]
    constructor
    · intro h; cases h
    · rintro ⟨_, h, _⟩; omega
  rw [if_neg h1]
  by_cases h2 : args.length < f.ps.length ∧ ((f.ps[args.length]?).map (·.2)) ≠ some true
  · rw [if_pos h2]
    constructor
    · intro h; cases h
    · rintro ⟨_, _, h, _⟩
      obtain ⟨p, hp, hp2⟩ := h h2.1
      exact absurd (by rw [hp, Option.map_some, hp2]) h2.2
  rw [if_neg h2, if_pos hlen]
  have h3 : args.length < f.ps.length → ∃ p, f.ps[args.length]? = some p ∧ p.2 = true := by
    intro hl
    have : ((f.ps[args.length]?).map (·.2)) = some true := by
      by_cases hh : ((f.ps[args.length]?).map (·.2)) = some true
      · exact hh
      · exact absurd ⟨hl, hh⟩ h2
    rw [Option.map_eq_some_iff] at this
    exact this
  by_cases h4 : valuesOk f.tps ex = true
  · rw [if_pos h4]
    constructor
    · intro h; cases h; exact ⟨rfl, by omega, h3, hv.1 h4⟩
    · rintro ⟨rfl, _⟩; rfl
  · rw [if_neg h4]
    constructor
    · intro h; cases h
    · rintro ⟨_, _, _, h⟩; exact absurd (hv.2 h) h4

example : candidate ⟨[⟨Ex.N, some .int32⟩], [(.parm Ex.T .unbound false, true)]⟩ [.num .uint32 4] [] = .ok [.num .uint32 4] ∧
    candidate ⟨[⟨Ex.N, some .int32⟩], []⟩ [.ty (.ptr (Ex.float .uniform) .uniform false false false 0)] [] = .fail := by decide +kernel

/-! ## What fails -/

/-- `template <typename T> f(T a, T b)`: with a `varying int` and then a
`uniform float` the deduction succeeds with `T = varying int`, though the
second argument is no `int`; with the arguments in the other order it fails.
So `sound_partial` and `order_partial` do not hold without `Regular`. -/
theorem late_uniform_wrong : ∃ f : Template, WF f ∧
    candidate f [] [Ex.int .varying, Ex.float .uniform] = .ok [.ty (Ex.int .varying)] ∧
    signature f [.ty (Ex.int .varying)] = [some (Ex.int .varying), some (Ex.int .varying)] ∧
    ¬ ArgFits (Ex.float .uniform) (Ex.int .varying) ∧
    candidate f [] [Ex.float .uniform, Ex.int .varying] = .fail := by
  refine ⟨⟨[⟨Ex.T, none⟩], [(.parm Ex.T .unbound false, false), (.parm Ex.T .unbound false, false)]⟩,
    ⟨by decide, by decide, by simp [Par.valNames]⟩, by decide +kernel, by decide +kernel, ?_,
    by decide +kernel⟩
  intro h
  cases h with
  | val hv _ hf =>
    have hv := (value_iff (by exact Or.inl rfl)).1 hv
    subst hv
    cases hf with
    | leaf h =>
      rcases h with (h | ⟨_, h⟩) | (h | ⟨_, h⟩) <;> revert h <;> decide

/-- `template <typename T> f(T a, T b = 0)` called with one argument: the
second argument's type is read beyond the end of the array. -/
theorem default_wrong : ∃ f : Template, WF f ∧
    candidate f [] [Ex.int .varying] = .outside :=
  ⟨⟨[⟨Ex.T, none⟩], [(.parm Ex.T .unbound false, false), (.parm Ex.T .unbound false, true)]⟩,
    ⟨by decide, by decide, by simp [Par.valNames]⟩, by decide +kernel⟩

/-- `template <typename T, int N> f(T<N> v)`: the value is found when the name
`N` has 15 characters and not when it has 16. -/
theorem long_name_wrong : ∃ f : List Char → Template,
    (∀ N, (f N).tps = [⟨Ex.T, none⟩, ⟨N, some .int32⟩] ∧
      (f N).ps = [(.vec (.parm Ex.T .unbound false) (.sym N), false)]) ∧
    candidate (f (List.replicate 15 'n')) [] [.vec (Ex.float .varying) 4] =
      .ok [.ty (Ex.float .varying), .num .int32 4] ∧
    candidate (f (List.replicate 16 'n')) [] [.vec (Ex.float .varying) 4] = .fail :=
  ⟨fun N => ⟨[⟨Ex.T, none⟩, ⟨N, some .int32⟩], [(.vec (.parm Ex.T .unbound false) (.sym N), false)]⟩,
    fun _ => ⟨rfl, rfl⟩, by decide +kernel, by decide +kernel⟩

/-- A constant is accepted for a type parameter, which then stands for the
constant's type, and a type for a value parameter. -/
theorem kind_wrong :
    (candidate ⟨[⟨Ex.T, none⟩], [(.parm Ex.T .unbound false, false)]⟩ [.num .int32 4]
        [Ex.int .uniform] = .ok [.num .int32 4] ∧
      signature ⟨[⟨Ex.T, none⟩], [(.parm Ex.T .unbound false, false)]⟩ [.num .int32 4] =
        [some (.atomic .int32 .uniform true)]) ∧
    candidate ⟨[⟨Ex.N, some .int32⟩], []⟩ [.ty (Ex.int .uniform)] [] =
      .ok [.ty (Ex.int .uniform)] := by
  decide +kernel

/-- `template <typename T> f(uniform T a, T *b)` called with a uniform `int` and
a pointer to one: `T = uniform int` gives exactly these types, but the
deduction takes `varying int` from the first argument, and the instance has a
pointer to `varying int`. -/
theorem mixed_wrong : ∃ f : Template, WF f ∧
    (∀ (i : Nat) (p : Par × Bool) (a : Ty), f.ps[i]? = some p →
      [Ex.int .uniform, uniformPtr (Ex.int .uniform)][i]? = some a →
      Exact (fun _ => Ex.int .uniform) (fun _ => 0) p.1 a) ∧
    candidate f [] [Ex.int .uniform, uniformPtr (Ex.int .uniform)] = .ok [.ty (Ex.int .varying)] ∧
    signature f [.ty (Ex.int .varying)] =
      [some (Ex.int .uniform), some (uniformPtr (Ex.int .varying))] ∧
    Overload.canConvert (uniformPtr (Ex.int .uniform)) (uniformPtr (Ex.int .varying)) = false := by
  refine ⟨⟨[⟨Ex.T, none⟩], [(.parm Ex.T .uniform false, false),
      (.ptr (.parm Ex.T .unbound false) .uniform false, false)]⟩,
    ⟨by decide, by decide, by simp [Par.valNames]⟩, ?_, by decide +kernel, by decide +kernel,
    by decide +kernel⟩
  intro i p a hp ha
  match i with
  | 0 =>
    cases hp; cases ha
    exact .chain (.parm (.other (by simp [Ex.int]) (by simp [Ex.int]))) .here
      ⟨same_refl _, by simp, rfl⟩
  | 1 =>
    cases hp; cases ha
    exact .chain (.ptr (.other (by simp [uniformPtr]) (by simp [uniformPtr]))) (.ptr .here)
      ⟨same_refl _, by simp, rfl⟩
  | i + 2 => simp at hp

/-- `template <typename T> f(uniform T *p)` called with a pointer to a function:
the varying version of the function's type is a null pointer, which is
followed. -/
theorem function_wrong : ∃ f : Template, WF f ∧ ∃ fl r ps,
    candidate f [] [uniformPtr (.func fl r ps)] = .null :=
  ⟨⟨[⟨Ex.T, none⟩], [(.ptr (.parm Ex.T .uniform false) .uniform false, false)]⟩,
    ⟨by decide, by decide, by simp [Par.valNames]⟩, {}, Ex.int .uniform, .nil, by decide +kernel⟩

/-- `template <typename T, int N> f(T<N> v)`: when the type is given, the value
is not deduced any more; and a value parameter alone, in `float<N>`, never is, not even when another parameter `T<N>`
tells it. -/
theorem count_wrong :
    let p : Par := .vec (.parm Ex.T .unbound false) (.sym Ex.N)
    let q : Par := .vec (.con (Ex.float .varying)) (.sym Ex.N)
    let a : Ty := .vec (Ex.float .varying) 4
    candidate ⟨[⟨Ex.T, none⟩, ⟨Ex.N, some .int32⟩], [(p, false)]⟩ [] [a] =
      .ok [.ty (Ex.float .varying), .num .int32 4] ∧
    candidate ⟨[⟨Ex.T, none⟩, ⟨Ex.N, some .int32⟩], [(p, false)]⟩ [.ty (Ex.float .varying)] [a] =
      .fail ∧
    candidate ⟨[⟨Ex.N, some .int32⟩], [(q, false)]⟩ [] [a] = .fail ∧
    candidate ⟨[⟨Ex.N, some .int32⟩], [(.ref q, false)]⟩ [] [a] = .fail ∧
    candidate ⟨[⟨Ex.T, none⟩, ⟨Ex.N, some .int32⟩], [(p, false), (q, false)]⟩ [] [a, a] = .fail := by
  decide +kernel

end Ispc.Templ
