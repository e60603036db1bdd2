import Verif.Dispatch.Globals

/-!
# Global variables of programs compiled for several targets: lemmas
-/

namespace Ispc.Multi

/-! ### Types without their owners -/

mutual

/-- The type with no note of the names of its structs and of the modules that made them. -/
def LTy.shape : LTy → LTy
  | .scal k => .scal k
  | .vec k n => .vec k n
  | .ptr => .ptr
  | .arr n e => .arr n e.shape
  | .struct _ _ els => .struct 0 0 els.shape

/-- Types of members. -/
def LTys.shape : LTys → LTys
  | .nil => .nil
  | .cons t ts => .cons t.shape ts.shape

end

mutual

/-- No part is varying. -/
def Ty.plain : Ty → Bool
  | .scal _ v | .ptr v => !v
  | .arr _ e => e.plain
  | .struct _ _ els => els.plain

/-- No part of a member is varying. -/
def Tys.plain : Tys → Bool
  | .nil => true
  | .cons t ts => t.plain && ts.plain

end

mutual

theorem LTy.al_shape : (t : LTy) → t.shape.al = t.al
  | .scal _ | .vec _ _ | .ptr => by simp [LTy.shape]
  | .arr _ e => by simp [LTy.shape, LTy.al, e.al_shape]
  | .struct _ _ els => by simp [LTy.shape, LTy.al, els.al_shape]

theorem LTys.al_shape : (t : LTys) → t.shape.al = t.al
  | .nil => rfl
  | .cons t ts => by simp [LTys.shape, LTys.al, t.al_shape, ts.al_shape]

end

mutual

theorem LTy.size_shape : (t : LTy) → t.shape.size = t.size
  | .scal _ | .vec _ _ | .ptr => by simp [LTy.shape]
  | .arr _ e => by simp [LTy.shape, LTy.size, e.size_shape]
  | .struct _ _ els => by simp [LTy.shape, LTy.size, els.stop_shape, els.al_shape]

theorem LTys.stop_shape : (t : LTys) → (o : Nat) → t.shape.stop o = t.stop o
  | .nil, _ => rfl
  | .cons t ts, o => by simp [LTys.shape, LTys.stop, t.size_shape, t.al_shape, ts.stop_shape]

end

theorem LTy.al_eq {t t' : LTy} (h : t.shape = t'.shape) : t.al = t'.al := by
  rw [← t.al_shape, h, t'.al_shape]

theorem LTy.size_eq {t t' : LTy} (h : t.shape = t'.shape) : t.size = t'.size := by
  rw [← t.size_shape, h, t'.size_shape]

mutual

theorem Ty.lower_owner (i i' w : Nat) : (t : Ty) → (t.lower i w).shape = (t.lower i' w).shape
  | .scal _ v => by cases v <;> rfl
  | .ptr v => by cases v <;> rfl
  | .arr _ e => by simp [Ty.lower, LTy.shape, e.lower_owner i i' w]
  | .struct _ _ els => by simp [Ty.lower, LTy.shape, els.lower_owner i i' w]

theorem Tys.lower_owner (i i' w : Nat) : (t : Tys) → (t.lower i w).shape = (t.lower i' w).shape
  | .nil => rfl
  | .cons t ts => by simp [Tys.lower, LTys.shape, t.lower_owner i i' w, ts.lower_owner i i' w]

end

mutual

theorem Ty.lower_plain (i i' w w' : Nat) : (t : Ty) → t.plain = true → (t.lower i w).shape = (t.lower i' w').shape
  | .scal _ v, h => by cases v <;> simp_all [Ty.plain, Ty.lower]
  | .ptr v, h => by cases v <;> simp_all [Ty.plain, Ty.lower]
  | .arr _ e, h => by simp [Ty.lower, LTy.shape, e.lower_plain i i' w w' (by simpa [Ty.plain] using h)]
  | .struct _ _ els, h => by
    simp [Ty.lower, LTy.shape, els.lower_plain i i' w w' (by simpa [Ty.plain] using h)]

theorem Tys.lower_plain (i i' w w' : Nat) : (t : Tys) → t.plain = true → (t.lower i w).shape = (t.lower i' w').shape
  | .nil, _ => rfl
  | .cons t ts, h => by
    simp only [Tys.plain, Bool.and_eq_true] at h
    simp [Tys.lower, LTys.shape, t.lower_plain i i' w w' h.1, ts.lower_plain i i' w w' h.2]

end

theorem compat_shape {a b : LTy} (h : compat a b = true) : a.shape = b.shape := by
  induction a using LTy.rec (motive_2 := fun _ => True) generalizing b with
  | arr n e ih =>
    cases b <;> simp_all [compat, LTy.shape]
    exact ih h.2
  | nil => trivial
  | cons => trivial
  | _ => cases b <;> simp_all [compat, LTy.shape]

/-! ### Initialisers -/

mutual

/-- The initialiser does not depend on the gang size. -/
def IExp.indep : IExp → Prop
  | .const v => ∀ w w', v w = v w'
  | .null | .fn _ => True
  | .sizeof t => t.plain = true
  | .addr _ t idx => t.plain = true ∧ idx.indep
  | .plus p t n => p.indep ∧ t.plain = true ∧ ∀ w w', n w = n w'
  | .list es => es.indep

/-- No part of the list does. -/
def IExps.indep : IExps → Prop
  | .nil => True
  | .cons e es => e.indep ∧ es.indep

end

theorem arr_shape {n n' : Nat} {e e' : LTy} (h : (LTy.arr n e).shape = (LTy.arr n' e').shape) : e.shape = e'.shape := by
  simp only [LTy.shape, LTy.arr.injEq] at h
  exact h.2

mutual

theorem IExp.cell_indep (w w' : Nat) : (e : IExp) → e.indep → e.cell w = e.cell w'
  | .const v, h => by simp only [IExp.cell]; rw [h w w']
  | .null, _ => by simp [IExp.cell]
  | .sizeof t, h => by
    simp only [IExp.cell]
    rw [LTy.size_eq (t.lower_plain 0 0 w w' h)]
  | .addr g t idx, h => by
    simp only [IExp.cell]
    rw [idx.offset_indep w w' h.2 _ _ (t.lower_plain 0 0 w w' h.1)]
  | .plus p t n, h => by
    simp only [IExp.cell]
    rw [p.cell_indep w w' h.1, h.2.2 w w', LTy.size_eq (t.lower_plain 0 0 w w' h.2.1)]
  | .fn _, _ => by simp [IExp.cell]
  | .list _, _ => by simp [IExp.cell]

theorem IExps.offset_indep (w w' : Nat) : (es : IExps) → es.indep → (t t' : LTy) → t.shape = t'.shape →
    es.offset w t = es.offset w' t'
  | .nil, _, _, _, _ => by simp [IExps.offset]
  | .cons i is, h, t, t', ht => by
    cases t <;> cases t' <;> simp [LTy.shape] at ht <;> try (simp [IExps.offset]; done)
    rename_i n e n' e'
    simp only [IExps.offset]
    rw [i.cell_indep w w' h.1, is.offset_indep w w' h.2 e e' ht.2, LTy.size_eq ht.2]

end

theorem spread_shape (c : ICell) (o : Nat) {t t' : LTy} (h : t.shape = t'.shape) : spread c o t = spread c o t' := by
  cases t <;> cases t' <;> simp [LTy.shape] at h <;> simp_all [spread]

/-- Offsets depend on the shape alone. -/
theorem IExps.offset_shape (w : Nat) : (es : IExps) → (t t' : LTy) → t.shape = t'.shape →
    es.offset w t = es.offset w t'
  | .nil, _, _, _ => by simp [IExps.offset]
  | .cons i is, t, t', ht => by
    cases t <;> cases t' <;> simp [LTy.shape] at ht <;> try (simp [IExps.offset]; done)
    rename_i n e n' e'
    simp only [IExps.offset]
    rw [is.offset_shape w e e' ht.2, LTy.size_eq ht.2]

mutual

theorem IExp.place_eq (w w' : Nat) : (x : IExp) → (x.indep ∨ w = w') → (t t' : LTy) → t.shape = t'.shape → (o : Nat) →
    x.place w t o = x.place w' t' o
  | .list es, h, t, t', ht, o => by
    have hs : es.indep ∨ w = w' := h
    cases t <;> cases t' <;> simp only [LTy.shape, reduceCtorEq] at ht
    · cases es with
      | nil => simp [IExp.place]
      | cons e es =>
        cases es with
        | nil =>
          simp only [IExp.place]
          exact e.place_eq w w' (hs.imp_left (·.1)) _ _ (by simpa [LTy.shape] using ht) o
        | cons => simp [IExp.place]
    · simp only [LTy.vec.injEq] at ht
      simp only [IExp.place, ht.1]
      exact es.placeArr_eq w w' hs _ _ rfl o
    · cases es with
      | nil => simp [IExp.place]
      | cons e es =>
        cases es with
        | nil =>
          simp only [IExp.place]
          exact e.place_eq w w' (hs.imp_left (·.1)) _ _ (by simp [LTy.shape]) o
        | cons => simp [IExp.place]
    · simp only [LTy.arr.injEq] at ht
      simp only [IExp.place]
      exact es.placeArr_eq w w' hs _ _ ht.2 o
    · simp only [LTy.struct.injEq, true_and] at ht
      simp only [IExp.place]
      exact es.placeMem_eq w w' hs _ _ ht o 0
  | .const v, h, t, t', ht, o => by
    have : IExp.cell w (.const v) = IExp.cell w' (.const v) := h.elim (IExp.cell_indep w w' _) (fun e => by rw [e])
    simp only [IExp.place, this, spread_shape _ o ht]
  | .null, h, t, t', ht, o => by
    have : IExp.cell w .null = IExp.cell w' .null := h.elim (IExp.cell_indep w w' _) (fun e => by rw [e])
    simp only [IExp.place, this, spread_shape _ o ht]
  | .sizeof s, h, t, t', ht, o => by
    have : IExp.cell w (.sizeof s) = IExp.cell w' (.sizeof s) := h.elim (IExp.cell_indep w w' _) (fun e => by rw [e])
    simp only [IExp.place, this, spread_shape _ o ht]
  | .addr g s idx, h, t, t', ht, o => by
    have : IExp.cell w (.addr g s idx) = IExp.cell w' (.addr g s idx) :=
      h.elim (IExp.cell_indep w w' _) (fun e => by rw [e])
    simp only [IExp.place, this, spread_shape _ o ht]
  | .plus p s n, h, t, t', ht, o => by
    have : IExp.cell w (.plus p s n) = IExp.cell w' (.plus p s n) :=
      h.elim (IExp.cell_indep w w' _) (fun e => by rw [e])
    simp only [IExp.place, this, spread_shape _ o ht]
  | .fn f, h, t, t', ht, o => by
    have : IExp.cell w (.fn f) = IExp.cell w' (.fn f) := h.elim (IExp.cell_indep w w' _) (fun e => by rw [e])
    simp only [IExp.place, this, spread_shape _ o ht]

theorem IExps.placeArr_eq (w w' : Nat) : (xs : IExps) → (xs.indep ∨ w = w') → (t t' : LTy) → t.shape = t'.shape →
    (o : Nat) → xs.placeArr w t o = xs.placeArr w' t' o
  | .nil, _, _, _, _, _ => by simp [IExps.placeArr]
  | .cons x xs, h, t, t', ht, o => by
    simp only [IExps.placeArr]
    rw [x.place_eq w w' (h.imp_left (·.1)) t t' ht o, LTy.size_eq ht, xs.placeArr_eq w w' (h.imp_left (·.2)) t t' ht]

theorem IExps.placeMem_eq (w w' : Nat) : (xs : IExps) → (xs.indep ∨ w = w') → (ts ts' : LTys) → ts.shape = ts'.shape →
    (o p : Nat) → xs.placeMem w ts o p = xs.placeMem w' ts' o p
  | .nil, _, _, _, _, _, _ => by simp [IExps.placeMem]
  | .cons x xs, h, ts, ts', hts, o, p => by
    cases ts <;> cases ts' <;> simp only [LTys.shape, reduceCtorEq] at hts
    · simp [IExps.placeMem]
    · simp only [LTys.cons.injEq] at hts
      simp only [IExps.placeMem]
      rw [LTy.al_eq hts.1, x.place_eq w w' (h.imp_left (·.1)) _ _ hts.1, LTy.size_eq hts.1,
        xs.placeMem_eq w w' (h.imp_left (·.2)) _ _ hts.2]

end

/-! ### The dispatch module -/

theorem extract_eq {m : List Global} : ∀ {seen : List Nat} {ds : List Global}, extract m seen = some ds →
    ds = m.filter Global.isDef ∧
      ∀ d ∈ ds, ∀ r ∈ d.refs, ∃ n, r = some n ∧ (n ∈ seen ∨ ∃ d' ∈ ds, d'.name = n) := by
  induction m with
  | nil => intro seen ds h; cases h; simp
  | cons g gs ih =>
    intro seen ds h
    simp only [extract] at h
    by_cases hg : g.isDef = true
    · simp only [hg, if_true] at h
      split at h
      · rename_i hr
        simp only [Option.map_eq_some_iff] at h
        obtain ⟨ds', h', rfl⟩ := h
        obtain ⟨h1, h2⟩ := ih h'
        refine ⟨by simp [hg, h1], ?_⟩
        intro d hd r hrd
        rcases List.mem_cons.1 hd with rfl | hd
        · have := List.all_eq_true.1 hr r hrd
          cases r with
          | none => simp at this
          | some n =>
            simp only [Option.any_some, List.contains_eq_mem, List.mem_cons, decide_eq_true_eq] at this
            refine ⟨n, rfl, ?_⟩
            rcases this with rfl | h
            · exact .inr ⟨d, List.mem_cons_self, rfl⟩
            · exact .inl h
        · obtain ⟨n, rfl, hn⟩ := h2 d hd r hrd
          refine ⟨n, rfl, ?_⟩
          rcases hn with hn | ⟨d', hd', rfl⟩
          · rcases List.mem_cons.1 hn with rfl | hn
            · exact .inr ⟨g, List.mem_cons_self, rfl⟩
            · exact .inl hn
          · exact .inr ⟨d', List.mem_cons_of_mem _ hd', rfl⟩
      · cases h
    · simp only [hg] at h
      obtain ⟨h1, h2⟩ := ih h
      exact ⟨by simp [hg, h1], h2⟩

/-- The variable with a name. -/
def look (ds : List Global) (n : Nat) : Option Global := ds.find? fun d => d.name = n

/-- The alignment `b` is there and not below `a`, if `a` is there. -/
def AlLe (a b : Option Nat) : Prop := ∀ x, a = some x → ∃ y, b = some y ∧ x ≤ y

theorem AlLe.refl (a : Option Nat) : AlLe a a := fun x h => ⟨x, h, Nat.le_refl _⟩

theorem AlLe.trans {a b c : Option Nat} (h : AlLe a b) (h' : AlLe b c) : AlLe a c := by
  intro x hx
  obtain ⟨y, hy, h1⟩ := h x hx
  obtain ⟨z, hz, h2⟩ := h' y hy
  exact ⟨z, hz, Nat.le_trans h1 h2⟩

theorem upgrade_dst (d s : Option Nat) : AlLe d (upgrade d s) := by
  intro x hx
  subst hx
  cases s with
  | none => exact ⟨x, rfl, Nat.le_refl _⟩
  | some a =>
    simp only [upgrade]
    split
    · exact ⟨a, rfl, by omega⟩
    · exact ⟨x, rfl, Nat.le_refl _⟩

theorem upgrade_src (d s : Option Nat) : AlLe s (upgrade d s) := by
  intro x hx
  subst hx
  cases d with
  | none => exact ⟨x, rfl, Nat.le_refl _⟩
  | some b =>
    simp only [upgrade]
    split
    · exact ⟨x, rfl, Nat.le_refl _⟩
    · exact ⟨b, rfl, by omega⟩

theorem upgrade_or (d s : Option Nat) : upgrade d s = d ∨ upgrade d s = s := by
  cases d <;> cases s <;> simp only [upgrade, true_or, or_true]
  split <;> simp

theorem look_align (ds : List Global) (n k : Nat) (a : Global → Option Nat) :
    look (ds.map fun d => if d.name = k then { d with align := a d } else d) n =
      (look ds n).map fun d => if d.name = k then { d with align := a d } else d := by
  induction ds with
  | nil => rfl
  | cons d ds ih =>
    simp only [look, List.map_cons, List.find?_cons] at ih ⊢
    have : (if d.name = k then { d with align := a d } else d).name = d.name := by split <;> rfl
    rw [this]
    by_cases h : d.name = n
    · simp [h]
    · simp [h, ih]

theorem look_name {ds : List Global} {n : Nat} {d : Global} (h : look ds n = some d) : d.name = n := by
  have := List.find?_some h
  simpa using this

/-- What checking some variables does. -/
structure Checked (gs : List Global) (ds : List Global) (ws : List Nat) (ds' : List Global) (ws' : List Nat) : Prop where
  absent : ∀ n, look ds n = none → look ds' n = none
  present : ∀ n d, look ds n = some d → ∃ A, look ds' n = some { d with align := A } ∧ AlLe d.align A ∧
    (∀ g ∈ gs, g.isDef = true → g.name = n → AlLe g.align A) ∧
    (A = d.align ∨ ∃ g ∈ gs, g.isDef = true ∧ g.name = n ∧ A = g.align)
  all : ∀ g ∈ gs, g.isDef = true → ∃ d, look ds g.name = some d ∧ (ws' = [] → compat d.ty g.ty = true)
  warns : ws' = [] → ws = []

theorem checkAll_checked {gs : List Global} : ∀ {ds ds' : List Global} {ws ws' : List Nat},
    checkAll gs (ds, ws) = some (ds', ws') → Checked gs ds ws ds' ws' := by
  induction gs with
  | nil =>
    intro ds ds' ws ws' h
    simp only [checkAll, Option.some.injEq, Prod.mk.injEq] at h
    obtain ⟨rfl, rfl⟩ := h
    refine ⟨fun _ h => h, fun n d h => ⟨d.align, h, .refl _, by simp, .inl rfl⟩, by simp, id⟩
  | cons g gs ih =>
    intro ds ds' ws ws' h
    simp only [checkAll] at h
    split at h
    · cases h
    · rename_i st' hst
      obtain ⟨ds1, ws1⟩ := st'
      have ih := ih h
      unfold checkOne at hst
      by_cases hg : g.isDef = true
      · simp only [hg, if_true] at hst
        split at hst
        · cases hst
        · rename_i d0 hd0
          simp only [Option.some.injEq, Prod.mk.injEq] at hst
          obtain ⟨h1, h2⟩ := hst
          have hl := fun n => look_align ds n g.name (fun d => upgrade d.align g.align)
          rw [h1] at hl
          have hd0 : look ds g.name = some d0 := hd0
          have hn0 := look_name hd0
          have hw1 : ws1 = [] → ws = [] ∧ compat d0.ty g.ty = true := by
            intro hw
            rw [← h2] at hw
            split at hw
            · rename_i hc
              exact ⟨hw, hc⟩
            · cases hw
          refine ⟨fun n hn => ih.absent n (by rw [hl, hn]; rfl), ?_, ?_, fun hw => (hw1 (ih.warns hw)).1⟩
          · intro n d hd
            by_cases hdn : n = g.name
            · subst hdn
              rw [hd] at hd0
              obtain rfl := Option.some.inj hd0
              obtain ⟨A, hA, hle, hall, hor⟩ := ih.present g.name { d with align := upgrade d.align g.align }
                (by rw [hl, hd]; simp [hn0])
              refine ⟨A, hA, (upgrade_dst _ _).trans hle, ?_, ?_⟩
              · intro g' hg' hd' hn'
                rcases List.mem_cons.1 hg' with rfl | hg'
                · exact (upgrade_src _ _).trans hle
                · exact hall g' hg' hd' hn'
              · rcases hor with rfl | ⟨g', hg', hr⟩
                · rcases upgrade_or d.align g.align with h | h
                  · exact .inl h
                  · exact .inr ⟨g, List.mem_cons_self, hg, rfl, h⟩
                · exact .inr ⟨g', List.mem_cons_of_mem _ hg', hr⟩
            · have hdn' : d.name ≠ g.name := by rw [look_name hd]; exact hdn
              obtain ⟨A, hA, hle, hall, hor⟩ := ih.present n d (by rw [hl, hd]; simp [hdn'])
              refine ⟨A, hA, hle, ?_, ?_⟩
              · intro g' hg' hd' hn'
                rcases List.mem_cons.1 hg' with rfl | hg'
                · exact absurd hn'.symm hdn
                · exact hall g' hg' hd' hn'
              · rcases hor with rfl | ⟨g', hg', hr⟩
                · exact .inl rfl
                · exact .inr ⟨g', List.mem_cons_of_mem _ hg', hr⟩
          · intro g' hg' hd'
            rcases List.mem_cons.1 hg' with rfl | hg'
            · exact ⟨d0, hd0, fun hw => (hw1 (ih.warns hw)).2⟩
            · obtain ⟨d1, hd1, hc⟩ := ih.all g' hg' hd'
              rw [hl] at hd1
              cases hx : look ds g'.name with
              | none => rw [hx] at hd1; cases hd1
              | some d2 =>
                rw [hx] at hd1
                refine ⟨d2, rfl, fun hw => ?_⟩
                have := hc hw
                simp only [Option.map_some, Option.some.injEq] at hd1
                rw [← hd1] at this
                split at this <;> exact this
      · simp only [hg] at hst
        simp only [Bool.false_eq_true, ↓reduceIte, Option.some.injEq, Prod.mk.injEq] at hst
        obtain ⟨rfl, rfl⟩ := hst
        refine ⟨ih.absent, ?_, ?_, ih.warns⟩
        · intro n d hd
          obtain ⟨A, hA, hle, hall, hor⟩ := ih.present n d hd
          refine ⟨A, hA, hle, ?_, ?_⟩
          · intro g' hg' hd' hn'
            rcases List.mem_cons.1 hg' with rfl | hg'
            · exact absurd hd' hg
            · exact hall g' hg' hd' hn'
          · rcases hor with rfl | ⟨g', hg', hr⟩
            · exact .inl rfl
            · exact .inr ⟨g', List.mem_cons_of_mem _ hg', hr⟩
        · intro g' hg' hd'
          rcases List.mem_cons.1 hg' with rfl | hg'
          · exact absurd hd' hg
          · exact ih.all g' hg' hd'

theorem checkAll_append (gs gs' : List Global) (st : List Global × List Nat) :
    checkAll (gs ++ gs') st = match checkAll gs st with
      | none => none
      | some st' => checkAll gs' st' := by
  induction gs generalizing st with
  | nil => rfl
  | cons g gs ih =>
    simp only [List.cons_append, checkAll]
    cases checkOne st g with
    | none => rfl
    | some st' => exact ih st'

theorem checkMods_eq (ms : List (List Global)) (st : List Global × List Nat) :
    checkMods ms st = checkAll ms.flatten st := by
  induction ms generalizing st with
  | nil => rfl
  | cons m ms ih =>
    rw [List.flatten_cons, checkAll_append, checkMods]
    cases checkAll m st with
    | none => rfl
    | some st' => exact ih st'

theorem find_filter {α : Type} (l : List α) (p q : α → Bool) :
    (l.filter p).find? q = l.find? fun a => p a && q a := by
  induction l with
  | nil => rfl
  | cons a l ih =>
    by_cases h : p a = true <;> simp [h, List.find?_cons, ih]

/-- What the dispatch module is. -/
theorem build_checked {m : List Global} {ms : List (List Global)} {defs : List Global} {ws : List Nat}
    (h : build (m :: ms) = some (defs, ws)) :
    Checked ms.flatten (m.filter Global.isDef) [] defs ws ∧
      ∀ d ∈ m.filter Global.isDef, ∀ r ∈ d.refs, ∃ n, r = some n ∧ ∃ d' ∈ m.filter Global.isDef, d'.name = n := by
  simp only [build] at h
  split at h
  · cases h
  · rename_i ds hds
    obtain ⟨rfl, hr⟩ := extract_eq hds
    rw [checkMods_eq] at h
    refine ⟨checkAll_checked h, fun d hd r hr' => ?_⟩
    obtain ⟨n, h1, h2⟩ := hr d hd r hr'
    exact ⟨n, h1, h2.resolve_left (by simp)⟩

theorem checkAll_keys {gs : List Global} : ∀ {st st' : List Global × List Nat}, checkAll gs st = some st' →
    st'.1.map (fun d => { d with align := none }) = st.1.map fun d => { d with align := none } := by
  induction gs with
  | nil => intro st st' h; cases h; rfl
  | cons g gs ih =>
    intro st st' h
    simp only [checkAll] at h
    split at h
    · cases h
    · rename_i st1 hst
      rw [ih h]
      unfold checkOne at hst
      split at hst
      · split at hst
        · cases hst
        · cases hst
          simp only [List.map_map]
          apply List.map_congr_left
          intro d _
          simp only [Function.comp]
          split <;> rfl
      · cases hst; rfl

theorem build_keys {m : List Global} {ms : List (List Global)} {defs : List Global} {ws : List Nat}
    (h : build (m :: ms) = some (defs, ws)) :
    defs.map (fun d => { d with align := none }) = (m.filter Global.isDef).map fun d => { d with align := none } := by
  simp only [build] at h
  split at h
  · cases h
  · rename_i ds hds
    obtain ⟨rfl, -⟩ := extract_eq hds
    rw [checkMods_eq] at h
    exact checkAll_keys h

theorem look_findDef {ds : List Global} {n : Nat} {d : Global} (h : look ds n = some d) (hd : d.isDef = true) :
    findDef ds n = some d := by
  induction ds with
  | nil => cases h
  | cons a ds ih =>
    simp only [look, findDef, List.find?_cons] at h ih ⊢
    by_cases ha : a.name = n
    · simp only [ha, decide_true] at h
      cases h
      simp [ha, hd]
    · simp only [ha, decide_false] at h
      have ha' : (a.name == n) = false := by simpa using ha
      simp [ha', ih h]

theorem findDef_none {ds : List Global} {n : Nat} (h : look ds n = none) : findDef ds n = none := by
  simp only [look, findDef, List.find?_eq_none, decide_eq_true_eq, Bool.and_eq_true, beq_iff_eq] at h ⊢
  exact fun a ha hh => h a ha hh.2

theorem findDef_some {m : List Global} {n : Nat} {g : Global} (h : findDef m n = some g) :
    g ∈ m ∧ g.isDef = true ∧ g.name = n := by
  have h1 := List.mem_of_find?_eq_some h
  have h2 := List.find?_some h
  simp only [Bool.and_eq_true, beq_iff_eq] at h2
  exact ⟨h1, h2⟩

theorem look_of_mem {ds : List Global} (hn : (ds.map (·.name)).Nodup) {d : Global} (h : d ∈ ds) :
    look ds d.name = some d := by
  induction ds with
  | nil => cases h
  | cons a ds ih =>
    simp only [List.map_cons, List.nodup_cons] at hn
    simp only [look, List.find?_cons] at ih ⊢
    rcases List.mem_cons.1 h with rfl | h
    · simp
    · have : a.name ≠ d.name := fun e => hn.1 (e ▸ List.mem_map_of_mem (f := (·.name)) h)
      simp [this, ih hn.2 h]

/-! ### Execution -/

/-- The objects of `env` are in `env'` too, with at least the same alignment. -/
def Refines (env env' : Stor → Option Obj) : Prop :=
  ∀ s o, env s = some o → ∃ o', env' s = some o' ∧ o'.size = o.size ∧ o.align ≤ o'.align ∧ o'.cst = o.cst ∧
    o'.init = o.init

/-- The contents of the objects of `env` are the same. -/
def Agree (env : Stor → Option Obj) (m m' : Mem) : Prop := ∀ s o, env s = some o → m' s = m s

theorem access_refines {env env' : Stor → Option Obj} (h : Refines env env') {p : Val} {al : Nat} {r : Stor × Int × Bool}
    (ha : access env p al = some r) : access env' p al = some r ∧ ∃ o, env r.1 = some o := by
  unfold access at ha
  split at ha
  · rename_i s off
    split at ha
    · rename_i o ho
      split at ha
      · rename_i hc
        cases ha
        obtain ⟨o', h1, h2, h3, h4, _⟩ := h s o ho
        refine ⟨?_, o, ho⟩
        simp only [access, h1]
        rw [if_pos ⟨hc.1, by rw [h2]; exact hc.2.1, Nat.le_trans hc.2.2 h3⟩, h4]
      · cases ha
    · cases ha
  · cases ha

theorem exec_refines {env env' : Stor → Option Obj} (h : Refines env env') (c : Cmd) :
    ∀ {m m' m1 : Mem} {v : Val}, Agree env m m' → exec env c m = some (m1, v) →
      ∃ m1', exec env' c m' = some (m1', v) ∧ Agree env m1 m1' := by
  induction c with
  | ret v =>
    intro m m' m1 v' ha he
    simp only [exec, Option.some.injEq, Prod.mk.injEq] at he
    obtain ⟨rfl, rfl⟩ := he
    exact ⟨m', rfl, ha⟩
  | load p al k ih =>
    intro m m' m1 v ha he
    simp only [exec] at he ⊢
    split at he
    · cases he
    · rename_i s off c hacc
      obtain ⟨h1, o, ho⟩ := access_refines h hacc
      simp only [h1]
      rw [ha s o ho]
      exact ih _ ha he
  | store p al w k ih =>
    intro m m' m1 v ha he
    simp only [exec] at he ⊢
    split at he
    · cases he
    · rename_i s off c hacc
      obtain ⟨h1, o, ho⟩ := access_refines h hacc
      simp only [h1]
      split at he
      · cases he
      · rename_i hc
        rw [if_neg hc]
        refine ih ?_ he
        intro s' o' ho'
        funext x
        simp only [ha s' o' ho']

theorem startMem_agree {env env' : Stor → Option Obj} (h : Refines env env') :
    Agree env (startMem env) (startMem env') := by
  intro s o ho
  obtain ⟨o', h1, _, _, _, h5⟩ := h s o ho
  funext x
  simp [startMem, ho, h1, h5]

theorem run_refines {env env' : Stor → Option Obj} (h : Refines env env') (mods : List (List Global)) (code : Code)
    (i : Nat) (pick : Nat → Option Nat) (ops : List Op)
    (hp : ∀ f args, Op.call f args ∈ ops → pick f = some i) :
    ∀ {m m' : Mem} {vs : List Val}, Agree env m m' → run env mods code (fun _ => some i) ops m = some vs →
      run env' mods code pick ops m' = some vs := by
  induction ops with
  | nil => intro m m' vs _ hr; exact hr
  | cons op ops ih =>
    intro m m' vs ha hr
    replace ih := @ih fun f args hm => hp f args (List.mem_cons_of_mem _ hm)
    cases op with
    | access c =>
      simp only [run] at hr ⊢
      split at hr
      · cases hr
      · rename_i m1 v he
        obtain ⟨m1', h1, h2⟩ := exec_refines h c ha he
        simp only [h1]
        simp only [Option.map_eq_some_iff] at hr ⊢
        obtain ⟨vs', h3, h4⟩ := hr
        exact ⟨vs', ih h2 h3, h4⟩
    | call f args =>
      simp only [run] at hr ⊢
      rw [hp f args List.mem_cons_self]
      simp only
      split at hr
      · cases hr
      · rename_i m1 v he
        obtain ⟨m1', h1, h2⟩ := exec_refines h _ ha he
        simp only [h1]
        simp only [Option.map_eq_some_iff] at hr ⊢
        obtain ⟨vs', h3, h4⟩ := hr
        exact ⟨vs', ih h2 h3, h4⟩

end Ispc.Multi
