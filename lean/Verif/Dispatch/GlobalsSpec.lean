import Verif.Dispatch.GlobalsProps
import Verif.Dispatch.Dispatch

/-!
# Global variables of programs compiled for several targets

Claim C79.  The specification: the linked program has one definition of each external variable, laid out and aligned as
each variant of the code takes it to be, and does what the program compiled for the selected target alone does.
-/

namespace Ispc.Multi

/-! ### Specification -/

mutual

/-- Where the scalars of an object are that starts at `o`, and their sizes. -/
def leaves : LTy → Nat → List (Nat × Nat)
  | .scal k, o => [(o, k)]
  | .vec k n, o => (List.range n).map fun l => (o + k * l, k)
  | .ptr, o => [(o, 8)]
  | .arr n e, o => (List.range n).flatMap fun j => leaves e (o + j * e.size)
  | .struct _ _ els, o => leavesMem els o 0

/-- Those of the members of a struct; `p` is where the member before ends. -/
def leavesMem : LTys → Nat → Nat → List (Nat × Nat)
  | .nil, _, _ => []
  | .cons t ts, o, p => leaves t (o + roundUp p t.al) ++ leavesMem ts o (roundUp p t.al + t.size)

end

/-- Two types have the same layout. -/
def SameLayout (a b : LTy) : Prop := a.size = b.size ∧ a.al = b.al ∧ leaves a 0 = leaves b 0

/-- How often an external name is defined in some objects. -/
def definitions (objs : List (List Global)) (n : Nat) : Nat :=
  (objs.flatten.filter fun g => g.isDef && g.name == n).length

/-- What the optimiser may do with an alignment: leave it, or raise it. -/
def Raised (t : LTy) (a a' : Option Nat) : Prop := a' = a ∨ ∃ x, a' = some x ∧ a.getD t.al ≤ x

/-! ### Layout -/

mutual

theorem leaves_shape : (t : LTy) → (o : Nat) → leaves t.shape o = leaves t o
  | .scal _, _ | .vec _ _, _ | .ptr, _ => by simp [LTy.shape]
  | .arr n e, o => by
    simp only [LTy.shape, leaves, e.size_shape]
    congr 1
    funext j
    exact leaves_shape e _
  | .struct _ _ els, o => by simp [LTy.shape, leaves, leavesMem_shape els]

theorem leavesMem_shape : (t : LTys) → (o p : Nat) → leavesMem t.shape o p = leavesMem t o p
  | .nil, _, _ => rfl
  | .cons t ts, o, p => by
    simp [LTys.shape, leavesMem, leaves_shape t, leavesMem_shape ts, t.al_shape, t.size_shape]

end

theorem sameLayout_of_shape {a b : LTy} (h : a.shape = b.shape) : SameLayout a b :=
  ⟨LTy.size_eq h, LTy.al_eq h, by rw [← leaves_shape a, h, leaves_shape b]⟩

/-- **Each variable is defined once.**  In the objects of the targets and of the dispatcher, an external variable is defined
once if some target defines it, and not at all otherwise. -/
theorem defined_once (m : List Global) (ms : List (List Global)) (defs : List Global) (ws : List Nat)
    (hn : (m.map (·.name)).Nodup) (h : build (m :: ms) = some (defs, ws)) (n : Nat) :
    definitions (defs :: (m :: ms).map reset) n =
      if ∃ x ∈ m :: ms, ∃ g ∈ x, g.isDef = true ∧ g.name = n then 1 else 0 := by
  have hk := build_keys h
  obtain ⟨hc, -⟩ := build_checked h
  have hreset : ∀ x : List Global, (reset x).filter (fun g => g.isDef && g.name == n) = [] := by
    intro x
    simp only [reset, List.filter_eq_nil_iff, List.mem_map]
    rintro _ ⟨g, -, rfl⟩
    split
    · simp [Global.isDef]
    · rename_i hg
      simp [hg]
  have hrest : ∀ l : List (List Global), ((l.map reset).flatten).filter (fun g => g.isDef && g.name == n) = [] := by
    intro l
    induction l with
    | nil => rfl
    | cons x l ih => simp [List.filter_append, hreset, ih]
  have hlen : (defs.filter fun g => g.isDef && g.name == n).length =
      ((m.filter Global.isDef).filter fun g => g.isDef && g.name == n).length := by
    have := congrArg (fun l : List Global => (l.filter fun g => g.isDef && g.name == n).length) hk
    simp only [List.filter_map, List.length_map] at this
    exact this
  have hcount : ∀ l : List Global, (l.map (·.name)).Nodup →
      ((l.filter Global.isDef).filter fun g => g.isDef && g.name == n).length =
        if ∃ g ∈ l, g.isDef = true ∧ g.name = n then 1 else 0 := by
    intro l
    induction l with
    | nil => intro _; simp
    | cons a l ih =>
      intro hl
      simp only [List.map_cons, List.nodup_cons] at hl
      have ih := ih hl.2
      by_cases ha : a.isDef = true ∧ a.name = n
      · rw [if_pos ⟨a, List.mem_cons_self, ha⟩]
        rw [if_neg] at ih
        · simp only [List.filter_cons, ha.1, if_true]
          simp [ha.2]
          simpa using ih
        · rintro ⟨g, hg, -, hgn⟩
          exact hl.1 (by rw [ha.2, ← hgn]; exact List.mem_map_of_mem (f := (·.name)) hg)
      · have : (∃ g ∈ a :: l, g.isDef = true ∧ g.name = n) ↔ ∃ g ∈ l, g.isDef = true ∧ g.name = n := by
          simp [ha]
        rw [show (if ∃ g ∈ a :: l, g.isDef = true ∧ g.name = n then 1 else 0 : Nat) =
          if ∃ g ∈ l, g.isDef = true ∧ g.name = n then 1 else 0 by simp only [this], ← ih]
        by_cases hd : a.isDef = true
        · have hnn : (a.name == n) = false := by simpa using fun e => ha ⟨hd, e⟩
          simp [hd, hnn]
        · simp [hd]
  have hall : (∃ x ∈ m :: ms, ∃ g ∈ x, g.isDef = true ∧ g.name = n) ↔ ∃ g ∈ m, g.isDef = true ∧ g.name = n := by
    constructor
    · rintro ⟨x, hx, g, hg, hd, rfl⟩
      rcases List.mem_cons.1 hx with rfl | hx
      · exact ⟨g, hg, hd, rfl⟩
      · obtain ⟨d, h1, -⟩ := hc.all g (List.mem_flatten.2 ⟨x, hx, hg⟩) hd
        have h2 := List.mem_filter.1 (List.mem_of_find?_eq_some h1)
        exact ⟨d, h2.1, h2.2, look_name h1⟩
    · rintro ⟨g, hg, h⟩
      exact ⟨m, List.mem_cons_self, g, hg, h⟩
  unfold definitions
  rw [List.flatten_cons, List.filter_append, hrest, List.append_nil, hlen, hcount m hn]
  simp only [hall]

/-- **The modules are the same after they were written to files.** -/
theorem restored (m : List Global) (hn : (m.map (·.name)).Nodup) : restore (reset m) (saved m) = m := by
  have key : ∀ g ∈ m, (saved m).find? (fun p => p.1 = g.name) = if g.isDef then g.init.map fun v => (g.name, v) else none := by
    induction m with
    | nil => intro g hg; cases hg
    | cons a m ih =>
      intro g hg
      simp only [List.map_cons, List.nodup_cons] at hn
      rcases List.mem_cons.1 hg with rfl | hg
      · by_cases hd : g.isDef = true
        · cases hi : g.init with
          | none => simp [Global.isDef, hi] at hd
          | some v => simp [saved, hd, hi]
        · simp only [saved, List.filterMap_cons, hd]
          simp only [Bool.false_eq_true, ↓reduceIte, List.find?_eq_none, List.mem_filterMap, decide_eq_true_eq]
          rintro p ⟨b, hb, hp⟩ hpn
          split at hp
          · simp only [Option.map_eq_some_iff] at hp
            obtain ⟨v, -, rfl⟩ := hp
            exact hn.1 (by rw [← hpn]; exact List.mem_map_of_mem (f := (·.name)) hb)
          · cases hp
      · have hne : a.name ≠ g.name := fun e => hn.1 (e ▸ List.mem_map_of_mem (f := (·.name)) hg)
        rw [← ih hn.2 g hg]
        simp only [saved, List.filterMap_cons]
        by_cases hd : a.isDef = true
        · cases hi : a.init with
          | none => simp [hd]
          | some v => simp [hd, hne]
        · simp [hd]
  unfold restore reset
  rw [List.map_map]
  conv => rhs; rw [← List.map_id m]
  apply List.map_congr_left
  intro g hg
  have hk := key g hg
  simp only [Function.comp, id]
  by_cases hd : g.isDef = true
  · rw [if_pos hd] at hk
    simp only [hd, if_true]
    have : g.ext = true := by simp only [Global.isDef, Bool.and_eq_true] at hd; exact hd.1
    simp only [this, if_true, hk]
    cases hi : g.init with
    | none => simp [Global.isDef, hi] at hd
    | some v =>
      simp only [Option.map_some]
      cases g
      simp_all
  · rw [if_neg hd] at hk
    simp only [hd]
    by_cases he : g.ext = true
    · simp [he, hk]
    · simp [he]

/-- **What is not warned about has the same layout everywhere.** -/
theorem silent_layout (m : List Global) (ms : List (List Global)) (defs : List Global)
    (h : build (m :: ms) = some (defs, [])) (hn : (m.map (·.name)).Nodup) (x : List Global) (hx : x ∈ m :: ms) (g : Global)
    (hg : g ∈ x) (hd : g.isDef = true) : ∃ d, findDef defs g.name = some d ∧ SameLayout d.ty g.ty := by
  obtain ⟨hc, -⟩ := build_checked h
  have hn' : ((m.filter Global.isDef).map (·.name)).Nodup := hn.sublist (List.Sublist.map _ List.filter_sublist)
  have key : ∃ d0, look (m.filter Global.isDef) g.name = some d0 ∧ d0.ty.shape = g.ty.shape := by
    rcases List.mem_cons.1 hx with rfl | hx
    · exact ⟨g, look_of_mem hn' (List.mem_filter.2 ⟨hg, hd⟩), rfl⟩
    · obtain ⟨d, h1, h2⟩ := hc.all g (List.mem_flatten.2 ⟨x, hx, hg⟩) hd
      exact ⟨d, h1, compat_shape (h2 rfl)⟩
  obtain ⟨d0, h1, h2⟩ := key
  obtain ⟨A, h3, -⟩ := hc.present _ _ h1
  have hd0 := (List.mem_filter.1 (List.mem_of_find?_eq_some h1)).2
  exact ⟨_, look_findDef h3 hd0, sameLayout_of_shape h2⟩

/-- **The definition has the alignment that the code of each variant relies on**: where a target gives a variable an
alignment, the definition has that one or a greater one. -/
theorem aligned (m : List Global) (ms : List (List Global)) (defs : List Global) (ws : List Nat)
    (h : build (m :: ms) = some (defs, ws)) (hn : (m.map (·.name)).Nodup) (x : List Global) (hx : x ∈ m :: ms) (g : Global)
    (hg : g ∈ x) (hd : g.isDef = true) (a : Nat) (ha : g.align = some a) :
    ∃ d b, findDef defs g.name = some d ∧ d.align = some b ∧ a ≤ b := by
  obtain ⟨hc, -⟩ := build_checked h
  have hn' : ((m.filter Global.isDef).map (·.name)).Nodup := hn.sublist (List.Sublist.map _ List.filter_sublist)
  have key : ∃ d0, look (m.filter Global.isDef) g.name = some d0 ∧ (d0 = g ∨ g ∈ ms.flatten) := by
    rcases List.mem_cons.1 hx with rfl | hx
    · exact ⟨g, look_of_mem hn' (List.mem_filter.2 ⟨hg, hd⟩), .inl rfl⟩
    · have hm := List.mem_flatten.2 ⟨x, hx, hg⟩
      obtain ⟨d, h1, -⟩ := hc.all g hm hd
      exact ⟨d, h1, .inr hm⟩
  obtain ⟨d0, h1, h2⟩ := key
  obtain ⟨A, h3, h4, h5, -⟩ := hc.present _ _ h1
  have hd0 := (List.mem_filter.1 (List.mem_of_find?_eq_some h1)).2
  have : AlLe g.align A := h2.elim (fun e => e ▸ h4) (fun hm => h5 g hm hd rfl)
  obtain ⟨b, hb, hab⟩ := this a ha
  exact ⟨_, b, look_findDef h3 hd0, hb, hab⟩

/-! ### Warnings -/

mutual

/-- No part is a struct. -/
def Ty.noStruct : Ty → Bool
  | .scal _ _ | .ptr _ => true
  | .arr _ e => e.noStruct
  | .struct _ _ _ => false

/-- No part of a member is a struct. -/
def Tys.noStruct : Tys → Bool
  | .nil => true
  | .cons t ts => t.noStruct && ts.noStruct

end

/-- No struct holds another one. -/
def Ty.flat : Ty → Bool
  | .arr _ e => e.flat
  | .struct _ _ els => els.noStruct
  | _ => true

mutual

theorem lower_noStruct (i i' w w' : Nat) : (t : Ty) → t.noStruct = true →
    (t.lower i w = t.lower i' w' ↔ t.plain = true ∨ w = w')
  | .scal _ v, _ => by cases v <;> simp [Ty.lower, Ty.plain]
  | .ptr v, _ => by cases v <;> simp [Ty.lower, Ty.plain]
  | .arr _ e, h => by
    simp [Ty.lower, Ty.plain, lower_noStruct i i' w w' e (by simpa [Ty.noStruct] using h)]
  | .struct _ _ _, h => by simp [Ty.noStruct] at h

theorem lowers_noStruct (i i' w w' : Nat) : (ts : Tys) → ts.noStruct = true →
    (ts.lower i w = ts.lower i' w' ↔ ts.plain = true ∨ w = w')
  | .nil, _ => by simp [Tys.lower, Tys.plain]
  | .cons t ts, h => by
    simp only [Tys.noStruct, Bool.and_eq_true] at h
    simp only [Tys.lower, LTys.cons.injEq, lower_noStruct i i' w w' t h.1, lowers_noStruct i i' w w' ts h.2, Tys.plain,
      Bool.and_eq_true]
    constructor
    · rintro ⟨h1 | h1, h2 | h2⟩ <;> simp_all
    · rintro (⟨h1, h2⟩ | h1) <;> simp_all

end

/-- **The warning is given exactly for variables with varying parts**, when the gang sizes differ: of a variable that does
not hold structs in structs.  Missing: the others, where it is given without a reason (`nested_wrong`). -/
theorem warning_iff_partial (i i' w w' : Nat) (t : Ty) (h : t.flat = true) :
    compat (t.lower i w) (t.lower i' w') = true ↔ t.plain = true ∨ w = w' := by
  induction t using Ty.rec (motive_2 := fun _ => True) with
  | scal k v => cases v <;> simp [Ty.lower, Ty.plain, compat]
  | ptr v => cases v <;> simp [Ty.lower, Ty.plain, compat]
  | arr n e ih => simp [Ty.lower, Ty.plain, compat, ih (by simpa [Ty.flat] using h)]
  | struct id v els =>
    simp [Ty.lower, Ty.plain, compat, lowers_noStruct i i' w w' els (by simpa [Ty.flat] using h)]
  | nil => trivial
  | cons => trivial

/-- `struct { float x; int *p; } a[4];` is silent, `struct { varying float x; } b;` is not. -/
example : (Ty.arr 4 (.struct 0 false (.cons (.scal 4 false) (.cons (.ptr false) .nil)))).flat = true ∧
    compat ((Ty.arr 4 (.struct 0 false (.cons (.scal 4 false) (.cons (.ptr false) .nil)))).lower 0 4)
      ((Ty.arr 4 (.struct 0 false (.cons (.scal 4 false) (.cons (.ptr false) .nil)))).lower 1 8) = true ∧
    compat ((Ty.struct 0 false (.cons (.scal 4 true) .nil)).lower 0 4)
      ((Ty.struct 0 false (.cons (.scal 4 true) .nil)).lower 1 8) = false := by decide

/-- **A struct in a struct is warned about although nothing differs**: `struct A { float x; }; struct B { A a; }; B b;` has the
same layout for all targets. -/
theorem nested_wrong : ∃ t : Ty, t.plain = true ∧ ∀ i i' w w', i ≠ i' →
    SameLayout (t.lower i w) (t.lower i' w') ∧ compat (t.lower i w) (t.lower i' w') = false := by
  refine ⟨.struct 1 false (.cons (.struct 0 false (.cons (.scal 4 false) .nil)) .nil), rfl, fun i i' w w' h => ⟨?_, ?_⟩⟩
  · exact sameLayout_of_shape (Ty.lower_plain i i' w w' _ rfl)
  · simp [Ty.lower, Tys.lower, compat, h]

/-! ### Initialisers -/

mutual

/-- Numbers do not depend on the gang size, `sizeof` is of types that are varying or have no varying parts, and steps are
taken in memory without varying parts. -/
def IExp.honest : IExp → Prop
  | .const v => ∀ w w', v w = v w'
  | .null | .fn _ => True
  | .sizeof t => t.isVarying = true ∨ t.plain = true
  | .addr _ t idx => t.plain = true ∧ idx.honest
  | .plus p t n => p.honest ∧ t.plain = true ∧ ∀ w w', n w = n w'
  | .list es => es.honest

/-- Of all parts of a list. -/
def IExps.honest : IExps → Prop
  | .nil => True
  | .cons e es => e.honest ∧ es.honest

end

mutual

theorem indep_of_flag : (e : IExp) → e.honest → e.flag = false → e.indep
  | .const _, h, _ => h
  | .null, _, _ | .fn _, _, _ => trivial
  | .sizeof t, h, hf => h.resolve_left (by simpa [IExp.flag] using hf)
  | .addr _ _ idx, h, hf => ⟨h.1, indeps_of_flag idx h.2 (by simpa [IExp.flag] using hf)⟩
  | .plus p _ _, h, hf => ⟨indep_of_flag p h.1 (by simpa [IExp.flag] using hf), h.2⟩
  | .list es, h, hf => indeps_of_flag es h (by simpa [IExp.flag] using hf)

theorem indeps_of_flag : (es : IExps) → es.honest → es.flag = false → es.indep
  | .nil, _, _ => trivial
  | .cons e es, h, hf => by
    simp only [IExps.flag, Bool.or_eq_false_iff] at hf
    exact ⟨indep_of_flag e h.1 hf.1, indeps_of_flag es h.2 hf.2⟩

end

/-- **An initialiser that is accepted gives the same value for all targets.**  Missing: initialisers that use `programCount` or
`TARGET_WIDTH`, and those that use the size of uniform types with varying parts, where it is false
(`program_count_wrong`, `sizeof_wrong`). -/
theorem accepted_partial (d : Decl) (e : IExp) (he : d.init = some e) (hd : d.accepted = true) (hs : d.stat = false)
    (hx : d.extern = false) (hh : e.honest) (t t' : LTy) (ht : t.shape = t'.shape) (w w' o : Nat) :
    e.place w t o = e.place w' t' o := by
  refine e.place_eq w w' (.inl (indep_of_flag e hh ?_)) t t' ht o
  simpa [Decl.accepted, hs, hx, he] using hd

/-- `struct { int *p; unsigned int n; } x = { &a[2], sizeof(float) };` -/
def decl₁ : Decl where
  name := 1
  stat := false
  extern := false
  cst := false
  ty := .struct 0 false (.cons (.ptr false) (.cons (.scal 4 false) .nil))
  align := none
  init := some (.list (.cons (.addr 0 (.arr 4 (.scal 4 false)) (.cons (.const fun _ => 2) .nil))
    (.cons (.sizeof (.scal 4 false)) .nil)))

example : decl₁.accepted = true ∧ (∃ e, decl₁.init = some e ∧ e.honest) ∧
    (decl₁.global 1 8 none).init = some [(0, .addr 0 8), (8, .num 4)] :=
  ⟨rfl, ⟨_, rfl, ⟨⟨rfl, ⟨fun _ _ => rfl, trivial⟩⟩, ⟨.inr rfl, trivial⟩⟩⟩, rfl⟩

/-- `sizeof` of a varying type is refused. -/
example : ({ decl₁ with init := some (.list (.cons .null (.cons (.sizeof (.scal 4 true)) .nil))) } : Decl).accepted = false :=
  rfl

/-! ### The program that is linked -/

theorem mem_modules {P : List Decl} {al : Nat → Decl → Option Nat} {ws : List Nat} {i w : Nat} (h : ws[i]? = some w) :
    (modules P al ws)[i]? = some (P.map fun d => d.global i w (al i d)) := by
  simp [modules, h]

theorem global_isDef (i w : Nat) (a : Option Nat) (d : Decl) :
    (d.global i w a).isDef = (!d.stat && !d.extern) := by
  cases hx : d.extern <;> simp [Decl.global, Global.isDef, hx]

theorem names_modules (P : List Decl) (i w : Nat) (al : Decl → Option Nat) :
    (P.map fun d => d.global i w (al d)).map (·.name) = P.map (·.name) := by
  simp [Decl.global, Function.comp_def]

theorem decl_unique {P : List Decl} (hn : (P.map (·.name)).Nodup) {d d' : Decl} (h : d ∈ P) (h' : d' ∈ P)
    (he : d.name = d'.name) : d = d' := by
  induction P with
  | nil => cases h
  | cons a P ih =>
    simp only [List.map_cons, List.nodup_cons] at hn
    rcases List.mem_cons.1 h with rfl | h1 <;> rcases List.mem_cons.1 h' with rfl | h2
    · rfl
    · exact absurd (List.mem_map_of_mem (f := (·.name)) h2) (he ▸ hn.1)
    · exact absurd (List.mem_map_of_mem (f := (·.name)) h1) (he ▸ hn.1)
    · exact ih hn.2 h1 h2

theorem contents_eq {res res' : Nat → Stor} {i i' : Nat} {l : List (Nat × ICell)}
    (h : ∀ p ∈ l, p.2.val res i = p.2.val res' i') : contents res i l = contents res' i' l := by
  funext o
  unfold contents
  cases hf : l.find? (fun p => (p.1 : Int) = o) with
  | none => rfl
  | some p => exact h p (List.mem_of_find?_eq_some hf)

/-- The linked program has the objects of the program compiled for one target. -/
theorem refines (P : List Decl) (al : Nat → Decl → Option Nat) (w0 : Nat) (ws : List Nat) (hn : (P.map (·.name)).Nodup)
    (hal : ∀ j w, (w0 :: ws)[j]? = some w → ∀ d ∈ P, Raised (d.ty.lower j w) d.align (al j d))
    (defs : List Global) (hb : build (modules P al (w0 :: ws)) = some (defs, [])) (host : Nat → Option Obj) (i w : Nat)
    (hw : (w0 :: ws)[i]? = some w)
    (hi : ∀ d ∈ P, d.stat = false → ∀ e, d.init = some e → e.indep ∨ w0 = w) :
    Refines (single (modules P al (w0 :: ws)) host i) (linked (modules P al (w0 :: ws)) defs host) := by
  have hm0 : (w0 :: ws)[0]? = some w0 := rfl
  obtain ⟨ms, hms⟩ : ∃ ms, modules P al (w0 :: ws) = (P.map fun d => d.global 0 w0 (al 0 d)) :: ms := by
    simp [modules, List.mapIdx_cons]
  have hmi := mem_modules (P := P) (al := al) hw
  rw [hms] at hb
  obtain ⟨hc, hr⟩ := build_checked hb
  have hn0 : (((P.map fun d => d.global 0 w0 (al 0 d)).filter Global.isDef).map (·.name)).Nodup :=
    (names_modules P 0 w0 (al 0) ▸ hn : ((P.map fun d => d.global 0 w0 (al 0 d)).map (·.name)).Nodup).sublist
      (List.Sublist.map _ List.filter_sublist)
  -- all modules but the first
  have hmem : ∀ j wj, (w0 :: ws)[j]? = some wj → j ≠ 0 → ∀ d ∈ P, d.global j wj (al j d) ∈ ms.flatten := by
    intro j wj hj hj0 d hd
    have h1 := mem_modules (P := P) (al := al) hj
    rw [hms] at h1
    cases j with
    | zero => exact absurd rfl hj0
    | succ j =>
      simp only [List.getElem?_cons_succ] at h1
      exact List.mem_flatten.2 ⟨_, List.mem_of_getElem? h1, List.mem_map_of_mem hd⟩
  have hback : ∀ g ∈ ms.flatten, ∃ j wj, (w0 :: ws)[j]? = some wj ∧ ∃ d ∈ P, g = d.global j wj (al j d) := by
    intro g hg
    obtain ⟨x, hx, hgx⟩ := List.mem_flatten.1 hg
    obtain ⟨j, hj⟩ := List.mem_iff_getElem?.1 hx
    have h1 : (modules P al (w0 :: ws))[j + 1]? = some x := by rw [hms]; simpa using hj
    cases hwj : (w0 :: ws)[j + 1]? with
    | none =>
      simp only [modules, List.getElem?_mapIdx, hwj] at h1
      cases h1
    | some wj =>
      rw [mem_modules hwj] at h1
      cases h1
      obtain ⟨d, hd, rfl⟩ := List.mem_map.1 hgx
      exact ⟨j + 1, wj, hwj, d, hd, rfl⟩
  -- the definition of a variable that module `j` defines
  have hfirst : ∀ d ∈ P, d.stat = false → d.extern = false →
      look ((P.map fun d => d.global 0 w0 (al 0 d)).filter Global.isDef) d.name = some (d.global 0 w0 (al 0 d)) := by
    intro d hd h1 h2
    exact look_of_mem hn0 (List.mem_filter.2 ⟨List.mem_map_of_mem hd, by simp [global_isDef, h1, h2]⟩)
  have hshape : ∀ d ∈ P, d.stat = false → d.extern = false → ∀ j wj, (w0 :: ws)[j]? = some wj →
      (d.ty.lower 0 w0).shape = (d.ty.lower j wj).shape := by
    intro d hd h1 h2 j wj hj
    by_cases hj0 : j = 0
    · subst hj0
      rw [hm0] at hj
      cases hj
      rfl
    · obtain ⟨d0, h3, h4⟩ := hc.all _ (hmem j wj hj hj0 d hd) (by simp [global_isDef, h1, h2])
      have h5 := hfirst d hd h1 h2
      have h6 : (d.global j wj (al j d)).name = d.name := rfl
      rw [h6, h5] at h3
      cases h3
      exact compat_shape (h4 rfl)
  intro s o hs
  cases s with
  | int j n =>
    simp only [single] at hs
    split at hs
    · rename_i hj
      subst hj
      exact ⟨o, hs, rfl, Nat.le_refl _, rfl, rfl⟩
    · cases hs
  | ext n =>
    simp only [single, hmi] at hs
    cases hf : findDef (P.map fun d => d.global i w (al i d)) n with
    | none =>
      rw [hf] at hs
      refine ⟨o, ?_, rfl, Nat.le_refl _, rfl, rfl⟩
      have : findDef defs n = none := by
        apply findDef_none
        apply hc.absent
        cases hl : look ((P.map fun d => d.global 0 w0 (al 0 d)).filter Global.isDef) n with
        | none => rfl
        | some g =>
          have h1 := List.mem_filter.1 (List.mem_of_find?_eq_some hl)
          obtain ⟨d, hd, rfl⟩ := List.mem_map.1 h1.1
          have h2 := List.find?_eq_none.1 hf (d.global i w (al i d)) (List.mem_map_of_mem hd)
          have h3 : d.name = n := look_name hl
          have h4 : (d.global i w (al i d)).name = n := h3
          rw [global_isDef] at h1 h2
          simp [h1.2, h4] at h2
      simp only [linked, this]
      exact hs
    | some g =>
      rw [hf] at hs
      cases hs
      obtain ⟨h1, h2, h3⟩ := findDef_some hf
      obtain ⟨d, hd, rfl⟩ := List.mem_map.1 h1
      rw [global_isDef] at h2
      simp only [Bool.and_eq_true, Bool.not_eq_true'] at h2
      have h3 : d.name = n := h3
      subst h3
      obtain ⟨A, hA, hle0, hle, hor⟩ := hc.present _ _ (hfirst d hd h2.1 h2.2)
      have hsh := hshape d hd h2.1 h2.2 i w hw
      have hinit : (d.global 0 w0 (al 0 d)).init = (d.global i w (al i d)).init := by
        simp only [Decl.global, h2.2]
        cases he : d.init with
        | none => rfl
        | some e => simp only [e.place_eq w0 w (hi d hd h2.1 e he) _ _ hsh 0]
      refine ⟨({ d.global 0 w0 (al 0 d) with align := A } : Global).obj .ext 0, ?_, LTy.size_eq hsh, ?_, rfl, ?_⟩
      · simp only [linked]
        rw [look_findDef hA (by
          have := global_isDef 0 w0 (al 0 d) d
          simp only [Global.isDef, h2.1, h2.2] at this ⊢
          simpa using this)]
      · show (al i d).getD (d.ty.lower i w).al ≤ A.getD (d.ty.lower 0 w0).al
        cases hai : al i d with
        | some x =>
          have hx : AlLe (al i d) A := by
            by_cases hi0 : i = 0
            · subst hi0
              exact hle0
            · exact hle _ (hmem i w hw hi0 d hd) (by simp [global_isDef, h2.1, h2.2]) rfl
          obtain ⟨y, hy, hxy⟩ := hx x hai
          rw [hy]
          exact hxy
        | none =>
          have hdn : d.align = none := by
            rcases hal i w hw d hd with h | ⟨x, h, -⟩
            · rw [← h, hai]
            · rw [hai] at h; cases h
          cases hAy : A with
          | none =>
            show (d.ty.lower i w).al ≤ (d.ty.lower 0 w0).al
            rw [LTy.al_eq hsh]
            exact Nat.le_refl _
          | some y =>
            have key : ∃ j wj, (w0 :: ws)[j]? = some wj ∧ al j d = some y := by
              rcases hor with h | ⟨g, hg, hgd, hgn, h⟩
              · exact ⟨0, w0, hm0, by rw [← hAy, h]; rfl⟩
              · obtain ⟨j, wj, hj, d', hd', rfl⟩ := hback g hg
                have : d' = d := decl_unique hn hd' hd hgn
                subst this
                exact ⟨j, wj, hj, by rw [← hAy, h]; rfl⟩
            obtain ⟨j, wj, hj, hy⟩ := key
            rcases hal j wj hj d hd with h | ⟨x, h, hx⟩
            · rw [h, hdn] at hy; cases hy
            · rw [hy] at h
              cases h
              rw [hdn] at hx
              show (d.ty.lower i w).al ≤ y
              rw [LTy.al_eq (hsh.symm.trans (hshape d hd h2.1 h2.2 j wj hj))]
              exact hx
      · show contents Stor.ext 0 ((d.global 0 w0 (al 0 d)).init.getD []) = _
        simp only [Global.obj]
        rw [hinit]
        apply contents_eq
        intro p hp
        have hd0 : d.global 0 w0 (al 0 d) ∈ (P.map fun d => d.global 0 w0 (al 0 d)).filter Global.isDef :=
          List.mem_filter.2 ⟨List.mem_map_of_mem hd, by simp [global_isDef, h2.1, h2.2]⟩
        rw [← hinit] at hp
        cases hpc : p.2 with
        | num n => rfl
        | fn f =>
          have : none ∈ (d.global 0 w0 (al 0 d)).refs :=
            List.mem_filterMap.2 ⟨p, hp, by rw [hpc]⟩
          obtain ⟨n, hh, -⟩ := hr _ hd0 _ this
          cases hh
        | addr n off =>
          have : some n ∈ (d.global 0 w0 (al 0 d)).refs :=
            List.mem_filterMap.2 ⟨p, hp, by rw [hpc]⟩
          obtain ⟨n', hh, g', hg', hgn⟩ := hr _ hd0 _ this
          cases hh
          have hg' := List.mem_filter.1 hg'
          obtain ⟨d', hd', rfl⟩ := List.mem_map.1 hg'.1
          have hext : d'.stat = false := by
            have := hg'.2
            rw [global_isDef] at this
            simp only [Bool.and_eq_true, Bool.not_eq_true'] at this
            exact this.1
          have hany : ((P.map fun d => d.global i w (al i d)).any fun g => g.name == n && !g.ext) = false := by
            rw [List.any_eq_false]
            intro g hg
            obtain ⟨d'', hd'', rfl⟩ := List.mem_map.1 hg
            intro hcon
            simp only [Bool.and_eq_true, beq_iff_eq] at hcon
            have : d'' = d' := decl_unique hn hd'' hd' (hcon.1.trans hgn.symm)
            subst this
            simp [Decl.global, hext] at hcon
          simp [ICell.val, resolve, hany]

/-- **A program compiled for several targets does what it does when compiled for the target that is selected alone**: if all
the functions that an application calls are dispatched to the variant of target `i`, then every history of calls and
accesses that is defined with the program compiled for that target gives the same values with the program compiled for
all of them.  All names are declared once; the alignments are those declared or greater ones.  Missing: programs with a
warning about a variable, initialisers that depend on the gang size, and functions that are dispatched to different
variants, where the claim is false (`mismatch_wrong`, `program_count_wrong`, `static_wrong`). -/
theorem as_single_partial (P : List Decl) (al : Nat → Decl → Option Nat) (w0 : Nat) (ws : List Nat)
    (hn : (P.map (·.name)).Nodup)
    (hal : ∀ j w, (w0 :: ws)[j]? = some w → ∀ d ∈ P, Raised (d.ty.lower j w) d.align (al j d))
    (defs : List Global) (hb : build (modules P al (w0 :: ws)) = some (defs, [])) (host : Nat → Option Obj) (i w : Nat)
    (hw : (w0 :: ws)[i]? = some w)
    (hi : ∀ d ∈ P, d.stat = false → ∀ e, d.init = some e → e.indep ∨ w0 = w)
    (code : Code) (pick : Nat → Option Nat) (ops : List Op) (hp : ∀ f args, Op.call f args ∈ ops → pick f = some i)
    (vs : List Val)
    (hs : run (single (modules P al (w0 :: ws)) host i) (modules P al (w0 :: ws)) code (fun _ => some i) ops
      (startMem (single (modules P al (w0 :: ws)) host i)) = some vs) :
    run (linked (modules P al (w0 :: ws)) defs host) (modules P al (w0 :: ws)) code pick ops
      (startMem (linked (modules P al (w0 :: ws)) defs host)) = some vs :=
  have hr := refines P al w0 ws hn hal defs hb host i w hw hi
  run_refines hr _ code i pick ops hp (startMem_agree hr) hs

/-! ### A program -/

/-- `int a[4] = {7, 8, 9, 10}; struct { int *p; unsigned int n; } x = { &a[2], sizeof(float) }; static int c = 5;
extern int h;` -/
def prog : List Decl :=
  [ { name := 0, stat := false, extern := false, cst := false, ty := .arr 4 (.scal 4 false), align := none,
      init := some (.list (.cons (.const fun _ => 7) (.cons (.const fun _ => 8) (.cons (.const fun _ => 9)
        (.cons (.const fun _ => 10) .nil))))) },
    decl₁,
    { name := 2, stat := true, extern := false, cst := false, ty := .scal 4 false, align := none,
      init := some (.const fun _ => 5) },
    { name := 3, stat := false, extern := true, cst := false, ty := .scal 4 false, align := none, init := none } ]

/-- The address of the start of a name. -/
def here (s : Stor) : Val := .ptr s 0

/-- Function 0 gives `*x.p`; function 1 sets `c` to its argument and gives the old value; function 2 gives `h`. -/
def progCode : Code := fun _ f res args => match f with
  | 0 => .load (here (res 1)) 8 fun p => .load p 4 .ret
  | 1 => .load (here (res 2)) 4 fun v => .store (here (res 2)) 4 (args.headD (.num 0)) (.ret v)
  | _ => .load (here (res 3)) 4 .ret

/-- `int h = 3;` of the application. -/
def progHost : Nat → Option Obj := fun n => if n = 3 then some ⟨4, 4, false, fun _ => .num 3⟩ else none

/-- The optimiser aligns `a` to 16 bytes for the second target. -/
def progAl : Nat → Decl → Option Nat := fun i d => if i = 1 ∧ d.name = 0 then some 16 else d.align

def progMods : List (List Global) := modules prog progAl [4, 8]

def progDefs : List Global :=
  match build progMods with
  | some (ds, _) => ds
  | none => []

/-- The application writes to `a[2]` between its calls. -/
def progOps : List Op :=
  [.call 0 [], .access (.store (.ptr (.ext 0) 8) 4 (.num 11) (.ret (.num 0))), .call 0 [], .call 1 [.num 6], .call 1 [.num 0],
    .call 2 []]

theorem prog_build : build progMods = some (progDefs, []) := rfl

example : run (linked progMods progDefs progHost) progMods progCode (fun _ => some 1) progOps
      (startMem (linked progMods progDefs progHost)) = some [.num 9, .num 0, .num 11, .num 5, .num 6, .num 3] := by
  refine as_single_partial prog progAl 4 [8] (by decide) ?_ progDefs prog_build progHost 1 8 rfl ?_ progCode (fun _ => some 1)
    progOps (fun _ _ _ => rfl) _ rfl
  · intro j w _ d hd
    unfold progAl
    by_cases h : j = 1 ∧ d.name = 0
    · rw [if_pos h]
      refine .inr ⟨16, rfl, ?_⟩
      simp only [prog, List.mem_cons, List.not_mem_nil, or_false] at hd
      rcases hd with rfl | rfl | rfl | rfl
      · simp [Ty.lower, LTy.al]
      · simp [decl₁] at h
      · simp at h
      · simp at h
    · rw [if_neg h]
      exact .inl rfl
  · intro d hd hs e he
    left
    simp only [prog, List.mem_cons, List.not_mem_nil, or_false] at hd
    rcases hd with rfl | rfl | rfl | rfl
    · cases he
      simp [IExp.indep, IExps.indep]
    · cases he
      exact ⟨⟨rfl, ⟨fun _ _ => rfl, trivial⟩⟩, ⟨rfl, trivial⟩⟩
    · cases hs
    · cases he

/-- `aligned`, `defined_once` and `restored` for the program. -/
example : (findDef progDefs 0).map (·.align) = some (some 16) ∧ definitions (progDefs :: progMods.map reset) 0 = 1 ∧
    definitions (progDefs :: progMods.map reset) 3 = 0 ∧
    progMods.map (fun m => restore (reset m) (saved m)) = progMods := by decide

/-- **All calls go to the same variant**, in all executions of any number of threads, if all functions were compiled for the
same targets: the hypothesis of `as_single_partial` on what is picked. -/
theorem same_pick {F : Type} [DecidableEq F] {mac : Bool} {c : Detect.Cpu} {has : F → Detect.Isa → Bool}
    {s : Dispatch.St F} (h : Dispatch.Reach Dispatch.Unordered mac c has s) (hs : ∀ f g i, has f i = has g i) {f g : F}
    {i j : Detect.Isa} (hi : (f, i) ∈ s.log) (hj : (g, j) ∈ s.log) : i = j := by
  have h1 := Dispatch.always_same_variant h hi
  have h2 := Dispatch.always_same_variant h hj
  rw [funext (hs f g), h2] at h1
  exact (Option.some.inj h1).symm

/-- Two functions called by two threads. -/
example : (Dispatch.runU false (Detect.machine Detect.haswell 7)
    (fun _ : Bool => Dispatch.compiled [.sse4_i32x4, .avx2_i32x8])
    (List.replicate 7 (0, true, none) ++ [(0, true, some .avx2)] ++ List.replicate 5 (1, false, none) ++ [(1, false, some .avx2)])
    Dispatch.start).map (fun s => s.log) = some [(false, .avx2), (true, .avx2)] := by decide +kernel

/-! ### Where the claims are false -/

/-- **An initialiser with `programCount` is accepted, and all variants get the value of the first target**: `int w =
programCount;` is 4 in the variant for 8 lanes. -/
theorem program_count_wrong : ∃ (d : Decl) (defs : List Global), d.accepted = true ∧
    build (modules [d] (fun _ d => d.align) [4, 8]) = some (defs, []) ∧
    ∀ host code, code = (fun _ _ res _ => .load (here (res d.name)) 4 .ret : Code) →
      run (single (modules [d] (fun _ d => d.align) [4, 8]) host 1) (modules [d] (fun _ d => d.align) [4, 8]) code
        (fun _ => some 1) [.call 0 []] (startMem (single (modules [d] (fun _ d => d.align) [4, 8]) host 1))
        = some [.num 8] ∧
      run (linked (modules [d] (fun _ d => d.align) [4, 8]) defs host) (modules [d] (fun _ d => d.align) [4, 8]) code
        (fun _ => some 1) [.call 0 []] (startMem (linked (modules [d] (fun _ d => d.align) [4, 8]) defs host))
        = some [.num 4] := by
  refine ⟨⟨0, false, false, false, .scal 4 false, none, some (.const fun w => w)⟩, _, rfl, rfl, fun host code h => ?_⟩
  subst h
  exact ⟨rfl, rfl⟩

/-- **The size of a uniform struct with varying members is accepted**: `int s = sizeof(uniform S)` for `struct S { varying
float x; };` is 16 in the variant for 8 lanes, where the size is 32. -/
theorem sizeof_wrong : ∃ (d : Decl) (defs : List Global), d.accepted = true ∧
    build (modules [d] (fun _ d => d.align) [4, 8]) = some (defs, []) ∧
    (findDef defs d.name).map (·.init) = some (some [(0, .num 16)]) ∧
    (d.global 1 8 none).init = some [(0, .num 32)] := by
  exact ⟨⟨0, false, false, false, .scal 4 false, none,
    some (.sizeof (.struct 0 false (.cons (.scal 4 true) .nil)))⟩, _, rfl, rfl, rfl, rfl⟩

/-- **Layouts that differ are only warned about**, and the code of a variant then runs past the variable: `varying float v;`
takes 16 bytes, and the variant for 8 lanes uses 32. -/
theorem mismatch_wrong : ∃ (d : Decl) (defs : List Global), d.accepted = true ∧
    build (modules [d] (fun _ d => d.align) [4, 8]) = some (defs, [d.name]) ∧
    ∀ host code, code = (fun _ _ res _ => .load (.ptr (res d.name) 28) 4 .ret : Code) →
      run (single (modules [d] (fun _ d => d.align) [4, 8]) host 1) (modules [d] (fun _ d => d.align) [4, 8]) code
        (fun _ => some 1) [.call 0 []] (startMem (single (modules [d] (fun _ d => d.align) [4, 8]) host 1))
        = some [.num 0] ∧
      run (linked (modules [d] (fun _ d => d.align) [4, 8]) defs host) (modules [d] (fun _ d => d.align) [4, 8]) code
        (fun _ => some 1) [.call 0 []] (startMem (linked (modules [d] (fun _ d => d.align) [4, 8]) defs host))
        = none := by
  refine ⟨⟨0, false, false, false, .scal 4 true, none, none⟩, _, rfl, rfl, fun host code h => ?_⟩
  subst h
  exact ⟨rfl, rfl⟩

/-- **An initialiser that refers to a static variable, to one of the application or to a function makes no valid program**,
although it is accepted: `static int s; int *p = &s;`, `extern int h; int *p = &h;`, `fn` for `int (*p)() = f;`. -/
theorem reference_wrong (w w' : Nat) (stat : Bool) :
    let s : Decl := ⟨0, stat, !stat, false, .scal 4 false, none, none⟩
    let p : Decl := ⟨1, false, false, false, .ptr false, none, some (.addr 0 (.scal 4 false) .nil)⟩
    let q : Decl := ⟨2, false, false, false, .ptr false, none, some (.fn 0)⟩
    p.accepted = true ∧ q.accepted = true ∧ build (modules [s, p] (fun _ d => d.align) [w, w']) = none ∧
      build (modules [q] (fun _ d => d.align) [w, w']) = none := by
  cases stat <;> exact ⟨rfl, rfl, rfl, rfl⟩

/-- **A variable that the first target does not define stops the compiler**: `#if TARGET_WIDTH == 8 / int x; / #endif`. -/
theorem later_wrong (g : Global) (hg : g.isDef = true) (m : List Global) (hm : ∀ d ∈ m, d.name ≠ g.name) :
    build [m, [g]] = none := by
  cases hb : build [m, [g]] with
  | none => rfl
  | some r =>
    obtain ⟨defs, ws⟩ := r
    obtain ⟨hc, -⟩ := build_checked hb
    obtain ⟨d, hd, -⟩ := hc.all g (by simp) hg
    have h1 := List.mem_filter.1 (List.mem_of_find?_eq_some hd)
    exact absurd (look_name hd) (hm d h1.1)

example : build [[], [(decl₁.global 1 8 none)]] = none := later_wrong _ rfl _ (by simp)

/-- **A static variable is one per variant**: if two functions are dispatched to different variants, what one stores to `static
int c;` the other does not read. -/
theorem static_wrong : ∃ (d : Decl) (code : Code) (ops : List Op), d.stat = true ∧
    build (modules [d] (fun _ d => d.align) [4, 8]) = some ([], []) ∧
    (∀ i < 2, run (single (modules [d] (fun _ d => d.align) [4, 8]) (fun _ => none) i)
      (modules [d] (fun _ d => d.align) [4, 8]) code (fun _ => some i) ops
      (startMem (single (modules [d] (fun _ d => d.align) [4, 8]) (fun _ => none) i)) = some [.num 0, .num 1]) ∧
    run (linked (modules [d] (fun _ d => d.align) [4, 8]) [] (fun _ => none)) (modules [d] (fun _ d => d.align) [4, 8]) code
      (fun f => some f) ops (startMem (linked (modules [d] (fun _ d => d.align) [4, 8]) [] (fun _ => none)))
      = some [.num 0, .num 0] := by
  refine ⟨⟨0, true, false, false, .scal 4 false, none, none⟩,
    fun _ f res _ => match f with
      | 0 => .store (here (res 0)) 4 (.num 1) (.ret (.num 0))
      | _ => .load (here (res 0)) 4 .ret,
    [.call 0 [], .call 1 []], rfl, rfl, ?_, rfl⟩
  intro i hi
  match i, hi with
  | 0, _ => rfl
  | 1, _ => rfl

/-- **An alignment that a target gives replaces the natural one of the first target, even if it is smaller.** -/
theorem lowered_wrong : ∃ (g g' : Global) (defs : List Global), g.ty = g'.ty ∧ build [[g], [g']] = some (defs, []) ∧
    ∃ d, findDef defs g.name = some d ∧ d.align.getD d.ty.al < g.align.getD g.ty.al :=
  ⟨⟨0, true, false, .scal 4, none, some []⟩, ⟨0, true, false, .scal 4, some 1, some []⟩, _, rfl, rfl, _, rfl, by decide⟩

end Ispc.Multi
