import Mathlib.Tactic.IntervalCases
import Mathlib.Data.List.Nodup
import Verif.Front.Header

/-!
# The generated header describes the memory of ispc

C56.  For every struct without the constructs listed in `Ok` the C declaration puts every scalar where
ispc has it, and has the same size and alignment.  For each of the constructs that `Ok` leaves out there is
a theorem that shows what goes wrong.
-/

namespace Ispc.Header

/-! ## Where it is right -/

/-- The target is as the header expects: the scalars of C are those of LLVM, vectors of a whole gang
have no padding, and the alignment of a short vector gives its struct the size of the LLVM vector. -/
structure DL.Good (D : DL) : Prop where
  csize  : D.csize = D.size
  calign : D.calign = D.align
  pos    : ∀ k, 0 < D.align k
  gang   : ∀ k, D.align k ≤ D.valign (D.W * D.size k) ∧
    roundUp (D.W * D.size k) (D.valign (D.W * D.size k)) = D.W * D.size k
  short  : ∀ k n, 0 < n → D.align k ≤ (D.short k n .uniform).2 ∧
    roundUp (n * D.size k) (D.short k n .uniform).2 = (D.short k n .uniform).1

/-- Pointers, short vectors and arrays of them: their name is printed even if it begins with `__`. -/
def HasName : Ty → Prop
  | .ptr .. | .vec .. => True
  | .arr _ t => HasName t
  | _ => False

mutual
/-- The members for which the declaration is right. -/
def Ok (D : DL) (v : Vb) : Ty → Prop
  | .atom _ _  => True
  | .enum x    => v.resolve x ≠ .varying
  | .ptr b x   => v.resolve x = .uniform ∨ b = .plain ∧ v.resolve x ≠ .varying
  | .vec _ n x => v.resolve x = .uniform ∧ 0 < n
  | .arr _ t   => OkElem D v t
  | .struct _ a x ms => a ≤ (llays D (v.resolve x) ms 0 1 true).2 ∧ Oks D (v.resolve x) ms
/-- The types for which the declaration of an array of them is right. -/
def OkElem (D : DL) (v : Vb) : Ty → Prop
  | .atom _ _  => True
  | .enum _    => True
  | .ptr b _   => b = .plain
  | .vec _ n x => v.resolve x = .uniform ∧ 0 < n
  | .arr _ t   => OkElem D v t
  | .struct _ a x ms => v.resolve x = .uniform ∧ a ≤ (llays D .uniform ms 0 1 true).2 ∧ Oks D .uniform ms
/-- All members are, and have names that are printed. -/
def Oks (D : DL) (v : Vb) : Ms → Prop
  | .nil               => True
  | .cons shown t rest => (shown = true ∨ HasName t) ∧ Ok D v t ∧ Oks D v rest
end

theorem printable_iff (shown : Bool) : ∀ t : Ty, printable shown t = true ↔ shown = true ∨ HasName t
  | .atom .. | .enum .. | .struct .. => by simp [printable, HasName]
  | .ptr .. | .vec .. => by simp [printable, HasName]
  | .arr _ t => by rw [printable, HasName]; exact printable_iff shown t

/-- No variability is left open. -/
theorem resolve_ne {v : Vb} (hv : v ≠ .unbound) (x : Vb) : v.resolve x ≠ .unbound := by
  cases x <;> simp [Vb.resolve, hv]

theorem vb_ne {v : Vb} (hv : v ≠ .unbound) : ∀ t : Ty, t.vb v ≠ .unbound
  | .atom _ x | .enum x | .ptr _ x | .vec _ _ x | .struct _ _ x _ => resolve_ne hv x
  | .arr _ t => vb_ne hv t

/-- A list over the indices, read as a map. -/
theorem flatMap_single {α β : Type} (f : α → β) (l : List α) : (l.flatMap fun i => [f i]) = l.map f := by
  induction l with
  | nil => rfl
  | cons a l ih => simp [List.flatMap_cons, ih]

/-! ### The alignment of a struct -/

/-- The largest alignment of a member. -/
def malign (D : DL) (v : Vb) : Ms → Nat
  | .nil           => 1
  | .cons _ t rest => max (llay D v t).2 (malign D v rest)

theorem llays_align (D : DL) (v : Vb) : ∀ (ms : Ms) (off al : Nat) (e : Bool), 1 ≤ al →
    (llays D v ms off al e).2 = max al (malign D v ms)
  | .nil, off, al, e, h => by simp [llays, malign]; omega
  | .cons s t rest, off, al, e, h => by
    rw [llays, llays_align D v rest _ _ _ (by omega), malign]
    omega

/-- A larger alignment to begin with changes nothing if it is not larger than that of the struct. -/
theorem llays_start (D : DL) (v : Vb) : ∀ (ms : Ms) (off al al' : Nat) (e : Bool), 1 ≤ al → 1 ≤ al' →
    max al (malign D v ms) = max al' (malign D v ms) → llays D v ms off al e = llays D v ms off al' e
  | .nil, off, al, al', e, h, h', heq => by
    simp only [malign] at heq
    have : al = al' := by omega
    rw [this]
  | .cons s t rest, off, al, al', e, h, h', heq => by
    rw [llays, llays]
    apply llays_start D v rest _ _ _ _ (by omega) (by omega)
    rw [malign] at heq
    omega

theorem llay_pos {D : DL} (hD : D.Good) {v : Vb} (hv : v ≠ .unbound) : ∀ t : Ty, OkElem D v t ∨ Ok D v t → 1 ≤ (llay D v t).2
  | .atom k x, _ => by
    have := hD.pos k; have := (hD.gang k).1; have := resolve_ne hv x
    rw [llay]; cases hx : v.resolve x <;> simp_all [DL.scalar, DL.vector] <;> omega
  | .enum x, _ => by
    have := hD.pos .enum; have := (hD.gang .enum).1; have := resolve_ne hv x
    rw [llay]; cases hx : v.resolve x <;> simp_all [DL.scalar, DL.vector] <;> omega
  | .ptr b x, _ => by
    have := hD.pos .pointer; have := (hD.gang .pointer).1; have := resolve_ne hv x
    rw [llay]; cases hx : v.resolve x <;> simp_all [DL.scalar, DL.vector] <;> omega
  | .vec k n x, h => by
    have hx : v.resolve x = .uniform ∧ 0 < n := by rcases h with h | h <;> simpa [OkElem, Ok] using h
    have := hD.pos k; have := (hD.short k n hx.2).1
    rw [llay, hx.1]; omega
  | .arr n t, h => by
    rw [llay]
    exact llay_pos hD hv t (Or.inl (by rcases h with h | h <;> simpa [OkElem, Ok] using h))
  | .struct _ a x ms, _ => by
    rw [llay, llays_align D _ ms _ _ _ (Nat.le_refl 1)]
    omega

/-! ### The declarations -/

/-- The C type `c` is right for a member of type `t`; its alignment may still be too small if the member
is varying, since then the declaration of the member states one. -/
structure Agree (D : DL) (v : Vb) (t : Ty) (c : CTy) : Prop where
  size  : (clay D c).1 = (llay D v t).1
  flat  : ∀ base p, cflat D c base p none = lflat D v t base p
  le    : (clay D c).2 ≤ (llay D v t).2
  align : t.vb v ≠ .varying ∨ t.isStruct = true → (clay D c).2 = (llay D v t).2

/-- A scalar with its lanes. -/
theorem scalar_lanes {D : DL} (hD : D.Good) (k : Scal) (v : Vb) (hv : v ≠ .unbound) (base : Nat) (p : List Nat) :
    (clay D ((CTy.scal k).inLanes D v)).1 = (D.scalar k v).1 ∧
    cflat D ((CTy.scal k).inLanes D v) base p none = D.scalars k base p v ∧
    (clay D ((CTy.scal k).inLanes D v)).2 ≤ (D.scalar k v).2 ∧
    (v ≠ .varying → (clay D ((CTy.scal k).inLanes D v)).2 = (D.scalar k v).2) := by
  have h1 := (hD.gang k).1
  have h2 := (hD.gang k).2
  cases v with
  | unbound => exact absurd rfl hv
  | uniform => simp [CTy.inLanes, clay, DL.scalar, cflat, DL.scalars, hD.csize, hD.calign]
  | varying =>
    simp only [CTy.inLanes, clay, DL.scalar, DL.vector, cflat, DL.scalars, hD.csize, hD.calign]
    exact ⟨h2.symm, flatMap_single _ _, h1, fun h => absurd rfl h⟩
  | soa w =>
    simp only [CTy.inLanes, clay, DL.scalar, cflat, DL.scalars, hD.csize, hD.calign]
    exact ⟨trivial, flatMap_single _ _, Nat.le_refl _, fun _ => trivial⟩

theorem short_agree {D : DL} (hD : D.Good) (k : Scal) (n : Nat) (hn : 0 < n) (base : Nat) (p : List Nat) :
    clay D (shortStruct D k n) = D.short k n .uniform ∧
    cflat D (shortStruct D k n) base p none = D.shorts k n base p .uniform := by
  obtain ⟨h1, h2⟩ := hD.short k n hn
  refine ⟨?_, ?_⟩
  · rw [shortStruct, clay, hD.csize, hD.calign, Nat.max_eq_left h1, h2]
  · rw [shortStruct, cflat, DL.shorts, hD.csize]

theorem needsAlign_cons {v : Vb} {s : Bool} {t : Ty} {rest : Ms} (h : needsAlign v (.cons s t rest) = false) :
    (t.vb v = .varying → t.isStruct = true) ∧ needsAlign v rest = false := by
  rw [needsAlign, Bool.or_eq_false_iff] at h
  refine ⟨fun hv => ?_, h.2⟩
  have := h.1
  simp only [hv, decide_true, Bool.true_and, Bool.not_eq_false'] at this
  exact this

theorem parens_ok {D : DL} {v : Vb} : ∀ {t : Ty}, OkElem D v t → t.parens = none
  | .atom .., _ | .enum .., _ | .vec .., _ | .struct .., _ => rfl
  | .ptr b _, h => by
    rw [OkElem] at h
    subst h; rfl
  | .arr _ t, h => by
    rw [OkElem] at h
    rw [Ty.parens]
    exact parens_ok h

mutual
theorem decl_ok {D : DL} (hD : D.Good) : ∀ (t : Ty) (v : Vb), v ≠ .unbound → Ok D v t →
    ∃ c, decl D v t = some c ∧ Agree D v t (if expanded v t then .lanes D.W c else c)
  | .atom k x, v, hv, _ => by
    have hx := resolve_ne hv x
    refine ⟨declAtom k (v.resolve x), by rw [decl], ?_⟩
    have he : (if expanded v (.atom k x) then CTy.lanes D.W (declAtom k (v.resolve x)) else declAtom k (v.resolve x)) =
        (CTy.scal k).inLanes D (v.resolve x) := by
      cases h : v.resolve x <;> simp_all [expanded, Ty.isArr, Ty.isPtr, Ty.isStruct, Ty.vb, declAtom, CTy.inLanes]
    rw [he]
    constructor
    · rw [llay]; exact (scalar_lanes hD k _ hx 0 []).1
    · intro base p; rw [lflat]; exact (scalar_lanes hD k _ hx base p).2.1
    · rw [llay]; exact (scalar_lanes hD k _ hx 0 []).2.2.1
    · intro h
      rw [llay]
      exact (scalar_lanes hD k _ hx 0 []).2.2.2 (by simpa [Ty.isStruct, Ty.vb] using h)
  | .enum x, v, hv, h => by
    rw [Ok] at h
    have hx := resolve_ne hv x
    refine ⟨declEnum D (v.resolve x), by rw [decl], ?_⟩
    have he : (if expanded v (.enum x) then CTy.lanes D.W (declEnum D (v.resolve x)) else declEnum D (v.resolve x)) =
        (CTy.scal .enum).inLanes D (v.resolve x) := by
      cases h : v.resolve x <;> simp_all [expanded, Ty.isArr, Ty.isPtr, Ty.isStruct, Ty.vb, declEnum, CTy.inLanes]
    rw [he]
    constructor
    · rw [llay]; exact (scalar_lanes hD .enum _ hx 0 []).1
    · intro base p; rw [lflat]; exact (scalar_lanes hD .enum _ hx base p).2.1
    · rw [llay]; exact (scalar_lanes hD .enum _ hx 0 []).2.2.1
    · intro h
      rw [llay]
      exact (scalar_lanes hD .enum _ hx 0 []).2.2.2 (by simpa [Ty.isStruct, Ty.vb] using h)
  | .ptr b x, v, hv, h => by
    rw [Ok] at h
    have hx := resolve_ne hv x
    have he : expanded v (.ptr b x) = false := by simp [expanded, Ty.isPtr]
    have hd : declPtr b (v.resolve x) = some ((CTy.scal .pointer).inLanes D (v.resolve x)) := by
      cases hq : v.resolve x with
      | unbound => exact absurd hq hx
      | uniform => rfl
      | varying => rw [hq] at h; simp at h
      | soa w => rw [hq] at h; simp at h; subst h; rfl
    refine ⟨_, by rw [decl]; exact hd, ?_⟩
    rw [he, if_neg (by simp)]
    constructor
    · rw [llay]; exact (scalar_lanes hD .pointer _ hx 0 []).1
    · intro base p; rw [lflat]; exact (scalar_lanes hD .pointer _ hx base p).2.1
    · rw [llay]; exact (scalar_lanes hD .pointer _ hx 0 []).2.2.1
    · intro h
      rw [llay]
      exact (scalar_lanes hD .pointer _ hx 0 []).2.2.2 (by simpa [Ty.isStruct, Ty.vb] using h)
  | .vec k n x, v, hv, h => by
    rw [Ok] at h
    have he : expanded v (.vec k n x) = false := by simp [expanded, Ty.vb, h.1]
    refine ⟨shortStruct D k n, by rw [decl, h.1]; rfl, ?_⟩
    rw [he, if_neg (by simp)]
    have hs := fun b p => short_agree hD k n h.2 b p
    constructor
    · rw [llay, h.1, (hs 0 []).1]
    · intro base p; rw [lflat, h.1, (hs base p).2]
    · rw [llay, h.1, (hs 0 []).1]
    · intro _; rw [llay, h.1, (hs 0 []).1]
  | .arr n t, v, hv, h => by
    rw [Ok] at h
    have he : expanded v (.arr n t) = false := by simp [expanded, Ty.isArr]
    obtain ⟨c, hc, ha⟩ := declArr_ok hD t v hv h
    refine ⟨.arr n c, by rw [decl, parens_ok h]; simp only; rw [hc]; rfl, ?_⟩
    rw [he, if_neg (by simp)]
    constructor
    · rw [clay, llay, ha.size]
    · intro base p
      rw [cflat, lflat]
      simp only [ha.size, ha.flat]
    · rw [clay, llay]; exact ha.le
    · intro hq
      rw [clay, llay]
      exact ha.align (by simpa [Ty.vb, Ty.isStruct] using Or.inl hq)
  | .struct nm a x ms, v, hv, h => by
    rw [Ok] at h
    have hx := resolve_ne hv x
    have he : expanded v (.struct nm a x ms) = false := by simp [expanded, Ty.isStruct]
    obtain ⟨cs, hcs, hl, hf⟩ := members_ok hD ms (v.resolve x) (needsAlign (v.resolve x) ms || decide (a ≠ 0)) hx h.2
      (by cases needsAlign (v.resolve x) ms <;> simp)
    refine ⟨_, by rw [decl, hcs]; rfl, ?_⟩
    rw [he, if_neg (by simp)]
    have hlay : clay D (.struct (structAlign D (v.resolve x) a ms) cs) = llay D v (.struct nm a x ms) := by
      rw [clay, llay, hl]
      have hle := h.1
      rw [llays_align D _ ms _ _ _ (Nat.le_refl 1)] at hle
      apply llays_start D _ ms _ _ _ _ (by omega) (by omega)
      unfold structAlign
      rw [llays_align D _ ms _ _ _ (Nat.le_refl 1)]
      split_ifs <;> omega
    constructor
    · rw [hlay]
    · intro base p; rw [cflat, lflat, hf]
    · rw [hlay]
    · intro _; rw [hlay]
theorem declArr_ok {D : DL} (hD : D.Good) : ∀ (t : Ty) (v : Vb), v ≠ .unbound → OkElem D v t →
    ∃ c, declArr D v t = some c ∧ Agree D v t c
  | .atom k x, v, hv, _ => by
    have hx := resolve_ne hv x
    refine ⟨_, by rw [declArr], ?_⟩
    constructor
    · rw [llay]; exact (scalar_lanes hD k _ hx 0 []).1
    · intro base p; rw [lflat]; exact (scalar_lanes hD k _ hx base p).2.1
    · rw [llay]; exact (scalar_lanes hD k _ hx 0 []).2.2.1
    · intro h
      rw [llay]
      exact (scalar_lanes hD k _ hx 0 []).2.2.2 (by simpa [Ty.isStruct, Ty.vb] using h)
  | .enum x, v, hv, _ => by
    have hx := resolve_ne hv x
    refine ⟨_, by rw [declArr], ?_⟩
    constructor
    · rw [llay]; exact (scalar_lanes hD .enum _ hx 0 []).1
    · intro base p; rw [lflat]; exact (scalar_lanes hD .enum _ hx base p).2.1
    · rw [llay]; exact (scalar_lanes hD .enum _ hx 0 []).2.2.1
    · intro h
      rw [llay]
      exact (scalar_lanes hD .enum _ hx 0 []).2.2.2 (by simpa [Ty.isStruct, Ty.vb] using h)
  | .ptr b x, v, hv, _ => by
    have hx := resolve_ne hv x
    refine ⟨_, by rw [declArr], ?_⟩
    constructor
    · rw [llay]; exact (scalar_lanes hD .pointer _ hx 0 []).1
    · intro base p; rw [lflat]; exact (scalar_lanes hD .pointer _ hx base p).2.1
    · rw [llay]; exact (scalar_lanes hD .pointer _ hx 0 []).2.2.1
    · intro h
      rw [llay]
      exact (scalar_lanes hD .pointer _ hx 0 []).2.2.2 (by simpa [Ty.isStruct, Ty.vb] using h)
  | .vec k n x, v, hv, h => by
    rw [OkElem] at h
    refine ⟨shortStruct D k n, by rw [declArr, h.1]; rfl, ?_⟩
    have hs := fun b p => short_agree hD k n h.2 b p
    constructor
    · rw [llay, h.1, (hs 0 []).1]
    · intro base p; rw [lflat, h.1, (hs base p).2]
    · rw [llay, h.1, (hs 0 []).1]
    · intro _; rw [llay, h.1, (hs 0 []).1]
  | .arr n t, v, hv, h => by
    rw [OkElem] at h
    obtain ⟨c, hc, ha⟩ := declArr_ok hD t v hv h
    refine ⟨.arr n c, by rw [declArr, hc]; rfl, ?_⟩
    constructor
    · rw [clay, llay, ha.size]
    · intro base p
      rw [cflat, lflat]
      simp only [ha.size, ha.flat]
    · rw [clay, llay]; exact ha.le
    · intro hq
      rw [clay, llay]
      exact ha.align (by simpa [Ty.vb, Ty.isStruct] using Or.inl hq)
  | .struct nm a x ms, v, hv, h => by
    rw [OkElem] at h
    obtain ⟨hx, hle, hok⟩ := h
    obtain ⟨cs, hcs, hl, hf⟩ := members_ok hD ms .uniform (needsAlign .uniform ms || decide (a ≠ 0)) (by simp) hok
      (by cases needsAlign .uniform ms <;> simp)
    refine ⟨.struct (structAlign D .uniform a ms) cs, by rw [declArr, hcs, hx]; rfl, ?_⟩
    have hlay : clay D (.struct (structAlign D .uniform a ms) cs) = llay D v (.struct nm a x ms) := by
      rw [clay, llay, hl, hx]
      rw [llays_align D _ ms _ _ _ (Nat.le_refl 1)] at hle
      apply llays_start D _ ms _ _ _ _ (by omega) (by omega)
      unfold structAlign
      rw [llays_align D _ ms _ _ _ (Nat.le_refl 1)]
      split_ifs <;> omega
    constructor
    · rw [hlay]
    · intro base p; rw [cflat, lflat, hf, hx]
    · rw [hlay]
    · intro _; rw [hlay]
theorem members_ok {D : DL} (hD : D.Good) : ∀ (ms : Ms) (v : Vb) (need : Bool), v ≠ .unbound → Oks D v ms →
    (need = true ∨ needsAlign v ms = false) →
    ∃ cs, members D v need ms = some cs ∧ (∀ off al e, clays D cs off al e = llays D v ms off al e) ∧
      ∀ base p off j, cflats D cs base p none off j = lflats D v ms base p off j
  | .nil, v, need, hv, _, _ => ⟨.nil, rfl, fun _ _ _ => by rw [clays, llays], fun _ _ _ _ => by rw [cflats, lflats]⟩
  | .cons shown t rest, v, need, hv, h, hn => by
    rw [Oks] at h
    obtain ⟨hp, hok, hoks⟩ := h
    obtain ⟨c, hc, ha⟩ := decl_ok hD t v hv hok
    obtain ⟨cs, hcs, hl, hf⟩ := members_ok hD rest v need hv hoks
      (hn.imp id fun h => (needsAlign_cons h).2)
    refine ⟨_, by rw [members, if_pos ((printable_iff shown t).2 hp), hc, hcs], ?_, ?_⟩
    all_goals
      have hal : max (memberAlign D v need t) (clay D (if expanded v t then .lanes D.W c else c)).2 = (llay D v t).2 := by
        have hle := ha.le
        have hpos := llay_pos hD hv t (Or.inr hok)
        unfold memberAlign
        by_cases hvy : t.vb v = .varying
        · by_cases hst : t.isStruct = true
          · have := ha.align (Or.inr hst)
            rw [this]; simp [hst]; omega
          · have hne : need = true := by
              rcases hn with hn | hn
              · exact hn
              · exact absurd ((needsAlign_cons hn).1 hvy) hst
            simp only [hne, hvy, decide_true, Bool.true_and, Bool.not_eq_true] at hst ⊢
            rw [if_pos (by simp [hst])]
            omega
        · have := ha.align (Or.inl hvy)
          rw [this]; simp [hvy]; omega
    · intro off al e
      rw [clays, llays, hal, ha.size, hl]
    · intro base p off j
      rw [cflats, lflats, hal, ha.size, ha.flat, hf]
end

/-- **C56.**  The C declaration of a struct puts every scalar - every member, element and component of
every program instance - where ispc has it, and has the size and the alignment of ispc. -/
theorem header_layout_partial {D : DL} (hD : D.Good) (name a : Nat) (v : Vb) (hv : v ≠ .unbound) (ms : Ms)
    (h : Ok D v (.struct name a .unbound ms)) :
    ∃ c, decl D v (.struct name a .unbound ms) = some c ∧
      (∀ base, cflat D c base [] none = lflat D v (.struct name a .unbound ms) base []) ∧
      clay D c = llay D v (.struct name a .unbound ms) := by
  obtain ⟨c, hc, ha⟩ := decl_ok hD _ v hv h
  have he : expanded v (.struct name a .unbound ms) = false := by simp [expanded, Ty.isStruct]
  rw [he, if_neg (by simp)] at ha
  exact ⟨c, hc, fun base => ha.flat base [], Prod.ext ha.size (ha.align (Or.inr rfl))⟩

/-! ## Targets -/

theorem roundUp_self (a : Nat) (h : 0 < a) : roundUp a a = a := by
  unfold roundUp
  rw [show a + a - 1 = (a - 1) + a * 1 by omega, Nat.add_mul_div_left _ _ h, Nat.div_eq_of_lt (by omega)]
  omega

theorem roundUp_le (x a : Nat) (h : 0 < x) (hx : x ≤ a) : roundUp x a = a := by
  unfold roundUp
  rw [show x + a - 1 = (x - 1) + a * 1 by omega, Nat.add_mul_div_left _ _ (by omega), Nat.div_eq_of_lt (by omega)]
  omega

theorem vecMem_pow {dtw : Nat} (hd : dtw = 8 ∨ dtw = 16 ∨ dtw = 32 ∨ dtw = 64) (n : Nat) :
    ∃ e, Braces.vecMem dtw n = 2 ^ e ∧ n ≤ 2 ^ e := by
  unfold Braces.vecMem
  simp only
  have hle : n ≤ 2 ^ Nat.clog 2 n := Nat.le_pow_clog (by norm_num) n
  split_ifs with h
  · rcases hd with rfl | rfl | rfl | rfl
    · exact ⟨4, by norm_num, by norm_num at h ⊢; omega⟩
    · exact ⟨3, by norm_num, by norm_num at h ⊢; omega⟩
    · exact ⟨2, by norm_num, by norm_num at h ⊢; omega⟩
    · exact ⟨1, by norm_num, by norm_num at h ⊢; omega⟩
  · exact ⟨_, rfl, hle⟩

/-- Every target whose vectors are aligned to their size is as the header expects. -/
theorem natural_good (D : DL) (hs : D.csize = D.size) (ha : D.calign = D.align) (hW : ∃ w, D.W = 2 ^ w)
    (hsz : ∀ k, ∃ e, D.size k = 2 ^ e) (hal : ∀ k, 0 < D.align k ∧ D.align k ≤ D.size k)
    (hd : D.dtw = 8 ∨ D.dtw = 16 ∨ D.dtw = 32 ∨ D.dtw = 64) (hv : ∀ e, D.valign (2 ^ e) = 2 ^ e) : D.Good := by
  obtain ⟨w, hw⟩ := hW
  refine ⟨hs, ha, fun k => (hal k).1, ?_, ?_⟩
  · intro k
    obtain ⟨e, he⟩ := hsz k
    have hp : D.W * D.size k = 2 ^ (w + e) := by rw [hw, he, Nat.pow_add]
    rw [hp, hv]
    refine ⟨(hal k).2.trans ?_, roundUp_self _ (Nat.two_pow_pos _)⟩
    rw [he]; exact Nat.pow_le_pow_right (by norm_num) (by omega)
  · intro k n hn
    obtain ⟨e, he⟩ := hsz k
    obtain ⟨m, hm, hnm⟩ := vecMem_pow hd n
    have hp : Braces.vecMem D.dtw n * D.size k = 2 ^ (m + e) := by rw [hm, he, Nat.pow_add]
    simp only [DL.short, DL.vector]
    rw [hp, hv]
    refine ⟨(hal k).2.trans ?_, ?_⟩
    · rw [he]; exact Nat.pow_le_pow_right (by norm_num) (by omega)
    · rw [roundUp_self _ (Nat.two_pow_pos _)]
      apply roundUp_le
      · rw [he]; exact Nat.mul_pos hn (Nat.two_pow_pos _)
      · rw [he, Nat.pow_add]; exact Nat.mul_le_mul_right _ hnm

/-- The sizes of the scalars with pointers of `p` bytes. -/
def sizes (p : Nat) : Scal → Nat
  | .bool | .int8 | .uint8 => 1
  | .int16 | .uint16 | .float16 => 2
  | .int32 | .uint32 | .float | .enum => 4
  | .int64 | .uint64 | .double => 8
  | .pointer => p

/-- x86-64 and AArch64: everything has the alignment of its size. -/
def lp64 (W dtw : Nat) : DL :=
  { size := sizes 8, align := sizes 8, valign := fun s => 2 ^ Nat.clog 2 s, csize := sizes 8, calign := sizes 8
    W := W, dtw := dtw }

theorem lp64_good (w dtw : Nat) (hd : dtw = 8 ∨ dtw = 16 ∨ dtw = 32 ∨ dtw = 64) : (lp64 (2 ^ w) dtw).Good := by
  apply natural_good
  · rfl
  · rfl
  · exact ⟨w, rfl⟩
  · intro k
    cases k
    case bool => exact ⟨0, rfl⟩
    case int8 => exact ⟨0, rfl⟩
    case uint8 => exact ⟨0, rfl⟩
    case int16 => exact ⟨1, rfl⟩
    case uint16 => exact ⟨1, rfl⟩
    case float16 => exact ⟨1, rfl⟩
    case int32 => exact ⟨2, rfl⟩
    case uint32 => exact ⟨2, rfl⟩
    case float => exact ⟨2, rfl⟩
    case enum => exact ⟨2, rfl⟩
    case int64 => exact ⟨3, rfl⟩
    case uint64 => exact ⟨3, rfl⟩
    case double => exact ⟨3, rfl⟩
    case pointer => exact ⟨3, rfl⟩
  · intro k
    exact ⟨by cases k <;> simp [lp64, sizes], Nat.le_refl _⟩
  · exact hd
  · intro e
    show 2 ^ Nat.clog 2 (2 ^ e) = 2 ^ e
    rw [Nat.clog_pow _ _ (by norm_num)]

/-- `struct { int8 a; float<3> b; varying int c[2]; struct { bool d; double *e; } f[2]; }` is a case of the theorem. -/
example : Ok (lp64 8 32) .uniform (.struct 0 0 .unbound
    (.cons true (.atom .int8 .unbound) (.cons true (.vec .float 3 .unbound) (.cons true (.arr 2 (.atom .int32 .varying))
    (.cons true (.arr 2 (.struct 1 0 .unbound (.cons true (.atom .bool .unbound) (.cons true (.ptr .plain .unbound) .nil))))
    .nil))))) := by
  simp [Ok, Oks, OkElem, Vb.resolve]

/-- A short vector has the right size exactly if both sizes round up to the same multiple of the alignment. -/
theorem short_iff (D : DL) (hs : D.csize = D.size) (ha : D.calign = D.align) (k : Scal) (n : Nat)
    (hal : D.align k ≤ (D.short k n .uniform).2) :
    clay D (shortStruct D k n) = D.short k n .uniform ↔
      roundUp (n * D.size k) (D.short k n .uniform).2 = (D.short k n .uniform).1 := by
  rw [shortStruct, clay, hs, ha, Nat.max_eq_left hal, Prod.ext_iff]
  simp

/-- 32-bit ARM aligns vectors of 16 bytes to 8 bytes only.  So `float<2>`, 16 bytes in ispc, is a struct of 8 bytes in
C: the property is false there. -/
theorem arm_short_wrong (D : DL) (hs : D.csize = D.size) (ha : D.calign = D.align) (hf : D.size .float = 4)
    (hal : D.align .float = 4) (hd : D.dtw = 32) (hv : D.valign 16 = 8) :
    (D.short .float 2 .uniform).1 = 16 ∧ (clay D (shortStruct D .float 2)).1 = 8 := by
  have hm : Braces.vecMem 32 2 = 4 := by decide
  have hsh : D.short .float 2 .uniform = (16, 8) := by
    simp only [DL.short, DL.vector, hd, hf, hm, hv]
    rfl
  rw [shortStruct, clay, hs, ha, hsh, hf, hal]
  exact ⟨rfl, rfl⟩

/-! ## What goes wrong -/

/-- The declaration has every scalar where ispc has it. -/
def Describes (D : DL) (v : Vb) (t : Ty) (c : CTy) : Prop :=
  ∀ x, x ∈ cflat D c 0 [] none ↔ x ∈ lflat D v t 0 []

/-- A struct with a single member. -/
def one (t : Ty) : Ty := .struct 0 0 .unbound (.cons true t .nil)

theorem roundUp_zero (a : Nat) (h : 0 < a) : roundUp 0 a = 0 := by
  unfold roundUp
  rw [Nat.div_eq_of_lt (by omega), Nat.zero_mul]

/-- A varying enumeration is declared with its lanes twice, `enum E x[8][8]`. -/
theorem varying_enum_wrong {D : DL} (hD : D.Good) (hW : 2 ≤ D.W) (hs : 0 < D.size .enum) :
    ∃ c, decl D .uniform (one (.enum .varying)) = some c ∧ ¬ Describes D .uniform (one (.enum .varying)) c := by
  refine ⟨_, by simp [one, decl, members, printable, expanded, Ty.isArr, Ty.isPtr, Ty.isStruct, Ty.vb, Vb.resolve, declEnum]; rfl, ?_⟩
  intro h
  have hp := hD.pos .enum
  have hg := (hD.gang .enum).1
  have hx := (h ⟨[0], some 0, D.W * D.size .enum, .enum⟩).1 (by
    simp only [cflat, cflats, clay, hD.csize, hD.calign]
    rw [roundUp_zero _ (by omega)]
    simp only [List.append_nil, List.nil_append, List.mem_flatMap, List.mem_range]
    exact ⟨1, by omega, 0, by omega, by simp⟩)
  simp only [one, lflat, lflats, Vb.resolve, llay, DL.scalar, DL.vector, DL.scalars] at hx
  rw [roundUp_zero _ (by omega)] at hx
  simp only [List.append_nil, List.nil_append, List.mem_map, List.mem_range, Leaf.mk.injEq, Option.some.injEq] at hx
  obtain ⟨i, _, _, rfl, hoff, _⟩ := hx
  have : 0 < D.W * D.size .enum := Nat.mul_pos (by omega) hs
  omega

/-- A varying pointer is declared as a single one. -/
theorem varying_pointer_wrong {D : DL} (hD : D.Good) (b : Target) :
    ∃ c, decl D .uniform (one (.ptr b .varying)) = some c ∧ ¬ Describes D .uniform (one (.ptr b .varying)) c := by
  refine ⟨_, by simp [one, decl, members, printable, expanded, Ty.isPtr, Ty.vb, Vb.resolve, declPtr]; rfl, ?_⟩
  intro h
  have hp := hD.pos .pointer
  have hx := (h ⟨[0], none, 0, .pointer⟩).1 (by
    simp only [cflat, cflats, clay, hD.csize, hD.calign]
    rw [roundUp_zero _ (by omega)]
    simp)
  simp [one, lflat, lflats, Vb.resolve, DL.scalars] at hx

/-- A varying short vector is declared instance by instance, `float3 x[8]`; ispc has it component by component. -/
theorem varying_vector_wrong {D : DL} (hD : D.Good) (hW : 2 ≤ D.W) (k : Scal) (n : Nat) (hn : 2 ≤ n) (hs : 0 < D.size k) :
    ∃ c, decl D .uniform (one (.vec k n .varying)) = some c ∧ ¬ Describes D .uniform (one (.vec k n .varying)) c := by
  refine ⟨_, by simp [one, decl, members, printable, expanded, Ty.isArr, Ty.isPtr, Ty.isStruct, Ty.vb, Vb.resolve, declVec]; rfl, ?_⟩
  intro h
  have hp := hD.pos k
  have hg := hD.gang k
  have hx := (h ⟨[0, 1], some 0, D.size k, k⟩).1 (by
    simp only [cflat, cflats, clay, shortStruct, hD.csize, hD.calign]
    rw [roundUp_zero _ (by omega)]
    simp only [List.append_nil, List.nil_append, List.mem_flatMap, List.mem_range]
    exact ⟨0, by omega, List.mem_map.2 ⟨1, by simp; omega, by simp⟩⟩)
  simp only [one, lflat, lflats, Vb.resolve, llay, DL.short, DL.scalar, DL.vector, DL.shorts, DL.scalars, hg.2] at hx
  rw [roundUp_zero _ (by omega)] at hx
  simp only [List.append_nil, List.nil_append, List.mem_flatMap, List.mem_map, List.mem_range, Leaf.mk.injEq,
    Option.some.injEq, List.cons_append, List.cons.injEq, true_and, and_true] at hx
  obtain ⟨i, _, l, _, rfl, rfl, hoff⟩ := hx
  have : 2 * D.size k ≤ D.W * D.size k := Nat.mul_le_mul_right _ hW
  omega

/-- An array of pointers to a varying basic type is declared as a single pointer to an array, `float ( * p)[8][3]`. -/
theorem pointer_array_wrong {D : DL} (hD : D.Good) (n : Nat) :
    ∃ c, decl D .uniform (one (.arr n (.ptr .varyingBasic .uniform))) = some c ∧
      ¬ Describes D .uniform (one (.arr n (.ptr .varyingBasic .uniform))) c := by
  refine ⟨_, by simp [one, decl, members, printable, expanded, Ty.isArr, Ty.vb, Vb.resolve, Ty.parens]; rfl, ?_⟩
  intro h
  have hp := hD.pos .pointer
  have hx := (h ⟨[0], none, 0, .pointer⟩).1 (by
    simp only [cflat, cflats, clay, hD.csize, hD.calign]
    rw [roundUp_zero _ (by omega)]
    simp)
  simp [one, lflat, lflats, Vb.resolve, DL.scalars] at hx

/-- An array of varying structs is declared as an array of uniform ones with a dimension for the instances, `struct S
x[3][8]`; ispc has the members one after the other, each with all its instances. -/
theorem struct_array_wrong {D : DL} (hD : D.Good) (hW : 2 ≤ D.W) (n : Nat) (hn : 0 < n) (s : Nat)
    (hs : D.size .int32 = 4) (ha : D.align .int32 = 4) :
    let S : Ty := .struct s 0 .unbound (.cons true (.atom .int32 .unbound) (.cons true (.atom .int32 .unbound) .nil))
    ∃ c, decl D .varying (one (.arr n S)) = some c ∧ ¬ Describes D .varying (one (.arr n S)) c := by
  intro S
  refine ⟨_, by simp [S, one, decl, declArr, members, printable, expanded, Ty.isArr, Ty.isPtr, Ty.isStruct, Ty.vb, Vb.resolve, declAtom, Ty.parens]; rfl, ?_⟩
  intro h
  have hg := hD.gang .int32
  rw [hs, ha] at hg
  have hx := (h ⟨[0, 0, 1], some 0, 4, .int32⟩).1 (by
    simp only [CTy.inLanes, cflat, cflats, clay, clays, hD.csize, hD.calign, hs, ha, memberAlign, needsAlign, structAlign, Ty.vb, Ty.isStruct, Vb.resolve]
    rw [roundUp_zero _ (by simp)]
    simp only [List.append_nil, List.nil_append, List.mem_flatMap, List.mem_range]
    exact ⟨0, by omega, 0, by omega, by simp [roundUp]⟩)
  simp only [S, one, lflat, lflats, Vb.resolve, llay, llays, DL.scalar, DL.vector, DL.scalars, hs, hg.2] at hx
  rw [roundUp_zero _ (by omega)] at hx
  simp only [List.append_nil, List.nil_append, List.mem_flatMap, List.mem_append, List.mem_map, List.mem_range, Leaf.mk.injEq,
    Option.some.injEq, List.cons_append, List.cons.injEq, true_and, and_true] at hx
  obtain ⟨i, _, h1 | h1⟩ := hx
  · obtain ⟨l, _, h2, _⟩ := h1
    simp at h2
  · obtain ⟨l, _, rfl, rfl, hoff⟩ := h1
    rw [roundUp_zero _ (by omega : 0 < D.valign (D.W * 4)), Nat.zero_add (D.W * 4), hg.2] at hoff
    omega

/-- A member whose name begins with `__` has no name in the declaration, unless it is a pointer or a short vector. -/
theorem hidden_name_wrong (D : DL) (v : Vb) (name a : Nat) (t : Ty) (rest : Ms) (ht : ¬HasName t) :
    decl D v (.struct name a .unbound (.cons false t rest)) = none := by
  have h : printable false t = false := by
    rw [Bool.eq_false_iff, ne_eq, printable_iff]
    simpa using ht
  rw [decl, members, h]
  rfl

theorem le_roundUp (x a : Nat) (h : 0 < a) : x ≤ roundUp x a := by
  unfold roundUp
  have h1 := Nat.div_add_mod (x + a - 1) a
  have h2 := Nat.mod_lt (x + a - 1) h
  rw [Nat.mul_comm]
  omega

theorem roundUp_min (x a m : Nat) (h : 0 < a) (hm : a ∣ m) (hx : x ≤ m) : roundUp x a ≤ m := by
  obtain ⟨q, rfl⟩ := hm
  unfold roundUp
  rw [Nat.mul_comm a q]
  apply Nat.mul_le_mul_right
  have hlt : (x + a - 1) / a < q + 1 := by
    rw [Nat.div_lt_iff_lt_mul h, Nat.add_mul, Nat.one_mul, Nat.mul_comm q a]
    omega
  omega

theorem roundUp_dvd (x a : Nat) : a ∣ roundUp x a := ⟨(x + a - 1) / a, by unfold roundUp; rw [Nat.mul_comm]⟩

theorem roundUp_roundUp (x n a : Nat) (hn : 0 < n) (ha : 0 < a) (h : n ∣ a) : roundUp (roundUp x n) a = roundUp x a := by
  apply Nat.le_antisymm
  · exact roundUp_min _ _ _ ha (roundUp_dvd _ _)
      (roundUp_min _ _ _ hn (h.trans (roundUp_dvd _ _)) (le_roundUp _ _ ha))
  · exact roundUp_min _ _ _ ha (roundUp_dvd _ _) ((le_roundUp _ _ hn).trans (le_roundUp _ _ ha))

theorem llays_size (D : DL) (v : Vb) : ∀ (ms : Ms) (off al al' : Nat) (e : Bool), 1 ≤ al → 1 ≤ al' →
    (max al (malign D v ms)) ∣ (max al' (malign D v ms)) →
    (llays D v ms off al' e).1 = roundUp (llays D v ms off al e).1 (max al' (malign D v ms))
  | .nil, off, al, al', e, h, h', hd => by
    simp only [malign] at hd ⊢
    rw [llays, llays, Nat.max_eq_left h'] 
    rw [Nat.max_eq_left h, Nat.max_eq_left h'] at hd
    exact (roundUp_roundUp _ _ _ h h' hd).symm
  | .cons s t rest, off, al, al', e, h, h', hd => by
    rw [malign] at hd ⊢
    rw [llays, llays, llays_size D v rest _ (max al (llay D v t).2) (max al' (llay D v t).2) _ (by omega) (by omega)
      (by rwa [Nat.max_assoc, Nat.max_assoc]), Nat.max_assoc]

/-- The `aligned` attribute is not known to LLVM: if it asks for more than the members need, the C struct is padded to
a multiple of it and the struct of ispc is not.  So the elements of an array are at other places, unless the size is
already a multiple. -/
theorem aligned_struct {D : DL} (hD : D.Good) (name a : Nat) (v : Vb) (hv : v ≠ .unbound) (ms : Ms) (h : Oks D v ms)
    (ha : 0 < a) (hd : (llay D v (.struct name a .unbound ms)).2 ∣ a) :
    ∃ c, decl D v (.struct name a .unbound ms) = some c ∧
      (clay D c).2 = a ∧ (clay D c).1 = roundUp (llay D v (.struct name a .unbound ms)).1 a ∧
      ((clay D c).1 = (llay D v (.struct name a .unbound ms)).1 ↔ a ∣ (llay D v (.struct name a .unbound ms)).1) := by
  have hr : v.resolve .unbound = v := rfl
  obtain ⟨cs, hcs, hl, hf⟩ := members_ok hD ms v (needsAlign v ms || decide (a ≠ 0)) hv h
    (by cases needsAlign v ms <;> simp)
  have hmax := llays_align D v ms 0 1 true (Nat.le_refl 1)
  rw [llay, hr, hmax] at hd
  have hle := Nat.le_of_dvd ha hd
  have hm : max (max 1 a) (malign D v ms) = a := by omega
  have hc : clay D (.struct (structAlign D v a ms) cs) = llays D v ms 0 (max 1 a) true := by
    rw [clay, hl, structAlign, if_pos (by omega)]
  have h1 : (llays D v ms 0 (max 1 a) true).1 = roundUp (llays D v ms 0 1 true).1 a := by
    rw [llays_size D v ms 0 1 (max 1 a) true (by omega) (by omega) (by rwa [hm]), hm]
  refine ⟨.struct (structAlign D v a ms) cs, by rw [decl, hr, hcs]; rfl, ?_, ?_, ?_⟩
  · rw [hc, llays_align D v ms _ _ _ (by omega), hm]
  · rw [hc, h1, llay, hr]
  · rw [hc, h1, llay, hr]
    constructor
    · intro he; rw [← he]; exact roundUp_dvd _ _
    · intro he
      exact Nat.le_antisymm (roundUp_min _ _ _ ha he (Nat.le_refl _)) (le_roundUp _ _ ha)

/-- `struct { int32 x; } __attribute__((aligned(16)))`: 4 bytes in ispc, 16 in C. -/
example : let S : Ty := .struct 0 16 .unbound (.cons true (.atom .int32 .unbound) .nil)
    (llay (lp64 8 32) .uniform S).1 = 4 ∧ (decl (lp64 8 32) .uniform S).map (fun c => (clay (lp64 8 32) c).1) = some 16 := by
  decide

/-- A C compiler without `stdbool.h` gets `typedef int bool` (src/header.cpp:863-869), and then a `bool` has four bytes
there. -/
theorem old_bool_wrong (D : DL) (h1 : D.size .bool = 1) (h4 : D.csize .bool = 4) :
    ∃ c, decl D .uniform (one (.atom .bool .uniform)) = some c ∧ ∀ n, n * (clay D c).1 ≠ 0 → D.calign .bool = 4 → D.align .bool = 1 →
      n * (clay D c).1 ≠ (llay D .uniform (.arr n (one (.atom .bool .uniform)))).1 := by
  refine ⟨_, by simp [one, decl, members, printable, expanded, Ty.vb, Vb.resolve, declAtom]; rfl, ?_⟩
  intro n hn hc ha
  simp [one, llay, llays, clay, clays, Vb.resolve, DL.scalar, h1, h4, hc, ha, roundUp, structAlign, needsAlign, Ty.vb, memberAlign] at hn ⊢
  omega


/-! ## The order of the declarations

Specification: the structs a type has by value (`inside` at any depth, `direct` as members or elements of members), and
what it means that a program gives every struct name one list of members. -/

/-- The struct a type is, or an array is of. -/
def direct (v : Vb) : Ty → List Key
  | .struct n _ x _ => [(n, v.resolve x)]
  | .arr _ t        => direct v t
  | _               => []

/-- The structs among the members. -/
def directs (v : Vb) : Ms → List Key
  | .nil           => []
  | .cons _ t rest => direct v t ++ directs v rest

mutual
/-- The structs in a type, at any depth. -/
def inside (v : Vb) : Ty → List Key
  | .struct n _ x ms => (n, v.resolve x) :: insides (v.resolve x) ms
  | .arr _ t         => inside v t
  | _                => []
/-- The same of members. -/
def insides (v : Vb) : Ms → List Key
  | .nil           => []
  | .cons _ t rest => inside v t ++ insides v rest
end

mutual
/-- Every struct in the type has the members the program gives its name. -/
def Named (body : Nat → Ms) : Ty → Prop
  | .struct n _ _ ms => body n = ms ∧ Nameds body ms
  | .arr _ t         => Named body t
  | _                => True
/-- The same of members. -/
def Nameds (body : Nat → Ms) : Ms → Prop
  | .nil           => True
  | .cons _ t rest => Named body t ∧ Nameds body rest
end

mutual
/-- The depth of a type as a tree. -/
def depth : Ty → Nat
  | .struct _ _ _ ms => depths ms + 1
  | .arr _ t         => depth t
  | _                => 0
/-- The same of members. -/
def depths : Ms → Nat
  | .nil           => 0
  | .cons _ t rest => max (depth t) (depths rest)
end

mutual
theorem inside_depth {body : Nat → Ms} : ∀ (t : Ty) (v : Vb), Named body t → ∀ k ∈ inside v t, depths (body k.1) < depth t
  | .struct n a x ms, v, h, k, hk => by
    rw [Named] at h
    rw [inside, List.mem_cons] at hk
    rw [depth]
    rcases hk with rfl | hk
    · rw [h.1]; omega
    · have := insides_depth ms _ h.2 k hk
      omega
  | .arr _ t, v, h, k, hk => by
    rw [Named] at h; rw [inside] at hk; rw [depth]
    exact inside_depth t v h k hk
  | .atom .., _, _, _, hk | .enum .., _, _, _, hk | .ptr .., _, _, _, hk | .vec .., _, _, _, hk => by
    simp [inside] at hk
theorem insides_depth {body : Nat → Ms} : ∀ (ms : Ms) (v : Vb), Nameds body ms → ∀ k ∈ insides v ms, depths (body k.1) < depths ms
  | .nil, v, h, k, hk => by simp [insides] at hk
  | .cons _ t rest, v, h, k, hk => by
    rw [Nameds] at h
    rw [insides, List.mem_append] at hk
    rw [depths]
    rcases hk with hk | hk
    · have := inside_depth t v h.1 k hk; omega
    · have := insides_depth rest v h.2 k hk; omega
end

/-- What is asked of the order: the structs that are members of one have been declared before it. -/
def Ordered (body : Nat → Ms) (l : List Key) : Prop :=
  ∀ pre k post, l = pre ++ k :: post → ∀ k' ∈ directs k.2 (body k.1), k' ∈ pre

theorem ordered_snoc {body : Nat → Ms} {l : List Key} {k : Key} (h : Ordered body l) (hk : ∀ k' ∈ directs k.2 (body k.1), k' ∈ l) :
    Ordered body (l ++ [k]) := by
  intro pre j post he k' hk'
  rcases List.eq_nil_or_concat post with rfl | ⟨post', z, rfl⟩
  · have := List.append_inj' he rfl
    obtain ⟨rfl, hj⟩ := this
    injection hj with hj
    subst hj
    exact hk k' hk'
  · rw [List.concat_eq_append, ← List.cons_append, ← List.append_assoc] at he
    have := List.append_inj' he rfl
    exact h pre j post' this.1 k' hk'

mutual
theorem emit_spec {body : Nat → Ms} : ∀ (t : Ty) (v : Vb) (acc : List Key), Named body t → Ordered body acc → acc.Nodup →
    Ordered body (emit true v t acc) ∧ (emit true v t acc).Nodup ∧ (∀ k ∈ acc, k ∈ emit true v t acc) ∧
      (∀ k ∈ direct v t, k ∈ emit true v t acc) ∧ ∀ k ∈ emit true v t acc, k ∈ acc ∨ k ∈ inside v t
  | .struct n a x ms, v, acc, h, ho, hn => by
    rw [Named] at h
    obtain ⟨o, nd, sub, dir, ins⟩ := emits_spec ms (v.resolve x) acc h.2 ho hn
    rw [emit, direct, inside]
    by_cases hm : (n, v.resolve x) ∈ acc
    · rw [if_neg (by simp), if_pos hm]
      exact ⟨ho, hn, fun _ hk => hk, by simpa using hm, fun _ hk => .inl hk⟩
    · rw [if_neg (by simp), if_neg hm]
      refine ⟨ordered_snoc o (by rw [h.1]; exact dir), ?_, fun k hk => List.mem_append_left _ (sub k hk), by simp, ?_⟩
      · rw [List.nodup_append]
        refine ⟨nd, by simp, ?_⟩
        intro a ha b hb hab
        rw [List.mem_singleton] at hb
        subst hb; subst hab
        rcases ins _ ha with hi | hi
        · exact hm hi
        · have := insides_depth ms _ h.2 _ hi
          rw [h.1] at this
          omega
      · intro k hk
        rw [List.mem_append, List.mem_singleton] at hk
        rcases hk with hk | rfl
        · rcases ins k hk with hi | hi
          · exact .inl hi
          · exact .inr (List.mem_cons_of_mem _ hi)
        · exact .inr (List.mem_cons_self ..)
  | .arr _ t, v, acc, h, ho, hn => by
    rw [Named] at h; rw [emit, direct, inside]
    exact emit_spec t v acc h ho hn
  | .atom .., _, _, _, ho, hn | .enum .., _, _, _, ho, hn | .ptr .., _, _, _, ho, hn | .vec .., _, _, _, ho, hn => by
    simp [emit, direct, inside, ho, hn]
theorem emits_spec {body : Nat → Ms} : ∀ (ms : Ms) (v : Vb) (acc : List Key), Nameds body ms → Ordered body acc → acc.Nodup →
    Ordered body (emits true v ms acc) ∧ (emits true v ms acc).Nodup ∧ (∀ k ∈ acc, k ∈ emits true v ms acc) ∧
      (∀ k ∈ directs v ms, k ∈ emits true v ms acc) ∧ ∀ k ∈ emits true v ms acc, k ∈ acc ∨ k ∈ insides v ms
  | .nil, v, acc, h, ho, hn => by simp [emits, directs, insides, ho, hn]
  | .cons _ t rest, v, acc, h, ho, hn => by
    rw [Nameds] at h
    obtain ⟨o, nd, sub, dir, ins⟩ := emit_spec t v acc h.1 ho hn
    obtain ⟨o', nd', sub', dir', ins'⟩ := emits_spec rest v _ h.2 o nd
    rw [emits, directs, insides]
    refine ⟨o', nd', fun k hk => sub' k (sub k hk), ?_, ?_⟩
    · intro k hk
      rcases List.mem_append.1 hk with hk | hk
      · exact sub' k (dir k hk)
      · exact dir' k hk
    · intro k hk
      rcases ins' k hk with hi | hi
      · rcases ins k hi with hj | hj
        · exact .inl hj
        · exact .inr (List.mem_append_left _ hj)
      · exact .inr (List.mem_append_right _ hi)
end

theorem ordered_closed {body : Nat → Ms} {l : List Key} (h : Ordered body l) {k : Key} (hk : k ∈ l) :
    ∀ k' ∈ directs k.2 (body k.1), k' ∈ l := by
  intro k' hk'
  obtain ⟨pre, post, rfl⟩ := List.append_of_mem hk
  exact List.mem_append_left _ (h pre k post rfl k' hk')

mutual
theorem inside_closed {body : Nat → Ms} {l : List Key} (h : Ordered body l) : ∀ (t : Ty) (v : Vb), Named body t →
    (∀ k ∈ direct v t, k ∈ l) → ∀ k ∈ inside v t, k ∈ l
  | .struct n a x ms, v, hn, hd, k, hk => by
    rw [Named] at hn
    rw [inside, List.mem_cons] at hk
    have hm : (n, v.resolve x) ∈ l := hd _ (by simp [direct])
    rcases hk with rfl | hk
    · exact hm
    · refine insides_closed h ms _ hn.2 ?_ k hk
      have := ordered_closed h hm
      rw [hn.1] at this
      exact this
  | .arr _ t, v, hn, hd, k, hk => by
    rw [Named] at hn; rw [inside] at hk; rw [direct] at hd
    exact inside_closed h t v hn hd k hk
  | .atom .., _, _, _, _, hk | .enum .., _, _, _, _, hk | .ptr .., _, _, _, _, hk | .vec .., _, _, _, _, hk => by
    simp [inside] at hk
theorem insides_closed {body : Nat → Ms} {l : List Key} (h : Ordered body l) : ∀ (ms : Ms) (v : Vb), Nameds body ms →
    (∀ k ∈ directs v ms, k ∈ l) → ∀ k ∈ insides v ms, k ∈ l
  | .nil, v, hn, hd, k, hk => by simp [insides] at hk
  | .cons _ t rest, v, hn, hd, k, hk => by
    rw [Nameds] at hn
    rw [insides, List.mem_append] at hk
    rw [directs] at hd
    rcases hk with hk | hk
    · exact inside_closed h t v hn.1 (fun k hk => hd k (List.mem_append_left _ hk)) k hk
    · exact insides_closed h rest v hn.2 (fun k hk => hd k (List.mem_append_right _ hk)) k hk
end

/-- The structs of a header: exactly those the exported types have in them, each once, and each behind those that are
members of it, as C needs it. -/
theorem struct_order (body : Nat → Ms) (ts : List Ty) (h : ∀ t ∈ ts, Named body t) :
    (emitAll true ts).Nodup ∧ (∀ k, k ∈ emitAll true ts ↔ ∃ t ∈ ts, k ∈ inside .uniform t) ∧
      ∀ pre k post, emitAll true ts = pre ++ k :: post → ∀ k' ∈ directs k.2 (body k.1), k' ∈ pre := by
  have key : ∀ (ts : List Ty) (acc : List Key), (∀ t ∈ ts, Named body t) → Ordered body acc → acc.Nodup →
      let l := ts.foldl (fun acc t => emit true .uniform t acc) acc
      Ordered body l ∧ l.Nodup ∧ (∀ k ∈ acc, k ∈ l) ∧ (∀ t ∈ ts, ∀ k ∈ direct .uniform t, k ∈ l) ∧
        ∀ k ∈ l, k ∈ acc ∨ ∃ t ∈ ts, k ∈ inside .uniform t := by
    intro ts
    induction ts with
    | nil => intro acc _ ho hn; simp [ho, hn]
    | cons t ts ih =>
      intro acc h ho hn
      obtain ⟨o, nd, sub, dir, ins⟩ := emit_spec t .uniform acc (h t (List.mem_cons_self ..)) ho hn
      obtain ⟨o', nd', sub', dir', ins'⟩ := ih _ (fun t ht => h t (List.mem_cons_of_mem _ ht)) o nd
      refine ⟨o', nd', fun k hk => sub' k (sub k hk), ?_, ?_⟩
      · intro u hu k hk
        rcases List.mem_cons.1 hu with rfl | hu
        · exact sub' k (dir k hk)
        · exact dir' u hu k hk
      · intro k hk
        rcases ins' k hk with hi | ⟨u, hu, hi⟩
        · rcases ins k hi with hj | hj
          · exact .inl hj
          · exact .inr ⟨t, List.mem_cons_self .., hj⟩
        · exact .inr ⟨u, List.mem_cons_of_mem _ hu, hi⟩
  obtain ⟨o, nd, -, dir, ins⟩ := key ts [] h (by intro pre k post he; simp at he) List.nodup_nil
  refine ⟨nd, fun k => ⟨fun hk => ?_, ?_⟩, o⟩
  · rcases ins k hk with hi | hi
    · simp at hi
    · exact hi
  · rintro ⟨t, ht, hk⟩
    exact inside_closed o t .uniform (h t ht) (dir t ht) k hk

/-- `struct P { float x; }; struct L { P from, to[2]; }; struct M { L l; P p; }`. -/
def exP : Ms := .cons true (.atom .float .unbound) .nil
/-- See `exP`. -/
def exL : Ms := .cons true (.struct 0 0 .unbound exP) (.cons true (.arr 2 (.struct 0 0 .unbound exP)) .nil)
/-- See `exP`. -/
def exM : Ms := .cons true (.struct 1 0 .unbound exL) (.cons true (.struct 0 0 .unbound exP) .nil)

example : Named (fun n => if n = 0 then exP else if n = 1 then exL else exM) (.struct 2 0 .unbound exM) ∧
    emitAll true [.struct 2 0 .unbound exM, .struct 1 0 .unbound exL] = [(0, .uniform), (1, .uniform), (2, .uniform)] := by
  refine ⟨?_, by decide⟩
  simp [Named, Nameds, exM, exL, exP]

/-! ## The guards -/

theorem visible_seen {α : Type} (g : α → Nat × Option Nat) : ∀ (l seen : List α),
    visible g seen l = l ↔ (l.map g).Nodup ∧ ∀ k ∈ l, g k ∉ seen.map g
  | [], seen => by simp [visible]
  | k :: l, seen => by
    rw [visible]
    split
    · rename_i h
      constructor
      · intro he
        exfalso
        have hlen : ∀ (l seen : List α), (visible g seen l).length ≤ l.length := by
          intro l
          induction l with
          | nil => intro s; simp [visible]
          | cons a l ih =>
            intro s
            rw [visible]
            split
            · have := ih s; simp only [List.length_cons]; omega
            · have := ih (a :: s); simp only [List.length_cons]; omega
        have h1 := hlen l seen
        rw [he] at h1
        simp at h1
      · rintro ⟨-, hk⟩
        exact absurd h (hk k (List.mem_cons_self ..))
    · rename_i h
      rw [List.cons.injEq, visible_seen g l (k :: seen)]
      simp only [List.map_cons, List.nodup_cons, List.mem_cons, true_and, not_or]
      constructor
      · rintro ⟨hn, hk⟩
        refine ⟨⟨?_, hn⟩, ?_⟩
        · intro hm
          obtain ⟨a, ha, he⟩ := List.mem_map.1 hm
          exact (hk a ha).1 he
        · rintro a (rfl | ha)
          · exact h
          · exact (hk a ha).2
      · rintro ⟨⟨hm, hn⟩, hk⟩
        refine ⟨hn, fun a ha => ⟨?_, hk a (.inr ha)⟩⟩
        intro he
        exact hm (he ▸ List.mem_map_of_mem ha)

/-- The C compiler sees every declaration of a header exactly if no struct name occurs both uniform and `soa`, or with
two `soa` widths: the guard has the gang size of a varying struct but not the width of an `soa` one. -/
theorem guards_iff (W : Nat) (body : Nat → Ms) (ts : List Ty) (h : ∀ t ∈ ts, Named body t) :
    visible (guard W) [] (emitAll true ts) = emitAll true ts ↔
      ∀ k ∈ emitAll true ts, ∀ k' ∈ emitAll true ts, k.1 = k'.1 → k.2 ≠ .varying → k'.2 ≠ .varying → k = k' := by
  have hn := (struct_order body ts h).1
  rw [visible_seen]
  simp only [List.map_nil, List.not_mem_nil, not_false_eq_true, implies_true, and_true]
  rw [List.nodup_map_iff_inj_on hn]
  constructor
  · intro hi k hk k' hk' he h1 h2
    refine hi k hk k' hk' ?_
    obtain ⟨a, x⟩ := k
    obtain ⟨b, y⟩ := k'
    cases x <;> cases y <;> simp_all [guard]
  · intro hi k hk k' hk' he
    obtain ⟨a, x⟩ := k
    obtain ⟨b, y⟩ := k'
    by_cases hx : x = .varying
    · subst hx
      cases y <;> simp_all [guard]
    · by_cases hy : y = .varying
      · subst hy
        cases x <;> simp_all [guard]
      · exact hi _ hk _ hk' (by cases x <;> cases y <;> simp_all [guard]) hx hy

/-- `struct Q { P p; soa<8> P a[1]; }`: the declaration of `P_SOA8` is there and the preprocessor drops it, so `Q` has a
member of a type that is not declared. -/
theorem soa_guard_wrong (W : Nat) :
    let ts := [Ty.struct 1 0 .unbound (.cons true (.struct 0 0 .uniform exP) (.cons true (.arr 1 (.struct 0 0 (.soa 8) exP)) .nil))]
    (0, Vb.soa 8) ∈ emitAll true ts ∧ (1, Vb.uniform) ∈ visible (guard W) [] (emitAll true ts) ∧
      (0, Vb.soa 8) ∉ visible (guard W) [] (emitAll true ts) := by
  refine ⟨by decide, ?_, ?_⟩ <;> simp [emitAll, emit, emits, visible, guard, Vb.resolve, exP]

/-! ## The header of several targets -/

/-- A header for several targets has the types exactly if a gang size of 4, 8 or 16 is among them. -/
theorem dispatch_types (ts : List Ty) (ws : List Nat) (k : Key) (hk : k ∈ emitAll true ts) :
    (∃ w, (k, w) ∈ dispatch ts ws []) ↔ ∃ w ∈ ws, w = 4 ∨ w = 8 ∨ w = 16 := by
  have key : ∀ (ws : List Nat) (done : List Nat), (∀ w ∈ ws, ¬ (w = 4 ∨ w = 8 ∨ w = 16)) → dispatch ts ws done = [] := by
    intro ws
    induction ws with
    | nil => intro done _; rfl
    | cons w ws ih =>
      intro done hw
      rw [dispatch, if_neg (fun hh => hw w (List.mem_cons_self ..) hh.1)]
      exact ih done fun w hw' => hw w (List.mem_cons_of_mem _ hw')
  constructor
  · rintro ⟨w, hw⟩
    by_contra hc
    push Not at hc
    rw [key ws [] (by intro w hw; have := hc w hw; omega)] at hw
    simp at hw
  · intro hw
    clear key
    induction ws with
    | nil => simp at hw
    | cons w ws ih =>
      rw [dispatch]
      by_cases hg : w = 4 ∨ w = 8 ∨ w = 16
      · rw [if_pos ⟨hg, by simp⟩]
        exact ⟨w, List.mem_append_left _ (List.mem_map.2 ⟨k, hk, rfl⟩)⟩
      · rw [if_neg (fun hh => hg hh.1)]
        apply ih
        obtain ⟨x, hx, hx'⟩ := hw
        rcases List.mem_cons.1 hx with rfl | hx
        · exact absurd hx' hg
        · exact ⟨x, hx, hx'⟩

/-- For each gang size the types are written at most once, for the first target that has it. -/
theorem dispatch_once (ts : List Ty) : ∀ (ws done : List Nat) (k : Key) (w : Nat), (k, w) ∈ dispatch ts ws done → w ∈ ws ∧ w ∉ done
  | [], done, k, w, hm => by simp [dispatch] at hm
  | x :: ws, done, k, w, hm => by
    rw [dispatch] at hm
    split at hm
    · rename_i hg
      rcases List.mem_append.1 hm with hm | hm
      · obtain ⟨_, _, he⟩ := List.mem_map.1 hm
        simp only [Prod.mk.injEq] at he
        rw [← he.2]
        exact ⟨List.mem_cons_self .., hg.2⟩
      · have := dispatch_once ts ws _ k w hm
        simp only [List.mem_cons, not_or] at this ⊢
        exact ⟨.inr this.1, this.2.2⟩
    · have := dispatch_once ts ws _ k w hm
      exact ⟨List.mem_cons_of_mem _ this.1, this.2⟩

/-- A varying struct reached through a struct without varying members of its own is not declared for the second gang
size: `struct V { float x; }; struct U { varying V v[2]; }; struct T { U u; }`. -/
theorem dispatch_nested_wrong :
    let U : Ms := .cons true (.arr 2 (.struct 0 0 .varying exP)) .nil
    let ts := [Ty.struct 2 0 .unbound (.cons true (.struct 1 0 .unbound U) .nil)]
    ((0, Vb.varying), 4) ∈ dispatch ts [4, 8] [] ∧ ((0, Vb.varying), 8) ∉ dispatch ts [4, 8] [] ∧
      ((0, Vb.varying), 8) ∈ dispatch ts [8, 4] [] := by decide

/-- A uniform struct with a varying member is declared for two gang sizes under the same guard: the C compiler sees the
first only, although the layouts differ. -/
theorem dispatch_uniform_wrong :
    let ts := [Ty.struct 0 0 .unbound (.cons true (.atom .float .varying) .nil)]
    dispatch ts [4, 8] [] = [((0, .uniform), 4), ((0, .uniform), 8)] ∧
      visible (fun d => guard d.2 d.1) [] (dispatch ts [4, 8] []) = [((0, .uniform), 4)] := by decide

/-- With no gang size of 4, 8 or 16 there is no declaration of any type: two targets of 32 and 64. -/
example : dispatch [.struct 2 0 .unbound exM] [32, 64] [] = [] ∧ dispatch [.struct 2 0 .unbound exM] [32, 16] [] ≠ [] := by
  decide

end Ispc.Header
