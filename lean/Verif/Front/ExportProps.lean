import Verif.Front.Export

/-!
# What an exported function accepts does not depend on the gang size (C80)

The specification: the parts of a type (`Part`), and the form of the data of a type for a gang of `W` program
instances (`shape`), including what is reached through its pointers.
-/

namespace Ispc.Export

/-! ## Specification -/

/-- The members of a struct. -/
def Tys.toList : Tys → List Ty
  | .nil       => []
  | .cons t ts => t :: ts.toList

/-- `Part v t b w s`: a value of type `t`, inside something of variability `v`, has a component of type `s`
inside something of variability `w`; `b` says that it is reached through a pointer. -/
inductive Part : Vb → Ty → Bool → Vb → Ty → Prop
  | self (v : Vb) (t : Ty) : Part v t false v t
  | vecElem {v t b w s} (n : Nat) (h : Part v t b w s) : Part v (.vec t n) b w s
  | arrElem {v t b w s} (n : Nat) (h : Part v t b w s) : Part v (.arr t n) b w s
  | member {v x ms t b w s} (hm : t ∈ Tys.toList ms) (h : Part (v.resolve x) t b w s) : Part v (.struct x ms) b w s
  | target {t b w s} (v x : Vb) (h : Part .uniform t b w s) : Part v (.ptr t x) true w s

/-- The types without components of their own. -/
def Leaf : Ty → Prop
  | .scal .. | .undef .. | .func .. | .ref .. => True
  | _ => False

mutual
/-- The form of data in memory or in an argument. -/
inductive Shape where
  | scal (k : Nat)
  | opaque (name : Nat)
  | times (n : Nat) (s : Shape)
  | record (ss : Shapes)
  | address (s : Shape)
  | code (gang : Nat)
inductive Shapes where
  | nil
  | cons (s : Shape) (ss : Shapes)
end

/-- A value for every program instance, or for every slot of an `soa` type. -/
def spread (W : Nat) (s : Shape) : Vb → Shape
  | .varying => .times W s
  | .soa w   => .times w s
  | _        => s

mutual
/-- The form of the data of a type for gangs of `W` program instances.  A function is called with the mask
of the gang, so its code is for one gang size. -/
def shape (W : Nat) (v : Vb) : Ty → Shape
  | .scal k x    => spread W (.scal k) (v.resolve x)
  | .undef n x   => spread W (.opaque n) (v.resolve x)
  | .func _      => .code W
  | .ptr t x     => spread W (.address (shape W .uniform t)) (v.resolve x)
  | .vec t n     => .times n (shape W v t)
  | .arr t n     => .times n (shape W v t)
  | .struct x ms => .record (shapes W (v.resolve x) ms)
  | .ref t       => .address (shape W v t)
def shapes (W : Nat) (v : Vb) : Tys → Shapes
  | .nil       => .nil
  | .cons t ts => .cons (shape W v t) (shapes W v ts)
end

mutual
/-- The form of the argument itself, without what its addresses lead to. -/
def Shape.passed : Shape → Shape
  | .times n s  => .times n s.passed
  | .record ss  => .record ss.passed
  | .address _  => .address (.opaque 0)
  | s           => s
def Shapes.passed : Shapes → Shapes
  | .nil       => .nil
  | .cons s ss => .cons s.passed ss.passed
end

/-- The argument has the same form for all gang sizes. -/
def PassedAlike (t : Ty) : Prop := ∀ W W', (shape W .uniform t).passed = (shape W' .uniform t).passed

/-- So has everything that is reached from it. -/
def Alike (t : Ty) : Prop := ∀ W W', shape W .uniform t = shape W' .uniform t

/-- Accepted as a parameter or the result of an exported function. -/
def Accepted (t : Ty) : Prop := (check .uniform false false t).1 = true

/-- Without a warning. -/
def Silent (t : Ty) : Prop := (check .uniform false false t).2 = []

/-! ## The parts -/

/-- What `check` allows, at a place behind a pointer if `a`. -/
structure AllowedAt (a : Bool) (v : Vb) (t : Ty) : Prop where
  ptrs : ∀ b w s x, Part v t b w (.ptr s x) → w.resolve x ≠ .varying
  vecs : ∀ b w s n, Part v t b w (.vec s n) → (a || b) = true
  vals : ∀ b w s, Leaf s → Part v t b w s → s.vb w = .varying → (a || b) = true
  soas : ∀ b w s, Leaf s → Part v t b w s → (s.vb w).isSoa = true → (a || b) = false

/-- No component is varying. -/
def NoVarying (v : Vb) (t : Ty) : Prop := ∀ b w s, Leaf s → Part v t b w s → s.vb w ≠ .varying

theorem leaf_ok (a : Bool) (x : Vb) :
    (leaf a a x).1 = true ↔ (x = .varying → a = true) ∧ (x.isSoa = true → a = false) := by
  cases a <;> cases x <;> simp [leaf, Vb.isSoa]

theorem leaf_warn (a : Bool) (x : Vb) (h : (leaf a a x).1 = true) : (leaf a a x).2 = [] ↔ x ≠ .varying := by
  cases a <;> cases x <;> simp_all [leaf, Vb.isSoa]

theorem part_leaf {v t b w s} (hl : Leaf t) (h : Part v t b w s) : b = false ∧ w = v ∧ s = t := by
  cases h with
  | self => exact ⟨rfl, rfl, rfl⟩
  | vecElem | arrElem | member | target => exact hl.elim

theorem allowed_leaf {a : Bool} {v : Vb} {t : Ty} (hl : Leaf t) :
    AllowedAt a v t ↔ (t.vb v = .varying → a = true) ∧ ((t.vb v).isSoa = true → a = false) := by
  constructor
  · intro h
    exact ⟨fun hv => by simpa using h.vals false v t hl (.self v t) hv, fun hs => by simpa using h.soas false v t hl (.self v t) hs⟩
  · rintro ⟨h1, h2⟩
    refine ⟨?_, ?_, ?_, ?_⟩
    · intro b w s x h
      obtain ⟨_, _, rfl⟩ := part_leaf hl h
      exact hl.elim
    · intro b w s n h
      obtain ⟨_, _, rfl⟩ := part_leaf hl h
      exact hl.elim
    · intro b w s _ h hv
      obtain ⟨rfl, rfl, rfl⟩ := part_leaf hl h
      simpa using h1 hv
    · intro b w s _ h hv
      obtain ⟨rfl, rfl, rfl⟩ := part_leaf hl h
      simpa using h2 hv

theorem allowed_arr {a : Bool} {v : Vb} {t : Ty} {n : Nat} : AllowedAt a v (.arr t n) ↔ AllowedAt a v t := by
  constructor
  · intro h
    exact ⟨fun b w s x p => h.ptrs b w s x (.arrElem n p), fun b w s m p => h.vecs b w s m (.arrElem n p),
      fun b w s hl p => h.vals b w s hl (.arrElem n p), fun b w s hl p => h.soas b w s hl (.arrElem n p)⟩
  · intro h
    refine ⟨?_, ?_, ?_, ?_⟩
    · intro b w s x p
      cases p with | arrElem _ p => exact h.ptrs b w s x p
    · intro b w s m p
      cases p with | arrElem _ p => exact h.vecs b w s m p
    · intro b w s hl p
      cases p with
      | self => exact hl.elim
      | arrElem _ p => exact h.vals b w s hl p
    · intro b w s hl p
      cases p with
      | self => exact hl.elim
      | arrElem _ p => exact h.soas b w s hl p

theorem allowed_vec {a : Bool} {v : Vb} {t : Ty} {n : Nat} :
    AllowedAt a v (.vec t n) ↔ a = true ∧ AllowedAt a v t := by
  constructor
  · intro h
    exact ⟨by simpa using h.vecs false v t n (.self v _),
      ⟨fun b w s x p => h.ptrs b w s x (.vecElem n p), fun b w s m p => h.vecs b w s m (.vecElem n p),
       fun b w s hl p => h.vals b w s hl (.vecElem n p), fun b w s hl p => h.soas b w s hl (.vecElem n p)⟩⟩
  · rintro ⟨rfl, h⟩
    refine ⟨?_, ?_, ?_, ?_⟩
    · intro b w s x p
      cases p with | vecElem _ p => exact h.ptrs b w s x p
    · intro b w s m p
      rfl
    · intro b w s hl p _
      rfl
    · intro b w s hl p
      cases p with
      | self => exact hl.elim
      | vecElem _ p => exact h.soas b w s hl p

theorem allowed_ptr {a : Bool} {v x : Vb} {t : Ty} :
    AllowedAt a v (.ptr t x) ↔ v.resolve x ≠ .varying ∧ AllowedAt true .uniform t := by
  constructor
  · intro h
    refine ⟨h.ptrs false v t x (.self v _), ⟨fun b w s y p => h.ptrs true w s y (.target v x p), ?_, ?_, ?_⟩⟩
    · intro b w s n p; rfl
    · intro b w s hl p _; rfl
    · intro b w s hl p hs
      have := h.soas true w s hl (.target v x p) hs
      simp at this
  · rintro ⟨h0, h⟩
    refine ⟨?_, ?_, ?_, ?_⟩
    · intro b w s y p
      cases p with
      | self => exact h0
      | target _ _ p => exact h.ptrs _ w s y p
    · intro b w s n p
      cases p with | target _ _ p => simp
    · intro b w s hl p _
      cases p with
      | self => exact hl.elim
      | target _ _ p => simp
    · intro b w s hl p hs
      cases p with
      | self => exact hl.elim
      | target _ _ p =>
        have := h.soas _ w s hl p hs
        simp at this

theorem allowed_struct {a : Bool} {v x : Vb} {ms : Tys} :
    AllowedAt a v (.struct x ms) ↔ ∀ t ∈ ms.toList, AllowedAt a (v.resolve x) t := by
  constructor
  · intro h t ht
    exact ⟨fun b w s y p => h.ptrs b w s y (.member ht p), fun b w s m p => h.vecs b w s m (.member ht p),
      fun b w s hl p => h.vals b w s hl (.member ht p), fun b w s hl p => h.soas b w s hl (.member ht p)⟩
  · intro h
    refine ⟨?_, ?_, ?_, ?_⟩
    · intro b w s y p
      cases p with | member ht p => exact (h _ ht).ptrs b w s y p
    · intro b w s m p
      cases p with | member ht p => exact (h _ ht).vecs b w s m p
    · intro b w s hl p
      cases p with
      | self => exact hl.elim
      | member ht p => exact (h _ ht).vals b w s hl p
    · intro b w s hl p
      cases p with
      | self => exact hl.elim
      | member ht p => exact (h _ ht).soas b w s hl p

mutual
theorem check_iff (v : Vb) (a : Bool) : ∀ t : Ty, (check v a a t).1 = true ↔ AllowedAt a v t
  | .scal k x  => by rw [check, leaf_ok, allowed_leaf (by trivial)]; rfl
  | .undef k x => by rw [check, leaf_ok, allowed_leaf (by trivial)]; rfl
  | .func f    => by rw [check, leaf_ok, allowed_leaf (by trivial)]; rfl
  | .ref t     => by rw [check, leaf_ok, allowed_leaf (by trivial)]; rfl
  | .arr t n   => by rw [check, allowed_arr]; exact check_iff v a t
  | .vec t n   => by
    rw [check, allowed_vec]
    cases a
    · simp
    · simpa using check_iff v true t
  | .ptr t x   => by
    rw [check, allowed_ptr]
    by_cases h : v.resolve x = .varying
    · simp [h]
    · simpa [h] using check_iff .uniform true t
  | .struct x ms => by
    rw [check, allowed_struct]
    exact checks_iff (v.resolve x) a ms
theorem checks_iff (v : Vb) (a : Bool) : ∀ ms : Tys, (checks v a a ms).1 = true ↔ ∀ t ∈ ms.toList, AllowedAt a v t
  | .nil       => by simp [checks, Tys.toList]
  | .cons t ts => by
    have h1 := check_iff v a t
    have h2 := checks_iff v a ts
    rw [checks, Tys.toList]
    by_cases h : (check v a a t).1 = true
    · simp only [h, if_true, List.forall_mem_cons]
      rw [h2]
      exact ⟨fun k => ⟨h1.1 h, k⟩, fun k => k.2⟩
    · simp only [h, List.forall_mem_cons]
      exact ⟨fun k => (h k).elim, fun k => (h (h1.2 k.1)).elim⟩
end

theorem noVarying_leaf {v : Vb} {t : Ty} (hl : Leaf t) : NoVarying v t ↔ t.vb v ≠ .varying := by
  constructor
  · exact fun h => h false v t hl (.self v t)
  · intro h b w s _ p
    obtain ⟨rfl, rfl, rfl⟩ := part_leaf hl p
    exact h

theorem noVarying_arr {v : Vb} {t : Ty} {n : Nat} : NoVarying v (.arr t n) ↔ NoVarying v t := by
  refine ⟨fun h b w s hl p => h b w s hl (.arrElem n p), fun h b w s hl p => ?_⟩
  cases p with
  | self => exact hl.elim
  | arrElem _ p => exact h b w s hl p

theorem noVarying_vec {v : Vb} {t : Ty} {n : Nat} : NoVarying v (.vec t n) ↔ NoVarying v t := by
  refine ⟨fun h b w s hl p => h b w s hl (.vecElem n p), fun h b w s hl p => ?_⟩
  cases p with
  | self => exact hl.elim
  | vecElem _ p => exact h b w s hl p

theorem noVarying_ptr {v x : Vb} {t : Ty} : NoVarying v (.ptr t x) ↔ NoVarying .uniform t := by
  refine ⟨fun h b w s hl p => h true w s hl (.target v x p), fun h b w s hl p => ?_⟩
  cases p with
  | self => exact hl.elim
  | target _ _ p => exact h _ w s hl p

theorem noVarying_struct {v x : Vb} {ms : Tys} :
    NoVarying v (.struct x ms) ↔ ∀ t ∈ ms.toList, NoVarying (v.resolve x) t := by
  refine ⟨fun h t ht b w s hl p => h b w s hl (.member ht p), fun h b w s hl p => ?_⟩
  cases p with
  | self => exact hl.elim
  | member ht p => exact h _ ht b w s hl p

mutual
theorem warn_iff (v : Vb) (a : Bool) : ∀ t : Ty, (check v a a t).1 = true → ((check v a a t).2 = [] ↔ NoVarying v t)
  | .scal k x, h  => by rw [check] at h ⊢; rw [leaf_warn _ _ h, noVarying_leaf (by trivial)]; rfl
  | .undef k x, h => by rw [check] at h ⊢; rw [leaf_warn _ _ h, noVarying_leaf (by trivial)]; rfl
  | .func f, h    => by rw [check] at h ⊢; rw [leaf_warn _ _ h, noVarying_leaf (by trivial)]; rfl
  | .ref t, h     => by rw [check] at h ⊢; rw [leaf_warn _ _ h, noVarying_leaf (by trivial)]; rfl
  | .arr t n, h   => by rw [check] at h ⊢; rw [noVarying_arr]; exact warn_iff v a t h
  | .vec t n, h   => by
    rw [check] at h ⊢
    cases a
    · simp at h
    · simp only [if_true] at h ⊢
      rw [noVarying_vec]; exact warn_iff v true t h
  | .ptr t x, h   => by
    rw [check] at h ⊢
    by_cases hx : v.resolve x = .varying
    · simp [hx] at h
    · simp only [hx, if_false] at h ⊢
      rw [noVarying_ptr]; exact warn_iff .uniform true t h
  | .struct x ms, h => by
    rw [check] at h ⊢
    rw [noVarying_struct]; exact warns_iff (v.resolve x) a ms h
theorem warns_iff (v : Vb) (a : Bool) : ∀ ms : Tys, (checks v a a ms).1 = true →
    ((checks v a a ms).2 = [] ↔ ∀ t ∈ ms.toList, NoVarying v t)
  | .nil, _       => by simp [checks, Tys.toList]
  | .cons t ts, h => by
    rw [checks] at h ⊢
    by_cases ht : (check v a a t).1 = true
    · simp only [ht, if_true] at h ⊢
      rw [Tys.toList, List.forall_mem_cons, List.append_eq_nil_iff, warn_iff v a t ht, warns_iff v a ts h]
    · simp only [ht] at h
      exact (ht h).elim
end

/-- **C80** What is accepted as a parameter or result of an exported function: nothing that is passed itself
is varying or a short vector, no pointer that is passed or can be reached is varying, and nothing that can
be reached is an `soa` value. -/
theorem accepted_iff (t : Ty) : Accepted t ↔
    (∀ w s, Leaf s → Part .uniform t false w s → s.vb w ≠ .varying) ∧
    (∀ w s n, ¬ Part .uniform t false w (.vec s n)) ∧
    (∀ b w s x, Part .uniform t b w (.ptr s x) → w.resolve x ≠ .varying) ∧
    (∀ w s, Leaf s → Part .uniform t true w s → (s.vb w).isSoa = false) := by
  rw [Accepted, check_iff]
  constructor
  · intro h
    refine ⟨fun w s hl p hv => ?_, fun w s n p => ?_, h.ptrs, fun w s hl p => ?_⟩
    · have := h.vals false w s hl p hv
      simp at this
    · have := h.vecs false w s n p
      simp at this
    · by_cases hs : (s.vb w).isSoa = true
      · have := h.soas true w s hl p hs
        simp at this
      · simpa using hs
  · rintro ⟨h1, h2, h3, h4⟩
    refine ⟨h3, ?_, ?_, ?_⟩
    · rintro (_ | _) w s n p
      · exact (h2 w s n p).elim
      · rfl
    · rintro (_ | _) w s hl p hv
      · exact (h1 w s hl p hv).elim
      · rfl
    · rintro (_ | _) w s hl p hv
      · rfl
      · rw [h4 w s hl p] at hv
        simp at hv

/-- **C80** An accepted type gets a warning exactly if something varying can be reached. -/
theorem silent_iff (t : Ty) (h : Accepted t) :
    Silent t ↔ ∀ b w s, Leaf s → Part .uniform t b w s → s.vb w ≠ .varying := by
  rw [Silent, warn_iff _ _ _ h]
  rfl

/-! ## The form of the data -/

theorem spread_eq (W W' : Nat) (s : Shape) {x : Vb} (h : x ≠ .varying) : spread W s x = spread W' s x := by
  cases x <;> simp_all [spread]

theorem spread_ne {W W' : Nat} (hW : W ≠ W') (s s' : Shape) : spread W s .varying ≠ spread W' s' .varying := by
  simp [spread, hW]

theorem spread_inj {W W' : Nat} {s s' : Shape} {x : Vb} (h : spread W s x = spread W' s' x) : s = s' := by
  cases x <;> simp_all [spread]

theorem spread_passed (W : Nat) (s : Shape) (x : Vb) : (spread W s x).passed = spread W s.passed x := by
  cases x <;> simp [spread, Shape.passed]

mutual
theorem passed_eq (W W' : Nat) (v : Vb) : ∀ t : Ty, (check v false false t).1 = true →
    (∀ w f, ¬ Part v t false w (.func f)) → (shape W v t).passed = (shape W' v t).passed
  | .scal k x, h, _  => by
    rw [check, leaf_ok] at h
    rw [shape, shape, spread_eq W W' _ (fun e => by simpa using h.1 e)]
  | .undef k x, h, _ => by
    rw [check, leaf_ok] at h
    rw [shape, shape, spread_eq W W' _ (fun e => by simpa using h.1 e)]
  | .func f, _, hf   => (hf v f (.self _ _)).elim
  | .ref t, _, _     => by rw [shape, shape, Shape.passed, Shape.passed]
  | .arr t n, h, hf  => by
    rw [check] at h
    rw [shape, shape, Shape.passed, Shape.passed, passed_eq W W' v t h (fun w f p => hf w f (.arrElem n p))]
  | .vec t n, h, _   => by simp [check] at h
  | .ptr t x, h, _   => by
    rw [check] at h
    by_cases hx : v.resolve x = .varying
    · simp [hx] at h
    · rw [shape, shape, spread_passed, spread_passed, Shape.passed, Shape.passed, spread_eq W W' _ hx]
  | .struct x ms, h, hf => by
    rw [check] at h
    rw [shape, shape, Shape.passed, Shape.passed,
      passeds_eq W W' (v.resolve x) ms h (fun t ht w f p => hf w f (.member ht p))]
theorem passeds_eq (W W' : Nat) (v : Vb) : ∀ ms : Tys, (checks v false false ms).1 = true →
    (∀ t ∈ ms.toList, ∀ w f, ¬ Part v t false w (.func f)) → (shapes W v ms).passed = (shapes W' v ms).passed
  | .nil, _, _       => by rw [shapes, shapes]
  | .cons t ts, h, hf => by
    rw [checks] at h
    by_cases ht : (check v false false t).1 = true
    · simp only [ht, if_true] at h
      rw [shapes, shapes, Shapes.passed, Shapes.passed,
        passed_eq W W' v t ht (hf t (by simp [Tys.toList])),
        passeds_eq W W' v ts h (fun s hs => hf s (by simp [Tys.toList, hs]))]
    · simp only [ht] at h
      exact (ht h).elim
end

/-- **C80** What an exported function is passed or returns has the same form for all gang sizes.  (A function
itself is not a value.) -/
theorem accepted_passed (t : Ty) (h : Accepted t) (hf : ∀ w f, ¬ Part .uniform t false w (.func f)) : PassedAlike t :=
  fun W W' => passed_eq W W' .uniform t h hf

/-- No references and no functions are reached. -/
def Plain (v : Vb) (t : Ty) : Prop := ∀ b w, (∀ s, ¬ Part v t b w (.ref s)) ∧ ∀ f, ¬ Part v t b w (.func f)

/-- No pointer is varying. -/
def NoVaryingPtr (v : Vb) (t : Ty) : Prop := ∀ b w s x, Part v t b w (.ptr s x) → w.resolve x ≠ .varying

mutual
theorem shape_eq (W W' : Nat) (v : Vb) : ∀ t : Ty, NoVarying v t → NoVaryingPtr v t → Plain v t →
    shape W v t = shape W' v t
  | .scal k x, h, _, _  => by rw [shape, shape]; exact spread_eq W W' _ (h false v (.scal k x) trivial (.self _ _))
  | .undef k x, h, _, _ => by rw [shape, shape]; exact spread_eq W W' _ (h false v (.undef k x) trivial (.self _ _))
  | .func f, _, _, hp   => ((hp false v).2 f (.self _ _)).elim
  | .ref t, _, _, hp    => ((hp false v).1 t (.self _ _)).elim
  | .arr t n, h, hx, hp => by
    rw [shape, shape, shape_eq W W' v t (noVarying_arr.1 h) (fun b w s x p => hx b w s x (.arrElem n p))
      (fun b w => ⟨fun s p => (hp b w).1 s (.arrElem n p), fun f p => (hp b w).2 f (.arrElem n p)⟩)]
  | .vec t n, h, hx, hp => by
    rw [shape, shape, shape_eq W W' v t (noVarying_vec.1 h) (fun b w s x p => hx b w s x (.vecElem n p))
      (fun b w => ⟨fun s p => (hp b w).1 s (.vecElem n p), fun f p => (hp b w).2 f (.vecElem n p)⟩)]
  | .ptr t x, h, hx, hp => by
    rw [shape, shape, shape_eq W W' .uniform t (noVarying_ptr.1 h) (fun b w s y p => hx true w s y (.target v x p))
      (fun b w => ⟨fun s p => (hp true w).1 s (.target v x p), fun f p => (hp true w).2 f (.target v x p)⟩),
      spread_eq W W' _ (hx false v t x (.self _ _))]
  | .struct x ms, h, hx, hp => by
    rw [shape, shape, shapes_eq W W' (v.resolve x) ms (noVarying_struct.1 h)
      (fun t ht b w s y p => hx b w s y (.member ht p))
      (fun t ht b w => ⟨fun s p => (hp b w).1 s (.member ht p), fun f p => (hp b w).2 f (.member ht p)⟩)]
theorem shapes_eq (W W' : Nat) (v : Vb) : ∀ ms : Tys, (∀ t ∈ ms.toList, NoVarying v t) →
    (∀ t ∈ ms.toList, NoVaryingPtr v t) → (∀ t ∈ ms.toList, Plain v t) → shapes W v ms = shapes W' v ms
  | .nil, _, _, _       => by rw [shapes, shapes]
  | .cons t ts, h, hx, hp => by
    rw [shapes, shapes, shape_eq W W' v t (h t (by simp [Tys.toList])) (hx t (by simp [Tys.toList]))
      (hp t (by simp [Tys.toList])),
      shapes_eq W W' v ts (fun s hs => h s (by simp [Tys.toList, hs])) (fun s hs => hx s (by simp [Tys.toList, hs]))
        (fun s hs => hp s (by simp [Tys.toList, hs]))]
end

theorem shapes_mem {W W' : Nat} {v : Vb} : ∀ {ms : Tys} {t : Ty}, shapes W v ms = shapes W' v ms →
    t ∈ ms.toList → shape W v t = shape W' v t
  | .nil, t, _, hm => by simp [Tys.toList] at hm
  | .cons t' ts, t, h, hm => by
    rw [shapes, shapes, Shapes.cons.injEq] at h
    rw [Tys.toList, List.mem_cons] at hm
    rcases hm with rfl | hm
    · exact h.1
    · exact shapes_mem h.2 hm

theorem shape_part {W W' : Nat} {v : Vb} {t : Ty} {b : Bool} {w : Vb} {s : Ty} (p : Part v t b w s) :
    shape W v t = shape W' v t → shape W w s = shape W' w s := by
  induction p with
  | self => exact id
  | vecElem n _ ih | arrElem n _ ih =>
    intro h
    rw [shape, shape, Shape.times.injEq] at h
    exact ih h.2
  | member hm _ ih =>
    intro h
    rw [shape, shape, Shape.record.injEq] at h
    exact ih (shapes_mem h hm)
  | target v x _ ih =>
    intro h
    rw [shape, shape] at h
    have h := spread_inj h
    rw [Shape.address.injEq] at h
    exact ih h

/-- **C80** The types an exported function takes without complaint are those whose data, with everything that can be
reached from it, has the same form for all gang sizes, that do not pass a short vector, and do not reach an
`soa` value; as long as there are no references and no functions. -/
theorem silent_alike_partial (t : Ty) (hp : Plain .uniform t) :
    Accepted t ∧ Silent t ↔
      Alike t ∧ (∀ w s n, ¬ Part .uniform t false w (.vec s n)) ∧
        (∀ w s, Leaf s → Part .uniform t true w s → (s.vb w).isSoa = false) := by
  constructor
  · rintro ⟨ha, hs⟩
    have ha' := (accepted_iff t).1 ha
    exact ⟨fun W W' => shape_eq W W' .uniform t ((silent_iff t ha).1 hs) ha'.2.2.1 hp, ha'.2.1, ha'.2.2.2⟩
  · rintro ⟨hal, hv, hsoa⟩
    have hno : NoVarying .uniform t := by
      intro b w s hl p e
      have h := shape_part (W := 1) (W' := 2) p (hal 1 2)
      cases s with
      | scal k x | undef k x =>
        rw [shape, shape] at h
        rw [Ty.vb] at e
        rw [e] at h
        exact spread_ne (by decide) _ _ h
      | func f => exact (hp b w).2 f p
      | ref s => exact (hp b w).1 s p
      | ptr | vec | arr | struct => exact hl.elim
    have hptr : NoVaryingPtr .uniform t := by
      intro b w s x p e
      have h := shape_part (W := 1) (W' := 2) p (hal 1 2)
      rw [shape, shape, e] at h
      exact spread_ne (by decide) _ _ h
    have ha : Accepted t := (accepted_iff t).2 ⟨fun w s hl p => hno false w s hl p, hv, hptr, hsoa⟩
    exact ⟨ha, (silent_iff t ha).2 hno⟩

/-- `struct { float a[3]; int * uniform b; float<4> * uniform c; }` by pointer: a case of the theorems. -/
def sample : Ty :=
  .ptr (.struct .uniform (.cons (.arr (.scal 0 .unbound) 3) (.cons (.ptr (.scal 1 .unbound) .uniform)
    (.cons (.ptr (.vec (.scal 0 .unbound) 4) .uniform) .nil)))) .uniform

example : Accepted sample ∧ Silent sample := ⟨rfl, rfl⟩

mutual
/-- Whether a reference or a function is reached, as a function. -/
def plainB : Ty → Bool
  | .scal .. | .undef .. => true
  | .func _ | .ref _ => false
  | .ptr t _ | .vec t _ | .arr t _ => plainB t
  | .struct _ ms => plainBs ms
def plainBs : Tys → Bool
  | .nil       => true
  | .cons t ts => plainB t && plainBs ts
end

theorem plainBs_mem : ∀ {ms : Tys} {t : Ty}, plainBs ms = true → t ∈ ms.toList → plainB t = true
  | .nil, t, _, hm => by simp [Tys.toList] at hm
  | .cons t' ts, t, h, hm => by
    rw [plainBs, Bool.and_eq_true] at h
    rw [Tys.toList, List.mem_cons] at hm
    rcases hm with rfl | hm
    · exact h.1
    · exact plainBs_mem h.2 hm

theorem plainB_part {v t b w s} (p : Part v t b w s) : plainB t = true → plainB s = true := by
  induction p with
  | self => exact id
  | vecElem n _ ih | arrElem n _ ih => intro h; rw [plainB] at h; exact ih h
  | member hm _ ih => intro h; rw [plainB] at h; exact ih (plainBs_mem h hm)
  | target v x _ ih => intro h; rw [plainB] at h; exact ih h

theorem plain_of {t : Ty} (h : plainB t = true) (v : Vb) : Plain v t := by
  intro b w
  refine ⟨fun s p => ?_, fun f p => ?_⟩
  · have := plainB_part p h
    simp [plainB] at this
  · have := plainB_part p h
    simp [plainB] at this

example : Plain .uniform sample := plain_of rfl .uniform

/-- So its data has the same form for all gang sizes. -/
example : Alike sample := ((silent_alike_partial sample (plain_of rfl _)).1 ⟨rfl, rfl⟩).1

/-- `varying S * uniform` with members that are `uniform` is as good. -/
example : Accepted (.ptr (.struct .varying (.cons (.scal 0 .uniform) .nil)) .uniform) ∧
    Silent (.ptr (.struct .varying (.cons (.scal 0 .uniform) .nil)) .uniform) := ⟨rfl, rfl⟩

/-- `varying float * uniform` is accepted with a warning, `varying float`, `float * varying`, `uniform float<3>` and
`soa<8> float * uniform` are not accepted. -/
example : Accepted (.ptr (.scal 0 .varying) .uniform) ∧ ¬ Silent (.ptr (.scal 0 .varying) .uniform) ∧
    ¬ Accepted (.scal 0 .varying) ∧ ¬ Accepted (.ptr (.scal 0 .uniform) .varying) ∧
    ¬ Accepted (.vec (.scal 0 .uniform) 3) ∧ ¬ Accepted (.ptr (.scal 0 (.soa 8)) .uniform) := by
  simp [Accepted, Silent, check, leaf, Vb.resolve, Vb.isSoa]

/-! ## Where the check does not see -/

/-- A struct with a varying member. -/
def withVarying : Ty := .struct .uniform (.cons (.scal 0 .varying) .nil)
/-- A struct with a varying pointer. -/
def withPointers : Ty := .struct .uniform (.cons (.ptr (.scal 0 .uniform) .varying) .nil)

/-- **C80** References are not followed: a reference to a struct is accepted without a warning when the struct has
varying members or varying pointers, so that its size depends on the gang size, although the pointer to the same struct gets the
warning or the error; and so is a reference to an `soa` type. -/
theorem reference_wrong :
    (Accepted (.ref withVarying) ∧ Silent (.ref withVarying) ∧ ¬ Alike (.ref withVarying) ∧
      ¬ Silent (.ptr withVarying .uniform)) ∧
    (Accepted (.ref withPointers) ∧ Silent (.ref withPointers) ∧ ¬ Alike (.ref withPointers) ∧
      ¬ Accepted (.ptr withPointers .uniform)) ∧
    ∀ w, Accepted (.ref (.struct (.soa w) (.cons (.scal 0 .unbound) .nil))) ∧
      ¬ Accepted (.ptr (.struct (.soa w) (.cons (.scal 0 .unbound) .nil)) .uniform) := by
  refine ⟨⟨rfl, rfl, fun h => ?_, by simp [Silent, withVarying, check, checks, leaf, Vb.resolve, Vb.isSoa]⟩,
    ⟨rfl, rfl, fun h => ?_, by simp [Accepted, withPointers, check, checks, Vb.resolve]⟩,
    fun w => ⟨by simp [Accepted, check, leaf, Vb.resolve, Vb.isSoa, Ty.vb],
      by simp [Accepted, check, checks, leaf, Vb.resolve, Vb.isSoa]⟩⟩
  · have := h 4 8
    simp [withVarying, shape, shapes, spread, Vb.resolve] at this
  · have := h 4 8
    simp [withPointers, shape, shapes, spread, Vb.resolve] at this

/-- **C80** Nor are function types: a pointer to a function is accepted without a warning. -/
theorem function_wrong (f : Nat) :
    Accepted (.ptr (.func f) .uniform) ∧ Silent (.ptr (.func f) .uniform) ∧ ¬ Alike (.ptr (.func f) .uniform) := by
  refine ⟨rfl, rfl, fun h => ?_⟩
  have := h 4 8
  simp [shape, spread, Vb.resolve] at this

/-- **C80** An `soa` struct that has only pointers as members is accepted behind a pointer, although one with other
members is not. -/
theorem soa_pointers_wrong (w : Nat) :
    Accepted (.ptr (.struct (.soa w) (.cons (.ptr (.scal 0 .uniform) .unbound) .nil)) .uniform) ∧
    ¬ Accepted (.ptr (.struct (.soa w) (.cons (.scal 0 .unbound) .nil)) .uniform) := by
  simp [Accepted, check, checks, leaf, Vb.resolve, Vb.isSoa]

/-! ## The declaration of an exported function -/

/-- There is an error exactly if the type is not accepted. -/
theorem paramErrs_nil (t : Ty) : paramErrs t = [] ↔ Accepted t := by
  unfold paramErrs Accepted
  split
  · simp [*]
  · simp [*]

/-- Once a parameter has a default value, all that follow have one. -/
def Trailing (ps : List Param) : Prop :=
  ∀ (i j : Nat) (p q : Param), i < j → ps[i]? = some p → ps[j]? = some q → p.default = true → q.default = true

theorem loop_nil : ∀ (ps : List Param) (seen : Bool), loop seen ps = [] ↔
    (∀ p ∈ ps, Accepted p.ty) ∧ (seen = true → ∀ p ∈ ps, p.default = true) ∧ Trailing ps
  | [], seen => by simp [loop, Trailing]
  | p :: ps, seen => by
    rw [loop, List.append_eq_nil_iff, List.append_eq_nil_iff, paramErrs_nil, loop_nil ps]
    constructor
    · rintro ⟨⟨h1, h2⟩, h3, h4, h5⟩
      have hp : seen = true → p.default = true := by
        intro hs
        by_cases hd : p.default = true
        · exact hd
        · simp [hs, hd] at h2
      refine ⟨List.forall_mem_cons.2 ⟨h1, h3⟩, fun hs => List.forall_mem_cons.2 ⟨hp hs, h4 (by simp [hs])⟩, ?_⟩
      intro i j a b hij ha hb hd
      cases j with
      | zero => omega
      | succ j =>
        rw [List.getElem?_cons_succ] at hb
        cases i with
        | zero =>
          rw [List.getElem?_cons_zero, Option.some.injEq] at ha
          subst ha
          exact h4 (by simp [hd]) b (List.mem_of_getElem? hb)
        | succ i =>
          rw [List.getElem?_cons_succ] at ha
          exact h5 i j a b (by omega) ha hb hd
    · rintro ⟨h1, h2, h3⟩
      rw [List.forall_mem_cons] at h1
      refine ⟨⟨h1.1, ?_⟩, h1.2, ?_, ?_⟩
      · by_cases hs : seen = true
        · simp [(List.forall_mem_cons.1 (h2 hs)).1]
        · simp [hs]
      · intro hs q hq
        obtain ⟨j, hj⟩ := List.mem_iff_getElem?.1 hq
        by_cases hs' : seen = true
        · exact h2 hs' q (List.mem_cons_of_mem _ hq)
        · have hd : p.default = true := by simpa [hs'] using hs
          exact h3 0 (j + 1) p q (by omega) (by simp) (by simpa using hj) hd
      · intro i j a b hij ha hb hd
        exact h3 (i + 1) (j + 1) a b (by omega) (by simpa using ha) (by simpa using hb) hd

/-- **C80** The declaration of an exported function is accepted exactly if its result and all its parameters are
accepted, no parameter is a struct passed by value, and the default values are at the end. -/
theorem export_iff (ret : Ty) (ps : List Param) :
    exportErrs ret ps = [] ↔
      Accepted ret ∧ (∀ p ∈ ps, Accepted p.ty ∧ ∀ x ms, p.ty ≠ .struct x ms) ∧ Trailing ps := by
  have hs : structErrs ps = [] ↔ ∀ p ∈ ps, ∀ x ms, p.ty ≠ .struct x ms := by
    unfold structErrs
    rw [ite_eq_right_iff]
    simp only [reduceCtorEq, imp_false, List.any_eq_true, not_exists, not_and]
    refine forall_congr' fun p => forall_congr' fun _ => ?_
    cases hp : p.ty <;> simp [Ty.isStruct]
  have hr : (if (check .uniform false false ret).1 then [] else [Err.returns]) = [] ↔ Accepted ret := by
    unfold Accepted
    split <;> simp [*]
  rw [exportErrs, List.append_eq_nil_iff, List.append_eq_nil_iff, hr, hs, loop_nil]
  constructor
  · rintro ⟨⟨h1, h2⟩, h3, _, h5⟩
    exact ⟨h1, fun p hp => ⟨h3 p hp, h2 p hp⟩, h5⟩
  · rintro ⟨h1, h2, h3⟩
    exact ⟨⟨h1, fun p hp => (h2 p hp).2⟩, fun p hp => (h2 p hp).1, by simp, h3⟩

/-- **C80** All that an exported function is passed and returns has the same form for all gang sizes. -/
theorem export_alike (ret : Ty) (ps : List Param) (h : exportErrs ret ps = [])
    (hf : ∀ t ∈ ret :: ps.map Param.ty, ∀ w f, ¬ Part .uniform t false w (.func f)) :
    ∀ t ∈ ret :: ps.map Param.ty, PassedAlike t := by
  obtain ⟨h1, h2, _⟩ := (export_iff ret ps).1 h
  intro t ht
  refine accepted_passed t ?_ (hf t ht)
  rw [List.mem_cons, List.mem_map] at ht
  rcases ht with rfl | ⟨p, hp, rfl⟩
  · exact h1
  · exact (h2 p hp).1

/-- `export uniform int f(uniform int n, sample p = NULL)`. -/
example : exportErrs (.scal 1 .uniform) [⟨.scal 1 .uniform, false⟩, ⟨sample, true⟩] = [] := rfl

/-- **C80** A struct is not accepted as a parameter, but it is as a result. -/
theorem return_struct_wrong (k : Nat) :
    exportErrs (.scal 0 .uniform) [⟨.struct .uniform (.cons (.scal k .unbound) .nil), false⟩] ≠ [] ∧
    exportErrs (.struct .uniform (.cons (.scal k .unbound) .nil)) [] = [] := by
  constructor
  · intro h
    exact (((export_iff _ _).1 h).2.1 _ (List.mem_singleton.2 rfl)).2 _ _ rfl
  · simp [exportErrs, check, checks, leaf, Vb.resolve, Vb.isSoa, structErrs, loop]

end Ispc.Export
