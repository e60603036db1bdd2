import Verif.Front.Intrinsics
import Mathlib.Data.Nat.Digits.Lemmas

/-!
# What a call of an intrinsic does

Specification: docs/design/ispc-intrinsics.md.  The texts of the operations and
orderings are those of the LLVM language reference.
-/

namespace Ispc.Intrin

/-! ## Specification -/

/-- How an ordering is written in a name. -/
def Ord.text : Ord → List Char
  | .unordered => ['u', 'n', 'o', 'r', 'd', 'e', 'r', 'e', 'd']
  | .monotonic => ['m', 'o', 'n', 'o', 't', 'o', 'n', 'i', 'c']
  | .acquire => ['a', 'c', 'q', 'u', 'i', 'r', 'e']
  | .release => ['r', 'e', 'l', 'e', 'a', 's', 'e']
  | .acqRel => ['a', 'c', 'q', '_', 'r', 'e', 'l']
  | .seqCst => ['s', 'e', 'q', '_', 'c', 's', 't']

/-- How an operation is written in a name. -/
def Rmw.text : Rmw → List Char
  | .xchg_ => ['x', 'c', 'h', 'g']
  | .add_ => ['a', 'd', 'd']
  | .sub_ => ['s', 'u', 'b']
  | .and_ => ['a', 'n', 'd']
  | .nand_ => ['n', 'a', 'n', 'd']
  | .or_ => ['o', 'r']
  | .xor_ => ['x', 'o', 'r']
  | .max_ => ['m', 'a', 'x']
  | .min_ => ['m', 'i', 'n']
  | .umax_ => ['u', 'm', 'a', 'x']
  | .umin_ => ['u', 'm', 'i', 'n']
  | .fadd_ => ['f', 'a', 'd', 'd']
  | .fsub_ => ['f', 's', 'u', 'b']
  | .fmax_ => ['f', 'm', 'a', 'x']
  | .fmin_ => ['f', 'm', 'i', 'n']

/-- `@llvm.ispc.atomicrmw.<operation>.<ordering>` -/
def rmwName (op : Rmw) (o : Ord) : List Char :=
  ['l', 'l', 'v', 'm', '.', 'i', 's', 'p', 'c', '.', 'a', 't', 'o', 'm', 'i', 'c', 'r', 'm', 'w', '.'] ++ op.text ++ ['.'] ++ o.text

/-- `@llvm.ispc.cmpxchg.<success_ordering>.<failure_ordering>` -/
def cmpxchgName (success failure : Ord) : List Char :=
  ['l', 'l', 'v', 'm', '.', 'i', 's', 'p', 'c', '.', 'c', 'm', 'p', 'x', 'c', 'h', 'g', '.'] ++ success.text ++ ['.'] ++ failure.text

/-- `@llvm.ispc.fence.<ordering>` -/
def fenceName (o : Ord) : List Char := ['l', 'l', 'v', 'm', '.', 'i', 's', 'p', 'c', '.', 'f', 'e', 'n', 'c', 'e', '.'] ++ o.text

/-- The orderings that LLVM allows for success and failure of `cmpxchg`: both atomic
and not `unordered`, and failure does not release. -/
def CmpXchgOk (success failure : Ord) : Prop :=
  success ≠ .unordered ∧ failure ≠ .unordered ∧ failure ≠ .release ∧ failure ≠ .acqRel

mutual
/-- No struct with a name occurs in the type. -/
def Plain : Ty → Prop
  | .int _ | .half | .float | .double | .ptr _ => True
  | .vec _ e | .arr _ e => Plain e
  | .named _ => False
  | .lit fs => Plains fs
/-- The same for members. -/
def Plains : Tys → Prop
  | .nil => True
  | .cons t ts => Plain t ∧ Plains ts
end

/-! ## The name of a type is unambiguous -/

theorem num_digits (n : Nat) : ∀ c ∈ num n, c.isDigit = true := by
  intro c hc
  exact Nat.isDigit_of_mem_toDigits (by norm_num) (by norm_num) hc

theorem num_ne (n : Nat) : num n ≠ [] := Nat.toDigits_ne_nil

theorem num_inj {m n : Nat} (h : num m = num n) : m = n := by
  have := congrArg (Nat.ofDigitChars 10 · 0) h
  simpa [num] using this

/-- What may follow the name of a type. -/
def Good (r : List Char) : Prop := ∀ c, r.head? = some c → c.isDigit = false ∧ c ≠ 'l'

theorem good_nil : Good [] := by simp [Good]

theorem num_cut {m n : Nat} {r r' : List Char} (hr : ∀ c, r.head? = some c → c.isDigit = false)
    (hr' : ∀ c, r'.head? = some c → c.isDigit = false) (h : num m ++ r = num n ++ r') :
    m = n ∧ r = r' := by
  have key : ∀ (k : Nat) (q : List Char), (∀ c, q.head? = some c → c.isDigit = false) →
      (num k ++ q).takeWhile Char.isDigit = num k := by
    intro k q hq
    rw [List.takeWhile_append_of_pos (num_digits k)]
    cases q with
    | nil => simp
    | cons c q => simp [hq c rfl]
  have h1 := key m r hr
  rw [h, key n r' hr'] at h1
  have hm : m = n := (num_inj h1).symm
  subst hm
  exact ⟨rfl, List.append_cancel_left h⟩

theorem mangle_head (t : Ty) : ∃ c cs, mangle t = c :: cs ∧ c.isDigit = false ∧ c ≠ 'l' := by
  cases t <;> simp [mangle]

theorem mangle_start (t : Ty) (r : List Char) : Good (mangle t ++ r) := by
  obtain ⟨c, cs, h, hc⟩ := mangle_head t
  intro d hd
  simp [h] at hd
  exact hd ▸ hc

mutual
theorem mangle_cut (t t' : Ty) (r r' : List Char) (ht : Plain t) (ht' : Plain t') (hr : Good r)
    (hr' : Good r') (h : mangle t ++ r = mangle t' ++ r') : t = t' ∧ r = r' := by
  have nd : ∀ q, Good q → ∀ c, q.head? = some c → c.isDigit = false := fun q hq c hc => (hq c hc).1
  cases t with
  | named nm => exact ht.elim
  | int w =>
    cases t' <;> simp [mangle] at h
    case int => obtain ⟨a, b⟩ := num_cut (nd _ hr) (nd _ hr') h; exact ⟨by rw [a], b⟩
  | ptr w =>
    cases t' <;> simp [mangle] at h
    case ptr => obtain ⟨a, b⟩ := num_cut (nd _ hr) (nd _ hr') h; exact ⟨by rw [a], b⟩
  | half => cases t' <;> simp [mangle] at h; exact ⟨rfl, h⟩
  | float => cases t' <;> simp [mangle] at h; exact ⟨rfl, h⟩
  | double => cases t' <;> simp [mangle] at h; exact ⟨rfl, h⟩
  | vec n e =>
    cases t' <;> simp [mangle] at h
    case vec n' e' =>
      obtain ⟨a, b⟩ := num_cut (nd _ (mangle_start e r)) (nd _ (mangle_start e' r')) h
      obtain ⟨c, d⟩ := mangle_cut e e' r r' ht ht' hr hr' b
      exact ⟨by rw [a, c], d⟩
  | arr n e =>
    cases t' <;> simp [mangle] at h
    case arr n' e' =>
      obtain ⟨a, b⟩ := num_cut (nd _ (mangle_start e r)) (nd _ (mangle_start e' r')) h
      obtain ⟨c, d⟩ := mangle_cut e e' r r' ht ht' hr hr' b
      exact ⟨by rw [a, c], d⟩
  | lit fs =>
    cases t' <;> simp [mangle] at h
    case lit fs' =>
      obtain ⟨a, b⟩ := mangles_cut fs fs' r r' ht ht' hr hr' h
      exact ⟨by rw [a], b⟩
theorem mangles_cut (ts ts' : Tys) (r r' : List Char) (ht : Plains ts) (ht' : Plains ts') (hr : Good r)
    (hr' : Good r') (h : mangles ts ++ 's' :: r = mangles ts' ++ 's' :: r') : ts = ts' ∧ r = r' := by
  have close : ∀ (t : Ty) (q q' : List Char), Plain t → Good q → 's' :: q ≠ mangle t ++ q' := by
    intro t q q' hp hq h
    cases t <;> simp [mangle] at h
    case named => exact hp
    case lit => exact (hq 'l' (by simp [h])).2 rfl
  have good : ∀ (us : Tys) (q : List Char), Good (mangles us ++ 's' :: q) := by
    intro us q
    cases us with
    | nil => intro c hc; simp [mangles] at hc; subst hc; decide
    | cons u us => simp only [mangles, List.append_assoc]; exact mangle_start u _
  cases ts with
  | nil =>
    cases ts' with
    | nil => simpa [mangles] using h
    | cons t' ts' =>
      simp only [mangles, List.nil_append, List.append_assoc] at h
      exact absurd h (close t' r _ ht'.1 hr)
  | cons t ts =>
    cases ts' with
    | nil =>
      simp only [mangles, List.nil_append, List.append_assoc] at h
      exact absurd h.symm (close t r' _ ht.1 hr')
    | cons t' ts' =>
      simp only [mangles, List.append_assoc] at h
      obtain ⟨a, b⟩ := mangle_cut t t' _ _ ht.1 ht'.1 (good ts r) (good ts' r') h
      obtain ⟨c, d⟩ := mangles_cut ts ts' r r' ht.2 ht'.2 hr hr' b
      exact ⟨by rw [a, c], d⟩
end

/-- **C64 (part)**: types without named structs have different names. -/
theorem type_name_partial (t t' : Ty) (ht : Plain t) (ht' : Plain t') (h : mangle t = mangle t') :
    t = t' :=
  (mangle_cut t t' [] [] ht ht' good_nil good_nil (by simpa using h)).1

example : Plain (.lit (.cons (.ptr 0) (.cons (.vec 4 (.int 32)) .nil))) := by simp [Plain, Plains]

/-- Missing in `type_name_partial`, and false: a struct without a name that holds two
structs `x` and `y` has the name of one that holds a struct called `xss_y`. -/
theorem type_name_wrong : ∃ t t' : Ty, t ≠ t' ∧ mangle t = mangle t' :=
  ⟨.lit (.cons (.named ['x']) (.cons (.named ['y']) .nil)),
    .lit (.cons (.named ['x', 's', 's', '_', 'y']) .nil), by simp, by decide⟩

/-! ## Operation and ordering -/

theorem after_append (a b : List Char) (hb : '.' ∉ b) : after (a ++ '.' :: b) = b := by
  have : (a ++ '.' :: b).reverse = b.reverse ++ '.' :: a.reverse := by simp
  rw [after, this, List.takeWhile_append_of_pos (by intro c hc; simp at hc ⊢; rintro rfl; exact hb hc)]
  simp

theorem before_append (a b : List Char) (hb : '.' ∉ b) : before (a ++ '.' :: b) = a := by
  have : (a ++ '.' :: b).reverse = b.reverse ++ '.' :: a.reverse := by simp
  rw [before, if_pos (by simp), this,
    List.dropWhile_append_of_pos (by intro c hc; simp at hc ⊢; rintro rfl; exact hb hc)]
  simp

theorem num_nodot (n : Nat) : '.' ∉ num n := fun h => absurd (num_digits n _ h) (by decide)

mutual
theorem plain_nodot (t : Ty) (h : Plain t) : '.' ∉ mangle t := by
  cases t with
  | named => exact h.elim
  | int w => simp [mangle, num_nodot]
  | ptr w => simp [mangle, num_nodot]
  | half => simp [mangle]
  | float => simp [mangle]
  | double => simp [mangle]
  | vec n e => simp [mangle, num_nodot, plain_nodot e h]
  | arr n e => simp [mangle, num_nodot, plain_nodot e h]
  | lit fs => simp [mangle, plains_nodot fs h]
theorem plains_nodot (ts : Tys) (h : Plains ts) : '.' ∉ mangles ts := by
  cases ts with
  | nil => simp [mangles]
  | cons t ts => simp [mangles, plain_nodot t h.1, plains_nodot ts h.2]
end

theorem ord_nodot (o : Ord) : '.' ∉ o.text := by cases o <;> decide
theorem rmw_nodot (o : Rmw) : '.' ∉ o.text := by cases o <;> decide
theorem ordOf_text (o : Ord) : ordOf o.text = some o := by cases o <;> decide
theorem rmwOf_text (o : Rmw) : rmwOf o.text = some o := by cases o <;> decide

/-- **C64 (part)**: a call of `@llvm.ispc.atomicrmw.<operation>.<ordering>` becomes the
`atomicrmw` instruction with that operation and that ordering, whatever the types. -/
theorem rmw_as_named (op : Rmw) (o : Ord) (p v : Ty) (hv : Plain v) :
    ∃ d, lookup (rmwName op o) = some .atomicrmw ∧
      declare (rmwName op o) .atomicrmw [p, v] = some d ∧ d.ret = some v ∧
      dispatch d.name = some .atomicrmw ∧ lowerRmw d.name = some (op, o) := by
  refine ⟨_, rfl, rfl, rfl, rfl, ?_⟩
  have e : rmwName op o ++ dot v
      = (['l', 'l', 'v', 'm', '.', 'i', 's', 'p', 'c', '.', 'a', 't', 'o', 'm', 'i', 'c', 'r', 'm', 'w'] ++ '.' :: op.text ++ '.' :: o.text) ++ '.' :: mangle v := by
    simp [rmwName, dot]
  show lowerRmw (rmwName op o ++ dot v) = _
  rw [lowerRmw, e, before_append _ _ (plain_nodot v hv), after_append _ _ (ord_nodot o),
    before_append _ _ (ord_nodot o), after_append _ _ (rmw_nodot op), ordOf_text, rmwOf_text]
  rfl

example : Plain (.int 32) := trivial

/-- **C64 (part)**: a call of `@llvm.ispc.fence.<ordering>()` becomes a fence with that
ordering. -/
theorem fence_as_named (o : Ord) :
    ∃ d, lookup (fenceName o) = some .fence ∧ declare (fenceName o) .fence [] = some d ∧
      d.ret = none ∧ d.params = [] ∧ dispatch d.name = some .fence ∧ lowerFence d.name = some o := by
  refine ⟨_, rfl, rfl, rfl, rfl, rfl, ?_⟩
  have e : fenceName o = ['l', 'l', 'v', 'm', '.', 'i', 's', 'p', 'c', '.', 'f', 'e', 'n', 'c', 'e'] ++ '.' :: o.text := by simp [fenceName]
  show lowerFence (fenceName o) = _
  rw [lowerFence, e, after_append _ _ (ord_nodot o), ordOf_text]

/-- **C64 (part)**: a call of `@llvm.ispc.cmpxchg.<success>.<failure>` becomes a
`cmpxchg` with the two orderings exchanged: the one for success is used for failure. -/
theorem cmpxchg_exchanged_partial (success failure : Ord) (p c v : Ty) (hc : Plain c) :
    ∃ d, lookup (cmpxchgName success failure) = some .cmpxchg ∧
      declare (cmpxchgName success failure) .cmpxchg [p, c, v] = some d ∧ d.ret = some c ∧
      dispatch d.name = some .cmpxchg ∧ lowerCmpXchg d.name = some (failure, success) := by
  refine ⟨_, rfl, rfl, rfl, rfl, ?_⟩
  have e : cmpxchgName success failure ++ dot c
      = (['l', 'l', 'v', 'm', '.', 'i', 's', 'p', 'c', '.', 'c', 'm', 'p', 'x', 'c', 'h', 'g'] ++ '.' :: success.text ++ '.' :: failure.text) ++ '.' :: mangle c := by
    simp [cmpxchgName, dot]
  show lowerCmpXchg (cmpxchgName success failure ++ dot c) = _
  rw [lowerCmpXchg, e, before_append _ _ (plain_nodot c hc), after_append _ _ (ord_nodot _),
    before_append _ _ (ord_nodot _), after_append _ _ (ord_nodot _), ordOf_text, ordOf_text]
  rfl

/-- **C64 (part)**: the instruction has the orderings of the name exactly if the name has
the same ordering twice. -/
theorem cmpxchg_iff_partial (success failure : Ord) (p c v : Ty) (hc : Plain c) (d : Decl)
    (hd : declare (cmpxchgName success failure) .cmpxchg [p, c, v] = some d) :
    lowerCmpXchg d.name = some (success, failure) ↔ success = failure := by
  obtain ⟨d', -, h, -, -, h'⟩ := cmpxchg_exchanged_partial success failure p c v hc
  rw [hd, Option.some.injEq] at h
  subst h
  rw [h']
  simp only [Option.some.injEq, Prod.mk.injEq]
  exact ⟨fun h => h.2, fun h => ⟨h.symm, h⟩⟩

/-- The full statement is false: `acq_rel` for success and `monotonic` for failure are
orderings that LLVM allows, but the instruction that is made of them is not allowed. -/
theorem cmpxchg_wrong : ∃ success failure p c v d so fo,
    declare (cmpxchgName success failure) .cmpxchg [p, c, v] = some d ∧
    CmpXchgOk success failure ∧ lowerCmpXchg d.name = some (so, fo) ∧ ¬ CmpXchgOk so fo := by
  obtain ⟨d, -, h, -, -, h'⟩ :=
    cmpxchg_exchanged_partial .acqRel .monotonic (.ptr 0) (.int 32) (.int 32) trivial
  exact ⟨.acqRel, .monotonic, .ptr 0, .int 32, .int 32, d, .monotonic, .acqRel, h,
    by simp [CmpXchgOk], h', by simp [CmpXchgOk]⟩

/-! ## The function that is called -/

theorem isPrefixOf_append (a b : List Char) : a.isPrefixOf (a ++ b) = true := by simp

theorem lookup_closed {n : List Char} {k : Kind} (h : lookup n = some k) :
    (k.open_ = true ∧ ∃ s, n = pre ++ k.text ++ '.' :: s) ∨ (k.open_ = false ∧ n = pre ++ k.text) := by
  have := List.find?_some h
  rw [isKind] at this
  split at this
  · rename_i ho
    obtain ⟨s, hs⟩ := List.isPrefixOf_iff_prefix.1 this
    exact .inl ⟨ho, s, by rw [← hs]; simp⟩
  · rename_i ho
    exact .inr ⟨by simpa using ho, by simpa using this⟩

theorem dispatch_text (k : Kind) (s : List Char) : dispatch (pre ++ k.text ++ '.' :: s) = some k := by
  cases k <;> rfl

theorem declare_name {n : List Char} {k : Kind} {tys : List Ty} {d : Decl} (h : declare n k tys = some d) :
    d.params = tys ∧ ((k = .fence ∧ d.name = n) ∨ ∃ s, d.name = n ++ '.' :: s) := by
  unfold declare at h
  split at h <;> simp only [Option.some.injEq, Option.ite_none_right_eq_some, reduceCtorEq,
    List.append_assoc] at h
  case h_2 => obtain ⟨-, rfl⟩ := h; exact ⟨rfl, .inr ⟨_, rfl⟩⟩
  all_goals
    subst h
    first | exact ⟨rfl, .inl ⟨rfl, rfl⟩⟩ | exact ⟨rfl, .inr ⟨_, rfl⟩⟩

/-- **C64 (part)**: every call that is accepted is replaced later, and by the function
of the pass that belongs to the intrinsic. -/
theorem replaced_partial (n : List Char) (k : Kind) (tys : List Ty) (d : Decl)
    (hk : lookup n = some k) (hd : declare n k tys = some d) : dispatch d.name = some k := by
  obtain ⟨-, ⟨rfl, hn⟩ | ⟨s, hs⟩⟩ := declare_name hd
  · rw [hn]
    rcases lookup_closed hk with ⟨-, s, e⟩ | ⟨ho, -⟩
    · rw [e]; exact dispatch_text .fence s
    · simp [Kind.open_] at ho
  · rcases lookup_closed hk with ⟨-, s', e⟩ | ⟨-, e⟩
    · rw [hs, e, List.append_assoc]; exact dispatch_text k _
    · rw [hs, e]; exact dispatch_text k s

example : ∃ d, lookup (pre ++ Kind.select.text) = some .select ∧
    declare (pre ++ Kind.select.text) .select [.vec 8 (.int 1), .vec 8 .float, .vec 8 .float] = some d :=
  ⟨_, rfl, rfl⟩

/-- The types of a call that is written as documented, where masks have the type `M`: the
pointer is one uniform pointer, an index is an `int32`, and the arguments that stand for
the same type have the same type. -/
inductive Usual (M : Ty) : Kind → List Ty → Prop
  | atomicrmw (v : Ty) : Usual M .atomicrmw [.ptr 0, v]
  | bitcast (a b : Ty) : Usual M .bitcast [a, b]
  | blendStore (v : Ty) : Usual M .blendStore [v, .ptr 0, M]
  | concat (w : Nat) (e : Ty) : Usual M .concat [.vec w e, .vec w e]
  | cmpxchg (v : Ty) : Usual M .cmpxchg [.ptr 0, v, v]
  | extract (w : Nat) (e : Ty) : Usual M .extract [.vec w e, .int 32]
  | extract2 (w : Nat) (e : Ty) : Usual M .extract [.vec w e, .vec w e, .int 32]
  | fence : Usual M .fence []
  | insert (w : Nat) (e : Ty) : Usual M .insert [.vec w e, .int 32, e]
  | packmask (m : Ty) : Usual M .packmask [m]
  | select (t : Ty) : Usual M .select [M, t, t]
  | streamLoad (t : Ty) : Usual M .streamLoad [.ptr 0, t]
  | streamStore (t : Ty) : Usual M .streamStore [.ptr 0, t]

/-- What a documented call gives (docs/design/ispc-intrinsics.md:12-120); nothing for the
intrinsics that store or order. -/
inductive Gives (M : Ty) : Kind → List Ty → Ret → Prop
  | atomicrmw (v : Ty) : Gives M .atomicrmw [.ptr 0, v] (some v)
  | bitcast (a b : Ty) : primBits a = primBits b → Gives M .bitcast [a, b] (some b)
  | blendStore (v : Ty) : Gives M .blendStore [v, .ptr 0, M] none
  | concat (w : Nat) (e : Ty) : Gives M .concat [.vec w e, .vec w e] (some (.vec (w + w) e))
  | cmpxchg (v : Ty) : Gives M .cmpxchg [.ptr 0, v, v] (some v)
  | extract (w : Nat) (e : Ty) : Gives M .extract [.vec w e, .int 32] (some e)
  | extract2 (w : Nat) (e : Ty) : Gives M .extract [.vec w e, .vec w e, .int 32] (some e)
  | fence : Gives M .fence [] none
  | insert (w : Nat) (e : Ty) : Gives M .insert [.vec w e, .int 32, e] (some (.vec w e))
  | packmask (m : Ty) : Gives M .packmask [m] (some (.int 64))
  | select (t : Ty) : Gives M .select [M, t, t] (some t)
  | streamLoad (t : Ty) : Gives M .streamLoad [.ptr 0, t] (some t)
  | streamStore (t : Ty) : Gives M .streamStore [.ptr 0, t] none

/-- **C64 (part)**: the documented names are known, those of the atomic operations and of
the fence with whatever follows. -/
theorem known_names (k : Kind) (s : List Char) :
    lookup (pre ++ k.text ++ if k.open_ then '.' :: s else []) = some k := by
  cases k <;> rfl

/-- **C64 (part)**: a documented call is accepted, and its value has the documented
type. -/
theorem value_type (M : Ty) {k : Kind} {tys : List Ty} {r : Ret} (h : Gives M k tys r)
    (n : List Char) : ∃ d, declare n k tys = some d ∧ d.ret = r ∧ d.params = tys := by
  cases h with
  | bitcast a b hb => exact ⟨_, by rw [declare, if_pos hb], rfl, rfl⟩
  | concat w e => exact ⟨_, rfl, by rw [show w + w = w * 2 by omega], rfl⟩
  | _ => exact ⟨_, rfl, rfl, rfl⟩

/-- A vector of 8 numbers of 32 bits as one of 4 numbers of 64 bits. -/
example : Gives (.vec 8 (.int 1)) .bitcast [.vec 8 (.int 32), .vec 4 (.int 64)]
    (some (.vec 4 (.int 64))) := .bitcast _ _ (by decide)

/-- **C64 (part)**: `bitcast` is accepted exactly between types of the same size. -/
theorem bitcast_size (n : List Char) (a b : Ty) :
    (declare n .bitcast [a, b]).isSome = true ↔ primBits a = primBits b := by
  simp only [declare]
  split <;> simp_all

theorem closed_eq {n n' : List Char} {k : Kind} (h : lookup n = some k) (h' : lookup n' = some k)
    (hk : k.open_ = false) : n = n' := by
  rcases lookup_closed h with ⟨h1, -⟩ | ⟨-, h1⟩
  · simp [h1] at hk
  · rcases lookup_closed h' with ⟨h2, -⟩ | ⟨-, h2⟩
    · simp [h2] at hk
    · rw [h1, h2]

theorem dot_one {n n' : List Char} {t t' : Ty} (ht : Plain t) (ht' : Plain t')
    (h : n ++ dot t = n' ++ dot t') : n = n' ∧ t = t' := by
  have ha := congrArg after h
  have hb := congrArg before h
  rw [dot, dot, after_append _ _ (plain_nodot t ht), after_append _ _ (plain_nodot t' ht')] at ha
  rw [dot, dot, before_append _ _ (plain_nodot t ht), before_append _ _ (plain_nodot t' ht')] at hb
  exact ⟨hb, type_name_partial t t' ht ht' ha⟩

theorem dot_two {n n' : List Char} {s t s' t' : Ty} (hs : Plain s) (hs' : Plain s') (ht : Plain t)
    (ht' : Plain t') (h : n ++ dot s ++ dot t = n' ++ dot s' ++ dot t') : n = n' ∧ s = s' ∧ t = t' := by
  obtain ⟨h1, h2⟩ := dot_one ht ht' h
  obtain ⟨h3, h4⟩ := dot_one hs hs' h1
  exact ⟨h3, h4, h2⟩

/-- A call that is written as documented, and what is declared for it. -/
def Documented (M : Ty) (n : List Char) (tys : List Ty) (d : Decl) : Prop :=
  ∃ k, lookup n = some k ∧ Usual M k tys ∧ (∀ t ∈ tys, Plain t) ∧ declare n k tys = some d

theorem same_decl {M : Ty} {n n' : List Char} {tys tys' : List Ty} {d d' : Decl}
    (h : Documented M n tys d) (h' : Documented M n' tys' d') (he : d.name = d'.name) : d = d' := by
  obtain ⟨k, hk, hu, hp, hd⟩ := h
  obtain ⟨k', hk', hu', hp', hd'⟩ := h'
  have e1 := replaced_partial n k tys d hk hd
  have e2 := replaced_partial n' k' tys' d' hk' hd'
  rw [he, e2, Option.some.injEq] at e1
  subst e1
  cases hu <;> cases hu' <;> simp only [declare, Option.some.injEq, Option.ite_none_right_eq_some] at hd hd'
  case atomicrmw.atomicrmw v v' =>
    subst hd hd'
    obtain ⟨rfl, rfl⟩ := dot_one (hp v (by simp)) (hp' v' (by simp)) he
    rfl
  case bitcast.bitcast a b a' b' =>
    obtain ⟨-, rfl⟩ := hd
    obtain ⟨-, rfl⟩ := hd'
    obtain ⟨rfl, rfl, rfl⟩ := dot_two (hp a (by simp)) (hp' a' (by simp)) (hp b (by simp)) (hp' b' (by simp)) he
    rfl
  case blendStore.blendStore v v' =>
    subst hd hd'
    obtain ⟨rfl, rfl⟩ := dot_one (hp v (by simp)) (hp' v' (by simp)) he
    rfl
  case concat.concat w e w' e' =>
    subst hd hd'
    have q : Plain e := hp (.vec w e) (by simp)
    have q' : Plain e' := hp' (.vec w' e') (by simp)
    obtain ⟨rfl, h1, h2⟩ := dot_two (s := .vec (w * 2) e) (s' := .vec (w' * 2) e') q q'
      (hp (.vec w e) (by simp)) (hp' (.vec w' e') (by simp)) he
    cases h2
    rfl
  case cmpxchg.cmpxchg v v' =>
    subst hd hd'
    obtain ⟨rfl, rfl⟩ := dot_one (hp v (by simp)) (hp' v' (by simp)) he
    rfl
  case extract.extract w e w' e' =>
    subst hd hd'
    obtain ⟨rfl, h2⟩ := dot_one (hp (.vec w e) (by simp)) (hp' (.vec w' e') (by simp)) he
    cases h2
    rfl
  case extract.extract2 w e w' e' =>
    subst hd hd'
    have hn := closed_eq hk hk' rfl
    subst hn
    obtain ⟨h2, -⟩ := dot_one (hp (.vec w e) (by simp)) (hp' (.vec w' e') (by simp)) he
    simp [dot] at h2
  case extract2.extract w e w' e' =>
    subst hd hd'
    have hn := closed_eq hk hk' rfl
    subst hn
    obtain ⟨h2, -⟩ := dot_one (hp (.vec w e) (by simp)) (hp' (.vec w' e') (by simp)) he
    simp [dot] at h2
  case extract2.extract2 w e w' e' =>
    subst hd hd'
    obtain ⟨rfl, h2, -⟩ := dot_two (hp (.vec w e) (by simp)) (hp' (.vec w' e') (by simp))
      (hp (.vec w e) (by simp)) (hp' (.vec w' e') (by simp)) he
    cases h2
    rfl
  case fence.fence =>
    subst hd hd'
    cases he
    rfl
  case insert.insert w e w' e' =>
    subst hd hd'
    obtain ⟨rfl, h2⟩ := dot_one (hp (.vec w e) (by simp)) (hp' (.vec w' e') (by simp)) he
    cases h2
    rfl
  case packmask.packmask v v' =>
    subst hd hd'
    obtain ⟨rfl, rfl⟩ := dot_one (hp v (by simp)) (hp' v' (by simp)) he
    rfl
  case select.select v v' =>
    subst hd hd'
    obtain ⟨rfl, rfl⟩ := dot_one (hp v (by simp)) (hp' v' (by simp)) he
    rfl
  case streamLoad.streamLoad v v' =>
    subst hd hd'
    obtain ⟨rfl, rfl⟩ := dot_one (hp v (by simp)) (hp' v' (by simp)) he
    rfl
  case streamStore.streamStore v v' =>
    subst hd hd'
    obtain ⟨rfl, rfl⟩ := dot_one (hp v (by simp)) (hp' v' (by simp)) he
    rfl

theorem calls_own (M : Ty) (cs : List (List Char × List Ty)) (ds : List Decl) (m : Module)
    (hm : ∀ d ∈ m, ∃ n tys, Documented M n tys d)
    (h : List.Forall₂ (fun c d => Documented M c.1 c.2 d) cs ds) : calls m cs = ds := by
  induction h generalizing m with
  | nil => rfl
  | @cons c d cs ds hc _ ih =>
    obtain ⟨n, tys⟩ := c
    have hb : (lookup n).bind (fun k => declare n k tys) = some d := by
      obtain ⟨k, hk, -, -, hd⟩ := hc
      simp [hk, hd]
    rw [calls, hb]
    have key : (getOrInsert m d).2 = d ∧ ∀ x ∈ (getOrInsert m d).1, ∃ n tys, Documented M n tys x := by
      rw [getOrInsert]
      cases hf : m.find? (fun x => x.name == d.name) with
      | none =>
        refine ⟨rfl, fun x hx => ?_⟩
        rcases List.mem_cons.1 hx with rfl | hx
        · exact ⟨n, tys, hc⟩
        · exact hm x hx
      | some x =>
        have hx := List.find?_some hf
        obtain ⟨n', tys', hx'⟩ := hm x (List.mem_of_find?_eq_some hf)
        exact ⟨same_decl hx' hc (by simpa using hx), hm⟩
    show (getOrInsert m d).2 :: calls (getOrInsert m d).1 cs = d :: ds
    rw [key.1, ih _ key.2]

/-- **C64 (part)**: in a module all of whose calls are written as documented, with one
type of masks, every call gets a function that was declared for the types of its own
arguments. -/
theorem own_function_partial (M : Ty) (cs : List (List Char × List Ty)) (ds : List Decl)
    (h : List.Forall₂ (fun c d => Documented M c.1 c.2 d) cs ds) :
    calls [] cs = ds ∧ (calls [] cs).map Decl.params = cs.map Prod.snd := by
  have e := calls_own M cs ds [] (by simp) h
  refine ⟨e, ?_⟩
  rw [e]
  clear e
  induction h with
  | nil => rfl
  | cons hc _ ih =>
    obtain ⟨k, -, -, -, hd⟩ := hc
    simp [(declare_name hd).1, ih]

example : ∃ d d', List.Forall₂ (fun c d => Documented (.vec 8 (.int 1)) c.1 c.2 d)
    [(rmwName .add_ .seqCst, [.ptr 0, .int 32]),
      (pre ++ Kind.select.text, [.vec 8 (.int 1), .vec 8 .float, .vec 8 .float])] [d, d'] := by
  refine ⟨_, _, .cons ⟨.atomicrmw, rfl, .atomicrmw _, ?_, rfl⟩ (.cons ⟨.select, rfl, .select _, ?_, rfl⟩ .nil)⟩
  all_goals intro t ht; simp at ht; rcases ht with rfl | rfl <;> simp [Plain]

/-- Without that it is false: after a `select` with a uniform `bool`, one with a varying
`bool` gets the function that wants a uniform one. -/
theorem own_function_wrong : ∃ (n : List Char) (tys tys' : List Ty) (d d' : Decl),
    (lookup n).bind (declare n · tys) = some d ∧ (lookup n).bind (declare n · tys') = some d' ∧
    (∀ t ∈ tys, Plain t) ∧ (∀ t ∈ tys', Plain t) ∧
    calls [] [(n, tys), (n, tys')] = [d, d] ∧ d.params ≠ tys' := by
  refine ⟨pre ++ Kind.select.text, [.int 1, .vec 8 .float, .vec 8 .float],
    [.vec 8 (.int 1), .vec 8 .float, .vec 8 .float], _, _, rfl, rfl, ?_, ?_, rfl, ?_⟩
  · intro t ht; simp at ht; rcases ht with rfl | rfl <;> simp [Plain]
  · intro t ht; simp at ht; rcases ht with rfl | rfl <;> simp [Plain]
  · simp

/-! ## What the instructions compute -/

/-- **C64 (part)**: `concat` gives the lanes of the first vector and then those of the second. -/
theorem concat_lanes (a b : List α) (h : a.length = b.length) :
    lowerConcat a b = (a ++ b).map some := by
  apply List.ext_getElem?
  intro i
  simp only [lowerConcat, shuffle, sequential, List.getElem?_map]
  by_cases hi : i < (a ++ b).length
  · have : i < 2 * a.length := by simp at hi; omega
    simp [this, List.getElem?_eq_getElem hi]
  · have : ¬ i < 2 * a.length := by simp at hi; omega
    simp [this, List.getElem?_eq_none (Nat.le_of_not_lt hi)]

example : lowerConcat [1, 2] [3, 4] = [some 1, some 2, some 3, some 4] := by decide

/-- **C64 (part)**: `extract` of two vectors takes lane `i` of the first, or lane `i - n`
of the second. -/
theorem extract2_lane (a b : List α) (h : a.length = b.length) (i : Nat) :
    lowerExtract2 a b i = if i < a.length then lowerExtract a i else lowerExtract b (i - a.length) := by
  have := concat_lanes a b h
  rw [lowerExtract2, show shuffle a b (sequential (2 * a.length)) = (a ++ b).map some from this]
  simp only [List.getElem?_map, lowerExtract]
  split
  · rename_i hi
    rw [List.getElem?_append_left hi]
    cases a[i]? <;> rfl
  · rename_i hi
    rw [List.getElem?_append_right (Nat.le_of_not_lt hi)]
    cases b[i - a.length]? <;> rfl

/-- **C64 (part)**: `extract` gives a value exactly for the indices of lanes. -/
theorem extract_defined (v : List α) (i : Nat) : (lowerExtract v i).isSome ↔ i < v.length := by
  simp [lowerExtract]

/-- **C64 (part)**: `insert` changes the lane with the index and no other. -/
theorem insert_lanes (v r : List α) (i : Nat) (x : α) (h : lowerInsert v i x = some r) :
    r.length = v.length ∧ ∀ j, lowerExtract r j = if j = i then some x else lowerExtract v j := by
  rw [lowerInsert] at h
  split at h
  · rename_i hi
    cases h
    refine ⟨by simp, fun j => ?_⟩
    simp only [lowerExtract, List.getElem?_set]
    split
    · rename_i e; subst e; simp
    · rename_i e; rw [if_neg (fun h => e h.symm)]
  · cases h

example : lowerInsert [1, 2, 3] 1 9 = some [1, 9, 3] := by decide

theorem trunc_bool (w : Nat) (hw : 0 < w) (c : List Bool) : truncToI1 (c.map (boolArg w)) = c := by
  rw [truncToI1, List.map_map]
  conv_rhs => rw [← List.map_id c]
  apply List.map_congr_left
  intro b _
  cases b
  · simp [boolArg]
  · simp [boolArg]; omega

/-- **C64 (part)**: `select` takes each lane from the vector that the condition says,
whatever the number of bits of a `bool` on the target. -/
theorem select_lanes (w : Nat) (hw : 0 < w) (c : List Bool) (t f : List α) (ht : t.length = c.length)
    (hf : f.length = c.length) (j : Nat) :
    (lowerSelect (c.map (boolArg w)) t f)[j]? = if c[j]? = some true then t[j]? else f[j]? := by
  rw [lowerSelect, createSelect, trunc_bool w hw]
  by_cases hj : j < c.length
  · have h1 : j < t.length := by omega
    have h2 : j < f.length := by omega
    simp only [List.getElem?_zipWith, List.getElem?_eq_getElem hj]
    rw [List.getElem?_eq_getElem (l := t.zip f) (by simp; omega)]
    simp only [List.getElem_zip, List.getElem?_eq_getElem h1, List.getElem?_eq_getElem h2]
    cases c[j] <;> simp
  · have h2 : f[j]? = none := List.getElem?_eq_none (by omega)
    have h3 : c[j]? = none := List.getElem?_eq_none (by omega)
    simp [List.getElem?_zipWith, h2, h3]

/-- **C64 (part)**: `blend_store` stores the lanes whose condition holds and leaves the
others as they were. -/
theorem blend_store_lanes (w : Nat) (hw : 0 < w) (m : List Bool) (v old : List α)
    (hv : v.length = m.length) (ho : old.length = m.length) (j : Nat) :
    (lowerBlendStore v old (m.map (boolArg w)))[j]? = if m[j]? = some true then v[j]? else old[j]? :=
  select_lanes w hw m v old hv ho j

example : lowerBlendStore [1, 2] [7, 8] ([true, false].map (boolArg 32)) = [1, 8] := by decide

/-- **C64 (part)**: bit `j` of `packmask` is lane `j` of the mask. -/
theorem packmask_bits (w : Nat) (hw : 0 < w) (m : List Bool) (j : Nat) (hj : j < 64) :
    (lowerPackMask (m.map (boolArg w))).getLsbD j = (m[j]? == some true) := by
  rw [lowerPackMask, trunc_bool w hw, BitVec.getLsbD_ofNat]
  simp only [hj, decide_true, Bool.true_and]
  clear hj
  induction m generalizing j with
  | nil => simp
  | cons b m ih =>
    simp only [List.foldr_cons]
    cases j with
    | zero =>
      rw [Nat.testBit_zero]
      cases b <;> simp
    | succ j =>
      rw [Nat.testBit_succ, show (2 * (m.foldr (fun b n => 2 * n + b.toNat) 0) + b.toNat) / 2
        = m.foldr (fun b n => 2 * n + b.toNat) 0 by cases b <;> simp; omega, ih]
      simp

/-- **C64 (part)**: the result of a call is the value of the right sign in every wider
integer type, if it was computed from signed numbers. -/
theorem result_partial (x : BitVec w) (w' : Nat) (h : w ≤ w') : (widen x w').toInt = x.toInt := by
  simp [widen, signedResult, BitVec.toInt_signExtend_of_le h]

/-- For unsigned numbers it is not: lane 0 of a vector of `uint32` that holds 2^31, in a
`uint64`, is 2^64 - 2^31. -/
theorem result_wrong : ∃ x : BitVec 32, (widen x 64).toNat ≠ x.toNat := ⟨0x80000000#32, by decide⟩

/-- **C64 (part)**: unsigned numbers are widened correctly exactly if their highest bit is
not set. -/
theorem result_iff_partial (x : BitVec w) (w' : Nat) (h : w < w') :
    (widen x w').toNat = x.toNat ↔ x.msb = false := by
  have e : widen x w' = x.signExtend w' := by simp [widen, signedResult]
  rw [e]
  cases hm : x.msb with
  | false =>
    rw [BitVec.signExtend_eq_setWidth_of_msb_false hm]
    simp [BitVec.toNat_setWidth]
    exact Nat.mod_eq_of_lt (lt_of_lt_of_le x.isLt (Nat.pow_le_pow_right (by norm_num) h.le))
  | true =>
    simp only [Bool.true_eq_false, iff_false]
    intro hh
    have h1 := result_partial x w' h.le
    rw [e] at h1
    have h3 : x.toInt < 0 := BitVec.toInt_neg_iff.2 (by
      have := BitVec.msb_eq_decide x
      rw [hm] at this
      have h4 := of_decide_eq_true this.symm
      cases w with
      | zero => exact absurd hm (by rw [BitVec.msb_eq_decide]; have := x.isLt; simp; omega)
      | succ w => rw [Nat.add_sub_cancel] at h4; rw [pow_succ]; omega)
    have h4 : 2 * x.toNat < 2 ^ w' := by
      have h5 : 2 ^ (w + 1) ≤ 2 ^ w' := Nat.pow_le_pow_right (by norm_num) h
      have := x.isLt
      rw [pow_succ] at h5
      omega
    rw [BitVec.toInt_eq_toNat_cond, hh, if_pos h4] at h1
    omega

end Ispc.Intrin
