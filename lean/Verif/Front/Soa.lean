import Verif.Front.FoldScalar

/-!
# Addresses in `soa<>` data

The memory layout of `soa<w>` structures, slice pointers (a pointer to a block of
`w` elements and the number of the element in it), the code the compiler emits for
indexing, member access, pointer arithmetic and the final load or store through
slice pointers, and the layout the language promises: element `i` of an array
is in block `i / w`, slot `i mod w`.

Left out: vectors of pointers are looked at one lane at a time; the per-lane
offsets of `varying` data do not occur with slice pointers (src/expr.cpp:4916);
references to `soa<>` data are treated like uniform pointers, as in
`RegularizePointer` (src/ctx.cpp:2290-2296).
-/

namespace Ispc.Soa

open Ispc.Fold (resize)

/-! ## Layout -/

/-- The types of members of a structure: a basic type with its size and the base 2
logarithm of its alignment, an array (or short vector) of a number of elements, a
structure with its members. -/
inductive Ty
  | leaf (size logAlign : Nat)
  | arr (n : Nat) (t : Ty)
  | struct (n : Nat) (f : Fin n → Ty)

/-- The next multiple of `a`. -/
def roundUp (x a : Nat) : Nat := (x + a - 1) / a * a

/-- A function on the members, extended. -/
def ext {n : Nat} (g : Fin n → Nat) (k : Nat) : Nat := if h : k < n then g ⟨k, h⟩ else 0

/-- Offset of member `k`, LLVM's `StructLayout`: members in order, each at the next
multiple of its alignment. -/
def fieldOff (sz al : Nat → Nat) : Nat → Nat
  | 0 => 0
  | k + 1 => roundUp (fieldOff sz al k + sz k) (2 ^ al (k + 1))

/-- Base 2 logarithm of the alignment. -/
def logAlign : Ty → Nat
  | .leaf _ a => a
  | .arr _ t => logAlign t
  | .struct n f => (List.ofFn fun i : Fin n => logAlign (f i)).foldr max 0

/-- The size in memory, including padding.  A structure without members is
given one `i8` (src/type.cpp:1948-1952). -/
def size : Ty → Nat
  | .leaf s _ => s
  | .arr n t => n * size t
  | .struct n f =>
    match n with
    | 0 => 1
    | k + 1 =>
      roundUp (fieldOff (ext fun i => size (f i)) (ext fun i => logAlign (f i)) k +
          ext (fun i => size (f i)) k)
        (2 ^ (List.ofFn fun i : Fin (k + 1) => logAlign (f i)).foldr max 0)

/-- Offset of a member. -/
def memberOff {n : Nat} (f : Fin n → Ty) (k : Nat) : Nat :=
  fieldOff (ext fun i => size (f i)) (ext fun i => logAlign (f i)) k

/-- The `soa<w>` version: basic types become arrays of `w`
(`lGetAtomicLLVMType`, src/type.cpp:680-683; enums 947-951; pointers 1271-1275),
arrays and vectors `GetAsSOAType` of their element (src/type.cpp:1383-1389 and
1794-1795), structures that of their members (`StructType::GetElementType`,
src/type.cpp:2195-2216). -/
def soa (w : Nat) : Ty → Ty
  | .leaf s a => .arr w (.leaf s a)
  | .arr n t => .arr n (soa w t)
  | .struct n f => .struct n fun i => soa w (f i)

/-- Specification: where the cell with the given path of indices and member numbers
is in a value of the type, and its size. -/
def locate : Ty → List Nat → Option (Nat × Nat)
  | .leaf s _, [] => some (0, s)
  | .arr n t, k :: ks =>
    if k < n then (locate t ks).map fun (o, s) => (k * size t + o, s) else none
  | .struct n f, k :: ks =>
    if h : k < n then (locate (f ⟨k, h⟩) ks).map fun (o, s) => (memberOff f k + o, s) else none
  | _, _ => none

/-! ## The emitted code -/

/-- How addresses are computed: on 32-bit targets, on 64-bit targets, and for
varying pointers on 64-bit targets with `--addressing=32`
(`force32BitAddressing`). -/
inductive Mode
  | p32 | p64 | force32
  deriving DecidableEq, Repr

/-- Width of a pointer. -/
def Mode.P : Mode → Nat
  | .p32 => 32 | .p64 => 64 | .force32 => 64

/-- Width in which offsets are computed. -/
def Mode.A : Mode → Nat
  | .p32 => 32 | .p64 => 64 | .force32 => 32

/-- An index: its bits and whether its type is unsigned. -/
structure Ix where
  n : Nat
  v : BitVec n
  uns : Bool

/-- Fits the signed range of the width. -/
def Fits (n : Nat) (x : Int) : Prop := -2 ^ (n - 1) ≤ x ∧ x < 2 ^ (n - 1)

instance (n : Nat) (x : Int) : Decidable (Fits n x) := by unfold Fits; infer_instance

/-- `GetElementPtrInst` and `applyVaryingGEP` for one lane and a pointer that is not a
slice, src/ctx.cpp:2145-2205 and 2337-2357: the index extended by its signedness or
truncated (`lExtendIntTo64`, 2128-2137), times the size, extended, added to the
pointer.  The product is `nsw`: `none` is poison.  The `getelementptr` used for
uniform pointers wraps instead, and is more often defined. -/
def gep (m : Mode) (sz : Nat) (p : BitVec m.P) (ix : Ix) : Option (BitVec m.P) :=
  let off := (resize (!ix.uns) m.A ix.v).toInt * sz
  if Fits m.A off then some (p + resize (!ix.uns) m.P (BitVec.ofInt m.A off)) else none

/-- The offset of an element known at compile time, `AddElementOffset`,
src/ctx.cpp:2474-2521. -/
def addOff (m : Mode) (p : BitVec m.P) (o : Nat) : BitVec m.P :=
  p + resize true m.P (BitVec.ofNat m.A o)

/-- The loop of `lComputeSliceIndex`, src/ctx.cpp:2244-2249; the first argument bounds
the number of iterations. -/
def logLoop : Nat → Nat → Nat
  | 0, _ => 0
  | fuel + 1, sw => if sw > 1 then logLoop fuel (sw / 2) + 1 else 0

/-- The logarithm computed by the loop. -/
def logWidth (w : Nat) : Nat := logLoop w w

/-- `lComputeSliceIndex`, src/ctx.cpp:2241-2273: the major and the minor index.
`MatchIntegerTypes` (2207-2232) sign-extends the slice offset. -/
def sliceIndex (w : Nat) (ix : Ix) (off : BitVec 32) : Ix × BitVec 32 :=
  let sum := ix.v + resize true ix.n off
  (⟨ix.n, sum.sshiftRight (logWidth w), ix.uns⟩,
    resize true 32 (sum &&& BitVec.ofNat ix.n (w - 1)))

/-- A slice pointer, `MakeSlicePointer`, src/ctx.cpp:2275-2288. -/
structure SPtr (m : Mode) where
  ptr : BitVec m.P
  off : BitVec 32
  deriving DecidableEq

/-- `GetElementPtrInst` on a slice pointer to elements of `sz` bytes, frozen or not,
src/ctx.cpp:2308-2335 and 2371-2393. -/
def sliceGep (m : Mode) (w sz : Nat) (frozen : Bool) (p : SPtr m) (ix : Ix) : Option (SPtr m) :=
  if frozen then (gep m sz p.ptr ix).map fun q => ⟨q, p.off⟩
  else
    let (major, minor) := sliceIndex w ix p.off
    (gep m sz p.ptr major).map fun q => ⟨q, minor⟩

/-- One step of an lvalue expression: `[i]`, or `.name` (the number of the member,
or of the element of a short vector). -/
inductive Step
  | idx (ix : Ix)
  | mem (k : Nat)

/-- The address used by the load or store of the lvalue reached from a slice pointer
to the `soa<w>` version of the type.  `[i]` is `IndexExpr::GetLValue`
(src/expr.cpp:5191-5255): the two-index `GetElementPtrInst` with first index 0;
its lvalue type is a slice that is not frozen (`IndexExpr::GetLValueType`, 5304-5319).
`.name` is `MemberExpr::GetLValue` with `AddElementOffset`, and the lvalue type
becomes a frozen slice (5589-5594 and 5776-5778).  At a basic type,
`ApplySliceOffset`, src/ctx.cpp:2671-2699. -/
def walk (m : Mode) (w : Nat) : Ty → Bool → SPtr m → List Step → Option (BitVec m.P)
  | .leaf s _, _, p, [] => gep m s p.ptr ⟨32, p.off, false⟩
  | .arr _ t, frozen, p, .idx ix :: r =>
    (sliceGep m w (size (soa w t)) frozen p ix).bind fun q => walk m w t false q r
  | .arr _ t, _, p, .mem k :: r =>
    walk m w t true ⟨addOff m p.ptr (k * size (soa w t)), p.off⟩ r
  | .struct n f, _, p, .mem k :: r =>
    if h : k < n then
      walk m w (f ⟨k, h⟩) true ⟨addOff m p.ptr (memberOff (fun i => soa w (f i)) k), p.off⟩ r
    else none
  | _, _, _, _ => none

/-- The lvalue `a[i]…` of an array `a` of `soa<w>` structures at `base`: the pointer to
the array becomes a slice pointer with offset zero (`lConvertPtrToSliceIfNeeded`,
src/expr.cpp:5178-5190). -/
def access (m : Mode) (w B : Nat) (t : Ty) (base : BitVec m.P) (steps : List Step) :
    Option (BitVec m.P) :=
  walk m w (.arr B t) false ⟨base, 0#32⟩ steps

/-- `p + k`, `p - k` (with the index negated), `&p[k]` and `++p` for a slice pointer to
structures, src/expr.cpp:1775-1777 and 1841-1848. -/
def ptrAdd (m : Mode) (w : Nat) (t : Ty) (p : SPtr m) (ix : Ix) : Option (SPtr m) :=
  sliceGep m w (size (soa w t)) false p ix

/-- `p - q`, src/expr.cpp:1780-1801 and 1804-1839: the byte difference of the blocks
divided by their size, times the width, plus the difference of the offsets. -/
def ptrSub (m : Mode) (w : Nat) (t : Ty) (p q : SPtr m) : BitVec m.A :=
  let delta : BitVec m.A := resize true m.A (p.ptr - q.ptr)
  let major := delta.sdiv (BitVec.ofNat m.A (size (soa w t)))
  major * BitVec.ofNat m.A w + resize true m.A (p.off - q.off)

/-! ## The layout has no overlaps -/

theorem le_roundUp (x : Nat) {a : Nat} (h : 0 < a) : x ≤ roundUp x a := by
  unfold roundUp
  have h1 := Nat.div_add_mod (x + a - 1) a
  have h2 := Nat.mod_lt (x + a - 1) h
  have h3 : (x + a - 1) / a * a = a * ((x + a - 1) / a) := Nat.mul_comm _ _
  omega

theorem fieldOff_step (sz al : Nat → Nat) (k : Nat) :
    fieldOff sz al k + sz k ≤ fieldOff sz al (k + 1) :=
  le_roundUp _ (by positivity)

theorem fieldOff_lt (sz al : Nat → Nat) {j k : Nat} (h : j < k) :
    fieldOff sz al j + sz j ≤ fieldOff sz al k := by
  induction k with
  | zero => omega
  | succ k ih =>
    have h1 := fieldOff_step sz al k
    rcases Nat.lt_succ_iff_lt_or_eq.mp h with h2 | rfl
    · have := ih h2; omega
    · exact h1

theorem member_le {n : Nat} (f : Fin n → Ty) {k : Nat} (h : k < n) :
    memberOff f k + size (f ⟨k, h⟩) ≤ size (.struct n f) := by
  cases n with
  | zero => omega
  | succ n =>
    have he : ext (fun i => size (f i)) k = size (f ⟨k, h⟩) := by simp [ext, h]
    have h1 : fieldOff (ext fun i => size (f i)) (ext fun i => logAlign (f i)) k +
        ext (fun i => size (f i)) k ≤
        fieldOff (ext fun i => size (f i)) (ext fun i => logAlign (f i)) n +
          ext (fun i => size (f i)) n := by
      rcases Nat.lt_succ_iff_lt_or_eq.mp h with h2 | rfl
      · have := fieldOff_lt (ext fun i => size (f i)) (ext fun i => logAlign (f i)) h2
        omega
      · exact le_refl _
    rw [he] at h1
    rw [size]
    exact le_trans h1 (le_roundUp _ (by positivity))

/-- A cell lies inside the value. -/
theorem locate_le {t : Ty} {ks : List Nat} {o s : Nat} (h : locate t ks = some (o, s)) :
    o + s ≤ size t := by
  induction t generalizing ks o s with
  | leaf sz a =>
    cases ks with
    | nil => simp only [locate, Option.some.injEq, Prod.mk.injEq] at h; simp only [size]; omega
    | cons k ks => simp [locate] at h
  | arr n t ih =>
    cases ks with
    | nil => simp [locate] at h
    | cons k ks =>
      simp only [locate] at h
      split at h
      · rename_i hk
        cases hl : locate t ks with
        | none => simp [hl] at h
        | some q =>
          obtain ⟨o', s'⟩ := q
          simp only [hl, Option.map_some, Option.some.injEq, Prod.mk.injEq] at h
          have := ih hl
          have h2 : (k + 1) * size t ≤ n * size t := Nat.mul_le_mul_right _ hk
          rw [Nat.add_mul] at h2
          simp only [size]
          omega
      · cases h
  | struct n f ih =>
    cases ks with
    | nil => simp [locate] at h
    | cons k ks =>
      simp only [locate] at h
      split at h
      · rename_i hk
        cases hl : locate (f ⟨k, hk⟩) ks with
        | none => simp [hl] at h
        | some q =>
          obtain ⟨o', s'⟩ := q
          simp only [hl, Option.map_some, Option.some.injEq, Prod.mk.injEq] at h
          have := ih _ hl
          have h2 := member_le f hk
          omega
      · cases h

/-- Cells with different paths do not overlap. -/
theorem locate_disjoint {t : Ty} {ks ks' : List Nat} {o s o' s' : Nat}
    (h : locate t ks = some (o, s)) (h' : locate t ks' = some (o', s')) (hne : ks ≠ ks') :
    o + s ≤ o' ∨ o' + s' ≤ o := by
  induction t generalizing ks ks' o s o' s' with
  | leaf sz a => cases ks <;> cases ks' <;> simp_all [locate]
  | arr n t ih =>
    cases ks with
    | nil => simp [locate] at h
    | cons k ks =>
      cases ks' with
      | nil => simp [locate] at h'
      | cons k' ks' =>
        simp only [locate] at h h'
        split at h
        · split at h'
          · cases hl : locate t ks with
            | none => simp [hl] at h
            | some q =>
              cases hl' : locate t ks' with
              | none => simp [hl'] at h'
              | some q' =>
                obtain ⟨a, b⟩ := q
                obtain ⟨a', b'⟩ := q'
                simp only [hl, hl', Option.map_some, Option.some.injEq, Prod.mk.injEq] at h h'
                obtain ⟨rfl, rfl⟩ := h
                obtain ⟨rfl, rfl⟩ := h'
                have e := locate_le hl
                have e' := locate_le hl'
                rcases Nat.lt_trichotomy k k' with hlt | heq | hgt
                · have : (k + 1) * size t ≤ k' * size t := Nat.mul_le_mul_right _ hlt
                  rw [Nat.add_mul] at this; omega
                · subst heq
                  have := ih hl hl' (fun hh => hne (by rw [hh]))
                  omega
                · have : (k' + 1) * size t ≤ k * size t := Nat.mul_le_mul_right _ hgt
                  rw [Nat.add_mul] at this; omega
          · cases h'
        · cases h
  | struct n f ih =>
    cases ks with
    | nil => simp [locate] at h
    | cons k ks =>
      cases ks' with
      | nil => simp [locate] at h'
      | cons k' ks' =>
        simp only [locate] at h h'
        split at h
        · rename_i hk
          split at h'
          · rename_i hk'
            cases hl : locate (f ⟨k, hk⟩) ks with
            | none => simp [hl] at h
            | some q =>
              cases hl' : locate (f ⟨k', hk'⟩) ks' with
              | none => simp [hl'] at h'
              | some q' =>
                obtain ⟨a, b⟩ := q
                obtain ⟨a', b'⟩ := q'
                simp only [hl, hl', Option.map_some, Option.some.injEq, Prod.mk.injEq] at h h'
                obtain ⟨rfl, rfl⟩ := h
                obtain ⟨rfl, rfl⟩ := h'
                have e := locate_le hl
                have e' := locate_le hl'
                have he : ext (fun i => size (f i)) k = size (f ⟨k, hk⟩) := by simp [ext, hk]
                have he' : ext (fun i => size (f i)) k' = size (f ⟨k', hk'⟩) := by simp [ext, hk']
                rcases Nat.lt_trichotomy k k' with hlt | heq | hgt
                · have := fieldOff_lt (ext fun i => size (f i)) (ext fun i => logAlign (f i)) hlt
                  unfold memberOff
                  omega
                · subst heq
                  have := ih _ hl hl' (fun hh => hne (by rw [hh]))
                  omega
                · have := fieldOff_lt (ext fun i => size (f i)) (ext fun i => logAlign (f i)) hgt
                  unfold memberOff
                  omega
          · cases h'
        · cases h

/-! ## Cells of the `soa<>` version -/

/-- The cells of the `soa<w>` version of a type are the cells of the type, each with a
slot. -/
theorem locate_soa (w : Nat) (t : Ty) (ps : List Nat) :
    (locate (soa w t) ps).isSome ↔
      ∃ ks j, ps = ks ++ [j] ∧ (locate t ks).isSome ∧ j < w := by
  induction t generalizing ps with
  | leaf sz a =>
    match ps with
    | [] => simp [soa, locate]
    | [j] =>
      simp only [soa, locate]
      constructor
      · intro h
        refine ⟨[], j, rfl, by simp [locate], ?_⟩
        by_contra hc; simp [hc] at h
      · rintro ⟨ks, j', he, -, hj⟩
        cases ks with
        | nil => simp at he; subst he; simp [hj]
        | cons _ _ => simp at he
    | j :: j' :: r =>
      simp only [soa, locate]
      constructor
      · intro h; split at h <;> simp at h
      · rintro ⟨ks, j', he, hl, hj⟩
        cases ks with
        | nil => simp at he
        | cons _ _ => simp [locate] at hl
  | arr n t ih =>
    cases ps with
    | nil => simp [soa, locate]
    | cons k ps =>
      simp only [soa, locate]
      constructor
      · intro h
        split at h
        · rename_i hk
          rw [Option.isSome_map] at h
          obtain ⟨ks, j, rfl, hl, hj⟩ := (ih ps).mp h
          exact ⟨k :: ks, j, rfl, by simp [locate, hk, hl], hj⟩
        · simp at h
      · rintro ⟨ks, j, he, hl, hj⟩
        cases ks with
        | nil => simp [locate] at hl
        | cons k' ks =>
          simp only [List.cons_append, List.cons.injEq] at he
          obtain ⟨rfl, rfl⟩ := he
          simp only [locate] at hl
          split at hl
          · rename_i hk
            rw [if_pos hk, Option.isSome_map]
            rw [Option.isSome_map] at hl
            exact (ih _).mpr ⟨ks, j, rfl, hl, hj⟩
          · simp at hl
  | struct n f ih =>
    cases ps with
    | nil => simp [soa, locate]
    | cons k ps =>
      simp only [soa, locate]
      constructor
      · intro h
        split at h
        · rename_i hk
          rw [Option.isSome_map] at h
          obtain ⟨ks, j, rfl, hl, hj⟩ := (ih _ ps).mp h
          exact ⟨k :: ks, j, rfl, by simp [locate, hk, hl], hj⟩
        · simp at h
      · rintro ⟨ks, j, he, hl, hj⟩
        cases ks with
        | nil => simp [locate] at hl
        | cons k' ks =>
          simp only [List.cons_append, List.cons.injEq] at he
          obtain ⟨rfl, rfl⟩ := he
          simp only [locate] at hl
          split at hl
          · rename_i hk
            rw [dif_pos hk, Option.isSome_map]
            rw [Option.isSome_map] at hl
            exact (ih _ _).mpr ⟨ks, j, rfl, hl, hj⟩
          · simp at hl

/-! ## The emitted code computes these addresses -/

/-- Specification: the index has the value `k`.  Its width is 32 or 64 bits (or more);
an unsigned one must stay below half its range, as the comment at src/expr.cpp:5372
says for varying indices. -/
def Denotes (ix : Ix) (k : Int) : Prop :=
  32 ≤ ix.n ∧ ix.v.toInt = k ∧ (ix.uns = true → 0 ≤ k)

/-- Specification: the path the steps of an lvalue of the type stand for. -/
def Means : Ty → List Step → List Nat → Prop
  | .leaf _ _, [], [] => True
  | .arr _ t, .idx ix :: r, k :: ks => Denotes ix k ∧ Means t r ks
  | .arr _ t, .mem k :: r, k' :: ks => k = k' ∧ Means t r ks
  | .struct n f, .mem k :: r, k' :: ks => k = k' ∧ ∃ h : k < n, Means (f ⟨k, h⟩) r ks
  | _, _, _ => False

/-- No `[i]` directly after another `[i]`. -/
def Safe : Bool → List Step → Prop
  | _, [] => True
  | true, .idx _ :: r => Safe false r
  | false, .idx _ :: _ => False
  | _, .mem _ :: r => Safe true r

theorem resize_denotes {n : Nat} {v : BitVec n} {uns : Bool} {k : Int} (m : Nat)
    (hv : v.toInt = k) (hu : uns = true → 0 ≤ k) : resize (!uns) m v = BitVec.ofInt m k := by
  rw [← Fold.ofInt_resize]
  congr 1
  cases uns
  · simpa [Fold.val] using hv
  · have h0 := hu rfl
    simp only [Fold.val, Bool.not_true, Bool.false_eq_true, if_false]
    rw [← hv]
    rw [← hv] at h0
    rw [BitVec.toInt_eq_toNat_of_msb]
    by_contra hc
    rw [Bool.not_eq_false] at hc
    have := BitVec.toInt_neg_of_msb_true hc
    omega

theorem toInt_ofInt_fits {n : Nat} (hn : 0 < n) {x : Int} (h : Fits n x) :
    (BitVec.ofInt n x).toInt = x := by
  rw [BitVec.toInt_ofInt]
  have h2 : (2 ^ n : Nat) = 2 * 2 ^ (n - 1) := by rw [← pow_succ']; congr 1; omega
  obtain ⟨h3, h4⟩ := h
  apply Int.bmod_eq_of_le
  · rw [h2]; push_cast; omega
  · rw [h2]; push_cast; omega

theorem A_pos (m : Mode) : 0 < m.A := by cases m <;> decide

theorem A_le_P (m : Mode) : m.A ≤ m.P := by cases m <;> decide

theorem P_pos (m : Mode) : 0 < m.P := by cases m <;> decide

theorem fits_mono {a b : Nat} (h : a ≤ b) {x : Int} (hx : Fits a x) : Fits b x := by
  have : (2 : Int) ^ (a - 1) ≤ 2 ^ (b - 1) := pow_le_pow_right₀ (by norm_num) (by omega)
  unfold Fits at *; omega

/-- Indexing with `k` adds `k` times the size, if the product fits. -/
theorem gep_ok {m : Mode} {sz : Nat} {p : BitVec m.P} {ix : Ix} {k : Int}
    (hk : Denotes ix k) (hf : Fits m.A (k * sz)) :
    gep m sz p ix = some (p + BitVec.ofInt m.P (k * sz)) := by
  obtain ⟨-, hv, hu⟩ := hk
  have h1 : (resize (!ix.uns) m.A ix.v).toInt * sz = k * sz := by
    rw [resize_denotes m.A hv hu]
    rcases Nat.eq_zero_or_pos sz with h0 | h0
    · subst h0; simp
    · congr 1
      apply toInt_ofInt_fits (A_pos m)
      have h2 : |k| ≤ |k * sz| := by
        rw [abs_mul]
        have : (1 : Int) ≤ |(sz : Int)| := by
          rw [abs_of_nonneg (by positivity)]; exact_mod_cast h0
        nlinarith [abs_nonneg k]
      unfold Fits at hf ⊢
      rcases le_or_gt 0 k with hk0 | hk0
      · have : 0 ≤ k * sz := mul_nonneg hk0 (by positivity)
        rw [abs_of_nonneg hk0, abs_of_nonneg this] at h2
        omega
      · have : k * sz ≤ 0 := mul_nonpos_of_nonpos_of_nonneg hk0.le (by positivity)
        rw [abs_of_neg hk0, abs_of_nonpos this] at h2
        omega
  unfold gep
  simp only [h1]
  rw [if_pos hf, resize_denotes m.P (toInt_ofInt_fits (A_pos m) hf)]
  intro hx
  exact mul_nonneg (hu hx) (by positivity)

/-- The sizes known at compile time are added as they are. -/
theorem addOff_ok {m : Mode} {p : BitVec m.P} {o : Nat} (h : o < 2 ^ (m.A - 1)) :
    addOff m p o = p + BitVec.ofNat m.P o := by
  unfold addOff
  have h1 : (BitVec.ofNat m.A o).toInt = o := by
    rw [← BitVec.ofInt_natCast]
    apply toInt_ofInt_fits (A_pos m)
    have : (o : Int) < 2 ^ (m.A - 1) := by exact_mod_cast h
    unfold Fits
    have : (0 : Int) < 2 ^ (m.A - 1) := by positivity
    omega
  have := resize_denotes (uns := false) m.P h1 (by simp)
  simp only [Bool.not_false] at this
  rw [this, BitVec.ofInt_natCast]

theorem logLoop_pow (fuel k : Nat) (h : k ≤ fuel) : logLoop fuel (2 ^ k) = k := by
  induction fuel generalizing k with
  | zero => rw [logLoop]; omega
  | succ fuel ih =>
    cases k with
    | zero => simp [logLoop]
    | succ k =>
      have h0 : 0 < 2 ^ k := by positivity
      rw [logLoop, if_pos (by rw [pow_succ]; omega)]
      have : 2 ^ (k + 1) / 2 = 2 ^ k := by rw [pow_succ]; omega
      rw [this, ih k (by omega)]

theorem logWidth_pow (k : Nat) : logWidth (2 ^ k) = k :=
  logLoop_pow _ _ (Nat.lt_two_pow_self).le

/-- The widths `DeclSpecs` accepts (src/decl.cpp:434-440) are the ones for which the
assertion of `lComputeSliceIndex` (src/ctx.cpp:2250) holds. -/
theorem accepted_width (w : Nat) : (0 < w ∧ w &&& (w - 1) = 0) ↔ 2 ^ logWidth w = w := by
  constructor
  · rintro ⟨h0, h⟩
    obtain ⟨k, rfl⟩ := (Nat.and_sub_one_eq_zero_iff_isPowerOfTwo (by omega)).mp h
    rw [logWidth_pow]
  · intro h
    have h0 : 0 < w := by rw [← h]; positivity
    exact ⟨h0, (Nat.and_sub_one_eq_zero_iff_isPowerOfTwo (by omega)).mpr ⟨_, h.symm⟩⟩

example : (0 < 8 ∧ 8 &&& (8 - 1) = 0) := by decide

/-- The major and minor indices are quotient and remainder. -/
theorem sliceIndex_ok {lw : Nat} (hw : lw ≤ 30) {ix : Ix} {k : Int} {j : Nat}
    (hk : Denotes ix k) (hj : j < 2 ^ lw) (hf : Fits ix.n (k + j)) :
    Denotes (sliceIndex (2 ^ lw) ix (BitVec.ofNat 32 j)).1 ((k + j) / 2 ^ lw) ∧
    (sliceIndex (2 ^ lw) ix (BitVec.ofNat 32 j)).2 = BitVec.ofInt 32 ((k + j) % 2 ^ lw) := by
  obtain ⟨hn, hv, hu⟩ := hk
  have hp : (2 : Nat) ^ lw ≤ 2 ^ 30 := Nat.pow_le_pow_right (by norm_num) hw
  have hj32 : (BitVec.ofNat 32 j).toInt = j := by
    rw [← BitVec.ofInt_natCast]
    apply toInt_ofInt_fits (by norm_num)
    unfold Fits; norm_num; omega
  have hoff : resize true ix.n (BitVec.ofNat 32 j) = BitVec.ofInt ix.n j := by
    have := resize_denotes (uns := false) ix.n hj32 (by simp)
    simpa using this
  have hsum : ix.v + resize true ix.n (BitVec.ofNat 32 j) = BitVec.ofInt ix.n (k + j) := by
    rw [hoff, BitVec.ofInt_add]
    congr 1
    rw [← hv, BitVec.ofInt_toInt]
  have hsi : (BitVec.ofInt ix.n (k + j)).toInt = k + j := toInt_ofInt_fits (by omega) hf
  unfold sliceIndex
  simp only [hsum, logWidth_pow]
  constructor
  · refine ⟨hn, ?_, fun h => ?_⟩
    · rw [BitVec.toInt_sshiftRight, hsi, Int.shiftRight_eq_div_pow]
      norm_cast
    · have := hu h
      exact Int.ediv_nonneg (by omega) (by positivity)
  · have hmask : (BitVec.ofInt ix.n (k + j) &&& BitVec.ofNat ix.n (2 ^ lw - 1)).toNat =
        (BitVec.ofInt ix.n (k + j)).toNat % 2 ^ lw := by
      rw [BitVec.toNat_and, BitVec.toNat_ofNat]
      have : (2 ^ lw - 1) % 2 ^ ix.n = 2 ^ lw - 1 := by
        apply Nat.mod_eq_of_lt
        have : 2 ^ lw ≤ 2 ^ ix.n := Nat.pow_le_pow_right (by norm_num) (by omega)
        have : 0 < 2 ^ lw := by positivity
        omega
      rw [this, Nat.and_two_pow_sub_one_eq_mod]
    have hval : (((BitVec.ofInt ix.n (k + j)).toNat % 2 ^ lw : Nat) : Int) = (k + j) % 2 ^ lw := by
      push_cast
      rw [BitVec.toNat_ofInt, Int.toNat_of_nonneg (Int.emod_nonneg _ (by positivity))]
      have : ((2 ^ ix.n : Nat) : Int) = 2 ^ lw * 2 ^ (ix.n - lw) := by
        rw [← pow_add]; push_cast; congr 1; omega
      rw [this]
      exact Int.emod_emod_of_dvd _ (dvd_mul_right _ _)
    have hlt : (BitVec.ofInt ix.n (k + j)).toNat % 2 ^ lw < 2 ^ 30 :=
      lt_of_lt_of_le (Nat.mod_lt _ (by positivity)) hp
    have hti : (BitVec.ofInt ix.n (k + j) &&& BitVec.ofNat ix.n (2 ^ lw - 1)).toInt =
        (k + j) % 2 ^ lw := by
      rw [BitVec.toInt_eq_toNat_of_lt, hmask, hval]
      rw [hmask]
      have : 2 ^ 31 ≤ 2 ^ (ix.n - 1) := Nat.pow_le_pow_right (by norm_num) (by omega)
      have h3 : 2 ^ ix.n = 2 * 2 ^ (ix.n - 1) := by rw [← pow_succ']; congr 1; omega
      omega
    have := resize_denotes (uns := false) 32 hti (by simp)
    simpa using this

theorem fits_nat {n x : Nat} (h : x < 2 ^ (n - 1)) : Fits n (x : Int) := by
  have h1 : (x : Int) < 2 ^ (n - 1) := by exact_mod_cast h
  have h2 : (0 : Int) < 2 ^ (n - 1) := by positivity
  unfold Fits; omega

/-- Below a slice pointer, without `[i]` twice in a row: the cell of the path, in the
slot of the pointer. -/
theorem walk_ok {m : Mode} {lw : Nat} (hw : lw ≤ 30) {t : Ty} {steps : List Step}
    {ks : List Nat} {fr : Bool} {o s j : Nat} {p : BitVec m.P}
    (hm : Means t steps ks) (hs : Safe fr steps) (hl : locate t ks = some (o, s))
    (hj : j < 2 ^ lw) (hz : size (soa (2 ^ lw) t) < 2 ^ (m.A - 1)) :
    ∃ o', locate (soa (2 ^ lw) t) (ks ++ [j]) = some (o', s) ∧
      walk m (2 ^ lw) t fr ⟨p, BitVec.ofNat 32 j⟩ steps = some (p + BitVec.ofNat m.P o') := by
  have hp : (2 : Nat) ^ lw ≤ 2 ^ 30 := Nat.pow_le_pow_right (by norm_num) hw
  induction t generalizing steps ks fr o s p with
  | leaf sz a =>
    cases ks with
    | cons _ _ => simp [locate] at hl
    | nil =>
      cases steps with
      | cons x _ => cases x <;> simp [Means] at hm
      | nil =>
        simp only [locate, Option.some.injEq, Prod.mk.injEq] at hl
        obtain ⟨-, rfl⟩ := hl
        refine ⟨j * sz, by simp [soa, locate, hj, size], ?_⟩
        have hlt : j * sz < 2 ^ (m.A - 1) := by
          have h1 : j * sz ≤ 2 ^ lw * sz := Nat.mul_le_mul_right _ hj.le
          simp only [soa, size] at hz
          omega
        have hd : Denotes ⟨32, BitVec.ofNat 32 j, false⟩ (j : Int) := by
          refine ⟨le_refl _, ?_, by simp⟩
          rw [← BitVec.ofInt_natCast]
          exact toInt_ofInt_fits (by norm_num) (fits_nat (by norm_num; omega))
        have hf : Fits m.A ((j : Int) * sz) := by
          have := fits_nat hlt
          push_cast at this; exact this
        rw [walk, gep_ok hd hf]
        congr 2
  | arr n t ih =>
    cases ks with
    | nil => simp [locate] at hl
    | cons k ks =>
      simp only [locate] at hl
      split at hl
      case isFalse => cases hl
      case isTrue hk =>
      cases hlt : locate t ks with
      | none => simp [hlt] at hl
      | some q =>
        obtain ⟨a, b⟩ := q
        simp only [hlt, Option.map_some, Option.some.injEq, Prod.mk.injEq] at hl
        obtain ⟨-, rfl⟩ := hl
        have hsz : (k + 1) * size (soa (2 ^ lw) t) < 2 ^ (m.A - 1) :=
          lt_of_le_of_lt (Nat.mul_le_mul_right _ hk) (by simpa [soa, size] using hz)
        rw [Nat.add_mul] at hsz
        cases steps with
        | nil => simp [Means] at hm
        | cons x r =>
          cases x with
          | mem k' =>
            simp only [Means] at hm
            obtain ⟨rfl, hm⟩ := hm
            obtain ⟨o', h1, h2⟩ := ih (fr := true) (p := addOff m p (k' * size (soa (2 ^ lw) t))) hm
              (by cases fr <;> simpa [Safe] using hs) hlt (by omega)
            refine ⟨k' * size (soa (2 ^ lw) t) + o', ?_, ?_⟩
            · simp only [soa, List.cons_append, locate, if_pos hk, h1, Option.map_some]
            · rw [walk, h2, addOff_ok (by omega), BitVec.add_assoc, BitVec.ofNat_add]
          | idx ix =>
            cases fr with
            | false => simp [Safe] at hs
            | true =>
              simp only [Means] at hm
              obtain ⟨hd, hm⟩ := hm
              have hf : Fits m.A ((k : Int) * (size (soa (2 ^ lw) t) : Nat)) := by
                have := fits_nat (n := m.A) (x := k * size (soa (2 ^ lw) t)) (by omega)
                push_cast at this; exact this
              obtain ⟨o', h1, h2⟩ := ih (fr := false)
                (p := p + BitVec.ofInt m.P ((k : Int) * (size (soa (2 ^ lw) t) : Nat))) hm
                (by simpa [Safe] using hs) hlt (by omega)
              refine ⟨k * size (soa (2 ^ lw) t) + o', ?_, ?_⟩
              · simp only [soa, List.cons_append, locate, if_pos hk, h1, Option.map_some]
              · rw [walk]
                simp only [sliceGep, if_true, gep_ok hd hf, Option.map_some, Option.bind_some, h2]
                rw [BitVec.add_assoc, BitVec.ofNat_add]
                congr 3
  | struct n f ih =>
    cases ks with
    | nil => simp [locate] at hl
    | cons k ks =>
      simp only [locate] at hl
      split at hl
      case isFalse => cases hl
      case isTrue hk =>
      cases hlt : locate (f ⟨k, hk⟩) ks with
      | none => simp [hlt] at hl
      | some q =>
        obtain ⟨a, b⟩ := q
        simp only [hlt, Option.map_some, Option.some.injEq, Prod.mk.injEq] at hl
        obtain ⟨-, rfl⟩ := hl
        cases steps with
        | nil => simp [Means] at hm
        | cons x r =>
          cases x with
          | idx ix => simp [Means] at hm
          | mem k' =>
            simp only [Means] at hm
            obtain ⟨rfl, _, hm⟩ := hm
            have hmem := member_le (fun i => soa (2 ^ lw) (f i)) hk
            simp only [soa] at hz
            obtain ⟨o', h1, h2⟩ := ih ⟨k', hk⟩ (fr := true)
              (p := addOff m p (memberOff (fun i => soa (2 ^ lw) (f i)) k')) hm
              (by cases fr <;> simpa [Safe] using hs) hlt (by omega)
            refine ⟨memberOff (fun i => soa (2 ^ lw) (f i)) k' + o', ?_, ?_⟩
            · simp only [soa, List.cons_append, locate, dif_pos hk, h1, Option.map_some]
            · rw [walk, dif_pos hk, h2, addOff_ok (by omega), BitVec.add_assoc, BitVec.ofNat_add]

/-! ## The promised layout -/

/-- Specification: the slice pointer addresses element `e` of an array of `soa<w>`
structures `t` at `base`. -/
def At {m : Mode} (base : BitVec m.P) (w : Nat) (t : Ty) (p : SPtr m) (e : Int) : Prop :=
  p.ptr = base + BitVec.ofInt m.P (e / w * size (soa w t)) ∧ p.off = BitVec.ofInt 32 (e % w)

theorem emod_nat {e : Int} {lw : Nat} : ∃ j : Nat, j < 2 ^ lw ∧ e % ((2 ^ lw : Nat) : Int) = j := by
  have h0 : (0 : Int) < ((2 ^ lw : Nat) : Int) := by positivity
  refine ⟨(e % ((2 ^ lw : Nat) : Int)).toNat, ?_, ?_⟩
  · have := Int.emod_lt_of_pos e h0
    have h1 := Int.emod_nonneg e (ne_of_gt h0)
    omega
  · rw [Int.toNat_of_nonneg (Int.emod_nonneg e (ne_of_gt h0))]

/-- The constant `k` as a 64-bit index. -/
def ix64 (k : Int) : Ix := ⟨64, BitVec.ofInt 64 k, false⟩

/-- `struct { float x; int8 c; double y[3]; }`. -/
def record : Ty := .struct 3 fun i =>
  if i = 0 then .leaf 4 2 else if i = 1 then .leaf 1 0 else .arr 3 (.leaf 8 3)

/-- In `soa<8>`, a block of it is 232 bytes long, with `y` at 40. -/
example : size (soa 8 record) = 232 ∧ locate (soa 8 record) [2, 2, 5] = some (208, 8) := by
  decide

/-- **`p + k` addresses element `index(p) + k`**, for negative `k` too, if the sum of `k`
and the slot of `p` does not overflow the type of the index and the byte offset fits. -/
theorem ptrAdd_at {m : Mode} {lw : Nat} (hw : lw ≤ 30) {t : Ty} {base : BitVec m.P} {p : SPtr m}
    {e k : Int} {ix : Ix} (hp : At base (2 ^ lw) t p e) (hk : Denotes ix k)
    (hov : Fits ix.n (k + e % (2 ^ lw : Nat)))
    (hsz : Fits m.A ((k + e % (2 ^ lw : Nat)) / (2 ^ lw : Nat) * size (soa (2 ^ lw) t))) :
    ∃ q, ptrAdd m (2 ^ lw) t p ix = some q ∧ At base (2 ^ lw) t q (e + k) := by
  obtain ⟨j, hj, hej⟩ := emod_nat (e := e) (lw := lw)
  obtain ⟨h1, h2⟩ := hp
  have hW : (((2 ^ lw : Nat)) : Int) = 2 ^ lw := by push_cast; rfl
  have hWpos : (0 : Int) < 2 ^ lw := by positivity
  rw [hej] at hov hsz h2
  rw [BitVec.ofInt_natCast] at h2
  obtain ⟨hmaj, hmin⟩ := sliceIndex_ok hw hk hj hov
  rw [hW] at hej hsz
  have hdm := Int.mul_ediv_add_emod e (2 ^ lw)
  have hsum : e + k = (k + j) + (e / 2 ^ lw) * 2 ^ lw := by
    rw [hej, mul_comm] at hdm; omega
  unfold ptrAdd sliceGep
  simp only [Bool.false_eq_true, if_false, h2]
  rw [gep_ok hmaj hsz]
  refine ⟨_, rfl, ?_, ?_⟩
  · rw [h1, hW, hsum, Int.add_mul_ediv_right _ _ (ne_of_gt hWpos), BitVec.add_assoc, ← BitVec.ofInt_add,
      add_mul, add_comm (e / 2 ^ lw * _)]
  · rw [hmin, hW, hsum, Int.add_mul_emod_self_right]

/-- From element 6 back by 14, across blocks of 8 to element -8. -/
example (base : BitVec 64) :
    let p : SPtr .p64 := ⟨base, 6#32⟩
    At (m := .p64) base (2 ^ 3) record p 6 ∧ Denotes (ix64 (-14)) (-14) ∧
      Fits 64 (-14 + 6 % (2 ^ 3 : Nat)) ∧
      Fits Mode.p64.A ((-14 + 6 % (2 ^ 3 : Nat)) / (2 ^ 3 : Nat) * size (soa (2 ^ 3) record)) := by
  refine ⟨⟨?_, rfl⟩, ⟨by decide, by decide, by decide⟩, ?_, ?_⟩
  · exact (BitVec.add_zero (n := 64) base).symm
  · unfold Fits; norm_num
  · have : size (soa (2 ^ 3) record) = 232 := by decide
    rw [this]; unfold Fits Mode.A; norm_num

/-- Through a slice pointer: the cell of the path in the element it addresses. -/
theorem deref_address_partial {m : Mode} {lw : Nat} (hw : lw ≤ 30) {t : Ty} {B e : Nat}
    {base : BitVec m.P} {p : SPtr m} {steps : List Step} {ks : List Nat} {o s : Nat}
    (hp : At base (2 ^ lw) t p e) (he : e < B * 2 ^ lw)
    (hm : Means t steps ks) (hs : Safe false steps) (hl : locate t ks = some (o, s))
    (hz : size (.arr B (soa (2 ^ lw) t)) < 2 ^ (m.A - 1)) :
    ∃ o', locate (.arr B (soa (2 ^ lw) t)) (e / 2 ^ lw :: (ks ++ [e % 2 ^ lw])) = some (o', s) ∧
      walk m (2 ^ lw) t false p steps = some (base + BitVec.ofNat m.P o') := by
  have hb : e / 2 ^ lw < B := (Nat.div_lt_iff_lt_mul (by positivity)).mpr he
  have hj : e % 2 ^ lw < 2 ^ lw := Nat.mod_lt _ (by positivity)
  have hz' : size (soa (2 ^ lw) t) < 2 ^ (m.A - 1) := by
    have h1 : (e / 2 ^ lw + 1) * size (soa (2 ^ lw) t) ≤ B * size (soa (2 ^ lw) t) :=
      Nat.mul_le_mul_right _ hb
    rw [Nat.add_mul] at h1
    simp only [size] at hz
    omega
  obtain ⟨o', h1, h2⟩ := walk_ok (m := m) (p := p.ptr) hw hm hs hl hj hz'
  obtain ⟨hp1, hp2⟩ := hp
  have hoff : p.off = BitVec.ofNat 32 (e % 2 ^ lw) := by
    rw [hp2, ← BitVec.ofInt_natCast]; push_cast; rfl
  refine ⟨e / 2 ^ lw * size (soa (2 ^ lw) t) + o', ?_, ?_⟩
  · rw [locate, if_pos hb, h1]; rfl
  · rw [← hoff] at h2
    rw [h2, hp1, BitVec.add_assoc, BitVec.ofNat_add]
    congr 3

/-- Through a pointer to element 13 of 32, `p->y[2]`. -/
example (base : BitVec 64) :
    At (m := .p64) base (2 ^ 3) record ⟨base + 232#64, 5#32⟩ 13 ∧
      Means record [.mem 2, .idx (ix64 2)] [2, 2] ∧ Safe false [.mem 2, .idx (ix64 2)] ∧
      locate record [2, 2] = some (24, 8) ∧
      size (.arr 4 (soa (2 ^ 3) record)) < 2 ^ (Mode.p64.A - 1) :=
  ⟨⟨rfl, rfl⟩, ⟨rfl, by decide, ⟨by decide, by decide, by decide⟩, trivial⟩, trivial,
    by decide, by decide⟩

/-- **Element `e` of an array of `soa<w>` structures is in block `e / w`, slot `e mod w`**:
that is where the code for `a[e]…` loads and stores, as long as no array of arrays (or
of vectors) inside the structure is indexed twice in a row.  See `member_matrix_aliases`
for what happens then. -/
theorem access_address_partial {m : Mode} {lw : Nat} (hw : lw ≤ 30) {t : Ty} {B e : Nat}
    {base : BitVec m.P} {ix : Ix} {steps : List Step} {ks : List Nat} {o s : Nat}
    (hix : Denotes ix e) (he : e < B * 2 ^ lw)
    (hm : Means t steps ks) (hs : Safe false steps) (hl : locate t ks = some (o, s))
    (hz : size (.arr B (soa (2 ^ lw) t)) < 2 ^ (m.A - 1)) :
    ∃ o', locate (.arr B (soa (2 ^ lw) t)) (e / 2 ^ lw :: (ks ++ [e % 2 ^ lw])) = some (o', s) ∧
      access m (2 ^ lw) B t base (.idx ix :: steps) = some (base + BitVec.ofNat m.P o') := by
  have hb : e / 2 ^ lw < B := (Nat.div_lt_iff_lt_mul (by positivity)).mpr he
  have h0 : At base (2 ^ lw) t ⟨base, 0#32⟩ 0 := by constructor <;> simp
  have hfit : Fits m.A (((e : Int) + (0 : Int) % (2 ^ lw : Nat)) / (2 ^ lw : Nat) *
      size (soa (2 ^ lw) t)) := by
    have h1 : (e / 2 ^ lw) * size (soa (2 ^ lw) t) ≤ B * size (soa (2 ^ lw) t) :=
      Nat.mul_le_mul_right _ hb.le
    simp only [size] at hz
    have := fits_nat (n := m.A) (x := (e / 2 ^ lw) * size (soa (2 ^ lw) t)) (by omega)
    push_cast at this
    simpa using this
  have hov : Fits ix.n ((e : Int) + (0 : Int) % (2 ^ lw : Nat)) := by
    rw [Int.zero_emod, add_zero, ← hix.2.1]
    exact Fold.toInt_bounds ix.v
  obtain ⟨q, hq, hat⟩ := ptrAdd_at hw h0 hix hov hfit
  rw [zero_add] at hat
  obtain ⟨o', h1, h2⟩ := deref_address_partial (B := B) hw hat he hm hs hl hz
  refine ⟨o', h1, ?_⟩
  unfold access
  rw [walk]
  unfold ptrAdd at hq
  rw [hq]
  exact h2

/-- `a[13].y[2]` of 32 elements: block 1, slot 5. -/
example (base : BitVec 64) :
    access .p64 (2 ^ 3) 4 record base [.idx (ix64 13), .mem 2, .idx (ix64 2)] =
      some (base + 440#64) := by
  obtain ⟨o', h1, h2⟩ := access_address_partial (m := .p64) (lw := 3) (t := record) (B := 4)
    (e := 13) (base := base) (ix := ix64 13) (steps := [.mem 2, .idx (ix64 2)]) (ks := [2, 2])
    (o := 24) (s := 8) (by decide) ⟨by decide, by decide, by decide⟩ (by decide)
    ⟨rfl, by decide, ⟨by decide, by decide, by decide⟩, trivial⟩ trivial (by decide) (by decide)
  rw [h2]
  have : o' = 440 := by
    have h3 : locate (.arr 4 (soa (2 ^ 3) record)) (13 / 2 ^ 3 :: ([2, 2] ++ [13 % 2 ^ 3])) =
        some (440, 8) := by decide
    rw [h3] at h1
    simp only [Option.some.injEq, Prod.mk.injEq, and_true] at h1
    exact h1.symm
  rw [this]
  rfl

/-- **Every slot is used, once**: the cells of the array of `soa<w>` structures
correspond to the elements and paths. -/
theorem every_slot {w : Nat} (hw : 0 < w) (t : Ty) (B : Nat) (ps : List Nat) :
    (locate (.arr B (soa w t)) ps).isSome ↔
      ∃! ek : Nat × List Nat, ek.1 < B * w ∧ (locate t ek.2).isSome ∧
        ps = ek.1 / w :: (ek.2 ++ [ek.1 % w]) := by
  constructor
  · intro h
    cases ps with
    | nil => simp [locate] at h
    | cons b ps =>
      simp only [locate] at h
      split at h
      · rename_i hb
        rw [Option.isSome_map] at h
        obtain ⟨ks, j, rfl, hl, hj⟩ := (locate_soa w t ps).mp h
        have hd : (b * w + j) / w = b := by
          rw [Nat.add_comm, Nat.add_mul_div_right _ _ hw, Nat.div_eq_of_lt hj, Nat.zero_add]
        have hm : (b * w + j) % w = j := by
          rw [Nat.add_comm, Nat.add_mul_mod_self_right, Nat.mod_eq_of_lt hj]
        refine ⟨(b * w + j, ks), ⟨?_, hl, by rw [hd, hm]⟩, ?_⟩
        · have : (b + 1) * w ≤ B * w := Nat.mul_le_mul_right _ hb
          rw [Nat.add_mul] at this
          show b * w + j < B * w
          omega
        · rintro ⟨e, ks'⟩ ⟨-, -, he⟩
          simp only [List.cons.injEq] at he
          obtain ⟨h1, h2⟩ := he
          have h3 := List.append_inj' h2 rfl
          simp only [List.cons.injEq, and_true] at h3
          have := Nat.div_add_mod e w
          rw [← h1, ← h3.2, Nat.mul_comm] at this
          rw [← this, h3.1]
      · simp at h
  · rintro ⟨⟨e, ks⟩, ⟨he, hl, rfl⟩, -⟩
    simp only at he hl ⊢
    have hb : e / w < B := (Nat.div_lt_iff_lt_mul hw).mpr he
    rw [locate, if_pos hb, Option.isSome_map]
    exact (locate_soa w t _).mpr ⟨ks, _, rfl, hl, Nat.mod_lt _ hw⟩

/-- The cell at the path of `a[13].y[2]`. -/
example : (locate (.arr 4 (soa 8 record)) [1, 2, 2, 5]).isSome := by decide

/-- **Different elements and members never share a byte.** -/
theorem elements_disjoint_partial {m : Mode} {lw : Nat} (hw : lw ≤ 30) {t : Ty} {B e e' : Nat}
    {base a a' : BitVec m.P} {ix ix' : Ix} {steps steps' : List Step} {ks ks' : List Nat}
    {o s o' s' : Nat}
    (hix : Denotes ix e) (hix' : Denotes ix' e') (he : e < B * 2 ^ lw) (he' : e' < B * 2 ^ lw)
    (hm : Means t steps ks) (hm' : Means t steps' ks') (hs : Safe false steps)
    (hs' : Safe false steps') (hl : locate t ks = some (o, s)) (hl' : locate t ks' = some (o', s'))
    (hz : size (.arr B (soa (2 ^ lw) t)) < 2 ^ (m.A - 1)) (hne : (e, ks) ≠ (e', ks'))
    (ha : access m (2 ^ lw) B t base (.idx ix :: steps) = some a)
    (ha' : access m (2 ^ lw) B t base (.idx ix' :: steps') = some a')
    {b b' : Nat} (hb : b < s) (hb' : b' < s') :
    a + BitVec.ofNat m.P b ≠ a' + BitVec.ofNat m.P b' := by
  obtain ⟨q, h1, h2⟩ := access_address_partial (base := base) hw hix he hm hs hl hz
  obtain ⟨q', h1', h2'⟩ := access_address_partial (base := base) hw hix' he' hm' hs' hl' hz
  rw [ha] at h2
  rw [ha'] at h2'
  cases h2
  cases h2'
  have hpath : e / 2 ^ lw :: (ks ++ [e % 2 ^ lw]) ≠ e' / 2 ^ lw :: (ks' ++ [e' % 2 ^ lw]) := by
    intro hc
    simp only [List.cons.injEq] at hc
    have h3 := List.append_inj' hc.2 rfl
    simp only [List.cons.injEq, and_true] at h3
    apply hne
    have x1 := Nat.div_add_mod e (2 ^ lw)
    have x2 := Nat.div_add_mod e' (2 ^ lw)
    rw [hc.1, h3.2, x2] at x1
    rw [x1, h3.1]
  have hd := locate_disjoint h1 h1' hpath
  have hi := locate_le h1
  have hi' := locate_le h1'
  have hPA : 2 ^ (m.A - 1) ≤ 2 ^ m.P :=
    Nat.pow_le_pow_right (by norm_num) (by have := A_le_P m; omega)
  intro hc
  rw [BitVec.add_assoc, BitVec.add_assoc, ← BitVec.ofNat_add, ← BitVec.ofNat_add] at hc
  have hc := BitVec.add_right_inj base |>.mp hc
  have hc := congrArg BitVec.toNat hc
  rw [BitVec.toNat_ofNat, BitVec.toNat_ofNat, Nat.mod_eq_of_lt (by omega), Nat.mod_eq_of_lt (by omega)] at hc
  omega

/-- `a[13].y[2]` and `a[14].y[2]`, `a[13].x` and `a[13].c` are such pairs. -/
example : Denotes (ix64 13) 13 ∧ Denotes (ix64 14) 14 ∧
    Means record [.mem 0] [0] ∧ Means record [.mem 1] [1] ∧
    locate record [0] = some (0, 4) ∧ locate record [1] = some (4, 1) ∧
    ((13, [2, 2]) : Nat × List Nat) ≠ (14, [2, 2]) :=
  ⟨⟨by decide, by decide, by decide⟩, ⟨by decide, by decide, by decide⟩,
    ⟨rfl, by decide, trivial⟩, ⟨rfl, by decide, trivial⟩, by decide, by decide, by decide⟩

/-- **`p - q` is the distance in elements**, if the blocks are less than half the address
space apart. -/
theorem ptrSub_at {m : Mode} {lw : Nat} (hw : lw ≤ 30) {t : Ty} {base : BitVec m.P}
    {p q : SPtr m} {e f : Int} (hp : At base (2 ^ lw) t p e) (hq : At base (2 ^ lw) t q f)
    (h0 : 0 < size (soa (2 ^ lw) t)) (hs : size (soa (2 ^ lw) t) < 2 ^ (m.A - 1))
    (hd : Fits m.A ((e / (2 ^ lw : Nat) - f / (2 ^ lw : Nat)) * size (soa (2 ^ lw) t))) :
    ptrSub m (2 ^ lw) t p q = BitVec.ofInt m.A (e - f) := by
  obtain ⟨hp1, hp2⟩ := hp
  obtain ⟨hq1, hq2⟩ := hq
  obtain ⟨j, hj, hej⟩ := emod_nat (e := e) (lw := lw)
  obtain ⟨i, hi, hfi⟩ := emod_nat (e := f) (lw := lw)
  have hW : (((2 ^ lw : Nat)) : Int) = 2 ^ lw := by push_cast; rfl
  have hp30 : (2 : Nat) ^ lw ≤ 2 ^ 30 := Nat.pow_le_pow_right (by norm_num) hw
  have hminor : resize true m.A (p.off - q.off) = BitVec.ofInt m.A ((j : Int) - i) := by
    have h1 : (p.off - q.off).toInt = (j : Int) - i := by
      rw [hp2, hq2, hej, hfi, ← Fold.ofInt_sub]
      apply toInt_ofInt_fits (by norm_num)
      unfold Fits; norm_num; omega
    have := resize_denotes (uns := false) m.A h1 (by simp)
    simpa using this
  have hptr : p.ptr - q.ptr = BitVec.ofInt m.P
      ((e / (2 ^ lw : Nat) - f / (2 ^ lw : Nat)) * size (soa (2 ^ lw) t)) := by
    rw [hp1, hq1, sub_mul, Fold.ofInt_sub]
    generalize BitVec.ofInt m.P (e / (2 ^ lw : Nat) * size (soa (2 ^ lw) t)) = x
    generalize BitVec.ofInt m.P (f / (2 ^ lw : Nat) * size (soa (2 ^ lw) t)) = y
    grind
  have hdelta : resize true m.A (p.ptr - q.ptr) = BitVec.ofInt m.A
      ((e / (2 ^ lw : Nat) - f / (2 ^ lw : Nat)) * size (soa (2 ^ lw) t)) := by
    have h1 : (p.ptr - q.ptr).toInt =
        (e / (2 ^ lw : Nat) - f / (2 ^ lw : Nat)) * size (soa (2 ^ lw) t) := by
      rw [hptr]; exact toInt_ofInt_fits (P_pos m) (fits_mono (A_le_P m) hd)
    have := resize_denotes (uns := false) m.A h1 (by simp)
    simpa using this
  have hdiv : (resize true m.A (p.ptr - q.ptr)).sdiv (BitVec.ofNat m.A (size (soa (2 ^ lw) t))) =
      BitVec.ofInt m.A (e / (2 ^ lw : Nat) - f / (2 ^ lw : Nat)) := by
    rw [hdelta]
    have hb : (BitVec.ofNat m.A (size (soa (2 ^ lw) t))).toInt = (size (soa (2 ^ lw) t) : Nat) := by
      rw [← BitVec.ofInt_natCast]; exact toInt_ofInt_fits (A_pos m) (fits_nat hs)
    have ha := toInt_ofInt_fits (A_pos m) hd
    have hz := Fold.ofInt_div true (BitVec.ofInt m.A
      ((e / (2 ^ lw : Nat) - f / (2 ^ lw : Nat)) * size (soa (2 ^ lw) t)))
      (BitVec.ofNat m.A (size (soa (2 ^ lw) t)))
    simp only [Fold.val, if_true, ha, hb] at hz
    rw [← hz, Int.mul_tdiv_cancel _ (by exact_mod_cast (ne_of_gt h0))]
  unfold ptrSub
  simp only
  rw [hdiv, hminor, ← BitVec.ofInt_natCast, ← BitVec.ofInt_mul, ← BitVec.ofInt_add]
  congr 1
  have h1 := Int.mul_ediv_add_emod e ((2 ^ lw : Nat) : Int)
  have h2 := Int.mul_ediv_add_emod f ((2 ^ lw : Nat) : Int)
  rw [hej] at h1
  rw [hfi] at h2
  rw [sub_mul, mul_comm (e / _), mul_comm (f / _)]
  omega

/-- Element 13 minus element 6 of the same array. -/
example (base : BitVec 64) :
    ptrSub .p64 (2 ^ 3) record ⟨base + 232#64, 5#32⟩ ⟨base, 6#32⟩ = 7#64 := by
  rw [ptrSub_at (m := .p64) (base := base) (e := 13) (f := 6) (by decide) ⟨rfl, rfl⟩
    ⟨(BitVec.add_zero (n := 64) base).symm, rfl⟩ (by decide) (by decide)]
  · rfl
  · have : size (soa (2 ^ 3) record) = 232 := by decide
    rw [this]; unfold Fits Mode.A; norm_num

/-- Loads and stores of whole structures, `loadUniformFromSOA` and `storeUniformToSOA`
(src/ctx.cpp:2704-2730 and 3385-3405), `gather` and `scatter` of collections: every
level is taken apart with `AddElementOffset`, so that each basic value is reached by steps
of constant number, whatever the nesting of arrays. -/
theorem whole_load {m : Mode} {lw : Nat} (hw : lw ≤ 30) {t : Ty} {B e : Nat}
    {base : BitVec m.P} {p : SPtr m} {ks : List Nat} {o s : Nat}
    (hp : At base (2 ^ lw) t p e) (he : e < B * 2 ^ lw) (hl : locate t ks = some (o, s))
    (hz : size (.arr B (soa (2 ^ lw) t)) < 2 ^ (m.A - 1)) :
    ∃ o', locate (.arr B (soa (2 ^ lw) t)) (e / 2 ^ lw :: (ks ++ [e % 2 ^ lw])) = some (o', s) ∧
      walk m (2 ^ lw) t false p (ks.map .mem) = some (base + BitVec.ofNat m.P o') := by
  refine deref_address_partial hw hp he ?_ ?_ hl hz
  · clear hp he hz
    induction t generalizing ks o s with
    | leaf sz a => cases ks <;> simp_all [locate, Means]
    | arr n t ih =>
      cases ks with
      | nil => simp [locate] at hl
      | cons k ks =>
        simp only [locate] at hl
        split at hl
        · cases h : locate t ks with
          | none => simp [h] at hl
          | some q => exact ⟨rfl, ih h⟩
        · cases hl
    | struct n f ih =>
      cases ks with
      | nil => simp [locate] at hl
      | cons k ks =>
        simp only [locate] at hl
        split at hl
        · rename_i hk
          cases h : locate (f ⟨k, hk⟩) ks with
          | none => simp [h] at hl
          | some q => exact ⟨rfl, hk, ih _ h⟩
        · cases hl
  · have : ∀ (fr : Bool) (l : List Nat), Safe fr (l.map .mem) := by
      intro fr l
      induction l generalizing fr with
      | nil => cases fr <;> trivial
      | cons k l ih => cases fr <;> exact ih true
    exact this _ _

/-- The whole of element 13 of 32: `y[2]` is one of its values. -/
example : locate record [2, 2] = some (24, 8) ∧ 13 < 4 * 2 ^ 3 ∧
    size (.arr 4 (soa (2 ^ 3) record)) < 2 ^ (Mode.p64.A - 1) := by decide

/-! ## Where it fails -/

/-- `struct { int m[2][2]; }`. -/
def matrix : Ty := .struct 1 fun _ => .arr 2 (.arr 2 (.leaf 4 2))

/-- **The layout is not kept for arrays of arrays in a structure**: after `a[i].m[j]` the
lvalue is no longer a frozen slice, and `a[1].m[0][1]` and `a[2].m[0][0]` are the same
memory. -/
theorem member_matrix_aliases (base : BitVec 64) :
    access .p64 8 1 matrix base [.idx (ix64 1), .mem 0, .idx (ix64 0), .idx (ix64 1)] =
      some (base + 8#64) ∧
    access .p64 8 1 matrix base [.idx (ix64 2), .mem 0, .idx (ix64 0), .idx (ix64 0)] =
      some (base + 8#64) := by
  have h2 : (2 : Int) >>> 3 = 0 := rfl
  constructor <;>
    simp [access, walk, sliceGep, sliceIndex, gep, matrix, ix64, soa, size, memberOff, fieldOff,
      logWidth, logLoop, addOff, resize, Fits, Mode.A, Mode.P, h2] <;>
    (show (base + 0#64 + 0#64 + 0#64 + 0#64 + 8#64 : BitVec 64) = base + 8#64; simp)

/-- `struct { float x; }`. -/
def point : Ty := .struct 1 fun _ => .leaf 4 2

/-- **Nor for arrays of arrays of `soa<>` structures**: in `soa<8> Point a[2][3]`, `a[0][1]` and
`a[1][0]` are the same memory. -/
theorem array_of_arrays_aliases (base : BitVec 64) :
    access .p64 8 2 (.arr 3 point) base [.idx (ix64 0), .idx (ix64 1), .mem 0] =
      some (base + 4#64) ∧
    access .p64 8 2 (.arr 3 point) base [.idx (ix64 1), .idx (ix64 0), .mem 0] =
      some (base + 4#64) := by
  have h1 : (1 : Int) >>> 3 = 0 := rfl
  constructor <;>
    simp [access, walk, sliceGep, sliceIndex, gep, point, ix64, soa, size, memberOff, fieldOff,
      logWidth, logLoop, addOff, resize, Fits, Mode.A, Mode.P, h1] <;>
    (show (base + 0#64 + 0#64 + 0#64 + 4#64 : BitVec 64) = base + 4#64; simp)

/-- The slice pointer an lvalue expression stands for, what it points to and whether it is
frozen: what `&` returns (`AddressOfExpr::GetTypeImpl`, src/expr.cpp:8757-8759).  The steps
are those of `walk`. -/
def lvalue (m : Mode) (w : Nat) : Ty → Bool → SPtr m → List Step → Option (SPtr m × Bool × Ty)
  | t, frozen, p, [] => some (p, frozen, t)
  | .arr _ t, frozen, p, .idx ix :: r =>
    (sliceGep m w (size (soa w t)) frozen p ix).bind fun q => lvalue m w t false q r
  | .arr _ t, _, p, .mem k :: r =>
    lvalue m w t true ⟨addOff m p.ptr (k * size (soa w t)), p.off⟩ r
  | .struct n f, _, p, .mem k :: r =>
    if h : k < n then
      lvalue m w (f ⟨k, h⟩) true ⟨addOff m p.ptr (memberOff (fun i => soa w (f i)) k), p.off⟩ r
    else none
  | _, _, _, _ => none

/-- Loads and stores go to the lvalue, with the slice offset applied at a basic type. -/
theorem walk_lvalue (m : Mode) (w : Nat) (t : Ty) (fr : Bool) (p : SPtr m) (steps : List Step) :
    walk m w t fr p steps = (lvalue m w t fr p steps).bind fun (q, _, u) =>
      match u with
      | .leaf s _ => gep m s q.ptr ⟨32, q.off, false⟩
      | _ => none := by
  induction t generalizing fr p steps with
  | leaf s a => cases steps with
    | nil => simp [walk, lvalue]
    | cons x r => cases x <;> simp [walk, lvalue]
  | arr n t ih => cases steps with
    | nil => simp [walk, lvalue]
    | cons x r =>
      cases x with
      | mem k => simp [walk, lvalue, ih]
      | idx ix =>
        simp only [walk, lvalue]
        cases sliceGep m w (size (soa w t)) fr p ix with
        | none => rfl
        | some q => simp [ih]
  | struct n f ih => cases steps with
    | nil => simp [walk, lvalue]
    | cons x r =>
      cases x with
      | idx ix => simp [walk, lvalue]
      | mem k =>
        simp only [walk, lvalue]
        split
        · exact ih _ _ _ _
        · rfl

/-- `&lv + k`, the one-index `GetElementPtrInst` with the property of the pointer. -/
def addrAdd (m : Mode) (w : Nat) (ix : Ix) : SPtr m × Bool × Ty → Option (SPtr m × Bool × Ty)
  | (p, frozen, t) => (sliceGep m w (size (soa w t)) frozen p ix).map fun q => (q, frozen, t)

/-- `struct { float y[3]; }`. -/
def triple : Ty := .struct 1 fun _ => .arr 3 (.leaf 4 2)

/-- **Pointers into member arrays step to the next element**: `&a[0].y[1] + 1` is `&a[1].y[1]`, not
`&a[0].y[2]`. -/
theorem member_pointer_steps_over (base : BitVec 64) :
    let p := (SPtr.mk base 0#32 : SPtr .p64)
    let lv := lvalue .p64 8 (.arr 2 triple) false p
    (lv [.idx (ix64 0), .mem 0, .idx (ix64 1)]).bind (addrAdd .p64 8 (ix64 1)) =
      lv [.idx (ix64 1), .mem 0, .idx (ix64 1)] ∧
    (lv [.idx (ix64 0), .mem 0, .idx (ix64 1)]).bind (addrAdd .p64 8 (ix64 1)) ≠
      lv [.idx (ix64 0), .mem 0, .idx (ix64 2)] := by
  simp [addrAdd, lvalue, sliceGep, sliceIndex, gep, triple, ix64, soa, size, memberOff, fieldOff,
      logWidth, logLoop, addOff, resize, Fits, Mode.A, Mode.P]
  refine ⟨congrArg (fun x : BitVec 64 => (SPtr.mk x 1#32 : SPtr .p64)) (BitVec.add_zero _), ?_⟩
  intro h
  injection h with _ h
  exact absurd h (by decide)

/-- The sum of a 32-bit index and the slot is computed in 32 bits: from slot 1 of block 0,
element `2 ^ 31 - 1` further is looked for in block `-2 ^ 28` instead of `2 ^ 28`. -/
theorem index_sum_wraps :
    (sliceIndex 8 ⟨32, 0x7fffffff#32, false⟩ 1#32).1.v.toInt = -2 ^ 28 ∧
    ((2 ^ 31 - 1 + 1) / 8 : Int) = 2 ^ 28 := by
  constructor
  · decide
  · norm_num

end Ispc.Soa
