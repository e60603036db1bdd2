import Verif.Opt.Blend

/-!
# C49: a masked store that is done by blending touches only the variable, and changes only the elements that are on

What is stored to is described without the search that the compiler does: `At t o b` says that in a variable of type
`t` a vector of `b` bytes begins at byte `o`.
-/

namespace Ispc.Blend

open Ispc.Gather Ispc.Vec
open Ispc.ForeachActive (Mask)

/-! ## Specification -/

/-- The bytes that a value of type `t` takes. -/
def Ty.size : Ty → Nat
  | .vec _ alloc => alloc
  | .scalar bytes => bytes
  | .arr count elt => count * elt.size
  | .struct _ size => size

mutual

/-- The layout makes sense: what a vector holds fits in what it takes, fields follow one another without overlap, and
the last one ends within the structure. -/
def Ty.Wf : Ty → Prop
  | .vec bytes alloc => bytes ≤ alloc
  | .scalar _ => True
  | .arr _ elt => elt.Wf
  | .struct fields size => fields.Wf 0 size

/-- The fields lie between `start` and `size`. -/
def Fields.Wf : Fields → Nat → Nat → Prop
  | .nil, _, _ => True
  | .cons off t rest, start, size => start ≤ off ∧ off + t.size ≤ size ∧ t.Wf ∧ rest.Wf (off + t.size) size

end

/-- `(off, t)` is one of the fields. -/
def Fields.Has : Fields → Nat → Ty → Prop
  | .nil, _, _ => False
  | .cons off t rest, off', t' => (off' = off ∧ t' = t) ∨ rest.Has off' t'

/-- In a variable of type `t` a vector of `b` bytes, not zero, begins at byte `o`. -/
inductive At : Ty → Nat → Nat → Prop where
  | vec {b a : Nat} : 0 < b → At (.vec b a) 0 b
  | arr {n i o b : Nat} {t : Ty} : i < n → At t o b → At (.arr n t) (i * t.size + o) b
  | struct {fs : Fields} {size off o b : Nat} {t : Ty} : fs.Has off t → At t o b → At (.struct fs size) (off + o) b

/-- The variable that a pointer leads to, if any, and the bytes from its start (modulo `2^64`). -/
def Ptr.root : Ptr → Option (Ty × Addr × BitVec 64)
  | .alloca t a => some (t, a, 0)
  | .bitcast p => p.root
  | .gep _ p off => p.root.map fun r => (r.1, r.2.1, r.2.2 + off)
  | .other _ => none

/-- A variable of type `t` lies at `a`: its bytes can be accessed. -/
def Lies (m : Mem) (t : Ty) (a : Addr) : Prop := ∀ i < t.size, m.mapped (a + BitVec.ofNat 64 i) = true

/-! ## Proofs -/

theorem has_bounds {fs : Fields} : ∀ {start size off : Nat} {t : Ty}, fs.Wf start size → fs.Has off t →
    start ≤ off ∧ off + t.size ≤ size ∧ t.Wf := by
  induction fs using Fields.rec (motive_1 := fun _ => True) with
  | nil => intro _ _ _ _ _ h; exact h.elim
  | cons off t rest _ ih =>
    intro start size off' t' hw h
    obtain ⟨h1, h2, h3, h4⟩ := hw
    rcases h with ⟨rfl, rfl⟩ | h
    · exact ⟨h1, h2, h3⟩
    · have := ih h4 h; exact ⟨by omega, this.2⟩
  | _ => trivial

/-- A vector in a variable lies in it entirely. -/
theorem at_inside {t : Ty} {o b : Nat} (h : At t o b) : t.Wf → o + b ≤ t.size ∧ 0 < b := by
  induction h with
  | vec hb => intro hw; rw [Ty.Wf] at hw; exact ⟨by simpa [Ty.size] using hw, hb⟩
  | @arr n i o b t hi _ ih =>
    intro hw
    have := ih hw
    refine ⟨?_, this.2⟩
    have h2 : (i + 1) * t.size ≤ n * t.size := Nat.mul_le_mul_right _ hi
    rw [Nat.succ_mul] at h2
    simp only [Ty.size]
    omega
  | @struct fs size off o b t hf _ ih =>
    intro hw
    have h1 := has_bounds hw hf
    have := ih h1.2.2
    simp only [Ty.size]
    omega

theorem at_extract {t : Ty} {o b b' : Nat} (h : At t o b) : extractVector t = some b' → b' = b := by
  induction h with
  | vec _ => intro h; simpa [extractVector, eq_comm] using h
  | arr _ _ ih => intro h; exact ih h
  | struct _ _ _ => intro h; cases h

theorem startsBy_false {fs : Fields} {start size o : Nat} (hw : fs.Wf start size) (h : o < start) :
    fs.startsBy o = false := by
  cases fs with
  | nil => rfl
  | cons off t rest => simp only [Fields.startsBy, decide_eq_false_iff_not]; have := hw.1; omega

theorem startsBy_has {fs : Fields} {start size o off : Nat} {t : Ty} (hw : fs.Wf start size) (h : fs.Has off t)
    (ho : off ≤ o) : fs.startsBy o = true := by
  cases fs with
  | nil => exact h.elim
  | cons off' t' rest =>
    simp only [Fields.startsBy, decide_eq_true_eq]
    rcases h with ⟨rfl, rfl⟩ | h
    · exact ho
    · have := (has_bounds hw.2.2.2 h).1; omega

theorem fieldsAt_has {fs : Fields} : ∀ {start size o off : Nat} {t : Ty}, fs.Wf start size → fs.Has off t →
    off ≤ o → o < off + t.size → fieldsAt fs o = fieldAt t (o - off) := by
  induction fs using Fields.rec (motive_1 := fun _ => True) with
  | nil => intro _ _ _ _ _ _ h; exact h.elim
  | cons off' t' rest _ ih =>
    intro start size o off t hw h h1 h2
    obtain ⟨w1, w2, w3, w4⟩ := hw
    rcases h with ⟨rfl, rfl⟩ | h
    · rw [fieldsAt, startsBy_false w4 h2]; rfl
    · rw [fieldsAt, startsBy_has w4 h h1, if_pos rfl]
      exact ih w4 h h1 h2
  | _ => trivial

/-- Where a vector begins the search finds its size, or nothing. -/
theorem at_fieldAt {t : Ty} {o b b' : Nat} (h : At t o b) : t.Wf → fieldAt t o = some b' → b' = b := by
  induction h with
  | vec _ => intro _ h; simpa [fieldAt, eq_comm] using h
  | arr _ h _ => intro _ h'; exact at_extract h (by simpa [fieldAt] using h')
  | @struct fs size off o b t hf h ih =>
    intro hw h'
    have h1 := has_bounds hw hf
    have h2 := at_inside h h1.2.2
    rw [fieldAt, if_neg (by omega), fieldsAt_has hw hf (by omega) (by omega), Nat.add_sub_cancel_left] at h'
    exact ih h1.2.2 h'

theorem addr_root {p : Ptr} : ∀ {t : Ty} {a : Addr} {o : BitVec 64}, p.root = some (t, a, o) → p.addr = a + o := by
  induction p with
  | alloca t a => intro _ _ _ h; cases h; simp [Ptr.addr]
  | bitcast p ih => intro _ _ _ h; exact ih h
  | gep c p off ih =>
    intro t a o h
    simp only [Ptr.root, Option.map_eq_some_iff] at h
    obtain ⟨⟨t', a', o'⟩, h1, h2⟩ := h
    cases h2
    rw [Ptr.addr, ih h1, BitVec.add_assoc]
  | other => intro _ _ _ h; cases h

theorem inside_accessible {W n : Nat} {m : Mem} {t : Ty} {a : Addr} {o : Nat} (hl : Lies m t a)
    (h : o + W * n ≤ t.size) (l : Fin W) : m.accessible n (laneAddr n (a + BitVec.ofNat 64 o) l.val) := by
  intro i
  have h1 : l.val * n + i.val < W * n := by
    have : (l.val + 1) * n ≤ W * n := Nat.mul_le_mul_right _ l.isLt
    rw [Nat.succ_mul] at this
    have := i.isLt
    omega
  have := hl (o + (l.val * n + i.val)) (by omega)
  rwa [BitVec.ofNat_add, BitVec.ofNat_add, ← BitVec.add_assoc, ← BitVec.add_assoc] at this

/-- **C49, partial.** If the pointer leads to a place in a variable from where on the variable has room for the whole
vector, then the store that is emitted, blending or not, succeeds, changes the elements that are on and nothing else,
and leaves the memory that the stores of the elements that are on leave.  What is missing is that the compiler checks
that there is room: see `vector_partial`, `variable_index_wrong` and `interior_wrong`. -/
theorem room_partial {W n : Nat} (disable known : Bool) {p : Ptr} {t : Ty} {a : Addr} {o : Nat} (m : Mem)
    (vals : Vec W (Elt n)) (mask : Mask W) (hW : W ≤ 64) (hsize : W * n ≤ 2 ^ 64)
    (hp : p.root = some (t, a, BitVec.ofNat 64 o)) (hl : Lies m t a) (hroom : o + W * n ≤ t.size) :
    ∃ m', replaced disable known p m vals mask = some m' ∧ maskedStore known m p.addr vals mask = some m' ∧
      Scattered m m' (fun l => laneAddr n p.addr l.val) vals mask := by
  have hacc := inside_accessible (W := W) (n := n) hl hroom
  rw [← addr_root hp] at hacc
  obtain ⟨m', h1, h2, h3⟩ := masked_store_blend known m p.addr vals mask hW hsize hacc
  refine ⟨m', ?_, h2, h3⟩
  rw [replaced]
  split
  · exact h1
  · exact h2

/-- The pointers of which the compiler computes the offset: a variable, and a constant place in a structure; and those
into a variable that is a vector or an array of vectors (of arrays). -/
inductive Direct : Ptr → Prop where
  | alloca (t : Ty) (a : Addr) : Direct (.alloca t a)
  | field (fs : Fields) (size : Nat) (a : Addr) (off : BitVec 64) :
      Direct (.gep true (.alloca (.struct fs size) a) off)
  | vector {p : Ptr} {t : Ty} {a : Addr} {o : BitVec 64} {b : Nat} : p.root = some (t, a, o) →
      extractVector t = some b → Direct p
  | bitcast {p : Ptr} : Direct p → Direct (.bitcast p)

theorem underlying_vector {p : Ptr} : ∀ {t : Ty} {a : Addr} {o : BitVec 64} {b : Nat}, p.root = some (t, a, o) →
    extractVector t = some b → underlying p = some b := by
  have hf : ∀ {t : Ty} {b : Nat}, extractVector t = some b → fieldAt t 0 = some b := by
    intro t b h
    cases t <;> simp_all [extractVector, fieldAt]
  induction p with
  | alloca t a => intro _ _ _ _ h h'; cases h; exact hf h'
  | bitcast p ih => intro _ _ _ _ h h'; exact ih h h'
  | gep c p off ih =>
    intro t a o b h h'
    simp only [Ptr.root, Option.map_eq_some_iff] at h
    obtain ⟨⟨t', a', o'⟩, h1, h2⟩ := h
    cases h2
    have := ih h1 h'
    have hs : p.structVar = none := by
      cases p with
      | alloca t'' a'' =>
        cases h1
        cases t' with
        | struct => cases h'
        | _ => rfl
      | _ => rfl
    rw [underlying, hs]
    split <;> exact this
  | other => intro _ _ _ _ h; cases h

/-- **C49, partial.** If the compiler knows the place that a pointer leads to (`Direct`) and a vector begins there, then
a store is done by blending only if the vector is at least as large as the value; all of the bytes that the blend reads
and writes belong to that vector.  The size of the value need not be that of the vector. -/
theorem vector_partial {bytes : Nat} {disable : Bool} {p : Ptr} (hd : Direct p) {t : Ty} {a : Addr} {o b : Nat}
    (hp : p.root = some (t, a, BitVec.ofNat 64 o)) (ho : o < 2 ^ 64) (hw : t.Wf) (hat : At t o b)
    (h : doBlend disable p bytes = true) : bytes ≤ b ∧ o + bytes ≤ t.size := by
  have key : ∀ b', underlying p = some b' → b' = b := by
    clear h
    induction hd with
    | alloca t' a' =>
      cases hp' : (BitVec.ofNat 64 o) with
      | ofFin x =>
        simp only [Ptr.root, Option.some.injEq, Prod.mk.injEq] at hp
        obtain ⟨rfl, rfl, h0⟩ := hp
        have : o = 0 := by
          have := congrArg BitVec.toNat h0
          rw [BitVec.toNat_ofNat, Nat.mod_eq_of_lt ho] at this
          simpa using this.symm
        subst this
        exact fun b' h => at_fieldAt hat hw h
    | field fs size a' off =>
      simp only [Ptr.root, Option.map_some, Option.some.injEq, Prod.mk.injEq] at hp
      obtain ⟨rfl, rfl, h0⟩ := hp
      rw [show (0 : BitVec 64) + off = off by simp] at h0
      subst h0
      intro b' h
      rw [underlying, if_pos rfl, Ptr.structVar] at h
      simp only at h
      rw [BitVec.toNat_ofNat, Nat.mod_eq_of_lt ho] at h
      exact at_fieldAt hat hw h
    | vector h1 h2 =>
      rw [hp] at h1
      cases h1
      intro b' h
      rw [underlying_vector hp h2] at h
      cases h
      exact at_extract hat h2
    | bitcast _ ih => exact ih hp
  have hb := at_inside hat hw
  unfold doBlend at h
  split at h
  · rename_i b' hb'
    have := key b' hb'
    simp only [Bool.and_eq_true, decide_eq_true_eq] at h
    omega
  · simp at h

/-- **C49, partial.** For such pointers the store that is emitted does what the stores of the elements that are on do,
whatever the sizes of the vector and of the value; where the value is larger than the vector it is these stores. -/
theorem direct_partial {W n : Nat} (disable known : Bool) {p : Ptr} (hd : Direct p) {t : Ty} {a : Addr} {o b : Nat}
    (m : Mem) (vals : Vec W (Elt n)) (mask : Mask W) (hW : W ≤ 64) (hsize : W * n ≤ 2 ^ 64)
    (hp : p.root = some (t, a, BitVec.ofNat 64 o)) (ho : o < 2 ^ 64) (hw : t.Wf) (hat : At t o b) (hl : Lies m t a) :
    replaced disable known p m vals mask = maskedStore known m p.addr vals mask := by
  by_cases h : doBlend disable p (W * n) = true
  · have := vector_partial hd hp ho hw hat h
    obtain ⟨m', h1, h2, _⟩ := room_partial disable known m vals mask hW hsize hp hl this.2
    rw [h1, h2]
  · rw [replaced, if_neg h]

/-! ## What has no vector in it is never blended -/

mutual

/-- There is no vector anywhere in the type: it is one of uniform data. -/
def Ty.noVec : Ty → Bool
  | .vec _ _ => false
  | .scalar _ => true
  | .arr _ elt => elt.noVec
  | .struct fields _ => fields.noVec

/-- There is no vector in the fields. -/
def Fields.noVec : Fields → Bool
  | .nil => true
  | .cons _ t rest => t.noVec && rest.noVec

end

theorem extract_noVec : ∀ {t : Ty}, t.noVec = true → extractVector t = none
  | .vec _ _, h => by cases h
  | .scalar _, _ => rfl
  | .arr _ elt, h => by
    rw [extractVector]
    exact extract_noVec (t := elt) (by simpa [Ty.noVec] using h)
  | .struct _ _, _ => rfl

mutual

theorem fieldAt_noVec : ∀ (t : Ty) (o : Nat), t.noVec = true → fieldAt t o = none
  | .vec _ _, _, h => by cases h
  | .scalar _, _, _ => rfl
  | .arr _ elt, _, h => by rw [fieldAt]; exact extract_noVec (by simpa [Ty.noVec] using h)
  | .struct fields size, o, h => by
    rw [fieldAt]
    split
    · rfl
    · exact fieldsAt_noVec fields o (by simpa [Ty.noVec] using h)

theorem fieldsAt_noVec : ∀ (fs : Fields) (o : Nat), fs.noVec = true → fieldsAt fs o = none
  | .nil, _, _ => rfl
  | .cons off t rest, o, h => by
    simp only [Fields.noVec, Bool.and_eq_true] at h
    rw [fieldsAt]
    split
    · exact fieldsAt_noVec rest o h.2
    · exact fieldAt_noVec t _ h.1

end

/-- **C49.** Nothing is ever blended to memory that is not a variable on the stack, or to a variable without vectors:
global variables, memory behind pointers and uniform data are only touched in the elements that are on. -/
theorem never_blended (disable : Bool) {p : Ptr} (bytes : Nat)
    (h : ∀ r, p.root = some r → r.1.noVec = true) : doBlend disable p bytes = false := by
  have : underlying p = none := by
    induction p with
    | alloca t a => exact fieldAt_noVec t 0 (h _ rfl)
    | bitcast p ih => exact ih h
    | gep c p off ih =>
      have h' : ∀ r, p.root = some r → r.1.noVec = true := fun r hr =>
        h (r.1, r.2.1, r.2.2 + off) (by simp [Ptr.root, hr])
      have := ih h'
      rw [underlying]
      split
      · cases hs : p.structVar with
        | none => exact this
        | some q =>
          cases p with
          | alloca t a =>
            cases t with
            | struct fs size => cases hs; exact fieldAt_noVec _ _ (h' _ rfl)
            | _ => cases hs
          | _ => cases hs
      · exact this
    | other => rfl
  simp [doBlend, this]

/-- **C49.** With `disableBlendedMaskedStores` nothing is blended. -/
theorem disabled_never (p : Ptr) (bytes : Nat) : doBlend true p bytes = false := rfl

/-! ## Where the choice is wrong -/

/-- `struct { varying int a; uniform int b[10]; }` for a gang of eight. -/
def mixed : Ty := .struct (.cons 0 (.vec 32 32) (.cons 32 (.arr 10 (.scalar 4)) .nil)) 72

/-- A memory of which only the bytes of a variable of 72 bytes at address 4096 are mapped. -/
def mem72 : Mem := ⟨fun a => 4096 ≤ a.toNat && a.toNat < 4168, fun a => a.setWidth 8⟩

/-- The elements 8 and 9 of `s.b`: the last round of `foreach (i = 0 ... 10) s.b[i] = ...`. -/
def ptrB8 : Ptr := .gep false (.alloca mixed 4096) 64

/-- The first two lanes of eight. -/
def two : Mask 8 := fun l => l.val < 2

/-- A value of `4` bytes for every lane. -/
def vals8 : Vec 8 (Elt 4) := fun l i => BitVec.ofNat 8 (16 * l.val + i.val)

/-- **C49, negative.** When the place in a structure is not constant the search takes the type of the first field.
For `foreach (i = 0 ... 10) s.b[i] = i` with `s` a structure whose first field is varying, the last round blends eight
elements although two are left: it accesses memory after the variable, where the stores of the elements that are on
succeed. -/
theorem variable_index_wrong : mixed.Wf ∧ Lies mem72 mixed 4096 ∧ doBlend false ptrB8 32 = true ∧
    (maskedStore false mem72 ptrB8.addr vals8 two).isSome = true ∧
    replaced false false ptrB8 mem72 vals8 two = none := by
  refine ⟨by simp [mixed, Ty.Wf, Fields.Wf, Ty.size], ?_, by decide, by decide +kernel, by decide +kernel⟩
  intro i hi
  simp only [mixed, Ty.size] at hi
  have : (4096 + BitVec.ofNat 64 i).toNat = 4096 + i := by
    rw [BitVec.toNat_add, BitVec.toNat_ofNat, show BitVec.toNat (4096 : Addr) = 4096 from rfl]; omega
  simp only [mem72]
  rw [this]
  simp
  omega

/-- `varying int x[2]` for a gang of eight. -/
def twoVecs : Ty := .arr 2 (.vec 32 32)

/-- A memory of which only the bytes of a variable of 64 bytes at address 4096 are mapped. -/
def mem64 : Mem := ⟨fun a => 4096 ≤ a.toNat && a.toNat < 4160, fun a => a.setWidth 8⟩

/-- Elements 14 and 15 of `x` seen as `uniform int[16]`: the last round of `foreach (i = 6 ... 16) p[i] = ...`. -/
def ptrInterior : Ptr := .gep false (.alloca twoVecs 4096) 56

/-- **C49, negative.** The place in an array of vectors, or in a vector, is never looked at.  When `x` is accessed
through `uniform int * uniform p = (uniform int *)x`, the last round of `foreach (i = 6 ... 16) p[i] = i` blends eight
elements from the fourteenth of sixteen on. -/
theorem interior_wrong : twoVecs.Wf ∧ Lies mem64 twoVecs 4096 ∧ doBlend false ptrInterior 32 = true ∧
    (maskedStore false mem64 ptrInterior.addr vals8 two).isSome = true ∧
    replaced false false ptrInterior mem64 vals8 two = none := by
  refine ⟨by simp [twoVecs, Ty.Wf], ?_, by decide, by decide +kernel, by decide +kernel⟩
  intro i hi
  simp only [twoVecs, Ty.size] at hi
  have : (4096 + BitVec.ofNat 64 i).toNat = 4096 + i := by
    rw [BitVec.toNat_add, BitVec.toNat_ofNat, show BitVec.toNat (4096 : Addr) = 4096 from rfl]; omega
  simp only [mem64]
  rw [this]
  simp
  omega

/-! ## Other threads -/

/-- The blend in two steps, between which another thread can run (`other`). -/
def blendWith {W n : Nat} (other : Mem → Mem) (m : Mem) (ptr : Addr) (vals : Vec W (Elt n)) (mask : Mask W) :
    Option Mem := do
  let old ← loadVec m n ptr
  storeVecPoison (other m) ptr (select mask vals old)

/-- With nothing between the steps it is the blend. -/
theorem blendWith_id {W n : Nat} (m : Mem) (ptr : Addr) (vals : Vec W (Elt n)) (mask : Mask W) :
    blendWith id m ptr vals mask = maskedStoreBlend m ptr vals mask := rfl

/-- **C49, negative.** A task that writes, meanwhile, to an element of the variable that is off loses what it wrote,
although the program never stores to that element here. -/
theorem lost_update_wrong : ∃ (m m' : Mem) (mask : Mask 8) (x : Addr) (v : Byte),
    doBlend false (.alloca (.vec 32 32) 4096) 32 = true ∧
    blendWith (fun m => m.put x (fun _ : Fin 1 => v)) m 4096 vals8 mask = some m' ∧
    (∀ l : Fin 8, mask l = true → ∀ i : Fin 4, laneAddr 4 4096 l.val + BitVec.ofNat 64 i.val ≠ x) ∧
    m'.byte x ≠ v := by
  have h : (blendWith (fun m => m.put 4112 (fun _ : Fin 1 => 255)) mem64 4096 vals8 two).isSome = true := by
    decide +kernel
  have h2 : (blendWith (fun m => m.put 4112 (fun _ : Fin 1 => 255)) mem64 4096 vals8 two).map (fun m => m.byte 4112) ≠
      some 255 := by decide +kernel
  obtain ⟨m', hm'⟩ := Option.isSome_iff_exists.1 h
  exact ⟨mem64, m', two, 4112, 255, rfl, hm', by decide +kernel, fun e => h2 (by rw [hm']; exact congrArg some e)⟩

/-! ## Cases that meet the hypotheses -/

/-- `struct { uniform float f; struct { varying int8 c; varying int v[3]; } g; }` for a gang of eight. -/
def nested : Ty :=
  .struct (.cons 0 (.scalar 4) (.cons 32 (.struct (.cons 0 (.vec 8 8) (.cons 32 (.arr 3 (.vec 32 32)) .nil)) 128) .nil))
    160

theorem nested_wf : nested.Wf := by simp [nested, Ty.Wf, Fields.Wf, Ty.size]

/-- `s.g.v[2]` begins at byte 128. -/
theorem nested_at : At nested 128 32 :=
  .struct (off := 32) (o := 96) (t := .struct (.cons 0 (.vec 8 8) (.cons 32 (.arr 3 (.vec 32 32)) .nil)) 128)
    (Or.inr (Or.inl ⟨rfl, rfl⟩))
    (.struct (off := 32) (o := 64) (t := .arr 3 (.vec 32 32)) (Or.inr (Or.inl ⟨rfl, rfl⟩))
      (.arr (i := 2) (o := 0) (t := .vec 32 32) (by decide) (.vec (by decide))))

example : Direct (.gep true (.alloca nested 4096) 128) := .field _ _ _ _

example : doBlend false (.gep true (.alloca nested 4096) 128) 32 = true := by decide

example : doBlend false (.gep true (.alloca nested 4096) 128) 64 = false := by decide

example : doBlend false (.gep true (.alloca nested 4096) 32) 8 = true := by decide

example : doBlend false (.gep true (.alloca nested 4096) 0) 32 = false := by decide

example : 128 + 32 ≤ nested.size :=
  (vector_partial (p := .gep true (.alloca nested 4096) 128) (disable := false) (bytes := 32) (.field _ _ _ _) rfl
    (by decide) nested_wf nested_at (by decide)).2

example : (Ty.arr 10 (.scalar 4)).noVec = true := rfl

end Ispc.Blend
