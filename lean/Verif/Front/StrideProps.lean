import Verif.Front.HeaderProps
import Verif.Front.Stride

/-!
# Elements are where the layout has them, however they are addressed

C57.  The address of an element does not depend on whether the pointer or the index is uniform or varying,
`p + i`, `p - i` and `p - q` are inverse to each other, and `sizeof` is the distance of elements: for every type
but `bool` and its short vectors.  For those it is shown when it holds, and what goes wrong when it does not.
-/

namespace Ispc.Stride

open Header (Ty Ms Vb DL Scal Leaf llay lflat roundUp)
open Soa (Mode Ix gep addOff Fits)
open Fold (resize)

/-! ## Sizes -/

/-- The target: gangs and sizes are powers of two, a `bool` in memory is a byte, and a vector whose size is a
power of two is aligned to a divisor of its size. -/
structure Tgt.Good (T : Tgt) : Prop where
  gang  : ∃ w, T.D.W = 2 ^ (w + 1)
  size  : ∀ k, ∃ e, T.D.size k = 2 ^ e
  bool  : T.D.size .bool = 1
  dtw   : T.D.dtw = 8 ∨ T.D.dtw = 16 ∨ T.D.dtw = 32 ∨ T.D.dtw = 64
  align : ∀ e, T.D.valign (2 ^ e) ∣ 2 ^ e
  mask  : T.M = 1 ∨ T.M = 8 ∨ T.M = 16 ∨ T.M = 32 ∨ T.M = 64

/-- x86-64 with any gang and mask. -/
def x64 (w M : Nat) (m : Mode) : Tgt := ⟨Header.lp64 (2 ^ (w + 1)) 32, M, m⟩

theorem x64_good (w M : Nat) (m : Mode) (hM : M = 1 ∨ M = 8 ∨ M = 16 ∨ M = 32 ∨ M = 64) : (x64 w M m).Good where
  gang := ⟨w, rfl⟩
  size k := by
    cases k
    case bool => exact ⟨0, rfl⟩
    case int8 => exact ⟨0, rfl⟩
    case uint8 => exact ⟨0, rfl⟩
    case int16 => exact ⟨1, rfl⟩
    case uint16 => exact ⟨1, rfl⟩
    case float16 => exact ⟨1, rfl⟩
    case int32 => exact ⟨2, rfl⟩
    case uint32 => exact ⟨2, rfl⟩
    case float => exact ⟨2, rfl⟩
    case enum => exact ⟨2, rfl⟩
    case int64 => exact ⟨3, rfl⟩
    case uint64 => exact ⟨3, rfl⟩
    case double => exact ⟨3, rfl⟩
    case pointer => exact ⟨3, rfl⟩
  bool := rfl
  dtw := Or.inr (Or.inr (Or.inl rfl))
  align e := by
    show 2 ^ Nat.clog 2 (2 ^ e) ∣ 2 ^ e
    rw [Nat.clog_pow 2 e (by norm_num)]
  mask := hM

/-- The types whose registers hold something else than memory: `bool` and its short vectors.  Arrays and
structs that contain them are not among them. -/
def Plain (v : Vb) : Ty → Prop
  | .atom k x  => k = .bool → v.resolve x ≠ .varying
  | .vec k _ x => k = .bool → v.resolve x ≠ .varying ∧ v.resolve x ≠ .uniform
  | _          => True

theorem roundUp_dvd_self {x a : Nat} (h : a ∣ x) (hx : 0 < x) : roundUp x a = x := by
  obtain ⟨c, rfl⟩ := h
  have ha : 0 < a := Nat.pos_of_mul_pos_right hx
  unfold roundUp
  rw [show a * c + a - 1 = (a - 1) + a * c by omega, Nat.add_mul_div_left _ _ ha, Nat.div_eq_of_lt (by omega),
    Nat.zero_add, Nat.mul_comm]

theorem vector_pow {T : Tgt} (hT : T.Good) (e : Nat) : (T.D.vector (2 ^ e)).1 = 2 ^ e :=
  roundUp_dvd_self (hT.align e) (Nat.two_pow_pos e)

theorem gang_pow {T : Tgt} (hT : T.Good) (k : Scal) : ∃ e, T.D.W * T.D.size k = 2 ^ e := by
  obtain ⟨w, hw⟩ := hT.gang
  obtain ⟨e, he⟩ := hT.size k
  exact ⟨w + 1 + e, by rw [hw, he, ← Nat.pow_add]⟩

theorem gang_scalar {T : Tgt} (hT : T.Good) (k : Scal) : (T.D.scalar k .varying).1 = T.D.W * T.D.size k := by
  obtain ⟨e, he⟩ := gang_pow hT k
  simp only [DL.scalar]
  rw [he, vector_pow hT]

theorem scalar_plain {T : Tgt} (hT : T.Good) (k : Scal) (x : Vb) (h : k = .bool → x ≠ .varying) :
    scalarSize T k x = (T.D.scalar k x).1 := by
  cases x with
  | unbound => rfl
  | uniform =>
    by_cases hk : k = .bool
    · subst hk; simp [scalarSize, DL.scalar, hT.bool, bytes]
    · simp [scalarSize, DL.scalar, hk]
  | varying =>
    have hk : k ≠ .bool := fun hc => h hc rfl
    rw [gang_scalar hT]; simp [scalarSize, hk]
  | soa w => rfl

theorem short_pow {T : Tgt} (hT : T.Good) (k : Scal) (n : Nat) :
    ∃ e, Braces.vecMem T.D.dtw n * T.D.size k = 2 ^ e := by
  obtain ⟨m, hm, -⟩ := Header.vecMem_pow hT.dtw n
  obtain ⟨e, he⟩ := hT.size k
  exact ⟨m + e, by rw [hm, he, Nat.pow_add]⟩

/-- **`sizeof` is the distance of elements in memory.**  Partial: not for `bool` and its short vectors, see
`size_iff`. -/
theorem sizeof_stride_partial {T : Tgt} (hT : T.Good) {v : Vb} (hv : v ≠ .unbound) (t : Ty) (h : Plain v t) :
    sizeOf T v t = (llay T.D v t).1 := by
  cases t with
  | atom k x => exact scalar_plain hT k _ h
  | enum x => exact scalar_plain hT .enum _ (by simp)
  | ptr b x => exact scalar_plain hT .pointer _ (by simp)
  | vec k n x =>
    have hx := Header.resolve_ne hv x
    have h : k = .bool → v.resolve x ≠ .varying ∧ v.resolve x ≠ .uniform := h
    rw [llay]
    simp only [sizeOf]
    cases hy : v.resolve x with
    | unbound => exact absurd hy hx
    | uniform =>
      have hk : k ≠ .bool := fun hc => (h hc).2 hy
      obtain ⟨e, he⟩ := short_pow hT k n
      simp only [vectorSize, hk, if_false, DL.short]
      rw [he, vector_pow hT]
    | varying =>
      have hk : k ≠ .bool := fun hc => (h hc).1 hy
      simp [vectorSize, hk, DL.short]
    | soa w => simp [vectorSize, DL.short, DL.scalar]
  | arr n t => rfl
  | struct a b c d => rfl

/-- `float`, `float<3>`, an array of `bool` and a struct with a `bool` are such types. -/
example : Plain .varying (.atom .float .unbound) ∧ Plain .uniform (.vec .float 3 .unbound) ∧
    Plain .varying (.arr 4 (.atom .bool .unbound)) ∧
    Plain .varying (.struct 0 0 .unbound (.cons true (.atom .bool .unbound) .nil)) ∧ (x64 2 32 .force32).Good :=
  ⟨by simp [Plain], by simp [Plain], trivial, trivial, x64_good _ _ _ (by simp)⟩

/-- The mask of a gang has as many bytes as the gang has members exactly if its elements are bytes. -/
theorem mask_bytes {T : Tgt} (hT : T.Good) : bytes (T.D.W * T.M) = T.D.W ↔ T.M = 8 := by
  obtain ⟨w, hw⟩ := hT.gang
  have h2 : 2 ≤ T.D.W := by
    rw [hw, Nat.pow_succ]; have := Nat.two_pow_pos w; omega
  unfold bytes
  rcases hT.mask with h | h | h | h | h <;> rw [h] <;> constructor <;> intro hx <;> omega

/-- The bytes of a mask are a power of two. -/
theorem mask_pow {T : Tgt} (hT : T.Good) : ∃ e, bytes (T.D.W * T.M) = 2 ^ e := by
  obtain ⟨w, hw⟩ := hT.gang
  unfold bytes
  rw [hw]
  rcases hT.mask with h | h | h | h | h <;> rw [h]
  · by_cases h3 : w < 3
    · refine ⟨0, ?_⟩
      rcases w with _ | _ | _ | w <;> omega
    · obtain ⟨u, rfl⟩ : ∃ u, w = u + 3 := ⟨w - 3, by omega⟩
      refine ⟨u + 1, ?_⟩
      rw [show u + 3 + 1 = (u + 1) + 3 by omega, Nat.pow_add]
      omega
  · exact ⟨w + 1, by omega⟩
  · exact ⟨w + 2, by rw [Nat.pow_succ 2 (w + 1)]; omega⟩
  · exact ⟨w + 3, by rw [Nat.pow_succ 2 (w + 2), Nat.pow_succ 2 (w + 1)]; omega⟩
  · exact ⟨w + 4, by rw [Nat.pow_succ 2 (w + 3), Nat.pow_succ 2 (w + 2), Nat.pow_succ 2 (w + 1)]; omega⟩

theorem vecMem_two {T : Tgt} (hT : T.Good) (n : Nat) : 2 ≤ Braces.vecMem T.D.dtw n := by
  unfold Braces.vecMem
  simp only
  rcases hT.dtw with h | h | h | h <;> rw [h] <;> split_ifs with hc <;> omega

/-- **When the two sizes are the same**: always, except for a varying `bool` (or a nonempty short vector of
them) if the elements of the mask are not bytes, and for a uniform short vector of `bool`. -/
theorem size_iff {T : Tgt} (hT : T.Good) {v : Vb} (hv : v ≠ .unbound) (t : Ty) :
    sizeOf T v t = (llay T.D v t).1 ↔
      match t with
      | .atom .bool x  => v.resolve x = .varying → T.M = 8
      | .vec .bool n x => v.resolve x ≠ .uniform ∧ (v.resolve x = .varying → n = 0 ∨ T.M = 8)
      | _              => True := by
  by_cases hp : Plain v t
  · rw [iff_true_left (sizeof_stride_partial hT hv t hp)]
    split
    · exact fun hc => absurd hc (hp rfl)
    · exact ⟨(hp rfl).2, fun hc => absurd hc (hp rfl).1⟩
    · trivial
  · cases t with
    | atom k x =>
      simp only [Plain, Classical.not_imp, not_not] at hp
      obtain ⟨rfl, hx⟩ := hp
      rw [llay]
      simp only [sizeOf, hx, gang_scalar hT, hT.bool, Nat.mul_one, scalarSize, if_true, forall_const]
      exact mask_bytes hT
    | vec k n x =>
      simp only [Plain, Classical.not_imp] at hp
      obtain ⟨rfl, hx⟩ := hp
      rw [llay]
      simp only [sizeOf]
      cases hy : v.resolve x with
      | unbound => exact absurd hy (Header.resolve_ne hv x)
      | uniform =>
        simp only [vectorSize, if_true, DL.short, ne_eq, not_true_eq_false, false_and, iff_false]
        obtain ⟨e, he⟩ := short_pow hT .bool n
        rw [he, vector_pow hT, ← he, hT.bool]
        have := vecMem_two hT n
        unfold bytes
        omega
      | varying =>
        simp only [vectorSize, if_true, DL.short, gang_scalar hT, hT.bool, Nat.mul_one, ne_eq, reduceCtorEq,
          not_false_eq_true, true_and, forall_const]
        obtain ⟨e, he⟩ := mask_pow hT
        rw [he, vector_pow hT, ← he, ← mask_bytes hT]
        rcases Nat.eq_zero_or_pos n with h0 | h0
        · simp [h0]
        · rw [Nat.mul_right_inj (by omega)]
          constructor
          · exact Or.inr
          · rintro (h | h)
            · omega
            · exact h
      | soa w => exact absurd ⟨by simp [hy], by simp [hy]⟩ hx
    | _ => exact absurd trivial hp

/-- Both outcomes occur: `varying bool` with 8-bit masks and with 32-bit masks. -/
example : sizeOf (x64 2 8 .force32) .varying (.atom .bool .unbound) = 8 ∧
    sizeOf (x64 2 32 .force32) .varying (.atom .bool .unbound) = 32 ∧
    sizeOf (x64 2 1 .force32) .varying (.atom .bool .unbound) = 1 := by decide

/-- `sizeof(T[n])` is `n * sizeof(T)` whenever the sizes agree. -/
theorem sizeof_array {T : Tgt} {v : Vb} {t : Ty} (h : sizeOf T v t = (llay T.D v t).1) (n : Nat) :
    sizeOf T v (.arr n t) = n * sizeOf T v t := by
  rw [h]; simp only [sizeOf]; rw [llay]

/-! ## Addresses -/

/-- Specification: the integer has the value `k`, and one of the widths of the language. -/
def Value (ix : Ix) (k : Int) : Prop :=
  Fold.val (!ix.uns) ix.v = k ∧ (ix.n = 8 ∨ ix.n = 16 ∨ ix.n = 32 ∨ ix.n = 64)

/-- Specification: the bytes of element `k`, where elements are `s` bytes apart. -/
def at' {m : Mode} (p : BitVec m.P) (s : Nat) (k : Int) : BitVec m.P := p + BitVec.ofInt m.P (k * s)

theorem fits_mul {n : Nat} {k : Int} {s : Nat} (hs : 0 < s) (h : Fits n (k * s)) : Fits n k := by
  have h1 : (1 : Int) ≤ s := by exact_mod_cast hs
  obtain ⟨h2, h3⟩ := h
  have hp : (0 : Int) < 2 ^ (n - 1) := by positivity
  constructor
  · rcases le_or_gt 0 k with h0 | h0
    · omega
    · nlinarith
  · rcases le_or_gt 0 k with h0 | h0
    · nlinarith
    · omega

theorem val_nonneg {ix : Ix} {k : Int} (h : Fold.val (!ix.uns) ix.v = k) (hu : ix.uns = true) : 0 ≤ k := by
  rw [← h, hu]; simp [Fold.val]

theorem conv_eq {ix : Ix} {k : Int} (h : Fold.val (!ix.uns) ix.v = k) (w : Nat) :
    resize (!ix.uns) w ix.v = BitVec.ofInt w k := by
  rw [← Fold.ofInt_resize, h]

/-- `gep` adds `k` times the size. -/
theorem gep_val {m : Mode} {sz : Nat} {p : BitVec m.P} {ix : Ix} {k : Int} (hs : 0 < sz)
    (hk : Fold.val (!ix.uns) ix.v = k) (hf : Fits m.A (k * sz)) : gep m sz p ix = some (at' p sz k) := by
  have h1 : (resize (!ix.uns) m.A ix.v).toInt * sz = k * sz := by
    rw [conv_eq hk, Soa.toInt_ofInt_fits (Soa.A_pos m) (fits_mul hs hf)]
  unfold gep
  simp only [h1]
  rw [if_pos hf, Soa.resize_denotes m.P (Soa.toInt_ofInt_fits (Soa.A_pos m) hf)]
  · rfl
  · intro hu
    exact mul_nonneg (val_nonneg hk hu) (by positivity)

theorem ugep_val {m : Mode} {sz : Nat} {p : BitVec m.P} {ix : Ix} {k : Int}
    (hk : resize true m.P ix.v = BitVec.ofInt m.P k) : ugep m sz p ix = at' p sz k := by
  unfold ugep at'
  rw [hk, BitVec.ofInt_mul, BitVec.ofInt_natCast]

/-- A conversion that keeps the value. -/
theorem conv_val {ix : Ix} {k : Int} (h : Fold.val (!ix.uns) ix.v = k) (w : Nat) (hn : 0 < w)
    (hw : ix.n ≤ w ∨ Fits w k) : Fold.val (!(Ix.conv w ix).uns) (Ix.conv w ix).v = k := by
  simp only [Ix.conv]
  rw [conv_eq h]
  cases hu : ix.uns
  · simp only [Fold.val, Bool.not_false, if_true]
    apply Soa.toInt_ofInt_fits hn
    rcases hw with hw | hw
    · have : Fits ix.n k := by
        rw [hu] at h; simp only [Fold.val, Bool.not_false, if_true] at h
        rw [← h]; exact Fold.toInt_bounds ix.v
      exact Soa.fits_mono hw this
    · exact hw
  · simp only [Fold.val, Bool.not_true, Bool.false_eq_true, if_false]
    have h0 := val_nonneg h hu
    have hlt : k < 2 ^ w := by
      rcases hw with hw | hw
      · rw [hu] at h; simp only [Fold.val, Bool.not_true, Bool.false_eq_true, if_false] at h
        rw [← h]
        have h1 : ix.v.toNat < 2 ^ ix.n := ix.v.isLt
        have h2 : 2 ^ ix.n ≤ 2 ^ w := Nat.pow_le_pow_right (by norm_num) hw
        exact_mod_cast lt_of_lt_of_le h1 h2
      · have : (2 : Int) ^ (w - 1) ≤ 2 ^ w := pow_le_pow_right₀ (by norm_num) (by omega)
        exact lt_of_lt_of_le hw.2 this
    obtain ⟨j, rfl⟩ := Int.eq_ofNat_of_zero_le h0
    rw [BitVec.ofInt_natCast, BitVec.toNat_ofNat, Nat.mod_eq_of_lt (by exact_mod_cast hlt)]

/-- A value of the full width, or a signed one, extended by `getelementptr`. -/
theorem sext_val {ix : Ix} {k : Int} (h : Fold.val (!ix.uns) ix.v = k) (P : Nat)
    (hw : ix.n = P ∨ ix.uns = false) : resize true P ix.v = BitVec.ofInt P k := by
  rcases hw with hw | hw
  · subst hw
    have := conv_eq h ix.n
    rw [← this]
    simp [resize]
  · have := conv_eq h P
    rw [hw] at this
    exact this

theorem width_le {ix : Ix} {k : Int} (h : Value ix k) : 0 < ix.n ∧ ix.n ≤ 64 := by
  rcases h.2 with h | h | h | h <;> omega

/-- `element` finds the element, for an index that `getelementptr` extends rightly. -/
theorem element_ok {T : Tgt} {v : Vb} {t : Ty} (hst : sizeOf T v t = (llay T.D v t).1) (hs : 0 < (llay T.D v t).1)
    {vp vi : Bool} {p : BitVec T.m.P} {ix : Ix} {k : Int} (hk : Fold.val (!ix.uns) ix.v = k)
    (hx : (vp || vi) = true ∨ resize true T.m.P ix.v = BitVec.ofInt T.m.P k)
    (hf : Fits T.m.A (k * (llay T.D v t).1)) :
    element T v t vp vi p ix = some (at' p (llay T.D v t).1 k) := by
  unfold element
  split
  · rw [hst]; exact gep_val hs hk hf
  · rename_i hc
    rcases hx with hx | hx
    · exact absurd hx hc
    · rw [ugep_val hx]

/-- **`a[i]` is where element `i` lies**, whether the pointer and the index are uniform or varying and for every
integer type of the index, if the offset in bytes fits the width that addresses are computed in. -/
theorem index_ok {T : Tgt} {v : Vb} {t : Ty} (hst : sizeOf T v t = (llay T.D v t).1) (hs : 0 < (llay T.D v t).1)
    (vp vi : Bool) (p : BitVec T.m.P) {ix : Ix} {k : Int} (hk : Value ix k)
    (hf : Fits T.m.A (k * (llay T.D v t).1)) :
    index T v t vp vi p ix = some (at' p (llay T.D v t).1 k) := by
  have hfk := fits_mul hs hf
  obtain ⟨hn, hn'⟩ := width_le hk
  have hA : T.m ≠ .p64 → Fits 32 k := by
    intro h; cases hm : T.m <;> simp_all [Mode.A]
  unfold index toIndex
  cases vi with
  | true =>
    simp only [if_true]
    split
    · exact element_ok hst hs hk.1 (Or.inl (by simp)) hf
    · rename_i hc
      refine element_ok hst hs (conv_val hk.1 32 (by norm_num) ?_) (Or.inl (by simp)) hf
      by_cases h64 : ix.n = 64
      · exact Or.inr (hA fun hc' => hc ⟨h64, hc'⟩)
      · left; rcases hk.2 with h | h | h | h <;> omega
  | false =>
    simp only [Bool.false_eq_true, if_false]
    split
    · rename_i hc
      have h32 : Fits 32 k := hA (by rcases hc with hc | ⟨hc, -⟩ <;> simp [hc])
      have hv := conv_val hk.1 32 (by norm_num) (Or.inr h32)
      refine element_ok hst hs hv (Or.inr (sext_val hv _ ?_)) hf
      rcases hc with hc | ⟨-, -, hc⟩
      · left; rw [hc]; rfl
      · right; exact hc
    · rename_i hc
      have hv := conv_val hk.1 64 (by norm_num) (Or.inl hn')
      refine element_ok hst hs hv (Or.inr (sext_val hv _ (Or.inl ?_))) hf
      cases hm : T.m <;> simp_all [Mode.P, Ix.conv]

/-- **`p + i` is `&p[i]`.** -/
theorem plus_ok {T : Tgt} {v : Vb} {t : Ty} (hst : sizeOf T v t = (llay T.D v t).1) (hs : 0 < (llay T.D v t).1)
    (vp vi : Bool) (p : BitVec T.m.P) {ix : Ix} {k : Int} (hk : Value ix k)
    (hf : Fits T.m.A (k * (llay T.D v t).1)) :
    plus T v t vp vi p ix = some (at' p (llay T.D v t).1 k) := by
  have hv := conv_val hk.1 T.m.P (Soa.P_pos _) (Or.inr (Soa.fits_mono (Soa.A_le_P _) (fits_mul hs hf)))
  exact element_ok hst hs hv (Or.inr (sext_val hv _ (Or.inl rfl))) hf

/-- **`p - i` is `i` elements before `p`**, for an unsigned `i` too. -/
theorem minus_ok {T : Tgt} {v : Vb} {t : Ty} (hst : sizeOf T v t = (llay T.D v t).1) (hs : 0 < (llay T.D v t).1)
    (vp vi : Bool) (p : BitVec T.m.P) {ix : Ix} {k : Int} (hk : Value ix k)
    (hf : Fits T.m.A (-k * (llay T.D v t).1)) :
    minus T v t vp vi p ix = some (at' p (llay T.D v t).1 (-k)) := by
  have hv : Fold.val (!(Ix.neg (Ix.conv T.m.P ix)).uns) (Ix.neg (Ix.conv T.m.P ix)).v = -k := by
    simp only [Ix.neg, Ix.conv, Fold.val, Bool.not_false, if_true]
    rw [conv_eq hk.1, ← BitVec.ofInt_neg]
    exact Soa.toInt_ofInt_fits (Soa.P_pos _) (Soa.fits_mono (Soa.A_le_P _) (fits_mul hs hf))
  exact element_ok hst hs hv (Or.inr (sext_val hv _ (Or.inl rfl))) hf

/-- **Where an element lies does not depend on how it is addressed.**  For every type but `bool` and its short
vectors, with a uniform or varying pointer and a uniform or varying integer of any type, `a[i]`, `p + i` and
`p - (-i)` are `i` times the distance of elements behind `p`.  Partial: the types, and the offset in bytes must
fit the width that addresses are computed in (by default 32 bits, as documented in docs/ispc.rst:1491-1502). -/
theorem address_partial {T : Tgt} (hT : T.Good) {v : Vb} (hv : v ≠ .unbound) {t : Ty} (hp : Plain v t)
    (hs : 0 < (llay T.D v t).1) (vp vi : Bool) (p : BitVec T.m.P) {ix : Ix} {k : Int} (hk : Value ix k)
    (hf : Fits T.m.A (k * (llay T.D v t).1)) (hf' : Fits T.m.A (-k * (llay T.D v t).1)) :
    index T v t vp vi p ix = some (at' p (llay T.D v t).1 k) ∧
    plus T v t vp vi p ix = some (at' p (llay T.D v t).1 k) ∧
    minus T v t vp vi p ix = some (at' p (llay T.D v t).1 (-k)) :=
  have hst := sizeof_stride_partial hT hv t hp
  ⟨index_ok hst hs vp vi p hk hf, plus_ok hst hs vp vi p hk hf, minus_ok hst hs vp vi p hk hf'⟩

/-- Element 1000 of an array of varying `float` on a gang of 8 with an `unsigned int16` index, 32000 bytes
behind the start. -/
example (p : BitVec 64) : ∀ vp vi : Bool,
    index (x64 2 32 .force32) .varying (.atom .float .unbound) vp vi p ⟨16, 1000#16, true⟩ =
      some (p + 32000#64) := fun vp vi => by
  have h : (llay (x64 2 32 .force32).D .varying (.atom .float .unbound)).1 = 32 := by decide
  have := (address_partial (x64_good 2 32 .force32 (by simp)) (v := .varying) (by simp)
    (t := .atom .float .unbound) (by simp [Plain]) (by rw [h]; norm_num) vp vi p (ix := ⟨16, 1000#16, true⟩)
    (k := 1000) ⟨by decide, by simp⟩ (by rw [h]; decide) (by rw [h]; decide)).1
  rw [this, h]
  rfl

/-- Consecutive steps add up. -/
theorem at_at {m : Mode} (p : BitVec m.P) (s : Nat) (j k : Int) : at' (at' p s j) s k = at' p s (j + k) := by
  unfold at'
  rw [add_mul, BitVec.ofInt_add, BitVec.add_assoc]

/-- **`&a[j] - &a[k]` is `j - k`.** -/
theorem diff_ok {T : Tgt} {v : Vb} {t : Ty} (hst : sizeOf T v t = (llay T.D v t).1) (hs : 0 < (llay T.D v t).1)
    (hz : (llay T.D v t).1 < 2 ^ (T.m.A - 1)) (p : BitVec T.m.P) (j k : Int)
    (hf : Fits T.m.A ((j - k) * (llay T.D v t).1)) :
    (diff T v t (at' p (llay T.D v t).1 j) (at' p (llay T.D v t).1 k)).toInt = j - k := by
  generalize (llay T.D v t).1 = s at *
  have hptr : at' p s j - at' p s k = BitVec.ofInt T.m.P ((j - k) * s) := by
    unfold at'
    rw [sub_mul, Fold.ofInt_sub]
    generalize BitVec.ofInt T.m.P (j * s) = x
    generalize BitVec.ofInt T.m.P (k * s) = y
    grind
  have hdelta : resize true T.m.A (at' p s j - at' p s k) = BitVec.ofInt T.m.A ((j - k) * s) := by
    have h1 : (at' p s j - at' p s k).toInt = (j - k) * s := by
      rw [hptr]; exact Soa.toInt_ofInt_fits (Soa.P_pos _) (Soa.fits_mono (Soa.A_le_P _) hf)
    have := Soa.resize_denotes (uns := false) T.m.A h1 (by simp)
    simpa using this
  unfold diff
  rw [hst, hdelta]
  have hb : (BitVec.ofNat T.m.A s).toInt = (s : Nat) := by
    rw [← BitVec.ofInt_natCast]; exact Soa.toInt_ofInt_fits (Soa.A_pos _) (Soa.fits_nat hz)
  have ha := Soa.toInt_ofInt_fits (Soa.A_pos _) hf
  have hd := Fold.ofInt_div true (BitVec.ofInt T.m.A ((j - k) * s)) (BitVec.ofNat T.m.A s)
  simp only [Fold.val, if_true, ha, hb] at hd
  rw [← hd, Int.mul_tdiv_cancel _ (by exact_mod_cast (ne_of_gt hs))]
  exact Soa.toInt_ofInt_fits (Soa.A_pos _) (fits_mul hs hf)

/-- **Pointer subtraction undoes pointer addition**: `(p + i) - p` is `i`, however `p + i` is computed. -/
theorem diff_plus_partial {T : Tgt} (hT : T.Good) {v : Vb} (hv : v ≠ .unbound) {t : Ty} (hp : Plain v t)
    (hs : 0 < (llay T.D v t).1) (hz : (llay T.D v t).1 < 2 ^ (T.m.A - 1)) (vp vi : Bool) (p : BitVec T.m.P)
    {ix : Ix} {k : Int} (hk : Value ix k) (hf : Fits T.m.A (k * (llay T.D v t).1)) :
    ∃ q, plus T v t vp vi p ix = some q ∧ (diff T v t q p).toInt = k := by
  have hst := sizeof_stride_partial hT hv t hp
  refine ⟨_, plus_ok hst hs vp vi p hk hf, ?_⟩
  have := diff_ok hst hs hz p k 0 (by simpa using hf)
  have h0 : at' p (llay T.D v t).1 0 = p := by simp [at']
  rwa [h0, sub_zero] at this

/-- Three elements back and forth in an array of `float<3>`. -/
example : Value ⟨32, BitVec.ofInt 32 (-3), false⟩ (-3) ∧
    (llay (x64 2 32 .p64).D .uniform (.vec .float 3 .unbound)).1 = 16 ∧ Fits 64 (-3 * (16 : Nat)) :=
  ⟨⟨by decide, by simp⟩, by decide, by decide⟩

/-! ## The program instances -/

/-- The elements of an array are laid out one behind the other (`Header.lflat`), so that the scalars of element
`k` are those of a variable of the type of the elements at `base + k * distance`. -/
theorem element_leaves (D : DL) (v : Vb) (t : Ty) (n base : Nat) (pre : List Nat) (l : Leaf) :
    l ∈ lflat D v (.arr n t) base pre ↔
      ∃ k < n, l ∈ lflat D v t (base + k * (llay D v t).1) (pre ++ [k]) := by
  rw [lflat, List.mem_flatMap]
  simp

theorem lane_ok {T : Tgt} (hT : T.Good) (k : Scal) (p : BitVec T.m.P) (l : Nat) (hl : l * T.D.size k < 2 ^ (T.m.A - 1)) :
    lane T k p l = p + BitVec.ofNat T.m.P (l * T.D.size k) := by
  have hs : scalarSize T k .uniform = T.D.size k := scalar_plain hT k .uniform (by simp)
  unfold lane
  rw [hs, ← BitVec.ofNat_mul, Nat.mul_comm]
  exact Soa.addOff_ok hl

/-- **Program instance `l` reads and writes its own scalar of element `i`** of an array of varying scalars, at
the address it has in the layout, with any index; a varying `bool` only if the elements of the mask are bytes. -/
theorem gather_address_partial {T : Tgt} (hT : T.Good) (k : Scal) (hM : k = .bool → T.M = 8) (n i l : Nat) (hi : i < n)
    (hl : l < T.D.W) (vp vi : Bool) (base : Nat) {ix : Ix} (hix : Value ix i)
    (hz : n * (T.D.W * T.D.size k) < 2 ^ (T.m.A - 1)) :
    ∃ q o, index T .varying (.atom k .unbound) vp vi (BitVec.ofNat T.m.P base) ix = some q ∧
      (⟨[i], some l, base + o, k⟩ : Leaf) ∈ lflat T.D .varying (.arr n (.atom k .unbound)) base [] ∧
      o < n * (T.D.W * T.D.size k) ∧ lane T k q l = BitVec.ofNat T.m.P (base + o) := by
  have hst : sizeOf T .varying (.atom k .unbound) = (llay T.D .varying (.atom k .unbound)).1 := by
    rw [size_iff hT (by simp)]
    cases k <;> simp_all
  have hsz : (llay T.D .varying (.atom k .unbound)).1 = T.D.W * T.D.size k := by
    rw [llay]; exact gang_scalar hT k
  obtain ⟨e, he⟩ := gang_pow hT k
  obtain ⟨e', he'⟩ := hT.size k
  have hpos : 0 < T.D.W * T.D.size k := by rw [he]; exact Nat.two_pow_pos e
  have hle : (i + 1) * (T.D.W * T.D.size k) ≤ n * (T.D.W * T.D.size k) := Nat.mul_le_mul_right _ hi
  have hle' : (l + 1) * T.D.size k ≤ T.D.W * T.D.size k := Nat.mul_le_mul_right _ hl
  have hk0 : 0 < T.D.size k := by rw [he']; exact Nat.two_pow_pos e'
  rw [Nat.add_mul, Nat.one_mul] at hle hle'
  have hf : Fits T.m.A ((i : Int) * (llay T.D .varying (.atom k .unbound)).1) := by
    rw [hsz]
    have := Soa.fits_nat (n := T.m.A) (x := i * (T.D.W * T.D.size k)) (by omega)
    rwa [Nat.cast_mul] at this
  refine ⟨_, i * (T.D.W * T.D.size k) + l * T.D.size k, index_ok hst (by rw [hsz]; exact hpos) vp vi _ hix hf, ?_, by omega, ?_⟩
  · rw [element_leaves]
    refine ⟨i, hi, ?_⟩
    rw [lflat, hsz]
    simp only [Vb.resolve, DL.scalars, List.mem_map, List.mem_range, List.nil_append]
    exact ⟨l, hl, by rw [Nat.add_assoc]⟩
  · rw [lane_ok hT k _ l (by omega), hsz]
    unfold at'
    rw [← Nat.cast_mul, BitVec.ofInt_natCast, ← BitVec.ofNat_add, ← BitVec.ofNat_add, Nat.add_assoc]

/-- Element 5 of 10 varying `double`, instance 3 of 8. -/
example : Value ⟨32, 5#32, false⟩ 5 ∧ 10 * ((x64 2 32 .force32).D.W * (x64 2 32 .force32).D.size .double) <
    2 ^ ((x64 2 32 .force32).m.A - 1) := ⟨⟨by decide, by simp⟩, by decide⟩

/-- An element of known number, through a uniform or a varying pointer. -/
theorem component_partial {T : Tgt} (hT : T.Good) {v : Vb} (hv : v ≠ .unbound) {t : Ty} (hp : Plain v t) (vp : Bool)
    (j : Nat) (p : BitVec T.m.P) (hz : j * (llay T.D v t).1 < 2 ^ (T.m.A - 1)) :
    component T v t vp j p = at' p (llay T.D v t).1 j := by
  unfold component
  rw [sizeof_stride_partial hT hv t hp]
  have h : at' p (llay T.D v t).1 j = p + BitVec.ofNat T.m.P (j * (llay T.D v t).1) := by
    unfold at'; rw [← Nat.cast_mul, BitVec.ofInt_natCast]
  split
  · rw [Soa.addOff_ok hz, h]
  · rw [h]

example : component (x64 2 32 .p64) .uniform (.atom .bool .unbound) true 3 100#64 = 103#64 := rfl

/-! ## Where it goes wrong -/

/-- **A varying index into an array of `bool` reaches beyond the array.**  If the elements of the mask are wider
than a byte, as on all targets with SSE or AVX2, the last element of `bool a[n]` is read and written outside of it. -/
theorem bool_index_wrong {T : Tgt} (hT : T.Good) (hM : 16 ≤ T.M) (n : Nat) (hn : 2 ≤ n) (vp : Bool)
    (p : BitVec T.m.P) {ix : Ix} (hix : Value ix ((n - 1 : Nat) : Int))
    (hz : n * (T.D.W * 8) < 2 ^ (T.m.A - 1)) :
    ∃ o, index T .varying (.atom .bool .unbound) vp true p ix = some (p + BitVec.ofNat T.m.P o) ∧
      sizeOf T .varying (.arr n (.atom .bool .unbound)) ≤ o ∧ o < 2 ^ T.m.P := by
  have hsz : (llay T.D .varying (.atom .bool .unbound)).1 = T.D.W := by
    rw [llay]; show (T.D.scalar .bool .varying).1 = _
    rw [gang_scalar hT, hT.bool, Nat.mul_one]
  have hso : sizeOf T .varying (.atom .bool .unbound) = bytes (T.D.W * T.M) := by
    simp [sizeOf, Vb.resolve, scalarSize]
  have hb : 2 * T.D.W ≤ bytes (T.D.W * T.M) ∧ bytes (T.D.W * T.M) ≤ T.D.W * 8 := by
    unfold bytes
    rcases hT.mask with h | h | h | h | h <;> rw [h] at hM ⊢ <;> omega
  have hW : 0 < T.D.W := by obtain ⟨w, hw⟩ := hT.gang; rw [hw]; exact Nat.two_pow_pos _
  obtain ⟨m, rfl⟩ : ∃ m, n = m + 2 := ⟨n - 2, by omega⟩
  have h1 : (m + 1) * (2 * T.D.W) ≤ (m + 1) * bytes (T.D.W * T.M) := Nat.mul_le_mul_left _ hb.1
  have h2 : (m + 2) * bytes (T.D.W * T.M) ≤ (m + 2) * (T.D.W * 8) := Nat.mul_le_mul_left _ hb.2
  have h3 : (m + 1) * bytes (T.D.W * T.M) ≤ (m + 2) * bytes (T.D.W * T.M) := Nat.mul_le_mul_right _ (by omega)
  have h4 : (m + 2) * T.D.W ≤ (m + 1) * (2 * T.D.W) := by ring_nf; nlinarith
  have hPA : 2 ^ (T.m.A - 1) ≤ 2 ^ T.m.P :=
    Nat.pow_le_pow_right (by norm_num) (by have := Soa.A_le_P T.m; omega)
  have hf : Fits T.m.A (((m + 2 - 1 : Nat) : Int) * bytes (T.D.W * T.M)) := by
    have := Soa.fits_nat (n := T.m.A) (x := (m + 1) * bytes (T.D.W * T.M)) (by omega)
    rwa [Nat.cast_mul] at this
  refine ⟨(m + 1) * bytes (T.D.W * T.M), ?_, ?_, by omega⟩
  · have hfk := fits_mul (by omega) hf
    have hval : Fold.val (!(toIndex T.m true ix).uns) (toIndex T.m true ix).v = ((m + 2 - 1 : Nat) : Int) := by
      have hti : toIndex T.m true ix = if ix.n = 64 ∧ T.m = .p64 then ix else Ix.conv 32 ix := rfl
      rw [hti]
      by_cases hc : ix.n = 64 ∧ T.m = .p64
      · rw [if_pos hc]; exact hix.1
      · rw [if_neg hc]
        refine conv_val hix.1 32 (by norm_num) ?_
        by_cases h64 : ix.n = 64
        · right
          cases hm : T.m <;> simp_all [Mode.A]
        · left; rcases hix.2 with h | h | h | h <;> omega
    unfold index element
    rw [if_pos (by simp), hso, gep_val (by omega) hval hf]
    unfold at'
    rw [← Nat.cast_mul, BitVec.ofInt_natCast]
    rfl
  · simp only [sizeOf]
    rw [llay, hsz]
    show (m + 2) * T.D.W ≤ _
    omega

/-- `bool a[4]` on a gang of 8 with 32-bit masks: 32 bytes, and `a[i]` with a varying `i` of 3 is 96 bytes behind
the start, with a uniform one 24. -/
example (p : BitVec 64) :
    index (x64 2 32 .force32) .varying (.atom .bool .unbound) false true p ⟨32, 3#32, false⟩ = some (p + 96#64) ∧
    index (x64 2 32 .force32) .varying (.atom .bool .unbound) false false p ⟨32, 3#32, false⟩ = some (p + 24#64) ∧
    sizeOf (x64 2 32 .force32) .varying (.arr 4 (.atom .bool .unbound)) = 32 :=
  ⟨rfl, rfl, by decide⟩

/-- **On targets with one bit for each element of the mask, the elements of an array of `bool` overlap** when
they are addressed with a varying index: element 1 begins inside element 0. -/
theorem bool_overlap_wrong {T : Tgt} (hT : T.Good) (hM : T.M = 1) (hc : T.D.W < 2 ^ (T.m.A - 1)) (vp : Bool)
    (p : BitVec T.m.P) : ∃ o, index T .varying (.atom .bool .unbound) vp true p ⟨32, 1#32, false⟩ = some (p + BitVec.ofNat T.m.P o) ∧
      o < (llay T.D .varying (.atom .bool .unbound)).1 := by
  have hsz : (llay T.D .varying (.atom .bool .unbound)).1 = T.D.W := by
    rw [llay]; show (T.D.scalar .bool .varying).1 = _
    rw [gang_scalar hT, hT.bool, Nat.mul_one]
  have hso : sizeOf T .varying (.atom .bool .unbound) = bytes (T.D.W * T.M) := by
    simp [sizeOf, Vb.resolve, scalarSize]
  have hW : 2 ≤ T.D.W := by
    obtain ⟨w, hw⟩ := hT.gang; rw [hw, Nat.pow_succ]; have := Nat.two_pow_pos w; omega
  have hb : 0 < bytes (T.D.W * T.M) ∧ bytes (T.D.W * T.M) < T.D.W := by
    unfold bytes; rw [hM]; omega
  refine ⟨bytes (T.D.W * T.M), ?_, by omega⟩
  have hf : Fits T.m.A ((1 : Int) * bytes (T.D.W * T.M)) := by
    rw [one_mul]; exact Soa.fits_nat (by omega)
  have hval : Fold.val (!(toIndex T.m true ⟨32, 1#32, false⟩).uns) (toIndex T.m true ⟨32, 1#32, false⟩).v = 1 := by
    unfold toIndex; cases T.m <;> decide
  unfold index element
  rw [if_pos (by simp), hso, gep_val hb.1 hval hf]
  unfold at'
  rw [one_mul, BitVec.ofInt_natCast]

example : (x64 2 1 .force32).Good ∧ (x64 2 1 .force32).D.W < 2 ^ ((x64 2 1 .force32).m.A - 1) :=
  ⟨x64_good _ _ _ (by simp), by decide⟩

/-- **The number of elements between two elements of a `bool` array is wrong**, and depends on the target: `&a[4] - &a[0]`
is 1 with 32-bit masks and 32 with masks of bits, on a gang of 8. -/
theorem bool_diff_wrong (p : BitVec 64) :
    diff (x64 2 32 .force32) .varying (.atom .bool .unbound) (at' (m := .force32) p 8 4) p = 1#32 ∧
    diff (x64 2 1 .force32) .varying (.atom .bool .unbound) (at' (m := .force32) p 8 4) p = 32#32 ∧
    diff (x64 2 8 .force32) .varying (.atom .bool .unbound) (at' (m := .force32) p 8 4) p = 4#32 := by
  have h : (p + 32#64 - p : BitVec 64) = 32#64 := by grind
  refine ⟨?_, ?_, ?_⟩
  · show (resize true 32 (p + 32#64 - p)).sdiv 32#32 = 1#32
    rw [h]; decide
  · show (resize true 32 (p + 32#64 - p)).sdiv 1#32 = 32#32
    rw [h]; decide
  · show (resize true 32 (p + 32#64 - p)).sdiv 8#32 = 4#32
    rw [h]; decide

/-- **`sizeof(bool[n])` is not `n * sizeof(bool)`**, unless the elements of the mask are bytes. -/
theorem sizeof_bool_iff {T : Tgt} (hT : T.Good) (n : Nat) (hn : 0 < n) :
    sizeOf T .varying (.arr n (.atom .bool .unbound)) = n * sizeOf T .varying (.atom .bool .unbound) ↔ T.M = 8 := by
  have h := size_iff hT (v := .varying) (by simp) (.atom .bool .unbound)
  simp only [Vb.resolve, forall_const] at h
  rw [← h]
  simp only [sizeOf]
  rw [llay]
  show n * _ = n * _ ↔ _
  rw [Nat.mul_right_inj (by omega)]
  exact eq_comm

/-- **`sizeof(uniform bool<n>)` is less than the elements of an array of them are apart**, on every target. -/
theorem short_bool_wrong {T : Tgt} (hT : T.Good) (n : Nat) :
    sizeOf T .uniform (.vec .bool n .unbound) < (llay T.D .uniform (.vec .bool n .unbound)).1 := by
  rw [llay]
  obtain ⟨e, he⟩ := short_pow hT .bool n
  simp only [sizeOf, Vb.resolve, vectorSize, if_true, DL.short]
  rw [he, vector_pow hT, ← he, hT.bool]
  have := vecMem_two hT n
  unfold bytes
  omega

/-- `bool<4>`: one byte, in an array four. -/
example : sizeOf (x64 2 32 .force32) .uniform (.vec .bool 4 .unbound) = 1 ∧
    (llay (x64 2 32 .force32).D .uniform (.vec .bool 4 .unbound)).1 = 4 := by decide

end Ispc.Stride
