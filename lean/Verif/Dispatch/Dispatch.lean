import Verif.Dispatch.Isa
import Verif.Front.Targets

/-!
# C22: the dispatcher of exported functions

When a file is compiled for several targets, each exported function gets a dispatch function that calls one of the
compiled variants (`src/module.cpp`), using the system detection of `builtins/dispatch.c` and `src/isa.h`.
-/

namespace Ispc.Dispatch

open Detect Targets

/-! ### Specification -/

/-- The features of the instruction sets below a level that code compiled for the level may use (the processors the
    targets are compiled for, src/ispc.cpp:461-494). -/
def below : Isa → List Feature
  | .invalid | .sse2 => []
  | .sse41 => [.sse2]
  | .sse42 => [.sse2, .sse41]
  | .avx | .avx11 | .avx2 | .avx2vnni => [.sse2, .sse41, .sse42]
  | _ => [.sse2, .sse41, .sse42, .avx, .f16c, .rdrand]

/-- Everything code compiled for the level may use. -/
def needs (i : Isa) : List Feature := below i ++ i.features

/-- The levels whose code may use tiles. -/
def usesTiles : Isa → Prop
  | .spr | .gnr | .dmr => True
  | _ => False

/-- The state that has to be saved for the code: for AVX-512 code on macOS only that of AVX is counted, see `Isa.state`. -/
def stateFor (mac : Bool) (i : Isa) : BitVec 32 := if 3 ≤ i.num then (if mac then 6 else i.state false) else 0

/-- The machine can run code compiled for the level. -/
def CanRun (mac : Bool) (c : Cpu) (i : Isa) : Prop :=
  (∀ f ∈ needs i, Reports c f) ∧ Saves c (stateFor mac i) ∧ (usesTiles i → HasAmx c)

/-- Features that come with others in every processor. -/
structure Arch (c : Cpu) : Prop where
  sse41 : Reports c .sse41 → Reports c .sse2
  sse42 : Reports c .sse42 → Reports c .sse41
  avx : Reports c .avx → Reports c .sse42
  avx2 : Reports c .avx2 → Reports c .avx ∧ Reports c .f16c ∧ Reports c .rdrand
  avxVnni : Reports c .avxVnni → Reports c .avx2

/-! ### Model -/

/-- `Target::TargetToISA` for the x86 targets (src/ispc.cpp:3019-3087). -/
def targetISA : Target → Option Isa
  | .sse2_i32x4 | .sse2_i32x8 => some .sse2
  | .sse4_i8x16 | .sse4_i16x8 | .sse4_i32x4 | .sse4_i32x8 => some .sse42
  | .sse41_i8x16 | .sse41_i16x8 | .sse41_i32x4 | .sse41_i32x8 => some .sse41
  | .avx1_i32x4 | .avx1_i32x8 | .avx1_i32x16 | .avx1_i64x4 => some .avx
  | .avx2_i8x32 | .avx2_i16x16 | .avx2_i32x4 | .avx2_i32x8 | .avx2_i32x16 | .avx2_i64x4 => some .avx2
  | .avx2vnni_i32x4 | .avx2vnni_i32x8 | .avx2vnni_i32x16 => some .avx2vnni
  | .avx512skx_x4 | .avx512skx_x8 | .avx512skx_x16 
    | .avx512skx_x16_nozmm | .avx512skx_x32 | .avx512skx_x64 => some .skx
  | .avx512icl_x4 | .avx512icl_x8 | .avx512icl_x16 
    | .avx512icl_x16_nozmm | .avx512icl_x32 | .avx512icl_x64 => some .icl
  | .avx512spr_x4 | .avx512spr_x8 | .avx512spr_x16 | .avx512spr_x32 | .avx512spr_x64 => some .spr
  | .avx512gnr_x4 | .avx512gnr_x8 | .avx512gnr_x16 | .avx512gnr_x32 | .avx512gnr_x64 => some .gnr
  | .avx10_2dmr_x4 | .avx10_2dmr_x8 | .avx10_2dmr_x16 | .avx10_2dmr_x32 | .avx10_2dmr_x64 => some .dmr
  | .avx10_2nvl_x4 | .avx10_2nvl_x8 | .avx10_2nvl_x16 | .avx10_2nvl_x32 | .avx10_2nvl_x64 => some .nvl
  | _ => none

/-- The array `func` of an exported function: which levels it is compiled for (src/module.cpp:1906-1934). -/
def compiled (ts : List Target) (i : Isa) : Bool := ts.any (fun t => targetISA t == some i)

/-- `lISARequiresAMX` (src/module.cpp:1986-1988). -/
def requiresAMX (i : Isa) : Bool := i == .spr || i == .gnr || i == .dmr

/-- `lEmitISACompatibilityTest` (src/module.cpp:2001-2013). -/
def compatible (candidate : Isa) (systemISA : Int) (systemHasAMX : Bool) : Bool :=
  let ok := decide (systemISA ≥ candidate.num)
  if requiresAMX candidate then ok && systemHasAMX else ok

/-- The levels in the order in which the dispatcher tries them, by falling number (src/module.cpp:2141). -/
def walk : List Isa :=
  [.dmr, .nvl, .gnr, .spr, .icl, .skx, .knl, .avx2vnni, .avx2, .avx11, .avx, .sse42, .sse41, .sse2]

/-- The code emitted by the loop of `lCreateDispatchFunction` (src/module.cpp:2135-2184): the variant called, or `none`
    if the end with the call of `__terminate_now` is reached. -/
def choose (has : Isa → Bool) (systemISA : Int) (systemHasAMX : Bool) : Option Isa :=
  walk.find? (fun i => has i && compatible i systemISA systemHasAMX)

/-- `__get_system_isa` (builtins/dispatch.c:52-65); `none` is the call of `__terminate_now`. -/
def getSystemIsa (mac : Bool) (c : Cpu) : Option Int :=
  let isa := getX86Isa mac c
  if isa = .invalid ∨ isa = .knl then none
  else if isa = .avx11 then some Isa.avx.num
  else some isa.num

/-- What a first call of the dispatch function does: the variant called, or `none` for the termination of the
    program. -/
def dispatch (mac : Bool) (c : Cpu) (has : Isa → Bool) : Option Isa :=
  (getSystemIsa mac c).bind fun s => choose has s (getX86HasAmx mac c)

/-! ### The walk -/

theorem walk_sorted : walk.Pairwise (fun a b => b.num < a.num) := by decide

theorem mem_walk {i : Isa} (h : i ≠ .invalid) : i ∈ walk := by
  cases i <;> first | exact absurd rfl h | decide

theorem choose_some {has : Isa → Bool} {s : Int} {a : Bool} {i : Isa} (h : choose has s a = some i) :
    has i = true ∧ compatible i s a = true ∧
      ∀ j, j ≠ .invalid → has j = true → compatible j s a = true → j.num ≤ i.num := by
  have h1 := List.find?_some h
  rw [Bool.and_eq_true] at h1
  refine ⟨h1.1, h1.2, fun j hj hb hc => ?_⟩
  obtain ⟨_, l1, l2, hl, hno⟩ := List.find?_eq_some_iff_append.1 h
  have hs := walk_sorted
  have hm := mem_walk hj
  rw [hl] at hs hm
  rcases List.mem_append.1 hm with hm | hm
  · have := hno j hm; simp [hb, hc] at this
  · rcases List.mem_cons.1 hm with rfl | hm
    · exact Int.le_refl _
    · rw [List.pairwise_append, List.pairwise_cons] at hs
      exact Int.le_of_lt (hs.2.1.1 j hm)

theorem choose_none {has : Isa → Bool} {s : Int} {a : Bool} (h : choose has s a = none) (j : Isa)
    (hj : j ≠ .invalid) (hb : has j = true) : compatible j s a = false := by
  have := List.find?_eq_none.1 h j (mem_walk hj)
  simpa [hb] using this

theorem compiled_isa {ts : List Target} {i : Isa} (h : compiled ts i = true) :
    i ≠ .invalid ∧ i ≠ .knl ∧ i ≠ .avx11 := by
  simp only [compiled, List.any_eq_true, beq_iff_eq] at h
  obtain ⟨t, _, ht⟩ := h
  refine ⟨?_, ?_, ?_⟩ <;> (rintro rfl; revert ht; cases t <;> simp [targetISA])

/-! ### Every variant called can be run -/

/-- A level's needs include those of the levels below it, but for AVX2-VNNI, and for the tile levels below Nova Lake. -/
theorem needs_sub : ∀ L ∈ order, ∀ i ∈ order, i.num ≤ L.num → i ≠ .avx2vnni → i ≠ .knl →
    (L = .nvl → i ≠ .spr ∧ i ≠ .gnr) → (L = .knl → False) → ∀ f ∈ needs i, f ∈ needs L := by
  decide +kernel

theorem needs_vnni : ∀ f ∈ needs .avx2vnni, f ∈ needs .avx2 ∨ f = .avxVnni := by decide

theorem mem_order (i : Isa) : i ∈ order := by cases i <;> decide

/-- What comes with the features of a level is there too. -/
theorem has_needs {mac : Bool} {c : Cpu} (ha : Arch c) {L : Isa} (h : Has mac c L) : ∀ f ∈ needs L, Reports c f := by
  intro f hf
  rcases List.mem_append.1 hf with hf | hf
  · have hav : ∀ i ∈ order, 4 ≤ i.num → Feature.avx ∈ i.features ∨ Feature.avx2 ∈ i.features := by decide
    have hs : Reports c .avx → Reports c .sse42 ∧ Reports c .sse41 ∧ Reports c .sse2 := fun h =>
      ⟨ha.avx h, ha.sse42 (ha.avx h), ha.sse41 (ha.sse42 (ha.avx h))⟩
    have h512 : ∀ i ∈ order, 7 ≤ i.num → Feature.avx2 ∈ i.features := by decide
    by_cases h3 : 3 ≤ L.num
    · by_cases h7 : 7 ≤ L.num
      · have h2 := ha.avx2 (h.1 _ (h512 L (mem_order L) h7))
        have h1 := hs h2.1
        revert hf
        cases L <;> simp [below, Isa.num] at h3 h7 ⊢ <;> (rintro (rfl | rfl | rfl | rfl | rfl | rfl) <;> tauto)
      · have h1 : Reports c .avx := by
          apply h.1
          revert h3 h7
          cases L <;> decide
        have h1 := hs h1
        revert hf
        cases L <;> simp [below, Isa.num] at h3 h7 ⊢ <;> (rintro (rfl | rfl | rfl) <;> tauto)
    · revert hf
      cases L <;> simp [below, Isa.num] at h3 ⊢
      · rintro rfl; exact ha.sse41 (h.1 _ (by decide))
      · rintro (rfl | rfl)
        · exact ha.sse41 (ha.sse42 (h.1 _ (by decide)))
        · exact ha.sse42 (h.1 _ (by decide))
  · exact h.1 f hf

theorem saves_mono {c : Cpu} {m m' : BitVec 32} (h : Saves c m') (hs : ∀ i < 32, m.getLsbD i → m'.getLsbD i) :
    Saves c m := by
  intro i hi
  have : i < 32 := by
    by_contra hc
    rw [BitVec.getLsbD_of_ge _ _ (by omega)] at hi
    exact absurd hi (by decide)
  exact h i (hs i this hi)

theorem system_isa {mac : Bool} {c : Cpu} {s : Int} (h : getSystemIsa mac c = some s) :
    getX86Isa mac c ≠ .invalid ∧ getX86Isa mac c ≠ .knl ∧ s ≤ (getX86Isa mac c).num ∧
      (getX86Isa mac c ≠ .avx11 → s = (getX86Isa mac c).num) ∧ (getX86Isa mac c = .avx11 → s = 3) := by
  unfold getSystemIsa at h
  simp only at h
  split_ifs at h with h1 h2
  · cases h
    simp only [h2]
    exact ⟨by decide, by decide, by decide, fun h => absurd rfl h, fun _ => rfl⟩
  · cases h
    simp only [not_or] at h1
    exact ⟨h1.1, h1.2, Int.le_refl _, fun _ => rfl, fun h => absurd h h2⟩

theorem compatible_iff {i : Isa} {s : Int} {a : Bool} :
    compatible i s a = true ↔ i.num ≤ s ∧ (usesTiles i → a = true) := by
  cases i <;> simp [compatible, requiresAMX, usesTiles]

/-- **C22.** The variant called can be run by the machine: for every list of targets and every machine that exists and
    is of x86 architecture, provided that the AVX2-VNNI variant is only called on machines with AVX-VNNI, and that a
    machine of the Nova Lake level with tiles has the features of Granite Rapids. Both provisos are needed, see
    `vnni_variant_on_skylake` and `nova_lake_with_tiles`. -/
theorem called_can_run_partial {mac : Bool} {c : Cpu} (hc : Real c) (ha : Arch c) (hmac : mac = true → Saves c 6)
    {ts : List Target} {i : Isa} (h : dispatch mac c (compiled ts) = some i)
    (hvnni : i = .avx2vnni → Reports c .avxVnni)
    (hnvl : Has mac c .nvl → HasAmx c → Has mac c .gnr) :
    compiled ts i = true ∧ CanRun mac c i := by
  obtain ⟨s, hs, hch⟩ := Option.bind_eq_some_iff.1 h
  obtain ⟨hcomp, hcompat, -⟩ := choose_some hch
  obtain ⟨hn1, hn2, hle, -, -⟩ := system_isa hs
  obtain ⟨hi1, hi2, hi3⟩ := compiled_isa hcomp
  rw [compatible_iff] at hcompat
  have hL : Has mac c (getX86Isa mac c) := detected_has hc ha.avxVnni (fun h => (ha.avx2 h).2)
  have hilt : i.num ≤ (getX86Isa mac c).num := Int.le_trans hcompat.1 hle
  have hm := mac_or mac c
  have hamx : usesTiles i → HasAmx c := by
    intro hu
    have := hcompat.2 hu
    cases mac
    · exact (amx_iff hc).1 this
    · simp [getX86HasAmx] at this
  revert hL hilt hn1 hn2 hm
  generalize getX86Isa mac c = L
  intro hn1 hn2 hL hilt hm
  refine ⟨hcomp, ?_, ?_, hamx⟩
  · -- features
    by_cases hv : i = .avx2vnni
    · subst hv
      intro f hf
      rcases needs_vnni f hf with hf | rfl
      · exact has_needs ha hL f (needs_sub L (mem_order L) .avx2 (mem_order _) (by
          have : (Isa.avx2).num ≤ Isa.avx2vnni.num := by decide
          exact Int.le_trans this hilt) (by decide) (by decide) (fun _ => ⟨by decide, by decide⟩) hn2 f hf)
      · exact hvnni rfl
    · by_cases ht : L = .nvl ∧ (i = .spr ∨ i = .gnr)
      · obtain ⟨rfl, ht⟩ := ht
        have hg := hnvl hL (hamx (by rcases ht with rfl | rfl <;> trivial))
        exact fun f hf => has_needs ha hg f (needs_sub .gnr (mem_order _) i (mem_order i)
          (by rcases ht with rfl | rfl <;> decide) hv hi2 (fun h => by cases h) (fun h => by cases h) f hf)
      · exact fun f hf => has_needs ha hL f (needs_sub L (mem_order L) i (mem_order i) hilt hv hi2
          (fun h => by
            subst h
            exact ⟨fun e => ht ⟨rfl, .inl e⟩, fun e => ht ⟨rfl, .inr e⟩⟩) hn2 f hf)
  · -- state
    unfold stateFor
    split_ifs with h3 h4
    · exact hmac h4
    · simp only [Bool.not_eq_true] at h4
      subst h4
      refine saves_mono hL.2 ?_
      revert h3 hilt hi1
      cases L <;> cases i <;> simp [Isa.num, Isa.state] <;> decide +revert
    · exact saves_zero c

theorem canRun_has {mac : Bool} {c : Cpu} {j : Isa} (hr : CanRun mac c j) (hm : mac = false ∨ j.num ≤ 8) :
    Has mac c j := by
  refine ⟨fun f hf => hr.1 f (List.mem_append.2 (.inr hf)), ?_⟩
  have h := hr.2.1
  refine saves_mono h ?_
  unfold stateFor
  cases mac <;> cases j <;> simp [Isa.num, Isa.state]

theorem runnable_compatible {mac : Bool} {c : Cpu} (hc : Real c) {s : Int} (hs : getSystemIsa mac c = some s)
    {ts : List Target} {j : Isa} (hj : compiled ts j = true) (hr : CanRun mac c j) (hm : mac = false ∨ j.num ≤ 8) :
    compatible j s (getX86HasAmx mac c) = true := by
  obtain ⟨hj1, hj2, hj3⟩ := compiled_isa hj
  have hb := detected_best hc (canRun_has hr hm) hm
  obtain ⟨-, -, -, h1, h2⟩ := system_isa hs
  rw [compatible_iff]
  constructor
  · by_cases h11 : getX86Isa mac c = .avx11
    · rw [h2 h11]
      rw [h11] at hb
      revert hb hj3
      cases j <;> simp [Isa.num]
    · rw [h1 h11]; exact hb
  · intro hu
    have ha := hr.2.2 hu
    rcases hm with rfl | hm
    · exact (amx_iff hc).2 ha
    · exfalso
      revert hu hm
      cases j <;> simp [usesTiles, Isa.num]

/-- **C22.** No better variant could have been called: if the machine can run another variant, its level is not above
    that of the variant called (on macOS among the levels up to Skylake's). -/
theorem called_is_best {mac : Bool} {c : Cpu} (hc : Real c) {ts : List Target} {i : Isa}
    (h : dispatch mac c (compiled ts) = some i) {j : Isa} (hj : compiled ts j = true) (hr : CanRun mac c j)
    (hm : mac = false ∨ j.num ≤ 8) : j.num ≤ i.num := by
  obtain ⟨s, hs, hch⟩ := Option.bind_eq_some_iff.1 h
  obtain ⟨-, -, hbest⟩ := choose_some hch
  exact hbest j (compiled_isa hj).1 hj (runnable_compatible hc hs hj hr hm)

/-- **C22.** The program is terminated only if the machine cannot run any variant, unless it is of the Knights Landing
    level (see `knights_landing_terminates`). -/
theorem terminated_partial {mac : Bool} {c : Cpu} (hc : Real c) (hk : getX86Isa mac c ≠ .knl) {ts : List Target}
    (h : dispatch mac c (compiled ts) = none) {j : Isa} (hj : compiled ts j = true) (hm : mac = false ∨ j.num ≤ 8) :
    ¬ CanRun mac c j := by
  intro hr
  unfold dispatch at h
  rcases hs : getSystemIsa mac c with _ | s
  · unfold getSystemIsa at hs
    simp only at hs
    split_ifs at hs with h1
    rcases h1 with h1 | h1
    · have := detected_best hc (canRun_has hr hm) hm
      rw [h1] at this
      have hj1 := (compiled_isa hj).1
      revert this hj1
      cases j <;> simp [Isa.num]
    · exact hk h1
  · rw [hs] at h
    have := choose_none h j (compiled_isa hj).1 hj
    rw [runnable_compatible hc hs hj hr hm] at this
    simp at this

/-! ### Machines -/

/-- An example on which all hypotheses hold: a Skylake server and code compiled for SSE4, AVX2 and AVX-512. -/
example : Arch (machine skylakeX 0xE7) := by constructor <;> decide +kernel
example : dispatch false (machine skylakeX 0xE7) (compiled [.sse4_i32x4, .avx2_i32x8, .avx512skx_x16]) = some .skx := by
  decide +kernel
/-- A Haswell machine gets the AVX2 variant; a Sandy Bridge machine SSE4; one with SSE2 only is refused. -/
example : dispatch false (machine haswell 7) (compiled [.sse4_i32x4, .avx2_i32x8, .avx512skx_x16]) = some .avx2 := by
  decide +kernel
example : dispatch false (machine sandyBridge 7) (compiled [.sse4_i32x4, .avx2_i32x8, .avx512skx_x16]) = some .sse42 := by
  decide +kernel
example : dispatch false (machine [.sse2] 7) (compiled [.sse4_i32x4, .avx2_i32x8, .avx512skx_x16]) = none := by
  decide +kernel
/-- Nova Lake, without tiles, is not given the Sapphire Rapids variant. -/
example : dispatch false (machine (haswell ++ Isa.features .nvl ++ [.avx10, .avxVnni]) 0xE7)
    (compiled [.avx2_i32x8, .avx512skx_x16, .avx512spr_x16]) = some .skx := by
  decide +kernel

theorem not_canRun {mac : Bool} {c : Cpu} {i : Isa} (f : Feature) (hf : f ∈ needs i) (h : ¬ Reports c f) :
    ¬ CanRun mac c i := fun hr => h (hr.1 f hf)

/-- **C22, refuted.** On a Skylake server, code compiled for SSE4 and AVX2-VNNI has its AVX2-VNNI variant called,
    although the machine has no AVX-VNNI, and although it could run the SSE4 variant. -/
theorem vnni_variant_on_skylake :
    let c := machine skylakeX 0xE7
    let has := compiled [.sse4_i32x4, .avx2vnni_i32x8]
    Real c ∧ Arch c ∧ dispatch false c has = some .avx2vnni ∧ ¬ CanRun false c .avx2vnni ∧ CanRun false c .sse42 := by
  refine ⟨machine_real _ _, by constructor <;> decide +kernel, by decide +kernel,
    not_canRun .avxVnni (by decide) (by decide +kernel), by decide +kernel, ?_, fun h => h.elim⟩
  exact saves_zero _

/-- **C22, refuted.** On a machine of the Nova Lake level that has tiles, but not their half-precision operations, the
    Granite Rapids variant is called. -/
theorem nova_lake_with_tiles :
    let c := machine (haswell ++ Isa.features .nvl ++ [.avx10, .avxVnni, .amxTile, .amxInt8, .amxBf16]) 0x600E7
    let has := compiled [.avx2_i32x8, .avx512gnr_x16]
    Real c ∧ Arch c ∧ dispatch false c has = some .gnr ∧ ¬ CanRun false c .gnr := by
  refine ⟨machine_real _ _, by constructor <;> decide +kernel, by decide +kernel,
    not_canRun .amxFp16 (by decide) (by decide +kernel)⟩

/-- **C22, refuted.** On a Knights Landing machine the program is terminated even if there is a variant the machine can
    run. -/
theorem knights_landing_terminates :
    let c := machine (haswell ++ Isa.features .knl) 0xE7
    let has := compiled [.sse4_i32x4, .avx2_i32x8]
    Real c ∧ Arch c ∧ dispatch false c has = none ∧ CanRun false c .sse42 := by
  refine ⟨machine_real _ _, by constructor <;> decide +kernel, by decide +kernel, by decide +kernel, ?_, fun h => h.elim⟩
  exact saves_zero _

/-! ### Concurrent calls

The chosen variant is kept in a global variable per exported function, read and written without synchronisation, and
the detected level in another one. -/

variable {F : Type} [DecidableEq F]

/-- Where a thread is in the dispatch function (src/module.cpp:2087-2184, builtins/dispatch.c:67-76). -/
inductive Pc (F : Type) where
  | idle
  /-- before the first load of the function pointer -/
  | entry (f : F)
  /-- block `skip_init`: before the second load and the call -/
  | call (f : F)
  /-- block `do_init`: before the load of `__system_best_isa` -/
  | best (f : F)
  /-- the load gave -1: before `__get_system_isa` -/
  | detect (f : F)
  /-- before the store of the level to `__system_best_isa` -/
  | keep (f : F) (s : Int)
  /-- before the tests of the variants -/
  | test (f : F) (s : Int)
  /-- before the store of the pointer to variant `i` -/
  | fill (f : F) (i : Isa)
  /-- the program has been terminated by `__terminate_now` in the dispatch function of `f` -/
  | trapped (f : F)
  /-- the program has called the null pointer -/
  | crashed
deriving DecidableEq

/-- `level`: `__system_best_isa`; `cache f`: `__system_func_ptr_cache_f`, `none` for null; `log`: the variants called so
    far. -/
structure St (F : Type) where
  level : Int
  cache : F → Option Isa
  pc : Nat → Pc F
  log : List (F × Isa)

/-- Nothing has been called. -/
def start : St F := ⟨-1, fun _ => none, fun _ => .idle, []⟩

def upd {α β : Type} [DecidableEq α] (g : α → β) (a : α) (v : β) : α → β := fun x => if x = a then v else g x

@[simp, grind =] theorem upd_apply {α β : Type} [DecidableEq α] (g : α → β) (a : α) (v : β) (x : α) :
    upd g a v x = if x = a then v else g x := rfl

/-- One step of thread `t`.  `f` is the function an idle thread calls next; `v` is what a load of a function pointer
    yields (see `Step`). -/
def act (mac : Bool) (c : Cpu) (has : F → Isa → Bool) (t : Nat) (f : F) (v : Option Isa) (s : St F) : St F :=
  match s.pc t with
  | .idle => { s with pc := upd s.pc t (.entry f) }
  | .entry g => { s with pc := upd s.pc t (if v.isSome then .call g else .best g) }
  | .call g =>
    match v with
    | some i => { s with pc := upd s.pc t .idle, log := (g, i) :: s.log }
    | none => { s with pc := upd s.pc t .crashed }
  | .best g => { s with pc := upd s.pc t (if s.level = -1 then .detect g else .test g s.level) }
  | .detect g =>
    match getSystemIsa mac c with
    | some l => { s with pc := upd s.pc t (.keep g l) }
    | none => { s with pc := upd s.pc t (.trapped g) }
  | .keep g l => { s with level := l, pc := upd s.pc t (.test g l) }
  | .test g l =>
    match choose (has g) l (getX86HasAmx mac c) with
    | some i => { s with pc := upd s.pc t (.fill g i) }
    | none => { s with pc := upd s.pc t (.trapped g) }
  | .fill g i => { s with cache := upd s.cache g (some i), pc := upd s.pc t (.call g) }
  | .trapped _ => s
  | .crashed => s

/-- The location a load of thread `t` would read. -/
def loads (s : St F) (t : Nat) : Option F :=
  match s.pc t with
  | .entry g => some g
  | .call g => some g
  | _ => none

/-- With coherent memory a load yields the last value stored. -/
def Coherent (s : St F) (t : Nat) (v : Option Isa) : Prop := ∀ g, loads s t = some g → v = s.cache g

/-- LLVM's `unordered` loads, which are those used, may also yield an earlier value; the only one is the initial null
    pointer, since all stores to a location store the same pointer. -/
def Unordered (s : St F) (t : Nat) (v : Option Isa) : Prop := ∀ g, loads s t = some g → v = s.cache g ∨ v = none

/-- Executions of any number of threads under a memory model. -/
inductive Reach (mem : St F → Nat → Option Isa → Prop) (mac : Bool) (c : Cpu) (has : F → Isa → Bool) : St F → Prop where
  | start : Reach mem mac c has start
  | step {s t f v} : Reach mem mac c has s → mem s t v → Reach mem mac c has (act mac c has t f v s)

/-- What is always true. -/
structure Inv (mac : Bool) (c : Cpu) (has : F → Isa → Bool) (s : St F) : Prop where
  level : s.level = -1 ∨ getSystemIsa mac c = some s.level
  cache : ∀ g i, s.cache g = some i → dispatch mac c (has g) = some i
  keep : ∀ t g l, s.pc t = .keep g l → getSystemIsa mac c = some l
  test : ∀ t g l, s.pc t = .test g l → getSystemIsa mac c = some l
  fill : ∀ t g i, s.pc t = .fill g i → dispatch mac c (has g) = some i
  log : ∀ g i, (g, i) ∈ s.log → dispatch mac c (has g) = some i
  trapped : ∀ t g, s.pc t = .trapped g → dispatch mac c (has g) = none

theorem dispatch_eq {mac : Bool} {c : Cpu} {has : Isa → Bool} {l : Int} (h : getSystemIsa mac c = some l) :
    dispatch mac c has = choose has l (getX86HasAmx mac c) := by rw [dispatch, h]; rfl

theorem dispatch_none {mac : Bool} {c : Cpu} {has : Isa → Bool} (h : getSystemIsa mac c = none) :
    dispatch mac c has = none := by rw [dispatch, h]; rfl

theorem inv_step {mac : Bool} {c : Cpu} {has : F → Isa → Bool} {s : St F} {t : Nat} {f : F} {v : Option Isa}
    (hi : Inv mac c has s) (hm : Unordered s t v) : Inv mac c has (act mac c has t f v s) := by
  obtain ⟨h1, h2, h3, h4, h5, h6, h7⟩ := hi
  unfold Unordered loads at hm
  unfold act
  rcases hp : s.pc t with _ | g | g | g | g | ⟨g, l⟩ | ⟨g, l⟩ | ⟨g, i⟩ | g | _ <;> simp only [hp] at hm ⊢
  · constructor <;> grind
  · constructor <;> grind
  · rcases v with _ | i
    · constructor <;> grind
    · have := hm g rfl
      constructor <;> grind
  · constructor <;> grind
  · rcases hs : getSystemIsa mac c with _ | l
    · have := dispatch_none (has := has g) hs
      constructor <;> grind
    · constructor <;> grind
  · have := h3 t g l hp
    constructor <;> grind
  · have hl := h4 t g l hp
    have := dispatch_eq (has := has g) hl
    rcases hs : choose (has g) l (getX86HasAmx mac c) with _ | i
    · constructor <;> grind
    · constructor <;> grind
  · have := h5 t g i hp
    constructor <;> grind
  · exact ⟨h1, h2, h3, h4, h5, h6, h7⟩
  · exact ⟨h1, h2, h3, h4, h5, h6, h7⟩

omit [DecidableEq F] in
theorem inv_start {mac : Bool} {c : Cpu} {has : F → Isa → Bool} : Inv mac c has (start : St F) := by
  constructor <;> simp [start]

theorem reach_inv {mac : Bool} {c : Cpu} {has : F → Isa → Bool} {s : St F} (h : Reach Unordered mac c has s) :
    Inv mac c has s := by
  induction h with
  | start => exact inv_start
  | step _ hm ih => exact inv_step ih hm

omit [DecidableEq F] in
theorem coherent_unordered {s : St F} {t : Nat} {v : Option Isa} (h : Coherent s t v) : Unordered s t v :=
  fun g hg => .inl (h g hg)

theorem reach_unordered {mac : Bool} {c : Cpu} {has : F → Isa → Bool} {s : St F} (h : Reach Coherent mac c has s) :
    Reach Unordered mac c has s := by
  induction h with
  | start => exact .start
  | step _ hm ih => exact .step ih (coherent_unordered hm)

/-- **C22.** However calls from any number of threads interleave, even with unordered memory, every variant ever called
    of a function is the one a first call from a single thread would choose. -/
theorem always_same_variant {mac : Bool} {c : Cpu} {has : F → Isa → Bool} {s : St F}
    (h : Reach Unordered mac c has s) {g : F} {i : Isa} (hl : (g, i) ∈ s.log) :
    dispatch mac c (has g) = some i :=
  (reach_inv h).log g i hl

/-- **C22.** The program is terminated only in the dispatch function of a function for which a first call would
    terminate it. -/
theorem trapped_only {mac : Bool} {c : Cpu} {has : F → Isa → Bool} {s : St F}
    (h : Reach Unordered mac c has s) {t : Nat} {g : F} (ht : s.pc t = .trapped g) : dispatch mac c (has g) = none :=
  (reach_inv h).trapped t g ht

/-- A pointer that has been stored stays. -/
theorem cache_stays {mac : Bool} {c : Cpu} {has : F → Isa → Bool} {s : St F} {t : Nat} {f : F} {v : Option Isa} {g : F}
    (h : s.cache g ≠ none) : (act mac c has t f v s).cache g ≠ none := by
  unfold act
  split <;> (try split) <;> simp_all
  split <;> simp_all

theorem call_filled {mac : Bool} {c : Cpu} {has : F → Isa → Bool} {s : St F} (h : Reach Coherent mac c has s) :
    (∀ t g, s.pc t = .call g → s.cache g ≠ none) ∧ ∀ t, s.pc t ≠ .crashed := by
  induction h with
  | start => simp [start]
  | @step s t f v hr hm ih =>
    have hs := fun g => cache_stays (mac := mac) (c := c) (has := has) (s := s) (t := t) (f := f) (v := v) (g := g)
    refine ⟨fun u g hu => ?_, fun u hu => ?_⟩
    · by_cases hg : s.cache g = none
      · unfold Coherent loads at hm
        unfold act at hu ⊢
        rcases hp : s.pc t with _ | g' | g' | g' | g' | ⟨g', l⟩ | ⟨g', l⟩ | ⟨g', i⟩ | _ | _ <;> simp only [hp] at hm hu ⊢
        all_goals (repeat' split at hu)
        all_goals grind
      · exact hs g hg
    · unfold Coherent loads at hm
      unfold act at hu
      rcases hp : s.pc t with _ | g' | g' | g' | g' | ⟨g', l⟩ | ⟨g', l⟩ | ⟨g', i⟩ | _ | _ <;> simp only [hp] at hm hu
      all_goals (repeat' split at hu)
      all_goals grind

/-- **C22.** With coherent memory no thread ever calls the null pointer. -/
theorem never_null {mac : Bool} {c : Cpu} {has : F → Isa → Bool} {s : St F} (h : Reach Coherent mac c has s) (t : Nat) :
    s.pc t ≠ .crashed := (call_filled h).2 t

/-- `n` steps of thread `t` alone, with coherent memory. -/
def solo (mac : Bool) (c : Cpu) (has : F → Isa → Bool) (t : Nat) (f : F) : Nat → St F → St F
  | 0, s => s
  | n + 1, s => solo mac c has t f n (act mac c has t f ((loads s t).bind s.cache) s)

theorem solo_reach {mac : Bool} {c : Cpu} {has : F → Isa → Bool} {t : Nat} {f : F} {n : Nat} {s : St F}
    (h : Reach Coherent mac c has s) : Reach Coherent mac c has (solo mac c has t f n s) := by
  induction n generalizing s with
  | zero => exact h
  | succ n ih => exact ih (.step h (fun g hg => by rw [hg]; rfl))

/-- **C22.** No thread waits for another one: whatever the others have been doing, a thread that has entered the dispatch
    function of `g`, and goes on, calls the chosen variant after at most seven of its own steps. -/
theorem call_completes {mac : Bool} {c : Cpu} {has : F → Isa → Bool} {s : St F} (h : Reach Coherent mac c has s)
    {t : Nat} {f g : F} (ht : s.pc t = .entry g) {i : Isa} (hd : dispatch mac c (has g) = some i) :
    ∃ n ≤ 7, (solo mac c has t f n s).pc t = .idle ∧ (solo mac c has t f n s).log = (g, i) :: s.log := by
  have hcall : ∀ s, Reach Coherent mac c has s → s.pc t = .call g →
      (solo mac c has t f 1 s).pc t = .idle ∧ (solo mac c has t f 1 s).log = (g, i) :: s.log := by
    intro s hr hp
    have h0 := (call_filled hr).1 t g hp
    obtain ⟨j, hj⟩ := Option.ne_none_iff_exists'.1 h0
    have := (reach_inv (reach_unordered hr)).cache g j hj
    rw [hd] at this; cases this
    simp [solo, act, hp, loads, hj]
  have hfill : ∀ s, Reach Coherent mac c has s → (∃ j, s.pc t = .fill g j) →
      (solo mac c has t f 2 s).pc t = .idle ∧ (solo mac c has t f 2 s).log = (g, i) :: s.log := by
    rintro s hr ⟨j, hp⟩
    have h1 := hcall _ (solo_reach (t := t) (f := f) (n := 1) hr) (by simp [solo, act, hp])
    have h2 : (solo mac c has t f 1 s).log = s.log := by simp [solo, act, hp]
    rw [h2] at h1
    exact h1
  have htest : ∀ s, Reach Coherent mac c has s → (∃ l, s.pc t = .test g l) →
      (solo mac c has t f 3 s).pc t = .idle ∧ (solo mac c has t f 3 s).log = (g, i) :: s.log := by
    rintro s hr ⟨l, hp⟩
    have hl := (reach_inv (reach_unordered hr)).test t g l hp
    have hch : choose (has g) l (getX86HasAmx mac c) = some i := by rw [← dispatch_eq hl, hd]
    have h1 := hfill _ (solo_reach (t := t) (f := f) (n := 1) hr) ⟨i, by simp [solo, act, hp, hch]⟩
    have h2 : (solo mac c has t f 1 s).log = s.log := by simp [solo, act, hp, hch]
    rw [h2] at h1
    exact h1
  have hkeep : ∀ s, Reach Coherent mac c has s → (∃ l, s.pc t = .keep g l) →
      (solo mac c has t f 4 s).pc t = .idle ∧ (solo mac c has t f 4 s).log = (g, i) :: s.log := by
    rintro s hr ⟨l, hp⟩
    have h1 := htest _ (solo_reach (t := t) (f := f) (n := 1) hr) ⟨l, by simp [solo, act, hp]⟩
    have h2 : (solo mac c has t f 1 s).log = s.log := by simp [solo, act, hp]
    rw [h2] at h1
    exact h1
  have hdet : ∀ s, Reach Coherent mac c has s → s.pc t = .detect g →
      (solo mac c has t f 5 s).pc t = .idle ∧ (solo mac c has t f 5 s).log = (g, i) :: s.log := by
    rintro s hr hp
    obtain ⟨l, hl, _⟩ := Option.bind_eq_some_iff.1 hd
    have h1 := hkeep _ (solo_reach (t := t) (f := f) (n := 1) hr) ⟨l, by simp [solo, act, hp, hl]⟩
    have h2 : (solo mac c has t f 1 s).log = s.log := by simp [solo, act, hp, hl]
    rw [h2] at h1
    exact h1
  by_cases hca : s.cache g = none
  · -- the slow path
    have hb : (solo mac c has t f 1 s).pc t = .best g := by simp [solo, act, ht, loads, hca]
    have hlog : (solo mac c has t f 1 s).log = s.log := by simp [solo, act, ht]
    have hlev : (solo mac c has t f 1 s).level = s.level := by simp [solo, act, ht]
    have hr1 := solo_reach (t := t) (f := f) (n := 1) h
    by_cases hl : s.level = -1
    · have h1 := hdet _ (solo_reach (t := t) (f := f) (n := 1) hr1) (by
        show (act mac c has t f _ (solo mac c has t f 1 s)).pc t = _
        simp [act, hb, hlev, hl])
      have h2 : (solo mac c has t f 1 (solo mac c has t f 1 s)).log = s.log := by
        show (act mac c has t f _ (solo mac c has t f 1 s)).log = _
        simp [act, hb, hlog]
      rw [h2] at h1
      exact ⟨7, by omega, h1⟩
    · have h1 := htest _ (solo_reach (t := t) (f := f) (n := 1) hr1) ⟨s.level, by
        show (act mac c has t f _ (solo mac c has t f 1 s)).pc t = _
        simp [act, hb, hlev, hl]⟩
      have h2 : (solo mac c has t f 1 (solo mac c has t f 1 s)).log = s.log := by
        show (act mac c has t f _ (solo mac c has t f 1 s)).log = _
        simp [act, hb, hlog]
      rw [h2] at h1
      exact ⟨5, by omega, h1⟩
  · have h1 := hcall _ (solo_reach (t := t) (f := f) (n := 1) h) (by
      obtain ⟨j, hj⟩ := Option.ne_none_iff_exists'.1 hca
      simp [solo, act, ht, loads, hj])
    have h2 : (solo mac c has t f 1 s).log = s.log := by simp [solo, act, ht]
    rw [h2] at h1
    exact ⟨2, by omega, h1⟩

/-- Whether a load by thread `t` may yield `v`. -/
def mayLoad (s : St F) (t : Nat) (v : Option Isa) : Bool := (loads s t).all fun g => v == s.cache g || v == none

/-- Runs a schedule with unordered memory; `none` if a load yields what it cannot. -/
def runU (mac : Bool) (c : Cpu) (has : F → Isa → Bool) : List (Nat × F × Option Isa) → St F → Option (St F)
  | [], s => some s
  | (t, f, v) :: l, s => if mayLoad s t v then runU mac c has l (act mac c has t f v s) else none

theorem runU_reach {mac : Bool} {c : Cpu} {has : F → Isa → Bool} {l : List (Nat × F × Option Isa)} {s s' : St F}
    (h : Reach Unordered mac c has s) (hr : runU mac c has l s = some s') : Reach Unordered mac c has s' := by
  induction l generalizing s with
  | nil => cases hr; exact h
  | cons x l ih =>
    obtain ⟨t, f, v⟩ := x
    simp only [runU] at hr
    split at hr
    · rename_i hv
      refine ih (.step h ?_) hr
      intro g hg
      rw [mayLoad, hg] at hv
      simpa using hv
    · simp at hr

/-- Thread 0 makes the first call; thread 1 then sees the pointer in its first load, but not in its second. -/
def nullSchedule : List (Nat × Unit × Option Isa) :=
  List.replicate 7 (0, (), none) ++ [(1, (), none), (1, (), some .avx2), (1, (), none)]

/-- **C22, refuted for LLVM's unordered memory.** The pointer is loaded a second time before the call. LLVM's `unordered`
    loads, unlike `monotonic` ones, are not bound to see values in the order of the stores, so that the second load may
    yield the initial null pointer although the first one did not; the program then calls the null pointer. -/
theorem unordered_null_call :
    ∃ s : St Unit, Reach Unordered false (machine haswell 7) (fun _ => compiled [.avx2_i32x8]) s ∧ s.pc 1 = .crashed := by
  have h : (runU false (machine haswell 7) (fun _ : Unit => compiled [.avx2_i32x8]) nullSchedule start).map
      (fun s => s.pc 1) = some .crashed := by decide +kernel
  rcases hr : runU false (machine haswell 7) (fun _ : Unit => compiled [.avx2_i32x8]) nullSchedule start with _ | s
  · rw [hr] at h; simp at h
  · rw [hr] at h
    exact ⟨s, runU_reach .start hr, by simpa using h⟩

/-- A first call by thread 0 and a second one by thread 1 both call the AVX2 variant. -/
example : (runU false (machine haswell 7) (fun _ : Unit => compiled [.avx2_i32x8])
    (List.replicate 7 (0, (), none) ++ [(0, (), some .avx2), (1, (), none), (1, (), some .avx2), (1, (), some .avx2)])
    start).map (fun s => s.log) = some [((), .avx2), ((), .avx2)] := by decide +kernel

end Ispc.Dispatch
