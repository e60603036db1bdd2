import Mathlib.Tactic.Common
import Mathlib.Tactic.SplitIfs
import Mathlib.Order.Basic

/-!
# C23: CPU feature detection

`get_x86_isa` and `get_x86_has_amx` (`src/isa.h`), which the dispatcher of multi-target objects and the compiler
itself (`--target=host`) use to find the instruction set of the machine they run on.
-/

namespace Ispc.Detect

/-- `enum ISA` (src/isa.h:10-29). -/
inductive Isa where
  | invalid | sse2 | sse41 | sse42 | avx | avx11 | avx2 | avx2vnni | knl | skx | icl | spr | gnr | nvl | dmr
deriving DecidableEq, Repr

/-- The enumerant values (src/isa.h:10-29). -/
def Isa.num : Isa → Int
  | .invalid => -1 | .sse2 => 0 | .sse41 => 1 | .sse42 => 2 | .avx => 3 | .avx11 => 4 | .avx2 => 5
  | .avx2vnni => 6 | .knl => 7 | .skx => 8 | .icl => 9 | .spr => 10 | .gnr => 11 | .nvl => 12 | .dmr => 13

/-- What the instructions `cpuid` and `xgetbv` answer: `cpuid leaf subleaf r` is register `r` (0: eax, 1: ebx, 2: ecx,
    3: edx); `xcr0` is the low half of extended control register 0. -/
structure Cpu where
  cpuid : Nat → Nat → Nat → BitVec 32
  xcr0 : BitVec 32

/-! ### Specification

What a feature is and where a machine reports it (Intel's manual, volume 2, `CPUID`). -/

inductive Feature where
  | sse2 | sse41 | sse42 | avx | f16c | rdrand | osxsave
  | avx2 | avx512f | avx512dq | avx512pf | avx512er | avx512cd | avx512bw | avx512vl
  | vbmi2 | gfni | vaes | vpclmulqdq | avx512vnni | bitalg | vpopcntdq
  | amxBf16 | amxTile | amxInt8 | fp16
  | sha512 | sm3 | sm4 | avxVnni | bf16 | cmpccxadd | amxFp16 | avxIfma
  | vnniInt8 | neConvert | amxComplex | vnniInt16 | prefetchi | avx10 | apx
  /-- AVX10 of version 2 or later -/
  | avx10v2
deriving DecidableEq, Repr

/-- Leaf, subleaf, register and bit of a feature flag (none for the version of AVX10). -/
def Feature.loc : Feature → Nat × Nat × Nat × Nat
  | .sse2 => (1, 0, 3, 26) | .sse41 => (1, 0, 2, 19) | .sse42 => (1, 0, 2, 20) | .osxsave => (1, 0, 2, 27)
  | .avx => (1, 0, 2, 28) | .f16c => (1, 0, 2, 29) | .rdrand => (1, 0, 2, 30)
  | .avx2 => (7, 0, 1, 5) | .avx512f => (7, 0, 1, 16) | .avx512dq => (7, 0, 1, 17) | .avx512pf => (7, 0, 1, 26)
  | .avx512er => (7, 0, 1, 27) | .avx512cd => (7, 0, 1, 28) | .avx512bw => (7, 0, 1, 30)
  | .avx512vl => (7, 0, 1, 31)
  | .vbmi2 => (7, 0, 2, 6) | .gfni => (7, 0, 2, 8) | .vaes => (7, 0, 2, 9) | .vpclmulqdq => (7, 0, 2, 10)
  | .avx512vnni => (7, 0, 2, 11) | .bitalg => (7, 0, 2, 12) | .vpopcntdq => (7, 0, 2, 14)
  | .amxBf16 => (7, 0, 3, 22) | .fp16 => (7, 0, 3, 23) | .amxTile => (7, 0, 3, 24) | .amxInt8 => (7, 0, 3, 25)
  | .sha512 => (7, 1, 0, 0) | .sm3 => (7, 1, 0, 1) | .sm4 => (7, 1, 0, 2) | .avxVnni => (7, 1, 0, 4)
  | .bf16 => (7, 1, 0, 5) | .cmpccxadd => (7, 1, 0, 7) | .amxFp16 => (7, 1, 0, 21) | .avxIfma => (7, 1, 0, 23)
  | .vnniInt8 => (7, 1, 3, 4) | .neConvert => (7, 1, 3, 5) | .amxComplex => (7, 1, 3, 8)
  | .vnniInt16 => (7, 1, 3, 10) | .prefetchi => (7, 1, 3, 14) | .avx10 => (7, 1, 3, 19) | .apx => (7, 1, 3, 21)
  | .avx10v2 => (0, 0, 0, 0)

/-- The leaf and subleaf exist and the flag is set. -/
def Flag (c : Cpu) (f : Feature) : Prop :=
  f.loc.1 ≤ (c.cpuid 0 0 0).toNat ∧ (f.loc.2.1 = 0 ∨ f.loc.2.1 ≤ (c.cpuid f.loc.1 0 0).toNat) ∧
    (c.cpuid f.loc.1 f.loc.2.1 f.loc.2.2.1).getLsbD f.loc.2.2.2 = true

/-- The machine reports the feature.  The version of AVX10 is in the low byte of its register. -/
def Reports (c : Cpu) (f : Feature) : Prop :=
  if f = .avx10v2 then
    Flag c .avx10 ∧ 0x24 ≤ (c.cpuid 0 0 0).toNat ∧ 2 ≤ (c.cpuid 0x24 0 1).toNat % 256
  else Flag c f

/-- The operating system saves the state whose bits are in `m`. -/
def Saves (c : Cpu) (m : BitVec 32) : Prop := ∀ i, m.getLsbD i → c.xcr0.getLsbD i

/-- The features a level stands for: for the SSE and AVX levels the feature of that name (with half-precision
    conversions and the random number instruction from AVX11 on), for the AVX-512 levels the lists given in the comments
    of src/isa.h:185-192, 206-207 and 222-226. -/
def Isa.features : Isa → List Feature
  | .invalid => []
  | .sse2 => [.sse2]
  | .sse41 => [.sse41]
  | .sse42 => [.sse42]
  | .avx => [.osxsave, .avx]
  | .avx11 => [.osxsave, .avx, .f16c, .rdrand]
  | .avx2 => [.osxsave, .avx, .f16c, .rdrand, .avx2]
  | .avx2vnni => [.osxsave, .avx, .f16c, .rdrand, .avx2, .avxVnni]
  | .knl => [.osxsave, .avx2, .avx512f, .avx512pf, .avx512er, .avx512cd]
  | .skx => skxL
  | .icl => iclL
  | .spr => sprL
  | .gnr => gnrL
  | .nvl => iclL ++ arlL ++ [.avx10v2, .apx, .fp16]
  | .dmr => gnrL ++ arlL ++ [.avx10v2, .apx, .amxComplex]
where
  skxL := [.osxsave, .avx2, .avx512f, .avx512dq, .avx512cd, .avx512bw, .avx512vl]
  iclL := skxL ++ [.avx512vnni, .vbmi2, .gfni, .vaes, .vpclmulqdq, .bitalg, .vpopcntdq]
  sprL := iclL ++ [.bf16, .amxBf16, .amxTile, .amxInt8, .avxVnni, .fp16]
  gnrL := sprL ++ [.amxFp16, .prefetchi]
  arlL := [.vnniInt8, .vnniInt16, .neConvert, .sha512, .sm3, .sm4, .avxIfma, .cmpccxadd]

/-- The state the operating system has to save for a level: bits 1 and 2 (SSE and AVX registers), and for AVX-512 also
    bits 5 to 7.  macOS turns AVX-512 on at its first use, so there the bits say nothing (src/isa.h:95-104). -/
def Isa.state (mac : Bool) : Isa → BitVec 32
  | .avx | .avx11 | .avx2 | .avx2vnni => 6
  | .knl | .skx | .icl | .spr | .gnr | .nvl | .dmr => if mac then 0 else 0xE6
  | _ => 0

/-- The machine has everything the level stands for. -/
def Has (mac : Bool) (c : Cpu) (i : Isa) : Prop := (∀ f ∈ i.features, Reports c f) ∧ Saves c (i.state mac)

/-- Tiles, with the operating system saving them (bits 17 and 18). -/
def HasAmx (c : Cpu) : Prop :=
  Reports c .amxTile ∧ Reports c .amxInt8 ∧ Reports c .amxBf16 ∧ Saves c 0x60000

/-! ### Model -/

/-- `(x & (1 << i)) != 0`. -/
def tst (x : BitVec 32) (i : Nat) : Bool := (x &&& (1#32 <<< i)) != 0

/-- `__os_has_avx_support` (src/isa.h:85). -/
def osAvx (c : Cpu) : Bool := c.xcr0 &&& 6 == 6

/-- `__os_has_amx_support` (src/isa.h:88). -/
def osAmx (c : Cpu) : Bool := c.xcr0 &&& 0x60000 == 0x60000

/-- `__os_has_avx512_support` (src/isa.h:90-106). -/
def osAvx512 (mac : Bool) (c : Cpu) : Bool := if mac then true else c.xcr0 &&& 0xE6 == 0xE6

/-- `get_x86_isa` (src/isa.h:108-273); `mac` is the `MACOS` macro.  `__cpuid(info, 1)` leaves the subleaf open, which
    leaf 1 does not depend on. -/
def getX86Isa (mac : Bool) (c : Cpu) : Isa :=
  let info := c.cpuid 1 0
  let maxLevel := (info 0).toInt
  let info2 := c.cpuid 7 0
  let info3 := if (info2 0).toInt ≥ 1 then c.cpuid 7 1 else fun _ => 0
  let sse2 := tst (info 3) 26
  let sse41 := tst (info 2) 19
  let sse42 := tst (info 2) 20
  let avx := tst (info 2) 28
  let avx2 := tst (info2 1) 5
  let avxVnni := tst (info3 0) 4
  let f16c := tst (info 2) 29
  let rdrand := tst (info 2) 30
  let osxsave := tst (info 2) 27
  let avx512f := tst (info2 1) 16
  let sha512 := tst (info3 0) 0
  let sm3 := tst (info3 0) 1
  let sm4 := tst (info3 0) 2
  let cmpccxadd := tst (info3 0) 7
  let amxFp16 := tst (info3 0) 21
  let avxIfma := tst (info3 0) 23
  let vnniInt8 := tst (info3 3) 4
  let neConvert := tst (info3 3) 5
  let amxComplex := tst (info3 3) 8
  let vnniInt16 := tst (info3 3) 10
  let prefetchi := tst (info3 3) 14
  let apx := tst (info3 3) 21
  let dq := tst (info2 1) 17
  let pf := tst (info2 1) 26
  let er := tst (info2 1) 27
  let cd := tst (info2 1) 28
  let bw := tst (info2 1) 30
  let vl := tst (info2 1) 31
  let vbmi2 := tst (info2 2) 6
  let gfni := tst (info2 2) 8
  let vaes := tst (info2 2) 9
  let vpclmulqdq := tst (info2 2) 10
  let vnni := tst (info2 2) 11
  let bitalg := tst (info2 2) 12
  let vpopcntdq := tst (info2 2) 14
  let bf16 := tst (info3 0) 5
  let amxBf16 := tst (info2 3) 22
  let amxTile := tst (info2 3) 24
  let amxInt8 := tst (info2 3) 25
  let fp16 := tst (info2 3) 23
  let knl := pf && er && cd
  let skx := dq && cd && bw && vl
  let clx := skx && vnni
  let icl := clx && vbmi2 && gfni && vaes && vpclmulqdq && bitalg && vpopcntdq
  let spr := icl && bf16 && amxBf16 && amxTile && amxInt8 && avxVnni && fp16
  let gnr := spr && amxFp16 && prefetchi
  let arl := icl && vnniInt8 && vnniInt16 && neConvert && sha512 && sm3 && sm4 && avxIfma && cmpccxadd
  let avx10 := tst (info3 3) 19
  let infoAvx10 := if maxLevel ≥ 24 then c.cpuid 0x24 0 else fun _ => 0
  let avx10v2 := (infoAvx10 1 &&& 0xFF).toInt ≥ 2
  let dmr := gnr && avx10v2 && apx && cmpccxadd && neConvert && avxIfma && vnniInt8 && vnniInt16 && amxComplex &&
    sha512 && sm3 && sm4
  let nvl := arl && avx10v2 && apx && fp16
  -- the part after the test for AVX-512
  let rest : Isa :=
    if osxsave && avx && osAvx c then
      if avxVnni then .avx2vnni
      else if f16c && rdrand then (if avx2 then .avx2 else .avx11)
      else .avx
    else if sse42 then .sse42
    else if sse41 then .sse41
    else if sse2 then .sse2
    else .invalid
  if osxsave && avx2 && avx512f && osAvx512 mac c then
    if !mac && avx10 && dmr then .dmr
    else if !mac && avx10 && nvl then .nvl
    else if !mac && gnr then .gnr
    else if !mac && spr then .spr
    else if !mac && icl then .icl
    else if skx then .skx
    else if knl then .knl
    else rest
  else rest

/-- `get_x86_has_amx` (src/isa.h:296-307). -/
def getX86HasAmx (mac : Bool) (c : Cpu) : Bool :=
  if mac then false
  else
    let info2 := c.cpuid 7 0
    tst (info2 3) 24 && tst (info2 3) 25 && tst (info2 3) 22 && osAmx c

/-! ### What the code reads -/

/-- `info3` (src/isa.h:119-124). -/
def info3 (c : Cpu) : Nat → BitVec 32 := if (c.cpuid 7 0 0).toInt ≥ 1 then c.cpuid 7 1 else fun _ => 0

/-- `avx10_ver >= 2` (src/isa.h:214-219). -/
def seenV2 (c : Cpu) : Bool :=
  decide (((if (c.cpuid 1 0 0).toInt ≥ 24 then c.cpuid 0x24 0 else fun _ => 0) 1 &&& 0xFF).toInt ≥ 2)

/-- What the code takes for a report of a feature: like `Flag`, but without a test that the leaf exists. -/
def seen (c : Cpu) (f : Feature) : Bool :=
  tst ((if f.loc.2.1 = 0 then c.cpuid f.loc.1 0 else info3 c) f.loc.2.2.1) f.loc.2.2.2

/-- The decision as a function of the features seen. -/
def classify (mac : Bool) (r : Feature → Bool) (v2 os os512 : Bool) : Isa :=
  let skx := r .avx512dq && r .avx512cd && r .avx512bw && r .avx512vl
  let icl := skx && r .avx512vnni && r .vbmi2 && r .gfni && r .vaes && r .vpclmulqdq && r .bitalg && r .vpopcntdq
  let spr := icl && r .bf16 && r .amxBf16 && r .amxTile && r .amxInt8 && r .avxVnni && r .fp16
  let gnr := spr && r .amxFp16 && r .prefetchi
  let arl := icl && r .vnniInt8 && r .vnniInt16 && r .neConvert && r .sha512 && r .sm3 && r .sm4 && r .avxIfma &&
    r .cmpccxadd
  let dmr := gnr && v2 && r .apx && r .cmpccxadd && r .neConvert && r .avxIfma && r .vnniInt8 &&
    r .vnniInt16 && r .amxComplex && r .sha512 && r .sm3 && r .sm4
  let nvl := arl && v2 && r .apx && r .fp16
  let rest : Isa :=
    if r .osxsave && r .avx && os then
      if r .avxVnni then .avx2vnni
      else if r .f16c && r .rdrand then (if r .avx2 then .avx2 else .avx11)
      else .avx
    else if r .sse42 then .sse42
    else if r .sse41 then .sse41
    else if r .sse2 then .sse2
    else .invalid
  if r .osxsave && r .avx2 && r .avx512f && os512 then
    if !mac && r .avx10 && dmr then .dmr
    else if !mac && r .avx10 && nvl then .nvl
    else if !mac && gnr then .gnr
    else if !mac && spr then .spr
    else if !mac && icl then .icl
    else if skx then .skx
    else if r .avx512pf && r .avx512er && r .avx512cd then .knl
    else rest
  else rest

theorem getX86Isa_eq (mac : Bool) (c : Cpu) :
    getX86Isa mac c = classify mac (seen c) (seenV2 c) (osAvx c) (osAvx512 mac c) := rfl

theorem tst_eq (x : BitVec 32) {i : Nat} (h : i < 32) : tst x i = x.getLsbD i := by
  unfold tst
  rw [Bool.eq_iff_iff]
  simp only [bne_iff_ne, ne_eq]
  constructor
  · intro hne
    by_contra hc
    apply hne
    apply BitVec.eq_of_getLsbD_eq
    intro j hj
    simp only [BitVec.getLsbD_and, BitVec.getLsbD_shiftLeft, BitVec.getLsbD_one]
    by_cases hij : j = i
    · subst hij; simp [hc]
    · rcases Nat.lt_or_ge j i with h' | h'
      · simp [h']
      · simp; omega
  · intro hb h0
    have := congrArg (·.getLsbD i) h0
    simp [h] at this
    rw [BitVec.getLsbD_eq_getElem h] at hb
    simp [hb] at this

/-- A machine as they exist: it has leaf 7, whose subleaves are fewer than `2^31`; if it reports AVX10 it has leaf 0x24;
    its signature (family, model and stepping) is at least 24 and below `2^31`. -/
structure Real (c : Cpu) : Prop where
  leaf7 : 7 ≤ (c.cpuid 0 0 0).toNat
  sub : (c.cpuid 7 0 0).toNat < 2 ^ 31
  leaf24 : Flag c .avx10 → 0x24 ≤ (c.cpuid 0 0 0).toNat
  sig : 24 ≤ (c.cpuid 1 0 0).toNat ∧ (c.cpuid 1 0 0).toNat < 2 ^ 31

theorem seen_flag {c : Cpu} (hc : Real c) {f : Feature} (hf : f ≠ .avx10v2) : seen c f = true ↔ Flag c f := by
  have h7 := hc.leaf7
  have hs := hc.sub
  have hl : f.loc.1 ≤ 7 := by cases f <;> decide
  have hb : f.loc.2.2.2 < 32 := by cases f <;> decide
  unfold seen Flag
  rw [tst_eq _ hb]
  rcases Nat.eq_zero_or_pos f.loc.2.1 with h0 | h0
  · simp only [h0, if_true, true_or, true_and]
    constructor
    · exact fun h => ⟨by omega, h⟩
    · exact fun h => h.2
  · have hl7 : f.loc.1 = 7 ∧ f.loc.2.1 = 1 := by revert h0; cases f <;> decide
    rw [if_neg (by omega), info3, hl7.1, hl7.2]
    have : (c.cpuid 7 0 0).toInt = (c.cpuid 7 0 0).toNat := by
      rw [BitVec.toInt_eq_toNat_of_lt (by omega)]
    by_cases h1 : 1 ≤ (c.cpuid 7 0 0).toNat
    · rw [if_pos (by omega)]
      simp [h7, h1]
    · rw [if_neg (by omega)]
      simp [h1]

theorem seen_v2 {c : Cpu} (hc : Real c) : (seen c .avx10 && seenV2 c) = true ↔ Reports c .avx10v2 := by
  have hsig := hc.sig
  have h24 := hc.leaf24
  have : (c.cpuid 1 0 0).toInt = (c.cpuid 1 0 0).toNat := by
    rw [BitVec.toInt_eq_toNat_of_lt (by omega)]
  simp only [Bool.and_eq_true, seen_flag hc (f := .avx10) (by decide), Reports, if_true, seenV2]
  rw [if_pos (by omega)]
  have hm : ((c.cpuid 0x24 0 1 &&& 0xFF).toNat) = (c.cpuid 0x24 0 1).toNat % 256 := by
    rw [BitVec.toNat_and]
    exact Nat.and_two_pow_sub_one_eq_mod _ 8
  have hi : (c.cpuid 0x24 0 1 &&& 0xFF).toInt = (c.cpuid 0x24 0 1).toNat % 256 := by
    rw [BitVec.toInt_eq_toNat_of_lt (by omega), hm]; omega
  simp only [decide_eq_true_eq, hi]
  constructor
  · exact fun h => ⟨h.1, h24 h.1, by omega⟩
  · exact fun h => ⟨h.1, by omega⟩

theorem saves_iff (c : Cpu) (m : BitVec 32) : (c.xcr0 &&& m == m) = true ↔ Saves c m := by
  rw [beq_iff_eq]
  constructor
  · intro h i hi
    have := congrArg (·.getLsbD i) h
    simp only [BitVec.getLsbD_and, hi, Bool.and_true] at this
    exact this
  · intro h
    apply BitVec.eq_of_getLsbD_eq
    intro i hi
    have := h i
    simp only [BitVec.getLsbD_and]
    rcases hm : m.getLsbD i with _ | _
    · simp
    · simp [this hm]

/-- Like `seen`, with the version test of AVX10 as a feature. -/
def full (r : Feature → Bool) (v2 : Bool) (f : Feature) : Bool := if f = .avx10v2 then r .avx10 && v2 else r f

theorem full_reports {c : Cpu} (hc : Real c) (f : Feature) : full (seen c) (seenV2 c) f = true ↔ Reports c f := by
  unfold full
  split_ifs with h
  · subst h; exact seen_v2 hc
  · rw [seen_flag hc h, Reports, if_neg h]

theorem osAvx_iff (c : Cpu) : osAvx c = true ↔ Saves c 6 := saves_iff c 6

theorem osAvx512_iff (mac : Bool) (c : Cpu) : osAvx512 mac c = true ↔ Saves c (if mac then 0 else 0xE6) := by
  unfold osAvx512
  split_ifs
  · simp only [true_iff]; intro i hi; simp at hi
  · exact saves_iff c _

/-- The shape of the decision: `a` the test for AVX-512, `v` the test for AVX. -/
def pick (a dmr nvl gnr spr icl skx knl v vnni f16 avx2 sse42 sse41 sse2 : Bool) : Isa :=
  if a && dmr then .dmr
  else if a && nvl then .nvl
  else if a && gnr then .gnr
  else if a && spr then .spr
  else if a && icl then .icl
  else if a && skx then .skx
  else if a && knl then .knl
  else if v && vnni then .avx2vnni
  else if v && f16 && avx2 then .avx2
  else if v && f16 then .avx11
  else if v then .avx
  else if sse42 then .sse42
  else if sse41 then .sse41
  else if sse2 then .sse2
  else .invalid

/-- The conditions of the levels. -/
def cond (mac : Bool) (r : Feature → Bool) (v2 os os512 : Bool) : Isa → Bool
  | .invalid => true
  | .sse2 => r .sse2
  | .sse41 => r .sse41
  | .sse42 => r .sse42
  | .avx => r .osxsave && r .avx && os
  | .avx11 => r .osxsave && r .avx && os && (r .f16c && r .rdrand)
  | .avx2 => r .osxsave && r .avx && os && (r .f16c && r .rdrand) && r .avx2
  | .avx2vnni => r .osxsave && r .avx && os && r .avxVnni
  | .knl => a && (r .avx512pf && r .avx512er && r .avx512cd)
  | .skx => a && skx
  | .icl => a && (!mac && icl)
  | .spr => a && (!mac && spr)
  | .gnr => a && (!mac && gnr)
  | .nvl => a && (!mac && r .avx10 && (icl && r .vnniInt8 && r .vnniInt16 && r .neConvert && r .sha512 && r .sm3 && r .sm4 && r .avxIfma &&
      r .cmpccxadd && v2 && r .apx && r .fp16))
  | .dmr => a && (!mac && r .avx10 && (gnr && v2 && r .apx && r .cmpccxadd && r .neConvert && r .avxIfma && r .vnniInt8 &&
      r .vnniInt16 && r .amxComplex && r .sha512 && r .sm3 && r .sm4))
where
  a := r .osxsave && r .avx2 && r .avx512f && os512
  skx := r .avx512dq && r .avx512cd && r .avx512bw && r .avx512vl
  icl := skx && r .avx512vnni && r .vbmi2 && r .gfni && r .vaes && r .vpclmulqdq && r .bitalg && r .vpopcntdq
  spr := icl && r .bf16 && r .amxBf16 && r .amxTile && r .amxInt8 && r .avxVnni && r .fp16
  gnr := spr && r .amxFp16 && r .prefetchi

/-- The levels from the best to the worst. -/
def order : List Isa :=
  [.dmr, .nvl, .gnr, .spr, .icl, .skx, .knl, .avx2vnni, .avx2, .avx11, .avx, .sse42, .sse41, .sse2, .invalid]

/-- The nested tests pick the first level in the order whose condition holds. -/
theorem nested (a dmr nvl gnr spr icl skx knl v vnni f16 avx2 sse42 sse41 sse2 : Bool) :
    (if a then
      if dmr then Isa.dmr else if nvl then .nvl else if gnr then .gnr else if spr then .spr else if icl then .icl
      else if skx then .skx else if knl then .knl
      else if v then (if vnni then .avx2vnni else if f16 then (if avx2 then .avx2 else .avx11) else .avx)
      else if sse42 then .sse42 else if sse41 then .sse41 else if sse2 then .sse2 else .invalid
    else if v then (if vnni then .avx2vnni else if f16 then (if avx2 then .avx2 else .avx11) else .avx)
    else if sse42 then .sse42 else if sse41 then .sse41 else if sse2 then .sse2 else .invalid) =
    pick a dmr nvl gnr spr icl skx knl v vnni f16 avx2 sse42 sse41 sse2 := by
  unfold pick
  cases a <;> cases v <;> cases f16 <;> simp

theorem find_cons {p : Isa → Bool} {x : Isa} {l : List Isa} :
    ((x :: l).find? p).getD .invalid = if p x then x else (l.find? p).getD .invalid := by
  rw [List.find?_cons]; cases p x <;> rfl

theorem classify_pick (mac : Bool) (r : Feature → Bool) (v2 os os512 : Bool) :
    classify mac r v2 os os512 = (order.find? (cond mac r v2 os os512)).getD .invalid := by
  unfold classify
  extract_lets
  rw [nested]
  unfold pick order
  simp only [find_cons, List.find?_nil, Option.getD_none]
  rfl

/-- The detected level is one whose condition holds, and no level with a greater number has its condition. -/
theorem classify_max (mac : Bool) (r : Feature → Bool) (v2 os os512 : Bool) :
    cond mac r v2 os os512 (classify mac r v2 os os512) = true ∧
      ∀ i, cond mac r v2 os os512 i = true → i.num ≤ (classify mac r v2 os os512).num := by
  rw [classify_pick]
  generalize hp : cond mac r v2 os os512 = p
  have hinv : p .invalid = true := by rw [← hp]; rfl
  have hsort : order.Pairwise (fun a b => b.num ≤ a.num) := by decide
  rcases hf : order.find? p with _ | x
  · rw [List.find?_eq_none] at hf
    exact absurd hinv (hf _ (by decide))
  · have hx := List.find?_some hf
    refine ⟨hx, fun i hi => ?_⟩
    obtain ⟨_, l1, l2, hl, hno⟩ := List.find?_eq_some_iff_append.1 hf
    have hmem : i ∈ order := by cases i <;> decide
    rw [hl] at hmem hsort
    rcases List.mem_append.1 hmem with h | h
    · have := hno i h; simp [hi] at this
    · rcases List.mem_cons.1 h with rfl | h
      · exact Int.le_refl _
      · rw [List.pairwise_append, List.pairwise_cons] at hsort
        exact hsort.2.1.1 i h

/-- What the code requires for a level, in terms of features.  It differs from `Isa.features` in one level. -/
def Isa.tested : Isa → List Feature
  | .avx2vnni => [.osxsave, .avx, .avxVnni]
  | i => i.features

theorem saves_zero (c : Cpu) : Saves c 0#32 := by intro i hi; simp at hi

/-- The condition of a level is that its features are reported and its state is saved. -/
theorem cond_iff {mac : Bool} {c : Cpu} (hc : Real c) (i : Isa) (hm : mac = false ∨ i.num ≤ 8) :
    cond mac (seen c) (seenV2 c) (osAvx c) (osAvx512 mac c) i = true ↔
      (∀ f ∈ i.tested, Reports c f) ∧ Saves c (i.state mac) := by
  simp only [← full_reports hc]
  have e1 := osAvx_iff c
  have e2 := osAvx512_iff mac c
  generalize seen c = r at *
  generalize seenV2 c = v2 at *
  cases i <;>
    simp [cond, cond.a, cond.skx, cond.icl, cond.spr, cond.gnr, Isa.tested, Isa.features, Isa.features.skxL,
      Isa.features.iclL, Isa.features.sprL, Isa.features.gnrL, Isa.features.arlL, full, Isa.state, e1, e2,
      saves_zero, Isa.num] at e1 e2 hm ⊢ <;> tauto

/-! ### Theorems -/

theorem mac_le (c : Cpu) : (getX86Isa true c).num ≤ 8 := by
  have h := (classify_max true (seen c) (seenV2 c) (osAvx c) (osAvx512 true c)).1
  rw [getX86Isa_eq]
  revert h
  cases classify true (seen c) (seenV2 c) (osAvx c) (osAvx512 true c) <;> simp [cond, Isa.num]

theorem mac_or (mac : Bool) (c : Cpu) : mac = false ∨ (getX86Isa mac c).num ≤ 8 := by
  cases mac
  · exact .inl rfl
  · exact .inr (mac_le c)

theorem detected_tested {mac : Bool} {c : Cpu} (hc : Real c) :
    (∀ f ∈ (getX86Isa mac c).tested, Reports c f) ∧ Saves c ((getX86Isa mac c).state mac) := by
  have h := (classify_max mac (seen c) (seenV2 c) (osAvx c) (osAvx512 mac c)).1
  rw [← getX86Isa_eq] at h
  exact (cond_iff hc _ (mac_or mac c)).1 h

/-- **C23.** The machine reports every feature the detected level stands for, and its operating system saves the state
    the level needs; the level AVX2-VNNI is excepted, see `vnni_without_avx2`. -/
theorem detected_has_partial {mac : Bool} {c : Cpu} (hc : Real c) (h : getX86Isa mac c ≠ .avx2vnni) :
    Has mac c (getX86Isa mac c) := by
  have ht := detected_tested (mac := mac) hc
  revert h ht
  generalize getX86Isa mac c = i
  intro h ht
  refine ⟨fun f hf => ht.1 f ?_, ht.2⟩
  cases i <;> first | exact hf | exact absurd rfl h

/-- For the level AVX2-VNNI: AVX, AVX-VNNI and the saving of their registers are certain. -/
theorem detected_vnni_partial {mac : Bool} {c : Cpu} (hc : Real c) (h : getX86Isa mac c = .avx2vnni) :
    Reports c .osxsave ∧ Reports c .avx ∧ Reports c .avxVnni ∧ Saves c 6 := by
  have ht := detected_tested (mac := mac) hc
  rw [h] at ht
  exact ⟨ht.1 _ (by decide), ht.1 _ (by decide), ht.1 _ (by decide), ht.2⟩

/-- With the architectural fact that AVX-VNNI comes with AVX2, and AVX2 with half-precision conversions and the random
    number instruction, the exception goes away. -/
theorem detected_has {mac : Bool} {c : Cpu} (hc : Real c) (h1 : Reports c .avxVnni → Reports c .avx2)
    (h2 : Reports c .avx2 → Reports c .f16c ∧ Reports c .rdrand) : Has mac c (getX86Isa mac c) := by
  by_cases h : getX86Isa mac c = .avx2vnni
  · obtain ⟨a, b, d, e⟩ := detected_vnni_partial hc h
    rw [h]
    refine ⟨?_, e⟩
    simp only [Isa.features, List.mem_cons, List.not_mem_nil, or_false, forall_eq_or_imp, forall_eq]
    exact ⟨a, b, (h2 (h1 d)).1, (h2 (h1 d)).2, h1 d, d⟩
  · exact detected_has_partial hc h

theorem tested_sub {i : Isa} {f : Feature} (h : f ∈ i.tested) : f ∈ i.features := by
  cases i <;> first
    | exact h
    | (simp [Isa.tested] at h; simp [Isa.features]; tauto)

/-- **C23.** The detected level is the best one: no level of which the machine has everything is above it (on macOS among
    the levels up to Skylake's). -/
theorem detected_best {mac : Bool} {c : Cpu} (hc : Real c) {i : Isa} (h : Has mac c i) (hm : mac = false ∨ i.num ≤ 8) :
    i.num ≤ (getX86Isa mac c).num := by
  rw [getX86Isa_eq]
  exact (classify_max _ _ _ _ _).2 i ((cond_iff hc i hm).2 ⟨fun f hf => h.1 f (tested_sub hf), h.2⟩)

/-- **C23.** A machine with more features, or with more state saved, is never given a lower level. -/
theorem more_features {mac : Bool} {c c' : Cpu} (hc : Real c) (hc' : Real c')
    (hf : ∀ f, Reports c f → Reports c' f) (hs : ∀ i, c.xcr0.getLsbD i → c'.xcr0.getLsbD i) :
    (getX86Isa mac c).num ≤ (getX86Isa mac c').num := by
  have ht := detected_tested (mac := mac) hc
  have : cond mac (seen c') (seenV2 c') (osAvx c') (osAvx512 mac c') (getX86Isa mac c) = true :=
    (cond_iff hc' _ (mac_or mac c)).2 ⟨fun f h => hf f (ht.1 f h), fun i h => hs i (ht.2 i h)⟩
  rw [getX86Isa_eq mac c']
  exact (classify_max _ _ _ _ _).2 _ this

/-- **C23.** AMX is claimed exactly if the machine has tiles with both element types and the system saves them. -/
theorem amx_iff {c : Cpu} (hc : Real c) : getX86HasAmx false c = true ↔ HasAmx c := by
  unfold HasAmx
  rw [← saves_iff]
  have e : ∀ f : Feature, f ≠ .avx10v2 → (Reports c f ↔ seen c f = true) := fun f hf => by
    rw [seen_flag hc hf, Reports, if_neg hf]
  rw [e _ (by decide), e _ (by decide), e _ (by decide)]
  show (seen c .amxTile && seen c .amxInt8 && seen c .amxBf16 && osAmx c) = true ↔ _
  simp only [Bool.and_eq_true, osAmx, and_assoc]

/-! ### Machines -/

/-- A machine with the given features, signature 0x50654 and the given `xcr0`. -/
def machine (fs : List Feature) (xcr0 : BitVec 32) : Cpu where
  cpuid leaf sub reg :=
    if leaf = 0 then (if reg = 0 then 0x24 else 0)
    else if leaf = 1 ∧ reg = 0 then 0x50654
    else if leaf = 7 ∧ sub = 0 ∧ reg = 0 then 1
    else if leaf = 0x24 then (if reg = 1 ∧ .avx10v2 ∈ fs then 2 else 0)
    else (fs.filter (fun f => f.loc.1 = leaf ∧ f.loc.2.1 = sub ∧ f.loc.2.2.1 = reg)).foldl
      (fun x f => x ||| (1#32 <<< f.loc.2.2.2)) 0
  xcr0 := xcr0

instance (c : Cpu) (f : Feature) : Decidable (Flag c f) := by unfold Flag; infer_instance

instance (c : Cpu) (f : Feature) : Decidable (Reports c f) := by unfold Reports; infer_instance

theorem machine_real (fs : List Feature) (x : BitVec 32) : Real (machine fs x) where
  leaf7 := by simp [machine]
  sub := by simp [machine]
  leaf24 := fun _ => by simp [machine]
  sig := by simp [machine]

/-- A Sandy Bridge machine, a Haswell machine, and one with the features of Skylake's servers. -/
def sandyBridge : List Feature := [.sse2, .sse41, .sse42, .osxsave, .avx]
def haswell : List Feature := sandyBridge ++ [.f16c, .rdrand, .avx2]
def skylakeX : List Feature := haswell ++ [.avx512f, .avx512dq, .avx512cd, .avx512bw, .avx512vl]

example : getX86Isa false (machine sandyBridge 7) = .avx := by decide +kernel
example : getX86Isa false (machine haswell 7) = .avx2 := by decide +kernel
example : getX86Isa false (machine (haswell ++ [.avxVnni]) 7) = .avx2vnni := by decide +kernel
example : getX86Isa false (machine skylakeX 0xE7) = .skx := by decide +kernel
/-- AVX-512 without the support of the operating system. -/
example : getX86Isa false (machine skylakeX 7) = .avx2 := by decide +kernel
/-- AVX without the support of the operating system. -/
example : getX86Isa false (machine haswell 3) = .sse42 := by decide +kernel
example : getX86Isa false (machine (.osxsave :: Isa.features .dmr ++ [.avx10]) 0xE7) = .dmr := by decide +kernel
example : getX86Isa false (machine (Isa.features .nvl ++ [.avx10]) 0xE7) = .nvl := by decide +kernel
example : getX86Isa true (machine (Isa.features .nvl ++ [.avx10]) 0xE7) = .skx := by decide +kernel
example : getX86HasAmx false (machine (Isa.features .spr) 0x600E7) = true := by decide +kernel

/-- The machine of the examples reports what it should. -/
example : ∀ f ∈ skylakeX, Reports (machine skylakeX 0xE7) f := by decide +kernel
example : ¬ Reports (machine skylakeX 0xE7) .avxVnni := by decide +kernel

/-- **C23, refuted.** A machine with AVX and AVX-VNNI, but without AVX2, is given the level AVX2-VNNI. -/
theorem vnni_without_avx2 :
    ∃ c, Real c ∧ getX86Isa false c = .avx2vnni ∧ ¬ Reports c .avx2 ∧ ¬ Reports c .f16c :=
  ⟨machine (sandyBridge ++ [.avxVnni]) 7, machine_real _ _, by decide +kernel, by decide +kernel, by decide +kernel⟩

/-- Leaf 7 is read although the machine may not have it; a processor then answers with the contents of another leaf.
    A machine with the leaves up to 6 can be given an AVX-512 level. -/
theorem leaf_not_checked :
    ∃ c, (c.cpuid 0 0 0) = 6 ∧ getX86Isa false c = .skx ∧ ∀ f ∈ [Feature.avx2, .avx512f], ¬ Reports c f := by
  let m := machine skylakeX 0xE7
  refine ⟨⟨fun l s r => if l = 0 then 6 else m.cpuid l s r, 0xE7⟩, ?_, ?_, ?_⟩ <;> decide +kernel

end Ispc.Detect
