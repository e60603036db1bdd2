import Mathlib.Tactic.Common

/-!
# The targets and their hierarchy

Generated from the tables in `src/target_enums.h`, `src/builtins.cpp` and `src/ispc.cpp`; used for C40.
-/

namespace Ispc.Targets

/-- `ISPCTarget` without `none`, `host` and `error` (src/target_enums.h:35-133). -/
inductive Target where
  | sse2_i32x4 | sse2_i32x8 | sse41_i8x16 | sse41_i16x8 | sse41_i32x4 | sse41_i32x8
  | sse4_i8x16 | sse4_i16x8 | sse4_i32x4 | sse4_i32x8 | avx1_i32x4 | avx1_i32x8
  | avx1_i32x16 | avx1_i64x4 | avx2_i8x32 | avx2_i16x16 | avx2_i32x4 | avx2_i32x8
  | avx2_i32x16 | avx2_i64x4 | avx2vnni_i32x4 | avx2vnni_i32x8 | avx2vnni_i32x16 | avx512skx_x4
  | avx512skx_x8 | avx512skx_x16 | avx512skx_x16_nozmm | avx512skx_x32 | avx512skx_x64 | avx512icl_x4
  | avx512icl_x8 | avx512icl_x16 | avx512icl_x16_nozmm | avx512icl_x32 | avx512icl_x64 | avx512spr_x4
  | avx512spr_x8 | avx512spr_x16 | avx512spr_x32 | avx512spr_x64 | avx512gnr_x4 | avx512gnr_x8
  | avx512gnr_x16 | avx512gnr_x32 | avx512gnr_x64 | avx10_2dmr_x4 | avx10_2dmr_x8 | avx10_2dmr_x16
  | avx10_2dmr_x32 | avx10_2dmr_x64 | avx10_2nvl_x4 | avx10_2nvl_x8 | avx10_2nvl_x16 | avx10_2nvl_x32
  | avx10_2nvl_x64 | neon_i8x16 | neon_i8x32 | neon_i16x8 | neon_i16x16 | neon_i32x4
  | neon_i32x8 | vsx_i8x16 | vsx_i8x32 | vsx_i16x8 | vsx_i16x16 | vsx_i32x4
  | vsx_i32x8 | rvv_x4 | wasm_i32x4 | xelp_x8 | xelp_x16 | xehpg_x8
  | xehpg_x16 | xehpc_x16 | xehpc_x32 | xelpg_x8 | xelpg_x16 | xe2hpg_x16
  | xe2hpg_x32 | xe2lpg_x16 | xe2lpg_x32 | generic_i1x4 | generic_i1x8 | generic_i1x16
  | generic_i1x32 | generic_i1x64 | generic_i8x16 | generic_i8x32 | generic_i16x8 | generic_i16x16
  | generic_i32x4 | generic_i32x8 | generic_i32x16 | generic_i64x4
  deriving DecidableEq, Repr

/-- All of them, in the order of the enumeration. -/
def all : List Target :=
  [.sse2_i32x4, .sse2_i32x8, .sse41_i8x16, .sse41_i16x8, .sse41_i32x4, .sse41_i32x8,
   .sse4_i8x16, .sse4_i16x8, .sse4_i32x4, .sse4_i32x8, .avx1_i32x4, .avx1_i32x8,
   .avx1_i32x16, .avx1_i64x4, .avx2_i8x32, .avx2_i16x16, .avx2_i32x4, .avx2_i32x8,
   .avx2_i32x16, .avx2_i64x4, .avx2vnni_i32x4, .avx2vnni_i32x8, .avx2vnni_i32x16, .avx512skx_x4,
   .avx512skx_x8, .avx512skx_x16, .avx512skx_x16_nozmm, .avx512skx_x32, .avx512skx_x64, .avx512icl_x4,
   .avx512icl_x8, .avx512icl_x16, .avx512icl_x16_nozmm, .avx512icl_x32, .avx512icl_x64, .avx512spr_x4,
   .avx512spr_x8, .avx512spr_x16, .avx512spr_x32, .avx512spr_x64, .avx512gnr_x4, .avx512gnr_x8,
   .avx512gnr_x16, .avx512gnr_x32, .avx512gnr_x64, .avx10_2dmr_x4, .avx10_2dmr_x8, .avx10_2dmr_x16,
   .avx10_2dmr_x32, .avx10_2dmr_x64, .avx10_2nvl_x4, .avx10_2nvl_x8, .avx10_2nvl_x16, .avx10_2nvl_x32,
   .avx10_2nvl_x64, .neon_i8x16, .neon_i8x32, .neon_i16x8, .neon_i16x16, .neon_i32x4,
   .neon_i32x8, .vsx_i8x16, .vsx_i8x32, .vsx_i16x8, .vsx_i16x16, .vsx_i32x4,
   .vsx_i32x8, .rvv_x4, .wasm_i32x4, .xelp_x8, .xelp_x16, .xehpg_x8,
   .xehpg_x16, .xehpc_x16, .xehpc_x32, .xelpg_x8, .xelpg_x16, .xe2hpg_x16,
   .xe2hpg_x32, .xe2lpg_x16, .xe2lpg_x32, .generic_i1x4, .generic_i1x8, .generic_i1x16,
   .generic_i1x32, .generic_i1x64, .generic_i8x16, .generic_i8x32, .generic_i16x8, .generic_i16x16,
   .generic_i32x4, .generic_i32x8, .generic_i32x16, .generic_i64x4]

/-- `targetParentMap` and `GetParentTarget` (src/builtins.cpp:473-591), for an LLVM version that has all targets. -/
def parent : Target → Option Target
  | .sse2_i32x4 => some .generic_i32x4
  | .sse2_i32x8 => some .generic_i32x8
  | .sse41_i8x16 => some .generic_i8x16
  | .sse41_i16x8 => some .generic_i16x8
  | .sse41_i32x4 => some .sse2_i32x4
  | .sse41_i32x8 => some .sse2_i32x8
  | .sse4_i8x16 => some .sse41_i8x16
  | .sse4_i16x8 => some .sse41_i16x8
  | .sse4_i32x4 => some .sse41_i32x4
  | .sse4_i32x8 => some .sse41_i32x8
  | .avx1_i32x4 => some .sse4_i32x4
  | .avx1_i32x8 => some .sse4_i32x8
  | .avx1_i32x16 => some .generic_i32x16
  | .avx1_i64x4 => some .generic_i64x4
  | .avx2_i8x32 => some .generic_i8x32
  | .avx2_i16x16 => some .generic_i16x16
  | .avx2_i32x4 => some .avx1_i32x4
  | .avx2_i32x8 => some .avx1_i32x8
  | .avx2_i32x16 => some .avx1_i32x16
  | .avx2_i64x4 => some .avx1_i64x4
  | .avx2vnni_i32x4 => some .avx2_i32x4
  | .avx2vnni_i32x8 => some .avx2_i32x8
  | .avx2vnni_i32x16 => some .avx2_i32x16
  | .avx512skx_x4 => some .generic_i1x4
  | .avx512skx_x8 => some .generic_i1x8
  | .avx512skx_x16 => some .generic_i1x16
  | .avx512skx_x16_nozmm => some .generic_i1x16
  | .avx512skx_x32 => some .generic_i1x32
  | .avx512skx_x64 => some .generic_i1x64
  | .avx512icl_x4 => some .avx512skx_x4
  | .avx512icl_x8 => some .avx512skx_x8
  | .avx512icl_x16 => some .avx512skx_x16
  | .avx512icl_x16_nozmm => some .avx512skx_x16_nozmm
  | .avx512icl_x32 => some .avx512skx_x32
  | .avx512icl_x64 => some .avx512skx_x64
  | .avx512spr_x4 => some .avx512icl_x4
  | .avx512spr_x8 => some .avx512icl_x8
  | .avx512spr_x16 => some .avx512icl_x16
  | .avx512spr_x32 => some .avx512icl_x32
  | .avx512spr_x64 => some .avx512icl_x64
  | .avx512gnr_x4 => some .avx512spr_x4
  | .avx512gnr_x8 => some .avx512spr_x8
  | .avx512gnr_x16 => some .avx512spr_x16
  | .avx512gnr_x32 => some .avx512spr_x32
  | .avx512gnr_x64 => some .avx512spr_x64
  | .avx10_2dmr_x4 => some .avx512gnr_x4
  | .avx10_2dmr_x8 => some .avx512gnr_x8
  | .avx10_2dmr_x16 => some .avx512gnr_x16
  | .avx10_2dmr_x32 => some .avx512gnr_x32
  | .avx10_2dmr_x64 => some .avx512gnr_x64
  | .avx10_2nvl_x4 => some .avx512icl_x4
  | .avx10_2nvl_x8 => some .avx512icl_x8
  | .avx10_2nvl_x16 => some .avx512icl_x16
  | .avx10_2nvl_x32 => some .avx512icl_x32
  | .avx10_2nvl_x64 => some .avx512icl_x64
  | .neon_i8x16 => some .generic_i8x16
  | .neon_i8x32 => some .generic_i8x32
  | .neon_i16x8 => some .generic_i16x8
  | .neon_i16x16 => some .generic_i16x16
  | .neon_i32x4 => some .generic_i32x4
  | .neon_i32x8 => some .generic_i32x8
  | .vsx_i8x16 => some .generic_i8x16
  | .vsx_i8x32 => some .generic_i8x32
  | .vsx_i16x8 => some .generic_i16x8
  | .vsx_i16x16 => some .generic_i16x16
  | .vsx_i32x4 => some .generic_i32x4
  | .vsx_i32x8 => some .generic_i32x8
  | .rvv_x4 => some .generic_i1x4
  | .wasm_i32x4 => some .generic_i32x4
  | _ => none

/-- The gang size, `m_vectorWidth` (src/ispc.cpp:1215-2234). -/
def width : Target → Nat
  | .sse2_i32x4 | .sse41_i32x4 | .sse4_i32x4 | .avx1_i32x4 | .avx1_i64x4 | .avx2_i32x4
  | .avx2_i64x4 | .avx2vnni_i32x4 | .avx512skx_x4 | .avx512icl_x4 | .avx512spr_x4 | .avx512gnr_x4
  | .avx10_2dmr_x4 | .avx10_2nvl_x4 | .neon_i32x4 | .vsx_i32x4 | .rvv_x4 | .wasm_i32x4
  | .generic_i1x4 | .generic_i32x4 | .generic_i64x4 => 4
  | .sse2_i32x8 | .sse41_i16x8 | .sse41_i32x8 | .sse4_i16x8 | .sse4_i32x8 | .avx1_i32x8
  | .avx2_i32x8 | .avx2vnni_i32x8 | .avx512skx_x8 | .avx512icl_x8 | .avx512spr_x8 | .avx512gnr_x8
  | .avx10_2dmr_x8 | .avx10_2nvl_x8 | .neon_i16x8 | .neon_i32x8 | .vsx_i16x8 | .vsx_i32x8
  | .xelp_x8 | .xehpg_x8 | .xelpg_x8 | .generic_i1x8 | .generic_i16x8 | .generic_i32x8 => 8
  | .sse41_i8x16 | .sse4_i8x16 | .avx1_i32x16 | .avx2_i16x16 | .avx2_i32x16 | .avx2vnni_i32x16
  | .avx512skx_x16 | .avx512skx_x16_nozmm | .avx512icl_x16 | .avx512icl_x16_nozmm | .avx512spr_x16 | .avx512gnr_x16
  | .avx10_2dmr_x16 | .avx10_2nvl_x16 | .neon_i8x16 | .neon_i16x16 | .vsx_i8x16 | .vsx_i16x16
  | .xelp_x16 | .xehpg_x16 | .xehpc_x16 | .xelpg_x16 | .xe2hpg_x16 | .xe2lpg_x16
  | .generic_i1x16 | .generic_i8x16 | .generic_i16x16 | .generic_i32x16 => 16
  | .avx2_i8x32 | .avx512skx_x32 | .avx512icl_x32 | .avx512spr_x32 | .avx512gnr_x32 | .avx10_2dmr_x32
  | .avx10_2nvl_x32 | .neon_i8x32 | .vsx_i8x32 | .xehpc_x32 | .xe2hpg_x32 | .xe2lpg_x32
  | .generic_i1x32 | .generic_i8x32 => 32
  | .avx512skx_x64 | .avx512icl_x64 | .avx512spr_x64 | .avx512gnr_x64 | .avx10_2dmr_x64 | .avx10_2nvl_x64
  | .generic_i1x64 => 64

/-- The bits of a mask element, `m_maskBitCount` (src/ispc.cpp:1215-2234). -/
def maskBits : Target → Nat
  | .avx512skx_x4 | .avx512skx_x8 | .avx512skx_x16 | .avx512skx_x16_nozmm | .avx512skx_x32 | .avx512skx_x64
  | .avx512icl_x4 | .avx512icl_x8 | .avx512icl_x16 | .avx512icl_x16_nozmm | .avx512icl_x32 | .avx512icl_x64
  | .avx512spr_x4 | .avx512spr_x8 | .avx512spr_x16 | .avx512spr_x32 | .avx512spr_x64 | .avx512gnr_x4
  | .avx512gnr_x8 | .avx512gnr_x16 | .avx512gnr_x32 | .avx512gnr_x64 | .avx10_2dmr_x4 | .avx10_2dmr_x8
  | .avx10_2dmr_x16 | .avx10_2dmr_x32 | .avx10_2dmr_x64 | .avx10_2nvl_x4 | .avx10_2nvl_x8 | .avx10_2nvl_x16
  | .avx10_2nvl_x32 | .avx10_2nvl_x64 | .rvv_x4 | .xelp_x8 | .xelp_x16 | .xehpg_x8
  | .xehpg_x16 | .xehpc_x16 | .xehpc_x32 | .xelpg_x8 | .xelpg_x16 | .xe2hpg_x16
  | .xe2hpg_x32 | .xe2lpg_x16 | .xe2lpg_x32 | .generic_i1x4 | .generic_i1x8 | .generic_i1x16
  | .generic_i1x32 | .generic_i1x64 => 1
  | .sse41_i8x16 | .sse4_i8x16 | .avx2_i8x32 | .neon_i8x16 | .neon_i8x32 | .vsx_i8x16
  | .vsx_i8x32 | .generic_i8x16 | .generic_i8x32 => 8
  | .sse41_i16x8 | .sse4_i16x8 | .avx2_i16x16 | .neon_i16x8 | .neon_i16x16 | .vsx_i16x8
  | .vsx_i16x16 | .generic_i16x8 | .generic_i16x16 => 16
  | .sse2_i32x4 | .sse2_i32x8 | .sse41_i32x4 | .sse41_i32x8 | .sse4_i32x4 | .sse4_i32x8
  | .avx1_i32x4 | .avx1_i32x8 | .avx1_i32x16 | .avx2_i32x4 | .avx2_i32x8 | .avx2_i32x16
  | .avx2vnni_i32x4 | .avx2vnni_i32x8 | .avx2vnni_i32x16 | .neon_i32x4 | .neon_i32x8 | .vsx_i32x4
  | .vsx_i32x8 | .wasm_i32x4 | .generic_i32x4 | .generic_i32x8 | .generic_i32x16 => 32
  | .avx1_i64x4 | .avx2_i64x4 | .generic_i64x4 => 64

/-- The targets met on the way from `t` to the root, as in the loop of `lCollectAllDefinedFunctions`
    (src/builtins.cpp:624-629), at most `fuel` of them. -/
def chainUpTo : Nat → Target → List Target
  | 0, _ => []
  | fuel + 1, t => t :: match parent t with
    | none => []
    | some p => chainUpTo fuel p


end Ispc.Targets
