import Verif.Front.Targets

/-!
# C84: the names of targets, architectures and systems, and the libraries behind them

A model of `src/target_enums.cpp` and `src/target_registry.cpp`: the names that `--target`, `--arch` and
`--target-os` accept, the keys under which the libraries of the compiler are kept, the choice of the libraries
for a compilation, and the lists of what is supported. Target, architecture and system are kept symbolically; text
is `String` for names and `List Char` for what is given by the user.
-/

namespace Ispc.Registry

open Ispc.Targets (Target)

/-- `TargetOS` (src/target_enums.h:21). -/
inductive OS where
  | windows | linux | custom_linux | freebsd | macos | android | ios | ps4 | ps5 | web | error
  deriving DecidableEq, Repr

/-- The loop `for (TargetOS os = TargetOS::windows; os < TargetOS::error; os++)` (src/target_registry.cpp:436),
    with the order of `operator++` (src/target_enums.cpp:20-43). -/
def OS.all : List OS := [.windows, .linux, .custom_linux, .freebsd, .macos, .android, .ios, .ps4, .ps5, .web]

/-- The number of a system in the enumeration (src/target_enums.h:21). -/
def OS.num : OS → Nat
  | .windows => 0 | .linux => 1 | .custom_linux => 2 | .freebsd => 3 | .macos => 4 | .android => 5 | .ios => 6
  | .ps4 => 7 | .ps5 => 8 | .web => 9 | .error => 10

/-- `Arch` (src/target_enums.h:29). -/
inductive Arch where
  | none | x86 | x86_64 | arm | aarch64 | riscv64 | ppc64le | wasm32 | wasm64 | xe64 | error
  deriving DecidableEq, Repr

/-- The loop `for (Arch arch = Arch::none; arch < Arch::error; arch++)` (src/target_registry.cpp:390). -/
def Arch.all : List Arch :=
  [.none, .x86, .x86_64, .arm, .aarch64, .riscv64, .ppc64le, .wasm32, .wasm64, .xe64]

/-- The number of an architecture in the enumeration (src/target_enums.h:29). -/
def Arch.num : Arch → Nat
  | .none => 0 | .x86 => 1 | .x86_64 => 2 | .arm => 3 | .aarch64 => 4 | .riscv64 => 5 | .ppc64le => 6
  | .wasm32 => 7 | .wasm64 => 8 | .xe64 => 9 | .error => 10

/-- `ISPCTarget` with its special values (src/target_enums.h:35-133). -/
inductive Tgt where
  | none | host | isa (t : Target) | error
  deriving DecidableEq, Repr

/-- The number of a target in the enumeration (src/target_enums.h:35-133): `none`, `host`, the targets, `error`. -/
def Tgt.num : Tgt → Nat
  | .none => 0
  | .host => 1
  | .isa t => Ispc.Targets.all.idxOf t + 2
  | .error => Ispc.Targets.all.length + 2

/-! ## Names -/

/-- The comparisons of `ParseISPCTarget` in their order (src/target_enums.cpp:398-598). `llvm22` says whether the
    compiler is built with LLVM 22 or later. -/
def table (llvm22 : Bool) : List (String × Tgt) :=
  [("host", .host), ("sse2-i32x4", .isa .sse2_i32x4), ("sse2", .isa .sse2_i32x4),
   ("sse2-i32x8", .isa .sse2_i32x8), ("sse2-x2", .isa .sse2_i32x8), ("sse4-i8x16", .isa .sse4_i8x16),
   ("sse4.2-i8x16", .isa .sse4_i8x16), ("sse4-i16x8", .isa .sse4_i16x8), ("sse4.2-i16x8", .isa .sse4_i16x8),
   ("sse4-i32x4", .isa .sse4_i32x4), ("sse4", .isa .sse4_i32x4), ("sse4.2-i32x4", .isa .sse4_i32x4),
   ("sse4-i32x8", .isa .sse4_i32x8), ("sse4-x2", .isa .sse4_i32x8), ("sse4x2", .isa .sse4_i32x8),
   ("sse4.2-i32x8", .isa .sse4_i32x8), ("sse4.1-i8x16", .isa .sse41_i8x16),
   ("sse4.1-i16x8", .isa .sse41_i16x8), ("sse4.1-i32x4", .isa .sse41_i32x4),
   ("sse4.1-i32x8", .isa .sse41_i32x8), ("avx1-i32x4", .isa .avx1_i32x4), ("avx1-i32x8", .isa .avx1_i32x8),
   ("avx", .isa .avx1_i32x8), ("avx1", .isa .avx1_i32x8), ("avx1-i64x4", .isa .avx1_i64x4),
   ("avx-i64x4", .isa .avx1_i64x4), ("avx1-i32x16", .isa .avx1_i32x16), ("avx-x2", .isa .avx1_i32x16),
   ("avx1-x2", .isa .avx1_i32x16), ("avx2-i8x32", .isa .avx2_i8x32), ("avx2-i16x16", .isa .avx2_i16x16),
   ("avx2-i32x4", .isa .avx2_i32x4), ("avx2-i32x8", .isa .avx2_i32x8), ("avx2", .isa .avx2_i32x8),
   ("avx2-i64x4", .isa .avx2_i64x4), ("avx2-i32x16", .isa .avx2_i32x16), ("avx2-x2", .isa .avx2_i32x16),
   ("avx2vnni-i32x4", .isa .avx2vnni_i32x4), ("avx2vnni-i32x8", .isa .avx2vnni_i32x8),
   ("avx2vnni-i32x16", .isa .avx2vnni_i32x16), ("avx512skx-x4", .isa .avx512skx_x4),
   ("avx512skx-i32x4", .isa .avx512skx_x4), ("avx512skx-x8", .isa .avx512skx_x8),
   ("avx512skx-i32x8", .isa .avx512skx_x8), ("avx512skx-x16", .isa .avx512skx_x16),
   ("avx512skx-i32x16", .isa .avx512skx_x16), ("avx512skx-x16-nozmm", .isa .avx512skx_x16_nozmm),
   ("avx512skx-x32", .isa .avx512skx_x32), ("avx512skx-i16x32", .isa .avx512skx_x32),
   ("avx512skx-x64", .isa .avx512skx_x64), ("avx512skx-i8x64", .isa .avx512skx_x64),
   ("avx512icl-x4", .isa .avx512icl_x4), ("avx512icl-x8", .isa .avx512icl_x8),
   ("avx512icl-x16", .isa .avx512icl_x16), ("avx512icl-x16-nozmm", .isa .avx512icl_x16_nozmm),
   ("avx512icl-x32", .isa .avx512icl_x32), ("avx512icl-x64", .isa .avx512icl_x64),
   ("avx512spr-x4", .isa .avx512spr_x4), ("avx512spr-x8", .isa .avx512spr_x8),
   ("avx512spr-x16", .isa .avx512spr_x16), ("avx512spr-x32", .isa .avx512spr_x32),
   ("avx512spr-x64", .isa .avx512spr_x64), ("avx512gnr-x4", .isa .avx512gnr_x4),
   ("avx512gnr-x8", .isa .avx512gnr_x8), ("avx512gnr-x16", .isa .avx512gnr_x16),
   ("avx512gnr-x32", .isa .avx512gnr_x32), ("avx512gnr-x64", .isa .avx512gnr_x64),
   ("avx10.2dmr-x4", .isa .avx10_2dmr_x4), ("avx10.2dmr-x8", .isa .avx10_2dmr_x8),
   ("avx10.2dmr-x16", .isa .avx10_2dmr_x16), ("avx10.2dmr-x32", .isa .avx10_2dmr_x32),
   ("avx10.2dmr-x64", .isa .avx10_2dmr_x64)] ++
  (if llvm22 then
  [("avx10.2nvl-x4", .isa .avx10_2nvl_x4), ("avx10.2nvl-x8", .isa .avx10_2nvl_x8),
   ("avx10.2nvl-x16", .isa .avx10_2nvl_x16), ("avx10.2nvl-x32", .isa .avx10_2nvl_x32),
   ("avx10.2nvl-x64", .isa .avx10_2nvl_x64)] else []) ++
  [("neon-i8x16", .isa .neon_i8x16), ("neon-i8x32", .isa .neon_i8x32), ("neon-i16x8", .isa .neon_i16x8),
   ("neon-i16x16", .isa .neon_i16x16), ("neon-i32x4", .isa .neon_i32x4), ("neon", .isa .neon_i32x4),
   ("neon-i32x8", .isa .neon_i32x8), ("vsx-i8x16", .isa .vsx_i8x16), ("vsx-i8x32", .isa .vsx_i8x32),
   ("vsx-i16x8", .isa .vsx_i16x8), ("vsx-i16x16", .isa .vsx_i16x16), ("vsx-i32x4", .isa .vsx_i32x4),
   ("vsx", .isa .vsx_i32x4), ("vsx-i32x8", .isa .vsx_i32x8), ("rvv-x4", .isa .rvv_x4),
   ("wasm-i32x4", .isa .wasm_i32x4), ("xelp-x8", .isa .xelp_x8), ("xelp-x16", .isa .xelp_x16),
   ("xelp", .isa .xelp_x16), ("xehpg-x8", .isa .xehpg_x8), ("xehpg-x16", .isa .xehpg_x16),
   ("xehpc-x16", .isa .xehpc_x16), ("xehpc-x32", .isa .xehpc_x32), ("xelpg-x8", .isa .xelpg_x8),
   ("xelpg-x16", .isa .xelpg_x16), ("xe2hpg-x16", .isa .xe2hpg_x16), ("xe2hpg-x32", .isa .xe2hpg_x32),
   ("xe2lpg-x16", .isa .xe2lpg_x16), ("xe2lpg-x32", .isa .xe2lpg_x32), ("generic-i1x4", .isa .generic_i1x4),
   ("generic-i1x8", .isa .generic_i1x8), ("generic-i1x16", .isa .generic_i1x16),
   ("generic-i1x32", .isa .generic_i1x32), ("generic-i1x64", .isa .generic_i1x64),
   ("generic-i8x16", .isa .generic_i8x16), ("generic-i8x32", .isa .generic_i8x32),
   ("generic-i16x8", .isa .generic_i16x8), ("generic-i16x16", .isa .generic_i16x16),
   ("generic-i32x4", .isa .generic_i32x4), ("generic-i32x8", .isa .generic_i32x8),
   ("generic-i32x16", .isa .generic_i32x16), ("generic-i64x4", .isa .generic_i64x4)]

/-- `ParseISPCTarget` (src/target_enums.cpp:398-598). -/
def parse (llvm22 : Bool) (s : List Char) : Tgt :=
  match (table llvm22).find? (fun p => p.1.toList == s) with
  | some p => p.2
  | Option.none => .error

/-- `ISPCTargetToString` (src/target_enums.cpp:630-828). The value `error`, for which the code stops with a message,
    has no name here. -/
def name : Tgt → String
  | .host => "host"
  | .isa .sse2_i32x4 => "sse2-i32x4"
  | .isa .sse2_i32x8 => "sse2-i32x8"
  | .isa .sse41_i8x16 => "sse4.1-i8x16"
  | .isa .sse41_i16x8 => "sse4.1-i16x8"
  | .isa .sse41_i32x4 => "sse4.1-i32x4"
  | .isa .sse41_i32x8 => "sse4.1-i32x8"
  | .isa .sse4_i8x16 => "sse4.2-i8x16"
  | .isa .sse4_i16x8 => "sse4.2-i16x8"
  | .isa .sse4_i32x4 => "sse4.2-i32x4"
  | .isa .sse4_i32x8 => "sse4.2-i32x8"
  | .isa .avx1_i32x4 => "avx1-i32x4"
  | .isa .avx1_i32x8 => "avx1-i32x8"
  | .isa .avx1_i32x16 => "avx1-i32x16"
  | .isa .avx1_i64x4 => "avx1-i64x4"
  | .isa .avx2_i8x32 => "avx2-i8x32"
  | .isa .avx2_i16x16 => "avx2-i16x16"
  | .isa .avx2_i32x4 => "avx2-i32x4"
  | .isa .avx2_i32x8 => "avx2-i32x8"
  | .isa .avx2_i32x16 => "avx2-i32x16"
  | .isa .avx2_i64x4 => "avx2-i64x4"
  | .isa .avx2vnni_i32x4 => "avx2vnni-i32x4"
  | .isa .avx2vnni_i32x8 => "avx2vnni-i32x8"
  | .isa .avx2vnni_i32x16 => "avx2vnni-i32x16"
  | .isa .avx512skx_x4 => "avx512skx-x4"
  | .isa .avx512skx_x8 => "avx512skx-x8"
  | .isa .avx512skx_x16 => "avx512skx-x16"
  | .isa .avx512skx_x16_nozmm => "avx512skx-x16"
  | .isa .avx512skx_x32 => "avx512skx-x32"
  | .isa .avx512skx_x64 => "avx512skx-x64"
  | .isa .avx512icl_x4 => "avx512icl-x4"
  | .isa .avx512icl_x8 => "avx512icl-x8"
  | .isa .avx512icl_x16 => "avx512icl-x16"
  | .isa .avx512icl_x16_nozmm => "avx512icl-x16"
  | .isa .avx512icl_x32 => "avx512icl-x32"
  | .isa .avx512icl_x64 => "avx512icl-x64"
  | .isa .avx512spr_x4 => "avx512spr-x4"
  | .isa .avx512spr_x8 => "avx512spr-x8"
  | .isa .avx512spr_x16 => "avx512spr-x16"
  | .isa .avx512spr_x32 => "avx512spr-x32"
  | .isa .avx512spr_x64 => "avx512spr-x64"
  | .isa .avx512gnr_x4 => "avx512gnr-x4"
  | .isa .avx512gnr_x8 => "avx512gnr-x8"
  | .isa .avx512gnr_x16 => "avx512gnr-x16"
  | .isa .avx512gnr_x32 => "avx512gnr-x32"
  | .isa .avx512gnr_x64 => "avx512gnr-x64"
  | .isa .avx10_2dmr_x4 => "avx10.2dmr-x4"
  | .isa .avx10_2dmr_x8 => "avx10.2dmr-x8"
  | .isa .avx10_2dmr_x16 => "avx10.2dmr-x16"
  | .isa .avx10_2dmr_x32 => "avx10.2dmr-x32"
  | .isa .avx10_2dmr_x64 => "avx10.2dmr-x64"
  | .isa .avx10_2nvl_x4 => "avx10.2nvl-x4"
  | .isa .avx10_2nvl_x8 => "avx10.2nvl-x8"
  | .isa .avx10_2nvl_x16 => "avx10.2nvl-x16"
  | .isa .avx10_2nvl_x32 => "avx10.2nvl-x32"
  | .isa .avx10_2nvl_x64 => "avx10.2nvl-x64"
  | .isa .neon_i8x16 => "neon-i8x16"
  | .isa .neon_i8x32 => "neon-i8x32"
  | .isa .neon_i16x8 => "neon-i16x8"
  | .isa .neon_i16x16 => "neon-i16x16"
  | .isa .neon_i32x4 => "neon-i32x4"
  | .isa .neon_i32x8 => "neon-i32x8"
  | .isa .vsx_i8x16 => "vsx-i8x16"
  | .isa .vsx_i8x32 => "vsx-i8x32"
  | .isa .vsx_i16x8 => "vsx-i16x8"
  | .isa .vsx_i16x16 => "vsx-i16x16"
  | .isa .vsx_i32x4 => "vsx-i32x4"
  | .isa .vsx_i32x8 => "vsx-i32x8"
  | .isa .rvv_x4 => "rvv-x4"
  | .isa .wasm_i32x4 => "wasm-i32x4"
  | .isa .xelp_x8 => "xelp-x8"
  | .isa .xelp_x16 => "xelp-x16"
  | .isa .xehpg_x8 => "xehpg-x8"
  | .isa .xehpg_x16 => "xehpg-x16"
  | .isa .xehpc_x16 => "xehpc-x16"
  | .isa .xehpc_x32 => "xehpc-x32"
  | .isa .xelpg_x8 => "xelpg-x8"
  | .isa .xelpg_x16 => "xelpg-x16"
  | .isa .xe2hpg_x16 => "xe2hpg-x16"
  | .isa .xe2hpg_x32 => "xe2hpg-x32"
  | .isa .xe2lpg_x16 => "xe2lpg-x16"
  | .isa .xe2lpg_x32 => "xe2lpg-x32"
  | .isa .generic_i1x4 => "generic-i1x4"
  | .isa .generic_i1x8 => "generic-i1x8"
  | .isa .generic_i1x16 => "generic-i1x16"
  | .isa .generic_i1x32 => "generic-i1x32"
  | .isa .generic_i1x64 => "generic-i1x64"
  | .isa .generic_i8x16 => "generic-i8x16"
  | .isa .generic_i8x32 => "generic-i8x32"
  | .isa .generic_i16x8 => "generic-i16x8"
  | .isa .generic_i16x16 => "generic-i16x16"
  | .isa .generic_i32x4 => "generic-i32x4"
  | .isa .generic_i32x8 => "generic-i32x8"
  | .isa .generic_i32x16 => "generic-i32x16"
  | .isa .generic_i64x4 => "generic-i64x4"
  | .none => "none"
  | .error => ""

/-- `strchr(tstart, ',')` again and again (src/target_enums.cpp:609-615): the pieces of the text between commas. -/
def pieces : List Char → List (List Char)
  | [] => [[]]
  | c :: r =>
    if c = ',' then [] :: pieces r
    else match pieces r with
      | p :: ps => (c :: p) :: ps
      | [] => [[c]]

/-- One round of the loop of `ParseISPCTargets` (src/target_enums.cpp:615-624). -/
def addPiece (llvm22 : Bool) (st : List Tgt × List Char) (p : List Char) : List Tgt × List Char :=
  let t := parse llvm22 p
  if t = .error then (st.1, (if st.2.isEmpty then st.2 else st.2 ++ [',']) ++ p)
  else (st.1 ++ [t], st.2)

/-- `ParseISPCTargets` (src/target_enums.cpp:604-628): the targets and the text of those not recognised. -/
def parseTargets (llvm22 : Bool) (s : List Char) : List Tgt × List Char :=
  (pieces s).foldl (addPiece llvm22) ([], [])

/-- The options `--target` and `--target=` report an error (src/args.cpp:846-863). -/
def targetsError (llvm22 : Bool) (s : List Char) : Bool := !(parseTargets llvm22 s).2.isEmpty

/-- `ParseArch` (src/target_enums.cpp:343-364). -/
def parseArch (s : List Char) : Arch :=
  if s = "x86".toList then .x86
  else if s = "x86_64".toList ∨ s = "x86-64".toList then .x86_64
  else if s = "arm".toList then .arm
  else if s = "aarch64".toList then .aarch64
  else if s = "riscv64".toList then .riscv64
  else if s = "ppc64le".toList then .ppc64le
  else if s = "wasm32".toList then .wasm32
  else if s = "wasm64".toList then .wasm64
  else if s = "xe64".toList then .xe64
  else .error

/-- `ArchToString` (src/target_enums.cpp:366-396). -/
def archName : Arch → String
  | .none => "none" | .x86 => "x86" | .x86_64 => "x86-64" | .arm => "arm" | .aarch64 => "aarch64"
  | .riscv64 => "riscv64" | .ppc64le => "ppc64le" | .wasm32 => "wasm32" | .wasm64 => "wasm64" | .xe64 => "xe64"
  | .error => "error"

/-- `OSToLowerString` (src/target_enums.cpp:1060-1086). -/
def osName : OS → String
  | .windows => "windows" | .linux => "linux" | .custom_linux => "custom_linux" | .freebsd => "freebsd"
  | .macos => "macos" | .android => "android" | .ios => "ios" | .ps4 => "ps4" | .ps5 => "ps5" | .web => "web"
  | .error => "error"

/-! ## Classes of targets -/

/-- `ISPCTargetIsX86` (src/target_enums.cpp:830-891). -/
def isX86 : Target → Bool
  | .sse2_i32x4 | .sse2_i32x8 | .sse41_i8x16 | .sse41_i16x8 | .sse41_i32x4 | .sse41_i32x8 | .sse4_i8x16
  | .sse4_i16x8 | .sse4_i32x4 | .sse4_i32x8 | .avx1_i32x4 | .avx1_i32x8 | .avx1_i32x16 | .avx1_i64x4
  | .avx2_i8x32 | .avx2_i16x16 | .avx2_i32x4 | .avx2_i32x8 | .avx2_i32x16 | .avx2_i64x4 | .avx2vnni_i32x4
  | .avx2vnni_i32x8 | .avx2vnni_i32x16 | .avx512skx_x4 | .avx512skx_x8 | .avx512skx_x16 | .avx512skx_x16_nozmm
  | .avx512skx_x32 | .avx512skx_x64 | .avx512icl_x4 | .avx512icl_x8 | .avx512icl_x16 | .avx512icl_x16_nozmm
  | .avx512icl_x32 | .avx512icl_x64 | .avx512spr_x4 | .avx512spr_x8 | .avx512spr_x16 | .avx512spr_x32
  | .avx512spr_x64 | .avx512gnr_x4 | .avx512gnr_x8 | .avx512gnr_x16 | .avx512gnr_x32 | .avx512gnr_x64
  | .avx10_2dmr_x4 | .avx10_2dmr_x8 | .avx10_2dmr_x16 | .avx10_2dmr_x32 | .avx10_2dmr_x64 | .avx10_2nvl_x4
  | .avx10_2nvl_x8 | .avx10_2nvl_x16 | .avx10_2nvl_x32 | .avx10_2nvl_x64 => true
  | _ => false

/-- `ISPCTargetIsNeon` (src/target_enums.cpp:916-928). -/
def isNeon : Target → Bool
  | .neon_i8x16 | .neon_i8x32 | .neon_i16x8 | .neon_i16x16 | .neon_i32x4 | .neon_i32x8 => true
  | _ => false

/-- `ISPCTargetIsRiscV` (src/target_enums.cpp:930-937). -/
def isRiscV : Target → Bool
  | .rvv_x4 => true
  | _ => false

/-- `ISPCTargetIsWasm` (src/target_enums.cpp:939-946). -/
def isWasm : Target → Bool
  | .wasm_i32x4 => true
  | _ => false

/-- `ISPCTargetIsGen` (src/target_enums.cpp:948-966). -/
def isGen : Target → Bool
  | .xelp_x8 | .xelp_x16 | .xehpg_x8 | .xehpg_x16 | .xehpc_x16 | .xehpc_x32 | .xelpg_x8 | .xelpg_x16
  | .xe2hpg_x16 | .xe2hpg_x32 | .xe2lpg_x16 | .xe2lpg_x32 => true
  | _ => false

/-- `ISPCTargetIsGeneric` (src/target_enums.cpp:968-987). -/
def isGeneric : Target → Bool
  | .generic_i1x4 | .generic_i1x8 | .generic_i1x16 | .generic_i1x32 | .generic_i1x64 | .generic_i8x16
  | .generic_i8x32 | .generic_i16x8 | .generic_i16x16 | .generic_i32x4 | .generic_i32x8 | .generic_i32x16
  | .generic_i64x4 => true
  | _ => false

/-- `ISPCTargetIsVSX` (src/target_enums.cpp:989-1001). -/
def isVSX : Target → Bool
  | .vsx_i8x16 | .vsx_i8x32 | .vsx_i16x8 | .vsx_i16x16 | .vsx_i32x4 | .vsx_i32x8 => true
  | _ => false

/-- `lIsTargetValidforArch` (src/ispc.cpp:283-305). -/
def validForArch (t : Target) (a : Arch) : Bool :=
  if isX86 t then a = .x86_64 ∨ a = .x86
  else if isNeon t then a = .arm ∨ a = .aarch64
  else if isVSX t then a = .ppc64le
  else if isGen t then a = .xe64
  else true

/-! ## The registry -/

/-- `bits_required` (src/target_registry.cpp:24-31); 32 rounds are enough for `uint32_t`. -/
def bitsRequired : Nat → Nat → Nat
  | 0, _ => 0
  | fuel + 1, x => if 0 < x then bitsRequired fuel (x / 2) + 1 else 0

/-- `Triple::target_width` (src/target_registry.cpp:35). -/
def targetWidth : Nat := bitsRequired 32 (Tgt.num .error)
/-- `Triple::os_width` (src/target_registry.cpp:36). -/
def osWidth : Nat := bitsRequired 32 (OS.num .error)
/-- `Triple::arch_width` (src/target_registry.cpp:37). -/
def archWidth : Nat := bitsRequired 32 (Arch.num .error)

/-- `Triple::encode` (src/target_registry.cpp:56-61); the values fit into 32 bits, see `encode_fits`. -/
def encode (t : Tgt) (os : OS) (a : Arch) : Nat :=
  (a.num * 2 ^ osWidth + os.num) * 2 ^ targetWidth + t.num

/-- `BitcodeLib::BitcodeLibType` (src/bitcode_lib.h:21). -/
inductive Kind where
  | dispatch | builtinsC | target | stdlib
  deriving DecidableEq, Repr

/-- A library that is linked into the compiler or lies beside it, as `BitcodeLib` describes it
    (src/bitcode_lib.cpp:27-78). `id` stands for its contents. -/
structure Lib where
  kind : Kind
  tgt : Tgt
  os : OS
  arch : Arch
  id : Nat
  deriving DecidableEq, Repr

/-- `std::map<uint32_t, const BitcodeLib *>` with `m[k] = v` and `find` (src/target_registry.h:52-62). -/
abbrev Map := Nat → Option Lib

/-- `m[k] = v`, part of `TargetLibRegistry::TargetLibRegistry` (src/target_registry.cpp:84). -/
def Map.set (m : Map) (k : Nat) (l : Lib) : Map := fun k' => if k' = k then some l else m k'

/-- The members of `TargetLibRegistry` (src/target_registry.h:41-65). -/
structure Reg where
  dispatch : Option Lib
  dispatchMac : Option Lib
  builtins : Map
  targets : Map
  stdlibs : Map
  oses : OS → Bool

/-- The registry before any library is entered (src/target_registry.cpp:66-73). -/
def Reg.empty : Reg :=
  ⟨Option.none, Option.none, fun _ => Option.none, fun _ => Option.none, fun _ => Option.none, fun _ => false⟩

/-- `linux` on ARM is also `custom_linux` (src/target_registry.cpp:88-91). -/
def isCustomAlias (l : Lib) : Bool := l.os = .linux ∧ (l.arch = .arm ∨ l.arch = .aarch64)

/-- The three assignments for one library, under its own system and the systems it also stands for
    (src/target_registry.cpp:84-96, 99-108 and 111-119). -/
def enter (m : Map) (l : Lib) : Map :=
  let m := m.set (encode l.tgt l.os l.arch) l
  let m := if isCustomAlias l then m.set (encode l.tgt .custom_linux l.arch) l else m
  if l.os = .ps4 then m.set (encode l.tgt .ps5 l.arch) l else m

/-- `m_supported_oses[...] = true` (src/target_registry.cpp:85, 90 and 95). -/
def enterOS (f : OS → Bool) (l : Lib) : OS → Bool := fun o =>
  f o || decide (o = l.os) || (isCustomAlias l && decide (o = .custom_linux))
    || (decide (l.os = .ps4) && decide (o = .ps5))

/-- One round of the loop of the constructor (src/target_registry.cpp:74-122). -/
def add (r : Reg) (l : Lib) : Reg :=
  match l.kind with
  | .dispatch => if l.os = .macos then { r with dispatchMac := some l } else { r with dispatch := some l }
  | .builtinsC => { r with builtins := enter r.builtins l, oses := enterOS r.oses l }
  | .target => { r with targets := enter r.targets l }
  | .stdlib => { r with stdlibs := enter r.stdlibs l }

/-- `TargetLibRegistry::TargetLibRegistry` after the registrations `libs` (src/target_registry.cpp:66-130). -/
def build (libs : List Lib) : Reg := libs.foldl add Reg.empty

/-- `getDispatchLib` (src/target_registry.cpp:137-139). -/
def getDispatch (r : Reg) (os : OS) : Option Lib := if os = .macos then r.dispatchMac else r.dispatch

/-- `getBuiltinsCLib` (src/target_registry.cpp:141-147). -/
def getBuiltins (r : Reg) (os : OS) (a : Arch) : Option Lib := r.builtins (encode .none os a)

/-- `aliasParentMap` and `lGetAliasTarget` (src/target_registry.cpp:153-170). -/
def aliasOf : Target → Option Target
  | .avx1_i32x4 => some .sse4_i32x4
  | .sse41_i32x4 => some .sse4_i32x4
  | .sse41_i32x8 => some .sse4_i32x8
  | .sse41_i8x16 => some .sse4_i8x16
  | .sse41_i16x8 => some .sse4_i16x8
  | _ => Option.none

/-- The targets that are left out on macOS (src/target_registry.cpp:179-190). -/
def notOnMac : Target → Bool
  | .avx512spr_x4 | .avx512spr_x8 | .avx512spr_x16 | .avx512spr_x32 | .avx512spr_x64
  | .avx512gnr_x4 | .avx512gnr_x8 | .avx512gnr_x16 | .avx512gnr_x32 | .avx512gnr_x64
  | .avx10_2dmr_x4 | .avx10_2dmr_x8 | .avx10_2dmr_x16 | .avx10_2dmr_x32 | .avx10_2dmr_x64
  | .avx10_2nvl_x4 | .avx10_2nvl_x8 | .avx10_2nvl_x16 | .avx10_2nvl_x32 | .avx10_2nvl_x64 => true
  | _ => false

/-- The replacement under `--opt=disable-zmm` (src/target_registry.cpp:194-199). -/
def noZmm (disableZmm : Bool) (t : Target) : Target :=
  if t = .avx512skx_x16 ∧ disableZmm then .avx512skx_x16_nozmm
  else if t = .avx512icl_x16 ∧ disableZmm then .avx512icl_x16_nozmm
  else t

/-- `lCanonicalizeTarget` (src/target_registry.cpp:175-210). -/
def canonTarget (disableZmm : Bool) (t : Target) (os : OS) (aliases : Bool) : Option Target :=
  if os = .macos ∧ notOnMac t then Option.none
  else
    let t := noZmm disableZmm t
    some (if aliases then (aliasOf t).getD t else t)

/-- The systems that share their libraries (src/target_registry.cpp:223-240); `error` does not get here. -/
def canonOS : OS → OS
  | .windows => .windows
  | .web => .web
  | .error => .error
  | _ => .linux

/-- `lGetTargetLib` (src/target_registry.cpp:212-247). -/
def getLib (m : Map) (disableZmm : Bool) (t : Target) (os : OS) (a : Arch) : Option Lib :=
  match canonTarget disableZmm t os true with
  | Option.none => Option.none
  | some t' => m (encode (.isa t') (canonOS os) a)

/-- `getISPCTargetLib` (src/target_registry.cpp:249-251). -/
def getTarget (r : Reg) (disableZmm : Bool) (t : Target) (os : OS) (a : Arch) : Option Lib :=
  getLib r.targets disableZmm t os a

/-- `stdlibTargetMap`, generated from the families (cmake/StdlibFamilies.cmake:61-101 and 173-223), for an LLVM
    version that has all targets. -/
def stdlibBase : Target → Option Target
  | .avx512skx_x4 | .avx512icl_x4 | .avx512spr_x4 | .avx512gnr_x4
  | .avx10_2dmr_x4 | .avx10_2nvl_x4 => some .generic_i1x4
  | .avx512skx_x8 | .avx512icl_x8 | .avx512spr_x8 | .avx512gnr_x8
  | .avx10_2dmr_x8 | .avx10_2nvl_x8 => some .generic_i1x8
  | .avx512skx_x16 | .avx512icl_x16 | .avx512spr_x16 | .avx512gnr_x16
  | .avx10_2dmr_x16 | .avx10_2nvl_x16 => some .generic_i1x16
  | .avx512skx_x32 | .avx512icl_x32 | .avx512spr_x32 | .avx512gnr_x32
  | .avx10_2dmr_x32 | .avx10_2nvl_x32 => some .generic_i1x32
  | .avx512skx_x64 | .avx512icl_x64 | .avx512spr_x64 | .avx512gnr_x64
  | .avx10_2dmr_x64 | .avx10_2nvl_x64 => some .generic_i1x64
  | .sse2_i32x4 | .sse4_i32x4 => some .generic_i32x4
  | .sse2_i32x8 | .sse4_i32x8 => some .generic_i32x8
  | .avx1_i32x16 | .avx2_i32x16 | .avx2vnni_i32x16 => some .generic_i32x16
  | .avx1_i64x4 | .avx2_i64x4 => some .generic_i64x4
  | .sse4_i16x8 => some .generic_i16x8
  | .avx2_i16x16 => some .generic_i16x16
  | .sse4_i8x16 => some .generic_i8x16
  | .avx2_i8x32 => some .generic_i8x32
  | .avx2_i32x8 | .avx2vnni_i32x8 => some .avx1_i32x8
  | .avx2vnni_i32x4 => some .avx2_i32x4
  | .neon_i8x16 => some .generic_i8x16
  | .neon_i16x8 => some .generic_i16x8
  | .neon_i16x16 => some .generic_i16x16
  | .neon_i32x4 => some .generic_i32x4
  | .neon_i32x8 => some .generic_i32x8
  | .neon_i8x32 => some .generic_i8x32
  | .vsx_i8x16 => some .generic_i8x16
  | .vsx_i8x32 => some .generic_i8x32
  | .vsx_i16x8 => some .generic_i16x8
  | .vsx_i16x16 => some .generic_i16x16
  | .vsx_i32x4 => some .generic_i32x4
  | .vsx_i32x8 => some .generic_i32x8
  | _ => none

/-- `mapToStdlibTarget` (src/target_registry.cpp:258-277). An alias has no alias itself, so that one step is enough
    for the recursion. -/
def stdlibTarget (t : Target) : Target :=
  match stdlibBase t with
  | some b => b
  | Option.none =>
    match aliasOf t with
    | some p => (stdlibBase p).getD p
    | Option.none => t

/-- `getISPCStdLib` (src/target_registry.cpp:279-292). -/
def getStdlib (r : Reg) (disableZmm : Bool) (t : Target) (os : OS) (a : Arch) : Option Lib :=
  match canonTarget disableZmm t os false with
  | Option.none => Option.none
  | some t' => getLib r.stdlibs disableZmm (stdlibTarget t') os a

/-- `isSupported` (src/target_registry.cpp:448-457). -/
def isSupported (r : Reg) (disableZmm : Bool) (t : Target) (os : OS) (a : Arch) : Bool :=
  (getBuiltins r os a).isSome && (getTarget r disableZmm t os a).isSome

/-- The cell of the support matrix for a target and a system (src/target_registry.cpp:346-358). -/
def cell (r : Reg) (disableZmm : Bool) (t : Target) (os : OS) : List Arch :=
  Arch.all.filter (isSupported r disableZmm t os)

/-- The architectures of `getSupportedArchs`, in their order (src/target_registry.cpp:388-406). -/
def supportedArchs (r : Reg) (disableZmm : Bool) : List Arch :=
  Arch.all.filter fun a => Ispc.Targets.all.any fun t => OS.all.any fun os => isSupported r disableZmm t os a

/-- The targets of `getSupportedTargets` (src/target_registry.cpp:408-430); that the names are sorted is left out. -/
def supportedTargets (r : Reg) (disableZmm : Bool) : List Target :=
  Ispc.Targets.all.filter fun t => Arch.all.any fun a => OS.all.any fun os => isSupported r disableZmm t os a

/-- Names separated by a comma and a space (src/target_registry.cpp:438-441). -/
def joinNames : List String → List Char
  | [] => []
  | [n] => n.toList
  | n :: rest => n.toList ++ ',' :: ' ' :: joinNames rest

/-- `getSupportedOSes` (src/target_registry.cpp:432-446). -/
def supportedOSes (r : Reg) : List Char := joinNames ((OS.all.filter r.oses).map osName)

/-- `ParseOS` (src/target_enums.cpp:1003-1030): the text has to occur somewhere in the list of the supported systems
    and be the name of a system. -/
def parseOS (r : Reg) (s : List Char) : OS :=
  if ¬ s <:+: supportedOSes r then .error
  else if s = "windows".toList then .windows
  else if s = "linux".toList then .linux
  else if s = "custom_linux".toList then .custom_linux
  else if s = "freebsd".toList then .freebsd
  else if s = "macos".toList then .macos
  else if s = "android".toList then .android
  else if s = "ios".toList then .ios
  else if s = "ps4".toList then .ps4
  else if s = "ps5".toList then .ps5
  else if s = "web".toList then .web
  else .error

/-- The two checks of `Target::Target` that a combination has to pass (src/ispc.cpp:1177-1183 and 2354-2361), without
    those of the device. -/
def accepted (r : Reg) (disableZmm : Bool) (t : Target) (os : OS) (a : Arch) : Bool :=
  validForArch t a && isSupported r disableZmm t os a

/-! ## What the build registers for x86 -/

/-- `X86_TARGETS` (CMakeLists.txt:384-406), for an LLVM version that has all targets. -/
def x86Targets : List Target :=
  [.sse2_i32x4, .sse2_i32x8, .sse4_i32x4, .sse4_i32x8, .sse4_i8x16, .sse4_i16x8, .avx1_i32x8, .avx1_i32x16,
   .avx1_i64x4, .avx2_i8x32, .avx2_i16x16, .avx2_i32x4, .avx2_i32x8, .avx2_i32x16, .avx2_i64x4, .avx2vnni_i32x4,
   .avx2vnni_i32x8, .avx2vnni_i32x16, .avx512skx_x4, .avx512skx_x8, .avx512skx_x16, .avx512skx_x16_nozmm,
   .avx512skx_x32, .avx512skx_x64, .avx512icl_x4, .avx512icl_x8, .avx512icl_x16, .avx512icl_x16_nozmm,
   .avx512icl_x32, .avx512icl_x64, .avx512spr_x4, .avx512spr_x8, .avx512spr_x16, .avx512spr_x32, .avx512spr_x64,
   .avx512gnr_x4, .avx512gnr_x8, .avx512gnr_x16, .avx512gnr_x32, .avx512gnr_x64, .avx10_2dmr_x4, .avx10_2dmr_x8,
   .avx10_2dmr_x16, .avx10_2dmr_x32, .avx10_2dmr_x64, .avx10_2nvl_x4, .avx10_2nvl_x8, .avx10_2nvl_x16,
   .avx10_2nvl_x32, .avx10_2nvl_x64]

/-- The generic targets (cmake/GenericTargets.cmake:43-57). -/
def genericTargets : List Target :=
  [.generic_i1x4, .generic_i1x8, .generic_i1x16, .generic_i1x32, .generic_i1x64, .generic_i8x16, .generic_i8x32,
   .generic_i16x8, .generic_i16x16, .generic_i32x4, .generic_i32x8, .generic_i32x16, .generic_i64x4]

/-- What a build registers for an x86 architecture and a system with libraries of its own: for every target and every
    generic target a target library and a standard library (cmake/CommonStdlibBuiltins.cmake:115-149,
    cmake/GenericTargets.cmake:92-107 and cmake/Stdlib.cmake:66-82). The flag `k` tells which. -/
def registersX86 (libs : List Lib) (os : OS) (a : Arch) : Prop :=
  ∀ k ∈ [Kind.target, Kind.stdlib], ∀ t ∈ x86Targets ++ genericTargets,
    ∃ l ∈ libs, l.kind = k ∧ l.tgt = .isa t ∧ l.os = os ∧ l.arch = a

end Ispc.Registry
