import Verif.Front.Targets

/-!
# C86: the files of a compilation

A model of the names of the files that a compilation writes, of the order of the writes when a program is compiled
for several targets at once, and of the dependency files: parts of `src/module.cpp`, `src/header.cpp`, `src/ispc.cpp`
and `src/args.cpp`. The contents of object files and headers are kept symbolically; names are lists of characters.
-/

namespace Ispc.OutFiles

open Ispc.Targets (Target)

abbrev Path := List Char

/-- `Target::ISA` (src/ispc.h:243-282) with all architectures enabled, without `AVX11` and `KNL_AVX512`, which no
    target has. -/
inductive Isa where
  | sse2 | sse41 | sse42 | avx | avx2 | avx2vnni | skx | icl | spr | gnr | nvl | dmr | neon | vsx | rv64gcv | wasm
  | xelp | xehpg | xehpc | xelpg | xe2hpg | xe2lpg
  deriving DecidableEq, Repr

/-- The loop over the numbers of the instruction sets (src/module.cpp:2646-2647). -/
def Isa.all : List Isa :=
  [.sse2, .sse41, .sse42, .avx, .avx2, .avx2vnni, .skx, .icl, .spr, .gnr, .nvl, .dmr, .neon, .vsx, .rv64gcv, .wasm,
   .xelp, .xehpg, .xehpc, .xelpg, .xe2hpg, .xe2lpg]

/-- `Target::TargetToISA` (src/ispc.cpp:3019-3190); none for the generic targets, where it stops the compiler. -/
def isaOf : Target → Option Isa
  | .sse2_i32x4 | .sse2_i32x8 => some .sse2
  | .sse4_i8x16 | .sse4_i16x8 | .sse4_i32x4 | .sse4_i32x8 => some .sse42
  | .sse41_i8x16 | .sse41_i16x8 | .sse41_i32x4 | .sse41_i32x8 => some .sse41
  | .avx1_i32x4 | .avx1_i32x8 | .avx1_i32x16 | .avx1_i64x4 => some .avx
  | .avx2_i8x32 | .avx2_i16x16 | .avx2_i32x4 | .avx2_i32x8 | .avx2_i32x16 | .avx2_i64x4 => some .avx2
  | .avx2vnni_i32x4 | .avx2vnni_i32x8 | .avx2vnni_i32x16 => some .avx2vnni
  | .avx512skx_x4 | .avx512skx_x8 | .avx512skx_x16 | .avx512skx_x16_nozmm | .avx512skx_x32 | .avx512skx_x64 =>
    some .skx
  | .avx512icl_x4 | .avx512icl_x8 | .avx512icl_x16 | .avx512icl_x16_nozmm | .avx512icl_x32 | .avx512icl_x64 =>
    some .icl
  | .avx512spr_x4 | .avx512spr_x8 | .avx512spr_x16 | .avx512spr_x32 | .avx512spr_x64 => some .spr
  | .avx512gnr_x4 | .avx512gnr_x8 | .avx512gnr_x16 | .avx512gnr_x32 | .avx512gnr_x64 => some .gnr
  | .avx10_2dmr_x4 | .avx10_2dmr_x8 | .avx10_2dmr_x16 | .avx10_2dmr_x32 | .avx10_2dmr_x64 => some .dmr
  | .avx10_2nvl_x4 | .avx10_2nvl_x8 | .avx10_2nvl_x16 | .avx10_2nvl_x32 | .avx10_2nvl_x64 => some .nvl
  | .neon_i8x16 | .neon_i8x32 | .neon_i16x8 | .neon_i16x16 | .neon_i32x4 | .neon_i32x8 => some .neon
  | .vsx_i8x16 | .vsx_i8x32 | .vsx_i16x8 | .vsx_i16x16 | .vsx_i32x4 | .vsx_i32x8 => some .vsx
  | .rvv_x4 => some .rv64gcv
  | .wasm_i32x4 => some .wasm
  | .xelp_x8 | .xelp_x16 => some .xelp
  | .xehpg_x8 | .xehpg_x16 => some .xehpg
  | .xehpc_x16 | .xehpc_x32 => some .xehpc
  | .xelpg_x8 | .xelpg_x16 => some .xelpg
  | .xe2hpg_x16 | .xe2hpg_x32 => some .xe2hpg
  | .xe2lpg_x16 | .xe2lpg_x32 => some .xe2lpg
  | _ => none

/-- `Target::ISAToString` (src/ispc.cpp:2895-2954). -/
def Isa.name : Isa → Path
  | .neon => "neon".toList
  | .vsx => "vsx".toList
  | .rv64gcv => "rv64gcv".toList
  | .wasm => "wasm".toList
  | .sse2 => "sse2".toList
  | .sse41 => "sse4".toList
  | .sse42 => "sse4".toList
  | .avx => "avx".toList
  | .avx2 => "avx2".toList
  | .avx2vnni => "avx2vnni".toList
  | .skx => "avx512skx".toList
  | .icl => "avx512icl".toList
  | .spr => "avx512spr".toList
  | .gnr => "avx512gnr".toList
  | .dmr => "avx10_2dmr".toList
  | .nvl => "avx10_2nvl".toList
  | .xelp => "xelp".toList
  | .xehpg => "xehpg".toList
  | .xehpc => "xehpc".toList
  | .xelpg => "xelpg".toList
  | .xe2hpg => "xe2hpg".toList
  | .xe2lpg => "xe2lpg".toList

/-! ## Names -/

/-- `find_last_of('.')` (src/module.cpp:1886, src/header.cpp:478). -/
def lastDot : Path → Option Nat
  | [] => none
  | c :: cs =>
    match lastDot cs with
    | some n => some (n + 1)
    | none => if c = '.' then some 0 else none

/-- `lGetMangledFileName` (src/module.cpp:1878-1896). -/
def mangle (file isa : Path) : Path :=
  match lastDot file with
  | some n => file.take n ++ '_' :: isa ++ file.drop n
  | none => file ++ '_' :: isa

/-- `Module::Output` and the flags of its dependency file (src/module.h:201-272). -/
structure Output where
  out : Path := []
  header : Path := []
  nbWrap : Path := []
  deps : Path := []
  depsTarget : Path := []
  hostStub : Path := []
  devStub : Path := []
  makeRule : Bool := false
  toStdout : Bool := false

/-- `Module::Output::DepsTargetName` (src/header.cpp:469-485). -/
def depsTargetName (o : Output) (src : Path) : Path :=
  if o.depsTarget ≠ [] then o.depsTarget
  else if o.out ≠ [] then o.out
  else if src ≠ ['-'] then
    (match lastDot src with
     | some n => src.take n
     | none => src) ++ ".o".toList
  else "a.out".toList

/-- `lCreateTargetOutputs` (src/module.cpp:2768-2791). -/
def targetOutput (o : Output) (isa : Path) : Output :=
  { o with
    out := if o.out ≠ [] then mangle o.out isa else o.out
    header := if o.header ≠ [] then mangle o.header isa else o.header
    hostStub := []
    devStub := []
    deps := []
    toStdout := false }

/-! ## Dependency files -/

/-- `Module::RegisterDependency` and `lIsStdlibPseudoFile` (src/module.cpp:115-139): the files that are kept, each
    once. The order of the set is not modelled. -/
def register (deps : List Path) (file : Path) : List Path :=
  if file.head? ≠ some '<' ∧ file ≠ "stdlib.ispc".toList ∧ file ≠ "/core.isph".toList ∧
      file ≠ "/stdlib.isph".toList then
    if file ∈ deps then deps else deps ++ [file]
  else deps

/-- The dependencies after the line markers of the source (src/lex.ll:937-970) named these files. -/
def depsOf (seen : List Path) : List Path := seen.foldl register []

/-- The table of `lUnescapeStringInPlace` (src/header.cpp:453-462). -/
def escapeOf : Char → Option Char
  | '\'' => some '\''
  | '?' => some '?'
  | '\\' => some '\\'
  | 'a' => some '\x07'
  | 'b' => some '\x08'
  | 'f' => some '\x0c'
  | 'n' => some '\n'
  | 'r' => some '\r'
  | 't' => some '\t'
  | 'v' => some '\x0b'
  | _ => none

/-- `lUnescapeStringInPlace` (src/header.cpp:437-467). -/
def unescape : Path → Path
  | [] => []
  | [c] => [c]
  | c :: d :: r =>
    if c = '\\' then
      match escapeOf d with
      | some e => e :: unescape r
      | none => c :: unescape (d :: r)
    else c :: unescape (d :: r)

/-- The body of the loop over the dependencies for a make rule (src/header.cpp:522-532). -/
def ruleEntry (src dep : Path) : List Char :=
  if src ≠ ['-'] ∧ src = unescape dep then [] else " \\\n ".toList ++ unescape dep

/-- `Module::writeDeps` (src/header.cpp:499-542): the text of the file. -/
def depsText (o : Output) (src : Path) (deps : List Path) : List Char :=
  if o.makeRule then
    depsTargetName o src ++ ':' :: (if src ≠ ['-'] then ' ' :: src else []) ++
      (deps.map (ruleEntry src)).flatten ++ ['\n']
  else
    (deps.map (· ++ ['\n'])).flatten

/-- The options of dependency files after they are read (src/args.cpp:1270-1281): whether a list was asked for with
    `-MMM`, a rule with `-M`. -/
def settleDeps (flat makeRule : Bool) : Bool × Bool :=
  if flat && makeRule then (false, makeRule) else (flat, makeRule)

/-! ## Compiling for several targets -/

/-- The loop of `lCheckAndFillISAIndices` that fills the map (src/module.cpp:2621-2640). -/
def fillIndices : List (Isa × Nat) → Nat → List Isa → Option (List (Isa × Nat))
  | m, _, [] => some m
  | m, k, i :: is =>
    if (m.lookup i).isSome then none
    else if (i = .sse42 ∧ (m.lookup .sse41).isSome) ∨ (i = .sse41 ∧ (m.lookup .sse42).isSome) then none
    else fillIndices ((i, k) :: m) (k + 1) is

/-- `lCheckAndFillISAIndices` (src/module.cpp:2618-2655): the first instruction set present and its index. -/
def checkIsas (is : List Isa) : Option (Isa × Nat) :=
  match fillIndices [] 0 is with
  | none => none
  | some m => Isa.all.findSome? fun i => (m.lookup i).map fun k => (i, k)

/-- Where something is written. -/
inductive Dest where
  | file (p : Path)
  | stdout
  deriving DecidableEq, Repr

/-- What is written. The number is the place of a target in the list of targets. -/
inductive What where
  | code (k : Nat)
  | header (k : Nat)
  | wrapper (k : Nat)
  | hostStub (k : Nat)
  | devStub (k : Nat)
  | deps (text : List Char)
  | dispatchCode
  | dispatchHeader
  deriving DecidableEq, Repr

abbrev Writes := List (Dest × What)

/-- The destination of the dependencies (src/header.cpp:508). -/
def depsDest (o : Output) : Dest := if o.deps ≠ [] then .file o.deps else .stdout

/-- `if (!name.empty()) write…` (src/module.cpp:2475-2493). -/
def writeIf (p : Path) (w : What) : Writes := if p ≠ [] then [(.file p, w)] else []

/-- The dependencies, if they were asked for (src/module.cpp:2484-2488 and 2609-2613). -/
def writeDeps (o : Output) (src : Path) (deps : List Path) : Writes :=
  if o.deps ≠ [] ∨ o.toStdout = true then [(depsDest o, .deps (depsText o src deps))] else []

/-- `Module::WriteOutputFiles` (src/module.cpp:2473-2496), when all files can be written. -/
def writeOutputFiles (o : Output) (src : Path) (k : Nat) (deps : List Path) : Writes :=
  writeIf o.out (.code k) ++ writeIf o.header (.header k) ++ writeIf o.nbWrap (.wrapper k) ++
    writeDeps o src deps ++ writeIf o.hostStub (.hostStub k) ++ writeIf o.devStub (.devStub k)

/-- What compiling for a target gives: whether there were no errors, and the files that were seen. -/
structure Comp where
  target : Target
  ok : Bool
  seen : List Path

/-- The loop of `Module::CompileMultipleTargets` (src/module.cpp:2836-2868) with `Module::CompileSingleTarget`
    (src/module.cpp:2523-2559): the writes, and whether all went well. The compiler stops at a generic target. -/
def compileLoop (o : Output) (src : Path) : Nat → List Comp → Writes × Bool
  | _, [] => ([], true)
  | k, c :: cs =>
    match isaOf c.target with
    | none => ([], false)
    | some i =>
      if c.ok then
        let r := compileLoop o src (k + 1) cs
        (writeOutputFiles (targetOutput o i.name) src k (depsOf c.seen) ++ r.1, r.2)
      else ([], false)

/-- `Module::GenerateDispatch` (src/module.cpp:2684-2755) and `Module::WriteDispatchOutputFiles`
    (src/module.cpp:2583-2616): the module of the common target writes the dependencies. -/
def generateDispatch (o : Output) (src : Path) (cs : List Comp) : Writes × Bool :=
  match checkIsas (cs.filterMap fun c => isaOf c.target) with
  | none => ([], false)
  | some (_, k) =>
    (writeIf o.header .dispatchHeader ++ writeIf o.out .dispatchCode ++
      writeDeps o src (match cs[k]? with | some c => depsOf c.seen | none => []), true)

/-- `Module::CompileMultipleTargets` (src/module.cpp:2816-2874) with `lValidateMultiTargetInputs`
    (src/module.cpp:2561-2578). -/
def compileMultiple (o : Output) (src : Path) (cpu : Bool) (cs : List Comp) : Writes × Bool :=
  if src = ['-'] ∨ cpu = true ∨ o.out = ['-'] then ([], false)
  else
    let r := compileLoop o src 0 cs
    if r.2 then
      let d := generateDispatch o src cs
      (r.1 ++ d.1, d.2)
    else r

/-! ## Specification -/

/-- A file and the directory it is in. -/
def Splits (p dir file : Path) : Prop :=
  p = dir ++ file ∧ '/' ∉ file ∧ (dir = [] ∨ ∃ d, dir = d ++ ['/'])

/-- After the writes the file has this content, and never had another one. -/
def Holds (ws : Writes) (p : Path) (w : What) : Prop :=
  (Dest.file p, w) ∈ ws ∧ ∀ w', (Dest.file p, w') ∈ ws → w' = w

/-- The files named by the user. -/
def requested (o : Output) : List Path := [o.out, o.header, o.nbWrap, o.deps].filter (· ≠ [])

/-- The user asks for different files, and for none that is the version of another one for some target. -/
def Separate (o : Output) : Prop :=
  (requested o).Nodup ∧ ∀ a ∈ requested o, ∀ b ∈ requested o, ∀ i : Isa, a ≠ mangle b i.name

/-- How the preprocessor prints a file name in a line marker: backslashes doubled. -/
def escape : Path → Path
  | [] => []
  | c :: r => if c = '\\' then '\\' :: '\\' :: escape r else c :: escape r

/-- How make reads a rule: a backslash before the end of a line joins the lines. -/
def joinLines : List Char → List Char
  | [] => []
  | [c] => [c]
  | c :: d :: r => if c = '\\' ∧ d = '\n' then ' ' :: joinLines r else c :: joinLines (d :: r)

/-- The words of a text, separated by blanks and ends of lines. -/
def words (cur : Path) : List Char → List Path
  | [] => if cur = [] then [] else [cur]
  | c :: r =>
    if c = ' ' ∨ c = '\n' then (if cur = [] then words [] r else cur :: words [] r) else words (cur ++ [c]) r

/-- A rule: what is before the colon, and the words after it. -/
def readRule (t : List Char) : Path × List Path :=
  (t.takeWhile (· ≠ ':'), words [] (joinLines (t.dropWhile (· ≠ ':')).tail))

/-- A name that make reads as one word. -/
def Clean (p : Path) : Prop := p ≠ [] ∧ ' ' ∉ p ∧ '\n' ∉ p ∧ p.getLast? ≠ some '\\'

end Ispc.OutFiles
