import Verif.Builtins.Saturating
import Verif.Builtins.BlendFns

/-!
# Packed dot products (stdlib/stdlib.ispc:7958-8146) — C54, the model

`dot4add_*` and `dot2add_*` take two 32-bit words of packed 8- or 16-bit integers per program instance and add their dot
product to a 32-bit accumulator, wrapping or saturating.  A target with the right instructions calls a builtin written
with them; every other target runs the portable code of the standard library.

Not modelled: the LLVM code generation.  The instructions are modelled by what the processor manuals say of them: the
products and their sum are exact, and only the final sum is wrapped or saturated.
-/

namespace Ispc.Dot

open Ispc.BlendFns (V shuf shuf2)

/-- A 32-bit word. -/
abbrev W32 := BitVec 32

/-! ## The portable code -/

/-- `(x >> k) & 0xFF` (stdlib/stdlib.ispc:7968 and others); `x` is unsigned, so the shift is logical. -/
def byte (x : W32) (k : Nat) : W32 := (x >>> k) &&& 0xFF#32

/-- `(x >> k) & 0xFFFF` (stdlib/stdlib.ispc:8066 and others). -/
def half (x : W32) (k : Nat) : W32 := (x >>> k) &&& 0xFFFF#32

/-- `(int16)((x >> k) & 0xFF)`, or the same with `uint16`: an unsigned byte in 16 bits (stdlib/stdlib.ispc:7968). -/
def u8 (x : W32) (k : Nat) : BitVec 16 := (byte x k).setWidth 16

/-- `(int16)((int8)((x >> k) & 0xFF))`: a signed byte in 16 bits (stdlib/stdlib.ispc:7968). -/
def i8 (x : W32) (k : Nat) : BitVec 16 := ((byte x k).setWidth 8).signExtend 16

/-- `(int32)((int16)((x >> k) & 0xFFFF))` (stdlib/stdlib.ispc:8066). -/
def i16 (x : W32) (k : Nat) : W32 := ((half x k).setWidth 16).signExtend 32

/-- `(uint32)((x >> k) & 0xFFFF)` (stdlib/stdlib.ispc:8095), `(int32)((uint16)((x >> k) & 0xFFFF))`
(stdlib/stdlib.ispc:8126). -/
def u16 (x : W32) (k : Nat) : W32 := ((half x k).setWidth 16).setWidth 32

/-- The portable `dot4add_u8i8packed` (stdlib/stdlib.ispc:7968-7972).  The products are `int16`: ispc does not promote
small integers to `int32`. -/
def dot4U8I8 (a b acc : W32) : W32 :=
  let tmp1 := u8 a 24 * i8 b 24
  let tmp2 := u8 a 16 * i8 b 16
  let tmp3 := u8 a 8 * i8 b 8
  let tmp4 := u8 a 0 * i8 b 0
  tmp1.signExtend 32 + tmp2.signExtend 32 + tmp3.signExtend 32 + tmp4.signExtend 32 + acc

/-- The portable `dot4add_u8i8packed_sat` (stdlib/stdlib.ispc:7984-7989). -/
def dot4U8I8Sat (a b acc : W32) : W32 :=
  let tmp1 := u8 a 24 * i8 b 24
  let tmp2 := u8 a 16 * i8 b 16
  let tmp3 := u8 a 8 * i8 b 8
  let tmp4 := u8 a 0 * i8 b 0
  Sat.addS (n := 31) (tmp1.signExtend 32 + tmp2.signExtend 32 + tmp3.signExtend 32 + tmp4.signExtend 32) acc

/-- The portable `dot4add_u8u8packed` (stdlib/stdlib.ispc:8001-8005).  The products are `int16`, so the conversion to
`uint32` extends their sign (src/expr.cpp:7419-7423). -/
def dot4U8U8 (a b acc : W32) : W32 :=
  let tmp1 := u8 a 24 * u8 b 24
  let tmp2 := u8 a 16 * u8 b 16
  let tmp3 := u8 a 8 * u8 b 8
  let tmp4 := u8 a 0 * u8 b 0
  tmp1.signExtend 32 + tmp2.signExtend 32 + tmp3.signExtend 32 + tmp4.signExtend 32 + acc

/-- The portable `dot4add_u8u8packed_sat` (stdlib/stdlib.ispc:8017-8022): here the products are `uint16`. -/
def dot4U8U8Sat (a b acc : W32) : W32 :=
  let tmp1 := u8 a 24 * u8 b 24
  let tmp2 := u8 a 16 * u8 b 16
  let tmp3 := u8 a 8 * u8 b 8
  let tmp4 := u8 a 0 * u8 b 0
  Sat.addU (n := 31) (tmp1.setWidth 32 + tmp2.setWidth 32 + tmp3.setWidth 32 + tmp4.setWidth 32) acc

/-- The portable `dot4add_i8i8packed` (stdlib/stdlib.ispc:8033-8037). -/
def dot4I8I8 (a b acc : W32) : W32 :=
  let tmp1 := i8 a 24 * i8 b 24
  let tmp2 := i8 a 16 * i8 b 16
  let tmp3 := i8 a 8 * i8 b 8
  let tmp4 := i8 a 0 * i8 b 0
  tmp1.signExtend 32 + tmp2.signExtend 32 + tmp3.signExtend 32 + tmp4.signExtend 32 + acc

/-- The portable `dot4add_i8i8packed_sat` (stdlib/stdlib.ispc:8049-8054).  The bytes are not converted to `int8`. -/
def dot4I8I8Sat (a b acc : W32) : W32 :=
  let tmp1 := u8 a 24 * u8 b 24
  let tmp2 := u8 a 16 * u8 b 16
  let tmp3 := u8 a 8 * u8 b 8
  let tmp4 := u8 a 0 * u8 b 0
  Sat.addS (n := 31) (tmp1.signExtend 32 + tmp2.signExtend 32 + tmp3.signExtend 32 + tmp4.signExtend 32) acc

/-- The portable `dot2add_i16i16packed` (stdlib/stdlib.ispc:8066-8068). -/
def dot2I16I16 (a b acc : W32) : W32 :=
  let tmp1 := i16 a 16 * i16 b 16
  let tmp2 := i16 a 0 * i16 b 0
  tmp1 + tmp2 + acc

/-- The portable `dot2add_i16i16packed_sat` (stdlib/stdlib.ispc:8080-8082). -/
def dot2I16I16Sat (a b acc : W32) : W32 :=
  let tmp1 := i16 a 16 * i16 b 16
  let tmp2 := i16 a 0 * i16 b 0
  Sat.addS (n := 31) (Sat.addS (n := 31) tmp1 tmp2) acc

/-- The portable `dot2add_u16u16packed` (stdlib/stdlib.ispc:8095-8097). -/
def dot2U16U16 (a b acc : W32) : W32 :=
  let tmp1 := u16 a 16 * u16 b 16
  let tmp2 := u16 a 0 * u16 b 0
  acc + tmp1 + tmp2

/-- The portable `dot2add_u16u16packed_sat` (stdlib/stdlib.ispc:8110-8113). -/
def dot2U16U16Sat (a b acc : W32) : W32 :=
  let tmp1 := u16 a 16 * u16 b 16
  let tmp2 := u16 a 0 * u16 b 0
  Sat.addU (n := 31) (Sat.addU (n := 31) acc tmp1) tmp2

/-- The portable `dot2add_u16i16packed` (stdlib/stdlib.ispc:8126-8128). -/
def dot2U16I16 (a b acc : W32) : W32 :=
  let tmp1 := u16 a 16 * i16 b 16
  let tmp2 := u16 a 0 * i16 b 0
  acc + tmp1 + tmp2

/-- The portable `dot2add_u16i16packed_sat` (stdlib/stdlib.ispc:8141-8144). -/
def dot2U16I16Sat (a b acc : W32) : W32 :=
  let tmp1 := u16 a 16 * i16 b 16
  let tmp2 := u16 a 0 * i16 b 0
  Sat.addS (n := 31) (Sat.addS (n := 31) acc tmp1) tmp2

/-! ## The instructions -/

/-- Element `j` of a register as the instructions see it: the bytes of `<n x i32>` are those of `<4n x i8>`, the lowest
byte of a lane first (the bitcasts of builtins/target-neon-i32x4.ll:146-147; for the x86 instructions it is part of
their definition). -/
def regByte (v : V 32) (j : Nat) : BitVec 8 := (v (j / 4)).extractLsb' (8 * (j % 4)) 8

/-- Element `j` of a register of 16-bit integers. -/
def regHalf (v : V 32) (j : Nat) : BitVec 16 := (v (j / 2)).extractLsb' (16 * (j % 2)) 16

/-- The sum of four products of bytes for lane `l`, as an integer. -/
def sum4 (fa fb : BitVec 8 → Int) (a b : V 32) (l : Nat) : Int :=
  fa (regByte a (4 * l)) * fb (regByte b (4 * l)) + fa (regByte a (4 * l + 1)) * fb (regByte b (4 * l + 1)) +
    fa (regByte a (4 * l + 2)) * fb (regByte b (4 * l + 2)) + fa (regByte a (4 * l + 3)) * fb (regByte b (4 * l + 3))

/-- The sum of two products of 16-bit integers for lane `l`. -/
def sum2 (fa fb : BitVec 16 → Int) (a b : V 32) (l : Nat) : Int :=
  fa (regHalf a (2 * l)) * fb (regHalf b (2 * l)) + fa (regHalf a (2 * l + 1)) * fb (regHalf b (2 * l + 1))

/-- An unsigned integer. -/
def un {n : Nat} (x : BitVec n) : Int := x.toNat

/-- The instructions used (builtins/target-avx512icl-x8.ll:12-32, builtins/target-avx10_2-x8-common.ll:7-51,
builtins/target-neon-i32x4.ll:144-166).  `vpdpbusd` has the unsigned bytes in its second operand and the signed ones in
its third; NEON `usdot` likewise; NEON `sdot` and `udot` are `vpdpbssd` and `vpdpbuud`. -/
inductive Instr
  | vpdpbusd | vpdpbusds | vpdpwssd | vpdpwssds
  | vpdpbssd | vpdpbssds | vpdpbuud | vpdpbuuds | vpdpwusd | vpdpwusds | vpdpwuud | vpdpwuuds
  | udot | sdot | usdot
deriving DecidableEq, Repr

/-- A lane of an instruction `acc, a, b`, as its manual defines it: the sum is computed exactly and then wrapped or
saturated (Intel SDM, VPDPBUSD and following; Arm ARM, UDOT, SDOT, USDOT).  Trusted. -/
def Instr.lane (i : Instr) (acc a b : V 32) (l : Nat) : W32 :=
  match i with
  | .vpdpbusd | .usdot => BitVec.ofInt 32 ((acc l).toInt + sum4 un BitVec.toInt a b l)
  | .vpdpbusds => BitVec.ofInt 32 (Sat.clampS 31 ((acc l).toInt + sum4 un BitVec.toInt a b l))
  | .vpdpwssd => BitVec.ofInt 32 ((acc l).toInt + sum2 BitVec.toInt BitVec.toInt a b l)
  | .vpdpwssds => BitVec.ofInt 32 (Sat.clampS 31 ((acc l).toInt + sum2 BitVec.toInt BitVec.toInt a b l))
  | .vpdpbssd | .sdot => BitVec.ofInt 32 ((acc l).toInt + sum4 BitVec.toInt BitVec.toInt a b l)
  | .vpdpbssds => BitVec.ofInt 32 (Sat.clampS 31 ((acc l).toInt + sum4 BitVec.toInt BitVec.toInt a b l))
  | .vpdpbuud | .udot => BitVec.ofInt 32 ((acc l).toInt + sum4 un un a b l)
  | .vpdpbuuds => BitVec.ofInt 32 (Sat.clampU 31 (un (acc l) + sum4 un un a b l))
  | .vpdpwusd => BitVec.ofInt 32 ((acc l).toInt + sum2 un BitVec.toInt a b l)
  | .vpdpwusds => BitVec.ofInt 32 (Sat.clampS 31 ((acc l).toInt + sum2 un BitVec.toInt a b l))
  | .vpdpwuud => BitVec.ofInt 32 ((acc l).toInt + sum2 un un a b l)
  | .vpdpwuuds => BitVec.ofInt 32 (Sat.clampU 31 (un (acc l) + sum2 un un a b l))

/-- How a builtin cuts its operands into registers: not at all, or with a pair of macros of builtins/util.m4. -/
inductive Cut
  | whole
  /-- `v8tov4`, `v4tov8` (builtins/util.m4:587-592, 616-618): NEON, 8 lanes. -/
  | v8x4
  /-- `v16tov8`, `v8tov16` (builtins/util.m4:594-599, 744-748): AVX2 VNNI and ICL without ZMM registers, 16 lanes. -/
  | v16x8
  /-- `v32tov16`, `v16tov32` (builtins/util.m4:630-635, 753-757): AVX-512, 32 lanes. -/
  | v32x16
  /-- `v16tov4`, `v4tov16` (builtins/util.m4:620-625, 716-721): NEON, 16 lanes. -/
  | v16x4
  /-- `v64tov16`, `v16tov64` (builtins/util.m4:676-685, 801-813): AVX-512, 64 lanes. -/
  | v64x16
  /-- `v32tov4`, `v4tov32` (builtins/util.m4:654-671, 726-738): NEON, 32 lanes. -/
  | v32x4
deriving DecidableEq, Repr

/-- The indices `lo, lo+1, …, lo+len-1` of a `shufflevector`; the source writes them out. -/
def idx (lo len : Nat) : List Nat := List.range' lo len

/-- A builtin made of one instruction per register (builtins/target-neon-i32x8.ll:152-164 is an instance of `v8x4`,
builtins/target-avx2vnni-i32x16.ll:14-22 of `v16x8`, builtins/target-avx512icl-x32.ll:44-52 of `v32x16`,
builtins/target-neon-i8x16.ll:171-189 of `v16x4`, builtins/target-avx512icl-x64.ll:46-56 of `v64x16`,
builtins/target-neon-i8x32.ll:33-63 of `v32x4`, builtins/target-avx512icl-x8.ll:13-16 of `whole`). -/
def builtin (c : Cut) (i : Instr) (a b acc : V 32) : V 32 :=
  match c with
  | .whole => i.lane acc a b
  | .v8x4 =>
    let part := fun k => i.lane (shuf acc (idx (4 * k) 4)) (shuf a (idx (4 * k) 4)) (shuf b (idx (4 * k) 4))
    shuf2 4 (part 0) (part 1) (idx 0 8)
  | .v16x8 =>
    let part := fun k => i.lane (shuf acc (idx (8 * k) 8)) (shuf a (idx (8 * k) 8)) (shuf b (idx (8 * k) 8))
    shuf2 8 (part 0) (part 1) (idx 0 16)
  | .v32x16 =>
    let part := fun k => i.lane (shuf acc (idx (16 * k) 16)) (shuf a (idx (16 * k) 16)) (shuf b (idx (16 * k) 16))
    shuf2 16 (part 0) (part 1) (idx 0 32)
  | .v16x4 =>
    let part := fun k => i.lane (shuf acc (idx (4 * k) 4)) (shuf a (idx (4 * k) 4)) (shuf b (idx (4 * k) 4))
    let r01 := shuf2 4 (part 0) (part 1) (idx 0 8)
    let r23 := shuf2 4 (part 2) (part 3) (idx 0 8)
    shuf2 8 r01 r23 (idx 0 16)
  | .v64x16 =>
    let part := fun k => i.lane (shuf acc (idx (16 * k) 16)) (shuf a (idx (16 * k) 16)) (shuf b (idx (16 * k) 16))
    let r01 := shuf2 16 (part 0) (part 1) (idx 0 32)
    let r23 := shuf2 16 (part 2) (part 3) (idx 0 32)
    shuf2 32 r01 r23 (idx 0 64)
  | .v32x4 =>
    let part := fun k => i.lane (shuf acc (idx (4 * k) 4)) (shuf a (idx (4 * k) 4)) (shuf b (idx (4 * k) 4))
    let r01 := shuf2 4 (part 0) (part 1) (idx 0 8)
    let r23 := shuf2 4 (part 2) (part 3) (idx 0 8)
    let r45 := shuf2 4 (part 4) (part 5) (idx 0 8)
    let r67 := shuf2 4 (part 6) (part 7) (idx 0 8)
    let r0123 := shuf2 8 r01 r23 (idx 0 16)
    let r4567 := shuf2 8 r45 r67 (idx 0 16)
    shuf2 16 r0123 r4567 (idx 0 32)

/-- The lanes of a builtin cut that way; an uncut one has the lanes of its register, at most 16. -/
def Cut.lanes : Cut → Nat
  | .whole => 16 | .v8x4 => 8 | .v16x8 => 16 | .v32x16 => 32 | .v16x4 => 16 | .v64x16 => 64 | .v32x4 => 32

/-! ## The functions of the standard library -/

/-- What of a target decides which code runs (src/target_capabilities.h:114-123).  A target has Intel or Arm
instructions, never both, so one `cut` is enough. -/
structure Target where
  /-- `__have_intel_vnni` -/
  vnni : Bool
  /-- `__have_intel_vnni_int8`, which src/ispc.cpp:1724-1838 only sets together with `__have_intel_vnni` and
  `__have_intel_vnni_int16`. -/
  vnniInt8 : Bool
  /-- `__have_arm_dot_product` -/
  armDot : Bool
  /-- `__have_arm_i8mm` -/
  armI8mm : Bool
  /-- how the builtins of the target cut their operands -/
  cut : Cut

/-- The functions a program can call. -/
inductive Fn
  | dot4add_u8i8packed | dot4add_u8i8packed_sat | dot4add_u8u8packed | dot4add_u8u8packed_sat
  | dot4add_i8i8packed | dot4add_i8i8packed_sat | dot2add_i16i16packed | dot2add_i16i16packed_sat
  | dot2add_u16u16packed | dot2add_u16u16packed_sat | dot2add_u16i16packed | dot2add_u16i16packed_sat
deriving DecidableEq, Repr

/-- The instruction a function uses on a target, if it has one: the tests at the head of the functions
(stdlib/stdlib.ispc:7965, 7981, 7998, 8014, 8030, 8046, 8063, 8077, 8091, 8106, 8122, 8137) and the builtins they call
(builtins/target-avx512icl-x8.ll:12-32, builtins/target-avx10_2-x8-common.ll:7-51,
builtins/target-neon-i32x4.ll:144-166). -/
def native (t : Target) : Fn → Option Instr
  | .dot4add_u8i8packed => if t.vnni || t.armI8mm then some (if t.vnni then .vpdpbusd else .usdot) else none
  | .dot4add_u8i8packed_sat => if t.vnni then some .vpdpbusds else none
  | .dot4add_u8u8packed =>
    if t.armDot || t.vnniInt8 then some (if t.armDot then .udot else .vpdpbuud) else none
  | .dot4add_u8u8packed_sat => if t.vnniInt8 then some .vpdpbuuds else none
  | .dot4add_i8i8packed =>
    if t.armDot || t.vnniInt8 then some (if t.armDot then .sdot else .vpdpbssd) else none
  | .dot4add_i8i8packed_sat => if t.vnniInt8 then some .vpdpbssds else none
  | .dot2add_i16i16packed => if t.vnni then some .vpdpwssd else none
  | .dot2add_i16i16packed_sat => if t.vnni then some .vpdpwssds else none
  | .dot2add_u16u16packed => if t.vnniInt8 then some .vpdpwuud else none
  | .dot2add_u16u16packed_sat => if t.vnniInt8 then some .vpdpwuuds else none
  | .dot2add_u16i16packed => if t.vnniInt8 then some .vpdpwusd else none
  | .dot2add_u16i16packed_sat => if t.vnniInt8 then some .vpdpwusds else none

/-- The portable code of a function, for one program instance. -/
def portable : Fn → W32 → W32 → W32 → W32
  | .dot4add_u8i8packed => dot4U8I8
  | .dot4add_u8i8packed_sat => dot4U8I8Sat
  | .dot4add_u8u8packed => dot4U8U8
  | .dot4add_u8u8packed_sat => dot4U8U8Sat
  | .dot4add_i8i8packed => dot4I8I8
  | .dot4add_i8i8packed_sat => dot4I8I8Sat
  | .dot2add_i16i16packed => dot2I16I16
  | .dot2add_i16i16packed_sat => dot2I16I16Sat
  | .dot2add_u16u16packed => dot2U16U16
  | .dot2add_u16u16packed_sat => dot2U16U16Sat
  | .dot2add_u16i16packed => dot2U16I16
  | .dot2add_u16i16packed_sat => dot2U16I16Sat

/-- A call (stdlib/stdlib.ispc:7964-8146): one lane per program instance. -/
def call (t : Target) (f : Fn) (a b acc : V 32) : V 32 :=
  match native t f with
  | some i => builtin t.cut i a b acc
  | none => fun l => portable f (a l) (b l) (acc l)

/-! ## Specification -/

/-- Packed element `k` of a word: bits `n*k` to `n*k+n-1`, read as a signed or an unsigned integer. -/
def elt (signed : Bool) (n : Nat) (x : W32) (k : Nat) : Int :=
  let u : Int := x.toNat / 2 ^ (n * k) % 2 ^ n
  if signed && 2 ^ (n - 1) ≤ u then u - 2 ^ n else u

/-- The dot product of two words of packed integers of `n` bits. -/
def dot (sa sb : Bool) (n : Nat) (a b : W32) : Int :=
  ((List.range (32 / n)).map fun k => elt sa n a k * elt sb n b k).sum

/-- The operands of a function: is the first signed, is the second, and how many bits have the packed integers. -/
def Fn.operands : Fn → Bool × Bool × Nat
  | .dot4add_u8i8packed | .dot4add_u8i8packed_sat => (false, true, 8)
  | .dot4add_u8u8packed | .dot4add_u8u8packed_sat => (false, false, 8)
  | .dot4add_i8i8packed | .dot4add_i8i8packed_sat => (true, true, 8)
  | .dot2add_i16i16packed | .dot2add_i16i16packed_sat => (true, true, 16)
  | .dot2add_u16u16packed | .dot2add_u16u16packed_sat => (false, false, 16)
  | .dot2add_u16i16packed | .dot2add_u16i16packed_sat => (false, true, 16)

/-- Does the function saturate. -/
def Fn.saturates : Fn → Bool
  | .dot4add_u8i8packed_sat | .dot4add_u8u8packed_sat | .dot4add_i8i8packed_sat | .dot2add_i16i16packed_sat
  | .dot2add_u16u16packed_sat | .dot2add_u16i16packed_sat => true
  | _ => false

/-- The dot product a function is to add. -/
def Fn.product (f : Fn) (a b : W32) : Int := dot f.operands.1 f.operands.2.1 f.operands.2.2 a b

/-- The result type is unsigned when both operands are. -/
def Fn.resultUnsigned (f : Fn) : Bool := !f.operands.1 && !f.operands.2.1

/-- What a function is to return: the accumulator plus the dot product, as a 32-bit integer of the result type; out of
range it wraps around or, for a `_sat` function, is the nearest integer of that type. -/
def Fn.spec (f : Fn) (a b acc : W32) : W32 :=
  if f.resultUnsigned then
    if f.saturates then BitVec.ofInt 32 (min (2 ^ 32 - 1) (acc.toNat + f.product a b))
    else BitVec.ofInt 32 (acc.toNat + f.product a b)
  else
    if f.saturates then BitVec.ofInt 32 (max (-2 ^ 31) (min (2 ^ 31 - 1) (acc.toInt + f.product a b)))
    else BitVec.ofInt 32 (acc.toInt + f.product a b)

end Ispc.Dot
