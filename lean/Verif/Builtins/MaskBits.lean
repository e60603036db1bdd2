import Verif.Builtins.Scan
import Mathlib.Data.Fin.VecNotation

/-!
# The mask on each target, and assertions (C81)

Each target has its own code for `__movmsk`, `__any`, `__all` and `__none`: `builtins/target-*.ll`, and `builtins/generic.ispc`
for the targets that have no code of their own.  Assertions are emitted by `src/stmt.cpp` and tested by functions of the builtins.
-/

namespace Ispc.MaskBits

open Ispc.ForeachActive (Mask movmsk)
open Ispc.Scan (popcnt)

/-- A vector `<n x i b>`; a mask is such a vector with `b` the number of mask bits of the target. -/
abbrev Lanes (n b : Nat) := Fin n → BitVec b

/-- `bitcast <n x i1> to i n`, extended with zeros or truncated to `w` bits: bit `l` is the value of element `l`.  The machine
instructions `movmskps`, `movmskpd` and `pmovmskb` are this of the signs, with `w = 32`. -/
def pack {n : Nat} (w : Nat) (p : Fin n → Bool) : BitVec w :=
  (List.finRange n).foldl (fun acc l => if p l then acc ||| (1#w <<< l.val) else acc) 0#w

/-- The signs of the elements: `@llvm.x86.sse.movmsk.ps`, `@llvm.x86.avx.movmsk.ps.256`, `@llvm.x86.avx.movmsk.pd.256`,
`@llvm.x86.sse2.pmovmskb.128`, `@llvm.x86.avx2.pmovmskb`, which give an `i32`
(builtins/target-sse4-i32x4.ll:204, target-avx1-i32x8.ll:170, target-avx1-i64x4.ll:228, target-sse4-i8x16.ll:209). -/
def signs {n b : Nat} (m : Lanes n b) : BitVec 32 := pack 32 fun l => (m l).msb

/-- What a target defines. -/
structure Target where
  /-- The gang size. -/
  W : Nat
  /-- The number of mask bits. -/
  B : Nat
  movmsk : Lanes W B → BitVec 64
  any : Lanes W B → Bool
  all : Lanes W B → Bool
  /-- `__none`. -/
  non : Lanes W B → Bool

/-- The targets with one instruction for all the signs: target-sse2-i32x4.ll:127-153 and target-sse4-i32x4.ll:206-232
(`W = 4`, 32 bits, `ones = 15`), target-avx1-i32x8.ll:172-198 (`W = 8`, 32 bits, 255), target-avx1-i64x4.ll:230-256 (`W = 4`,
64 bits, 15), target-sse4-i8x16.ll:211-233 (`W = 16`, 8 bits, `ALL_ON_MASK`, util.m4:25-28). -/
def oneSigns (W B : Nat) (ones : BitVec 32) : Target where
  W := W
  B := B
  movmsk m := (signs m).zeroExtend 64
  any m := signs m != 0#32
  all m := signs m == ones
  non m := signs m == 0#32

/-- The first and the second half of the lanes: the two `shufflevector`s of target-sse2-i32x8.ll:113-118, and `v8tov4`, `v16tov8`,
`v4tov2` (builtins/util.m4:587-604). -/
def lo {b : Nat} (h : Nat) (m : Lanes (h + h) b) : Lanes h b := fun l => m ⟨l.val, by omega⟩

def hi {b : Nat} (h : Nat) (m : Lanes (h + h) b) : Lanes h b := fun l => m ⟨h + l.val, by omega⟩

/-- `%v = or i32 (shl i32 %v1, h), %v0` of the signs of the two halves (target-sse2-i32x8.ll:119-124, target-avx1-i32x16.ll:150-158). -/
def twoSigns (h : Nat) (m : Lanes (h + h) 32) : BitVec 32 := signs (lo h m) ||| (signs (hi h m) <<< h)

/-- The targets with twice as many lanes as the registers have: target-sse2-i32x8.ll:110-180 and target-sse4-i32x8.ll:138-208 (`h = 4`,
`ones = 255`), target-avx1-i32x16.ll:148-206 (`h = 8`, 65535). -/
def doubleSigns (h : Nat) (ones : BitVec 32) : Target where
  W := h + h
  B := 32
  movmsk m := (twoSigns h m).zeroExtend 64
  any m := twoSigns h m != 0#32
  all m := twoSigns h m == ones
  non m := twoSigns h m == 0#32

/-- target-sse4-i16x8.ll:203-229: truncated to bytes, eight bytes of zeros behind them; `ALL_ON_MASK` is 255. -/
def sse4I16x8 : Target :=
  let mm : Lanes 8 16 → BitVec 64 := fun m =>
    let mask8 : Lanes 16 8 := fun l => if h : l.val < 8 then (m ⟨l.val, h⟩).truncate 8 else 0#8
    (signs mask8).zeroExtend 64
  { W := 8, B := 16, movmsk := mm
    any := fun m => mm m != 0#64
    all := fun m => mm m == 255#64
    non := fun m => mm m == 0#64 }

/-- `__cast_mask_to_i16` (target-avx2-i16x16.ll:22-27) and the four functions (32-55). -/
def avx2I16x16 : Target :=
  let cast : Lanes 16 16 → BitVec 16 := fun m => (signs fun l => (m l).truncate 8).truncate 16
  { W := 16, B := 16
    movmsk := fun m => (cast m).zeroExtend 64
    any := fun m => cast m != 0#16
    all := fun m => cast m == BitVec.allOnes 16
    non := fun m => cast m == 0#16 }

/-- target-avx2-i8x32.ll:22-25, 30-53: all 32 bits of the result are used. -/
def avx2I8x32 : Target := oneSigns 32 8 (BitVec.allOnes 32)

/-- The avx512 and avx10 targets, whose masks are bits: `bitcast <W x i1>` to an integer of `w` bits that is compared with `ones`;
target-avx512skx-x4.ll:193-197, 350-372 (`w = 8`, 15), target-avx512skx-x8.ll:173-176, 386-408 (`w = 8`, 255),
target-avx512skx-x16.ll:400-422 and target-avx512skx-x16-nozmm.ll:79-82, 308-330 (`w = 16`, 65535), target-avx512skx-x32.ll:23-26,
31-53 (`w = 32`, -1), target-avx512skx-x64.ll:23-26, 31-52 (`w = 64`, -1). -/
def bits (W w : Nat) (ones : BitVec w) : Target :=
  let cast : Lanes W 1 → BitVec w := fun m => pack w fun l => (m l).getLsbD 0
  { W := W, B := 1
    movmsk := fun m => (cast m).zeroExtend 64
    any := fun m => cast m != 0#w
    all := fun m => cast m == ones
    non := fun m => cast m == 0#w }

/-- `@llvm.aarch64.neon.umaxv.i32.v4i32` and `uminv` (declared at target-neon-i32x4.ll:23-24). -/
def umax {b : Nat} (x y : BitVec b) : BitVec b := if x ≤ y then y else x

def umin {b : Nat} (x y : BitVec b) : BitVec b := if x ≤ y then x else y

def umaxv (v : Lanes 4 32) : BitVec 32 := umax (umax (v 0) (v 1)) (umax (v 2) (v 3))

def uminv (v : Lanes 4 32) : BitVec 32 := umin (umin (v 0) (v 1)) (umin (v 2) (v 3))

/-- `@llvm.aarch64.neon.saddv.i32.v4i32`: the sum of the elements. -/
def saddv (v : Lanes 4 32) : BitVec 32 := v 0 + v 1 + (v 2 + v 3)

/-- target-neon-i32x4.ll:26-49 (64-bit ARM). -/
def neonI32x4 : Target :=
  let any : Lanes 4 32 → Bool := fun m => umaxv m != 0#32
  { W := 4, B := 32
    movmsk := fun m =>
      let c : Lanes 4 32 := ![1#32, 2#32, 4#32, 8#32]
      (saddv fun l => m l &&& c l).zeroExtend 64
    any := any
    all := fun m => uminv m != 0#32
    non := fun m => any m == false }

/-- target-neon-i32x8.ll:24-54 (64-bit ARM). -/
def neonI32x8 : Target :=
  let any : Lanes 8 32 → Bool := fun m => umaxv (fun l => lo 4 m l ||| hi 4 m l) != 0#32
  { W := 8, B := 32
    movmsk := fun m =>
      let c : Lanes 8 32 := ![1#32, 2#32, 4#32, 8#32, 16#32, 32#32, 64#32, 128#32]
      let a : Lanes 8 32 := fun l => m l &&& c l
      (saddv fun l => lo 4 a l + hi 4 a l).zeroExtend 64
    any := any
    all := fun m => uminv (fun l => lo 4 m l &&& hi 4 m l) != 0#32
    non := fun m => any m == false }

/-- `PADDLU` (`uaddlp`, `vpaddlu`): adjacent elements are added with twice the width (target-neon-common.ll:47-51). -/
def paddl {n b : Nat} (v : Lanes (n + n) b) : Lanes n (b + b) := fun l =>
  (v ⟨l.val + l.val, by omega⟩).zeroExtend (b + b) + (v ⟨l.val + l.val + 1, by omega⟩).zeroExtend (b + b)

/-- target-neon-i16x8.ll:23-66. -/
def neonI16x8 : Target :=
  let any : Lanes 8 16 → Bool := fun m =>
    let r := fun l => lo 4 m l ||| hi 4 m l
    ((r 0 ||| r 1) ||| (r 2 ||| r 3)) != 0#16
  { W := 8, B := 16
    movmsk := fun m =>
      let c : Lanes 8 16 := ![1#16, 2#16, 4#16, 8#16, 16#16, 32#16, 64#16, 128#16]
      let v4 : Lanes 4 32 := paddl (n := 4) (b := 16) fun l => m l &&& c l
      let v2 : Lanes 2 64 := paddl (n := 2) (b := 32) v4
      v2 0 ||| v2 1
    any := any
    all := fun m =>
      let r := fun l => lo 4 m l &&& hi 4 m l
      ((r 0 &&& r 1) &&& (r 2 &&& r 3)) != 0#16
    non := fun m => any m == false }

/-- target-neon-i8x16.ll:23-73. -/
def neonI8x16 : Target :=
  let any : Lanes 16 8 → Bool := fun m =>
    let v16 : Lanes 8 16 := fun l => (lo 8 m l ||| hi 8 m l).signExtend 16
    let v32 : Lanes 4 32 := fun l => (lo 4 v16 l ||| hi 4 v16 l).signExtend 32
    let r : Lanes 2 32 := fun l => lo 2 v32 l ||| hi 2 v32 l
    (r 0 ||| r 1) != 0#32
  { W := 16, B := 8
    movmsk := fun m =>
      let c : Lanes 16 8 := ![1#8, 2#8, 4#8, 8#8, 16#8, 32#8, 64#8, 128#8, 1#8, 2#8, 4#8, 8#8, 16#8, 32#8, 64#8, 128#8]
      let v8 : Lanes 8 16 := paddl (n := 8) (b := 8) fun l => m l &&& c l
      let v4 : Lanes 4 32 := paddl (n := 4) (b := 16) v8
      let v2 : Lanes 2 64 := paddl (n := 2) (b := 32) v4
      v2 0 ||| (v2 1 <<< 8)
    any := any
    all := fun m =>
      let v16 : Lanes 8 16 := fun l => (lo 8 m l &&& hi 8 m l).signExtend 16
      let v32 : Lanes 4 32 := fun l => (lo 4 v16 l &&& hi 4 v16 l).signExtend 32
      let r : Lanes 2 32 := fun l => lo 2 v32 l &&& hi 2 v32 l
      (r 0 &&& r 1) != 0#32
    non := fun m => any m == false }

/-- target-wasm-i32x4.ll:200-225; `bitcast <4 x i32> to i128` has element 0 in the lowest bits. -/
def wasmI32x4 : Target :=
  let cast : Lanes 4 32 → BitVec 128 := fun m => m 3 ++ m 2 ++ m 1 ++ m 0
  let any : Lanes 4 32 → Bool := fun m => cast m != 0#128
  { W := 4, B := 32
    movmsk := fun m => (pack 4 fun l => (m l).getLsbD 0).zeroExtend 64
    any := any
    all := fun m => cast m == BitVec.allOnes 128
    non := fun m => any m == false }

/-- `@llvm.ispc.packmask` (src/opt/LowerISPCIntrinsics.cpp:282-300, 50-62): truncated to `i1`, which keeps the lowest bit, then
`bitcast` and extended with zeros. -/
def packmask {W B : Nat} (m : Lanes W B) : BitVec 64 := (pack W fun l => (m l).getLsbD 0).zeroExtend 64

/-- The functions of builtins/generic.ispc:1613-1623, for all gang sizes and all numbers of mask bits: the generic targets, and those
without code of their own, as neon-i16x16, neon-i8x32, 32-bit neon, vsx and rvv. -/
def generic (W B : Nat) : Target where
  W := W
  B := B
  movmsk m := packmask m
  any m := packmask m != 0#64
  all m := packmask m == BitVec.allOnes 64 >>> (64 - W)
  non m := packmask m == 0#64

/-- target-xe.ll:760-780; the masks are bits, and `@llvm.genx.any` and `@llvm.genx.all` are taken as what their names say. -/
def xe (W : Nat) : Target :=
  let any : Lanes W 1 → Bool := fun m => (List.finRange W).any fun l => (m l).getLsbD 0
  { W := W, B := 1
    movmsk := fun m => (pack W fun l => (m l).getLsbD 0).zeroExtend 64
    any := any
    all := fun m => (List.finRange W).all fun l => (m l).getLsbD 0
    non := fun m => any m == false }

/-- The targets with code of their own, by the names of the files.  The files for newer processors include these. -/
inductive Name
  | sse2I32x4 | sse2I32x8 | sse4I32x4 | sse4I32x8 | sse4I16x8 | sse4I8x16
  | avx1I32x8 | avx1I32x16 | avx1I64x4 | avx2I16x16 | avx2I8x32
  | avx512X4 | avx512X8 | avx512X16 | avx512X32 | avx512X64
  | neonI32x4 | neonI32x8 | neonI16x8 | neonI8x16 | wasmI32x4
  /-- `xe W` -/
  | xe (W : Nat)
  /-- `builtins/generic.ispc`, with `W` lanes of `B` bits -/
  | generic (W B : Nat)
  deriving DecidableEq

/-- The code that the name stands for. -/
def target : Name → Target
  | .sse2I32x4  => oneSigns 4 32 15#32
  | .sse2I32x8  => doubleSigns 4 255#32
  | .sse4I32x4  => oneSigns 4 32 15#32
  | .sse4I32x8  => doubleSigns 4 255#32
  | .sse4I16x8  => sse4I16x8
  | .sse4I8x16  => oneSigns 16 8 65535#32
  | .avx1I32x8  => oneSigns 8 32 255#32
  | .avx1I32x16 => doubleSigns 8 65535#32
  | .avx1I64x4  => oneSigns 4 64 15#32
  | .avx2I16x16 => avx2I16x16
  | .avx2I8x32  => avx2I8x32
  | .avx512X4   => bits 4 8 15#8
  | .avx512X8   => bits 8 8 255#8
  | .avx512X16  => bits 16 16 65535#16
  | .avx512X32  => bits 32 32 (BitVec.allOnes 32)
  | .avx512X64  => bits 64 64 (BitVec.allOnes 64)
  | .neonI32x4  => neonI32x4
  | .neonI32x8  => neonI32x8
  | .neonI16x8  => neonI16x8
  | .neonI8x16  => neonI8x16
  | .wasmI32x4  => wasmI32x4
  | .xe W       => xe W
  | .generic W B => generic W B

/-! ## The functions of the standard library -/

/-- `__sext_varying_bool` (builtins/util.m4:5444-5455, generic.ispc:650), converted to the type of the mask; a varying `bool` is a lane of the type of the mask: all bits are set,
or none. -/
def sext (B : Nat) (v : Bool) : BitVec B := if v then BitVec.allOnes B else 0#B

/-- `any(bool)` (stdlib/stdlib.ispc:762-770). -/
def anyOf (t : Target) (v : Mask t.W) (mask : Lanes t.W t.B) : Bool := t.any fun l => sext t.B (v l) &&& mask l

/-- `all(bool)` (stdlib.ispc:772-786); `!__mask` is a `bool`: whether the lane of the mask is zero. -/
def allOf (t : Target) (v : Mask t.W) (mask : Lanes t.W t.B) : Bool :=
  t.all fun l => sext t.B (v l) ||| sext t.B (mask l == 0#t.B)

/-- `none(bool)` (stdlib.ispc:788-796). -/
def noneOf (t : Target) (v : Mask t.W) (mask : Lanes t.W t.B) : Bool := t.non fun l => sext t.B (v l) &&& mask l

/-- `popcnt(bool)` (stdlib.ispc:806-813). -/
def popcntOf (t : Target) (v : Mask t.W) (mask : Lanes t.W t.B) : BitVec 32 :=
  popcnt (t.movmsk fun l => sext t.B (v l) &&& mask l)

/-- `lanemask()` (stdlib.ispc:815). -/
def lanemask (t : Target) (mask : Lanes t.W t.B) : BitVec 64 := t.movmsk mask

/-- `packmask(bool)` (stdlib.ispc:817-823). -/
def packmaskOf (t : Target) (v : Mask t.W) (mask : Lanes t.W t.B) : BitVec 64 :=
  t.movmsk fun l => sext t.B (v l) &&& mask l

/-! ## Assertions -/

/-- The condition after `AssertStmt::TypeCheck` (stmt.cpp:4274-4288): one value, or a value for each instance, of the type of the mask. -/
inductive Cond (t : Target)
  | uniform (b : Bool)
  | varying (test : Lanes t.W t.B)

/-- `__do_assert_varying` calls `abort` (util.m4:5532-5548, target-neon-common.ll:186-201; util-xe.m4:4146-4162 ends the thread). -/
def failsVarying (t : Target) (test mask : Lanes t.W t.B) : Bool :=
  t.movmsk (fun l => (test l ^^^ BitVec.allOnes t.B) &&& mask l) != 0#64

/-- `__do_assert_varying` of generic.ispc:595-600: only the lowest bit is inverted. -/
def failsGeneric (W B : Nat) (test mask : Lanes W B) : Bool :=
  (generic W B).any fun l => (test l ^^^ 1#B) &&& mask l

/-- What an assertion does. -/
inductive Outcome
  /-- The program goes on. -/
  | next
  /-- The message is printed and the program ends. -/
  | abort
  /-- `llvm.assume` of something false: the behaviour is undefined. -/
  | undefined
  deriving DecidableEq

/-- `AssertStmt::EmitCode`, `EmitAssertCode`, `EmitAssumeCode` (stmt.cpp:4168-4249), `__do_assert_uniform` (util.m4:5519-5529, generic.ispc:589-594) and
`__do_assume_uniform` (util.m4:5508-5511).  The first component says whether the condition is evaluated. -/
def runAssert (t : Target) (fails : Lanes t.W t.B → Lanes t.W t.B → Bool) (disabled : Bool) (c : Cond t) (mask : Lanes t.W t.B) :
    Bool × Outcome :=
  match disabled, c with
  | false, .uniform b    => (true, if b then .next else .abort)
  | false, .varying test => (true, if fails test mask then .abort else .next)
  | true, .uniform b     => (true, if b then .next else .undefined)
  | true, .varying _     => (false, .next)

/-- The function that a target uses for assertions: the generic targets have their own. -/
def fails : (n : Name) → Lanes (target n).W (target n).B → Lanes (target n).W (target n).B → Bool
  | .generic W B => failsGeneric W B
  | .sse2I32x4  => failsVarying _
  | .sse2I32x8  => failsVarying _
  | .sse4I32x4  => failsVarying _
  | .sse4I32x8  => failsVarying _
  | .sse4I16x8  => failsVarying _
  | .sse4I8x16  => failsVarying _
  | .avx1I32x8  => failsVarying _
  | .avx1I32x16 => failsVarying _
  | .avx1I64x4  => failsVarying _
  | .avx2I16x16 => failsVarying _
  | .avx2I8x32  => failsVarying _
  | .avx512X4   => failsVarying _
  | .avx512X8   => failsVarying _
  | .avx512X16  => failsVarying _
  | .avx512X32  => failsVarying _
  | .avx512X64  => failsVarying _
  | .neonI32x4  => failsVarying _
  | .neonI32x8  => failsVarying _
  | .neonI16x8  => failsVarying _
  | .neonI8x16  => failsVarying _
  | .wasmI32x4  => failsVarying _
  | .xe W       => failsVarying (xe W)

end Ispc.MaskBits
