import Verif.Builtins.FloatBitsFmod

/-!
# `round`, `floor`, `ceil` and `trunc`

The rounding functions of the standard library and their implementations on
each family of targets: an instruction or an LLVM intrinsic that rounds, the
addition and subtraction of a large constant (SSE2, WebAssembly, `double` on
Xe), a function of the C library (`double` on SSE2 and WebAssembly) and code on
the bits (`trunc` of `double` on Xe).  A definition stands for the uniform
version and for one program instance of the varying one, unless it has an
argument that tells them apart.

Additions round to nearest, ties to even: the rounding mode of the processor is
left alone, as is flushing of denormal numbers.
-/

namespace Ispc.Rounding

open Ispc.Fold (Fmt FV signed rne)
open Ispc.FloatBits (Bits mant high val mk ofQ signMask)

/-- The bits of a number of the format; a NaN is the quiet one.  Inverse of `val`. -/
def enc (f : Fmt) : FV → Bits f
  | .nan => mk f false (2 ^ (high f - 1) - 1) (2 ^ (mant f - 1))
  | .inf s => mk f s (2 ^ (high f - 1) - 1) 0
  | .fin s q =>
    if q < 2 ^ (mant f + f.emin) then mk f s 0 ⌊q / 2 ^ f.emin⌋.toNat
    else mk f s (Int.log 2 q - mant f - f.emin + 1).toNat
      (⌊q / 2 ^ (Int.log 2 q - mant f)⌋.toNat - 2 ^ mant f)

/-- `fadd` on values, IEEE 754 section 5.4.1. -/
def add (f : Fmt) : FV → FV → FV
  | .nan, _ => .nan
  | _, .nan => .nan
  | .inf a, .inf b => if a = b then .inf a else .nan
  | .inf a, .fin _ _ => .inf a
  | .fin _ _, .inf b => .inf b
  | .fin a p, .fin b q => ofQ f (a && b) (signed a p + signed b q)

/-- `fadd` on bits. -/
def fadd (f : Fmt) (a b : Bits f) : Bits f := enc f (add f (val f a) (val f b))

/-- `fcmp ogt`. -/
def ogt (f : Fmt) (a b : Bits f) : Bool := decide ((val f a).rel (val f b) = .greater)

/-- `fcmp olt`. -/
def olt (f : Fmt) (a b : Bits f) : Bool := decide ((val f a).rel (val f b) = .less)

/-- `fcmp oge`. -/
def oge (f : Fmt) (a b : Bits f) : Bool :=
  decide ((val f a).rel (val f b) = .greater ∨ (val f a).rel (val f b) = .equal)

/-! ## Rounding by adding a large constant -/

/-- The constant: 1024.0, builtins/util.m4:6365; 8388608.0,
builtins/target-sse2-common.ll:182; 4503600000000000.0, builtins/target-xe.ll:103. -/
def plus : (f : Fmt) → Bits f
  | .f16 => 0x6400#16 | .f32 => 0x4B000000#32 | .f64 => 0x433000001635E000#64

/-- Its negation: builtins/util.m4:6366, builtins/target-sse2-common.ll:183,
builtins/target-xe.ll:104. -/
def minus : (f : Fmt) → Bits f
  | .f16 => 0xE400#16 | .f32 => 0xCB000000#32 | .f64 => 0xC33000001635E000#64

/-- `float` on SSE2, builtins/target-sse2-common.ll:177-188,
builtins/target-sse2-i32x4.ll:44-55 and builtins/target-sse2-i32x8.ll:318-329; on
WebAssembly, builtins/target-wasm-i32x4.ll:257-268 and 290-301; `double` on
Xe, builtins/target-xe.ll:98-109 and 699-719. -/
def magic (f : Fmt) (x : Bits f) : Bits f :=
  fadd f (fadd f (x ^^^ (x &&& signMask f)) (plus f)) (minus f) ^^^ (x &&& signMask f)

/-- -1.0, builtins/target-sse2-common.ll:207 and builtins/target-xe.ll:115; `float16`
has no such function. -/
def minusOne : (f : Fmt) → Bits f
  | .f16 => 0xBC00#16 | .f32 => 0xBF800000#32 | .f64 => 0xBFF0000000000000#64

/-- 1.0, builtins/target-sse2-common.ll:229 and builtins/target-xe.ll:125. -/
def one : (f : Fmt) → Bits f
  | .f16 => 0x3C00#16 | .f32 => 0x3F800000#32 | .f64 => 0x3FF0000000000000#64

/-- `sext i1`. -/
def sext (f : Fmt) (b : Bool) : Bits f := if b then BitVec.allOnes _ else 0

/-- builtins/target-sse2-common.ll:203-211, builtins/target-sse2-i32x4.ll:70-78,
builtins/target-sse2-i32x8.ll:344-352, builtins/target-wasm-i32x4.ll:270-278 and 303-311,
builtins/target-xe.ll:111-119 and 721-732. -/
def magicFloor (f : Fmt) (x : Bits f) : Bits f :=
  fadd f (magic f x) (sext f (ogt f (magic f x) x) &&& minusOne f)

/-- builtins/target-sse2-common.ll:225-233, builtins/target-sse2-i32x4.ll:92-100,
builtins/target-sse2-i32x8.ll:366-374, builtins/target-wasm-i32x4.ll:280-288 and 313-321,
builtins/target-xe.ll:121-129 and 734-745. -/
def magicCeil (f : Fmt) (x : Bits f) : Bits f :=
  fadd f (magic f x) (sext f (olt f (magic f x) x) &&& one f)

/-- `float16` on SSE2, uniform: builtins/util.m4:6350-6376. -/
def halfRound (x : Bits .f16) : Bits .f16 :=
  if oge .f16 (x ^^^ (x &&& signMask .f16)) (plus .f16) then x
  else fadd .f16 (fadd .f16 (x ^^^ (x &&& signMask .f16)) (plus .f16)) (minus .f16) ^^^ (x &&& signMask .f16)

/-- `float16` on SSE2, one program instance of the varying version:
builtins/util.m4:6378-6399. -/
def halfRoundVarying (x : Bits .f16) : Bits .f16 :=
  let large := oge .f16 (x ^^^ (x &&& signMask .f16)) (plus .f16)
  let a : Bits .f16 := if large then 0 else x ^^^ (x &&& signMask .f16)
  let r := fadd .f16 (fadd .f16 a (plus .f16)) (minus .f16) ^^^ (x &&& signMask .f16)
  if large then x else r

/-! ## Instructions and intrinsics that round -/

/-- The ways to round to an integer. -/
inductive Mode
  | near | down | up | zero
  deriving DecidableEq, Repr

/-- Rounding to an integer by an instruction or an intrinsic: `llvm.roundeven`,
`llvm.floor`, `llvm.ceil` and `llvm.trunc`, builtins/generic.ispc:442-453, 474-477 and
744-751 and builtins/util.m4:2131-2155 and 6331-6439; `llvm.genx.rnde`, `rndd`, `rndu` and `rndz`,
builtins/target-xe.ll:57-94 and 657-694; the `floor` and `ceil` of the C library,
builtins/target-sse2-common.ll:248-256. -/
def integral : Mode → FV → FV
  | .near, .fin s q => .fin s (rne q)
  | .down, .fin s q => .fin s (if s then ⌈q⌉ else ⌊q⌋)
  | .up, .fin s q => .fin s (if s then ⌊q⌋ else ⌈q⌉)
  | .zero, .fin s q => .fin s ⌊q⌋
  | _, v => v

/-- The rounding mode an immediate of `roundss`, `roundps`, `roundsd` or
`roundpd` selects: bit 2 takes the mode of the processor (`mxcsr`), bits 0 and 1
are the mode otherwise, and bit 3 is about exceptions. -/
def modeOf (mxcsr : Mode) (imm : BitVec 8) : Mode :=
  if imm.getLsbD 2 then mxcsr
  else match imm.getLsbD 1, imm.getLsbD 0 with
    | false, false => .near
    | false, true => .down
    | true, false => .up
    | true, true => .zero

/-- The `round` of the C library, which SSE2 and WebAssembly call for `double`: ties away
from zero, ISO C 7.12.9.6. -/
def cRound : FV → FV
  | .fin s q => .fin s ⌊q + 1 / 2⌋
  | v => v

/-- `float16` on Xe: `fpext` to `float`, round, `fptrunc`; builtins/target-xe.ll:75-94 and
657-676, builtins/util-xe.m4:1218-1230. -/
def viaFloat (m : Mode) (v : FV) : FV := Fold.conv .f16 (integral m (Fold.conv .f32 v))

/-! ## `trunc` of `double` on Xe -/

/-- builtins/util-xe.m4:1234-1256 and, where it differs (`varying`), 1259-1281.
`none` is a poison value: a shift by 64 or more. -/
def xeTrunc (varying : Bool) (x : BitVec 64) : Option (BitVec 64) :=
  let signExp := x &&& 0xFFF0000000000000#64
  let mantissa := x &&& 0x000FFFFFFFFFFFFF#64
  let expi := (x >>> 52) &&& 2047#64
  let exp := expi - 1023#64
  let isZero := exp.sle (-1#64)
  let isInfNan := expi == 2047#64
  let trim := 52#64 - exp
  let shifted := if trim.toNat < 64 then some (mantissa >>> trim.toNat <<< trim.toNat) else none
  let sign := x &&& 0x8000000000000000#64
  let zero := if varying then sign &&& 0#64 else sign ||| 0#64
  if isInfNan then some x else if isZero then some zero else shifted.map (signExp ||| ·)

/-! ## The functions of the standard library -/

/-- The families of targets, by the file that implements the functions:
builtins/generic.ispc, builtins/target-sse4-common.ll and the AVX files,
which round by instructions, builtins/target-sse2-common.ll, builtins/target-wasm-i32x4.ll and
builtins/target-xe.ll.  Other targets take the functions from one of these. -/
inductive Target
  | generic
  /-- With the rounding mode the processor is in. -/
  | sse4 (mxcsr : Mode)
  | sse2
  | wasm
  | xe
  deriving DecidableEq, Repr

/-- The function. -/
inductive Fn
  | round | floor | ceil | trunc
  deriving DecidableEq, Repr

/-- The rounding each intrinsic does. -/
def modeFn : Fn → Mode
  | .round => .near | .floor => .down | .ceil => .up | .trunc => .zero

/-- An implementation that is one instruction or intrinsic. -/
def exact (f : Fmt) (m : Mode) (x : Bits f) : Bits f := enc f (integral m (val f x))

/-- `round`, `floor`, `ceil` and `trunc` of one value, stdlib/stdlib.ispc:2301-2347, through the
functions `__round_varying_float` and the like of each target.  The immediates of the
SSE4 and AVX instructions: builtins/target-sse4-common.ll:38, 47 and 56. -/
def call (t : Target) (fn : Fn) (varying : Bool) (f : Fmt) (x : Bits f) : Option (Bits f) :=
  match t with
  | .generic => some (exact f (modeFn fn) x)
  | .sse4 m => match fn, f with
    | .trunc, f => some (exact f .zero x)
    | fn, .f16 => some (exact .f16 (modeFn fn) x)
    | .round, f => some (exact f (modeOf m 8) x)
    | .floor, f => some (exact f (modeOf m 9) x)
    | .ceil, f => some (exact f (modeOf m 10) x)
  | .sse2 => match fn, f with
    | .round, .f16 => some (if varying then halfRoundVarying x else halfRound x)
    | .round, .f32 => some (magic .f32 x)
    | .floor, .f32 => some (magicFloor .f32 x)
    | .ceil, .f32 => some (magicCeil .f32 x)
    | .round, .f64 => some (enc .f64 (cRound (val .f64 x)))
    | fn, f => some (exact f (modeFn fn) x)
  | .wasm => match fn, f with
    | .round, .f32 => some (magic .f32 x)
    | .floor, .f32 => some (magicFloor .f32 x)
    | .ceil, .f32 => some (magicCeil .f32 x)
    | .round, .f64 => some (enc .f64 (cRound (val .f64 x)))
    | fn, f => some (exact f (modeFn fn) x)
  | .xe => match fn, f with
    | fn, .f16 => some (enc .f16 (viaFloat (modeFn fn) (val .f16 x)))
    | fn, .f32 => some (exact .f32 (modeFn fn) x)
    | .round, .f64 => some (magic .f64 x)
    | .floor, .f64 => some (magicFloor .f64 x)
    | .ceil, .f64 => some (magicCeil .f64 x)
    | .trunc, .f64 => xeTrunc varying x

end Ispc.Rounding
