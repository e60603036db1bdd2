import Verif.Builtins.FloatBits
import Verif.Builtins.Vec
import Mathlib.Data.Fin.VecNotation

/-!
# Reductions and `min`, `max`, `clamp` on each target (C82)

`reduce_add`, `reduce_min` and `reduce_max` of `stdlib/stdlib.ispc:1478-1700` call a function of the target.  `builtins/generic.ispc`
has one for every type; `builtins/target-*.ll` replace some of them by code that combines the values of the lanes in an order of
their own, and so do they for `min` and `max`.  The targets for Xe, and the code for `float16` of the targets with
`avx512fp16` instructions, are not modelled here.
-/

namespace Ispc.Reduce

open Ispc.Fold (Fmt FV Rel)
open Ispc.FloatBits (Bits val infBits signMask isnan sgn)
open Ispc.Vec

variable {α : Type} {W : Nat}

/-! ## The vector operations -/

/-- A vector some of whose elements may be poison. -/
abbrev PVec (W : Nat) (α : Type) := Vec W (Option α)

/-- `extractelement`; poison for a poison element or an index outside the vector. -/
def elt (v : PVec W α) (i : Nat) : Option α := (extract v i).join

/-- `shufflevector v, poison, idx`: an index that is `poison` gives poison. -/
def shuffle {W' : Nat} (v : PVec W α) (idx : Nat → Option Nat) : PVec W' α := fun l => (idx l.val).bind (elt v)

/-- A function of two vectors that works lane by lane. -/
def zip (op : α → α → α) (x y : PVec W α) : PVec W α := fun l => do return op (← x l) (← y l)

/-- The indices `h, h+1, …, 2h-1, poison, …, poison` of `reduce4` … `reduce64` (builtins/util.m4:936-937, 954-958, 975-990,
1008-1030, 1048-1093). -/
def down (h : Nat) : Nat → Option Nat := fun i => if i < h then some (h + i) else none

/-- The same elements, from the `k`-th on: the shuffles of `v8tov4` (util.m4:587-592). -/
def sub (k : Nat) : Nat → Option Nat := fun i => some (k + i)

/-- `%v = shufflevector …; %m = call $2(%v, %m)`: the upper half of `2h` elements is combined with the lower. -/
def halve (f : α → α → α) (v : PVec W α) (h : Nat) : PVec W α := zip f (shuffle v (down h)) v

/-- `%a = extractelement %m, 0; %b = extractelement %m, 1; call $3(%a, %b)`. -/
def lastTwo (g : α → α → α) (m : PVec W α) : Option α := do return g (← elt m 0) (← elt m 1)

/-- `reduce4`, `reduce8`, `reduce16`, `reduce32` and `reduce64` (builtins/util.m4:935-1104), with `hs` `[2]`, `[4, 2]`, `[8, 4, 2]`,
`[16, 8, 4, 2]` and `[32, 16, 8, 4, 2]`.  `f` is the function of vectors and `g` the function of scalars they are given. -/
def halving (hs : List Nat) (f g : α → α → α) (v : PVec W α) : Option α := lastTwo g (hs.foldl (halve f) v)

/-- `reduce8by4` (builtins/util.m4:1115-1126). -/
def by4 (f g : α → α → α) (v : PVec W α) : Option α :=
  let v1 : PVec 4 α := shuffle v (sub 0)
  let v2 : PVec 4 α := shuffle v (sub 4)
  let m1 := zip f v1 v2
  lastTwo g (halve f m1 2)

/-- `@llvm.vector.reduce.*`: the lanes one after the other.  LLVM leaves the order open except for `fadd`. -/
def inOrder (f : α → α → α) (start : Option α) (v : PVec W α) : Option α :=
  match start, (List.finRange W).map v with
  | some s, xs => xs.foldlM (fun a x => x.map (f a)) s
  | none, some x :: xs => xs.foldlM (fun a x => x.map (f a)) x
  | none, _ => none

/-- How a target combines the lanes. -/
inductive Shape
  /-- `reduce2ⁿ` -/
  | halving (hs : List Nat)
  | by4
  | inOrder
  deriving DecidableEq

def Shape.run (s : Shape) (f g : α → α → α) (v : Vec W α) : Option α :=
  match s with
  | .halving hs => Reduce.halving hs f g (fun l => some (v l))
  | .by4 => Reduce.by4 f g (fun l => some (v l))
  | .inOrder => Reduce.inOrder f none (fun l => some (v l))

/-! ## `min` and `max` -/

/-- `fcmp olt`. -/
def lt (f : Fmt) (a b : Bits f) : Bool := decide ((val f a).rel (val f b) = .less)

/-- The ways `min` and `max` of two floating-point numbers are written. -/
inductive Flavor
  /-- `a < b ? a : b`; also the machine instructions `minss`, `minps`, `minsd` and `minpd`. -/
  | ordered
  /-- `b < a ? b : a`. -/
  | swapped
  /-- `fcmp ult`: `a < b` or unordered. -/
  | unordered
  /-- `@llvm.minnum`.  For zeros of different signs LLVM may return either; here the first. -/
  | num
  /-- `@llvm.minimum`: NaN if either is, and −0 is less than +0. -/
  | prop
  deriving DecidableEq

/-- The smaller (`up = false`) or the larger (`up = true`) of two numbers. -/
def pick (fl : Flavor) (up : Bool) (f : Fmt) (a b : Bits f) : Bits f :=
  let lt' := fun x y : Bits f => if up then lt f y x else lt f x y
  match fl with
  | .ordered => if lt' a b then a else b
  | .swapped => if lt' b a then b else a
  | .unordered => if lt' a b || isnan f a || isnan f b then a else b
  | .num => if isnan f a then b else if isnan f b then a else if lt' b a then b else a
  | .prop =>
      if isnan f a then a else if isnan f b then b
      else if lt' a b then a else if lt' b a then b
      else if sgn f a != up then a else b

/-! ## The targets -/

/-- The targets with code of their own, by the names of the files, and the others.  The files for newer processors include these. -/
inductive Tgt
  | sse2I32x4 | sse2I32x8 | sse4I32x4 | sse4I32x8 | sse4I16x8 | sse4I8x16
  | avx1I32x8 | avx1I32x16 | avx1I64x4 | avx2I16x16 | avx2I8x32
  | avx512X4 | avx512X8 | avx512X16 | avx512X16nozmm | avx512X32 | avx512X64 | wasmI32x4
  /-- `builtins/generic.ispc`, with `W + 1` lanes; Arm and RISC-V have only this. -/
  | generic (W : Nat)
  deriving DecidableEq

/-- The gang size. -/
def Tgt.lanes : Tgt → Nat
  | .sse2I32x4 | .sse4I32x4 | .avx1I64x4 | .avx512X4 | .wasmI32x4 => 4
  | .sse2I32x8 | .sse4I32x8 | .sse4I16x8 | .avx1I32x8 | .avx512X8 => 8
  | .sse4I8x16 | .avx1I32x16 | .avx2I16x16 | .avx512X16 | .avx512X16nozmm => 16
  | .avx2I8x32 | .avx512X32 => 32
  | .avx512X64 => 64
  | .generic W => W + 1

/-- The types of numbers. -/
inductive Num
  | half | float | double
  | int (bits : Nat) (signed : Bool)
  deriving DecidableEq

def Num.fmt : Num → Fmt
  | .half => .f16 | .float => .f32 | _ => .f64

/-- The halving of the gang size: target-sse2-i32x4.ll:165-224, target-sse2-i32x8.ll:197-258, target-sse4-i32x4.ll:249-318,
target-sse4-i16x8.ll:245-305, target-sse4-i8x16.ll:249-309, target-avx1-i32x8.ll:217-290, target-avx1-i32x16.ll:230-317,
target-avx1-i64x4.ll:271-347, target-avx2-i16x16.ll:535-602, target-avx2-i8x32.ll:558-625, target-avx512skx-x4.ll:386-457,
target-avx512skx-x8.ll:424-500, target-avx512skx-x16.ll:443-526, target-avx512skx-x16-nozmm.ll:351-434,
target-avx512skx-x32.ll:384-451, target-avx512skx-x64.ll:362-429, target-wasm-i32x4.ll:674-808. -/
def Tgt.halves : Tgt → List Nat
  | .sse2I32x4 | .sse4I32x4 | .avx1I64x4 | .avx512X4 | .wasmI32x4 => [2]
  | .sse2I32x8 | .sse4I32x8 | .sse4I16x8 | .avx1I32x8 | .avx512X8 => [4, 2]
  | .sse4I8x16 | .avx1I32x16 | .avx2I16x16 | .avx512X16 | .avx512X16nozmm => [8, 4, 2]
  | .avx2I8x32 | .avx512X32 => [16, 8, 4, 2]
  | .avx512X64 => [32, 16, 8, 4, 2]
  | .generic _ => []

/-- How `__reduce_min_*` and `__reduce_max_*` combine the lanes.  Integers of 8 and 16 bits, except for wasm, have
only the code of builtins/generic.ispc:762-814; `float16` has `reduce_func`, builtins/util.m4:76-84 and 6493-6514; target-sse4-i32x8.ll:210-232 uses `reduce8by4` for 32 bits. -/
def minMaxShape (t : Tgt) (ty : Num) : Shape :=
  match t, ty with
  | .generic _, _ => .inOrder
  | .wasmI32x4, _ => .halving [2]
  | _, .int 8 _ => .inOrder
  | _, .int 16 _ => .inOrder
  | .sse4I32x8, .float => .by4
  | .sse4I32x8, .int 32 _ => .by4
  | t, _ => .halving t.halves

/-- `__min_varying_*` and `__max_varying_*` of floating-point numbers: target-sse2-i32x4.ll:299-332, target-sse2-i32x8.ll:95-102,
418-425, target-sse4-i32x4.ll:141-166, target-sse4-i32x8.ll:95-102, 497-504, target-sse4-i16x8.ll:140-189,
target-sse4-i8x16.ll:143-197, target-avx1-i32x8.ll:137-163, target-avx1-i32x16.ll:130-140, 589-596, target-avx1-i64x4.ll:213-221,
471-478, target-avx2-i16x16.ll:377-426, target-avx2-i8x32.ll:397-446, target-avx512skx-x4.ll:254-311, target-avx512skx-x8.ll:256-340,
target-avx512skx-x16.ll:273-360, target-avx512skx-x16-nozmm.ll:188-205, 260-268, target-avx512skx-x32.ll:302-351,
target-avx512skx-x64.ll:280-329, target-wasm-i32x4.ll:580-614, generic.ispc:866-880; of `float16`, builtins/util.m4:6268-6282. -/
def varyingFlavor (t : Tgt) (ty : Num) : Flavor :=
  match t, ty with
  | _, .half => .ordered
  | .wasmI32x4, .double => .prop
  | .avx512X16nozmm, .double => .num
  | .generic _, _ => .num
  | _, _ => .ordered

/-- `__min_uniform_*` and `__max_uniform_*` of floating-point numbers: target-sse2-common.ll:103-153, target-sse4-common.ll:181-205,
target-avx-utils.ll:181-206, target-avx2-i16x16.ll:281-351, target-avx2-i8x32.ll:301-371, target-avx512-utils.ll:63-100,
target-avx512skx-x32.ll:254-276, target-avx512skx-x64.ll:232-254, target-wasm-i32x4.ll:342-352, 450-460, generic.ispc:864-880. -/
def uniformFlavor (t : Tgt) (ty : Num) (up : Bool) : Flavor :=
  match t, ty with
  | _, .half => .ordered
  | .generic _, _ => .num
  | .sse2I32x4, _ | .sse2I32x8, _ | .sse4I32x4, _ | .sse4I32x8, _ | .sse4I16x8, _ | .sse4I8x16, _ => .ordered
  | .avx1I32x8, _ | .avx1I32x16, _ | .avx1I64x4, _ => if up then .swapped else .ordered
  | .avx512X4, _ | .avx512X8, _ | .avx512X16, _ | .avx512X16nozmm, _ => if up then .swapped else .ordered
  | _, .float => .unordered
  | _, _ => .ordered

/-- `@llvm.vector.reduce.fmin` and `fmax` combine as `minnum` and `maxnum` do (generic.ispc:763-774). -/
def vecFlavor (t : Tgt) (ty : Num) : Flavor :=
  match minMaxShape t ty with
  | .inOrder => .num
  | _ => varyingFlavor t ty

/-- `__min_varying_int32`, `__min_uniform_uint32`, …: `x < y ? x : y` and `x > y ? x : y` (generic.ispc:882-920); the targets that have
their own (`pminsd`, `icmp slt` and `select`, …) give the same. -/
def pickInt (signed up : Bool) {w : Nat} (a b : BitVec w) : BitVec w :=
  if (if signed then (if up then b.slt a else a.slt b) else (if up then b.ult a else a.ult b)) then a else b

/-! ## The functions of the standard library -/

/-- `__mask ? x : e`. -/
def mask (m : Fin W → Bool) (v : Vec W α) (e : α) : Vec W α := fun l => if m l then v l else e

/-- `reduce_min` and `reduce_max` of `float16`, `float` and `double` (stdlib/stdlib.ispc:1534-1566, 1619-1651); the value for the lanes
that do not run is ∞ or −∞. -/
def reduceFloat (t : Tgt) (ty : Num) (up : Bool) (v : Vec t.lanes (Bits ty.fmt)) (m : Fin t.lanes → Bool) : Option (Bits ty.fmt) :=
  (minMaxShape t ty).run (pick (vecFlavor t ty) up ty.fmt) (pick (uniformFlavor t ty up) up ty.fmt)
    (mask m v (if up then infBits ty.fmt ||| signMask ty.fmt else infBits ty.fmt))

/-- The value for the lanes that do not run: the largest or the smallest of the type (stdlib/stdlib.ispc:1568-1614, 1653-1699). -/
def worst (signed up : Bool) (w : Nat) : BitVec w :=
  if signed then (if up then BitVec.intMin w else BitVec.intMax w) else (if up then 0#w else BitVec.allOnes w)

/-- `reduce_min` and `reduce_max` of integers (stdlib/stdlib.ispc:1568-1614, 1653-1699). -/
def reduceInt (t : Tgt) (signed up : Bool) (w : Nat) (v : Vec t.lanes (BitVec w)) (m : Fin t.lanes → Bool) : Option (BitVec w) :=
  (minMaxShape t (.int w signed)).run (pickInt signed up) (pickInt signed up) (mask m v (worst signed up w))

/-- `min` and `max` of `varying` or `uniform` floating-point numbers (stdlib/stdlib.ispc:2647-2686). -/
def minMax (t : Tgt) (uniform : Bool) (ty : Num) (up : Bool) (a b : Bits ty.fmt) : Bits ty.fmt :=
  pick (if uniform then uniformFlavor t ty up else varyingFlavor t ty) up ty.fmt a b

/-- `clamp` (stdlib/stdlib.ispc:2812-2835): `min(max(v, low), high)`. -/
def clamp (t : Tgt) (uniform : Bool) (ty : Num) (v low high : Bits ty.fmt) : Bits ty.fmt :=
  minMax t uniform ty false (minMax t uniform ty true v low) high

/-! ## Sums of floating-point numbers -/

/-- `@llvm.x86.sse3.hadd.ps`. -/
def haddPs (f : α → α → α) (x y : Vec 4 α) : Vec 4 α := ![f (x 0) (x 1), f (x 2) (x 3), f (y 0) (y 1), f (y 2) (y 3)]

/-- `@llvm.x86.avx.hadd.ps.256`: `hadd.ps` of the low and of the high halves. -/
def haddPs256 (f : α → α → α) (x y : Vec 8 α) : Vec 8 α :=
  ![f (x 0) (x 1), f (x 2) (x 3), f (y 0) (y 1), f (y 2) (y 3), f (x 4) (x 5), f (x 6) (x 7), f (y 4) (y 5), f (y 6) (y 7)]

/-- `@llvm.x86.avx.hadd.pd.256`. -/
def haddPd256 (f : α → α → α) (x y : Vec 4 α) : Vec 4 α := ![f (x 0) (x 1), f (y 0) (y 1), f (x 2) (x 3), f (y 2) (y 3)]

/-- `fadd` of vectors. -/
def add4 (f : α → α → α) (x y : Vec 4 α) : Vec 4 α := fun l => f (x l) (y l)

/-- `__reduce_add_float` of target-sse4-i32x4.ll:242-247, target-avx1-i64x4.ll:264-269 and target-avx512skx-x4.ll:379-384. -/
def addHadd4 (f : α → α → α) (v : Vec 4 α) : α :=
  let v1 := haddPs f v v
  let v2 := haddPs f v1 v1
  v2 0

/-- `__reduce_add_float` of target-sse4-i32x8.ll:355-366. -/
def addFold8 (f : α → α → α) (v : Vec 8 α) : α :=
  let a : Vec 4 α := ![v 0, v 1, v 2, v 3]
  let b : Vec 4 α := ![v 4, v 5, v 6, v 7]
  let ab := add4 f a b
  let hab := haddPs f ab ab
  f (hab 0) (hab 1)

/-- `__reduce_add_float` of target-avx1-i32x8.ll:208-215 and target-avx512skx-x8.ll:415-422. -/
def addHadd8 (f : α → α → α) (v : Vec 8 α) : α :=
  let v1 := haddPs256 f v v
  let v2 := haddPs256 f v1 v1
  f (v2 0) (v2 4)

/-- `__reduce_add_float` of target-avx1-i32x16.ll:215-227, target-avx512skx-x16.ll:429-441 and
target-avx512skx-x16-nozmm.ll:337-349. -/
def addHadd16 (f : α → α → α) (v : Vec 16 α) : α :=
  let va : Vec 8 α := ![v 0, v 1, v 2, v 3, v 4, v 5, v 6, v 7]
  let vb : Vec 8 α := ![v 8, v 9, v 10, v 11, v 12, v 13, v 14, v 15]
  let v1 := haddPs256 f va vb
  let v2 := haddPs256 f v1 v1
  let v3 := haddPs256 f v2 v2
  f (v3 0) (v3 4)

/-- `__reduce_add_double` of target-sse2-i32x4.ll:190-200, target-sse4-i32x4.ll:260-270 and target-wasm-i32x4.ll:682-692. -/
def addPairs4 (f : α → α → α) (v : Vec 4 α) : α := f (f (v 0) (v 2)) (f (v 1) (v 3))

/-- `__reduce_add_double` of target-avx1-i32x8.ll:230-242. -/
def addHaddPd8 (f : α → α → α) (v : Vec 8 α) : α :=
  let v0 : Vec 4 α := ![v 0, v 1, v 2, v 3]
  let v1 : Vec 4 α := ![v 4, v 5, v 6, v 7]
  let sum0 := haddPd256 f v0 v1
  let sum1 := haddPd256 f sum0 sum0
  f (sum1 0) (sum1 2)

/-- `__reduce_add_double` of target-avx512skx-x8.ll:459-470. -/
def addFoldPd8 (f : α → α → α) (v : Vec 8 α) : α :=
  let va : Vec 4 α := ![v 0, v 1, v 2, v 3]
  let vb : Vec 4 α := ![v 4, v 5, v 6, v 7]
  let vab := add4 f va vb
  let sum0 := haddPd256 f vab vab
  f (sum0 0) (sum0 2)

/-- `__reduce_add_double` of target-avx1-i32x16.ll:268-286, target-avx512skx-x16.ll:478-496 and
target-avx512skx-x16-nozmm.ll:386-404. -/
def addHaddPd16 (f : α → α → α) (v : Vec 16 α) : α :=
  let va : Vec 4 α := ![v 0, v 1, v 2, v 3]
  let vb : Vec 4 α := ![v 4, v 5, v 6, v 7]
  let vc : Vec 4 α := ![v 8, v 9, v 10, v 11]
  let vd : Vec 4 α := ![v 12, v 13, v 14, v 15]
  let vab := add4 f va vb
  let vcd := add4 f vc vd
  let sum0 := haddPd256 f vab vcd
  let sum1 := haddPd256 f sum0 sum0
  f (sum1 0) (sum1 2)

/-- `__reduce_add_double` of target-avx1-i64x4.ll:305-318; `zero` is `0.0`. -/
def addZeroPd4 (zero : α) (f : α → α → α) (v : Vec 4 α) : α :=
  let v1 : Vec 4 α := ![zero, zero, zero, zero]
  let sum0 := haddPd256 f v v1
  let sum1 := haddPd256 f sum0 sum0
  f (sum1 0) (sum1 2)

/-- `__reduce_add_double` of target-avx512skx-x4.ll:421-427. -/
def addHaddPd4 (f : α → α → α) (v : Vec 4 α) : α :=
  let sum0 := haddPd256 f v v
  f (sum0 0) (sum0 2)

/-- `__reduce_add_float` and `__reduce_add_double`, and `__reduce_add_half`, builtins/util.m4:6493-6514.  `zero` is `0.0`
and `minus` is `-0.0` (generic.ispc:762-774).  The targets not named in the definitions above use the macros: target-sse2-i32x4.ll:155-163
(written out), target-sse2-i32x8.ll:193-195 and 232-234, target-sse4-i32x8.ll:245-247, target-sse4-i16x8.ll:241-243 and 279-281,
target-sse4-i8x16.ll:245-247 and 283-285, target-avx2-i16x16.ll:531-533 and 574-576, target-avx2-i8x32.ll:554-556 and 597-599,
target-avx512skx-x32.ll:380-382 and 423-425, target-avx512skx-x64.ll:358-360 and 401-403, target-wasm-i32x4.ll:664-672. -/
def sumFloat (t : Tgt) (ty : Num) (zero minus : α) (f : α → α → α) (v : Vec t.lanes α) : Option α :=
  match ty with
  | .half =>
      match t, v with
      | .generic _, v => inOrder f (some minus) (fun l => some (v l))
      | t, v => halving t.halves f f (fun l => some (v l))
  | .float =>
      match t, v with
      | .sse2I32x4, v | .wasmI32x4, v => halving [2] f f (fun l => some (v l))
      | .sse4I32x4, v | .avx1I64x4, v | .avx512X4, v => some (addHadd4 f v)
      | .sse2I32x8, v => by4 f f (fun l => some (v l))
      | .sse4I32x8, v => some (addFold8 f v)
      | .avx1I32x8, v | .avx512X8, v => some (addHadd8 f v)
      | .avx1I32x16, v | .avx512X16, v | .avx512X16nozmm, v => some (addHadd16 f v)
      | .generic _, v => inOrder f (some minus) (fun l => some (v l))
      | t, v => halving t.halves f f (fun l => some (v l))
  | _ =>
      match t, v with
      | .sse2I32x4, v | .sse4I32x4, v | .wasmI32x4, v => some (addPairs4 f v)
      | .avx1I64x4, v => some (addZeroPd4 zero f v)
      | .avx512X4, v => some (addHaddPd4 f v)
      | .sse2I32x8, v | .sse4I32x8, v => by4 f f (fun l => some (v l))
      | .avx1I32x8, v => some (addHaddPd8 f v)
      | .avx512X8, v => some (addFoldPd8 f v)
      | .avx1I32x16, v | .avx512X16, v | .avx512X16nozmm, v => some (addHaddPd16 f v)
      | .generic _, v => inOrder f (some minus) (fun l => some (v l))
      | t, v => halving t.halves f f (fun l => some (v l))

/-- `fadd`: subtracting the number with the sign changed. -/
def fadd (f : Fmt) (x y : FV) : FV := FloatBits.sub f x y.neg

/-- `reduce_add` of floating-point numbers (stdlib/stdlib.ispc:1482-1495).  The numbers are given by their values. -/
def reduceAdd (t : Tgt) (ty : Num) (v : Vec t.lanes FV) (m : Fin t.lanes → Bool) : Option FV :=
  sumFloat t ty (.fin false 0) (.fin true 0) (fadd ty.fmt) (mask m v (.fin false 0))

end Ispc.Reduce
