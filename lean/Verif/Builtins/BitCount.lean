import Verif.Front.Overload

/-!
# Counting bits, leading and trailing zeros, and absolute values

The functions of the standard library that count bits, on all targets: the code for CPUs in `builtins/util.m4` and the
target files, the code of the generic targets in `builtins/generic.ispc`, and the code for GPUs, which has instructions
for 32 bits only. The instructions themselves are given by their meaning: a list of the bits of a number, from the
lowest.
-/

namespace Ispc.BitCount

/-- The bits of a number from the lowest, the argument of the instructions `llvm.cttz`, `llvm.ctlz`, `llvm.ctpop` and
    `llvm.genx.lzd`, `llvm.genx.cbit` (builtins/util.m4:2670 and builtins/util-xe.m4:1670). -/
def bits {w : Nat} (x : BitVec w) : List Bool := (List.range w).map x.getLsbD

/-- `llvm.cttz(x, false)`: `w` for zero (builtins/util.m4:2670). -/
def cttz {w : Nat} (x : BitVec w) : BitVec w := BitVec.ofNat w ((bits x).takeWhile (!·)).length

/-- `llvm.ctlz(x, false)` and `llvm.genx.lzd`: `w` for zero (builtins/util.m4:2680 and builtins/util-xe.m4:1708). -/
def ctlz {w : Nat} (x : BitVec w) : BitVec w := BitVec.ofNat w ((bits x).reverse.takeWhile (!·)).length

/-- `llvm.ctpop` and `llvm.genx.cbit` (builtins/generic.ispc:960 and builtins/target-xe.ll:373). -/
def ctpop {w : Nat} (x : BitVec w) : BitVec w := BitVec.ofNat w ((bits x).count true)

/-- `llvm.genx.bfrev` (builtins/util-xe.m4:1670). -/
def bfrev {w : Nat} (x : BitVec w) : BitVec w := x.reverse

/-- `trunc i64 %0 to i32` (builtins/util-xe.m4:1684). -/
def low (x : BitVec 64) : BitVec 32 := x.setWidth 32

/-- `trunc i64 (lshr i64 %0, 32) to i32` (builtins/util-xe.m4:1682-1683). -/
def high (x : BitVec 64) : BitVec 32 := (x >>> 32).setWidth 32

/-- Where the code of a target comes from; `vectorPopcnt` for those that count bits in a vector: the `avx512icl` targets,
    `avx512skx-x32` and `-x64` and `avx2-i8x32` (builtins/target-avx512icl-x16.ll:69-80,
    builtins/target-avx512skx-x32.ll:529-540, builtins/target-avx2-i8x32.ll:759-772). -/
inductive Code where
  | native (vectorPopcnt : Bool)
  | generic
  | xe
  deriving DecidableEq, Repr

/-! ## Uniform values -/

/-- `__count_trailing_zeros_uniform_i32` (builtins/util.m4:2669-2672, builtins/generic.ispc:937,
    builtins/util-xe.m4:1669-1673). -/
def ctz32 (c : Code) (x : BitVec 32) : BitVec 32 :=
  match c with
  | .xe => ctlz (bfrev x)
  | _ => cttz x

/-- `__count_trailing_zeros_uniform_i64` (builtins/util.m4:2674-2677, builtins/generic.ispc:938,
    builtins/util-xe.m4:1681-1692). -/
def ctz64 (c : Code) (x : BitVec 64) : BitVec 64 :=
  match c with
  | .xe =>
    let tzHi := ctz32 .xe (high x)
    let tzLo := ctz32 .xe (low x)
    let sel := if tzLo = 32#32 then tzHi else 0#32
    (tzLo + sel).setWidth 64
  | _ => cttz x

/-- `__count_leading_zeros_uniform_i32` (builtins/util.m4:2679-2682, builtins/generic.ispc:939,
    builtins/util-xe.m4:1707-1710). -/
def clz32 (c : Code) (x : BitVec 32) : BitVec 32 :=
  match c with
  | .xe => ctlz x
  | _ => ctlz x

/-- `__count_leading_zeros_uniform_i64` (builtins/util.m4:2684-2687, builtins/generic.ispc:940,
    builtins/util-xe.m4:1717-1728). -/
def clz64 (c : Code) (x : BitVec 64) : BitVec 64 :=
  match c with
  | .xe =>
    let lzHi := ctlz (high x)
    let lzLo := ctlz (low x)
    let sel := if lzHi = 32#32 then lzLo else 0#32
    (lzHi + sel).setWidth 64
  | _ => ctlz x

/-- `__popcnt_int32_uniform` (builtins/generic.ispc:960, builtins/target-xe.ll:372-375); the native targets link the
    generic code. -/
def pop32 (_c : Code) (x : BitVec 32) : BitVec 32 := ctpop x

/-- `__popcnt_int64_uniform` (builtins/generic.ispc:961, builtins/target-xe.ll:377-385). -/
def pop64 (c : Code) (x : BitVec 64) : BitVec 32 :=
  match c with
  | .xe => ctpop (low x) + ctpop (high x)
  | _ => (ctpop x).setWidth 32

/-! ## Varying values -/

/-- A varying value: one value for each program instance, `<WIDTH x i32>` (builtins/util.m4:2689). -/
abbrev Gang (w : Nat) := Nat → BitVec w

/-- `insert(r, i, v)` (stdlib/stdlib.ispc:738-740). -/
def insert {w : Nat} (r : Gang w) (i : Nat) (v : BitVec w) : Gang w := fun j => if j = i then v else r j

/-- The loop `for (uniform int i = 0; i < programCount; ++i) r = insert(r, i, f(extract(v, i)))` (stdlib/stdlib.ispc:1062-1063,
    builtins/generic.ispc:964-965), with what `r` has at first. -/
def loop {w w' : Nat} (f : BitVec w → BitVec w') (v : Gang w) (r : Gang w') : Nat → Gang w'
  | 0 => r
  | n + 1 => let r := loop f v r n; insert r n (f (v n))

/-- `__count_trailing_zeros_varying_i32` (builtins/util.m4:2689-2692, builtins/generic.ispc:942-945,
    builtins/util-xe.m4:1675-1679) and `count_trailing_zeros` (stdlib/stdlib.ispc:1079-1085 and 1117-1123). -/
def ctz32V (c : Code) (v : Gang 32) : Gang 32 := fun i =>
  match c with
  | .xe => ctlz (bfrev (v i))
  | _ => cttz (v i)

/-- `__count_trailing_zeros_varying_i64` (builtins/util.m4:2693-2696, builtins/generic.ispc:946-949,
    builtins/util-xe.m4:1694-1705) and `count_trailing_zeros` (stdlib/stdlib.ispc:1087-1093 and 1125-1131). -/
def ctz64V (c : Code) (v : Gang 64) : Gang 64 := fun i =>
  match c with
  | .xe =>
    let tzHi := ctz32V .xe (fun j => high (v j)) i
    let tzLo := ctz32V .xe (fun j => low (v j)) i
    let sel := if tzLo = 32#32 then tzHi else 0#32
    (tzLo + sel).setWidth 64
  | _ => cttz (v i)

/-- `__count_leading_zeros_varying_i32` (builtins/util.m4:2697-2700, builtins/generic.ispc:950-953,
    builtins/util-xe.m4:1712-1715). -/
def clz32Vec (_c : Code) (v : Gang 32) : Gang 32 := fun i => ctlz (v i)

/-- `__count_leading_zeros_varying_i64` (builtins/util.m4:2701-2704, builtins/generic.ispc:954-957,
    builtins/util-xe.m4:1730-1741). The generic code keeps the counts in `int32` in between. -/
def clz64Vec (c : Code) (v : Gang 64) : Gang 64 := fun i =>
  match c with
  | .native _ => ctlz (v i)
  | .generic => ((ctlz (v i)).setWidth 32).signExtend 64
  | .xe =>
    let lzHi := ctlz (high (v i))
    let lzLo := ctlz (low (v i))
    let sel := if lzHi = 32#32 then lzLo else 0#32
    (lzHi + sel).setWidth 64

/-- `count_leading_zeros` for varying `int32` and `unsigned int32` (stdlib/stdlib.ispc:1057-1066 and 1095-1104); `conflict`
    is `__have_conflict_detection`, `junk` what the variable has at first. -/
def clz32V (W : Nat) (c : Code) (conflict : Bool) (junk v : Gang 32) : Gang 32 :=
  if conflict then clz32Vec c v else loop (clz32 c) v junk W

/-- `count_leading_zeros` for varying `int64` and `unsigned int64` (stdlib/stdlib.ispc:1068-1077 and 1106-1115). -/
def clz64V (W : Nat) (c : Code) (conflict : Bool) (junk v : Gang 64) : Gang 64 :=
  if conflict then clz64Vec c v else loop (clz64 c) v junk W

/-- An element of the mask with `m` bits: all ones or all zeros; `__mask` (stdlib/stdlib.ispc:802). -/
def maskElt (m : Nat) (on : Bool) : BitVec m := if on then BitVec.allOnes m else 0#m

/-- `__popcnt_int32_varying` (builtins/generic.ispc:962-967, builtins/target-avx512icl-x16.ll:69-73,
    builtins/target-avx2-i8x32.ll:759-764, builtins/target-xe.ll:389-393) and `popcnt` (stdlib/stdlib.ispc:802). -/
def pop32V (W m : Nat) (c : Code) (junk : Gang 32) (mask : Nat → BitVec m) (v : Gang 32) : Gang 32 :=
  match c with
  | .native true | .xe => fun i => if (mask i).getLsbD 0 then ctpop (v i) else 0#32
  | _ => fun i => if mask i ≠ 0#m then loop (pop32 c) v junk W i else 0#32

/-- `__popcnt_int64_varying` (builtins/generic.ispc:968-973, builtins/target-avx512icl-x16.ll:75-80,
    builtins/target-avx2-i8x32.ll:766-772, builtins/target-xe.ll:395-404) and `popcnt` (stdlib/stdlib.ispc:804). -/
def pop64V (W m : Nat) (c : Code) (junk : Gang 32) (mask : Nat → BitVec m) (v : Gang 64) : Gang 32 :=
  match c with
  | .native true => fun i => if (mask i).getLsbD 0 then (ctpop (v i)).setWidth 32 else 0#32
  | .xe => fun i => if (mask i).getLsbD 0 then ctpop (low (v i)) + ctpop (high (v i)) else 0#32
  | _ => fun i => if mask i ≠ 0#m then loop (pop64 c) v junk W i else 0#32

/-! ## Absolute values -/

/-- `abs` of an integer, `a > 0 ? a : -a` (stdlib/stdlib.ispc:2216-2230). -/
def abs {w : Nat} (a : BitVec w) : BitVec w := if (0#w).slt a then a else -a

/-! ## The choice of `popcnt` -/

open Ispc.Types Ispc.Overload in
/-- The declarations of `popcnt` (stdlib/stdlib.ispc:798-806). -/
def popcnts : List Cand :=
  [cand 0 [at_ .int32 .uniform], cand 1 [at_ .int64 .uniform], cand 2 [at_ .int32], cand 3 [at_ .int64], cand 4 [at_ .bool]]

open Ispc.Types Ispc.Overload in
/-- `FunctionSymbolExpr::ResolveOverloads` for a call of `popcnt` (src/expr.cpp:10055-10121). -/
def callPopcnt (t : Ty) : Outcome := resolve false [arg t] popcnts []

end Ispc.BitCount
