/-!
# The shuffle networks of the transposes (C17): the tables

Generated from `builtins/util.m4:2817-5079` (macros `aossoa4` to `aossoa64`) and from the copy for Xe, `builtins/util-xe.m4:1879-3656`:
every `shufflevector` with its operands and its mask, every `store` with its pointer.  Calls of a narrower function are
inlined, `bitcast` and `getelementptr` of an output pointer are folded into an offset in elements.  The stores are listed
after the shuffles, which is the same since no instruction of these functions reads memory.  Functions with the same
instructions (`float` and `double` often) share a table; `ifdef(SOA_TO_AOS4_DOUBLE_PUMPED)` gives two variants, both present.
-/

namespace Ispc.AosNets

/-- `shufflevector a, b, mask`: register numbers (the arguments come first, then the results in order); `b = none` is a
`poison` operand; `-1` in the mask is a `poison` index, as in LLVM. -/
structure Shuf where
  a : Nat
  b : Option Nat
  mask : List Int

/-- `store r, out + off`: register `r`, output pointer number `out`, offset in elements. -/
structure Store where
  r : Nat
  out : Nat
  off : Nat

/-- One function: `fields` vectors of `width` elements in, as many out. -/
structure Net where
  fields : Nat
  width : Nat
  shufs : List Shuf
  stores : List Store

/-- builtins/util.m4: `__aos_to_soa4_float4` 2819-2846, `__soa_to_aos4_float4` 2854-2863, `__aos_to_soa4_double4`
2865-2892, `__soa_to_aos4_double4` 2899-2908; builtins/util-xe.m4: `__aos_to_soa4_float4` 1881-1908,
`__soa_to_aos4_float4` 1916-1925, `__aos_to_soa4_double4` 1927-1954, `__soa_to_aos4_double4` 1961-1970. -/
def aos4f4 : Net where
  fields := 4
  width := 4
  shufs := [
    ⟨2, some 3, [0, 4, 1, 5]⟩,
    ⟨2, some 3, [2, 6, 3, 7]⟩,
    ⟨0, some 1, [0, 4, 1, 5]⟩,
    ⟨0, some 1, [2, 6, 3, 7]⟩,
    ⟨6, some 4, [0, 1, 4, 5]⟩,
    ⟨6, some 4, [2, 3, 6, 7]⟩,
    ⟨7, some 5, [0, 1, 4, 5]⟩,
    ⟨7, some 5, [2, 3, 6, 7]⟩]
  stores := [⟨8, 0, 0⟩, ⟨9, 1, 0⟩, ⟨10, 2, 0⟩, ⟨11, 3, 0⟩]

/-- builtins/util.m4: `__aos_to_soa3_float4` 2914-2938, `__aos_to_soa3_double4` 2970-2994; builtins/util-xe.m4:
`__aos_to_soa3_float4` 1976-2000, `__aos_to_soa3_double4` 2032-2056. -/
def aos3f4 : Net where
  fields := 3
  width := 4
  shufs := [
    ⟨0, some 1, [0, 3, 1, 4]⟩,
    ⟨1, some 2, [2, 5, 3, 6]⟩,
    ⟨3, some 4, [0, 1, 4, 5]⟩,
    ⟨3, some 4, [2, 3, 6, 7]⟩,
    ⟨0, some 1, [2, 5, -1, -1]⟩,
    ⟨7, some 2, [0, 1, 4, 7]⟩]
  stores := [⟨5, 0, 0⟩, ⟨6, 1, 0⟩, ⟨8, 2, 0⟩]

/-- builtins/util.m4: `__soa_to_aos3_float4` 2945-2968, `__soa_to_aos3_double4` 2996-3019; builtins/util-xe.m4:
`__soa_to_aos3_float4` 2007-2030, `__soa_to_aos3_double4` 2058-2081. -/
def soa3f4 : Net where
  fields := 3
  width := 4
  shufs := [
    ⟨0, some 1, [0, 1, 2, 4]⟩,
    ⟨1, some 2, [1, 2, 4, 5]⟩,
    ⟨3, some 4, [0, 3, 6, 1]⟩,
    ⟨3, some 4, [4, 7, 2, 5]⟩,
    ⟨0, some 1, [3, 7, -1, -1]⟩,
    ⟨7, some 2, [6, 0, 1, 7]⟩]
  stores := [⟨5, 0, 0⟩, ⟨6, 1, 0⟩, ⟨8, 2, 0⟩]

/-- builtins/util.m4: `__aos_to_soa2_float4` 3025-3035, `__aos_to_soa2_double4` 3054-3064; builtins/util-xe.m4:
`__aos_to_soa2_float4` 2087-2097, `__aos_to_soa2_double4` 2116-2126. -/
def aos2f4 : Net where
  fields := 2
  width := 4
  shufs := [
    ⟨0, some 1, [0, 2, 4, 6]⟩,
    ⟨0, some 1, [1, 3, 5, 7]⟩]
  stores := [⟨2, 0, 0⟩, ⟨3, 1, 0⟩]

/-- builtins/util.m4: `__soa_to_aos2_float4` 3042-3052, `__soa_to_aos2_double4` 3071-3081; builtins/util-xe.m4:
`__soa_to_aos2_float4` 2104-2114, `__soa_to_aos2_double4` 2133-2143. -/
def soa2f4 : Net where
  fields := 2
  width := 4
  shufs := [
    ⟨0, some 1, [0, 4, 1, 5]⟩,
    ⟨0, some 1, [2, 6, 3, 7]⟩]
  stores := [⟨2, 0, 0⟩, ⟨3, 1, 0⟩]

/-- builtins/util.m4: `__aos_to_soa4_float8` 3093-3125, `__aos_to_soa4_double8` 3162-3194. -/
def aos4f8 : Net where
  fields := 4
  width := 8
  shufs := [
    ⟨2, some 3, [0, 4, 8, 12, 1, 5, 9, 13]⟩,
    ⟨2, some 3, [2, 6, 10, 14, 3, 7, 11, 15]⟩,
    ⟨0, some 1, [0, 4, 8, 12, 1, 5, 9, 13]⟩,
    ⟨0, some 1, [2, 6, 10, 14, 3, 7, 11, 15]⟩,
    ⟨6, some 4, [0, 1, 2, 3, 8, 9, 10, 11]⟩,
    ⟨6, some 4, [4, 5, 6, 7, 12, 13, 14, 15]⟩,
    ⟨7, some 5, [0, 1, 2, 3, 8, 9, 10, 11]⟩,
    ⟨7, some 5, [4, 5, 6, 7, 12, 13, 14, 15]⟩]
  stores := [⟨8, 0, 0⟩, ⟨9, 1, 0⟩, ⟨10, 2, 0⟩, ⟨11, 3, 0⟩]

/-- builtins/util.m4: `__soa_to_aos4_float8` 3128-3160, `__soa_to_aos4_double8` 3247-3279. -/
def soa4f8 : Net where
  fields := 4
  width := 8
  shufs := [
    ⟨2, some 3, [0, 1, 2, 3, 8, 9, 10, 11]⟩,
    ⟨2, some 3, [4, 5, 6, 7, 12, 13, 14, 15]⟩,
    ⟨0, some 1, [0, 1, 2, 3, 8, 9, 10, 11]⟩,
    ⟨0, some 1, [4, 5, 6, 7, 12, 13, 14, 15]⟩,
    ⟨6, some 4, [0, 4, 8, 12, 1, 5, 9, 13]⟩,
    ⟨6, some 4, [2, 6, 10, 14, 3, 7, 11, 15]⟩,
    ⟨7, some 5, [0, 4, 8, 12, 1, 5, 9, 13]⟩,
    ⟨7, some 5, [2, 6, 10, 14, 3, 7, 11, 15]⟩]
  stores := [⟨8, 0, 0⟩, ⟨9, 1, 0⟩, ⟨10, 2, 0⟩, ⟨11, 3, 0⟩]

/-- builtins/util.m4: `__soa_to_aos4_double8` 3198-3244; builtins/util-xe.m4: `__soa_to_aos4_float8` 2205-2251,
`__soa_to_aos4_double8` 2302-2348. -/
def soa4d8Pumped : Net where
  fields := 4
  width := 8
  shufs := [
    ⟨0, none, [0, 1, 2, 3]⟩,
    ⟨0, none, [4, 5, 6, 7]⟩,
    ⟨1, none, [0, 1, 2, 3]⟩,
    ⟨1, none, [4, 5, 6, 7]⟩,
    ⟨2, none, [0, 1, 2, 3]⟩,
    ⟨2, none, [4, 5, 6, 7]⟩,
    ⟨3, none, [0, 1, 2, 3]⟩,
    ⟨3, none, [4, 5, 6, 7]⟩,
    ⟨8, some 10, [0, 4, 1, 5]⟩,
    ⟨8, some 10, [2, 6, 3, 7]⟩,
    ⟨4, some 6, [0, 4, 1, 5]⟩,
    ⟨4, some 6, [2, 6, 3, 7]⟩,
    ⟨14, some 12, [0, 1, 4, 5]⟩,
    ⟨14, some 12, [2, 3, 6, 7]⟩,
    ⟨15, some 13, [0, 1, 4, 5]⟩,
    ⟨15, some 13, [2, 3, 6, 7]⟩,
    ⟨9, some 11, [0, 4, 1, 5]⟩,
    ⟨9, some 11, [2, 6, 3, 7]⟩,
    ⟨5, some 7, [0, 4, 1, 5]⟩,
    ⟨5, some 7, [2, 6, 3, 7]⟩,
    ⟨22, some 20, [0, 1, 4, 5]⟩,
    ⟨22, some 20, [2, 3, 6, 7]⟩,
    ⟨23, some 21, [0, 1, 4, 5]⟩,
    ⟨23, some 21, [2, 3, 6, 7]⟩]
  stores := [⟨16, 0, 0⟩, ⟨17, 0, 4⟩, ⟨18, 1, 0⟩, ⟨19, 1, 4⟩, ⟨24, 2, 0⟩, ⟨25, 2, 4⟩, ⟨26, 3, 0⟩, ⟨27, 3, 4⟩]

/-- builtins/util.m4: `__aos_to_soa3_float8` 3282-3310. -/
def aos3f8 : Net where
  fields := 3
  width := 8
  shufs := [
    ⟨0, some 1, [0, 3, 6, 9, 1, 4, 7, 10]⟩,
    ⟨1, some 2, [4, 7, 10, 13, 5, 8, 11, 14]⟩,
    ⟨3, some 4, [0, 1, 2, 3, 8, 9, 10, 11]⟩,
    ⟨3, some 4, [4, 5, 6, 7, 12, 13, 14, 15]⟩,
    ⟨0, some 1, [2, 5, 8, 11, 14, -1, -1, -1]⟩,
    ⟨7, some 2, [0, 1, 2, 3, 4, 9, 12, 15]⟩]
  stores := [⟨5, 0, 0⟩, ⟨6, 1, 0⟩, ⟨8, 2, 0⟩]

/-- builtins/util.m4: `__soa_to_aos3_float8` 3313-3340, `__soa_to_aos3_double8` 3388-3415. -/
def soa3f8 : Net where
  fields := 3
  width := 8
  shufs := [
    ⟨0, some 1, [0, 1, 2, 3, 4, 5, 8, 9]⟩,
    ⟨1, some 2, [2, 3, 4, 8, 9, 10, 11, 12]⟩,
    ⟨3, some 4, [0, 6, 11, 1, 7, 12, 2, 8]⟩,
    ⟨3, some 4, [13, 3, 9, 14, 4, 10, 15, 5]⟩,
    ⟨0, some 1, [6, 7, 13, 14, 15, -1, -1, -1]⟩,
    ⟨7, some 2, [2, 13, 0, 3, 14, 1, 4, 15]⟩]
  stores := [⟨5, 0, 0⟩, ⟨6, 1, 0⟩, ⟨8, 2, 0⟩]

/-- builtins/util.m4: `__aos_to_soa3_double8` 3343-3385. -/
def aos3d8 : Net where
  fields := 3
  width := 8
  shufs := [
    ⟨0, none, [0, 1, 2, 3]⟩,
    ⟨0, none, [4, 5, 6, 7]⟩,
    ⟨1, none, [0, 1, 2, 3]⟩,
    ⟨1, none, [4, 5, 6, 7]⟩,
    ⟨2, none, [0, 1, 2, 3]⟩,
    ⟨2, none, [4, 5, 6, 7]⟩,
    ⟨3, some 4, [0, 3, 1, 4]⟩,
    ⟨4, some 5, [2, 5, 3, 6]⟩,
    ⟨3, some 4, [2, 5, -1, -1]⟩,
    ⟨6, some 7, [0, 3, 1, 4]⟩,
    ⟨7, some 8, [2, 5, 3, 6]⟩,
    ⟨6, some 7, [2, 5, -1, -1]⟩,
    ⟨9, some 10, [0, 1, 4, 5]⟩,
    ⟨9, some 10, [2, 3, 6, 7]⟩,
    ⟨11, some 5, [0, 1, 4, 7]⟩,
    ⟨12, some 13, [0, 1, 4, 5]⟩,
    ⟨12, some 13, [2, 3, 6, 7]⟩,
    ⟨14, some 8, [0, 1, 4, 7]⟩]
  stores := [⟨15, 0, 0⟩, ⟨18, 0, 4⟩, ⟨16, 1, 0⟩, ⟨19, 1, 4⟩, ⟨17, 2, 0⟩, ⟨20, 2, 4⟩]

/-- builtins/util.m4: `__aos_to_soa2_float8` 3424-3437, `__aos_to_soa2_double8` 3465-3478; builtins/util-xe.m4:
`__aos_to_soa2_float8` 2492-2505, `__aos_to_soa2_double8` 2533-2546. -/
def aos2f8 : Net where
  fields := 2
  width := 8
  shufs := [
    ⟨0, some 1, [0, 2, 4, 6, 8, 10, 12, 14]⟩,
    ⟨0, some 1, [1, 3, 5, 7, 9, 11, 13, 15]⟩]
  stores := [⟨2, 0, 0⟩, ⟨3, 1, 0⟩]

/-- builtins/util.m4: `__soa_to_aos2_float8` 3446-3456, `__soa_to_aos2_double8` 3487-3497; builtins/util-xe.m4:
`__soa_to_aos2_float8` 2514-2524, `__soa_to_aos2_double8` 2555-2565. -/
def soa2f8 : Net where
  fields := 2
  width := 8
  shufs := [
    ⟨0, some 1, [0, 8, 1, 9, 2, 10, 3, 11]⟩,
    ⟨0, some 1, [4, 12, 5, 13, 6, 14, 7, 15]⟩]
  stores := [⟨2, 0, 0⟩, ⟨3, 1, 0⟩]

/-- builtins/util.m4: `__aos_to_soa4_float16` 3507-3547, `__aos_to_soa4_double16` 3593-3633. -/
def aos4f16 : Net where
  fields := 4
  width := 16
  shufs := [
    ⟨2, some 3, [0, 4, 8, 12, 16, 20, 24, 28, 1, 5, 9, 13, 17, 21, 25, 29]⟩,
    ⟨2, some 3, [2, 6, 10, 14, 18, 22, 26, 30, 3, 7, 11, 15, 19, 23, 27, 31]⟩,
    ⟨0, some 1, [0, 4, 8, 12, 16, 20, 24, 28, 1, 5, 9, 13, 17, 21, 25, 29]⟩,
    ⟨0, some 1, [2, 6, 10, 14, 18, 22, 26, 30, 3, 7, 11, 15, 19, 23, 27, 31]⟩,
    ⟨6, some 4, [0, 1, 2, 3, 4, 5, 6, 7, 16, 17, 18, 19, 20, 21, 22, 23]⟩,
    ⟨6, some 4, [8, 9, 10, 11, 12, 13, 14, 15, 24, 25, 26, 27, 28, 29, 30, 31]⟩,
    ⟨7, some 5, [0, 1, 2, 3, 4, 5, 6, 7, 16, 17, 18, 19, 20, 21, 22, 23]⟩,
    ⟨7, some 5, [8, 9, 10, 11, 12, 13, 14, 15, 24, 25, 26, 27, 28, 29, 30, 31]⟩]
  stores := [⟨8, 0, 0⟩, ⟨9, 1, 0⟩, ⟨10, 2, 0⟩, ⟨11, 3, 0⟩]

/-- builtins/util.m4: `__soa_to_aos4_float16` 3550-3590, `__soa_to_aos4_double16` 3708-3748. -/
def soa4f16 : Net where
  fields := 4
  width := 16
  shufs := [
    ⟨2, some 3, [0, 1, 2, 3, 4, 5, 6, 7, 16, 17, 18, 19, 20, 21, 22, 23]⟩,
    ⟨2, some 3, [8, 9, 10, 11, 12, 13, 14, 15, 24, 25, 26, 27, 28, 29, 30, 31]⟩,
    ⟨0, some 1, [0, 1, 2, 3, 4, 5, 6, 7, 16, 17, 18, 19, 20, 21, 22, 23]⟩,
    ⟨0, some 1, [8, 9, 10, 11, 12, 13, 14, 15, 24, 25, 26, 27, 28, 29, 30, 31]⟩,
    ⟨6, some 4, [0, 8, 16, 24, 1, 9, 17, 25, 2, 10, 18, 26, 3, 11, 19, 27]⟩,
    ⟨6, some 4, [4, 12, 20, 28, 5, 13, 21, 29, 6, 14, 22, 30, 7, 15, 23, 31]⟩,
    ⟨7, some 5, [0, 8, 16, 24, 1, 9, 17, 25, 2, 10, 18, 26, 3, 11, 19, 27]⟩,
    ⟨7, some 5, [4, 12, 20, 28, 5, 13, 21, 29, 6, 14, 22, 30, 7, 15, 23, 31]⟩]
  stores := [⟨8, 0, 0⟩, ⟨9, 1, 0⟩, ⟨10, 2, 0⟩, ⟨11, 3, 0⟩]

/-- builtins/util.m4: `__soa_to_aos4_double16` 3637-3705; builtins/util-xe.m4: `__soa_to_aos4_float16` 2646-2714,
`__soa_to_aos4_double16` 2787-2855. -/
def soa4d16Pumped : Net where
  fields := 4
  width := 16
  shufs := [
    ⟨0, none, [0, 1, 2, 3]⟩,
    ⟨0, none, [4, 5, 6, 7]⟩,
    ⟨0, none, [8, 9, 10, 11]⟩,
    ⟨0, none, [12, 13, 14, 15]⟩,
    ⟨1, none, [0, 1, 2, 3]⟩,
    ⟨1, none, [4, 5, 6, 7]⟩,
    ⟨1, none, [8, 9, 10, 11]⟩,
    ⟨1, none, [12, 13, 14, 15]⟩,
    ⟨2, none, [0, 1, 2, 3]⟩,
    ⟨2, none, [4, 5, 6, 7]⟩,
    ⟨2, none, [8, 9, 10, 11]⟩,
    ⟨2, none, [12, 13, 14, 15]⟩,
    ⟨3, none, [0, 1, 2, 3]⟩,
    ⟨3, none, [4, 5, 6, 7]⟩,
    ⟨3, none, [8, 9, 10, 11]⟩,
    ⟨3, none, [12, 13, 14, 15]⟩,
    ⟨12, some 16, [0, 4, 1, 5]⟩,
    ⟨12, some 16, [2, 6, 3, 7]⟩,
    ⟨4, some 8, [0, 4, 1, 5]⟩,
    ⟨4, some 8, [2, 6, 3, 7]⟩,
    ⟨22, some 20, [0, 1, 4, 5]⟩,
    ⟨22, some 20, [2, 3, 6, 7]⟩,
    ⟨23, some 21, [0, 1, 4, 5]⟩,
    ⟨23, some 21, [2, 3, 6, 7]⟩,
    ⟨13, some 17, [0, 4, 1, 5]⟩,
    ⟨13, some 17, [2, 6, 3, 7]⟩,
    ⟨5, some 9, [0, 4, 1, 5]⟩,
    ⟨5, some 9, [2, 6, 3, 7]⟩,
    ⟨30, some 28, [0, 1, 4, 5]⟩,
    ⟨30, some 28, [2, 3, 6, 7]⟩,
    ⟨31, some 29, [0, 1, 4, 5]⟩,
    ⟨31, some 29, [2, 3, 6, 7]⟩,
    ⟨14, some 18, [0, 4, 1, 5]⟩,
    ⟨14, some 18, [2, 6, 3, 7]⟩,
    ⟨6, some 10, [0, 4, 1, 5]⟩,
    ⟨6, some 10, [2, 6, 3, 7]⟩,
    ⟨38, some 36, [0, 1, 4, 5]⟩,
    ⟨38, some 36, [2, 3, 6, 7]⟩,
    ⟨39, some 37, [0, 1, 4, 5]⟩,
    ⟨39, some 37, [2, 3, 6, 7]⟩,
    ⟨15, some 19, [0, 4, 1, 5]⟩,
    ⟨15, some 19, [2, 6, 3, 7]⟩,
    ⟨7, some 11, [0, 4, 1, 5]⟩,
    ⟨7, some 11, [2, 6, 3, 7]⟩,
    ⟨46, some 44, [0, 1, 4, 5]⟩,
    ⟨46, some 44, [2, 3, 6, 7]⟩,
    ⟨47, some 45, [0, 1, 4, 5]⟩,
    ⟨47, some 45, [2, 3, 6, 7]⟩]
  stores := [⟨24, 0, 0⟩, ⟨25, 0, 4⟩, ⟨26, 0, 8⟩, ⟨27, 0, 12⟩, ⟨32, 1, 0⟩, ⟨33, 1, 4⟩, ⟨34, 1, 8⟩, ⟨35, 1, 12⟩,
    ⟨40, 2, 0⟩, ⟨41, 2, 4⟩, ⟨42, 2, 8⟩, ⟨43, 2, 12⟩, ⟨48, 3, 0⟩, ⟨49, 3, 4⟩, ⟨50, 3, 8⟩, ⟨51, 3, 12⟩]

/-- builtins/util.m4: `__aos_to_soa3_float16` 3751-3785, `__aos_to_soa3_double16` 3824-3858. -/
def aos3f16 : Net where
  fields := 3
  width := 16
  shufs := [
    ⟨0, some 1, [0, 3, 6, 9, 12, 15, 18, 21, 1, 4, 7, 10, 13, 16, 19, 22]⟩,
    ⟨1, some 2, [8, 11, 14, 17, 20, 23, 26, 29, 9, 12, 15, 18, 21, 24, 27, 30]⟩,
    ⟨3, some 4, [0, 1, 2, 3, 4, 5, 6, 7, 16, 17, 18, 19, 20, 21, 22, 23]⟩,
    ⟨3, some 4, [8, 9, 10, 11, 12, 13, 14, 15, 24, 25, 26, 27, 28, 29, 30, 31]⟩,
    ⟨0, some 1, [2, 5, 8, 11, 14, 17, 20, 23, 26, 29, -1, -1, -1, -1, -1, -1]⟩,
    ⟨7, some 2, [0, 1, 2, 3, 4, 5, 6, 7, 8, 9, 16, 19, 22, 25, 28, 31]⟩]
  stores := [⟨5, 0, 0⟩, ⟨6, 1, 0⟩, ⟨8, 2, 0⟩]

/-- builtins/util.m4: `__soa_to_aos3_float16` 3788-3821, `__soa_to_aos3_double16` 3861-3894. -/
def soa3f16 : Net where
  fields := 3
  width := 16
  shufs := [
    ⟨0, some 1, [0, 1, 2, 3, 4, 5, 6, 7, 8, 9, 10, 16, 17, 18, 19, 20]⟩,
    ⟨1, some 2, [5, 6, 7, 8, 9, 10, 16, 17, 18, 19, 20, 21, 22, 23, 24, 25]⟩,
    ⟨3, some 4, [0, 11, 22, 1, 12, 23, 2, 13, 24, 3, 14, 25, 4, 15, 26, 5]⟩,
    ⟨3, some 4, [16, 27, 6, 17, 28, 7, 18, 29, 8, 19, 30, 9, 20, 31, 10, 21]⟩,
    ⟨0, some 1, [11, 12, 13, 14, 15, 27, 28, 29, 30, 31, -1, -1, -1, -1, -1, -1]⟩,
    ⟨7, some 2, [26, 0, 5, 27, 1, 6, 28, 2, 7, 29, 3, 8, 30, 4, 9, 31]⟩]
  stores := [⟨5, 0, 0⟩, ⟨6, 1, 0⟩, ⟨8, 2, 0⟩]

/-- builtins/util.m4: `__aos_to_soa2_float16` 3903-3915, `__aos_to_soa2_double16` 3944-3956; builtins/util-xe.m4:
`__aos_to_soa2_float16` 3095-3107, `__aos_to_soa2_double16` 3136-3148. -/
def aos2f16 : Net where
  fields := 2
  width := 16
  shufs := [
    ⟨0, some 1, [0, 2, 4, 6, 8, 10, 12, 14, 16, 18, 20, 22, 24, 26, 28, 30]⟩,
    ⟨0, some 1, [1, 3, 5, 7, 9, 11, 13, 15, 17, 19, 21, 23, 25, 27, 29, 31]⟩]
  stores := [⟨2, 0, 0⟩, ⟨3, 1, 0⟩]

/-- builtins/util.m4: `__soa_to_aos2_float16` 3924-3934, `__soa_to_aos2_double16` 3965-3975; builtins/util-xe.m4:
`__soa_to_aos2_float16` 3116-3126, `__soa_to_aos2_double16` 3157-3167. -/
def soa2f16 : Net where
  fields := 2
  width := 16
  shufs := [
    ⟨0, some 1, [0, 16, 1, 17, 2, 18, 3, 19, 4, 20, 5, 21, 6, 22, 7, 23]⟩,
    ⟨0, some 1, [8, 24, 9, 25, 10, 26, 11, 27, 12, 28, 13, 29, 14, 30, 15, 31]⟩]
  stores := [⟨2, 0, 0⟩, ⟨3, 1, 0⟩]

/-- builtins/util.m4: `__aos_to_soa4_float32` 3993-4033, `__aos_to_soa4_double32` 4099-4139; builtins/util-xe.m4:
`__aos_to_soa4_float32` 3185-3225, `__aos_to_soa4_double32` 3291-3331. -/
def aos4f32 : Net where
  fields := 4
  width := 32
  shufs := [
    ⟨2, some 3, [0, 4, 8, 12, 16, 20, 24, 28, 32, 36, 40, 44, 48, 52, 56, 60, 1, 5, 9, 13, 17, 21, 25, 29, 33, 37,
      41, 45, 49, 53, 57, 61]⟩,
    ⟨2, some 3, [2, 6, 10, 14, 18, 22, 26, 30, 34, 38, 42, 46, 50, 54, 58, 62, 3, 7, 11, 15, 19, 23, 27, 31, 35,
      39, 43, 47, 51, 55, 59, 63]⟩,
    ⟨0, some 1, [0, 4, 8, 12, 16, 20, 24, 28, 32, 36, 40, 44, 48, 52, 56, 60, 1, 5, 9, 13, 17, 21, 25, 29, 33, 37,
      41, 45, 49, 53, 57, 61]⟩,
    ⟨0, some 1, [2, 6, 10, 14, 18, 22, 26, 30, 34, 38, 42, 46, 50, 54, 58, 62, 3, 7, 11, 15, 19, 23, 27, 31, 35,
      39, 43, 47, 51, 55, 59, 63]⟩,
    ⟨6, some 4, [0, 1, 2, 3, 4, 5, 6, 7, 8, 9, 10, 11, 12, 13, 14, 15, 32, 33, 34, 35, 36, 37, 38, 39, 40, 41, 42,
      43, 44, 45, 46, 47]⟩,
    ⟨6, some 4, [16, 17, 18, 19, 20, 21, 22, 23, 24, 25, 26, 27, 28, 29, 30, 31, 48, 49, 50, 51, 52, 53, 54, 55,
      56, 57, 58, 59, 60, 61, 62, 63]⟩,
    ⟨7, some 5, [0, 1, 2, 3, 4, 5, 6, 7, 8, 9, 10, 11, 12, 13, 14, 15, 32, 33, 34, 35, 36, 37, 38, 39, 40, 41, 42,
      43, 44, 45, 46, 47]⟩,
    ⟨7, some 5, [16, 17, 18, 19, 20, 21, 22, 23, 24, 25, 26, 27, 28, 29, 30, 31, 48, 49, 50, 51, 52, 53, 54, 55,
      56, 57, 58, 59, 60, 61, 62, 63]⟩]
  stores := [⟨8, 0, 0⟩, ⟨9, 1, 0⟩, ⟨10, 2, 0⟩, ⟨11, 3, 0⟩]

/-- builtins/util.m4: `__soa_to_aos4_float32` 4046-4086, `__soa_to_aos4_double32` 4152-4192; builtins/util-xe.m4:
`__soa_to_aos4_float32` 3238-3278, `__soa_to_aos4_double32` 3344-3384. -/
def soa4f32 : Net where
  fields := 4
  width := 32
  shufs := [
    ⟨2, some 3, [0, 1, 2, 3, 4, 5, 6, 7, 8, 9, 10, 11, 12, 13, 14, 15, 32, 33, 34, 35, 36, 37, 38, 39, 40, 41, 42,
      43, 44, 45, 46, 47]⟩,
    ⟨2, some 3, [16, 17, 18, 19, 20, 21, 22, 23, 24, 25, 26, 27, 28, 29, 30, 31, 48, 49, 50, 51, 52, 53, 54, 55,
      56, 57, 58, 59, 60, 61, 62, 63]⟩,
    ⟨0, some 1, [0, 1, 2, 3, 4, 5, 6, 7, 8, 9, 10, 11, 12, 13, 14, 15, 32, 33, 34, 35, 36, 37, 38, 39, 40, 41, 42,
      43, 44, 45, 46, 47]⟩,
    ⟨0, some 1, [16, 17, 18, 19, 20, 21, 22, 23, 24, 25, 26, 27, 28, 29, 30, 31, 48, 49, 50, 51, 52, 53, 54, 55,
      56, 57, 58, 59, 60, 61, 62, 63]⟩,
    ⟨6, some 4, [0, 16, 32, 48, 1, 17, 33, 49, 2, 18, 34, 50, 3, 19, 35, 51, 4, 20, 36, 52, 5, 21, 37, 53, 6, 22,
      38, 54, 7, 23, 39, 55]⟩,
    ⟨6, some 4, [8, 24, 40, 56, 9, 25, 41, 57, 10, 26, 42, 58, 11, 27, 43, 59, 12, 28, 44, 60, 13, 29, 45, 61, 14,
      30, 46, 62, 15, 31, 47, 63]⟩,
    ⟨7, some 5, [0, 16, 32, 48, 1, 17, 33, 49, 2, 18, 34, 50, 3, 19, 35, 51, 4, 20, 36, 52, 5, 21, 37, 53, 6, 22,
      38, 54, 7, 23, 39, 55]⟩,
    ⟨7, some 5, [8, 24, 40, 56, 9, 25, 41, 57, 10, 26, 42, 58, 11, 27, 43, 59, 12, 28, 44, 60, 13, 29, 45, 61, 14,
      30, 46, 62, 15, 31, 47, 63]⟩]
  stores := [⟨8, 0, 0⟩, ⟨9, 1, 0⟩, ⟨10, 2, 0⟩, ⟨11, 3, 0⟩]

/-- builtins/util.m4: `__aos_to_soa3_float32` 4203-4237, `__aos_to_soa3_double32` 4292-4326; builtins/util-xe.m4:
`__aos_to_soa3_float32` 3395-3429, `__aos_to_soa3_double32` 3484-3518. -/
def aos3f32 : Net where
  fields := 3
  width := 32
  shufs := [
    ⟨0, some 1, [0, 3, 6, 9, 12, 15, 18, 21, 24, 27, 30, 33, 36, 39, 42, 45, 1, 4, 7, 10, 13, 16, 19, 22, 25, 28,
      31, 34, 37, 40, 43, 46]⟩,
    ⟨1, some 2, [16, 19, 22, 25, 28, 31, 34, 37, 40, 43, 46, 49, 52, 55, 58, 61, 17, 20, 23, 26, 29, 32, 35, 38,
      41, 44, 47, 50, 53, 56, 59, 62]⟩,
    ⟨3, some 4, [0, 1, 2, 3, 4, 5, 6, 7, 8, 9, 10, 11, 12, 13, 14, 15, 32, 33, 34, 35, 36, 37, 38, 39, 40, 41, 42,
      43, 44, 45, 46, 47]⟩,
    ⟨3, some 4, [16, 17, 18, 19, 20, 21, 22, 23, 24, 25, 26, 27, 28, 29, 30, 31, 48, 49, 50, 51, 52, 53, 54, 55,
      56, 57, 58, 59, 60, 61, 62, 63]⟩,
    ⟨0, some 1, [2, 5, 8, 11, 14, 17, 20, 23, 26, 29, 32, 35, 38, 41, 44, 47, 50, 53, 56, 59, 62, -1, -1, -1, -1,
      -1, -1, -1, -1, -1, -1, -1]⟩,
    ⟨7, some 2, [0, 1, 2, 3, 4, 5, 6, 7, 8, 9, 10, 11, 12, 13, 14, 15, 16, 17, 18, 19, 20, 33, 36, 39, 42, 45, 48,
      51, 54, 57, 60, 63]⟩]
  stores := [⟨5, 0, 0⟩, ⟨6, 1, 0⟩, ⟨8, 2, 0⟩]

/-- builtins/util.m4: `__soa_to_aos3_float32` 4248-4281, `__soa_to_aos3_double32` 4337-4370; builtins/util-xe.m4:
`__soa_to_aos3_float32` 3440-3473, `__soa_to_aos3_double32` 3529-3562. -/
def soa3f32 : Net where
  fields := 3
  width := 32
  shufs := [
    ⟨0, some 1, [0, 1, 2, 3, 4, 5, 6, 7, 8, 9, 10, 11, 12, 13, 14, 15, 16, 17, 18, 19, 20, 21, 32, 33, 34, 35, 36,
      37, 38, 39, 40, 41]⟩,
    ⟨1, some 2, [10, 11, 12, 13, 14, 15, 16, 17, 18, 19, 20, 32, 33, 34, 35, 36, 37, 38, 39, 40, 41, 42, 43, 44,
      45, 46, 47, 48, 49, 50, 51, 52]⟩,
    ⟨3, some 4, [0, 22, 43, 1, 23, 44, 2, 24, 45, 3, 25, 46, 4, 26, 47, 5, 27, 48, 6, 28, 49, 7, 29, 50, 8, 30,
      51, 9, 31, 52, 10, 32]⟩,
    ⟨3, some 4, [53, 11, 33, 54, 12, 34, 55, 13, 35, 56, 14, 36, 57, 15, 37, 58, 16, 38, 59, 17, 39, 60, 18, 40,
      61, 19, 41, 62, 20, 42, 63, 21]⟩,
    ⟨0, some 1, [22, 23, 24, 25, 26, 27, 28, 29, 30, 31, 53, 54, 55, 56, 57, 58, 59, 60, 61, 62, 63, -1, -1, -1,
      -1, -1, -1, -1, -1, -1, -1, -1]⟩,
    ⟨7, some 2, [10, 53, 0, 11, 54, 1, 12, 55, 2, 13, 56, 3, 14, 57, 4, 15, 58, 5, 16, 59, 6, 17, 60, 7, 18, 61,
      8, 19, 62, 9, 20, 63]⟩]
  stores := [⟨5, 0, 0⟩, ⟨6, 1, 0⟩, ⟨8, 2, 0⟩]

/-- builtins/util.m4: `__aos_to_soa2_float32` 4379-4394, `__aos_to_soa2_double32` 4424-4439; builtins/util-xe.m4:
`__aos_to_soa2_float32` 3571-3586, `__aos_to_soa2_double32` 3616-3631. -/
def aos2f32 : Net where
  fields := 2
  width := 32
  shufs := [
    ⟨0, some 1, [0, 2, 4, 6, 8, 10, 12, 14, 16, 18, 20, 22, 24, 26, 28, 30, 32, 34, 36, 38, 40, 42, 44, 46, 48,
      50, 52, 54, 56, 58, 60, 62]⟩,
    ⟨0, some 1, [1, 3, 5, 7, 9, 11, 13, 15, 17, 19, 21, 23, 25, 27, 29, 31, 33, 35, 37, 39, 41, 43, 45, 47, 49,
      51, 53, 55, 57, 59, 61, 63]⟩]
  stores := [⟨2, 0, 0⟩, ⟨3, 1, 0⟩]

/-- builtins/util.m4: `__soa_to_aos2_float32` 4403-4415, `__soa_to_aos2_double32` 4448-4460; builtins/util-xe.m4:
`__soa_to_aos2_float32` 3595-3607, `__soa_to_aos2_double32` 3640-3652. -/
def soa2f32 : Net where
  fields := 2
  width := 32
  shufs := [
    ⟨0, some 1, [0, 32, 1, 33, 2, 34, 3, 35, 4, 36, 5, 37, 6, 38, 7, 39, 8, 40, 9, 41, 10, 42, 11, 43, 12, 44, 13,
      45, 14, 46, 15, 47]⟩,
    ⟨0, some 1, [16, 48, 17, 49, 18, 50, 19, 51, 20, 52, 21, 53, 22, 54, 23, 55, 24, 56, 25, 57, 26, 58, 27, 59,
      28, 60, 29, 61, 30, 62, 31, 63]⟩]
  stores := [⟨2, 0, 0⟩, ⟨3, 1, 0⟩]

/-- builtins/util.m4: `__aos_to_soa4_float64` 4478-4534, `__aos_to_soa4_double64` 4616-4672. -/
def aos4f64 : Net where
  fields := 4
  width := 64
  shufs := [
    ⟨2, some 3, [0, 4, 8, 12, 16, 20, 24, 28, 32, 36, 40, 44, 48, 52, 56, 60, 64, 68, 72, 76, 80, 84, 88, 92, 96,
      100, 104, 108, 112, 116, 120, 124, 1, 5, 9, 13, 17, 21, 25, 29, 33, 37, 41, 45, 49, 53, 57, 61, 65, 69, 73,
      77, 81, 85, 89, 93, 97, 101, 105, 109, 113, 117, 121, 125]⟩,
    ⟨2, some 3, [2, 6, 10, 14, 18, 22, 26, 30, 34, 38, 42, 46, 50, 54, 58, 62, 66, 70, 74, 78, 82, 86, 90, 94, 98,
      102, 106, 110, 114, 118, 122, 126, 3, 7, 11, 15, 19, 23, 27, 31, 35, 39, 43, 47, 51, 55, 59, 63, 67, 71, 75,
      79, 83, 87, 91, 95, 99, 103, 107, 111, 115, 119, 123, 127]⟩,
    ⟨0, some 1, [0, 4, 8, 12, 16, 20, 24, 28, 32, 36, 40, 44, 48, 52, 56, 60, 64, 68, 72, 76, 80, 84, 88, 92, 96,
      100, 104, 108, 112, 116, 120, 124, 1, 5, 9, 13, 17, 21, 25, 29, 33, 37, 41, 45, 49, 53, 57, 61, 65, 69, 73,
      77, 81, 85, 89, 93, 97, 101, 105, 109, 113, 117, 121, 125]⟩,
    ⟨0, some 1, [2, 6, 10, 14, 18, 22, 26, 30, 34, 38, 42, 46, 50, 54, 58, 62, 66, 70, 74, 78, 82, 86, 90, 94, 98,
      102, 106, 110, 114, 118, 122, 126, 3, 7, 11, 15, 19, 23, 27, 31, 35, 39, 43, 47, 51, 55, 59, 63, 67, 71, 75,
      79, 83, 87, 91, 95, 99, 103, 107, 111, 115, 119, 123, 127]⟩,
    ⟨6, some 4, [0, 1, 2, 3, 4, 5, 6, 7, 8, 9, 10, 11, 12, 13, 14, 15, 16, 17, 18, 19, 20, 21, 22, 23, 24, 25, 26,
      27, 28, 29, 30, 31, 64, 65, 66, 67, 68, 69, 70, 71, 72, 73, 74, 75, 76, 77, 78, 79, 80, 81, 82, 83, 84, 85,
      86, 87, 88, 89, 90, 91, 92, 93, 94, 95]⟩,
    ⟨6, some 4, [32, 33, 34, 35, 36, 37, 38, 39, 40, 41, 42, 43, 44, 45, 46, 47, 48, 49, 50, 51, 52, 53, 54, 55,
      56, 57, 58, 59, 60, 61, 62, 63, 96, 97, 98, 99, 100, 101, 102, 103, 104, 105, 106, 107, 108, 109, 110, 111,
      112, 113, 114, 115, 116, 117, 118, 119, 120, 121, 122, 123, 124, 125, 126, 127]⟩,
    ⟨7, some 5, [0, 1, 2, 3, 4, 5, 6, 7, 8, 9, 10, 11, 12, 13, 14, 15, 16, 17, 18, 19, 20, 21, 22, 23, 24, 25, 26,
      27, 28, 29, 30, 31, 64, 65, 66, 67, 68, 69, 70, 71, 72, 73, 74, 75, 76, 77, 78, 79, 80, 81, 82, 83, 84, 85,
      86, 87, 88, 89, 90, 91, 92, 93, 94, 95]⟩,
    ⟨7, some 5, [32, 33, 34, 35, 36, 37, 38, 39, 40, 41, 42, 43, 44, 45, 46, 47, 48, 49, 50, 51, 52, 53, 54, 55,
      56, 57, 58, 59, 60, 61, 62, 63, 96, 97, 98, 99, 100, 101, 102, 103, 104, 105, 106, 107, 108, 109, 110, 111,
      112, 113, 114, 115, 116, 117, 118, 119, 120, 121, 122, 123, 124, 125, 126, 127]⟩]
  stores := [⟨8, 0, 0⟩, ⟨9, 1, 0⟩, ⟨10, 2, 0⟩, ⟨11, 3, 0⟩]

/-- builtins/util.m4: `__soa_to_aos4_float64` 4547-4603, `__soa_to_aos4_double64` 4685-4741. -/
def soa4f64 : Net where
  fields := 4
  width := 64
  shufs := [
    ⟨2, some 3, [0, 1, 2, 3, 4, 5, 6, 7, 8, 9, 10, 11, 12, 13, 14, 15, 16, 17, 18, 19, 20, 21, 22, 23, 24, 25, 26,
      27, 28, 29, 30, 31, 64, 65, 66, 67, 68, 69, 70, 71, 72, 73, 74, 75, 76, 77, 78, 79, 80, 81, 82, 83, 84, 85,
      86, 87, 88, 89, 90, 91, 92, 93, 94, 95]⟩,
    ⟨2, some 3, [32, 33, 34, 35, 36, 37, 38, 39, 40, 41, 42, 43, 44, 45, 46, 47, 48, 49, 50, 51, 52, 53, 54, 55,
      56, 57, 58, 59, 60, 61, 62, 63, 96, 97, 98, 99, 100, 101, 102, 103, 104, 105, 106, 107, 108, 109, 110, 111,
      112, 113, 114, 115, 116, 117, 118, 119, 120, 121, 122, 123, 124, 125, 126, 127]⟩,
    ⟨0, some 1, [0, 1, 2, 3, 4, 5, 6, 7, 8, 9, 10, 11, 12, 13, 14, 15, 16, 17, 18, 19, 20, 21, 22, 23, 24, 25, 26,
      27, 28, 29, 30, 31, 64, 65, 66, 67, 68, 69, 70, 71, 72, 73, 74, 75, 76, 77, 78, 79, 80, 81, 82, 83, 84, 85,
      86, 87, 88, 89, 90, 91, 92, 93, 94, 95]⟩,
    ⟨0, some 1, [32, 33, 34, 35, 36, 37, 38, 39, 40, 41, 42, 43, 44, 45, 46, 47, 48, 49, 50, 51, 52, 53, 54, 55,
      56, 57, 58, 59, 60, 61, 62, 63, 96, 97, 98, 99, 100, 101, 102, 103, 104, 105, 106, 107, 108, 109, 110, 111,
      112, 113, 114, 115, 116, 117, 118, 119, 120, 121, 122, 123, 124, 125, 126, 127]⟩,
    ⟨6, some 4, [0, 32, 64, 96, 1, 33, 65, 97, 2, 34, 66, 98, 3, 35, 67, 99, 4, 36, 68, 100, 5, 37, 69, 101, 6,
      38, 70, 102, 7, 39, 71, 103, 8, 40, 72, 104, 9, 41, 73, 105, 10, 42, 74, 106, 11, 43, 75, 107, 12, 44, 76,
      108, 13, 45, 77, 109, 14, 46, 78, 110, 15, 47, 79, 111]⟩,
    ⟨6, some 4, [16, 48, 80, 112, 17, 49, 81, 113, 18, 50, 82, 114, 19, 51, 83, 115, 20, 52, 84, 116, 21, 53, 85,
      117, 22, 54, 86, 118, 23, 55, 87, 119, 24, 56, 88, 120, 25, 57, 89, 121, 26, 58, 90, 122, 27, 59, 91, 123,
      28, 60, 92, 124, 29, 61, 93, 125, 30, 62, 94, 126, 31, 63, 95, 127]⟩,
    ⟨7, some 5, [0, 32, 64, 96, 1, 33, 65, 97, 2, 34, 66, 98, 3, 35, 67, 99, 4, 36, 68, 100, 5, 37, 69, 101, 6,
      38, 70, 102, 7, 39, 71, 103, 8, 40, 72, 104, 9, 41, 73, 105, 10, 42, 74, 106, 11, 43, 75, 107, 12, 44, 76,
      108, 13, 45, 77, 109, 14, 46, 78, 110, 15, 47, 79, 111]⟩,
    ⟨7, some 5, [16, 48, 80, 112, 17, 49, 81, 113, 18, 50, 82, 114, 19, 51, 83, 115, 20, 52, 84, 116, 21, 53, 85,
      117, 22, 54, 86, 118, 23, 55, 87, 119, 24, 56, 88, 120, 25, 57, 89, 121, 26, 58, 90, 122, 27, 59, 91, 123,
      28, 60, 92, 124, 29, 61, 93, 125, 30, 62, 94, 126, 31, 63, 95, 127]⟩]
  stores := [⟨8, 0, 0⟩, ⟨9, 1, 0⟩, ⟨10, 2, 0⟩, ⟨11, 3, 0⟩]

/-- builtins/util.m4: `__aos_to_soa3_float64` 4752-4799, `__aos_to_soa3_double64` 4867-4914. -/
def aos3f64 : Net where
  fields := 3
  width := 64
  shufs := [
    ⟨0, some 1, [0, 3, 6, 9, 12, 15, 18, 21, 24, 27, 30, 33, 36, 39, 42, 45, 48, 51, 54, 57, 60, 63, 66, 69, 72,
      75, 78, 81, 84, 87, 90, 93, 1, 4, 7, 10, 13, 16, 19, 22, 25, 28, 31, 34, 37, 40, 43, 46, 49, 52, 55, 58, 61,
      64, 67, 70, 73, 76, 79, 82, 85, 88, 91, 94]⟩,
    ⟨1, some 2, [32, 35, 38, 41, 44, 47, 50, 53, 56, 59, 62, 65, 68, 71, 74, 77, 80, 83, 86, 89, 92, 95, 98, 101,
      104, 107, 110, 113, 116, 119, 122, 125, 33, 36, 39, 42, 45, 48, 51, 54, 57, 60, 63, 66, 69, 72, 75, 78, 81,
      84, 87, 90, 93, 96, 99, 102, 105, 108, 111, 114, 117, 120, 123, 126]⟩,
    ⟨3, some 4, [0, 1, 2, 3, 4, 5, 6, 7, 8, 9, 10, 11, 12, 13, 14, 15, 16, 17, 18, 19, 20, 21, 22, 23, 24, 25, 26,
      27, 28, 29, 30, 31, 64, 65, 66, 67, 68, 69, 70, 71, 72, 73, 74, 75, 76, 77, 78, 79, 80, 81, 82, 83, 84, 85,
      86, 87, 88, 89, 90, 91, 92, 93, 94, 95]⟩,
    ⟨3, some 4, [32, 33, 34, 35, 36, 37, 38, 39, 40, 41, 42, 43, 44, 45, 46, 47, 48, 49, 50, 51, 52, 53, 54, 55,
      56, 57, 58, 59, 60, 61, 62, 63, 96, 97, 98, 99, 100, 101, 102, 103, 104, 105, 106, 107, 108, 109, 110, 111,
      112, 113, 114, 115, 116, 117, 118, 119, 120, 121, 122, 123, 124, 125, 126, 127]⟩,
    ⟨0, some 1, [2, 5, 8, 11, 14, 17, 20, 23, 26, 29, 32, 35, 38, 41, 44, 47, 50, 53, 56, 59, 62, 65, 68, 71, 74,
      77, 80, 83, 86, 89, 92, 95, 98, 101, 104, 107, 110, 113, 116, 119, 122, 125, -1, -1, -1, -1, -1, -1, -1, -1,
      -1, -1, -1, -1, -1, -1, -1, -1, -1, -1, -1, -1, -1, -1]⟩,
    ⟨7, some 2, [0, 1, 2, 3, 4, 5, 6, 7, 8, 9, 10, 11, 12, 13, 14, 15, 16, 17, 18, 19, 20, 21, 22, 23, 24, 25, 26,
      27, 28, 29, 30, 31, 32, 33, 34, 35, 36, 37, 38, 39, 40, 41, 64, 67, 70, 73, 76, 79, 82, 85, 88, 91, 94, 97,
      100, 103, 106, 109, 112, 115, 118, 121, 124, 127]⟩]
  stores := [⟨5, 0, 0⟩, ⟨6, 1, 0⟩, ⟨8, 2, 0⟩]

/-- builtins/util.m4: `__soa_to_aos3_float64` 4810-4856, `__soa_to_aos3_double64` 4925-4972. -/
def soa3f64 : Net where
  fields := 3
  width := 64
  shufs := [
    ⟨0, some 1, [0, 1, 2, 3, 4, 5, 6, 7, 8, 9, 10, 11, 12, 13, 14, 15, 16, 17, 18, 19, 20, 21, 22, 23, 24, 25, 26,
      27, 28, 29, 30, 31, 32, 33, 34, 35, 36, 37, 38, 39, 40, 41, 42, 64, 65, 66, 67, 68, 69, 70, 71, 72, 73, 74,
      75, 76, 77, 78, 79, 80, 81, 82, 83, 84]⟩,
    ⟨1, some 2, [21, 22, 23, 24, 25, 26, 27, 28, 29, 30, 31, 32, 33, 34, 35, 36, 37, 38, 39, 40, 41, 42, 64, 65,
      66, 67, 68, 69, 70, 71, 72, 73, 74, 75, 76, 77, 78, 79, 80, 81, 82, 83, 84, 85, 86, 87, 88, 89, 90, 91, 92,
      93, 94, 95, 96, 97, 98, 99, 100, 101, 102, 103, 104, 105]⟩,
    ⟨3, some 4, [0, 43, 86, 1, 44, 87, 2, 45, 88, 3, 46, 89, 4, 47, 90, 5, 48, 91, 6, 49, 92, 7, 50, 93, 8, 51,
      94, 9, 52, 95, 10, 53, 96, 11, 54, 97, 12, 55, 98, 13, 56, 99, 14, 57, 100, 15, 58, 101, 16, 59, 102, 17,
      60, 103, 18, 61, 104, 19, 62, 105, 20, 63, 106, 21]⟩,
    ⟨3, some 4, [64, 107, 22, 65, 108, 23, 66, 109, 24, 67, 110, 25, 68, 111, 26, 69, 112, 27, 70, 113, 28, 71,
      114, 29, 72, 115, 30, 73, 116, 31, 74, 117, 32, 75, 118, 33, 76, 119, 34, 77, 120, 35, 78, 121, 36, 79, 122,
      37, 80, 123, 38, 81, 124, 39, 82, 125, 40, 83, 126, 41, 84, 127, 42, 85]⟩,
    ⟨0, some 1, [43, 44, 45, 46, 47, 48, 49, 50, 51, 52, 53, 54, 55, 56, 57, 58, 59, 60, 61, 62, 63, 107, 108,
      109, 110, 111, 112, 113, 114, 115, 116, 117, 118, 119, 120, 121, 122, 123, 124, 125, 126, 127, -1, -1, -1,
      -1, -1, -1, -1, -1, -1, -1, -1, -1, -1, -1, -1, -1, -1, -1, -1, -1, -1, -1]⟩,
    ⟨7, some 2, [106, 0, 21, 107, 1, 22, 108, 2, 23, 109, 3, 24, 110, 4, 25, 111, 5, 26, 112, 6, 27, 113, 7, 28,
      114, 8, 29, 115, 9, 30, 116, 10, 31, 117, 11, 32, 118, 12, 33, 119, 13, 34, 120, 14, 35, 121, 15, 36, 122,
      16, 37, 123, 17, 38, 124, 18, 39, 125, 19, 40, 126, 20, 41, 127]⟩]
  stores := [⟨5, 0, 0⟩, ⟨6, 1, 0⟩, ⟨8, 2, 0⟩]

/-- builtins/util.m4: `__aos_to_soa2_float64` 4981-5000, `__aos_to_soa2_double64` 5034-5053. -/
def aos2f64 : Net where
  fields := 2
  width := 64
  shufs := [
    ⟨0, some 1, [0, 2, 4, 6, 8, 10, 12, 14, 16, 18, 20, 22, 24, 26, 28, 30, 32, 34, 36, 38, 40, 42, 44, 46, 48,
      50, 52, 54, 56, 58, 60, 62, 64, 66, 68, 70, 72, 74, 76, 78, 80, 82, 84, 86, 88, 90, 92, 94, 96, 98, 100,
      102, 104, 106, 108, 110, 112, 114, 116, 118, 120, 122, 124, 126]⟩,
    ⟨0, some 1, [1, 3, 5, 7, 9, 11, 13, 15, 17, 19, 21, 23, 25, 27, 29, 31, 33, 35, 37, 39, 41, 43, 45, 47, 49,
      51, 53, 55, 57, 59, 61, 63, 65, 67, 69, 71, 73, 75, 77, 79, 81, 83, 85, 87, 89, 91, 93, 95, 97, 99, 101,
      103, 105, 107, 109, 111, 113, 115, 117, 119, 121, 123, 125, 127]⟩]
  stores := [⟨2, 0, 0⟩, ⟨3, 1, 0⟩]

/-- builtins/util.m4: `__soa_to_aos2_float64` 5009-5025, `__soa_to_aos2_double64` 5062-5078. -/
def soa2f64 : Net where
  fields := 2
  width := 64
  shufs := [
    ⟨0, some 1, [0, 64, 1, 65, 2, 66, 3, 67, 4, 68, 5, 69, 6, 70, 7, 71, 8, 72, 9, 73, 10, 74, 11, 75, 12, 76, 13,
      77, 14, 78, 15, 79, 16, 80, 17, 81, 18, 82, 19, 83, 20, 84, 21, 85, 22, 86, 23, 87, 24, 88, 25, 89, 26, 90,
      27, 91, 28, 92, 29, 93, 30, 94, 31, 95]⟩,
    ⟨0, some 1, [32, 96, 33, 97, 34, 98, 35, 99, 36, 100, 37, 101, 38, 102, 39, 103, 40, 104, 41, 105, 42, 106,
      43, 107, 44, 108, 45, 109, 46, 110, 47, 111, 48, 112, 49, 113, 50, 114, 51, 115, 52, 116, 53, 117, 54, 118,
      55, 119, 56, 120, 57, 121, 58, 122, 59, 123, 60, 124, 61, 125, 62, 126, 63, 127]⟩]
  stores := [⟨2, 0, 0⟩, ⟨3, 1, 0⟩]

/-- builtins/util-xe.m4: `__aos_to_soa4_float8` 2155-2202, `__aos_to_soa4_double8` 2253-2300. -/
def aos4f8Xe : Net where
  fields := 4
  width := 8
  shufs := [
    ⟨0, none, [0, 1, 2, 3]⟩,
    ⟨0, none, [4, 5, 6, 7]⟩,
    ⟨1, none, [0, 1, 2, 3]⟩,
    ⟨1, none, [4, 5, 6, 7]⟩,
    ⟨2, none, [0, 1, 2, 3]⟩,
    ⟨2, none, [4, 5, 6, 7]⟩,
    ⟨3, none, [0, 1, 2, 3]⟩,
    ⟨3, none, [4, 5, 6, 7]⟩,
    ⟨6, some 7, [0, 4, 1, 5]⟩,
    ⟨6, some 7, [2, 6, 3, 7]⟩,
    ⟨4, some 5, [0, 4, 1, 5]⟩,
    ⟨4, some 5, [2, 6, 3, 7]⟩,
    ⟨14, some 12, [0, 1, 4, 5]⟩,
    ⟨14, some 12, [2, 3, 6, 7]⟩,
    ⟨15, some 13, [0, 1, 4, 5]⟩,
    ⟨15, some 13, [2, 3, 6, 7]⟩,
    ⟨10, some 11, [0, 4, 1, 5]⟩,
    ⟨10, some 11, [2, 6, 3, 7]⟩,
    ⟨8, some 9, [0, 4, 1, 5]⟩,
    ⟨8, some 9, [2, 6, 3, 7]⟩,
    ⟨22, some 20, [0, 1, 4, 5]⟩,
    ⟨22, some 20, [2, 3, 6, 7]⟩,
    ⟨23, some 21, [0, 1, 4, 5]⟩,
    ⟨23, some 21, [2, 3, 6, 7]⟩]
  stores := [⟨16, 0, 0⟩, ⟨17, 1, 0⟩, ⟨18, 2, 0⟩, ⟨19, 3, 0⟩, ⟨24, 0, 4⟩, ⟨25, 1, 4⟩, ⟨26, 2, 4⟩, ⟨27, 3, 4⟩]

/-- builtins/util-xe.m4: `__aos_to_soa3_float8` 2350-2381, `__aos_to_soa3_double8` 2418-2449. -/
def aos3f8Xe : Net where
  fields := 3
  width := 8
  shufs := [
    ⟨0, none, [0, 1, 2, 3]⟩,
    ⟨0, none, [4, 5, 6, 7]⟩,
    ⟨1, none, [0, 1, 2, 3]⟩,
    ⟨1, none, [4, 5, 6, 7]⟩,
    ⟨2, none, [0, 1, 2, 3]⟩,
    ⟨2, none, [4, 5, 6, 7]⟩,
    ⟨3, some 4, [0, 3, 1, 4]⟩,
    ⟨4, some 5, [2, 5, 3, 6]⟩,
    ⟨9, some 10, [0, 1, 4, 5]⟩,
    ⟨9, some 10, [2, 3, 6, 7]⟩,
    ⟨3, some 4, [2, 5, -1, -1]⟩,
    ⟨13, some 5, [0, 1, 4, 7]⟩,
    ⟨6, some 7, [0, 3, 1, 4]⟩,
    ⟨7, some 8, [2, 5, 3, 6]⟩,
    ⟨15, some 16, [0, 1, 4, 5]⟩,
    ⟨15, some 16, [2, 3, 6, 7]⟩,
    ⟨6, some 7, [2, 5, -1, -1]⟩,
    ⟨19, some 8, [0, 1, 4, 7]⟩]
  stores := [⟨11, 0, 0⟩, ⟨12, 1, 0⟩, ⟨14, 2, 0⟩, ⟨17, 0, 4⟩, ⟨18, 1, 4⟩, ⟨20, 2, 4⟩]

/-- builtins/util-xe.m4: `__soa_to_aos3_float8` 2384-2415, `__soa_to_aos3_double8` 2452-2483. -/
def soa3f8Xe : Net where
  fields := 3
  width := 8
  shufs := [
    ⟨0, none, [0, 1, 2, 3]⟩,
    ⟨0, none, [4, 5, 6, 7]⟩,
    ⟨1, none, [0, 1, 2, 3]⟩,
    ⟨1, none, [4, 5, 6, 7]⟩,
    ⟨2, none, [0, 1, 2, 3]⟩,
    ⟨2, none, [4, 5, 6, 7]⟩,
    ⟨3, some 5, [0, 1, 2, 4]⟩,
    ⟨5, some 7, [1, 2, 4, 5]⟩,
    ⟨9, some 10, [0, 3, 6, 1]⟩,
    ⟨9, some 10, [4, 7, 2, 5]⟩,
    ⟨3, some 5, [3, 7, -1, -1]⟩,
    ⟨13, some 7, [6, 0, 1, 7]⟩,
    ⟨4, some 6, [0, 1, 2, 4]⟩,
    ⟨6, some 8, [1, 2, 4, 5]⟩,
    ⟨15, some 16, [0, 3, 6, 1]⟩,
    ⟨15, some 16, [4, 7, 2, 5]⟩,
    ⟨4, some 6, [3, 7, -1, -1]⟩,
    ⟨19, some 8, [6, 0, 1, 7]⟩]
  stores := [⟨11, 0, 0⟩, ⟨12, 0, 4⟩, ⟨14, 1, 0⟩, ⟨17, 1, 4⟩, ⟨18, 2, 0⟩, ⟨20, 2, 4⟩]

/-- builtins/util-xe.m4: `__aos_to_soa4_float16` 2575-2643, `__aos_to_soa4_double16` 2717-2785. -/
def aos4f16Xe : Net where
  fields := 4
  width := 16
  shufs := [
    ⟨0, none, [0, 1, 2, 3]⟩,
    ⟨0, none, [4, 5, 6, 7]⟩,
    ⟨0, none, [8, 9, 10, 11]⟩,
    ⟨0, none, [12, 13, 14, 15]⟩,
    ⟨1, none, [0, 1, 2, 3]⟩,
    ⟨1, none, [4, 5, 6, 7]⟩,
    ⟨1, none, [8, 9, 10, 11]⟩,
    ⟨1, none, [12, 13, 14, 15]⟩,
    ⟨2, none, [0, 1, 2, 3]⟩,
    ⟨2, none, [4, 5, 6, 7]⟩,
    ⟨2, none, [8, 9, 10, 11]⟩,
    ⟨2, none, [12, 13, 14, 15]⟩,
    ⟨3, none, [0, 1, 2, 3]⟩,
    ⟨3, none, [4, 5, 6, 7]⟩,
    ⟨3, none, [8, 9, 10, 11]⟩,
    ⟨3, none, [12, 13, 14, 15]⟩,
    ⟨6, some 7, [0, 4, 1, 5]⟩,
    ⟨6, some 7, [2, 6, 3, 7]⟩,
    ⟨4, some 5, [0, 4, 1, 5]⟩,
    ⟨4, some 5, [2, 6, 3, 7]⟩,
    ⟨22, some 20, [0, 1, 4, 5]⟩,
    ⟨22, some 20, [2, 3, 6, 7]⟩,
    ⟨23, some 21, [0, 1, 4, 5]⟩,
    ⟨23, some 21, [2, 3, 6, 7]⟩,
    ⟨10, some 11, [0, 4, 1, 5]⟩,
    ⟨10, some 11, [2, 6, 3, 7]⟩,
    ⟨8, some 9, [0, 4, 1, 5]⟩,
    ⟨8, some 9, [2, 6, 3, 7]⟩,
    ⟨30, some 28, [0, 1, 4, 5]⟩,
    ⟨30, some 28, [2, 3, 6, 7]⟩,
    ⟨31, some 29, [0, 1, 4, 5]⟩,
    ⟨31, some 29, [2, 3, 6, 7]⟩,
    ⟨14, some 15, [0, 4, 1, 5]⟩,
    ⟨14, some 15, [2, 6, 3, 7]⟩,
    ⟨12, some 13, [0, 4, 1, 5]⟩,
    ⟨12, some 13, [2, 6, 3, 7]⟩,
    ⟨38, some 36, [0, 1, 4, 5]⟩,
    ⟨38, some 36, [2, 3, 6, 7]⟩,
    ⟨39, some 37, [0, 1, 4, 5]⟩,
    ⟨39, some 37, [2, 3, 6, 7]⟩,
    ⟨18, some 19, [0, 4, 1, 5]⟩,
    ⟨18, some 19, [2, 6, 3, 7]⟩,
    ⟨16, some 17, [0, 4, 1, 5]⟩,
    ⟨16, some 17, [2, 6, 3, 7]⟩,
    ⟨46, some 44, [0, 1, 4, 5]⟩,
    ⟨46, some 44, [2, 3, 6, 7]⟩,
    ⟨47, some 45, [0, 1, 4, 5]⟩,
    ⟨47, some 45, [2, 3, 6, 7]⟩]
  stores := [⟨24, 0, 0⟩, ⟨25, 1, 0⟩, ⟨26, 2, 0⟩, ⟨27, 3, 0⟩, ⟨32, 0, 4⟩, ⟨33, 1, 4⟩, ⟨34, 2, 4⟩, ⟨35, 3, 4⟩, ⟨40,
    0, 8⟩, ⟨41, 1, 8⟩, ⟨42, 2, 8⟩, ⟨43, 3, 8⟩, ⟨48, 0, 12⟩, ⟨49, 1, 12⟩, ⟨50, 2, 12⟩, ⟨51, 3, 12⟩]

/-- builtins/util-xe.m4: `__aos_to_soa3_float16` 2857-2912, `__aos_to_soa3_double16` 2973-3028. -/
def aos3f16Xe : Net where
  fields := 3
  width := 16
  shufs := [
    ⟨0, none, [0, 1, 2, 3]⟩,
    ⟨0, none, [4, 5, 6, 7]⟩,
    ⟨0, none, [8, 9, 10, 11]⟩,
    ⟨0, none, [12, 13, 14, 15]⟩,
    ⟨1, none, [0, 1, 2, 3]⟩,
    ⟨1, none, [4, 5, 6, 7]⟩,
    ⟨1, none, [8, 9, 10, 11]⟩,
    ⟨1, none, [12, 13, 14, 15]⟩,
    ⟨2, none, [0, 1, 2, 3]⟩,
    ⟨2, none, [4, 5, 6, 7]⟩,
    ⟨2, none, [8, 9, 10, 11]⟩,
    ⟨2, none, [12, 13, 14, 15]⟩,
    ⟨3, some 4, [0, 3, 1, 4]⟩,
    ⟨4, some 5, [2, 5, 3, 6]⟩,
    ⟨15, some 16, [0, 1, 4, 5]⟩,
    ⟨15, some 16, [2, 3, 6, 7]⟩,
    ⟨3, some 4, [2, 5, -1, -1]⟩,
    ⟨19, some 5, [0, 1, 4, 7]⟩,
    ⟨6, some 7, [0, 3, 1, 4]⟩,
    ⟨7, some 8, [2, 5, 3, 6]⟩,
    ⟨21, some 22, [0, 1, 4, 5]⟩,
    ⟨21, some 22, [2, 3, 6, 7]⟩,
    ⟨6, some 7, [2, 5, -1, -1]⟩,
    ⟨25, some 8, [0, 1, 4, 7]⟩,
    ⟨9, some 10, [0, 3, 1, 4]⟩,
    ⟨10, some 11, [2, 5, 3, 6]⟩,
    ⟨27, some 28, [0, 1, 4, 5]⟩,
    ⟨27, some 28, [2, 3, 6, 7]⟩,
    ⟨9, some 10, [2, 5, -1, -1]⟩,
    ⟨31, some 11, [0, 1, 4, 7]⟩,
    ⟨12, some 13, [0, 3, 1, 4]⟩,
    ⟨13, some 14, [2, 5, 3, 6]⟩,
    ⟨33, some 34, [0, 1, 4, 5]⟩,
    ⟨33, some 34, [2, 3, 6, 7]⟩,
    ⟨12, some 13, [2, 5, -1, -1]⟩,
    ⟨37, some 14, [0, 1, 4, 7]⟩]
  stores := [⟨17, 0, 0⟩, ⟨18, 1, 0⟩, ⟨20, 2, 0⟩, ⟨23, 0, 4⟩, ⟨24, 1, 4⟩, ⟨26, 2, 4⟩, ⟨29, 0, 8⟩, ⟨30, 1, 8⟩, ⟨32,
    2, 8⟩, ⟨35, 0, 12⟩, ⟨36, 1, 12⟩, ⟨38, 2, 12⟩]

/-- builtins/util-xe.m4: `__soa_to_aos3_float16` 2915-2970, `__soa_to_aos3_double16` 3031-3086. -/
def soa3f16Xe : Net where
  fields := 3
  width := 16
  shufs := [
    ⟨0, none, [0, 1, 2, 3]⟩,
    ⟨0, none, [4, 5, 6, 7]⟩,
    ⟨0, none, [8, 9, 10, 11]⟩,
    ⟨0, none, [12, 13, 14, 15]⟩,
    ⟨1, none, [0, 1, 2, 3]⟩,
    ⟨1, none, [4, 5, 6, 7]⟩,
    ⟨1, none, [8, 9, 10, 11]⟩,
    ⟨1, none, [12, 13, 14, 15]⟩,
    ⟨2, none, [0, 1, 2, 3]⟩,
    ⟨2, none, [4, 5, 6, 7]⟩,
    ⟨2, none, [8, 9, 10, 11]⟩,
    ⟨2, none, [12, 13, 14, 15]⟩,
    ⟨3, some 7, [0, 1, 2, 4]⟩,
    ⟨7, some 11, [1, 2, 4, 5]⟩,
    ⟨15, some 16, [0, 3, 6, 1]⟩,
    ⟨15, some 16, [4, 7, 2, 5]⟩,
    ⟨3, some 7, [3, 7, -1, -1]⟩,
    ⟨19, some 11, [6, 0, 1, 7]⟩,
    ⟨4, some 8, [0, 1, 2, 4]⟩,
    ⟨8, some 12, [1, 2, 4, 5]⟩,
    ⟨21, some 22, [0, 3, 6, 1]⟩,
    ⟨21, some 22, [4, 7, 2, 5]⟩,
    ⟨4, some 8, [3, 7, -1, -1]⟩,
    ⟨25, some 12, [6, 0, 1, 7]⟩,
    ⟨5, some 9, [0, 1, 2, 4]⟩,
    ⟨9, some 13, [1, 2, 4, 5]⟩,
    ⟨27, some 28, [0, 3, 6, 1]⟩,
    ⟨27, some 28, [4, 7, 2, 5]⟩,
    ⟨5, some 9, [3, 7, -1, -1]⟩,
    ⟨31, some 13, [6, 0, 1, 7]⟩,
    ⟨6, some 10, [0, 1, 2, 4]⟩,
    ⟨10, some 14, [1, 2, 4, 5]⟩,
    ⟨33, some 34, [0, 3, 6, 1]⟩,
    ⟨33, some 34, [4, 7, 2, 5]⟩,
    ⟨6, some 10, [3, 7, -1, -1]⟩,
    ⟨37, some 14, [6, 0, 1, 7]⟩]
  stores := [⟨17, 0, 0⟩, ⟨18, 0, 4⟩, ⟨20, 0, 8⟩, ⟨23, 0, 12⟩, ⟨24, 1, 0⟩, ⟨26, 1, 4⟩, ⟨29, 1, 8⟩, ⟨30, 1, 12⟩,
    ⟨32, 2, 0⟩, ⟨35, 2, 4⟩, ⟨36, 2, 8⟩, ⟨38, 2, 12⟩]

/-- The functions `__aos_to_soaN_TW` of util.m4:2817-5079 and util-xe.m4:1879-3656. -/
def aosToSoaNets : List (String × Net) := [
  ("__aos_to_soa4_float4", aos4f4), ("__aos_to_soa4_double4", aos4f4), ("__aos_to_soa3_float4", aos3f4),
  ("__aos_to_soa3_double4", aos3f4), ("__aos_to_soa2_float4", aos2f4), ("__aos_to_soa2_double4", aos2f4),
  ("__aos_to_soa4_float8", aos4f8), ("__aos_to_soa4_double8", aos4f8), ("__aos_to_soa3_float8", aos3f8),
  ("__aos_to_soa3_double8", aos3d8), ("__aos_to_soa2_float8", aos2f8), ("__aos_to_soa2_double8", aos2f8),
  ("__aos_to_soa4_float16", aos4f16), ("__aos_to_soa4_double16", aos4f16), ("__aos_to_soa3_float16", aos3f16),
  ("__aos_to_soa3_double16", aos3f16), ("__aos_to_soa2_float16", aos2f16), ("__aos_to_soa2_double16", aos2f16),
  ("__aos_to_soa4_float32", aos4f32), ("__aos_to_soa4_double32", aos4f32), ("__aos_to_soa3_float32", aos3f32),
  ("__aos_to_soa3_double32", aos3f32), ("__aos_to_soa2_float32", aos2f32), ("__aos_to_soa2_double32", aos2f32),
  ("__aos_to_soa4_float64", aos4f64), ("__aos_to_soa4_double64", aos4f64), ("__aos_to_soa3_float64", aos3f64),
  ("__aos_to_soa3_double64", aos3f64), ("__aos_to_soa2_float64", aos2f64), ("__aos_to_soa2_double64", aos2f64),
  ("__aos_to_soa4_float4 (Xe)", aos4f4), ("__aos_to_soa4_double4 (Xe)", aos4f4), ("__aos_to_soa3_float4 (Xe)",
  aos3f4), ("__aos_to_soa3_double4 (Xe)", aos3f4), ("__aos_to_soa2_float4 (Xe)", aos2f4), ("__aos_to_soa2_double4
  (Xe)", aos2f4), ("__aos_to_soa4_float8 (Xe)", aos4f8Xe), ("__aos_to_soa4_double8 (Xe)", aos4f8Xe),
  ("__aos_to_soa3_float8 (Xe)", aos3f8Xe), ("__aos_to_soa3_double8 (Xe)", aos3f8Xe), ("__aos_to_soa2_float8 (Xe)",
  aos2f8), ("__aos_to_soa2_double8 (Xe)", aos2f8), ("__aos_to_soa4_float16 (Xe)", aos4f16Xe),
  ("__aos_to_soa4_double16 (Xe)", aos4f16Xe), ("__aos_to_soa3_float16 (Xe)", aos3f16Xe), ("__aos_to_soa3_double16
  (Xe)", aos3f16Xe), ("__aos_to_soa2_float16 (Xe)", aos2f16), ("__aos_to_soa2_double16 (Xe)", aos2f16),
  ("__aos_to_soa4_float32 (Xe)", aos4f32), ("__aos_to_soa4_double32 (Xe)", aos4f32), ("__aos_to_soa3_float32
  (Xe)", aos3f32), ("__aos_to_soa3_double32 (Xe)", aos3f32), ("__aos_to_soa2_float32 (Xe)", aos2f32),
  ("__aos_to_soa2_double32 (Xe)", aos2f32)]

/-- The functions `__soa_to_aosN_TW` of util.m4:2817-5079 and util-xe.m4:1879-3656. -/
def soaToAosNets : List (String × Net) := [
  ("__soa_to_aos4_float4", aos4f4), ("__soa_to_aos4_double4", aos4f4), ("__soa_to_aos3_float4", soa3f4),
  ("__soa_to_aos3_double4", soa3f4), ("__soa_to_aos2_float4", soa2f4), ("__soa_to_aos2_double4", soa2f4),
  ("__soa_to_aos4_float8", soa4f8), ("__soa_to_aos4_double8", soa4d8Pumped), ("__soa_to_aos4_double8", soa4f8),
  ("__soa_to_aos3_float8", soa3f8), ("__soa_to_aos3_double8", soa3f8), ("__soa_to_aos2_float8", soa2f8),
  ("__soa_to_aos2_double8", soa2f8), ("__soa_to_aos4_float16", soa4f16), ("__soa_to_aos4_double16",
  soa4d16Pumped), ("__soa_to_aos4_double16", soa4f16), ("__soa_to_aos3_float16", soa3f16),
  ("__soa_to_aos3_double16", soa3f16), ("__soa_to_aos2_float16", soa2f16), ("__soa_to_aos2_double16", soa2f16),
  ("__soa_to_aos4_float32", soa4f32), ("__soa_to_aos4_double32", soa4f32), ("__soa_to_aos3_float32", soa3f32),
  ("__soa_to_aos3_double32", soa3f32), ("__soa_to_aos2_float32", soa2f32), ("__soa_to_aos2_double32", soa2f32),
  ("__soa_to_aos4_float64", soa4f64), ("__soa_to_aos4_double64", soa4f64), ("__soa_to_aos3_float64", soa3f64),
  ("__soa_to_aos3_double64", soa3f64), ("__soa_to_aos2_float64", soa2f64), ("__soa_to_aos2_double64", soa2f64),
  ("__soa_to_aos4_float4 (Xe)", aos4f4), ("__soa_to_aos4_double4 (Xe)", aos4f4), ("__soa_to_aos3_float4 (Xe)",
  soa3f4), ("__soa_to_aos3_double4 (Xe)", soa3f4), ("__soa_to_aos2_float4 (Xe)", soa2f4), ("__soa_to_aos2_double4
  (Xe)", soa2f4), ("__soa_to_aos4_float8 (Xe)", soa4d8Pumped), ("__soa_to_aos4_double8 (Xe)", soa4d8Pumped),
  ("__soa_to_aos3_float8 (Xe)", soa3f8Xe), ("__soa_to_aos3_double8 (Xe)", soa3f8Xe), ("__soa_to_aos2_float8 (Xe)",
  soa2f8), ("__soa_to_aos2_double8 (Xe)", soa2f8), ("__soa_to_aos4_float16 (Xe)", soa4d16Pumped),
  ("__soa_to_aos4_double16 (Xe)", soa4d16Pumped), ("__soa_to_aos3_float16 (Xe)", soa3f16Xe),
  ("__soa_to_aos3_double16 (Xe)", soa3f16Xe), ("__soa_to_aos2_float16 (Xe)", soa2f16), ("__soa_to_aos2_double16
  (Xe)", soa2f16), ("__soa_to_aos4_float32 (Xe)", soa4f32), ("__soa_to_aos4_double32 (Xe)", soa4f32),
  ("__soa_to_aos3_float32 (Xe)", soa3f32), ("__soa_to_aos3_double32 (Xe)", soa3f32), ("__soa_to_aos2_float32
  (Xe)", soa2f32), ("__soa_to_aos2_double32 (Xe)", soa2f32)]

end Ispc.AosNets
