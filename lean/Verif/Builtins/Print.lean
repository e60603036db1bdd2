import Verif.Front.LiteralFloat

/-!
# C51: `print`

The statement `print` as the compiler translates it and as `__do_print` runs it.  A buffer is the list of its bytes, a
write or a read beyond its end is undefined behaviour: the result is `none`.  The text that the C library makes of one
number is modelled by `Val.text`; the arguments are the cells that the generated code has stored.
-/

namespace Ispc.Print

open Ispc.Literal (rne)

/-! ## Values and the text of one of them -/

/-- The types of `PrintInfo` (src/builtins-info.h:20-38): without their variability. -/
inductive Ty
  | bool | int | uint | float | long | ulong | double | ptr
  deriving DecidableEq, Repr

/-- A floating-point number as `printf` sees it: the absolute value of a finite one is a rational number. -/
inductive Fl
  | fin (neg : Bool) (q : ℚ)
  | inf (neg : Bool)
  | nan (neg : Bool)
  deriving DecidableEq

/-- What a cell of an argument holds.  Booleans are stored as 32-bit integers (builtins/builtins-c-cpu.cpp:116-117). -/
inductive Val
  | bool (i : BitVec 32)
  | int (i : BitVec 32)
  | uint (i : BitVec 32)
  | float (x : Fl)
  | long (i : BitVec 64)
  | ulong (i : BitVec 64)
  | double (x : Fl)
  | ptr (i : BitVec 64)
  deriving DecidableEq

def Val.ty : Val → Ty
  | .bool _ => .bool
  | .int _ => .int
  | .uint _ => .uint
  | .float _ => .float
  | .long _ => .long
  | .ulong _ => .ulong
  | .double _ => .double
  | .ptr _ => .ptr

def digitChar : Nat → Char
  | 0 => '0' | 1 => '1' | 2 => '2' | 3 => '3' | 4 => '4' | 5 => '5' | 6 => '6' | 7 => '7' | 8 => '8' | 9 => '9'
  | 10 => 'a' | 11 => 'b' | 12 => 'c' | 13 => 'd' | 14 => 'e' | _ => 'f'

/-- The digits of a number, the last one first. -/
def digitsRev (base : Nat) : Nat → Nat → List Char
  | 0, _ => []
  | fuel + 1, n => digitChar (n % base) :: (if n / base = 0 then [] else digitsRev base fuel (n / base))

/-- The digits of a number. -/
def digits (base n : Nat) : List Char := (digitsRev base (Nat.log2 n + 1) n).reverse

def signed (neg : Bool) (t : List Char) : List Char := if neg then '-' :: t else t

/-- The digits after the point. -/
def six (n : Nat) : List Char :=
  [digitChar (n / 100000 % 10), digitChar (n / 10000 % 10), digitChar (n / 1000 % 10), digitChar (n / 100 % 10),
    digitChar (n / 10 % 10), digitChar (n % 10)]

/-- `%f` of a finite number: to the nearest millionth. -/
def fixed (q : ℚ) : List Char :=
  digits 10 ((rne (q * 1000000)).toNat / 1000000) ++ '.' :: six ((rne (q * 1000000)).toNat % 1000000)

def Fl.text : Fl → List Char
  | .fin neg q => signed neg (fixed q)
  | .inf neg => signed neg ['i', 'n', 'f']
  | .nan neg => signed neg ['n', 'a', 'n']

/-- The text of one value: `type2Specifier` (src/builtins-info.h:90-103) and `ValueAdapter`
(builtins/builtins-c-common.hpp:22-24, 102), as the GNU C library prints it. -/
def Val.text : Val → List Char
  | .bool i => if i = 0 then ['f', 'a', 'l', 's', 'e'] else ['t', 'r', 'u', 'e']
  | .int i => signed (decide (i.toInt < 0)) (digits 10 i.toInt.natAbs)
  | .uint i => digits 10 i.toNat
  | .float x => x.text
  | .long i => signed (decide (i.toInt < 0)) (digits 10 i.toInt.natAbs)
  | .ulong i => digits 10 i.toNat
  | .double x => x.text
  | .ptr i => if i = 0 then ['(', 'n', 'i', 'l', ')'] else '0' :: 'x' :: digits 16 i.toNat

/-! ## The library function -/

abbrev Buf := List Char

/-- `res[i] = c`. -/
def put (b : Buf) (i : Nat) (c : Char) : Option Buf := if i < b.length then some (b.set i c) else none

def puts (b : Buf) (i : Nat) : List Char → Option Buf
  | [] => some b
  | c :: cs => (put b i c).bind fun b => puts b (i + 1) cs

/-- `snprintf(&res[i], n, ...)` where the whole text is `t`: it writes at most `n - 1` bytes and a zero, whether the buffer
has room for them or not, and returns the length of the whole text. -/
def snprintf (b : Buf) (i n : Nat) (t : List Char) : Option (Buf × Nat) :=
  if n = 0 then some (b, t.length) else (puts b i (t.take (n - 1) ++ ['\x00'])).map fun b => (b, t.length)

/-- `ARG_STR_SIZE` and `RES_STR_SIZE` (builtins/builtins-c-cpu.cpp:60-61). -/
def argStrSize : Nat := 1024
def resStrSize : Nat := 8196

/-- `OffLaneBoolStr` (builtins/builtins-c-common.hpp:95). -/
def offLaneBool : List Char := ['_', '_', '_', '_', '_', '_', '_', '_', '_']

/-- `argCast<T>(argPtr)[lane]` (builtins/builtins-c-cpu.cpp:112-117): reading a cell as another type is undefined. -/
def readCell (t : Ty) (cells : List Val) (lane : Nat) : Option Val :=
  cells[lane]?.bind fun v => if v.ty = t then some v else none

/-- `uniform2Str` (builtins/builtins-c-cpu.cpp:81-87).  `junk` is what the buffer held before. -/
def uniform2Str (junk : Buf) (t : Ty) (cells : List Val) : Option Buf :=
  (readCell t cells 0).bind fun v => (snprintf junk 0 argStrSize v.text).map fun r => r.1

/-- `writeOffLane` (builtins/builtins-c-cpu.cpp:119-134). -/
def writeOffLane (b : Buf) (w : Nat) (t : Ty) (cells : List Val) (lane : Nat) : Option (Buf × Nat) :=
  if t = .bool then (snprintf b w argStrSize offLaneBool).map fun r => (r.1, w + r.2)
  else
    (snprintf b w argStrSize ['(', '(']).bind fun r1 =>
      (readCell t cells lane).bind fun v =>
        (snprintf r1.1 (w + r1.2) argStrSize v.text).bind fun r2 =>
          (snprintf r2.1 (w + r1.2 + r2.2) argStrSize [')', ')']).map fun r3 => (r3.1, w + r1.2 + r2.2 + r3.2)

/-- The body of the branch of a lane that is on (builtins/builtins-c-cpu.cpp:96-98). -/
def writeOnLane (b : Buf) (w : Nat) (t : Ty) (cells : List Val) (lane : Nat) : Option (Buf × Nat) :=
  (readCell t cells lane).bind fun v => (snprintf b w argStrSize v.text).map fun r => (r.1, w + r.2)

/-- The loop over the lanes and the end (builtins/builtins-c-cpu.cpp:95-106), `left` lanes before the last. -/
def varyingLoop (width : Nat) (mask : BitVec 64) (t : Ty) (cells : List Val) : Nat → Buf → Nat → Option Buf
  | 0, b, w => put b w '\x00'
  | left + 1, b, w =>
    let lane := width - (left + 1)
    (if mask &&& (1#64 <<< lane) ≠ 0 then writeOnLane b w t cells lane else writeOffLane b w t cells lane).bind fun r =>
      (put r.1 r.2 (if lane = width - 1 then ']' else ',')).bind fun b => varyingLoop width mask t cells left b (r.2 + 1)

/-- `varying2Str` (builtins/builtins-c-cpu.cpp:89-107). -/
def varying2Str (junk : Buf) (width : Nat) (mask : BitVec 64) (t : Ty) (cells : List Val) : Option Buf :=
  (put junk 0 '[').bind fun b => varyingLoop width mask t cells width b 1

/-- `Encoding`, `getEncoding4Uniform` and `getEncoding4Varying` (src/builtins-info.h:20-38, 51-67). -/
def encodeUniform : Ty → Nat
  | .bool => 1 | .int => 2 | .uint => 3 | .float => 4 | .long => 5 | .ulong => 6 | .double => 7 | .ptr => 8

def encodeVarying : Ty → Nat
  | .bool => 9 | .int => 10 | .uint => 11 | .float => 12 | .long => 13 | .ulong => 14 | .double => 15 | .ptr => 16

/-- The order in which `Arg2Str` tries the types (builtins/builtins-c-common.hpp:83-91). -/
def order : List Ty := [.bool, .int, .uint, .float, .long, .ulong, .double, .ptr]

/-- `Arg2StrIfSuitable` for one type after the other, and `Arg2Str`
(builtins/builtins-c-common.hpp:51-91).  A code of no type gives the buffer back as it was. -/
def arg2Str (junk : Buf) (width : Nat) (mask : BitVec 64) (code : Nat) (cells : List Val) : List Ty → Option Buf
  | [] => some junk
  | t :: ts =>
    if code = encodeUniform t then uniform2Str junk t cells
    else if code = encodeVarying t then varying2Str junk width mask t cells
    else arg2Str junk width mask code cells ts

/-- `CopyTillSep` (builtins/builtins-c-common.hpp:29-37, 41-49). -/
def copyTill (sep : Char → Bool) (src : List Char) : Nat → Nat → Buf → Nat → Option (Buf × Nat)
  | 0, si, dst, _ => src[si]?.map fun _ => (dst, 0)
  | left + 1, si, dst, di =>
    src[si]?.bind fun c =>
      if sep c then some (dst, 0)
      else (put dst di c).bind fun dst =>
        (copyTill sep src left (si + 1) dst (di + 1)).map fun r => (r.1, r.2 + 1)

/-- The separators of `CopyPlainText` and of `CopyFullText` (builtins/builtins-c-common.hpp:104-124). -/
def plainSep (c : Char) : Bool := c == '%' || c == '\x00'
def fullSep (c : Char) : Bool := c == '\x00'

/-- The loop of `GetFormatedStr` (builtins/builtins-c-common.hpp:137-151): `format` and `types` are what the two pointers
point to.  `curArgIdx_` advances with `types` (builtins/builtins-c-cpu.cpp:110), so that the arguments are a list that
shrinks. -/
def formatLoop (junk : Buf) (width : Nat) (mask : BitVec 64) :
    Nat → List Char → List Nat → List (List Val) → Buf → Nat → Nat → Option Buf
  | 0, _, _, _, _, _, _ => none
  | fuel + 1, format, types, args, b, w, left =>
    (copyTill plainSep format left 0 b w).bind fun r =>
      let format := format.drop r.2
      let w := w + r.2
      let left := left - r.2
      format.head?.bind fun c =>
        if left = 0 ∨ c = '\x00' then put r.1 w '\x00'
        else
          types.head?.bind fun code =>
            args.head?.bind fun cells =>
              (arg2Str junk width mask code cells order).bind fun s =>
                (copyTill fullSep s left 0 r.1 w).bind fun r2 =>
                  formatLoop junk width mask fuel (format.drop 1) (types.drop 1) (args.drop 1) r2.1 (w + r2.2)
                    (left - r2.2)

/-- `GetFormatedStr` (builtins/builtins-c-common.hpp:131-153). -/
def getFormatted (junkArg junkRes : Buf) (width : Nat) (mask : BitVec 64) (format : List Char) (types : List Nat)
    (args : List (List Val)) : Option Buf :=
  formatLoop junkArg width mask format.length format types args junkRes 0 (resStrSize - 1)

/-- What `fputs` writes. -/
def cstr (b : Buf) : Option (List Char) := if '\x00' ∈ b then some (b.takeWhile fun c => c ≠ '\x00') else none

/-- `__do_print` (builtins/builtins-c-cpu.cpp:148-153): the text written to the standard output. -/
def doPrint (junkArg junkRes : Buf) (width : Nat) (mask : BitVec 64) (format : List Char) (types : List Nat)
    (args : List (List Val)) : Option (List Char) :=
  (getFormatted junkArg junkRes width mask format types args).bind cstr

/-! ## The translation of the statement -/

/-- A value of a type that `print` accepts.  A half-precision number is given by its value. -/
inductive SrcVal
  | bool (b : Bool)
  | int8 (i : BitVec 8)
  | uint8 (i : BitVec 8)
  | int16 (i : BitVec 16)
  | uint16 (i : BitVec 16)
  | int32 (i : BitVec 32)
  | uint32 (i : BitVec 32)
  | int64 (i : BitVec 64)
  | uint64 (i : BitVec 64)
  | float16 (x : Fl)
  | float (x : Fl)
  | double (x : Fl)
  | ptr (i : BitVec 64)

/-- The types of the arguments: the atomic ones, pointers, and the others, of which `print` accepts none. -/
inductive SrcTy
  | bool | int8 | uint8 | int16 | uint16 | int32 | uint32 | int64 | uint64 | float16 | float | double | ptr | other
  deriving DecidableEq, Repr

def SrcVal.ty : SrcVal → SrcTy
  | .bool _ => .bool
  | .int8 _ => .int8
  | .uint8 _ => .uint8
  | .int16 _ => .int16
  | .uint16 _ => .uint16
  | .int32 _ => .int32
  | .uint32 _ => .uint32
  | .int64 _ => .int64
  | .uint64 _ => .uint64
  | .float16 _ => .float16
  | .float _ => .float
  | .double _ => .double
  | .ptr _ => .ptr

/-- The type after the promotions of `lProcessPrintArgType` (src/stmt.cpp:3603-3616). -/
def promote : SrcTy → SrcTy
  | .int8 | .uint8 | .int16 | .uint16 => .int32
  | .float16 => .float
  | t => t

/-- The type that `lEncodeType` (src/stmt.cpp:3527-3579) finds for a type. -/
def encodeTy : SrcTy → Option Ty
  | .bool => some .bool
  | .int32 => some .int
  | .uint32 => some .uint
  | .float => some .float
  | .int64 => some .long
  | .uint64 => some .ulong
  | .double => some .double
  | .ptr => some .ptr
  | _ => none

/-- The character that the compiler puts into the string of types (src/stmt.cpp:3618-3625), `none` for the error. -/
def typeCode (varying : Bool) (t : SrcTy) : Option Nat :=
  (encodeTy (promote t)).map fun t => if varying then encodeVarying t else encodeUniform t

/-- The conversions of the values (src/stmt.cpp:3603-3616, 3626-3632). -/
def store : SrcVal → Val
  | .bool b => .bool (if b then 1 else 0)
  | .int8 i => .int (i.signExtend 32)
  | .uint8 i => .int (i.zeroExtend 32)
  | .int16 i => .int (i.signExtend 32)
  | .uint16 i => .int (i.zeroExtend 32)
  | .int32 i => .int i
  | .uint32 i => .uint i
  | .int64 i => .long i
  | .uint64 i => .ulong i
  | .float16 x => .float x
  | .float x => .float x
  | .double x => .double x
  | .ptr i => .ptr i

/-- An argument: its type, and its value in each lane, or its only value. -/
inductive Arg
  | uniform (t : SrcTy) (v : SrcVal)
  | varying (t : SrcTy) (vs : List SrcVal)

def Arg.code : Arg → Option Nat
  | .uniform t _ => typeCode false t
  | .varying t _ => typeCode true t

def Arg.cells : Arg → List Val
  | .uniform _ v => [store v]
  | .varying _ vs => vs.map store

/-- `checkFormatString` (src/stmt.cpp:3642-3654). -/
def checkFormat (format : List Char) (n : Nat) : Bool := format.count '%' == n

/-- The string of the types (src/stmt.cpp:4031-4091), `none` for an error. -/
def codes : List Arg → Option (List Nat)
  | [] => some []
  | a :: as => a.code.bind fun c => (codes as).map fun cs => c :: cs

/-- `PrintStmt` (src/stmt.cpp:4053-4126) and the run of its call: the outer `none` is an error of the compiler, the inner
one undefined behaviour.  The strings end with a zero. -/
def print (junkArg junkRes : Buf) (width : Nat) (mask : BitVec 64) (format : List Char) (args : List Arg) :
    Option (Option (List Char)) :=
  if checkFormat format args.length then
    (codes args).map fun ts =>
      doPrint junkArg junkRes width mask (format ++ ['\x00']) (ts ++ [0]) (args.map Arg.cells)
  else none

end Ispc.Print
