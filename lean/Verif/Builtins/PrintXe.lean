import Verif.Builtins.Print

/-!
# C51: `print` on the GPU targets

The compiler makes one call of `printf` for each slice of the format.  Characters of the strings are bytes; a read beyond
the end of a range and a failed assertion of the compiler are `none`.
-/

namespace Ispc.Print

/-- `type2Specifier` (src/builtins-info.h:90-103). -/
def specifier : Ty → List Char
  | .bool => ['%', 's']
  | .int => ['%', 'd']
  | .uint => ['%', 'u']
  | .float => ['%', 'f']
  | .long => ['%', 'l', 'l', 'd']
  | .ulong => ['%', 'l', 'l', 'u']
  | .double => ['%', 'f']
  | .ptr => ['%', 'p']

/-- `switchEncoding4Uniform` (src/builtins-info.h:112-139): the type of a code. -/
def uniformOf (code : Nat) : Option Ty := order.find? fun t => encodeUniform t == code

/-- The specifier of a uniform type (src/stmt.cpp:3863-3867), of `assertEncoding4Uniform`. -/
def specUniform (code : Nat) : Option (List Char) := (uniformOf code).map specifier

/-- The loop of `createSpecifier4Varying` (src/stmt.cpp:3882-3884). -/
def specLanes (u : List Char) : Nat → List Char
  | 0 => []
  | n + 1 => '%' :: 's' :: u ++ '%' :: 's' :: ',' :: specLanes u n

/-- `createSpecifier4Varying` (src/stmt.cpp:3877-3887), `getCorrespondingEncoding4Uniform` (src/builtins-info.h:73-75). -/
def specVarying (width code : Nat) : Option (List Char) :=
  (specUniform (code - 8)).map fun u => '[' :: specLanes u (width - 1) ++ '%' :: 's' :: u ++ ['%', 's', ']']

/-- `getOrCreateSpecifier`, `createSpecifier` (src/stmt.cpp:3821-3827, 3889-3894); the table is a cache. -/
def specOf (width code : Nat) : Option (List Char) := if code < 9 then specUniform code else specVarying width code

/-- The loop of `PrintLZFormatStrBuilder::get` (src/stmt.cpp:3807-3817): plain text up to the next percent sign, the
specifier of the next type, and the text that is left. -/
def getLoop (width : Nat) (format : List Char) : List Nat → Option (List Char)
  | [] => some format
  | code :: types =>
    (specOf width code).bind fun sp =>
      (getLoop width ((format.dropWhile fun c => c ≠ '%').drop 1) types).map fun rest =>
        (format.takeWhile fun c => c ≠ '%') ++ sp ++ rest

/-- `PrintLZFormatStrBuilder::get` (src/stmt.cpp:3801-3819). -/
def getFormat (width : Nat) (format : List Char) (types : List Nat) : Option (List Char) :=
  if checkFormat format types.length then getLoop width format types else none

/-- `splitValidFormat` (src/stmt.cpp:3913-3933): how many characters and how many weights the slice takes.  `limit` is
already without the space for the zero.  The end to which the iterator is compared is the end of a copy of the vector, so
that it is never reached: a missing weight is a read beyond the end. -/
def splitLoop (limit : Nat) : List Char → List Nat → Nat → Option (Nat × Nat)
  | [], _, _ => some (0, 0)
  | c :: f, ws, sum =>
    if c = '%' then
      match ws with
      | [] => none
      | w :: ws => if sum + w ≤ limit then (splitLoop limit f ws (sum + w)).map fun r => (r.1 + 1, r.2 + 1) else some (0, 0)
    else if sum + 1 ≤ limit then (splitLoop limit f ws (sum + 1)).map fun r => (r.1 + 1, r.2)
    else some (0, 0)

/-- An argument of the call: its code and its cells. -/
abbrev Coded := Nat × List Val

/-- The loop of `getPrintSlices` (src/stmt.cpp:3949-3958) with its assertion; `extract` (src/stmt.cpp:3698-3706). -/
def slicesLoop (limit : Nat) : Nat → List Char → List Nat → List Coded → Option (List (List Char × List Coded))
  | 0, _, _, _ => none
  | fuel + 1, f, ws, args =>
    if f = [] then some []
    else
      (splitLoop limit f ws 0).bind fun r =>
        if r.1 = 0 then none
        else
          (slicesLoop limit fuel (f.drop r.1) (ws.drop r.2) (args.drop r.2)).map fun rest =>
            (f.take r.1, args.take r.2) :: rest

/-- The weights (src/stmt.cpp:3944-3947). -/
def weights (width : Nat) : List Coded → Option (List Nat)
  | [] => some []
  | a :: as => (specOf width a.1).bind fun sp => (weights width as).map fun ws => sp.length :: ws

/-- `getPrintSlices` (src/stmt.cpp:3936-3960). -/
def slices (width limit : Nat) (format : List Char) (args : List Coded) : Option (List (List Char × List Coded)) :=
  if checkFormat format args.length then
    (weights width args).bind fun ws => slicesLoop (limit - 1) (format.length + 1) format ws args
  else none

/-- An argument of `printf`: a string or a number. -/
inductive XArg
  | str (s : List Char)
  | val (v : Val)

/-- `writeRawUniformArg` (src/stmt.cpp:3737-3749). -/
def emitUniform (code : Nat) (v : Val) : XArg :=
  if code ≠ 1 then .val v
  else
    match v with
    | .bool i => .str (if i ≠ 0 then ['t', 'r', 'u', 'e'] else ['f', 'a', 'l', 's', 'e'])
    | v => .val v

/-- `writeRawVaryingArg` (src/stmt.cpp:3755-3772): from a lane on. -/
def emitVarying (mask : BitVec 64) (code : Nat) : Nat → List Val → List XArg
  | _, [] => []
  | k, v :: vs =>
    .str (if mask.getLsbD k then [] else ['(', '(']) :: emitUniform (code - 8) v ::
      .str (if mask.getLsbD k then [] else [')', ')']) :: emitVarying mask code (k + 1) vs

/-- `writeRawArg` (src/stmt.cpp:3776-3781). -/
def emitArg (mask : BitVec 64) (a : Coded) : List XArg :=
  if a.1 < 9 then a.2.take 1 |>.map (emitUniform a.1) else emitVarying mask a.1 0 a.2

/-- `emitArgCode` (src/stmt.cpp:3718-3729). -/
def emitArgs (mask : BitVec 64) (args : List Coded) : List XArg := args.flatMap (emitArg mask)

/-- `printf` of OpenCL, as far as the generated formats use it: an argument of another type than its conversion, a
missing argument and another conversion are undefined. -/
def ocl : List Char → List XArg → Option (List Char)
  | [], _ => some []
  | '%' :: 's' :: f, args =>
    match args with
    | .str s :: as => (ocl f as).map fun t => s ++ t
    | _ => none
  | '%' :: 'd' :: f, args =>
    match args with
    | .val (.int i) :: as => (ocl f as).map fun t => (Val.int i).text ++ t
    | _ => none
  | '%' :: 'u' :: f, args =>
    match args with
    | .val (.uint i) :: as => (ocl f as).map fun t => (Val.uint i).text ++ t
    | _ => none
  | '%' :: 'f' :: f, args =>
    match args with
    | .val (.float x) :: as => (ocl f as).map fun t => (Val.float x).text ++ t
    | .val (.double x) :: as => (ocl f as).map fun t => (Val.double x).text ++ t
    | _ => none
  | '%' :: 'p' :: f, args =>
    match args with
    | .val (.ptr i) :: as => (ocl f as).map fun t => (Val.ptr i).text ++ t
    | _ => none
  | '%' :: 'l' :: 'l' :: 'd' :: f, args =>
    match args with
    | .val (.long i) :: as => (ocl f as).map fun t => (Val.long i).text ++ t
    | _ => none
  | '%' :: 'l' :: 'l' :: 'u' :: f, args =>
    match args with
    | .val (.ulong i) :: as => (ocl f as).map fun t => (Val.ulong i).text ++ t
    | _ => none
  | c :: f, args => if c = '%' then none else (ocl f args).map fun t => c :: t

/-- The calls of the slices, one after the other (src/stmt.cpp:3994-4008). -/
def runSlices (width : Nat) (mask : BitVec 64) : List (List Char × List Coded) → Option (List Char)
  | [] => some []
  | s :: ss =>
    (getFormat width s.1 (s.2.map fun a => a.1)).bind fun fmt =>
      (ocl fmt (emitArgs mask s.2)).bind fun t => (runSlices width mask ss).map fun rest => t ++ rest

/-- `LZMaxFormatStrSize` (src/builtins-info.h:43). -/
def lzLimit : Nat := 16384

/-- `PrintStmt::emitCode4LZ` (src/stmt.cpp:4002-4008) and its run: the inner `none` is a failed assertion or undefined
behaviour. -/
def printXe (width : Nat) (mask : BitVec 64) (format : List Char) (args : List Arg) : Option (Option (List Char)) :=
  if checkFormat format args.length then
    (codes args).map fun ts =>
      (slices width lzLimit format (ts.zip (args.map Arg.cells))).bind (runSlices width mask)
  else none

end Ispc.Print
