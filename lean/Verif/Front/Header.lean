import Verif.Front.Init

/-!
# The generated C/C++ header: types, their layout in LLVM, and their declarations

`lEmitStructDecl` and what it calls (src/header.cpp:36-250), the functions
`GetDeclaration` and `LLVMStorageType` of the types (src/type.cpp), and the order in
which the structs are written.

Simplified: a declaration is modelled as the C type it declares, not as its text;
references, slice pointers, undefined structs and unsized arrays do not occur as
members; the types of C are those of the C++ branch of the header.
-/

namespace Ispc.Header

/-- The scalars in memory: the basic types (src/type.cpp:579-622), enumerations and
pointers. -/
inductive Scal where
  | bool | int8 | uint8 | int16 | uint16 | int32 | uint32 | float16 | float | int64 | uint64 | double
  | enum | pointer
deriving DecidableEq, Repr

/-- `Variability` (src/type.h:28-44). -/
inductive Vb where
  | unbound
  | uniform
  | varying
  | soa (w : Nat)
deriving DecidableEq, Repr

/-- `ResolveUnboundVariability` (src/type.cpp:244-255): `x` inside something of variability `v`. -/
def Vb.resolve (v : Vb) : Vb → Vb
  | .unbound => v
  | x        => x

/-- What a pointer points to, as far as `PointerType::GetDeclaration` cares
(src/type.cpp:1194-1195). -/
inductive Target where
  | plain
  | varyingBasic
  | function
deriving DecidableEq, Repr

mutual
/-- Types with the variability that is written; members without one get that of the struct
(src/type.cpp:2206-2208).  `align` is the `aligned` attribute, 0 if there is none. -/
inductive Ty where
  | atom (k : Scal) (v : Vb)
  | enum (v : Vb)
  | ptr (b : Target) (v : Vb)
  | vec (k : Scal) (n : Nat) (v : Vb)
  | arr (n : Nat) (t : Ty)
  | struct (name : Nat) (align : Nat) (v : Vb) (ms : Ms)
/-- The members of a struct.  `shown` is what `lShouldPrintName` says of the name of the member
(src/type.cpp:36-44): false for a name that begins with `__` or `$_`. -/
inductive Ms where
  | nil
  | cons (shown : Bool) (t : Ty) (rest : Ms)
end

/-- The target.  Sizes and alignments are in bytes; `size`, `align` and `valign` (the alignment of a
vector, by its size) are LLVM's data layout, `csize` and `calign` those of the C compiler. -/
structure DL where
  size   : Scal → Nat
  align  : Scal → Nat
  valign : Nat → Nat
  csize  : Scal → Nat
  calign : Scal → Nat
  W      : Nat
  dtw    : Nat

/-- The next multiple of `a`, LLVM's `alignTo`. -/
def roundUp (x a : Nat) : Nat := (x + a - 1) / a * a

/-- `GetVariability`: an array has that of its elements (src/type.cpp:1454-1460). -/
def Ty.vb (v : Vb) : Ty → Vb
  | .atom _ x | .enum x | .ptr _ x | .vec _ _ x | .struct _ _ x _ => v.resolve x
  | .arr _ t => t.vb v

/-- `CastType<StructType>` succeeds. -/
def Ty.isStruct : Ty → Bool
  | .struct .. => true
  | _          => false

/-- `IsArrayType` (src/type.cpp:137). -/
def Ty.isArr : Ty → Bool
  | .arr .. => true
  | _       => false

/-- `IsPointerType` (src/type.cpp:135). -/
def Ty.isPtr : Ty → Bool
  | .ptr .. => true
  | _       => false

/-! ## The layout of ispc: LLVM types -/

/-- Size and alignment of an LLVM vector of `s` bytes. -/
def DL.vector (D : DL) (s : Nat) : Nat × Nat := (roundUp s (D.valign s), D.valign s)

/-- Size and alignment of a scalar with a variability: `lGetAtomicLLVMType` (src/type.cpp:638-684),
`EnumType::LLVMType` (src/type.cpp:939-955), `PointerType::LLVMType` (src/type.cpp:1262-1278;
src/llvmutil.cpp:120). -/
def DL.scalar (D : DL) (k : Scal) : Vb → Nat × Nat
  | .unbound => (0, 1)
  | .uniform => (D.size k, D.align k)
  | .varying => D.vector (D.W * D.size k)
  | .soa w   => (w * D.size k, D.align k)

/-- Size and alignment of a short vector, `lGetVectorLLVMType` (src/type.cpp:1755-1799). -/
def DL.short (D : DL) (k : Scal) (n : Nat) : Vb → Nat × Nat
  | .uniform => D.vector (Braces.vecMem D.dtw n * D.size k)
  | v        => (n * (D.scalar k v).1, (D.scalar k v).2)

mutual
/-- Size and alignment of the LLVM type of a type: arrays (src/type.cpp:1468-1480), structs
(src/type.cpp:1947-1975; the `aligned` attribute is not looked at, an empty struct is an `i8`). -/
def llay (D : DL) (v : Vb) : Ty → Nat × Nat
  | .atom k x  => D.scalar k (v.resolve x)
  | .enum x    => D.scalar .enum (v.resolve x)
  | .ptr _ x   => D.scalar .pointer (v.resolve x)
  | .vec k n x => D.short k n (v.resolve x)
  | .arr n t   => (n * (llay D v t).1, (llay D v t).2)
  | .struct _ _ x ms => llays D (v.resolve x) ms 0 1 true
/-- The members: `off` bytes are used, `al` is the alignment so far (LLVM's `StructLayout`). -/
def llays (D : DL) (v : Vb) : Ms → (off al : Nat) → (empty : Bool) → Nat × Nat
  | .nil, off, al, empty => (roundUp (if empty then 1 else off) al, al)
  | .cons _ t rest, off, al, _ =>
    llays D v rest (roundUp off (llay D v t).2 + (llay D v t).1) (max al (llay D v t).2) false
end

/-- A scalar of a variable: the members, elements and components that lead to it, the program instance
(or slot of an `soa` type) it belongs to, its address and its type. -/
structure Leaf where
  path : List Nat
  lane : Option Nat
  off  : Nat
  k    : Scal
deriving DecidableEq, Repr

/-- Where the scalars of a scalar type with a variability are. -/
def DL.scalars (D : DL) (k : Scal) (base : Nat) (p : List Nat) : Vb → List Leaf
  | .unbound => []
  | .uniform => [⟨p, none, base, k⟩]
  | .varying => (List.range D.W).map fun i => ⟨p, some i, base + i * D.size k, k⟩
  | .soa w   => (List.range w).map fun i => ⟨p, some i, base + i * D.size k, k⟩

/-- Where the scalars of a short vector are; the padding of a uniform one is none. -/
def DL.shorts (D : DL) (k : Scal) (n : Nat) (base : Nat) (p : List Nat) : Vb → List Leaf
  | .uniform => (List.range n).map fun i => ⟨p ++ [i], none, base + i * D.size k, k⟩
  | v        => (List.range n).flatMap fun i => D.scalars k (base + i * (D.scalar k v).1) (p ++ [i]) v

mutual
/-- The scalars of a variable of ispc at address `base`. -/
def lflat (D : DL) (v : Vb) : Ty → Nat → List Nat → List Leaf
  | .atom k x, base, p  => D.scalars k base p (v.resolve x)
  | .enum x, base, p    => D.scalars .enum base p (v.resolve x)
  | .ptr _ x, base, p   => D.scalars .pointer base p (v.resolve x)
  | .vec k n x, base, p => D.shorts k n base p (v.resolve x)
  | .arr n t, base, p   =>
    (List.range n).flatMap fun i => lflat D v t (base + i * (llay D v t).1) (p ++ [i])
  | .struct _ _ x ms, base, p => lflats D (v.resolve x) ms base p 0 0
/-- The scalars of the members, from member number `j` on. -/
def lflats (D : DL) (v : Vb) : Ms → (base : Nat) → (p : List Nat) → (off j : Nat) → List Leaf
  | .nil, _, _, _, _ => []
  | .cons _ t rest, base, p, off, j =>
    lflat D v t (base + roundUp off (llay D v t).2) (p ++ [j]) ++
      lflats D v rest base p (roundUp off (llay D v t).2 + (llay D v t).1) (j + 1)
end

/-! ## C types and their layout -/

mutual
/-- The C types in the header.  A struct and its members may have an alignment of their own; 1 is
none.  `short` is the struct of a short vector, `lanes` an array over the program instances or the slots
of an `soa` type. -/
inductive CTy where
  | scal (k : Scal)
  | short (k : Scal) (n : Nat) (align : Nat)
  | arr (n : Nat) (t : CTy)
  | lanes (n : Nat) (t : CTy)
  | struct (align : Nat) (ms : CMs)
inductive CMs where
  | nil
  | cons (align : Nat) (t : CTy) (rest : CMs)
end

mutual
/-- `sizeof` and `alignof`. -/
def clay (D : DL) : CTy → Nat × Nat
  | .scal k      => (D.csize k, D.calign k)
  | .short k n a => (roundUp (n * D.csize k) (max a (D.calign k)), max a (D.calign k))
  | .arr n t | .lanes n t => (n * (clay D t).1, (clay D t).2)
  | .struct a ms => clays D ms 0 (max 1 a) true
def clays (D : DL) : CMs → (off al : Nat) → (empty : Bool) → Nat × Nat
  | .nil, off, al, empty => (roundUp (if empty then 1 else off) al, al)
  | .cons a t rest, off, al, _ =>
    clays D rest (roundUp off (max a (clay D t).2) + (clay D t).1) (max al (max a (clay D t).2)) false
end

mutual
/-- The scalars of a variable of C at address `base`; `l` is the program instance. -/
def cflat (D : DL) : CTy → Nat → List Nat → Option Nat → List Leaf
  | .scal k, base, p, l      => [⟨p, l, base, k⟩]
  | .short k n _, base, p, l => (List.range n).map fun i => ⟨p ++ [i], l, base + i * D.csize k, k⟩
  | .arr n t, base, p, l     =>
    (List.range n).flatMap fun i => cflat D t (base + i * (clay D t).1) (p ++ [i]) l
  | .lanes n t, base, p, _   =>
    (List.range n).flatMap fun i => cflat D t (base + i * (clay D t).1) p (some i)
  | .struct _ ms, base, p, l => cflats D ms base p l 0 0
def cflats (D : DL) : CMs → (base : Nat) → (p : List Nat) → (l : Option Nat) → (off j : Nat) → List Leaf
  | .nil, _, _, _, _, _ => []
  | .cons a t rest, base, p, l, off, j =>
    cflat D t (base + roundUp off (max a (clay D t).2)) (p ++ [j]) l ++
      cflats D rest base p l (roundUp off (max a (clay D t).2) + (clay D t).1) (j + 1)
end

/-! ## The declarations -/

/-- `struct float3 { float v[3]; } __attribute__ ((aligned(16)))`, `lEmitVectorTypedefs`
(src/header.cpp:265-300). -/
def shortStruct (D : DL) (k : Scal) (n : Nat) : CTy := .short k n (D.short k n .uniform).2

/-- `AtomicType::GetDeclaration` (src/type.cpp:569-636): nothing is added for `varying`. -/
def declAtom (k : Scal) : Vb → CTy
  | .soa w => .lanes w (.scal k)
  | _      => .scal k

/-- `EnumType::GetDeclaration` (src/type.cpp:909-937): `[W]` is added for `varying`. -/
def declEnum (D : DL) : Vb → CTy
  | .soa w   => .lanes w (.scal .enum)
  | .varying => .lanes D.W (.scal .enum)
  | _        => .scal .enum

/-- `PointerType::GetDeclaration` (src/type.cpp:1183-1231).  `[w]` is added behind `( * p)`, so an
`soa` pointer to a varying basic type is declared as a single pointer (to an array), and for a
function the text is not C. -/
def declPtr (b : Target) : Vb → Option CTy
  | .soa w =>
    match b with
    | .plain        => some (.lanes w (.scal .pointer))
    | .varyingBasic => some (.scal .pointer)
    | .function     => none
  | _      => some (.scal .pointer)

/-- `VectorType::GetDeclaration` (src/type.cpp:1751-1753): the name of the uniform vector, whatever
the variability; for `soa` the text (`float[8]3`) is not C. -/
def declVec (D : DL) (k : Scal) (n : Nat) : Vb → Option CTy
  | .soa _ => none
  | _      => some (shortStruct D k n)

/-- The innermost type of an array, `GetBaseType` (src/type.cpp:1484-1493), is a pointer whose
declaration has parentheses. -/
def Ty.parens : Ty → Option Target
  | .ptr .varyingBasic _ => some .varyingBasic
  | .ptr .function _     => some .function
  | .arr _ t             => t.parens
  | _                    => none

/-- `[soaWidth]` and `[vWidth]` behind the dimensions of an array (src/type.cpp:1560-1561,
src/type.cpp:1579-1589). -/
def CTy.inLanes (D : DL) (c : CTy) : Vb → CTy
  | .soa w   => .lanes w c
  | .varying => .lanes D.W c
  | _        => c

/-- Does the struct need an alignment because of a varying member?  (src/header.cpp:111-116) -/
def needsAlign (v : Vb) : Ms → Bool
  | .nil           => false
  | .cons _ t rest => (t.vb v = .varying && !t.isStruct) || needsAlign v rest

/-- The alignment in the declaration of a struct (src/header.cpp:107, src/header.cpp:117-122). -/
def structAlign (D : DL) (v : Vb) (align : Nat) (ms : Ms) : Nat :=
  if align ≠ 0 then align
  else if needsAlign v ms then (llays D v ms 0 1 true).2
  else 1

/-- The alignment in the declaration of a member (src/header.cpp:142-145). -/
def memberAlign (D : DL) (v : Vb) (need : Bool) (t : Ty) : Nat :=
  if need && t.vb v = .varying && !t.isStruct then (llay D v t).2 else 1

/-- Is `[W]` written behind the declaration of a member?  (src/header.cpp:151-154) -/
def expanded (v : Vb) (t : Ty) : Bool :=
  !t.isArr && !t.isPtr && t.vb v = .varying && !t.isStruct

/-- A name that is not to be printed is left out of the declaration (src/type.cpp:624-627,
src/type.cpp:924-927, src/type.cpp:2141-2143), which then declares no member.  Pointers and short
vectors print their name always (src/type.cpp:1206, src/type.cpp:1752). -/
def printable (shown : Bool) : Ty → Bool
  | .ptr .. | .vec .. => true
  | .arr _ t          => printable shown t
  | _                 => shown

mutual
/-- `GetDeclaration` of a type that is not an array, with the declaration of the struct it names
(src/type.cpp:2125-2146). -/
def decl (D : DL) (v : Vb) : Ty → Option CTy
  | .atom k x  => some (declAtom k (v.resolve x))
  | .enum x    => some (declEnum D (v.resolve x))
  | .ptr b x   => declPtr b (v.resolve x)
  | .vec k n x => declVec D k n (v.resolve x)
  | .arr n t   =>
    match t.parens with
    | some .function => none
    | some _         => some (.scal .pointer)
    | none           => (declArr D v t).map (.arr n)
  | .struct _ a x ms =>
    (members D (v.resolve x) (needsAlign (v.resolve x) ms || decide (a ≠ 0)) ms).map
      (.struct (structAlign D (v.resolve x) a ms))
/-- What `ArrayType::GetDeclaration` writes for the elements (src/type.cpp:1553-1592): the uniform
version of the base type, and the lanes behind the dimensions. -/
def declArr (D : DL) (v : Vb) : Ty → Option CTy
  | .atom k x  => some ((CTy.scal k).inLanes D (v.resolve x))
  | .enum x    => some ((CTy.scal .enum).inLanes D (v.resolve x))
  | .ptr _ x   => some ((CTy.scal .pointer).inLanes D (v.resolve x))
  | .vec k n x => some ((shortStruct D k n).inLanes D (v.resolve x))
  | .arr n t   => (declArr D v t).map (.arr n)
  | .struct _ a x ms =>
    (members D .uniform (needsAlign .uniform ms || decide (a ≠ 0)) ms).map fun cs =>
      (CTy.struct (structAlign D .uniform a ms) cs).inLanes D (v.resolve x)
/-- The members of a struct, `lEmitStructDecl` (src/header.cpp:135-182). -/
def members (D : DL) (v : Vb) (need : Bool) : Ms → Option CMs
  | .nil => some .nil
  | .cons shown t rest =>
    if printable shown t then
      match decl D v t, members D v need rest with
      | some c, some cs => some (.cons (memberAlign D v need t) (if expanded v t then .lanes D.W c else c) cs)
      | _, _            => none
    else none
end

/-! ## The order of the declarations -/

/-- A struct type as `EqualIgnoringConst` sees it: name and variability (src/type.cpp:3425-3439). -/
abbrev Key := Nat × Vb

/-- `lContainsPtrToVarying` (src/header.cpp:53-65). -/
def hasVarying (v : Vb) : Ms → Bool
  | .nil           => false
  | .cons _ t rest => t.vb v = .varying || hasVarying v rest

mutual
/-- `lEmitStructDecl` (src/header.cpp:71-98); `acc` is `emittedStructs`.  For a member it is called
with the struct `lGetElementStructType` finds (src/header.cpp:39-51). -/
def emit (unifs : Bool) (v : Vb) : Ty → List Key → List Key
  | .struct n _ x ms, acc =>
    if !unifs && !hasVarying (v.resolve x) ms then acc
    else if (n, v.resolve x) ∈ acc then acc
    else emits unifs (v.resolve x) ms acc ++ [(n, v.resolve x)]
  | .arr _ t, acc => emit unifs v t acc
  | _, acc => acc
/-- The loop over the members (src/header.cpp:89-94). -/
def emits (unifs : Bool) (v : Vb) : Ms → List Key → List Key
  | .nil, acc           => acc
  | .cons _ t rest, acc => emits unifs v rest (emit unifs v t acc)
end

/-- `lEmitStructDecls` (src/header.cpp:191-221). -/
def emitAll (unifs : Bool) (ts : List Ty) : List Key :=
  ts.foldl (fun acc t => emit unifs .uniform t acc) []

/-- The macro of the guard around a declaration, `__ISPC_STRUCT_<GetCStructName>__`
(src/header.cpp:100-101, src/type.cpp:2010-2019): the variability counts only if it is varying, and
then so does the gang size (src/type.cpp:1885-1912). -/
def guard (W : Nat) : Key → Nat × Option Nat
  | (n, .varying) => (n, some W)
  | (n, _)        => (n, none)

/-- What the preprocessor leaves of declarations with their guards: those whose guard was not yet
defined. -/
def visible (g : α → Nat × Option Nat) : List α → List α → List α
  | _, [] => []
  | seen, k :: ks =>
    if g k ∈ seen.map g then visible g seen ks else k :: visible g (k :: seen) ks

/-- `writeDispatchHeader` for the targets of a compilation, by their gang sizes
(src/header.cpp:1036-1078): the structs are written for the first target of each of the gang sizes 4,
8 and 16.  A declaration is its key with the gang size it was made for. -/
def dispatch (ts : List Ty) : List Nat → (done : List Nat) → List (Key × Nat)
  | [], _ => []
  | w :: ws, done =>
    if (w = 4 ∨ w = 8 ∨ w = 16) ∧ w ∉ done then
      ((emitAll done.isEmpty ts).map fun k => (k, w)) ++ dispatch ts ws (w :: done)
    else dispatch ts ws done

end Ispc.Header
