import Mathlib.Data.List.Basic
import Mathlib.Tactic.SplitIfs

/-!
# Integer and string literals

What the lexer and the parser make of an integer literal and of a string literal.  The text of a token is a list of
characters.
-/

namespace Ispc.Literal

/-- The digit that a character stands for in `strtoull` and `strtol`, up to base 36. -/
def digitOf (c : Char) : Option Nat :=
  let n := c.toNat
  if 48 ≤ n ∧ n ≤ 57 then some (n - 48)
  else if 97 ≤ n ∧ n ≤ 122 then some (n - 97 + 10)
  else if 65 ≤ n ∧ n ≤ 90 then some (n - 65 + 10)
  else none

/-- `strtoull` and `strtol` after the prefix: take digits as long as there are any.  Returns the number, of any size, and
the rest of the text. -/
def scanDigits (base : Nat) : List Char → Nat → Nat × List Char
  | [], v => (v, [])
  | c :: cs, v =>
    match digitOf c with
    | some d => if d < base then scanDigits base cs (v * base + d) else (v, c :: cs)
    | none => (v, c :: cs)

/-- The prefix that `strtoull` looks for when its base is 0: `0x` before a hexadecimal digit, else `0` for octal
numbers.  Text that begins with a space or a sign, which no token does, is left out. -/
def scanNumber : List Char → Nat × List Char
  | '0' :: x :: h :: cs =>
    if (x = 'x' ∨ x = 'X') ∧ (digitOf h).any (· < 16) then scanDigits 16 (h :: cs) 0
    else scanDigits 8 ('0' :: x :: h :: cs) 0
  | '0' :: cs => scanDigits 8 ('0' :: cs) 0
  | cs => scanDigits 10 cs 0

/-- `strtoull(text, &endPtr, 0)`: numbers that do not fit become `ULLONG_MAX`. -/
def strtoull (s : List Char) : BitVec 64 × List Char :=
  let r := scanNumber s
  (if r.1 < 2 ^ 64 then BitVec.ofNat 64 r.1 else BitVec.allOnes 64, r.2)

/-- `lParseBinary` (src/lex.ll:584-601), without its warning. -/
def parseBinary : List Char → BitVec 64 → BitVec 64 × List Char
  | [], v => (v, [])
  | c :: cs, v =>
    if c = '0' ∨ c = '1' then parseBinary cs (v <<< 1 ||| if c = '0' then 0 else 1) else (v, c :: cs)

/-- What the loop over the suffix collects. -/
structure Suf where
  kilo : Bool := false
  mega : Bool := false
  giga : Bool := false
  ls : Nat := 0
  us : Nat := 0
  deriving DecidableEq

/-- The loop over the characters after the number (src/lex.ll:621-635): `none` is the failure of the assertion, which
stops the compiler. -/
def scanSuffix (dotdotdot : Bool) : List Char → Suf → Option Suf
  | [], s => some s
  | c :: cs, s =>
    if c = 'k' then scanSuffix dotdotdot cs { s with kilo := true }
    else if c = 'M' then scanSuffix dotdotdot cs { s with mega := true }
    else if c = 'G' then scanSuffix dotdotdot cs { s with giga := true }
    else if c = 'l' ∨ c = 'L' then scanSuffix dotdotdot cs { s with ls := s.ls + 1 }
    else if c = 'u' ∨ c = 'U' then scanSuffix dotdotdot cs { s with us := s.us + 1 }
    else if dotdotdot ∧ c = '.' then scanSuffix dotdotdot cs s
    else none

/-- The kinds of integer tokens: `TOKEN_INT32_CONSTANT` and `TOKEN_INT32DOTDOTDOT_CONSTANT` are `⟨true, 32⟩`. -/
structure Tok where
  signed : Bool
  bits : Nat
  deriving DecidableEq

/-- The end of `lParseInteger` (src/lex.ll:643-694): the kind of token.  `width` is `getDataTypeWidth()` of the
target. -/
def token (width : Nat) (dotdotdot : Bool) (s : Suf) (v : BitVec 64) : Tok :=
  let us : Bool := s.us ≠ 0
  if dotdotdot then
    if s.ls ≥ 2 then ⟨!us, 64⟩
    else if s.ls = 1 then ⟨!us, 32⟩
    else if v &&& 0xffffffff = v then ⟨!us, 32⟩
    else ⟨!us, 64⟩
  else if s.ls ≥ 2 then ⟨!us, 64⟩
  else if s.ls = 1 then ⟨!us, 32⟩
  else if us then
    if v ≤ 0xffffffff then ⟨false, 32⟩ else ⟨false, 64⟩
  else if width = 8 ∧ v ≤ 0x7f then ⟨true, 8⟩
  else if width = 8 ∧ v ≤ 0xff then ⟨false, 8⟩
  else if width = 16 ∧ v ≤ 0x7fff then ⟨true, 16⟩
  else if width = 16 ∧ v ≤ 0xffff then ⟨false, 16⟩
  else if v ≤ 0x7fffffff then ⟨true, 32⟩
  else if v ≤ 0xffffffff then ⟨false, 32⟩
  else if v ≤ 0x7fffffffffffffff then ⟨true, 64⟩
  else ⟨false, 64⟩

/-- The number at the beginning of the text (src/lex.ll:608-619). -/
def number : List Char → BitVec 64 × List Char
  | '0' :: 'b' :: cs => parseBinary cs 0
  | cs => strtoull cs

/-- `lParseInteger` (src/lex.ll:604-695), up to the result of `token`. -/
def parseInteger (width : Nat) (dotdotdot : Bool) (text : List Char) : Option (BitVec 64 × Tok) := do
  let r := number text
  let s ← scanSuffix dotdotdot r.2 {}
  let v := r.1
  let v := if s.kilo then v * 1024 else v
  let v := if s.mega then v * (1024 * 1024) else v
  let v := if s.giga then v * (1024 * 1024 * 1024) else v
  some (v, token width dotdotdot s v)

/-- The value of the constant that the parser makes of a token (src/parse.yy:502-533, 2559-2576): the number is
converted to the type of the token. -/
def constant (r : BitVec 64 × Tok) : Int :=
  if r.2.signed then (r.1.setWidth r.2.bits).toInt else ((r.1.setWidth r.2.bits).toNat : Int)

/-! ## Strings -/

/-- `(char)strtol(str, &tail, base)`, for text that begins with no space or sign: numbers that do not fit become
`LONG_MAX`.  Without digits `tail` is `str`. -/
def strtolChar (base : Nat) (s : List Char) : BitVec 8 × List Char :=
  let r := scanDigits base s 0
  (BitVec.ofNat 8 (min r.1 (2 ^ 63 - 1)), r.2)

/-- The character after a backslash, where it is one of those that stand for one character
(src/lex.ll:989-999). -/
def simpleEscape (c : Char) : Option (BitVec 8) :=
  if c = '\'' then some 39
  else if c = '"' then some 34
  else if c = '?' then some 63
  else if c = '\\' then some 92
  else if c = 'a' then some 7
  else if c = 'b' then some 8
  else if c = 'f' then some 12
  else if c = 'n' then some 10
  else if c = 'r' then some 13
  else if c = 't' then some 9
  else if c = 'v' then some 11
  else none

/-- `lEscapeChar` (src/lex.ll:979-1018) on text that is not empty: the character, the rest, and whether an error has
been reported.  For `\x` the text given to `strtol` begins with the `x`; the text that follows is then the character
before `tail`, and what comes after it.  Simplification: characters of the source are single bytes. -/
def escapeChar : List Char → BitVec 8 × List Char × Bool
  | '\\' :: c :: cs =>
    match simpleEscape c with
    | some b => (b, cs, false)
    | none =>
      if (digitOf c).any (· < 8) then
        let r := strtolChar 8 (c :: cs)
        (r.1, r.2, false)
      else if c = 'x' then
        -- `strtol("x..", &tail, 16)` takes nothing: `tail - 1` is the backslash, and `++str` the `x`
        let r := strtolChar 16 (c :: cs)
        (r.1, r.2, false)
      else (0, cs, true)
  | c :: cs => (BitVec.ofNat 8 c.toNat, cs, false)
  | [] => (0, [], true)

/-- `lStringConst` (src/lex.ll:1025-1040) after the opening quote: the bytes up to the closing one, and whether an error
has been reported.  `fuel` bounds the number of characters; `none` means that the closing quote was not found. -/
def stringConst : Nat → List Char → Option (List (BitVec 8) × Bool)
  | 0, _ => none
  | fuel + 1, s =>
    match s with
    | '"' :: _ => some ([], false)
    | [] => none
    | s =>
      let r := escapeChar s
      (stringConst fuel r.2.1).map fun t => (r.1 :: t.1, r.2.2 || t.2)

end Ispc.Literal
