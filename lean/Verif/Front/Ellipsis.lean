import Mathlib.Tactic.Common

/-!
# C91: spaces before ranges

A model of `lFixDotDotDotSpacing` of `src/preprocessor.cpp`. Before the preprocessor runs, `0...MAXI` is written as
`0 ...MAXI`, since the preprocessor would take all of it for one number. The text comes cut into pieces by the lexer of
Clang: tokens, comments and white space, with a flag for the numbers. Escaped line ends within a token are left out.
-/

namespace Ispc.Ellipsis

/-- Letters and the underscore (`isAsciiIdentifierStart` of Clang). -/
def isStart (c : Char) : Bool := c.isAlpha || c == '_'

/-- The text begins with three dots. Models no lines of ispc. -/
def dots : List Char → Bool
  | '.' :: '.' :: '.' :: _ => true
  | _ => false

/-- `StringRef::find("...", start)` of LLVM: the first place with three dots, from `start` on. -/
def find (s : List Char) (start : Nat) : Option Nat :=
  (List.range s.length).find? fun p => start ≤ p && dots (s.drop p)

/-- The loop over the places with three dots in a number (src/preprocessor.cpp:403-412). `fuel` bounds the recursion. -/
def scan (s : List Char) : Nat → Option Nat → Option Nat
  | 0, _ => none
  | _, none => none
  | fuel + 1, some p =>
    if p + 3 < s.length && ((s[p + 3]?).map isStart == some true) then some p
    else scan s fuel (find s (p + 1))

/-- Where a number gets a space (src/preprocessor.cpp:398-412). -/
def place (s : List Char) : Option Nat := scan s (s.length + 1) (find s 0)

/-- A piece of the text: is it a number, and what it says. Models no lines of ispc. -/
abbrev Piece := Bool × List Char

/-- The offsets that get a space (src/preprocessor.cpp:387-413). -/
def insertions : List Piece → Nat → List Nat
  | [], _ => []
  | (num, t) :: ps, off =>
    (if num then
      match place t with
      | some p => [off + p]
      | none => []
    else []) ++ insertions ps (off + t.length)

/-- The text with the spaces (src/preprocessor.cpp:420-439). -/
def build (src : List Char) : List Nat → Nat → List Char
  | [], pos => src.drop pos
  | e :: es, pos => (src.drop pos).take (e - pos) ++ ' ' :: (src.drop e).take 3 ++ build src es (e + 3)

/-- `lFixDotDotDotSpacing` (src/preprocessor.cpp:382-440). -/
def fix (ps : List Piece) : List Char :=
  let src := ps.flatMap (·.2)
  let ins := insertions ps 0
  if ins = [] then src else build src ins 0

/-! ## The lexer of the preprocessor -/

/-- Characters of identifiers (C standard, 6.4.2.1). -/
def isBody (c : Char) : Bool := isStart c || c.isDigit

/-- How far a preprocessing number goes after the character `prev` (C standard, 6.4.8). -/
def munch (prev : Char) : List Char → List Char × List Char
  | [] => ([], [])
  | c :: r =>
    if isBody c || c == '.' || ((c == '+' || c == '-') && (prev == 'e' || prev == 'E' || prev == 'p' || prev == 'P')) then
      (c :: (munch c r).1, (munch c r).2)
    else ([], c :: r)

/-- Kinds of tokens. Models no lines of ispc. -/
inductive Kind where
  | number | ellipsis | ident | space | other
  deriving DecidableEq, Repr

/-- The first token of a text and the rest (C standard, 6.4). Comments, strings and longer operators are left out. -/
def lexOne : List Char → Option (Kind × List Char × List Char)
  | [] => none
  | c :: r =>
    if c.isDigit then some (.number, c :: (munch c r).1, (munch c r).2)
    else if c == '.' && (r.head?.map Char.isDigit == some true) then some (.number, c :: (munch c r).1, (munch c r).2)
    else if dots (c :: r) then some (.ellipsis, ['.', '.', '.'], r.drop 2)
    else if isStart c then some (.ident, c :: r.takeWhile isBody, r.dropWhile isBody)
    else if c == ' ' then some (.space, [c], r)
    else some (.other, [c], r)

end Ispc.Ellipsis
