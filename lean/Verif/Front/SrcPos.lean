import Verif.Front.Literal

/-!
# Places in the source, pragmas, and which messages are reported

The part of the lexer of `src/lex.ll` that counts lines and columns: comments, pragmas, the line markers that the
preprocessor leaves, new lines and blanks, and tokens, whose length is a parameter of the model (`tok`).  The table of
lines for which warnings are turned off, and the functions of `src/util.cpp` that report errors and warnings.

Texts have no NUL characters.
-/

namespace Ispc.SrcPos

/-- `last_line`, `last_column` and `name` of `yylloc` (src/ispc.h:170-177): the place of the next character.  The first line
and column of a token are these values when its rule begins (src/lex.ll:35-38).  Numbers that do not fit an `int` are left
out. -/
structure Pos where
  line : Int
  col : Nat
  name : List Char
  deriving DecidableEq

/-- `last_line++; last_column = 1` (src/lex.ll:559-560, 728-729). -/
def Pos.nl (p : Pos) : Pos := { p with line := p.line + 1, col := 1 }

/-- `last_column += yyleng` (src/lex.ll:38). -/
def Pos.adv (p : Pos) (n : Nat) : Pos := { p with col := p.col + n }

/-- `lCComment` (src/lex.ll:720-736), after `/*`: the place and the rest behind the comment, and whether it was closed. -/
def cComment : Option Char → Pos → List Char → Pos × List Char × Bool
  | _, p, [] => (p, [], false)
  | prev, p, c :: cs =>
    let p := if c = '\n' then p.nl else p.adv 1
    if c = '/' ∧ prev = some '*' then (p, cs, true) else cComment (some c) p cs

/-- `lCppComment` (src/lex.ll:921-931), after `//`. -/
def cppComment : Pos → List Char → Pos × List Char
  | p, [] => (p, [])
  | p, c :: cs => if c = '\n' then (p.nl, cs) else cppComment p cs

/-- `WHITESPACE` (src/lex.ll:292), and the characters that `lNextValidChar` skips (src/lex.ll:738-743). -/
def blank (c : Char) : Bool := c == ' ' || c == '\t' || c == '\r'

/-- `lNextValidChar` (src/lex.ll:738-743). -/
def skip (t : List Char) : List Char := t.dropWhile blank

/-- What `lPragmaIgnoreWarning` decides. -/
inductive Ignore
  | all | perf
  /-- "Incorrect argument for '#pragma ignore warning()'." -/
  | badArg
  /-- "Incomplete '#pragma ignore warning()' : expected ')'." -/
  | incomplete
  /-- "Undefined #pragma." -/
  | undefined
  deriving DecidableEq

/-- The end of `lPragmaIgnoreWarning` (src/lex.ll:840-864), behind the word in parentheses and blanks. -/
def ignoreEnd (w : List Char) : List Char → Ignore
  | [] => .undefined
  | c :: q =>
    if c = ')' then
      if skip q = [] then
        if w = ['p', 'e', 'r', 'f'] then .perf
        else if w = ['a', 'l', 'l'] then .all
        else .badArg
      else .undefined
    else .undefined

/-- `lPragmaIgnoreWarning` behind the parenthesis (src/lex.ll:832-871). -/
def ignorePar (r : List Char) : Ignore :=
  let r := skip r
  let w := r.takeWhile fun c => c ≠ ' ' && c ≠ ')'
  let q := r.dropWhile fun c => c ≠ ' ' && c ≠ ')'
  if q = [] then .incomplete else ignoreEnd w (skip q)

/-- `lPragmaIgnoreWarning` (src/lex.ll:818-873).  The text is what follows `ignore warning`, up to the end of the line; the end
of the list is the new line character. -/
def ignoreText (t : List Char) : Ignore :=
  match skip t with
  | [] => .all
  | c :: r => if c = '(' then ignorePar r else .undefined

/-- What a loop is asked to do. -/
inductive Unroll
  | full
  | count (n : BitVec 32)
  deriving DecidableEq

/-- The errors of `lPragmaUnroll`. -/
inductive UnrollErr
  /-- "'#pragma unroll()' invalid value '0'; must be positive." -/
  | zero
  /-- "Incomplete '#pragma unroll()' : expected ')'." -/
  | incomplete
  deriving DecidableEq

/-- `strtoull(t, &endPtr, 0)` with the blanks and the sign that it accepts before the number: its value, and the text at
`endPtr`; `endPtr` is `t` when there is no number. -/
def strtoull (t : List Char) : BitVec 64 × List Char :=
  let u := t.dropWhile fun c => blank c || c == '\x0b' || c == '\x0c'
  match u with
  | '-' :: d :: v => if d.isDigit then (-(Literal.strtoull (d :: v)).1, (Literal.strtoull (d :: v)).2) else (0, t)
  | '+' :: d :: v => if d.isDigit then Literal.strtoull (d :: v) else (0, t)
  | d :: v => if d.isDigit then Literal.strtoull (d :: v) else (0, t)
  | [] => (0, t)

/-- `lPragmaUnroll` (src/lex.ll:747-814) for `#pragma unroll`.  The text is what follows `unroll`. -/
def unrollText (t : List Char) : Unroll × List UnrollErr :=
  match skip t with
  | [] => (.full, [])
  | c :: r =>
    let par : Bool := c = '('
    let r := if par then r else c :: r
    let n := strtoull r
    let count := n.1.setWidth 32
    let e := if count = 0 ∧ n.2 ≠ r then [UnrollErr.zero] else []
    let q := skip n.2
    let e' := if par ∧ q.head? ≠ some ')' then [UnrollErr.incomplete] else []
    (.count count, e ++ e')

/-- What a pragma is. -/
inductive Pragma
  /-- nothing behind `#pragma` -/
  | nothing
  | unroll (u : Unroll) (errs : List UnrollErr)
  /-- `extra`: "extra tokens at end of '#pragma nounroll'." -/
  | nounroll (extra : Bool)
  | ignore (r : Ignore)
  /-- "unknown pragma ignored." -/
  | unknown
  deriving DecidableEq

def wUnroll : List Char := ['u', 'n', 'r', 'o', 'l', 'l']
def wNounroll : List Char := ['n', 'o', 'u', 'n', 'r', 'o', 'l', 'l']
def wIgnore : List Char := ['i', 'g', 'n', 'o', 'r', 'e', ' ', 'w', 'a', 'r', 'n', 'i', 'n', 'g']

/-- `lConsumePragma` (src/lex.ll:878-917): the text of the line behind `#pragma`, without the new line character. -/
def classify (t : List Char) : Pragma :=
  let u := skip t
  if u = [] then .nothing
  else if u.take wUnroll.length = wUnroll then
    let r := unrollText (u.drop wUnroll.length)
    .unroll r.1 r.2
  else if u.take wNounroll.length = wNounroll then .nounroll (skip (u.drop wNounroll.length) ≠ [])
  else if u.take wIgnore.length = wIgnore then .ignore (ignoreText (u.drop wIgnore.length))
  else .unknown

/-- Whether the code for a pragma counts the new line that it has consumed (src/lex.ll:757-764, 771-775, 812-813, 825-827,
847-848, 866-868, 885-889; not 873, 914-916). -/
def Pragma.counted : Pragma → Bool
  | .ignore .undefined | .unknown => false
  | _ => true

/-- Whether an error is reported for a pragma. -/
def Pragma.error : Pragma → Bool
  | .ignore .all | .ignore .perf | .nothing | .nounroll _ | .unknown => false
  | .unroll _ e => e ≠ []
  | .ignore _ => true

/-- The line up to the new line character, and the text behind it. -/
def splitLine : List Char → Option (List Char × List Char)
  | [] => none
  | c :: cs => if c = '\n' then some ([], cs) else (splitLine cs).map fun r => (c :: r.1, r.2)

/-- The text behind the closing quotation mark of a string, by the pattern `(\\.|[^\\"])*\"`. -/
def strEnd : List Char → Option (List Char)
  | [] => none
  | '"' :: cs => some cs
  | '\\' :: c :: cs => if c = '\n' then none else strEnd cs
  | ['\\'] => none
  | _ :: cs => strEnd cs

/-- `strtol` of decimal digits. -/
def decimal (ds : List Char) : Nat := ds.foldl (fun v c => v * 10 + (c.toNat - 48)) 0

/-- The rule for line markers, `#(line)?[ ][0-9]+[ ]\"(\\.|[^\\"])*\"[^\n]*` (src/lex.ll:563), with what `lHandleCppHash` reads
from the text (src/lex.ll:937-970): the number, the file name, and the text behind the marker. -/
def marker? : List Char → Option (Nat × List Char × List Char)
  | '#' :: r =>
    let r := if r.take 4 = ['l', 'i', 'n', 'e'] then r.drop 4 else r
    match r with
    | ' ' :: r =>
      let ds := r.takeWhile Char.isDigit
      match r.dropWhile Char.isDigit with
      | ' ' :: '"' :: q =>
        if ds = [] then none
        else (strEnd q).map fun e => (decimal ds, q.takeWhile (· ≠ '"'), e.dropWhile (· ≠ '\n'))
      | _ => none
    | _ => none
  | _ => none

/-- The lexer: the place, the input, and `turnOffWarnings` (src/ispc.h:940), where `some true` is for performance warnings
only. -/
structure Lx where
  pos : Pos
  inp : List Char
  off : Int × List Char → Option Bool

/-- What a rule of the lexer did. -/
inductive Did
  | comment
  | newline
  | blanks
  | marker (n : Nat) (name : List Char)
  | pragma (p : Pragma)
  | token (text : List Char)
  /-- "Illegal character" -/
  | illegal (c : Char)

/-- One step of the lexer. -/
inductive Out
  /-- end of the input -/
  | done
  /-- a loop without end -/
  | hang
  /-- a failed assertion -/
  | crash
  | go (d : Did) (x : Lx)

/-- The table after a pragma (src/lex.ll:828-829, 849-857): the key is the line after that of the pragma. -/
def turnOff (p : Pos) (off : Int × List Char → Option Bool) : Pragma → Int × List Char → Option Bool
  | .ignore .all => fun k => if k = (p.line + 1, p.name) then some false else off k
  | .ignore .perf => fun k => if k = (p.line + 1, p.name) then some true else off k
  | _ => off

/-- The rule for `#pragma` (src/lex.ll:311-315, 878-917); `yyinput` gives 0 at the end of the input, for ever.  When the line is
not counted the column is that behind the blanks (simplified for "Undefined #pragma."). -/
def pragmaStep (x : Lx) (r : List Char) : Out :=
  match splitLine r with
  | none => .hang
  | some (t, rest) =>
    let p := classify t
    .go (.pragma p)
      { pos := if p.counted then x.pos.nl else x.pos.adv (8 + (t.takeWhile blank).length)
        inp := rest
        off := turnOff x.pos x.off p }

def wPragma : List Char := ['#', 'p', 'r', 'a', 'g', 'm', 'a']

/-- The rules of the lexer (src/lex.ll:309-570).  `tok` gives the length of the longest match of the rules for tokens
(src/lex.ll:318-554), 0 if there is none. -/
def step (tok : List Char → Nat) (x : Lx) : Out :=
  match x.inp with
  | [] => .done
  | '\n' :: r => .go .newline { x with pos := x.pos.nl, inp := r }
  | '/' :: '*' :: r =>
    let c := cComment none (x.pos.adv 2) r
    .go .comment { x with pos := c.1, inp := c.2.1 }
  | '/' :: '/' :: r =>
    let c := cppComment (x.pos.adv 2) r
    .go .comment { x with pos := c.1, inp := c.2 }
  | c :: r =>
    if blank c then
      .go .blanks { x with pos := x.pos.adv ((c :: r).takeWhile blank).length, inp := (c :: r).dropWhile blank }
    else if (c :: r).take wPragma.length = wPragma then pragmaStep x ((c :: r).drop wPragma.length)
    else
      match marker? (c :: r) with
      | some (n, name, rest) =>
        if '\n' ∈ name then .crash
        else .go (.marker n name) { x with pos := ⟨n - 1, 1, name⟩, inp := rest }
      | none =>
        let n := tok (c :: r)
        -- `YY_USER_ACTION` a second time (src/lex.ll:567-570)
        if n = 0 then .go (.illegal c) { x with pos := x.pos.adv 2, inp := r }
        else .go (.token ((c :: r).take n)) { x with pos := x.pos.adv n, inp := (c :: r).drop n }

/-! ## Messages -/

/-- `SourcePos` (src/ispc.h:170-177). -/
structure Range where
  name : List Char
  firstLine : Int
  firstCol : Int
  lastLine : Int
  lastCol : Int
  deriving DecidableEq

/-- `Union` (src/ispc.cpp:3559-3571). -/
def Range.union (p1 p2 : Range) : Range :=
  if p1.name ≠ p2.name then p1
  else
    { name := p1.name
      firstLine := min p1.firstLine p2.firstLine
      firstCol := min p1.firstCol p2.firstCol
      lastLine := max p1.lastLine p2.lastLine
      lastCol := max p1.lastCol p2.lastCol }

/-- `YYLLOC_DEFAULT` for a rule with at least one symbol (src/parse.yy:40-49): from the first symbol to the last. -/
def Range.span (p1 pn : Range) : Range :=
  { name := p1.name, firstLine := p1.firstLine, firstCol := p1.firstCol, lastLine := pn.lastLine, lastCol := pn.lastCol }

/-- The options `--werror`, `--woff` (src/args.cpp:992-996), `--wno-perf` (src/args.cpp:1012-1013), `--error-limit` and
`--quiet`. -/
structure Opts where
  werror : Bool := false
  /-- `disableWarnings` -/
  woff : Bool := false
  /-- `emitPerfWarnings` -/
  perf : Bool := true
  quiet : Bool := false
  limit : Option Nat := none

inductive Kind
  | error | warning | perf
  deriving DecidableEq

/-- A call of `Error`, `Warning` or `PerformanceWarning`. -/
structure Msg where
  kind : Kind
  pos : Range
  text : List Char
  deriving DecidableEq

/-- `m->errorCount`, and the messages written, latest first.  (That a message is not written again when the same text has
been written before, src/util.cpp:349-357, is modelled in `lPrint`.) -/
structure Rep where
  errors : Nat := 0
  written : List Msg := []

/-- `lPrint` (src/util.cpp:319-364): the text of a message holds its kind, file, first line, first column and wording.
Simplified: messages are compared as a whole. -/
def Rep.print (r : Rep) (m : Msg) : Rep :=
  if m ∈ r.written then r else { r with written := m :: r.written }

def wStdlib : List Char := ['s', 't', 'd', 'l', 'i', 'b', '.', 'i', 's', 'p', 'c']

/-- `Error`, `Warning` and `PerformanceWarning` (src/util.cpp:366-440); `m` is not null. -/
def report (o : Opts) (off : Int × List Char → Option Bool) (r : Rep) (m : Msg) : Rep :=
  match m.kind with
  | .error =>
    let r := { r with errors := r.errors + 1 }
    if o.limit.any (· ≤ r.errors - 1) then r
    else if o.quiet then r
    else r.print m
  | .warning =>
    if off (m.pos.lastLine, m.pos.name) = some false then r
    else
      let r := if o.werror then { r with errors := r.errors + 1 } else r
      if o.woff ∨ o.quiet then r else r.print m
  | .perf =>
    if !o.perf ∨ wStdlib <:+ m.pos.name ∨ o.quiet then r
    else if off (m.pos.lastLine, m.pos.name) ≠ none then r
    else
      let r := if o.werror then { r with errors := r.errors + 1 } else r
      r.print m

/-- All the messages of a compilation. -/
def reports (o : Opts) (off : Int × List Char → Option Bool) (ms : List Msg) : Rep :=
  ms.foldl (report o off) {}

end Ispc.SrcPos
