/-!
# Splitting ISPC_ARGS and @files into arguments

`ArgFactory::GetNextArg`, the two character sources and the functions that
put the arguments together, src/args.cpp:289-443.

Simplifications.  Characters are Lean's `Char`; a string or file is the list
of its characters.  A directory can be opened but not read, so to `fopen` and
`fgetc` it is an empty file.  The files do not change while they are read, and
reading does not fail in the middle.
-/

namespace Ispc.Args

/-- `isspace` in the C locale. -/
def isSpace (c : Char) : Bool :=
  c == ' ' || c == '\t' || c == '\n' || c == '\r' || c == '\x0b' || c == '\x0c'

/-- `ArgFactory::GetNextArg`, src/args.cpp:308-311: the white space before an argument. -/
def skip : List Char → List Char
  | [] => []
  | c :: cs => if isSpace c then skip cs else c :: cs

/-- `ArgFactory::GetNextArg`, src/args.cpp:318-332: the characters of the argument, and what has not
been read.  `GetNextChar` gives NUL at the end, src/args.cpp:343-350, 361-369; a NUL inside a file has
been read as well. -/
def collect (dq sq : Bool) : List Char → List Char × List Char
  | [] => ([], [])
  | c :: cs =>
    if c == '\x00' then ([], cs)
    else if isSpace c && !dq && !sq then ([], cs)
    else if c == '"' && !sq then collect (!dq) sq cs
    else if c == '\'' && !dq then collect dq (!sq) cs
    else (c :: (collect dq sq cs).1, (collect dq sq cs).2)

/-- `ArgFactory::GetNextArg`, src/args.cpp:302-335: the next argument and what is left; none at the
end or at a NUL. -/
def nextArg (s : List Char) : Option (List Char × List Char) :=
  match skip s with
  | [] => none
  | c :: cs => if c == '\x00' then none else some (collect false false (c :: cs))

/-- The loop of `lAddArgsFromFactory`, src/args.cpp:381-389, for at most so many arguments. -/
def splitUpTo : Nat → List Char → List (List Char)
  | 0, _ => []
  | k + 1, s =>
    match nextArg s with
    | none => []
    | some (a, r) => a :: splitUpTo k r

/-- `lAddArgsFromFactory`, src/args.cpp:381-389: every argument takes at least one character. -/
def split (s : List Char) : List (List Char) := splitUpTo s.length s

/-- `lAddSingleArg`, src/args.cpp:407-425: `files` are the files that can be opened, with their
contents, and `fds` is how many more files the process can have open.  (A file stays open while the
files its arguments name are read.) -/
def addArg (files : List Char → Option (List Char)) : Nat → List Char → List (List Char)
  | 0, a => [a]
  | fds + 1, a =>
    match a with
    | '@' :: name =>
      match files name with
      | some text => (split text).flatMap (addArg files fds)
      | none => [a]
    | _ => [a]

/-- `GetAllArgs`, src/args.cpp:432-443. -/
def allArgs (files : List Char → Option (List Char)) (fds : Nat) (argv : List (List Char))
    (env : Option (List Char)) : List (List Char) :=
  argv.flatMap (addArg files fds) ++
    match env with
    | none => []
    | some s => (split s).flatMap (addArg files fds)

end Ispc.Args
