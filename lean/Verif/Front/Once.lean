/-!
# How often the operands of an expression are evaluated

`GetValue` and `GetLValue` of each kind of expression emit the code that
evaluates it.  The model follows which of the two they call on their operands,
in which order, and how often.  What is recorded is the sequence of effects
that the code has when it runs: calls of functions, and the stores of
assignments, `++` and `--`.

Left out: the values themselves, `new`, `sync`, `alloca` and lists of
expressions in braces.  The conversions that the compiler adds are the nodes
`un` (a conversion of a value), `castPtr` and `refOf`.
-/

namespace Ispc.Once

/-- An effect, with the place in the source that has it. -/
inductive Ev where
  | call (f : Nat)
  | store (s : Nat)
deriving DecidableEq, Repr

/-- What an indexed expression is: a pointer, an array or short vector, or a
reference to one of these. -/
inductive Base where
  | ptr | seq | ref
deriving DecidableEq, Repr

mutual

/-- Expressions.  `call f r as` returns a reference if `r`.  `member` has one
letter or a name, `swizzle` several letters; both are `->` if `arrow`.  `addr`
is `&`, of an expression of reference type if `r`; `refOf` is the reference
that a parameter is bound to; `step` is `++` or `--`, of an expression of
reference type if `r`.  `assign` stands for `=`, `+=` and the like.  `cond`
stands for `?:`, and for `&&` and `||` with a constant as one branch. -/
inductive E where
  | const
  | sym (x : Nat)
  | call (f : Nat) (r : Bool) (as : Es)
  | un (e : E)
  | bin (a b : E)
  | castPtr (e : E)
  | index (k : Base) (b i : E)
  | member (arrow : Bool) (e : E)
  | swizzle (arrow : Bool) (e : E)
  | deref (e : E)
  | addr (r : Bool) (e : E)
  | refOf (e : E)
  | step (s : Nat) (r : Bool) (e : E)
  | assign (s : Nat) (l e : E)
  | cond (s : Nat) (t a b : E)

/-- Lists of arguments. -/
inductive Es where
  | nil
  | cons (e : E) (es : Es)

end

/-- Which branches of each `cond` run: one of them for a `uniform` test, any
for a `varying` one.  A simplification: each place picks the same way whenever
it is evaluated. -/
abbrev Picks := Nat → Bool × Bool

mutual

/-- `GetLValue`: the effects, and whether the result is an address
(`nullptr` otherwise).  src/expr.cpp:80-83 (most expressions have none),
4296-4303 (calls), 5191-5255 (indexing), 5735-5741 and 6045-6074 (members),
8036-8042 (casts), 8535-8540 (`*`), 9109-9115 (variables). -/
def lv (o : Picks) : E → List Ev × Bool
  | .const => ([], false)
  | .sym _ => ([], true)
  | .call f r as => if r then (vals o as ++ [.call f], true) else ([], false)
  | .un _ => ([], false)
  | .bin _ _ => ([], false)
  | .castPtr e => (val o e, true)
  | .index k b i => match k with
    | .ptr => (val o i ++ val o b, true)
    | .ref => (val o i ++ val o b, true)
    | .seq => (val o i ++ (lv o b).1, (lv o b).2)
  | .member arrow e => if arrow then (val o e, true) else lv o e
  | .swizzle _ _ => ([], false)
  | .deref e => (val o e, true)
  | .addr _ _ => ([], false)
  | .refOf _ => ([], false)
  | .step _ _ _ => ([], false)
  | .assign _ _ _ => ([], false)
  | .cond _ _ _ _ => ([], false)

/-- `GetValue`: the effects.  src/expr.cpp:9091-9107 (variables), 4170-4294
(calls), 1318-1346 and 1275-1292 (unary operators), 2293-2346 (binary
operators), 7707-8034 (casts), 5003-5063 (indexing), 5994-6037 and 5786-5862
(members), 8508-8533 (`*`), 8729-8741 (`&`), 8396-8425 (references), 1205-1271
(`++` and `--`), 3438-3504 and 3371-3431 (assignments), 3770-3896 (`?:`). -/
def val (o : Picks) : E → List Ev
  | .const => []
  | .sym _ => []
  | .call f _ as => vals o as ++ [.call f]
  | .un e => val o e
  | .bin a b => val o a ++ val o b
  | .castPtr e => val o e
  | .index k b i => match k with
    | .ptr => val o i ++ val o b
    | .ref => val o i ++ val o b
    | .seq => if (lv o b).2 then val o i ++ (lv o b).1
      else val o i ++ (lv o b).1 ++ val o b ++ val o i
  | .member arrow e =>
    if arrow then val o e else if (lv o e).2 then (lv o e).1 else (lv o e).1 ++ val o e
  | .swizzle arrow e =>
    if arrow then val o e else if (lv o e).2 then (lv o e).1 else (lv o e).1 ++ val o e
  | .deref e => val o e
  | .addr r e => if r then val o e else (lv o e).1
  | .refOf e => if (lv o e).2 then (lv o e).1 else (lv o e).1 ++ val o e
  | .step s r e => if r then val o e ++ val o e ++ [.store s]
    else (lv o e).1 ++ val o e ++ [.store s]
  | .assign s l e => (lv o l).1 ++ val o e ++ [.store s]
  | .cond s t a b => val o t ++ (if (o s).1 then val o a else []) ++
    (if (o s).2 then val o b else [])

/-- The arguments of a call, src/expr.cpp:4245-4262. -/
def vals (o : Picks) : Es → List Ev
  | .nil => []
  | .cons e es => val o e ++ vals o es

end

mutual

/-- The expressions that pass the type checks: what is assigned to, stepped or
has its address taken has an address (src/expr.cpp:3375-3381, 3449-3454,
1228-1234, 8808-8829). -/
def ok (o : Picks) : E → Bool
  | .const => true
  | .sym _ => true
  | .call _ _ as => oks o as
  | .un e => ok o e
  | .bin a b => ok o a && ok o b
  | .castPtr e => ok o e
  | .index _ b i => ok o b && ok o i
  | .member _ e => ok o e
  | .swizzle _ e => ok o e
  | .deref e => ok o e
  | .addr r e => ok o e && (r || (lv o e).2)
  | .refOf e => ok o e
  | .step _ r e => ok o e && (r || (lv o e).2)
  | .assign _ l e => ok o l && ok o e && (lv o l).2
  | .cond _ t a b => ok o t && ok o a && ok o b

def oks (o : Picks) : Es → Bool
  | .nil => true
  | .cons e es => ok o e && oks o es

end

end Ispc.Once
