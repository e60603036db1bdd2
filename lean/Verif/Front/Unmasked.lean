import Mathlib.Tactic.Common

/-!
# C93: the mask around unmasked blocks

A model of how `unmasked` blocks and the statements after them are compiled (`src/stmt.cpp`, `src/ctx.cpp`). The mask
of the function is a value that the compiler keeps while it emits code, not one in memory: `unmasked` sets it to "all
on" and sets it back at the end. Only uniform control flow is modelled, where the internal mask is all on; `switch`,
`goto` and Xe are left out. Conditions are read one after the other, so that they can change from one iteration of a
loop to the next.
-/

namespace Ispc.Unmasked

/-- Statements: a store of a varying value to memory that is not a local variable, `return`, `break`, `continue`, a
    sequence, a uniform `if` and a uniform loop on the condition `c`, an `unmasked` block. Models no lines of ispc. -/
inductive Stmt where
  | store (x : Nat)
  | ret
  | brk
  | cont
  | seq (a b : Stmt)
  | ifUniform (c : Nat) (a b : Stmt)
  | loop (c : Nat) (s : Stmt)
  | unmasked (s : Stmt)
  deriving DecidableEq, Repr

/-- Emitted code; a store is for all program instances or for those of the mask of the function. Models no lines of
    ispc. -/
inductive Code where
  | nop
  | store (x : Nat) (allOn : Bool)
  | ret
  | brk
  | cont
  | seq (a b : Code)
  | branch (c : Nat) (a b : Code)
  | loop (c : Nat) (s : Code)
  deriving DecidableEq, Repr

/-- What the compiler keeps: is there a current block, and is the mask of the function "all on"
    (`functionMaskValue`, src/ctx.cpp:433-453). -/
structure State where
  cur : Bool
  allOn : Bool
  deriving DecidableEq, Repr

/-- The emission of statements: stores with `GetFullMask` (src/ctx.cpp:437-440), `return` under uniform control flow
    (src/stmt.cpp:3255-3258, src/ctx.cpp:1325-1333), `break` and `continue` (src/ctx.cpp:695-701,
    src/ctx.cpp:756-765), lists (src/stmt.cpp:3467-3476), uniform `if` (src/stmt.cpp:528-563), uniform loops
    (src/stmt.cpp:1165-1324; without the initializer and the step, and `break` and `continue` outside of loops, which
    are errors, are not refused) and `unmasked` (src/stmt.cpp:3195-3223). -/
def emit : Stmt → State → Code × State
  | .store x, st => if !st.cur then (.nop, st) else (.store x st.allOn, st)
  | .ret, st => if !st.cur then (.nop, st) else (.ret, { st with cur := false })
  | .brk, st => if !st.cur then (.nop, st) else (.brk, { st with cur := false })
  | .cont, st => if !st.cur then (.nop, st) else (.cont, { st with cur := false })
  | .seq a b, st =>
    let x := emit a st
    let y := emit b x.2
    (.seq x.1 y.1, y.2)
  | .ifUniform c a b, st =>
    if !st.cur then (.nop, st)
    else
      let x := emit a { st with cur := true }
      let y := emit b { x.2 with cur := true }
      (.branch c x.1 y.1, { y.2 with cur := true })
  | .loop c s, st =>
    if !st.cur then (.nop, st)
    else
      let x := emit s { st with cur := true }
      (.loop c x.1, { x.2 with cur := true })
  | .unmasked s, st =>
    if !st.cur then (.nop, st)
    else
      let x := emit s { st with allOn := true }
      if !x.2.cur then x else (x.1, { x.2 with allOn := st.allOn })

/-- The emitted code of a function with a mask. Models no lines of ispc. -/
def compile (body : Stmt) : Code := (emit body ⟨true, false⟩).1

/-- How execution goes on; `stuck` is a loop that has not ended. Models no lines of ispc. -/
inductive How where
  | on | brk | cont | ret | stuck
  deriving DecidableEq, Repr

/-- The stores with their program instances, how execution goes on, and how many conditions were read. Models no lines of
    ispc. -/
structure Res (n : Nat) where
  log : List (Nat × (Fin n → Bool))
  how : How
  time : Nat

/-- One after the other: the second only if execution goes on. Models no lines of ispc. -/
def Res.andThen {n : Nat} (r : Res n) (f : Nat → Res n) : Res n :=
  if r.how = .on then ⟨r.log ++ (f r.time).log, (f r.time).how, (f r.time).time⟩ else r

/-- At most `fuel` iterations of a loop with the given body. Models no lines of ispc. -/
def iterate {n : Nat} (env : Nat → Nat → Bool) (c : Nat) (body : Nat → Res n) : Nat → Nat → Res n
  | 0, t => ⟨[], .stuck, t⟩
  | fuel + 1, t =>
    if env c t then
      let r := body (t + 1)
      match r.how with
      | .on | .cont => Res.andThen { r with how := .on } (iterate env c body fuel)
      | .brk => { r with how := .on }
      | .ret | .stuck => r
    else ⟨[], .on, t + 1⟩

/-- The effect of emitted code, for the conditions `env`, which depend on the time, and the mask `m` of the function.
    Models no lines of ispc. -/
def exec {n : Nat} (env : Nat → Nat → Bool) (m : Fin n → Bool) (fuel : Nat) : Code → Nat → Res n
  | .nop, t => ⟨[], .on, t⟩
  | .store x allOn, t => ⟨[(x, if allOn then fun _ => true else m)], .on, t⟩
  | .ret, t => ⟨[], .ret, t⟩
  | .brk, t => ⟨[], .brk, t⟩
  | .cont, t => ⟨[], .cont, t⟩
  | .seq a b, t => (exec env m fuel a t).andThen (exec env m fuel b)
  | .branch c a b, t => if env c t then exec env m fuel a (t + 1) else exec env m fuel b (t + 1)
  | .loop c s, t => iterate env c (exec env m fuel s) fuel t

end Ispc.Unmasked
