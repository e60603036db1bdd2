import Verif.Spmd.Syntax

/-!
# Specification: one program instance executed as ordinary serial C code

This is the reference semantics of docs/ispc.rst ("the same results as if each program instance ran on its
own"): a big-step semantics with no mask, no gang and no compile-time context.  `l` is `programIndex`.
The flags `coh`, `pred`, `chk` of the syntax are ignored.
-/

namespace Ispc.Spmd

/-- State of one program instance: its own copy of the uniform variables, its local arrays and its external
arrays. -/
structure SSt where
  u : Nat → Int
  loc : Nat → Int → Int
  ext : Nat → Int → Int

/-- How a statement ends. -/
inductive SOut where
  | normal
  | brk
  | cont
  | ret (v : Int)

/-- The memory an expression reads from. -/
def SSt.mem (s : SSt) : Bool → Nat → Int → Int := fun b => if b then s.ext else s.loc

/-- Value of an expression in a serial state. -/
def SSt.eval (s : SSt) (l : Nat) (e : Expr) : Int := e.eval s.u s.mem l

/-- `f[a][i] := v`. -/
def upd2 (f : Nat → Int → Int) (a : Nat) (i v : Int) : Nat → Int → Int :=
  fun a' i' => if a' = a ∧ i' = i then v else f a' i'

/-- `f[x] := v`. -/
def upd1 (f : Nat → Int) (x : Nat) (v : Int) : Nat → Int := fun y => if y = x then v else f y

/-- Store to a varying variable. -/
def SSt.store (s : SSt) (ext : Bool) (a : Nat) (i v : Int) : SSt :=
  if ext then { s with ext := upd2 s.ext a i v } else { s with loc := upd2 s.loc a i v }

/-- State on entry to a called function: parameters are its first variables; other variables start at 0. -/
def SSt.enter (s : SSt) (l : Nat) (us vs : List Expr) : SSt where
  u := fun x => (us.map (fun e => s.eval l e)).getD x 0
  loc := fun a i => if i = 0 then (vs.map (fun e => s.eval l e)).getD a 0 else 0
  ext := s.ext

/-- Value of a call given how the callee's body ended; falling off the end yields 0 (an unspecified value in C). -/
def SOut.result : SOut → Option Int
  | .normal => some 0
  | .ret v => some v
  | _ => none

/-- Serial big-step execution of one program instance. -/
inductive Exec (P : Prog) (l : Nat) : Stmt → SSt → SOut → SSt → Prop where
  | skip {s} : Exec P l .skip s .normal s
  | uassign {s x e} : Exec P l (.uassign x e) s .normal { s with u := upd1 s.u x (s.eval l e) }
  | vassign {s b a i e} : Exec P l (.vassign b a i e) s .normal (s.store b a (s.eval l i) (s.eval l e))
  | seqN {s₁ s₂ s s' s'' o} : Exec P l s₁ s .normal s' → Exec P l s₂ s' o s'' → Exec P l (.seq s₁ s₂) s o s''
  | seqJ {s₁ s₂ s s' o} : Exec P l s₁ s o s' → o ≠ .normal → Exec P l (.seq s₁ s₂) s o s'
  | iteT {e c p s₁ s₂ s o s'} : s.eval l e ≠ 0 → Exec P l s₁ s o s' → Exec P l (.ite e c p s₁ s₂) s o s'
  | iteF {e c p s₁ s₂ s o s'} : s.eval l e = 0 → Exec P l s₂ s o s' → Exec P l (.ite e c p s₁ s₂) s o s'
  | loopDone {e c st b s} : s.eval l e = 0 → Exec P l (.loop e c st b) s .normal s
  | loopStep {e c st b s o₁ s₁ s₂ o s'} : s.eval l e ≠ 0 → Exec P l b s o₁ s₁ → (o₁ = .normal ∨ o₁ = .cont) →
      Exec P l st s₁ .normal s₂ → Exec P l (.loop e c st b) s₂ o s' → Exec P l (.loop e c st b) s o s'
  | loopBrk {e c st b s s'} : s.eval l e ≠ 0 → Exec P l b s .brk s' → Exec P l (.loop e c st b) s .normal s'
  | loopRet {e c st b s v s'} : s.eval l e ≠ 0 → Exec P l b s (.ret v) s' → Exec P l (.loop e c st b) s (.ret v) s'
  | doStep {e c b s o₁ s₁ o s'} : Exec P l b s o₁ s₁ → (o₁ = .normal ∨ o₁ = .cont) → s₁.eval l e ≠ 0 →
      Exec P l (.doloop b e c) s₁ o s' → Exec P l (.doloop b e c) s o s'
  | doDone {e c b s o₁ s₁} : Exec P l b s o₁ s₁ → (o₁ = .normal ∨ o₁ = .cont) → s₁.eval l e = 0 →
      Exec P l (.doloop b e c) s .normal s₁
  | doBrk {e c b s s'} : Exec P l b s .brk s' → Exec P l (.doloop b e c) s .normal s'
  | doRet {e c b s v s'} : Exec P l b s (.ret v) s' → Exec P l (.doloop b e c) s (.ret v) s'
  | brk {s} : Exec P l .brk s .brk s
  | cont {s} : Exec P l .cont s .cont s
  | ret {e s} : Exec P l (.ret e) s (.ret (s.eval l e)) s
  | switchNone {e b s} : switchEntry (s.eval l e) b = none → Exec P l (.switch e b) s .normal s
  | switchBrk {e b c s s'} : switchEntry (s.eval l e) b = some c → Exec P l c s .brk s' →
      Exec P l (.switch e b) s .normal s'
  | switchOther {e b c s o s'} : switchEntry (s.eval l e) b = some c → Exec P l c s o s' → o ≠ .brk →
      Exec P l (.switch e b) s o s'
  | segN {lab chk s₁ r s s' o s''} : Exec P l s₁ s .normal s' → Exec P l r s' o s'' →
      Exec P l (.seg lab chk s₁ r) s o s''
  | segJ {lab chk s₁ r s o s'} : Exec P l s₁ s o s' → o ≠ .normal → Exec P l (.seg lab chk s₁ r) s o s'
  | call {dst f us vs s o s' v} : Exec P l (P f).body (s.enter l us vs) o s' → o.result = some v →
      Exec P l (.call dst f us vs) s .normal { s with loc := upd2 s.loc dst 0 v, ext := s'.ext }

end Ispc.Spmd
