import Verif.Spmd.Machine

/-!
# The discipline on uniform variables under which masked and serial execution agree

A uniform variable has one copy for the whole gang.  A program that assigns one under varying control flow and
reads it where instances with different histories meet has no serial meaning, so the equivalence theorem is
stated for programs that satisfy `Wf`: a definite-assignment style discipline.
`Wf s B C D D'` reads: if before `s` the instances agree with their serial executions on the uniform variables
in `D`, then they do so afterwards on `D'`; at a `break` they do so on `B` and at a `continue` on `C`.
Programs without uniform assignments under varying control flow satisfy it, and so do the usual idioms (a
uniform counter of a loop that lives inside a varying `if`, or of a loop left by varying `break`s).
-/

namespace Ispc.Spmd

/-- Does the statement contain a `break` of the enclosing loop that is compiled to a direct jump (only uniform
`if`s in between)? -/
def jumpBrk : Stmt → Bool
  | .brk => true
  | .seq s₁ s₂ => jumpBrk s₁ || jumpBrk s₂
  | .ite e _ _ s₁ s₂ => if e.isUniform then jumpBrk s₁ || jumpBrk s₂ else false
  | _ => false

/-- Does the statement contain a `continue` of the enclosing loop under a varying `if` (with `d` varying `if`s
already around it)? -/
def varCont (d : Nat) : Stmt → Bool
  | .cont => decide (0 < d)
  | .seq s₁ s₂ => varCont d s₁ || varCont d s₂
  | .ite e _ _ s₁ s₂ =>
      if e.isUniform then varCont d s₁ || varCont d s₂ else varCont (d + 1) s₁ || varCont (d + 1) s₂
  | _ => false

/-- See the module comment.  The conjunct `¬(jumpBrk body ∧ varCont 0 body)` excludes loops in which the
compiler itself deviates from C (see `Ispc.Spmd.break_after_varying_continue_loses_lanes`). -/
def Wf : Stmt → Set Nat → Set Nat → Set Nat → Set Nat → Prop
  | .skip, _, _, D, D' => D' ⊆ D
  | .uassign x e, _, _, D, D' => e.isUniform = true ∧ e.uvars ⊆ D ∧ D' ⊆ insert x D
  | .vassign _ _ i e, _, _, D, D' => i.uvars ⊆ D ∧ e.uvars ⊆ D ∧ D' ⊆ D
  | .seq s₁ s₂, B, C, D, D' => ∃ D₁, Wf s₁ B C D D₁ ∧ Wf s₂ B C D₁ D'
  | .ite e _ _ s₁ s₂, B, C, D, D' =>
      e.uvars ⊆ D ∧
      ((e.isUniform = true ∧ Wf s₁ B C D D' ∧ Wf s₂ B C D D') ∨
       (e.isUniform = false ∧ ∃ D₁ D₂, Wf s₁ B C D D₁ ∧ Wf s₂ B C (D \ s₁.assigned) D₂ ∧ D' ⊆ D₁ ∧ D' ⊆ D₂ ∧
          Disjoint D' s₂.assigned))
  | .loop e _ st b, _, _, D, D' =>
      ∃ I J, I ⊆ D ∧ e.uvars ⊆ I ∧ Wf b D' J I J ∧ Wf st ∅ ∅ J I ∧ D' ⊆ I ∧
      (loopUnif e b = false → Disjoint D' b.assigned ∧ Disjoint D' st.assigned ∧ Disjoint J b.assigned ∧
        ¬(jumpBrk b = true ∧ varCont 0 b = true))
  | .doloop b e _, _, _, D, D' =>
      ∃ I J, I ⊆ D ∧ e.uvars ⊆ J ∧ Wf b D' J I J ∧ I ⊆ J ∧ D' ⊆ J ∧
      (loopUnif e b = false → Disjoint D' b.assigned ∧ Disjoint J b.assigned ∧
        ¬(jumpBrk b = true ∧ varCont 0 b = true))
  | .brk, B, _, D, _ => B ⊆ D
  | .cont, _, C, D, _ => C ⊆ D
  | .ret e, _, _, D, _ => e.uvars ⊆ D
  | .switch e b, _, _, D, D' =>
      e.uvars ⊆ D ∧ ∃ F, F ⊆ D ∧ D' ⊆ F ∧ Wf b D' ∅ F F ∧
      ((e.isUniform && !hasVBC 0 b) = false → Disjoint F b.assigned)
  | .seg _ _ s r, B, C, D, D' => Wf s B C D D ∧ Wf r B C D D'
  | .call _ _ us vs, _, _, D, D' =>
      (∀ e ∈ us, e.isUniform = true ∧ e.uvars ⊆ D) ∧ (∀ e ∈ vs, e.uvars ⊆ D) ∧ D' ⊆ D

/-- Every function of the program follows the discipline; on entry all instances agree on everything. -/
def WfProg (P : Prog) : Prop := ∀ f, Wf (P f).body ∅ ∅ Set.univ ∅

end Ispc.Spmd
