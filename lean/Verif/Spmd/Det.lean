import Verif.Spmd.Serial
import Mathlib.Tactic.Cases

/-!
# The serial specification is deterministic, and it ignores the optimisation hints
-/

namespace Ispc.Spmd

/-- A serial program instance has at most one outcome. -/
theorem Exec.det {P : Prog} {l : Nat} {s : Stmt} {a : SSt} {o₁ : SOut} {b₁ : SSt} (h₁ : Exec P l s a o₁ b₁) :
    ∀ {o₂ b₂}, Exec P l s a o₂ b₂ → o₁ = o₂ ∧ b₁ = b₂ := by
  induction h₁ with
  | skip => intro _ _ h; cases h; exact ⟨rfl, rfl⟩
  | uassign => intro _ _ h; cases h; exact ⟨rfl, rfl⟩
  | vassign => intro _ _ h; cases h; exact ⟨rfl, rfl⟩
  | seqN _ _ ih1 ih2 =>
    intro _ _ h; cases h with
    | seqN a b => obtain ⟨-, rfl⟩ := ih1 a; exact ih2 b
    | seqJ a b => obtain ⟨rfl, -⟩ := ih1 a; exact absurd rfl b
  | seqJ _ hn ih =>
    intro _ _ h; cases h with
    | seqN a b => obtain ⟨rfl, -⟩ := ih a; exact absurd rfl hn
    | seqJ a b => exact ih a
  | iteT he _ ih =>
    intro _ _ h; cases h with
    | iteT _ b => exact ih b
    | iteF a _ => exact absurd a he
  | iteF he _ ih =>
    intro _ _ h; cases h with
    | iteT a _ => exact absurd he a
    | iteF _ b => exact ih b
  | loopDone he =>
    intro _ _ h; cases h with
    | loopDone => exact ⟨rfl, rfl⟩
    | loopStep a => exact absurd he a
    | loopBrk a => exact absurd he a
    | loopRet a => exact absurd he a
  | loopStep he _ ho _ _ ih1 ih2 ih3 =>
    intro _ _ h; cases h with
    | loopDone a => exact absurd a he
    | loopStep _ b _ d e =>
      obtain ⟨-, rfl⟩ := ih1 b
      obtain ⟨-, rfl⟩ := ih2 d
      exact ih3 e
    | loopBrk _ b => obtain ⟨rfl, -⟩ := ih1 b; simp at ho
    | loopRet _ b => obtain ⟨rfl, -⟩ := ih1 b; simp at ho
  | loopBrk he _ ih =>
    intro _ _ h; cases h with
    | loopDone a => exact absurd a he
    | loopStep _ b ho => obtain ⟨rfl, -⟩ := ih b; simp at ho
    | loopBrk _ b => exact ⟨rfl, (ih b).2⟩
    | loopRet _ b => have := (ih b).1; cases this
  | loopRet he _ ih =>
    intro _ _ h; cases h with
    | loopDone a => exact absurd a he
    | loopStep _ b ho => obtain ⟨rfl, -⟩ := ih b; simp at ho
    | loopBrk _ b => have := (ih b).1; cases this
    | loopRet _ b => exact ih b
  | doStep _ ho he _ ih1 ih2 =>
    intro _ _ h; cases h with
    | doStep a _ _ d => obtain ⟨-, rfl⟩ := ih1 a; exact ih2 d
    | doDone a _ b => obtain ⟨-, rfl⟩ := ih1 a; exact absurd b he
    | doBrk b => obtain ⟨rfl, -⟩ := ih1 b; simp at ho
    | doRet b => obtain ⟨rfl, -⟩ := ih1 b; simp at ho
  | doDone _ ho he ih1 =>
    intro _ _ h; cases h with
    | doStep a _ b d => obtain ⟨-, rfl⟩ := ih1 a; exact absurd he b
    | doDone a _ b => exact ⟨rfl, (ih1 a).2⟩
    | doBrk b => obtain ⟨rfl, -⟩ := ih1 b; simp at ho
    | doRet b => obtain ⟨rfl, -⟩ := ih1 b; simp at ho
  | doBrk _ ih =>
    intro _ _ h; cases h with
    | doStep b ho => obtain ⟨rfl, -⟩ := ih b; simp at ho
    | doDone b ho => obtain ⟨rfl, -⟩ := ih b; simp at ho
    | doBrk b => exact ⟨rfl, (ih b).2⟩
    | doRet b => have := (ih b).1; cases this
  | doRet _ ih =>
    intro _ _ h; cases h with
    | doStep b ho => obtain ⟨rfl, -⟩ := ih b; simp at ho
    | doDone b ho => obtain ⟨rfl, -⟩ := ih b; simp at ho
    | doBrk b => have := (ih b).1; cases this
    | doRet b => exact ih b
  | brk => intro _ _ h; cases h; exact ⟨rfl, rfl⟩
  | cont => intro _ _ h; cases h; exact ⟨rfl, rfl⟩
  | ret => intro _ _ h; cases h; exact ⟨rfl, rfl⟩
  | switchNone he =>
    intro _ _ h; cases h with
    | switchNone => exact ⟨rfl, rfl⟩
    | switchBrk a => rw [he] at a; cases a
    | switchOther a => rw [he] at a; cases a
  | switchBrk he _ ih =>
    intro _ _ h; cases h with
    | switchNone a => rw [he] at a; cases a
    | switchBrk a b => rw [he] at a; cases a; exact ⟨rfl, (ih b).2⟩
    | switchOther a b ho => rw [he] at a; cases a; exact absurd (ih b).1.symm ho
  | switchOther he _ ho ih =>
    intro _ _ h; cases h with
    | switchNone a => rw [he] at a; cases a
    | switchBrk a b => rw [he] at a; cases a; exact absurd (ih b).1 ho
    | switchOther a b _ => rw [he] at a; cases a; exact ih b
  | segN _ _ ih1 ih2 =>
    intro _ _ h; cases h with
    | segN a b => obtain ⟨-, rfl⟩ := ih1 a; exact ih2 b
    | segJ a b => obtain ⟨rfl, -⟩ := ih1 a; exact absurd rfl b
  | segJ _ hn ih =>
    intro _ _ h; cases h with
    | segN a b => obtain ⟨rfl, -⟩ := ih a; exact absurd rfl hn
    | segJ a b => exact ih a
  | call _ hr ih =>
    intro _ _ h; cases h with
    | call a b =>
      obtain ⟨rfl, rfl⟩ := ih a
      rw [hr] at b; cases b; exact ⟨rfl, rfl⟩

/-- The source program without the choices an optimising compiler makes: no coherent variants, no predication
decision, no segment mask checks. -/
def plain : Stmt → Stmt
  | .seq a b => .seq (plain a) (plain b)
  | .ite e _ _ a b => .ite e false false (plain a) (plain b)
  | .loop e _ st b => .loop e false (plain st) (plain b)
  | .doloop b e _ => .doloop (plain b) e false
  | .switch e b => .switch e (plain b)
  | .seg lab _ s r => .seg lab false (plain s) (plain r)
  | s => s

/-- `plain` for all functions, also dropping the decision to test the mask on entry. -/
def plainProg (P : Prog) : Prog := fun f => ⟨plain (P f).body, false⟩

theorem findCase_plain (v : Int) : ∀ s, findCase v (plain s) = (findCase v s).map plain := by
  intro s
  induction s with
  | seg lab chk s r _ ih =>
    cases lab with
    | none => simpa [plain, findCase] using ih
    | some w =>
      simp only [plain, findCase]
      split
      · rfl
      · exact ih
  | _ => rfl

theorem findDefault_plain : ∀ s, findDefault (plain s) = (findDefault s).map plain := by
  intro s
  induction s with
  | seg lab chk s r _ ih =>
    cases lab with
    | none => rfl
    | some w => simpa [plain, findDefault] using ih
  | _ => rfl

theorem switchEntry_plain (v : Int) (s : Stmt) : switchEntry v (plain s) = (switchEntry v s).map plain := by
  unfold switchEntry
  rw [findCase_plain]
  cases findCase v s with
  | none => exact findDefault_plain s
  | some c => rfl

/-- The hints do not influence the serial meaning. -/
theorem Exec.plain {P : Prog} {l s a o b} (h : Exec P l s a o b) : Exec (plainProg P) l (plain s) a o b := by
  induction h with
  | skip => exact .skip
  | uassign => exact .uassign
  | vassign => exact .vassign
  | seqN _ _ ih1 ih2 => exact .seqN ih1 ih2
  | seqJ _ hn ih => exact .seqJ ih hn
  | iteT he _ ih => exact .iteT he ih
  | iteF he _ ih => exact .iteF he ih
  | loopDone he => exact .loopDone he
  | loopStep he _ ho _ _ ih1 ih2 ih3 => exact .loopStep he ih1 ho ih2 ih3
  | loopBrk he _ ih => exact .loopBrk he ih
  | loopRet he _ ih => exact .loopRet he ih
  | doStep _ ho he _ ih1 ih2 => exact .doStep ih1 ho he ih2
  | doDone _ ho he ih1 => exact .doDone ih1 ho he
  | doBrk _ ih => exact .doBrk ih
  | doRet _ ih => exact .doRet ih
  | brk => exact .brk
  | cont => exact .cont
  | ret => exact .ret
  | switchNone he => exact .switchNone (by rw [switchEntry_plain, he]; rfl)
  | switchBrk he _ ih => exact .switchBrk (by rw [switchEntry_plain, he]; rfl) ih
  | switchOther he _ ho ih => exact .switchOther (by rw [switchEntry_plain, he]; rfl) ih ho
  | segN _ _ ih1 ih2 => exact .segN ih1 ih2
  | segJ _ hn ih => exact .segJ ih hn
  | call _ hr ih => exact .call ih hr

end Ispc.Spmd
