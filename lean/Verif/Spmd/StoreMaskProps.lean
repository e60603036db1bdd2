import Verif.Spmd.StoreMaskProof

/-!
# C70: an assignment writes for the program instances that execute it
-/

namespace Ispc.StoreMask

open Ispc.Spmd

variable {n : Nat}

/-! ## Local variables: dropping the mask is not observable -/

/-- **C70**, local variables: run a scope in which the variable `a` is declared (at depth `d`, the depth of varying
control flow at which the scope itself runs).  Storing to `a` without a mask wherever the compiler does so, and
starting with anything at all in `a` for the instances that are off, gives what storing under the mask gives: the
same way out, the same everything, except for what `a` holds for the instances that are off at the end.  One finishes
iff the other does.  Every gang width, mask, program and state; no discipline on uniform variables is needed.
Partial: no call in the scope may pass a varying argument that reads `a` (its value in the instances that are off would
be visible in the callee), `unmasked` blocks are not in the language, and the variables of one scope are taken one at
a time. -/
theorem local_partial (P : Prog) (k a : Nat) (s : Stmt) (c : Ctx n) (σ : St n) (L : Fin n → Nat → Int → Int)
    (hs : argsAvoid a s = true) (hL : ∀ l b, b ≠ a ∨ σ.im l = true → L l b = σ.loc l b) :
    (run P k s c σ = none ↔ runOpt P (vdepth c.cf) a k s c { σ with loc := L } = none) ∧
    ∀ o σ', run P k s c σ = some (o, σ') →
      ∃ L', runOpt P (vdepth c.cf) a k s c { σ with loc := L } = some (o, { σ' with loc := L' }) ∧
        ∀ l b, b ≠ a ∨ σ'.im l = true → L' l b = σ'.loc l b := by
  have r := lock_all P (vdepth c.cf) a k s hs c (fun l => σ.im l) σ L (Nat.le_refl _) (fun _ h => h) hL
  have e : runOpt P (vdepth c.cf) a k s c { σ with loc := L } = runOpt P (vdepth c.cf) a k s c (St.setLoc σ L) := rfl
  rw [e]
  generalize run P k s c σ = x at r
  generalize runOpt P (vdepth c.cf) a k s c (St.setLoc σ L) = y at r
  cases r with
  | none => simp
  | @some o τ L' k₁ k₂ k₃ k₄ =>
    refine ⟨by simp, ?_⟩
    intro o' σ' h
    simp only [Option.some.injEq, Prod.mk.injEq] at h
    obtain ⟨rfl, rfl⟩ := h
    exact ⟨L', rfl, k₁⟩

/-! The scope `{ int x; if (programIndex < 1) return 7; x = 5; g = x; for (uniform i…) x = x + 1; return x; }` run by a
gang of 2: the store to `x` is unmasked, so instance 0, which has returned, gets it too. -/

/-- the scope above -/
def demo : Stmt :=
  .seq (.ite (.bin (fun a b => if a < b then 1 else 0) .lane (.const 1)) false false (.ret (.const 7)) .skip)
  (.seq (.vassign false 0 (.const 0) (.const 5))
  (.seq (.vassign true 3 (.const 0) (.vload false 0 (.const 0)))
  (.seq (.loop (.bin (fun a b => if a < b then 1 else 0) (.uvar 0) (.const 2)) false (.uassign 0 (.bin (· + ·) (.uvar 0) (.const 1)))
    (.vassign false 0 (.const 0) (.bin (· + ·) (.vload false 0 (.const 0)) (.const 1))))
    (.ret (.vload false 0 (.const 0))))))

def demoSt : St 2 where
  u := fun _ => 0
  loc := fun _ _ _ => 0
  ext := fun _ _ _ => 0
  im := allOn
  ret := allOff
  brk := allOff
  cont := allOff
  rv := fun _ => 0

def demoP : Prog := fun _ => ⟨.skip, false⟩

/-- What is left of a result: the variable `x`, the memory and the return value of an instance. -/
def look (r : Option (Out × St 2)) (l : Fin 2) : Option (Out × Int × Int × Int) :=
  r.map fun (o, σ) => (o, σ.loc l 0 0, σ.ext l 3 0, σ.rv l)

example : argsAvoid 0 demo = true := by decide
example : look (run demoP 9 demo (enterCtx allOn) demoSt) 0 = some (.ret, 0, 0, 7) := by decide +kernel
example : look (run demoP 9 demo (enterCtx allOn) demoSt) 1 = some (.ret, 7, 5, 7) := by decide +kernel
example : look (runOpt demoP 0 0 9 demo (enterCtx allOn) demoSt) 0 = some (.ret, 7, 0, 7) := by decide +kernel
example : look (runOpt demoP 0 0 9 demo (enterCtx allOn) demoSt) 1 = some (.ret, 7, 5, 7) := by decide +kernel

/-- The depth matters: were the mask also dropped one varying `if` deeper than the declaration, the instances that skip
the `if` would see the store.  `{ int x = 0; if (programIndex < 1) x = 5; g = x; }` -/
theorem deeper_visible : ∃ (s : Stmt) (σ : St 2), argsAvoid 0 s = true ∧
    look (runOpt demoP 0 0 9 s (enterCtx allOn) σ) 1 ≠ look (runOpt demoP 1 0 9 s (enterCtx allOn) σ) 1 :=
  ⟨.seq (.ite (.bin (fun a b => if a < b then 1 else 0) .lane (.const 1)) false false
      (.vassign false 0 (.const 0) (.const 5)) .skip) (.vassign true 3 (.const 0) (.vload false 0 (.const 0))), demoSt,
    by decide, by decide +kernel⟩

/-! ## Everything else -/

/-- Does the place lie outside of the local variables of the function: behind a pointer or a reference, in a global or
static variable, or behind a temporary? -/
def Outside : Place → Prop
  | .var s => s.mine = false
  | .temporary => True
  | .index p => Outside p
  | .member p => Outside p
  | .arrow _ => True
  | .deref _ => True
  | .cast p => Outside p

/-- **C70**, memory outside of the function: an assignment through a place whose base symbol is a pointer or a reference,
through a place without one, to a static variable, to a global variable from inside varying control flow, or at a
varying address, stores exactly for the instances that execute it.
Partial: `global_wrong` and `aggregate_wrong` are the other places. -/
theorem outside_partial (ua : Bool) (p : Place) (c : Ctx n) (σ : St n)
    (h : ua = false ∨ p.base = none ∨
      ∃ s, p.base = some s ∧ (s.kind = .pointer ∨ s.kind = .reference ∨ (s.static = true) ∨
        (s.mine = false ∧ s.depth ≠ vdepth c.cf))) :
    ∀ l, lanes ua p c σ l = (σ.im l && c.fm l) := by
  intro l
  unfold lanes
  cases ua
  · rfl
  · rcases h with h | h | ⟨s, hs, h⟩
    · cases h
    · rw [h]; rfl
    · rw [hs]
      obtain ⟨k, st, mi, d⟩ := s
      simp only [if_true, storeMask, maskFor]
      rcases h with h | h | h | ⟨h, h'⟩
      · simp only at h; subst h; simp [full, Mask.and]
      · simp only at h; subst h; simp [full, Mask.and]
      · simp only at h; subst h; simp [full, Mask.and]
      · simp only at h h'; subst h; simp [full, Mask.and, h']

/-- So memory of the other instances is unmodified, and the executing instances get their values. -/
theorem assign_outside (ua : Bool) (p : Place) (a : Nat) (i : Int) (v : Fin n → Int) (c : Ctx n) (σ : St n)
    (h : ∀ l, lanes ua p c σ l = (σ.im l && c.fm l)) (l : Fin n) :
    ((σ.im l = true ∧ c.fm l = true) → (assign ua p a i v c σ).ext l a i = v l) ∧
    (∀ b j, ¬(b = a ∧ j = i) → (assign ua p a i v c σ).ext l b j = σ.ext l b j) ∧
    (¬(σ.im l = true ∧ c.fm l = true) → (assign ua p a i v c σ).ext l = σ.ext l) := by
  simp only [assign, h l]
  refine ⟨?_, ?_, ?_⟩
  · rintro ⟨h₁, h₂⟩; simp [h₁, h₂, upd2]
  · intro b j hne
    by_cases hl : (σ.im l && c.fm l) = true
    · rw [if_pos hl]
      unfold upd2
      by_cases hb : b = a
      · have hj : j ≠ i := fun x => hne ⟨hb, x⟩
        simp [hb, hj]
      · simp [hb]
    · rw [if_neg hl]
  · intro hne
    have : (σ.im l && c.fm l) = false := by
      cases h₁ : σ.im l <;> cases h₂ : c.fm l <;> simp_all
    simp [this]

/-- A function called with instance 0 only, at some place in its control flow. -/
def probe (cf : List CF) : Ctx 2 where
  cf := cf
  fm := fun l => l == 0
  bem := allOn
  hasBrk := false
  hasCont := false
  brkTgt := false
  contTgt := false
  swU := false

/-- Which assignments at a uniform address store for the executing instances only, whatever the masks: among the places
with a base symbol, exactly those of `outside_partial`. -/
theorem lanes_iff (p : Place) (s : Sym) (hp : p.base = some s) (cf : List CF) :
    (∀ (c : Ctx 2) (σ : St 2), c.cf = cf → ∀ l, lanes true p c σ l = true → σ.im l = true ∧ c.fm l = true) ↔
      (s.kind = .pointer ∨ s.kind = .reference ∨ s.static = true ∨ (s.mine = false ∧ s.depth ≠ vdepth cf)) := by
  constructor
  · intro h
    by_contra hn
    simp only [not_or, not_and, ne_eq, Decidable.not_not, Bool.not_eq_true] at hn
    obtain ⟨h₁, h₂, h₃, h₄⟩ := hn
    have h := h (probe cf) demoSt rfl 1
    have : lanes true p (probe cf) demoSt 1 = true := by
      simp only [lanes, if_true, hp, storeMask]
      by_cases hd : s.depth = vdepth cf
      · rw [if_pos ⟨show s.depth = vdepth (probe cf).cf from hd, by simp [h₃], h₂, h₁⟩]; rfl
      · rw [if_neg (fun x => hd x.1)]
        have hm : s.mine = true := by
          cases hm : s.mine
          · exact absurd (h₄ hm) hd
          · rfl
        simp only [maskFor, h₁, h₂, hm, h₃, or_self, if_false]
        rfl
    exact absurd (h this).2 (by simp [probe])
  · rintro h c σ rfl l hl
    rw [outside_partial true p c σ (Or.inr (Or.inr ⟨s, hp, h⟩))] at hl
    simpa using hl

/-- Global varying variables are the first exception: an assignment to a global that is not static, outside of any
varying control flow of the function, stores for all instances of the gang: also for those that are off at the call and
for those that have returned. -/
theorem global_wrong : ∃ s, Made s ∧ Outside (.var s) ∧ s.static = false ∧ s.kind = .other ∧
    ∀ (c : Ctx n) (σ : St n) (a : Nat) (i : Int) (v : Fin n → Int), vdepth c.cf = 0 →
      ∀ l, (assign true (.var s) a i v c σ).ext l a i = v l := by
  refine ⟨⟨.other, false, false, 0⟩, .global .other false, rfl, rfl, rfl, ?_⟩
  intro c σ a i v hd l
  simp [assign, lanes, Place.base, storeMask, hd, allOn, upd2]

/-- Declaring the variable `static` avoids it. -/
theorem static_ok (s : Sym) (_hs : Made s) (hst : s.static = true) (ua : Bool) (c : Ctx n) (σ : St n) :
    ∀ l, lanes ua (.var s) c σ l = (σ.im l && c.fm l) :=
  outside_partial ua (.var s) c σ (Or.inr (Or.inr ⟨s, rfl, Or.inr (Or.inr (Or.inl hst))⟩))

/-- Data behind a pointer that is kept in a local array or structure is the second: `*p[0] = v`, `*s.p = v` and
`s.p->m = v`, with a uniform pointer to varying data, store for all instances of the gang at the depth of the declaration
of `p`, and below it still for the instances that are off at the call of the function. -/
theorem aggregate_wrong : ∃ s, Made s ∧ s.mine = true ∧
    ∀ p, (p = .deref (.index (.var s)) ∨ p = .deref (.member (.var s)) ∨ p = .arrow (.member (.var s))) → Outside p ∧
      (∀ (c : Ctx n) (σ : St n) l, vdepth c.cf = 0 → lanes true p c σ l = true) ∧
      (∀ (c : Ctx n) (σ : St n) l, σ.im l = true → lanes true p c σ l = true) := by
  refine ⟨⟨.other, false, true, 0⟩, .variable_ .other 0, rfl, ?_⟩
  rintro p (rfl | rfl | rfl) <;> refine ⟨trivial, ?_, ?_⟩ <;> intro c σ l h
  · simp [lanes, Place.base, storeMask, h, allOn]
  · simp only [lanes, Place.base, if_true]; rw [storeMask_local]; split <;> simp_all [allOn]
  · simp [lanes, Place.base, storeMask, h, allOn]
  · simp only [lanes, Place.base, if_true]; rw [storeMask_local]; split <;> simp_all [allOn]
  · simp [lanes, Place.base, storeMask, h, allOn]
  · simp only [lanes, Place.base, if_true]; rw [storeMask_local]; split <;> simp_all [allOn]

/-! `int *uniform p` and `int *uniform p[2]` as parameters, `*p = v` and `*p[0] = v` in a function called with instance 0
only. -/
example : lanes true (.deref (.var ⟨.pointer, false, true, 0⟩)) (enterCtx (n := 2) (fun l => l == 0)) demoSt 1 = false := by
  decide
example : lanes true (.deref (.index (.var ⟨.other, false, true, 0⟩))) (enterCtx (n := 2) (fun l => l == 0)) demoSt 1 = true := by
  decide
/-! `int g; … g = 5` there. -/
example : (assign true (.var ⟨.other, false, false, 0⟩) 4 0 (fun _ => 5) (enterCtx (n := 2) (fun l => l == 0)) demoSt).ext 1 4 0
    = 5 := by decide

/-- Every executing instance is written for, by every assignment. -/
theorem executing_written (ua : Bool) (p : Place) (c : Ctx n) (σ : St n) (l : Fin n) (h₁ : σ.im l = true) (h₂ : c.fm l = true) :
    lanes ua p c σ l = true := by
  have hf : full c σ l = true := by simp [full, Mask.and, h₁, h₂]
  unfold lanes
  cases ua
  · exact hf
  · simp only [if_true, storeMask, maskFor]
    cases p.base with
    | none => exact hf
    | some s =>
      simp only
      split
      · rfl
      · split
        · exact hf
        · split
          · exact h₁
          · exact hf

end Ispc.StoreMask
