import Verif.Spmd.Invariant

/-!
# Every statement preserves the mask invariants (helper lemmas for C01-C05, C10)
-/

namespace Ispc.Spmd

variable {n : Nat}

/-- Effect of (part of) a loop or switch on the mask machinery, seen from the enclosing context `c`.
`u`: the loop or switch is uniform. -/
structure LP (u : Bool) (A : Set Nat) (c : Ctx n) (σ : St n) (o : Out) (σ' : St n) : Prop where
  mono : ∀ l, σ'.im l = true → σ.im l = true
  offm : ∀ l, σ.im l = false → σ'.ret l = σ.ret l ∧ σ'.rv l = σ.rv l ∧ σ'.loc l = σ.loc l
  offf : ∀ l, σ.im l = false ∨ c.fm l = false → σ'.ext l = σ.ext l ∧ σ'.ret l = σ.ret l
  act : u = true ∨ o = .ret → ∀ l, σ'.im l = true → c.fm l = true → σ'.ret l = false
  conv : u = true → o = .normal → ∀ l, σ.im l = true → c.fm l = true → σ'.im l = true ∨ σ'.ret l = true
  retn : o = .ret → ∀ l, c.fm l = true → σ'.im l = true ∨ σ'.ret l = true
  frame : ∀ x, x ∉ A → σ'.u x = σ.u x

theorem LP.imoff {u A} {c : Ctx n} {σ o σ'} (h : LP u A c σ o σ') {l} (hl : σ.im l = false) : σ'.im l = false := by
  cases h' : σ'.im l
  · rfl
  · rw [h.mono l h'] at hl; cases hl

theorem LP.seq {u A} {c : Ctx n} {σ σ₁ σ₂ o} (h₁ : LP u A c σ .normal σ₁) (h₂ : LP u A c σ₁ o σ₂) :
    LP u A c σ o σ₂ where
  mono := fun l h => h₁.mono l (h₂.mono l h)
  offm := fun l h => by
    have a := h₁.offm l h
    have b := h₂.offm l (h₁.imoff h)
    exact ⟨b.1.trans a.1, b.2.1.trans a.2.1, b.2.2.trans a.2.2⟩
  offf := fun l h => by
    have a := h₁.offf l h
    have b := h₂.offf l (h.imp (fun h => h₁.imoff h) id)
    exact ⟨b.1.trans a.1, b.2.trans a.2⟩
  act := h₂.act
  conv := fun hu ho l h1 h2 => by
    cases him : σ₁.im l with
    | true => exact h₂.conv hu ho l him h2
    | false =>
      rcases h₁.conv hu rfl l h1 h2 with h | h
      · rw [him] at h; cases h
      · right; rw [(h₂.offm l him).1]; exact h
  retn := h₂.retn
  frame := fun x hx => by rw [h₂.frame x hx, h₁.frame x hx]

/-- State at the head of a loop iteration. -/
structure Head (u : Bool) (c : Ctx n) (σ : St n) : Prop where
  act : ∀ l, σ.im l = true → c.fm l = true → σ.ret l = false
  bc : ∀ l, σ.brk l = false ∧ σ.cont l = false
  d0 : u = true → vdepth c.cf = 0 → ∀ l, c.fm l = true → σ.im l = true ∨ σ.ret l = true

theorem Head.of_inv {c : Ctx n} {σ : St n} (u) (hi : Inv c σ) :
    Head u c { σ with brk := allOff, cont := allOff } :=
  ⟨fun l h1 h2 => (hi.act l h1 h2).1, fun _ => ⟨rfl, rfl⟩, fun _ => hi.d0⟩

theorem Head.inv {u} {c : Ctx n} {σ : St n} (h : Head u c σ) : Inv (c.pushLoop u (full c σ)) σ where
  bemfm := fun l hl => by simp [Ctx.pushLoop] at hl ⊢; exact hl.2
  act := fun l h1 h2 => by
    simp [Ctx.pushLoop] at h2 ⊢
    exact ⟨h.act l h1 h2, (h.bc l).1, (h.bc l).2, h1, h2⟩
  pos := fun _ l hl => by simp [Ctx.pushLoop] at hl; exact Or.inl hl.1
  d0 := fun hd => by
    cases u
    · simp [Ctx.pushLoop, vdepth] at hd
    · exact h.d0 rfl (by simpa [Ctx.pushLoop, vdepth] using hd)
  nu := fun _ => h.bc
  hc := fun _ l => (h.bc l).2
  hb := fun _ l => (h.bc l).1
  excl := fun l _ => by simp [h.bc l]

theorem Head.narrow {c : Ctx n} {σ : St n} (h : Head false c σ) (t : Mask n) :
    Head false c { σ with im := σ.im.and t } :=
  ⟨fun l h1 h2 => h.act l (by simp at h1; exact h1.1) h2, h.bc, fun hu => by cases hu⟩

theorem LP.narrow {A} {c : Ctx n} {σ : St n} (t : Mask n) : LP false A c σ .normal { σ with im := σ.im.and t } where
  mono := fun l h => by simp at h; exact h.1
  offm := fun _ _ => ⟨rfl, rfl, rfl⟩
  offf := fun _ _ => ⟨rfl, rfl⟩
  act := fun h => by rcases h with h | h <;> cases h
  conv := fun h => by cases h
  retn := fun h => by cases h
  frame := fun _ _ => rfl

theorem LP.refl {u A} {c : Ctx n} {σ : St n} (h : Head u c σ) : LP u A c σ .normal σ where
  mono := fun _ h => h
  offm := fun _ _ => ⟨rfl, rfl, rfl⟩
  offf := fun _ _ => ⟨rfl, rfl⟩
  act := fun _ => h.act
  conv := fun _ _ _ h _ => Or.inl h
  retn := fun h => by cases h
  frame := fun _ _ => rfl

/-- A loop body that returns, as an effect of the loop. -/
theorem LP.of_ret {u A} {c : Ctx n} {m : Mask n} {σ σ'} (h : Post A (c.pushLoop u m) σ .ret σ') :
    LP u A c σ .ret σ' where
  mono := h.mono
  offm := fun l hl => ⟨(h.offm l hl).1, (h.offm l hl).2.2.2⟩
  offf := h.offf
  act := fun _ l h1 h2 => (h.act l h1 h2).1
  conv := fun _ ho => by cases ho
  retn := fun _ => h.retn rfl
  frame := h.frame

/-- A body of a uniform loop that ends otherwise. -/
theorem LP.of_bodyU {A} {c : Ctx n} {m : Mask n} {σ o σ'} (h : Post A (c.pushLoop true m) σ o σ')
    (hi : Inv (c.pushLoop true m) σ) (ho : o ≠ .ret) : LP true A c σ .normal σ' where
  mono := h.mono
  offm := fun l hl => ⟨(h.offm l hl).1, (h.offm l hl).2.2.2⟩
  offf := h.offf
  act := fun _ l h1 h2 => (h.act l h1 h2).1
  conv := fun _ _ l h1 h2 => by
    have hn := h.nu (fun x hx => by simp [Ctx.pushLoop, nearest] at hx; subst hx; rfl) l
    rcases h.conv' hi ho l h1 h2 with h | h
    · exact Or.inl h
    · right; simpa [St.flag, hn.1, hn.2] using h
  retn := fun h => by cases h
  frame := h.frame

/-- A body of a varying loop that leaves the loop by a jump. -/
theorem LP.of_bodyV {A} {c : Ctx n} {m : Mask n} {σ o σ'} (h : Post A (c.pushLoop false m) σ o σ') :
    LP false A c σ .normal σ' where
  mono := h.mono
  offm := fun l hl => ⟨(h.offm l hl).1, (h.offm l hl).2.2.2⟩
  offf := h.offf
  act := fun h => by rcases h with h | h <;> cases h
  conv := fun h => by cases h
  retn := fun h => by cases h
  frame := h.frame

/-- A body of a varying loop followed by `nextIter`. -/
theorem LP.of_bodyN {A} {c : Ctx n} {m : Mask n} {σ o σ'} (h : Post A (c.pushLoop false m) σ o σ')
    (hh : Head false c σ) : LP false A c σ .normal (nextIter σ') where
  mono := fun l hl => by
    simp [nextIter] at hl
    rcases hl with hl | hl
    · exact h.mono l hl
    · cases him : σ.im l
      · rw [(h.offm l him).2.2.1, (hh.bc l).2] at hl; cases hl
      · rfl
  offm := fun l hl => ⟨(h.offm l hl).1, (h.offm l hl).2.2.2⟩
  offf := h.offf
  act := fun h => by rcases h with h | h <;> cases h
  conv := fun h => by cases h
  retn := fun h => by cases h
  frame := h.frame

theorem Head.next {A} {c : Ctx n} {m : Mask n} {σ o σ'} (h : Post A (c.pushLoop false m) σ o σ') :
    Head false c (nextIter σ') where
  act := fun l h1 h2 => by
    simp [nextIter] at h1 ⊢
    rcases h1 with h1 | h1
    · exact (h.act l h1 h2).1
    · cases hr : σ'.ret l
      · rfl
      · rw [((h.excl l h2).1 hr).2] at h1; cases h1
  bc := fun _ => ⟨rfl, rfl⟩
  d0 := fun h => by cases h

theorem Head.nextU {A} {c : Ctx n} {m : Mask n} {σ o σ'} (h : Post A (c.pushLoop true m) σ o σ')
    (hi : Inv (c.pushLoop true m) σ) (ho : o ≠ .ret) : Head true c σ' where
  act := fun l h1 h2 => (h.act l h1 h2).1
  bc := h.nu (fun x hx => by simp [Ctx.pushLoop, nearest] at hx; subst hx; rfl)
  d0 := fun _ hd => (hi.of_post h ho).d0 (by simpa [Ctx.pushLoop, vdepth] using hd)

/-- A code generator that preserves the invariants. -/
def Good (A : Set Nat) (c : Ctx n) (code : Code n) : Prop :=
  ∀ σ o σ', Inv c σ → code c σ = some (o, σ') → Post A c σ o σ'

theorem forU_post {A} {c : Ctx n} {e step body} (hb : ∀ m, Good A (c.pushLoop true m) body)
    (hs : ∀ m, Good A (c.pushLoop true m) step) : ∀ k σ o σ', Head true c σ →
    forU c e step body k σ = some (o, σ') → LP true A c σ o σ' := by
  intro k
  induction k with
  | zero => intro σ o σ' _ h; simp [forU] at h
  | succ k ih =>
    intro σ o σ' hh h
    simp only [forU] at h
    split at h
    · split at h
      · cases h
      · rename_i h1
        simp only [Option.some.injEq, Prod.mk.injEq] at h
        obtain ⟨rfl, rfl⟩ := h
        exact .of_ret (hb _ _ _ _ hh.inv h1)
      · rename_i h1
        simp only [Option.some.injEq, Prod.mk.injEq] at h
        obtain ⟨rfl, rfl⟩ := h
        exact .of_bodyU (hb _ _ _ _ hh.inv h1) hh.inv (by simp)
      · rename_i o₁ σ₁ hr _ h1
        have ho : o₁ ≠ .ret := fun h => hr (by rw [h])
        have p1 := hb _ _ _ _ hh.inv h1
        have i1 := hh.inv.of_post p1 ho
        split at h
        · rename_i σ₂ h2
          have p2 := hs _ _ _ _ i1 h2
          exact (LP.of_bodyU p1 hh.inv ho).seq
            ((LP.of_bodyU p2 i1 (by simp)).seq (ih _ _ _ (Head.nextU p2 i1 (by simp)) h))
        · cases h
    · simp only [Option.some.injEq, Prod.mk.injEq] at h
      obtain ⟨rfl, rfl⟩ := h
      exact .refl hh

theorem doU_post {A} {c : Ctx n} {e body} (hb : ∀ m, Good A (c.pushLoop true m) body) :
    ∀ k σ o σ', Head true c σ → doU c e body k σ = some (o, σ') → LP true A c σ o σ' := by
  intro k
  induction k with
  | zero => intro σ o σ' _ h; simp [doU] at h
  | succ k ih =>
    intro σ o σ' hh h
    simp only [doU] at h
    split at h
    · cases h
    · rename_i h1
      simp only [Option.some.injEq, Prod.mk.injEq] at h
      obtain ⟨rfl, rfl⟩ := h
      exact .of_ret (hb _ _ _ _ hh.inv h1)
    · rename_i h1
      simp only [Option.some.injEq, Prod.mk.injEq] at h
      obtain ⟨rfl, rfl⟩ := h
      exact .of_bodyU (hb _ _ _ _ hh.inv h1) hh.inv (by simp)
    · rename_i o₁ σ₁ hr _ h1
      have ho : o₁ ≠ .ret := fun h => hr (by rw [h])
      have p1 := hb _ _ _ _ hh.inv h1
      split at h
      · exact (LP.of_bodyU p1 hh.inv ho).seq (ih _ _ _ (Head.nextU p1 hh.inv ho) h)
      · simp only [Option.some.injEq, Prod.mk.injEq] at h
        obtain ⟨rfl, rfl⟩ := h
        exact .of_bodyU p1 hh.inv ho

theorem forV_post {A} {c : Ctx n} {e coh step body} (hb : ∀ m, Good A (c.pushLoop false m) body)
    (hs : ∀ m, Good A (c.pushLoop false m) step)
    (hq : ∀ c σ o σ', step c σ = some (o, σ') → σ'.brk = σ.brk ∧ σ'.cont = σ.cont) :
    ∀ k σ o σ', Head false c σ → forV c e coh step body k σ = some (o, σ') → LP false A c σ o σ' := by
  intro k
  induction k with
  | zero => intro σ o σ' _ h; simp [forV] at h
  | succ k ih =>
    intro σ o σ' hh h
    simp only [forV, coherentBody_eq] at h
    have ht := hh.narrow (σ.test e)
    refine (LP.narrow (σ.test e)).seq ?_
    generalize ({ σ with im := σ.im.and (σ.test e) } : St n) = τ at h ht
    split at h
    · split at h
      · cases h
      · rename_i h1
        simp only [Option.some.injEq, Prod.mk.injEq] at h
        obtain ⟨rfl, rfl⟩ := h
        exact .of_ret (hb _ _ _ _ ht.inv h1)
      · rename_i h1
        simp only [Option.some.injEq, Prod.mk.injEq] at h
        obtain ⟨rfl, rfl⟩ := h
        exact .of_bodyV (hb _ _ _ _ ht.inv h1)
      · rename_i o₁ σ₁ hr _ h1
        have p1 := hb _ _ _ _ ht.inv h1
        have hn := Head.next p1
        split at h
        · rename_i σ₂ h2
          have p2 := hs _ _ _ _ hn.inv h2
          have h2' : Head false c σ₂ :=
            ⟨fun l h1 h2 => (p2.act l h1 h2).1,
              fun l => by rw [(hq _ _ _ _ h2).1, (hq _ _ _ _ h2).2]; exact hn.bc l, fun h => by cases h⟩
          exact (LP.of_bodyN p1 ht).seq ((LP.of_bodyV p2).seq (ih _ _ _ h2' h))
        · cases h
    · simp only [Option.some.injEq, Prod.mk.injEq] at h
      obtain ⟨rfl, rfl⟩ := h
      exact .refl ht

theorem doV_post {A} {c : Ctx n} {e coh body} (hb : ∀ m, Good A (c.pushLoop false m) body) :
    ∀ k σ o σ', Head false c σ → doV c e coh body k σ = some (o, σ') → LP false A c σ o σ' := by
  intro k
  induction k with
  | zero => intro σ o σ' _ h; simp [doV] at h
  | succ k ih =>
    intro σ o σ' hh h
    simp only [doV, coherentBody_eq] at h
    split at h
    · cases h
    · rename_i h1
      simp only [Option.some.injEq, Prod.mk.injEq] at h
      obtain ⟨rfl, rfl⟩ := h
      exact .of_ret (hb _ _ _ _ hh.inv h1)
    · rename_i h1
      simp only [Option.some.injEq, Prod.mk.injEq] at h
      obtain ⟨rfl, rfl⟩ := h
      exact .of_bodyV (hb _ _ _ _ hh.inv h1)
    · rename_i o₁ σ₁ hr _ h1
      have p1 := hb _ _ _ _ hh.inv h1
      have hn := (Head.next p1).narrow ((nextIter σ₁).test e)
      refine (LP.of_bodyN p1 hh).seq ((LP.narrow ((nextIter σ₁).test e)).seq ?_)
      split at h
      · exact ih _ _ _ hn h
      · simp only [Option.some.injEq, Prod.mk.injEq] at h
        obtain ⟨rfl, rfl⟩ := h
        exact .refl hn

/-- Leaving a loop or switch. -/
theorem wrap_post {u A} {c : Ctx n} {σ σ' : St n} {o} (hi : Inv c σ) (ho : o = .normal ∨ o = .ret)
    (h : LP u A c { σ with brk := allOff, cont := allOff } o σ') :
    Post A c σ o (if u || o = .ret then { σ' with brk := σ.brk, cont := σ.cont }
      else restoreMask σ.im { σ' with brk := σ.brk, cont := σ.cont }) := by
  have hex : ∀ l, c.fm l = true → (σ'.ret l = true → σ.brk l = false ∧ σ.cont l = false) := by
    intro l hf hr
    cases him : σ.im l
    · have := (h.offm l him).1
      rw [hr] at this
      exact (hi.excl l hf).1 this.symm
    · have := hi.act l him hf
      exact ⟨this.2.1, this.2.2.1⟩
  have hmono : ∀ l, σ'.im l = true → σ.im l = true := h.mono
  have nb : ¬(o = .brk ∨ o = .cont) := by rcases ho with rfl | rfl <;> simp
  split
  · rename_i hc
    have hc' : u = true ∨ o = .ret := by simpa using hc
    exact
    { mono := h.mono
      offm := fun l hl => ⟨(h.offm l hl).1, rfl, rfl, (h.offm l hl).2⟩
      offf := h.offf
      act := fun l h1 h2 => ⟨h.act hc' l h1 h2, (hi.act l (hmono l h1) h2).2.1, (hi.act l (hmono l h1) h2).2.2.1⟩
      conv := fun hn l h1 h2 => by
        rcases hc' with hu | hr
        · rcases h.conv hu hn l h1 h2 with h | h
          · exact Or.inl h
          · right; simp [St.flag, h]
        · rw [hn] at hr; cases hr
      jump := fun h => absurd h nb
      retn := h.retn
      nu := hi.nu, hc := hi.hc, hb := hi.hb
      excl := fun l hf => ⟨hex l hf, (hi.excl l hf).2⟩
      frame := h.frame }
  · rename_i hc
    have hn : o = .normal := by
      rcases ho with h | h
      · exact h
      · simp [h] at hc
    exact
    { mono := fun l h => by simp [restoreMask] at h; exact h.1
      offm := fun l hl => ⟨(h.offm l hl).1, rfl, rfl, (h.offm l hl).2⟩
      offf := h.offf
      act := fun l h1 h2 => by
        simp [restoreMask] at h1 ⊢
        exact ⟨h1.2, (hi.act l h1.1 h2).2.1, (hi.act l h1.1 h2).2.2.1⟩
      conv := fun _ l h1 h2 => by
        simp [restoreMask, St.flag, h1]
        cases σ'.ret l <;> simp
      jump := fun h => absurd h nb
      retn := fun h => by rw [hn] at h; cases h
      nu := hi.nu, hc := hi.hc, hb := hi.hb
      excl := fun l hf => ⟨hex l hf, (hi.excl l hf).2⟩
      frame := h.frame }

/-! ### Switch -/

/-- Does a label select value `v`? -/
def sel (cases : List Int) (v : Int) : Option Int → Bool
  | some w => decide (v = w)
  | none => cases.all (fun w => !decide (v = w))

/-- Does some label of the chain select value `v`? -/
def hit (cases : List Int) (v : Int) : Stmt → Bool
  | .seg lab _ _ r => sel cases v lab || hit cases v r
  | _ => false

theorem labelMask_eq (entry : Mask n) (vals : Fin n → Int) (cases : List Int) (lab : Option Int) (l : Fin n) :
    labelMask entry vals cases lab l = (entry l && sel cases (vals l) lab) := by
  cases lab <;> rfl

theorem hit_case {cases : List Int} {v : Int} : ∀ {s}, (∀ w ∈ caseVals s, w ≠ v) → v ∈ cases → hit cases v s = false := by
  intro s
  induction s with
  | seg lab chk s r _ ihr =>
    intro h hv
    cases lab with
    | none =>
      simp only [hit, sel, Bool.or_eq_false_iff]
      refine ⟨?_, ihr h hv⟩
      simp only [List.all_eq_false]
      exact ⟨v, hv, by simp⟩
    | some w =>
      simp only [caseVals, List.mem_cons, forall_eq_or_imp] at h
      simp only [hit, sel, Bool.or_eq_false_iff]
      exact ⟨by simpa using fun e => h.1 e.symm, ihr h.2 hv⟩
  | _ => intro _ _; simp [hit]

theorem hit_default {cases : List Int} {v : Int} : ∀ {s}, numDefaults s = 0 → (∀ w ∈ caseVals s, w ≠ v) →
    hit cases v s = false := by
  intro s
  induction s with
  | seg lab chk s r _ ihr =>
    intro h hv
    cases lab with
    | none => simp [numDefaults] at h
    | some w =>
      simp only [caseVals, List.mem_cons, forall_eq_or_imp] at hv
      simp only [numDefaults] at h
      simp only [hit, sel, Bool.or_eq_false_iff]
      exact ⟨by simpa using fun e => hv.1 e.symm, ihr h hv.2⟩
  | _ => intro _ _; simp [hit]

/-- A chain is legal with respect to the list of all case values of its switch. -/
structure ChainOk (cases : List Int) (s : Stmt) : Prop where
  nd : (caseVals s).Nodup
  sub : ∀ w ∈ caseVals s, w ∈ cases
  df : numDefaults s ≤ 1

theorem ChainOk.tail {cases lab chk s r} (h : ChainOk cases (.seg lab chk s r)) : ChainOk cases r := by
  obtain ⟨a, b, d⟩ := h
  cases lab with
  | none => exact ⟨a, b, by simp [numDefaults] at d; omega⟩
  | some w =>
    simp only [caseVals, List.nodup_cons, List.mem_cons, forall_eq_or_imp, numDefaults] at a b d
    exact ⟨a.2, b.2, d⟩

theorem ChainOk.hit_tail {cases lab chk s r v} (h : ChainOk cases (.seg lab chk s r)) (hs : sel cases v lab = true) :
    hit cases v r = false := by
  obtain ⟨a, b, d⟩ := h
  cases lab with
  | none =>
    simp only [caseVals, numDefaults, sel, List.all_eq_true] at a b d hs
    refine hit_default (by omega) fun w hw e => ?_
    have := hs w (b w hw)
    simp [e] at this
  | some w =>
    simp only [caseVals, List.nodup_cons, List.mem_cons, forall_eq_or_imp, numDefaults, sel,
      decide_eq_true_eq] at a b d hs
    subst hs
    exact hit_case (fun w hw e => a.1 (e ▸ hw)) b.1

/-- Invariant between the segments of a varying switch. -/
structure SegInv (entry : Mask n) (vals : Fin n → Int) (cases : List Int) (c : Ctx n) (rest : Stmt) (σ : St n) :
    Prop where
  inv : Inv c σ
  sub : ∀ l, σ.im l = true → entry l = true
  fresh : ∀ l, hit cases (vals l) rest = true → entry l = true → c.fm l = true →
    σ.im l = false ∧ σ.ret l = false ∧ σ.brk l = false

/-- Context facts used for varying switches. -/
structure VSw (entry : Mask n) (c : Ctx n) : Prop where
  bem : c.bem = entry.and c.fm
  cf : ∃ t, c.cf = ⟨.switchK, false⟩ :: t
  sw : c.swU = false
  hb : c.hasBrk = true
  hc : c.hasCont = false

theorem SegInv.label {entry : Mask n} {vals cases c lab chk s r σ} (hv : VSw entry c)
    (h : SegInv entry vals cases c (.seg lab chk s r) σ) (hok : ChainOk cases (.seg lab chk s r)) :
    SegInv entry vals cases c r { σ with im := σ.im.or (labelMask entry vals cases lab) } := by
  obtain ⟨t, ht⟩ := hv.cf
  refine ⟨?_, ?_, ?_⟩
  · exact
    { bemfm := h.inv.bemfm
      act := fun l h1 h2 => by
        simp only [Mask.or_apply, Bool.or_eq_true] at h1
        rcases h1 with h1 | h1
        · exact h.inv.act l h1 h2
        · rw [labelMask_eq] at h1
          simp only [Bool.and_eq_true] at h1
          have := h.fresh l (by simp [hit, h1.2]) h1.1 h2
          refine ⟨this.2.1, this.2.2, h.inv.hc hv.hc l, ?_⟩
          simp [hv.bem, h1.1, h2]
      pos := fun hp => by
        have := hp.2 (by rw [ht]; rfl)
        rw [hv.sw] at this; cases this
      d0 := fun hd => by rw [ht] at hd; simp [vdepth] at hd
      nu := h.inv.nu
      hc := h.inv.hc
      hb := h.inv.hb
      excl := h.inv.excl }
  · intro l hl
    simp only [Mask.or_apply, labelMask_eq, Bool.or_eq_true, Bool.and_eq_true] at hl
    rcases hl with hl | hl
    · exact h.sub l hl
    · exact hl.1
  · intro l hl he hf
    have := h.fresh l (by simp [hit, hl]) he hf
    refine ⟨?_, this.2⟩
    simp only [Mask.or_apply, this.1, labelMask_eq, he, Bool.true_and, Bool.false_or]
    cases hs : sel cases (vals l) lab
    · rfl
    · rw [hok.hit_tail hs] at hl; cases hl

theorem SegInv.step {A} {entry : Mask n} {vals cases c r σ σ'} (h : SegInv entry vals cases c r σ)
    (hp : Post A c σ .normal σ') : SegInv entry vals cases c r σ' :=
  ⟨h.inv.of_post hp (by simp), fun l hl => h.sub l (hp.mono l hl), fun l hh he hf => by
    obtain ⟨a, b, d⟩ := h.fresh l hh he hf
    exact ⟨hp.imoff a, (hp.offm l a).1.trans b, (hp.offm l a).2.1.trans d⟩⟩

/-- How the outcome of a switch body looks from outside. -/
def swOut : Out → Out
  | .ret => .ret
  | _ => .normal

theorem LP.of_seg {A} {entry : Mask n} {c₀ c : Ctx n} {σ o σ'} (hfm : c.fm = c₀.fm) (hp : Post A c σ o σ')
    (hsub : ∀ l, σ.im l = true → entry l = true) :
    LP false A c₀ { σ with im := entry } (swOut o) σ' := by
  have off : ∀ l, entry l = false → σ.im l = false := fun l he => by
    cases him : σ.im l
    · rfl
    · rw [hsub l him] at he; cases he
  have hr : swOut o = .ret → o = .ret := by cases o <;> simp [swOut]
  exact
  { mono := fun l h => hsub l (hp.mono l h)
    offm := fun l hl => ⟨(hp.offm l (off l hl)).1, (hp.offm l (off l hl)).2.2.2⟩
    offf := fun l hl => hp.offf l (by rw [hfm]; exact hl.imp (off l) id)
    act := fun h l h1 h2 => (hp.act l h1 (by rw [hfm]; exact h2)).1
    conv := fun h => by cases h
    retn := fun h l h2 => hp.retn (hr h) l (by rw [hfm]; exact h2)
    frame := hp.frame }

theorem LP.of_seg' {A} {entry : Mask n} {c₀ c : Ctx n} {σ σ'} (hfm : c.fm = c₀.fm) (hp : Post A c σ .normal σ')
    (hsub : ∀ l, σ.im l = true → entry l = true) :
    LP false A c₀ { σ with im := entry } .normal { σ' with im := entry } := by
  have h := LP.of_seg (c₀ := c₀) hfm hp hsub
  exact ⟨fun _ h => h, h.offm, h.offf, (fun h => by simp at h), (fun h => by simp at h),
    (fun h => by simp at h), h.frame⟩

theorem segsV_post {A} {entry : Mask n} {vals cases} {c₀ c : Ctx n} {exec} (hv : VSw entry c) (hfm : c.fm = c₀.fm)
    (hgood : ∀ s, s.assigned ⊆ A → Good A c (fun _ σ => exec s σ)) :
    ∀ rest σ o σ', rest.assigned ⊆ A → ChainOk cases rest → SegInv entry vals cases c rest σ →
    segsV entry vals cases exec rest σ = some (o, σ') →
    LP false A c₀ { σ with im := entry } (swOut o) σ' := by
  intro rest
  induction rest with
  | skip =>
    intro σ o σ' _ _ hi h
    simp only [segsV, Option.some.injEq, Prod.mk.injEq] at h
    obtain ⟨rfl, rfl⟩ := h
    exact ⟨hi.sub, fun _ _ => ⟨rfl, rfl, rfl⟩, fun _ _ => ⟨rfl, rfl⟩,
      (fun h => by simp [swOut] at h), (fun h => by simp at h), (fun h => by simp [swOut] at h), fun _ _ => rfl⟩
  | seg lab chk s r _ ihr =>
    intro σ o σ' hA hok hi h
    have hA1 : s.assigned ⊆ A := fun x hx => hA (Or.inl hx)
    have hA2 : r.assigned ⊆ A := fun x hx => hA (Or.inr hx)
    have hl := hi.label hv hok
    simp only [segsV] at h
    split at h
    · exact ihr { σ with im := σ.im.or (labelMask entry vals cases lab) } _ _ hA2 hok.tail hl h
    · rcases andThen_some h with ⟨h1, ho⟩ | ⟨σ₁, h1, h2⟩
      · exact LP.of_seg (σ := { σ with im := σ.im.or (labelMask entry vals cases lab) }) hfm
          (hgood s hA1 _ _ _ hl.inv h1) hl.sub
      · have p1 := hgood s hA1 _ _ _ hl.inv h1
        exact (LP.of_seg' (c₀ := c₀) hfm p1 hl.sub).seq (ihr _ _ _ hA2 hok.tail (hl.step p1) h2)
  | _ => intro σ o σ' _ _ _ h; simp [segsV] at h

theorem segsU_post {A} {c : Ctx n} {exec} {u : Bool}
    (hgood : ∀ s, (u = true → hasVBC 0 s = false) → s.assigned ⊆ A → Good A c (fun _ σ => exec s σ)) :
    ∀ rest σ o σ', rest.assigned ⊆ A → (u = true → hasVBC 0 rest = false) → Inv c σ →
    segsU exec rest σ = some (o, σ') → Post A c σ o σ' := by
  intro rest
  induction rest with
  | skip =>
    intro σ o σ' _ _ hi h
    simp only [segsU, Option.some.injEq, Prod.mk.injEq] at h
    obtain ⟨rfl, rfl⟩ := h
    exact .refl hi
  | seg lab chk s r _ ihr =>
    intro σ o σ' hA hl hi h
    have hA1 : s.assigned ⊆ A := fun x hx => hA (Or.inl hx)
    have hA2 : r.assigned ⊆ A := fun x hx => hA (Or.inr hx)
    have hl1 : u = true → hasVBC 0 s = false := fun hu => by have := hl hu; simp [hasVBC] at this; exact this.1
    have hl2 : u = true → hasVBC 0 r = false := fun hu => by have := hl hu; simp [hasVBC] at this; exact this.2
    simp only [segsU] at h
    rcases andThen_some h with ⟨h1, ho⟩ | ⟨σ₁, h1, h2⟩
    · exact hgood s hl1 hA1 _ _ _ hi h1
    · have p1 := hgood s hl1 hA1 _ _ _ hi h1
      exact (p1.seq (ihr _ _ _ hA2 hl2 (hi.of_post p1 (by simp)) h2)).weaken (by simp)
  | _ => intro σ o σ' _ _ _ h; simp [segsU] at h

theorem findCase_sub {v} : ∀ {s t}, findCase v s = some t →
    t.assigned ⊆ s.assigned ∧ (hasVBC 0 s = false → hasVBC 0 t = false) ∧ (isChain s = true → isChain t = true) := by
  intro s
  induction s with
  | seg lab chk s r _ ihr =>
    intro t h
    have key : ∀ {t}, findCase v r = some t → t.assigned ⊆ (Stmt.seg lab chk s r).assigned ∧
        (hasVBC 0 (.seg lab chk s r) = false → hasVBC 0 t = false) ∧
        (isChain (.seg lab chk s r) = true → isChain t = true) := fun h => by
      have := ihr h
      exact ⟨fun x hx => Or.inr (this.1 hx), fun h => by simp [hasVBC] at h; exact this.2.1 h.2, this.2.2⟩
    cases lab with
    | none => exact key h
    | some w =>
      simp only [findCase] at h
      split at h
      · simp only [Option.some.injEq] at h; subst h; exact ⟨fun _ h => h, id, id⟩
      · exact key h
  | _ => intro t h; simp [findCase] at h

theorem findDefault_sub : ∀ {s t}, findDefault s = some t →
    t.assigned ⊆ s.assigned ∧ (hasVBC 0 s = false → hasVBC 0 t = false) ∧ (isChain s = true → isChain t = true) := by
  intro s
  induction s with
  | seg lab chk s r _ ihr =>
    intro t h
    cases lab with
    | none => simp only [findDefault, Option.some.injEq] at h; subst h; exact ⟨fun _ h => h, id, id⟩
    | some w =>
      have := ihr h
      exact ⟨fun x hx => Or.inr (this.1 hx), fun h => by simp [hasVBC] at h; exact this.2.1 h.2, this.2.2⟩
  | _ => intro t h; simp [findDefault] at h

theorem switchEntry_sub {v s t} (h : switchEntry v s = some t) :
    t.assigned ⊆ s.assigned ∧ (hasVBC 0 s = false → hasVBC 0 t = false) ∧ (isChain s = true → isChain t = true) := by
  unfold switchEntry at h
  split at h
  · simp only [Option.some.injEq] at h; subst h; rename_i h; exact findCase_sub h
  · exact findDefault_sub h

theorem Inv.pushSwitchU {c : Ctx n} {σ : St n} (hi : Inv c σ) (u : Bool) :
    Inv (c.pushSwitch u true (full c σ)) { σ with brk := allOff, cont := allOff } where
  bemfm := fun l hl => by simp [Ctx.pushSwitch] at hl ⊢; exact hl.2
  act := fun l h1 h2 => by
    simp [Ctx.pushSwitch] at h1 h2 ⊢
    exact ⟨(hi.act l h1 h2).1, h1, h2⟩
  pos := fun _ l hl => by simp [Ctx.pushSwitch] at hl; exact Or.inl hl.1
  d0 := fun hd => by
    cases u
    · simp [Ctx.pushSwitch, vdepth] at hd
    · exact hi.d0 (by simpa [Ctx.pushSwitch, vdepth] using hd)
  nu := fun _ _ => ⟨rfl, rfl⟩
  hc := fun _ _ => rfl
  hb := fun _ _ => rfl
  excl := fun l _ => by simp

theorem LP.of_switchU {A} {c : Ctx n} {u m σ o σ'} (h : Post A (c.pushSwitch u true m) σ o σ')
    (hi : Inv (c.pushSwitch u true m) σ) : LP u A c σ (swOut o) σ' := by
  have hr : swOut o = .ret → o = .ret := by cases o <;> simp [swOut]
  have hr' : swOut o = .normal → o ≠ .ret := by cases o <;> simp [swOut]
  exact
  { mono := h.mono
    offm := fun l hl => ⟨(h.offm l hl).1, (h.offm l hl).2.2.2⟩
    offf := h.offf
    act := fun _ l h1 h2 => (h.act l h1 h2).1
    conv := fun hu ho l h1 h2 => by
      have hn := h.nu (fun x hx => by simp [Ctx.pushSwitch, nearest] at hx; subst hx; exact hu) l
      rcases h.conv' hi (hr' ho) l h1 h2 with h | h
      · exact Or.inl h
      · right; simpa [St.flag, hn.1, hn.2] using h
    retn := fun ho => h.retn (hr ho)
    frame := h.frame }

theorem SegInv.init {c : Ctx n} {σ : St n} (hi : Inv c σ) (vals cases body) :
    SegInv σ.im vals cases (c.pushSwitch false false (full c σ)) body
      { σ with brk := allOff, cont := allOff, im := allOff } := by
  refine ⟨?_, ?_, ?_⟩
  · exact
    { bemfm := fun l hl => by simp [Ctx.pushSwitch] at hl ⊢; exact hl.2
      act := fun l h1 => by simp at h1
      pos := fun hp => by have := hp.2 rfl; simp [Ctx.pushSwitch] at this
      d0 := fun hd => by simp [Ctx.pushSwitch, vdepth] at hd
      nu := fun _ _ => ⟨rfl, rfl⟩
      hc := fun _ _ => rfl
      hb := fun _ _ => rfl
      excl := fun l _ => by simp }
  · intro l hl; simp at hl
  · intro l _ he hf
    exact ⟨rfl, (hi.act l he hf).1, rfl⟩

theorem VSw.push (c : Ctx n) (σ : St n) : VSw σ.im (c.pushSwitch false false (full c σ)) :=
  ⟨rfl, ⟨c.cf, rfl⟩, rfl, rfl, rfl⟩

theorem doSwitch_some {c : Ctx n} {e body exec σ o σ'} (h : doSwitch c e body exec σ = some (o, σ')) :
    ∃ r : Out × St n, (if e.isUniform then
        match switchEntry (σ.evalU e) body with
        | none => some (.normal, { σ with brk := allOff, cont := allOff })
        | some ch => segsU (exec (c.pushSwitch (e.isUniform && !hasVBC 0 body) e.isUniform (full c σ))) ch
            { σ with brk := allOff, cont := allOff }
      else
        segsV σ.im (fun l => σ.eval e l) (caseVals body)
          (exec (c.pushSwitch (e.isUniform && !hasVBC 0 body) e.isUniform (full c σ))) body
          { σ with brk := allOff, cont := allOff, im := allOff }) = some r ∧
      ((r.1 = .ret ∧ o = .ret ∧ σ' = { r.2 with brk := σ.brk, cont := σ.cont }) ∨
       (r.1 ≠ .ret ∧ r.1 ≠ .cont ∧ o = .normal ∧
        σ' = (if (e.isUniform && !hasVBC 0 body) = true then { r.2 with brk := σ.brk, cont := σ.cont }
          else restoreMask σ.im { r.2 with brk := σ.brk, cont := σ.cont }))) := by
  simp only [doSwitch] at h
  split at h
  · cases h
  · rename_i σ₁ h1
    simp only [Option.some.injEq, Prod.mk.injEq] at h
    exact ⟨_, h1, Or.inl ⟨rfl, h.1.symm, h.2.symm⟩⟩
  · cases h
  · rename_i o₁ σ₁ n1 n2 h1
    simp only [Option.some.injEq, Prod.mk.injEq] at h
    exact ⟨_, h1, Or.inr ⟨fun h => n1 (by rw [← h]), fun h => n2 (by rw [← h]), h.1.symm, h.2.symm⟩⟩

/-! ### All statements -/

theorem simple_hasVBC {s} (h : isSimple s = true) : hasVBC 0 s = false := by
  induction s with
  | seq a b iha ihb => simp [isSimple] at h; simp [hasVBC, iha h.1, ihb h.2]
  | _ => first | rfl | simp [isSimple] at h

theorem wrapLoop_some {u} {σ : St n} {iter o σ'} (h : wrapLoop u σ iter = some (o, σ')) :
    ∃ o₁ σ₁, iter { σ with brk := allOff, cont := allOff } = some (o₁, σ₁) ∧ o = o₁ ∧
      σ' = (if u || o₁ = .ret then { σ₁ with brk := σ.brk, cont := σ.cont }
        else restoreMask σ.im { σ₁ with brk := σ.brk, cont := σ.cont }) := by
  unfold wrapLoop at h
  split at h
  · cases h
  · rename_i o₁ σ₁ h1
    simp only [Option.some.injEq, Prod.mk.injEq] at h
    exact ⟨o₁, σ₁, h1, h.1.symm, h.2.symm⟩

theorem forU_out {c : Ctx n} {e step body} : ∀ {k σ o σ'}, forU c e step body k σ = some (o, σ') →
    o = .normal ∨ o = .ret := by
  intro k
  induction k with
  | zero => intro σ o σ' h; simp [forU] at h
  | succ k ih =>
    intro σ o σ' h
    simp only [forU] at h
    repeat' split at h
    all_goals first | exact ih h | (simp at h; simp [← h.1]) | simp at h

theorem forV_out {c : Ctx n} {e coh step body} : ∀ {k σ o σ'}, forV c e coh step body k σ = some (o, σ') →
    o = .normal ∨ o = .ret := by
  intro k
  induction k with
  | zero => intro σ o σ' h; simp [forV] at h
  | succ k ih =>
    intro σ o σ' h
    simp only [forV] at h
    repeat' split at h
    all_goals first | exact ih h | (simp at h; simp [← h.1]) | simp at h

theorem doU_out {c : Ctx n} {e body} : ∀ {k σ o σ'}, doU c e body k σ = some (o, σ') →
    o = .normal ∨ o = .ret := by
  intro k
  induction k with
  | zero => intro σ o σ' h; simp [doU] at h
  | succ k ih =>
    intro σ o σ' h
    simp only [doU] at h
    repeat' split at h
    all_goals first | exact ih h | (simp at h; simp [← h.1]) | simp at h

theorem doV_out {c : Ctx n} {e coh body} : ∀ {k σ o σ'}, doV c e coh body k σ = some (o, σ') →
    o = .normal ∨ o = .ret := by
  intro k
  induction k with
  | zero => intro σ o σ' h; simp [doV] at h
  | succ k ih =>
    intro σ o σ' h
    simp only [doV] at h
    repeat' split at h
    all_goals first | exact ih h | (simp at h; simp [← h.1]) | simp at h

theorem post_all {P : Prog} : ∀ k s (c : Ctx n), CtxOk c → Legal c.cf s →
    Good s.assigned c (run P k s) := by
  intro k
  induction k with
  | zero => intro s c _ _ σ o σ' _ h; simp [run] at h
  | succ k ih =>
    intro s c hk hl σ o σ' hi h
    cases s with
    | skip =>
      simp only [run, Option.some.injEq, Prod.mk.injEq] at h
      obtain ⟨rfl, rfl⟩ := h
      exact .refl hi
    | uassign x e =>
      simp only [run, Option.some.injEq, Prod.mk.injEq] at h
      obtain ⟨rfl, rfl⟩ := h
      exact { Post.refl (A := {x}) hi with
        frame := fun y hy => by
          have : y ≠ x := fun e => hy (by rw [e]; rfl)
          simp [upd1, this] }
    | vassign b a i e =>
      simp only [run, Option.some.injEq, Prod.mk.injEq] at h
      obtain ⟨rfl, rfl⟩ := h
      exact post_vassign hi b a i e
    | seq s₁ s₂ =>
      simp only [run] at h
      rcases andThen_some h with ⟨h1, _⟩ | ⟨σ₁, h1, h2⟩
      · exact (ih s₁ c hk hl.left _ _ _ hi h1).weaken (fun x hx => Or.inl hx)
      · have p1 := ih s₁ c hk hl.left _ _ _ hi h1
        exact p1.seq (ih s₂ c hk hl.right _ _ _ (hi.of_post p1 (by simp)) h2)
    | ite e coh pred s₁ s₂ =>
      simp only [run] at h
      split at h
      · rename_i he
        have hi' : Inv (c.pushIf true) σ :=
          ⟨hi.bemfm, hi.act, fun hp => hi.pos ⟨by simpa [Ctx.pushIf, vifs] using hp.1, hp.2⟩,
            fun hd => hi.d0 (by simpa [Ctx.pushIf, vdepth] using hd), hi.nu, hi.hc, hi.hb, hi.excl⟩
        have back : ∀ {A o σ'}, Post A (c.pushIf true) σ o σ' → Post A c σ o σ' := fun p =>
          ⟨p.mono, p.offm, p.offf, p.act, p.conv, p.jump, p.retn, p.nu, p.hc, p.hb, p.excl, p.frame⟩
        split at h
        · exact (back (ih s₁ _ (hk.pushIf true) (hl.ifU he).1 _ _ _ hi' h)).weaken (fun x hx => Or.inl hx)
        · exact (back (ih s₂ _ (hk.pushIf true) (hl.ifU he).2 _ _ _ hi' h)).weaken (fun x hx => Or.inr hx)
      · rename_i he
        have he : e.isUniform = false := by simpa using he
        exact post_varyingIf hi (ih s₁ _ (hk.pushIf false) (hl.ifV he).1) (ih s₂ _ (hk.pushIf false) (hl.ifV he).2) h
    | loop e coh step body =>
      simp only [run] at h
      split at h
      · cases h
      rename_i hsim
      have hsim : isSimple step = true := by simpa using hsim
      have gb : ∀ u m, (u = true → hasVBC 0 body = false) →
          Good (step.assigned ∪ body.assigned) (c.pushLoop u m) (run P k body) := fun u m hu σ o σ' hi h =>
        (ih body _ (.pushLoop c u m) (.loop c hu) σ o σ' hi h).weaken (fun x hx => Or.inr hx)
      have gs : ∀ u m, Good (step.assigned ∪ body.assigned) (c.pushLoop u m) (run P k step) := fun u m σ o σ' hi h =>
        (ih step _ (.pushLoop c u m) (.loop c (fun _ => simple_hasVBC hsim)) σ o σ' hi h).weaken (fun x hx => Or.inl hx)
      split at h
      · rename_i hu
        have hu : e.isUniform = true ∧ hasVBC 0 body = false := by simpa [loopUnif] using hu
        obtain ⟨o', σ₁, h1, rfl, rfl⟩ := wrapLoop_some h
        have lp := forU_post (fun m => gb true m (fun _ => hu.2)) (gs true) k _ _ _ (Head.of_inv true hi) h1
        exact wrap_post hi (forU_out h1) lp
      · obtain ⟨o', σ₁, h1, rfl, rfl⟩ := wrapLoop_some h
        have lp := forV_post (fun m => gb false m (fun h => by cases h)) (gs false)
          (fun c σ o σ' h => (simple_run k step c σ o σ' hsim h).2.2.2 |> fun h => ⟨h.1, h.2.1⟩)
          k _ _ _ (Head.of_inv false hi) h1
        exact wrap_post hi (forV_out h1) lp
    | doloop body e coh =>
      simp only [run] at h
      have gb : ∀ u m, (u = true → hasVBC 0 body = false) →
          Good body.assigned (c.pushLoop u m) (run P k body) := fun u m hu σ o σ' hi h =>
        (ih body _ (.pushLoop c u m) (.loop c hu) σ o σ' hi h)
      split at h
      · rename_i hu
        have hu : e.isUniform = true ∧ hasVBC 0 body = false := by simpa [loopUnif] using hu
        obtain ⟨o', σ₁, h1, rfl, rfl⟩ := wrapLoop_some h
        exact wrap_post hi (doU_out h1) (doU_post (fun m => gb true m (fun _ => hu.2)) k _ _ _ (Head.of_inv true hi) h1)
      · obtain ⟨o', σ₁, h1, rfl, rfl⟩ := wrapLoop_some h
        exact wrap_post hi (doV_out h1) (doV_post (fun m => gb false m (fun h => by cases h)) k _ _ _
          (Head.of_inv false hi) h1)
    | brk => exact post_break hk hi hl h
    | cont => exact post_continue hk hi h
    | ret e => exact post_return hi h
    | switch e body =>
      simp only [run] at h
      split at h
      · rename_i hok
        simp only [switchOk, Bool.and_eq_true, decide_eq_true_eq] at hok
        obtain ⟨r, hr, h⟩ := doSwitch_some h
        have lp : LP (e.isUniform && !hasVBC 0 body) body.assigned c { σ with brk := allOff, cont := allOff }
            (swOut r.1) r.2 := by
          split at hr
          · rename_i he
            simp only [he, Bool.true_and] at hr ⊢
            have ii := hi.pushSwitchU (!hasVBC 0 body)
            split at hr
            · simp only [Option.some.injEq] at hr
              subst hr
              exact LP.of_switchU (.refl ii) ii
            · rename_i ch hch
              have hsub := switchEntry_sub hch
              refine LP.of_switchU (segsU_post (u := !hasVBC 0 body) ?_ ch _ _ _ hsub.1
                (fun hu => hsub.2.1 (by simpa using hu)) ii hr) ii
              intro s hu hA σ o σ' hi h
              exact (ih s _ (.pushSwitch c _ _ _ (fun _ => rfl)) (.switch c hu) _ _ _ hi h).weaken hA
          · rename_i he
            have he : e.isUniform = false := by simpa using he
            simp only [he, Bool.false_and] at hr ⊢
            refine segsV_post (c₀ := c) (VSw.push c σ) rfl ?_ body _ _ _ (fun _ h => h)
              ⟨hok.1.2, fun _ h => h, hok.2⟩ (SegInv.init hi _ _ _) hr
            intro s hA σ o σ' hi h
            exact (ih s _ (.pushSwitch c _ _ _ (fun h => by cases h)) (.switch c (fun h => by cases h))
              _ _ _ hi h).weaken hA
        have hw : Post (Stmt.switch e body).assigned c σ _ _ := wrap_post hi (by cases r.1 <;> simp [swOut]) lp
        rcases h with ⟨h1, rfl, rfl⟩ | ⟨h1, h2, rfl, rfl⟩
        · rw [h1] at hw
          simpa [swOut] using hw
        · have e1 : swOut r.1 = .normal := by cases hx : r.1 <;> simp_all [swOut]
          rw [e1] at hw
          simpa using hw
      · cases h
    | seg lab chk s r => simp [run] at h
    | call dst f us vs =>
      simp only [run, funcBody_eq] at h
      have ice : Inv (enterCtx (full c σ)) (enterSt σ us vs) :=
        ⟨fun _ h => h, fun l _ h2 => ⟨rfl, rfl, rfl, h2⟩, fun _ _ _ => Or.inl rfl, fun _ _ _ => Or.inl rfl,
          fun _ _ => ⟨rfl, rfl⟩, fun _ _ => rfl, fun _ _ => rfl, fun _ _ => by simp [enterSt]⟩
      have fin : ∀ {o' σ'}, run P k (P f).body (enterCtx (full c σ)) (enterSt σ us vs) = some (o', σ') →
          Post (Stmt.call dst f us vs).assigned c σ .normal { σ with ext := σ'.ext, loc := fun l => if σ.im l then upd2 (σ.loc l) dst 0 (σ'.rv l) else σ.loc l } := by
        intro o' σ' h1
        have p := ih (P f).body _ (.enter _) (.none rfl) _ _ _ ice h1
        refine { Post.refl hi with offm := ?_, offf := ?_ }
        · intro l hl; simp [hl]
        · intro l hl
          have := (p.offf l (Or.inr (by rcases hl with h | h <;> simp [enterCtx, h]))).1
          exact ⟨this, rfl⟩
      split at h
      · simp only [Option.some.injEq, Prod.mk.injEq] at h
        obtain ⟨rfl, rfl⟩ := h
        rename_i h1
        exact fin h1
      · simp only [Option.some.injEq, Prod.mk.injEq] at h
        obtain ⟨rfl, rfl⟩ := h
        rename_i h1
        exact fin h1
      · cases h

end Ispc.Spmd
