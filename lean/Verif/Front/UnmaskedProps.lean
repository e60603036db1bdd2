import Verif.Front.Unmasked

/-!
# C93: theorems about the mask around unmasked blocks
-/

namespace Ispc.Unmasked

/-! ## Specification -/

/-- What a statement does: a store is for all program instances inside of `unmasked` (`um`), and for those of the mask
    of the function elsewhere. -/
def spec {n : Nat} (env : Nat → Nat → Bool) (m : Fin n → Bool) (fuel : Nat) : Stmt → Bool → Nat → Res n
  | .store x, um, t => ⟨[(x, if um then fun _ => true else m)], .on, t⟩
  | .ret, _, t => ⟨[], .ret, t⟩
  | .brk, _, t => ⟨[], .brk, t⟩
  | .cont, _, t => ⟨[], .cont, t⟩
  | .seq a b, um, t => (spec env m fuel a um t).andThen (spec env m fuel b um)
  | .ifUniform c a b, um, t => if env c t then spec env m fuel a um (t + 1) else spec env m fuel b um (t + 1)
  | .loop c s, um, t => iterate env c (spec env m fuel s um) fuel t
  | .unmasked s, _, t => spec env m fuel s true t

/-- The end of the statement has a block: it is not behind a `return`, `break` or `continue`. -/
def Stmt.falls : Stmt → Bool
  | .store _ => true
  | .ret | .brk | .cont => false
  | .seq a b => a.falls && b.falls
  | .ifUniform _ _ _ | .loop _ _ => true
  | .unmasked s => s.falls

/-- No `unmasked` block ends with `return`, `break` or `continue`. -/
def Stmt.Closed : Stmt → Prop
  | .store _ | .ret | .brk | .cont => True
  | .seq a b | .ifUniform _ a b => a.Closed ∧ b.Closed
  | .loop _ s => s.Closed
  | .unmasked s => s.Closed ∧ s.falls = true

/-! ## The emission -/

theorem emit_dead (s : Stmt) (b : Bool) : (emit s ⟨false, b⟩).2 = ⟨false, b⟩ := by
  induction s with
  | seq a b' iha ihb => simp only [emit]; rw [iha]; exact ihb
  | _ => simp [emit]

theorem andThen_off {n : Nat} (r : Res n) (f g : Nat → Res n) (h : r.how ≠ .on) : r.andThen f = r.andThen g := by
  simp [Res.andThen, h]

theorem emit_spec (s : Stmt) {n : Nat} (env : Nat → Nat → Bool) (m : Fin n → Bool) (fuel : Nat) : ∀ b, s.Closed →
    (emit s ⟨true, b⟩).2 = ⟨s.falls, b⟩ ∧ exec env m fuel (emit s ⟨true, b⟩).1 = spec env m fuel s b ∧
      (s.falls = false → ∀ t, (spec env m fuel s b t).how ≠ .on) := by
  induction s with
  | store x => intro b _; exact ⟨rfl, by funext t; simp [emit, exec, spec], by simp [Stmt.falls]⟩
  | ret => intro b _; exact ⟨rfl, by funext t; simp [emit, exec, spec], by simp [spec]⟩
  | brk => intro b _; exact ⟨rfl, by funext t; simp [emit, exec, spec], by simp [spec]⟩
  | cont => intro b _; exact ⟨rfl, by funext t; simp [emit, exec, spec], by simp [spec]⟩
  | seq a b' iha ihb =>
    intro b hc
    obtain ⟨h1, h2, h3⟩ := iha b hc.1
    simp only [emit]
    rw [h1]
    cases hf : a.falls with
    | true =>
      obtain ⟨g1, g2, g3⟩ := ihb b hc.2
      refine ⟨by rw [g1]; simp [Stmt.falls, hf], by funext t; simp [exec, spec, h2, g2], ?_⟩
      intro h t
      simp only [Stmt.falls, hf, Bool.true_and] at h
      simp only [spec, Res.andThen]
      split_ifs with hr
      · exact g3 h _
      · exact hr
    | false =>
      refine ⟨by rw [emit_dead]; simp [Stmt.falls, hf], ?_, ?_⟩
      · funext t
        simp only [exec, spec, h2]
        exact andThen_off _ _ _ (h3 hf t)
      · intro _ t
        simp only [spec, Res.andThen, if_neg (h3 hf t)]
        exact h3 hf t
  | ifUniform c a b' iha ihb =>
    intro b hc
    obtain ⟨h1, h2, _⟩ := iha b hc.1
    obtain ⟨g1, g2, _⟩ := ihb b hc.2
    simp only [emit, Bool.not_true, Bool.false_eq_true, if_false]
    rw [h1]
    simp only
    rw [g1]
    exact ⟨rfl, by funext t; simp [exec, spec, h2, g2], by simp [Stmt.falls]⟩
  | loop c s ih =>
    intro b hc
    obtain ⟨h1, h2, _⟩ := ih b hc
    simp only [emit, Bool.not_true, Bool.false_eq_true, if_false]
    rw [h1]
    exact ⟨rfl, by funext t; simp [exec, spec, h2], by simp [Stmt.falls]⟩
  | unmasked s ih =>
    intro b hc
    obtain ⟨h1, h2, h3⟩ := ih true hc.1
    simp only [emit, Bool.not_true, Bool.false_eq_true, if_false]
    rw [h1]
    simp only [hc.2, Bool.not_true, Bool.false_eq_true, if_false, Stmt.falls]
    exact ⟨trivial, by funext t; simp [h2, spec], by simp⟩

/-! ## The property -/

/-- **`unmasked` changes the mask inside of the block only**: every store is for the program instances that the source
    says, for every number of iterations, if no `unmasked` block ends with `return`, `break` or `continue`. -/
theorem unmasked_block_partial (body : Stmt) (hc : body.Closed) {n : Nat} (env : Nat → Nat → Bool) (m : Fin n → Bool)
    (fuel t : Nat) : exec env m fuel (compile body) t = spec env m fuel body false t :=
  congrFun (emit_spec body env m fuel false hc).2.1 t

/-- There is no `unmasked` block. -/
def Stmt.Plain : Stmt → Prop
  | .store _ | .ret | .brk | .cont => True
  | .seq a b | .ifUniform _ a b => a.Plain ∧ b.Plain
  | .loop _ s => s.Plain
  | .unmasked _ => False

theorem plain_closed (s : Stmt) (h : s.Plain) : s.Closed := by
  induction s with
  | seq a b iha ihb => exact ⟨iha h.1, ihb h.2⟩
  | ifUniform c a b iha ihb => exact ⟨iha h.1, ihb h.2⟩
  | loop c s ih => exact ih h
  | unmasked s _ => exact h.elim
  | _ => trivial

theorem andThen_log {n : Nat} (r : Res n) (f : Nat → Res n) (m : Fin n → Bool) (hr : ∀ e ∈ r.log, e.2 = m)
    (hf : ∀ t, ∀ e ∈ (f t).log, e.2 = m) : ∀ e ∈ (r.andThen f).log, e.2 = m := by
  intro e he
  unfold Res.andThen at he
  split_ifs at he
  · rcases List.mem_append.1 he with he | he
    · exact hr e he
    · exact hf _ e he
  · exact hr e he

theorem iterate_log {n : Nat} (env : Nat → Nat → Bool) (c : Nat) (body : Nat → Res n) (m : Fin n → Bool)
    (hb : ∀ t, ∀ e ∈ (body t).log, e.2 = m) (fuel : Nat) : ∀ t, ∀ e ∈ (iterate env c body fuel t).log, e.2 = m := by
  induction fuel with
  | zero => intro t e he; simp [iterate] at he
  | succ fuel ih =>
    intro t e he
    simp only [iterate] at he
    split_ifs at he
    · split at he
      · exact andThen_log ⟨(body (t + 1)).log, .on, (body (t + 1)).time⟩ _ m (hb (t + 1)) ih e he
      · exact andThen_log ⟨(body (t + 1)).log, .on, (body (t + 1)).time⟩ _ m (hb (t + 1)) ih e he
      · exact hb _ e he
      · exact hb _ e he
      · exact hb _ e he
    · simp at he

theorem plain_spec (s : Stmt) (h : s.Plain) {n : Nat} (env : Nat → Nat → Bool) (m : Fin n → Bool) (fuel : Nat) :
    ∀ t, ∀ e ∈ (spec env m fuel s false t).log, e.2 = m := by
  induction s with
  | store x => simp [spec]
  | ret => simp [spec]
  | brk => simp [spec]
  | cont => simp [spec]
  | seq a b iha ihb => intro t; exact andThen_log _ _ m (iha h.1 t) (ihb h.2)
  | ifUniform c a b iha ihb =>
    intro t e he
    simp only [spec] at he
    split_ifs at he
    · exact iha h.1 _ e he
    · exact ihb h.2 _ e he
  | loop c s ih => intro t; exact iterate_log env c _ m (ih h) fuel t
  | unmasked s _ => exact h.elim

/-- **Inactive program instances store nothing without `unmasked`.** -/
theorem masked_stores (body : Stmt) (h : body.Plain) {n : Nat} (env : Nat → Nat → Bool) (m : Fin n → Bool)
    (fuel t : Nat) : ∀ e ∈ (exec env m fuel (compile body) t).log, e.2 = m := by
  rw [unmasked_block_partial body (plain_closed body h) env m]
  exact plain_spec body h env m fuel t

/-- A loop that runs twice, with an `unmasked` block that may return on a condition. -/
def sample : Stmt := .seq (.loop 0 (.seq (.unmasked (.ifUniform 1 .ret (.store 1))) (.store 2))) (.store 3)

example : sample.Closed := by simp [sample, Stmt.Closed, Stmt.falls]

example : exec (fun c t => c = 0 ∧ t < 4) (fun l : Fin 2 => decide (l = 0)) 5 (compile sample) 0 =
    ⟨[(1, fun _ => true), (2, fun l => decide (l = 0)), (1, fun _ => true), (2, fun l => decide (l = 0)),
      (3, fun l => decide (l = 0))], .on, 5⟩ := by
  simp [sample, compile, emit, exec, iterate, Res.andThen]

example : (Stmt.loop 0 (.seq (.store 1) .brk)).Plain := by simp [Stmt.Plain]

/-- **After `if (c) { unmasked { return; } }` the mask of the function is lost**: the stores in `else` and behind it are
    for all program instances, also if the condition does not hold and the block is never entered. -/
theorem mask_lost_wrong (x : Nat) {n : Nat} (m : Fin n → Bool) (fuel : Nat) :
    exec (fun _ _ => false) m fuel (compile (.seq (.ifUniform 0 (.unmasked .ret) (.store x)) (.store x))) 0 =
      ⟨[(x, fun _ => true), (x, fun _ => true)], .on, 1⟩ ∧
    spec (fun _ _ => false) m fuel (.seq (.ifUniform 0 (.unmasked .ret) (.store x)) (.store x)) false 0 =
      ⟨[(x, m), (x, m)], .on, 1⟩ := by
  refine ⟨?_, ?_⟩ <;> simp [compile, emit, exec, spec, Res.andThen]

/-- **So it is after a loop whose `unmasked` block ends with `break`**, even if the loop does not run at all. -/
theorem mask_lost_in_loop_wrong (x : Nat) {n : Nat} (m : Fin n → Bool) (fuel : Nat) :
    exec (fun _ _ => false) m (fuel + 1) (compile (.seq (.loop 0 (.unmasked .brk)) (.store x))) 0 =
      ⟨[(x, fun _ => true)], .on, 1⟩ ∧
    spec (fun _ _ => false) m (fuel + 1) (.seq (.loop 0 (.unmasked .brk)) (.store x)) false 0 =
      ⟨[(x, m)], .on, 1⟩ := by
  refine ⟨?_, ?_⟩ <;> simp [compile, emit, exec, spec, iterate, Res.andThen]

end Ispc.Unmasked
