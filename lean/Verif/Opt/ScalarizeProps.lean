import Verif.Opt.Scalarize

/-!
# C89: theorems about the pass that makes vector arithmetic scalar
-/

namespace Ispc.Scalarize

variable {α : Type}

/-- `env` holds the results of the instructions. -/
def Valid (s : Sem α) (blk : List (Instr α)) (env : List (V α)) : Prop :=
  env.length = blk.length ∧ ∀ (k : Nat) (ins : Instr α), blk[k]? = some ins → ∃ v, env[k]? = some v ∧ ins.eval s (env.take k) = some v

theorem run_prefix (s : Sem α) (blk : List (Instr α)) (env res : List (V α)) (h : run s env blk = some res) :
    env <+: res := by
  induction blk generalizing env with
  | nil => simp only [run, Option.some.injEq] at h; subst h; exact List.prefix_rfl
  | cons i is ih =>
    simp only [run, Option.bind_eq_bind, Option.bind_eq_some_iff] at h
    obtain ⟨v, -, h⟩ := h
    exact (List.prefix_append _ _).trans (ih _ h)

theorem run_valid (s : Sem α) (blk : List (Instr α)) (env res : List (V α)) (h : run s env blk = some res) :
    res.length = env.length + blk.length ∧ ∀ k ins, blk[k]? = some ins →
      ∃ v, res[env.length + k]? = some v ∧ ins.eval s (res.take (env.length + k)) = some v := by
  induction blk generalizing env with
  | nil => simp only [run, Option.some.injEq] at h; subst h; simp
  | cons i is ih =>
    simp only [run, Option.bind_eq_bind, Option.bind_eq_some_iff] at h
    obtain ⟨v, hv, h⟩ := h
    obtain ⟨hl, hk⟩ := ih _ h
    have hp := run_prefix s is _ _ h
    simp only [List.length_append, List.length_cons, List.length_nil] at hl hk
    refine ⟨by simp; omega, ?_⟩
    intro k ins hins
    cases k with
    | zero =>
      simp only [List.getElem?_cons_zero, Option.some.injEq] at hins
      subst hins
      obtain ⟨t, rfl⟩ := hp
      exact ⟨v, by simp, by simpa using hv⟩
    | succ k =>
      obtain ⟨w, h1, h2⟩ := hk k ins (by simpa using hins)
      have e : env.length + (k + 1) = env.length + (0 + 1) + k := by omega
      rw [e]
      exact ⟨w, h1, h2⟩

theorem valid_run (s : Sem α) (blk : List (Instr α)) (env res : List (V α)) (hp : env <+: res)
    (hl : res.length = env.length + blk.length)
    (hk : ∀ k ins, blk[k]? = some ins →
      ∃ v, res[env.length + k]? = some v ∧ ins.eval s (res.take (env.length + k)) = some v) :
    run s env blk = some res := by
  induction blk generalizing env with
  | nil =>
    simp only [run, Option.some.injEq]
    exact hp.eq_of_length (by simpa using hl.symm)
  | cons i is ih =>
    obtain ⟨t, rfl⟩ := hp
    obtain ⟨v, h1, h2⟩ := hk 0 i rfl
    simp only [Nat.add_zero, List.take_left'] at h1 h2
    simp only [run, Option.bind_eq_bind]
    have h2' : i.eval s env = some v := by simpa using h2
    rw [h2']
    simp only [Option.bind_some]
    cases t with
    | nil => simp at hl
    | cons w t =>
      have hw : w = v := by simpa using h1
      subst hw
      apply ih
      · exact ⟨t, by simp⟩
      · simp at hl ⊢; omega
      · intro k ins hins
        obtain ⟨u, h3, h4⟩ := hk (k + 1) ins (by simpa using hins)
        have e : (env ++ [w]).length + k = env.length + (k + 1) := by simp; omega
        rw [e]
        exact ⟨u, h3, h4⟩

theorem run_iff (s : Sem α) (blk : List (Instr α)) (env : List (V α)) : run s [] blk = some env ↔ Valid s blk env := by
  constructor
  · intro h
    have := run_valid s blk [] env h
    simpa [Valid] using this
  · intro h
    exact valid_run s blk [] env (by simp) (by simpa using h.1) (by simpa using h.2)

theorem operand_mono (s : Sem α) (o : Operand α) (env : List (V α)) (j k : Nat) (h : j ≤ k) (v : V α)
    (hv : o.eval s (env.take j) = some v) : o.eval s (env.take k) = some v := by
  cases o <;> simp only [Operand.eval] at hv ⊢ <;> try exact hv
  rename_i i
  rw [List.getElem?_take] at hv ⊢
  split_ifs at hv with h1
  rw [if_pos (by omega)]
  exact hv

theorem operand_congr (s : Sem α) (o : Operand α) (env env' : List (V α))
    (h : ∀ j, o = .inst j → env[j]? = env'[j]?) : o.eval s env = o.eval s env' := by
  cases o <;> simp only [Operand.eval]
  exact h _ rfl

theorem instr_congr (s : Sem α) (ins : Instr α) (env env' : List (V α))
    (h : ∀ j ∈ ins.uses, env[j]? = env'[j]?) : ins.eval s env = ins.eval s env' := by
  have key : ∀ o ∈ ins.operands, o.eval s env = o.eval s env' := by
    intro o ho
    apply operand_congr
    rintro j rfl
    exact h j (List.mem_filterMap.2 ⟨_, ho, rfl⟩)
  cases ins with
  | binop op a b =>
    simp only [Instr.eval, key a (by simp [Instr.operands]), key b (by simp [Instr.operands])]
  | insert a b i =>
    simp only [Instr.eval, key a (by simp [Instr.operands]), key b (by simp [Instr.operands])]
  | shuffle a b m =>
    simp only [Instr.eval, key a (by simp [Instr.operands]), key b (by simp [Instr.operands])]
  | splat op a b n m =>
    simp only [Instr.eval, key a (by simp [Instr.operands]), key b (by simp [Instr.operands])]
  | other c ops =>
    have : ∀ l : List (Operand α), (∀ o ∈ l, o.eval s env = o.eval s env') →
        l.mapM (·.eval s env) = l.mapM (·.eval s env') := by
      intro l
      induction l with
      | nil => intro _; rfl
      | cons o l ih =>
        intro hl
        simp only [List.mapM_cons, hl o (by simp), ih fun o ho => hl o (by simp [ho])]
    simp only [Instr.eval, this ops key]
  | gone => rfl

/-- A deleted instruction is used by no other. -/
theorem delete_valid (s : Sem α) (blk : List (Instr α)) (env : List (V α)) (i : Nat) (h : Valid s blk env)
    (hu : ∀ x ∈ blk, i ∉ x.uses) : Valid s (blk.set i .gone) (env.set i (.vec [])) := by
  obtain ⟨hl, hk⟩ := h
  refine ⟨by simp [hl], ?_⟩
  intro k ins hins
  rw [List.getElem?_set] at hins
  by_cases hik : i = k
  · subst hik
    rw [if_pos rfl] at hins
    split_ifs at hins with hlt
    simp only [Option.some.injEq] at hins
    subst hins
    exact ⟨.vec [], by simp [List.getElem?_set, hl, hlt], rfl⟩
  · rw [if_neg hik] at hins
    obtain ⟨v, h1, h2⟩ := hk k ins hins
    refine ⟨v, by rw [List.getElem?_set_ne hik]; exact h1, ?_⟩
    rw [← h2]
    apply instr_congr
    intro j hj
    have hne : i ≠ j := by
      rintro rfl
      exact hu ins (List.mem_of_getElem? hins) hj
    rw [List.getElem?_take, List.getElem?_take, List.getElem?_set_ne hne]

/-- No instruction uses a deleted one. -/
def NoGone (blk : List (Instr α)) : Prop := ∀ ins ∈ blk, ∀ j ∈ ins.uses, blk[j]? ≠ some .gone

/-- Two stages of the pass: what is left has the same results, what is deleted stays deleted, and opaque instructions
    are neither changed nor deleted. -/
def Keeps (s : Sem α) (blk blk' : List (Instr α)) : Prop :=
  blk'.length = blk.length ∧
  (∀ env, Valid s blk env → ∃ env', Valid s blk' env' ∧
    ∀ (k : Nat) (ins : Instr α), blk'[k]? = some ins → ins ≠ .gone → env'[k]? = env[k]?) ∧
  (∀ k : Nat, blk[k]? = some .gone → blk'[k]? = some .gone) ∧
  (∀ (k : Nat) c ops, blk[k]? = some (.other c ops) → blk'[k]? = some (.other c ops)) ∧
  (NoGone blk → NoGone blk')

theorem Keeps.refl (s : Sem α) (blk : List (Instr α)) : Keeps s blk blk :=
  ⟨rfl, fun env h => ⟨env, h, fun _ _ _ _ => rfl⟩, fun _ h => h, fun _ _ _ h => h, fun h => h⟩

theorem Keeps.trans {s : Sem α} {a b c : List (Instr α)} (h1 : Keeps s a b) (h2 : Keeps s b c) : Keeps s a c := by
  obtain ⟨l1, v1, g1, o1, n1⟩ := h1
  obtain ⟨l2, v2, g2, o2, n2⟩ := h2
  refine ⟨l2.trans l1, ?_, fun k h => g2 k (g1 k h), fun k c ops h => o2 k c ops (o1 k c ops h),
    fun h => n2 (n1 h)⟩
  intro env h
  obtain ⟨e1, w1, a1⟩ := v1 env h
  obtain ⟨e2, w2, a2⟩ := v2 e1 w1
  refine ⟨e2, w2, ?_⟩
  intro k ins hins hne
  rw [a2 k ins hins hne]
  have hlt : k < b.length := by
    rw [← l2]; exact (List.getElem?_eq_some_iff.1 hins).1
  refine a1 k b[k] (List.getElem?_eq_getElem hlt) ?_
  intro hg
  have := g2 k (by rw [List.getElem?_eq_getElem hlt, hg])
  rw [this] at hins
  simp only [Option.some.injEq] at hins
  exact hne hins.symm

theorem delete_keeps (s : Sem α) (blk : List (Instr α)) (i : Nat) (hu : ∀ x ∈ blk, i ∉ x.uses)
    (ho : ∀ c ops, blk[i]? ≠ some (.other c ops)) : Keeps s blk (blk.set i .gone) := by
  refine ⟨by simp, ?_, ?_, ?_, ?_⟩
  · intro env h
    refine ⟨_, delete_valid s blk env i h hu, ?_⟩
    intro k ins hins hne
    by_cases hik : i = k
    · subst hik
      rw [List.getElem?_set, if_pos rfl] at hins
      split_ifs at hins
      simp only [Option.some.injEq] at hins
      exact absurd hins.symm hne
    · rw [List.getElem?_set_ne hik]
  · intro k h
    by_cases hik : i = k
    · subst hik
      rw [List.getElem?_set, if_pos rfl, if_pos (List.getElem?_eq_some_iff.1 h).1]
    · rw [List.getElem?_set_ne hik]; exact h
  · intro k c ops h
    have hik : i ≠ k := by rintro rfl; exact ho c ops h
    rw [List.getElem?_set_ne hik]; exact h
  · intro hn ins hins j hj
    rcases List.mem_or_eq_of_mem_set hins with hm | rfl
    · have hij : i ≠ j := by rintro rfl; exact hu ins hm hj
      rw [List.getElem?_set_ne hij]
      exact hn ins hm j hj
    · simp [Instr.uses, Instr.operands] at hj

theorem deleteDead_keeps (s : Sem α) (fuel : Nat) (blk : List (Instr α)) (todo : List Nat) :
    Keeps s blk (deleteDead fuel blk todo) := by
  induction fuel generalizing blk todo with
  | zero => exact Keeps.refl s blk
  | succ fuel ih =>
    cases todo with
    | nil => exact Keeps.refl s blk
    | cons i todo =>
      unfold deleteDead
      split
      · exact ih _ _
      · exact ih _ _
      · rename_i ins hno hins
        split_ifs with hu
        · exact ih _ _
        · refine (delete_keeps s blk i ?_ ?_).trans (ih _ _)
          · intro x hx hi
            exact hu (List.any_eq_true.2 ⟨x, hx, by simpa using hi⟩)
          · intro c ops h
            rw [h] at hins
            simp only [Option.some.injEq] at hins
            exact hno c ops hins.symm

theorem zipOp_head (f : Lane α → Lane α → Option (Lane α)) (a b : Lane α) (as bs rs : List (Lane α))
    (h : zipOp f (a :: as) (b :: bs) = some rs) : ∃ c cs, f a b = some c ∧ rs = c :: cs := by
  simp only [zipOp, Option.bind_eq_bind, Option.bind_eq_some_iff, Option.some.injEq] at h
  obtain ⟨c, hc, cs, -, rfl⟩ := h
  exact ⟨c, cs, hc, rfl⟩

/-- What an insertion of the pattern gives. -/
theorem insert_spec (s : Sem α) (blk : List (Instr α)) (env : List (V α)) (h : Valid s blk env) (o x : Operand α)
    (i : Nat) (hm : matchInsert blk o = some x) (v : V α) (hv : o.eval s (env.take i) = some v) :
    ∃ ls l, v = .vec ls ∧ x.eval s (env.take i) = some (.scalar l) ∧ (ls ≠ [] → ∃ t, ls = l :: t) := by
  unfold matchInsert at hm
  cases o with
  | inst j =>
    simp only at hm
    split at hm
    · rename_i base y hb
      split_ifs at hm
      simp only [Option.some.injEq] at hm
      subst hm
      obtain ⟨w, hw, he⟩ := h.2 j _ hb
      simp only [Operand.eval] at hv
      rw [List.getElem?_take] at hv
      split_ifs at hv with hji
      rw [hw] at hv
      simp only [Option.some.injEq] at hv
      subst hv
      simp only [Instr.eval, Option.bind_eq_bind, Option.bind_eq_some_iff] at he
      obtain ⟨bv, -, xv, hx, he⟩ := he
      cases bv with
      | scalar _ => simp [insertV] at he
      | vec bs =>
        cases xv with
        | vec _ => simp [insertV] at he
        | scalar l =>
          simp only [insertV, Option.some.injEq] at he
          refine ⟨_, l, he.symm, operand_mono s _ env j i (by omega) _ hx, ?_⟩
          cases bs with
          | nil => simp
          | cons b bs => simp
    · cases hm
  | _ => cases hm

theorem tail_spec (s : Sem α) (o : Operand α) (c : Lane α × Nat) (h : tailUndef o = some c) (env : List (V α)) :
    ∃ t : List (Lane α), o.eval s env = some (.vec (c.1 :: t)) ∧ c.2 = t.length + 1 := by
  unfold tailUndef at h
  split at h
  · rename_i a as
    split_ifs at h
    simp only [Option.some.injEq] at h
    subst h
    exact ⟨as, rfl, rfl⟩
  · cases h

/-- A mask of the pattern copies the first element. -/
theorem shuffle_zero (as bs as' bs' : List (Lane α)) (c : Lane α) (t t' : List (Lane α)) (mask : List (Option Nat))
    (hm : ∀ e ∈ mask, e = none ∨ e = some 0) (h : as = c :: t) (h' : as' = c :: t') :
    shuffleV (.vec as) (.vec bs) mask = shuffleV (.vec as') (.vec bs') mask := by
  subst h h'
  simp only [shuffleV, Option.some.injEq, V.vec.injEq]
  apply List.map_congr_left
  intro e he
  rcases hm e he with rfl | rfl <;> simp

theorem splat_eval (s : Sem α) (env : List (V α)) (op : Nat) (a b : Operand α) (n : Nat) (mask : List (Option Nat))
    (x y d : Lane α) (ha : a.eval s env = some (.scalar x)) (hb : b.eval s env = some (.scalar y))
    (hd : s.op op x y = some d) (hn : 0 < n) :
    (Instr.splat op a b n mask).eval s env =
      shuffleV (.vec ((List.replicate n .poison).set 0 d)) (.vec (List.replicate n .poison)) mask := by
  have e : binopV (s.op op) (.scalar x) (.scalar y) = some (.scalar d) := by simp [binopV, hd]
  simp only [Instr.eval, ha, hb, Option.bind_eq_bind, Option.bind_some, e]
  simp [insertV, hn]

/-- **The new instruction gives what the old one gave.** -/
theorem scalarize_value (s : Sem α) (blk : List (Instr α)) (env : List (V α)) (h : Valid s blk env) (k : Nat)
    (ins new : Instr α) (hm : matchAndScalarize blk ins = some new) (v : V α)
    (hv : ins.eval s (env.take k) = some v) : new.eval s (env.take k) = some v := by
  unfold matchAndScalarize at hm
  split at hm
  case h_2 => cases hm
  rename_i i b mask
  split_ifs at hm with hc
  simp only [Bool.and_eq_true, List.all_eq_true, decide_eq_true_eq] at hc
  obtain ⟨-, hmask⟩ := hc
  split at hm
  case h_2 => cases hm
  rename_i op l r hb
  simp only [Instr.eval, Option.bind_eq_bind, Option.bind_eq_some_iff] at hv
  obtain ⟨av, ha, bv, hbv, hs⟩ := hv
  simp only [Operand.eval] at ha
  rw [List.getElem?_take] at ha
  split_ifs at ha with hik
  obtain ⟨w, hw, he⟩ := h.2 i _ hb
  rw [hw] at ha
  simp only [Option.some.injEq] at ha
  subst ha
  simp only [Instr.eval, Option.bind_eq_bind, Option.bind_eq_some_iff] at he
  obtain ⟨lv, hl, rv, hr, he⟩ := he
  cases bv with
  | scalar _ => cases w <;> simp [shuffleV] at hs
  | vec bs =>
    split at hm
    · rename_i x hx
      obtain ⟨c, hc, rfl⟩ := Option.map_eq_some_iff.1 hm
      obtain ⟨ls, xl, rfl, hxe, hne⟩ := insert_spec s blk env h l x i hx lv hl
      obtain ⟨t, ht, hn⟩ := tail_spec s r c hc (env.take i)
      rw [ht] at hr
      simp only [Option.some.injEq] at hr
      subst hr
      simp only [binopV, Option.map_eq_some_iff] at he
      obtain ⟨rs, hz, rfl⟩ := he
      have hne' : ls ≠ [] := by rintro rfl; simp [zipOp] at hz
      obtain ⟨t', rfl⟩ := hne hne'
      obtain ⟨d, ds, hd, rfl⟩ := zipOp_head _ _ _ _ _ _ hz
      rw [splat_eval s _ op x (.scalar c.1) c.2 mask xl c.1 d
        (operand_mono s x env i k (by omega) _ hxe) rfl hd (by omega), ← hs]
      exact shuffle_zero _ _ _ _ d (List.replicate t.length .poison) ds mask hmask (by rw [hn]; rfl) rfl
    · split at hm
      case h_2 => cases hm
      rename_i x hx
      obtain ⟨c, hc, rfl⟩ := Option.map_eq_some_iff.1 hm
      obtain ⟨ls, xl, rfl, hxe, hne⟩ := insert_spec s blk env h r x i hx rv hr
      obtain ⟨t, ht, hn⟩ := tail_spec s l c hc (env.take i)
      rw [ht] at hl
      simp only [Option.some.injEq] at hl
      subst hl
      simp only [binopV, Option.map_eq_some_iff] at he
      obtain ⟨rs, hz, rfl⟩ := he
      have hne' : ls ≠ [] := by rintro rfl; simp [zipOp] at hz
      obtain ⟨t', rfl⟩ := hne hne'
      obtain ⟨d, ds, hd, rfl⟩ := zipOp_head _ _ _ _ _ _ hz
      rw [splat_eval s _ op (.scalar c.1) x c.2 mask c.1 xl d rfl
        (operand_mono s x env i k (by omega) _ hxe) hd (by omega), ← hs]
      exact shuffle_zero _ _ _ _ d (List.replicate t.length .poison) ds mask hmask (by rw [hn]; rfl) rfl

theorem insert_uses (blk : List (Instr α)) (o x : Operand α) (h : matchInsert blk o = some x) :
    ∃ y ∈ blk, x ∈ y.operands := by
  unfold matchInsert at h
  split at h
  · split at h
    · rename_i base y hb
      split_ifs at h
      simp only [Option.some.injEq] at h
      subst h
      exact ⟨_, List.mem_of_getElem? hb, by simp [Instr.operands]⟩
    · cases h
  · cases h

theorem new_form (blk : List (Instr α)) (ins new : Instr α) (h : matchAndScalarize blk ins = some new) :
    ∃ op a b n mask, new = .splat op a b n mask ∧
      ((∃ y ∈ blk, a ∈ y.operands) ∧ (∃ c, b = .scalar c) ∨ (∃ c, a = .scalar c) ∧ ∃ y ∈ blk, b ∈ y.operands) := by
  unfold matchAndScalarize at h
  split at h
  case h_2 => cases h
  split_ifs at h
  split at h
  case h_2 => cases h
  split at h
  · rename_i x hx
    obtain ⟨c, -, rfl⟩ := Option.map_eq_some_iff.1 h
    exact ⟨_, _, _, _, _, rfl, Or.inl ⟨insert_uses blk _ x hx, _, rfl⟩⟩
  · split at h
    case h_2 => cases h
    rename_i x hx
    obtain ⟨c, -, rfl⟩ := Option.map_eq_some_iff.1 h
    exact ⟨_, _, _, _, _, rfl, Or.inr ⟨⟨_, rfl⟩, insert_uses blk _ x hx⟩⟩

theorem new_not_gone (blk : List (Instr α)) (ins new : Instr α) (h : matchAndScalarize blk ins = some new) :
    new ≠ .gone := by
  obtain ⟨op, a, b, n, mask, rfl, -⟩ := new_form blk ins new h
  simp

theorem new_uses (blk : List (Instr α)) (ins new : Instr α) (h : matchAndScalarize blk ins = some new) (j : Nat)
    (hj : j ∈ new.uses) : ∃ y ∈ blk, j ∈ y.uses := by
  obtain ⟨op, a, b, n, mask, rfl, hab⟩ := new_form blk ins new h
  obtain ⟨o, ho, hoj⟩ := List.mem_filterMap.1 hj
  have hoj' : o = .inst j := by
    cases o <;> simp at hoj ⊢
    exact hoj
  subst hoj'
  simp only [Instr.operands, List.mem_cons, List.not_mem_nil, or_false] at ho
  rcases hab with ⟨⟨y, hy, hya⟩, c, rfl⟩ | ⟨⟨c, rfl⟩, y, hy, hya⟩
  · rcases ho with rfl | ho
    · exact ⟨y, hy, List.mem_filterMap.2 ⟨_, hya, rfl⟩⟩
    · cases ho
  · rcases ho with ho | rfl
    · cases ho
    · exact ⟨y, hy, List.mem_filterMap.2 ⟨_, hya, rfl⟩⟩

theorem step_keeps (s : Sem α) (blk : List (Instr α)) (k : Nat) : Keeps s blk (step blk k) := by
  unfold step
  split
  · exact Keeps.refl s blk
  · rename_i ins hins
    split
    · exact Keeps.refl s blk
    · rename_i new hm
      refine Keeps.trans ?_ (deleteDead_keeps s _ _ _)
      have hk : k < blk.length := (List.getElem?_eq_some_iff.1 hins).1
      have hsh : ∃ a b m, ins = .shuffle a b m := by
        unfold matchAndScalarize at hm
        split at hm
        · exact ⟨_, _, _, rfl⟩
        · cases hm
      obtain ⟨sa, sb, sm, hsh⟩ := hsh
      refine ⟨by simp, ?_, ?_, ?_, ?_⟩
      · intro env h
        refine ⟨env, ⟨by simp [h.1], ?_⟩, fun _ _ _ _ => rfl⟩
        intro j x hx
        rw [List.getElem?_set] at hx
        by_cases hkj : k = j
        · subst hkj
          rw [if_pos rfl, if_pos hk] at hx
          simp only [Option.some.injEq] at hx
          subst hx
          obtain ⟨v, h1, h2⟩ := h.2 k ins hins
          exact ⟨v, h1, scalarize_value s blk env h k ins new hm v h2⟩
        · rw [if_neg hkj] at hx
          exact h.2 j x hx
      · intro j hj
        have : k ≠ j := by
          rintro rfl
          rw [hins, hsh] at hj; cases hj
        rw [List.getElem?_set_ne this]; exact hj
      · intro j c ops hj
        have : k ≠ j := by
          rintro rfl
          rw [hins, hsh] at hj; cases hj
        rw [List.getElem?_set_ne this]; exact hj
      · intro hn x hx j hj
        have old : blk[j]? ≠ some .gone := by
          rcases List.mem_or_eq_of_mem_set hx with hm' | rfl
          · exact hn x hm' j hj
          · obtain ⟨y, hy, hyu⟩ := new_uses blk ins x hm j hj
            exact hn y hy j hyu
        by_cases hkj : k = j
        · subst hkj
          rw [List.getElem?_set, if_pos rfl, if_pos hk]
          intro hg
          simp only [Option.some.injEq] at hg
          exact new_not_gone blk ins new hm hg
        · rw [List.getElem?_set_ne hkj]; exact old

theorem pass_keeps (s : Sem α) (blk : List (Instr α)) : Keeps s blk (pass blk) := by
  unfold pass
  generalize List.range blk.length = l
  induction l generalizing blk with
  | nil => exact Keeps.refl s blk
  | cons k l ih => exact (step_keeps s blk k).trans (ih _)

/-- **The pass keeps the meaning of every block**: if the block has no undefined behaviour, neither has the new one,
    every instruction that is left has the same result, and the opaque instructions, which alone have effects, are all
    there, with operands that have the same values. What is missing: several blocks, and the flags of operations. -/
theorem pass_sound_partial (s : Sem α) (blk : List (Instr α)) (hg : ∀ ins ∈ blk, ins ≠ .gone) (env : List (V α))
    (h : run s [] blk = some env) :
    ∃ env', run s [] (pass blk) = some env' ∧
      (∀ (k : Nat) ins, (pass blk)[k]? = some ins → ins ≠ .gone → env'[k]? = env[k]?) ∧
      ∀ (k : Nat) c ops, blk[k]? = some (.other c ops) → (pass blk)[k]? = some (.other c ops) ∧
        ∀ o ∈ ops, o.eval s (env'.take k) = o.eval s (env.take k) := by
  obtain ⟨hl, hv, -, ho, hn⟩ := pass_keeps s blk
  have hval := (run_iff s blk env).1 h
  obtain ⟨env', h1, h2⟩ := hv env hval
  refine ⟨env', (run_iff s _ _).2 h1, h2, ?_⟩
  intro k c ops hk
  refine ⟨ho k c ops hk, ?_⟩
  have hno : NoGone (pass blk) := hn fun ins _ j _ hj => hg _ (List.mem_of_getElem? hj) rfl
  intro o hoo
  apply operand_congr
  rintro j rfl
  rw [List.getElem?_take, List.getElem?_take]
  split_ifs with hjk
  · have hlt : j < (pass blk).length := by
      rw [hl]; have := (List.getElem?_eq_some_iff.1 hk).1; omega
    refine h2 j (pass blk)[j] (List.getElem?_eq_getElem hlt) ?_
    intro hgone
    refine hno _ (List.mem_of_getElem? (ho k c ops hk)) j (List.mem_filterMap.2 ⟨_, hoo, rfl⟩) ?_
    rw [List.getElem?_eq_getElem hlt, hgone]
  · rfl

/-! ## Examples -/

/-- `x + <2, undef, poison, undef>` with `x` inserted into an undefined vector, copied to all elements, and its use. -/
def sample : List (Instr Nat) :=
  [.insert (.constVec [.undef, .undef, .undef, .undef]) (.arg 0) 0,
   .binop 0 (.inst 0) (.constVec [.val 2, .undef, .poison, .undef]),
   .shuffle (.inst 1) (.constVec [.poison, .poison, .poison, .poison]) [some 0, none, some 0, some 0],
   .other 0 [.inst 2]]

/-- Addition, with the argument 5. -/
def plus : Sem Nat where
  op _ a b := match a, b with
    | .poison, _ => some .poison
    | _, .poison => some .poison
    | .val a, .val b => some (.val (a + b))
    | _, _ => some .undef
  other _ vs := vs.head?
  args := [.scalar (.val 5)]

example : pass sample = [.gone, .gone, .splat 0 (.arg 0) (.scalar (.val 2)) 4 [some 0, none, some 0, some 0],
    .other 0 [.inst 2]] := by decide +kernel

example : (run plus [] sample).map (·.drop 2) = some [.vec [.val 7, .poison, .val 7, .val 7],
    .vec [.val 7, .poison, .val 7, .val 7]] ∧
    (run plus [] (pass sample)).map (·.drop 2) = (run plus [] sample).map (·.drop 2) := by decide +kernel

example : ∀ ins ∈ sample, ins ≠ .gone := by decide +kernel

/-- **Undefined behaviour can only go away**: the vector division by an undefined element is undefined, the scalar one
    is not. -/
theorem division_defined : ∃ (s : Sem Nat) (blk : List (Instr Nat)), run s [] blk = none ∧
    (run s [] (pass blk)).isSome = true :=
  ⟨{ plus with op := fun _ a b => match a, b with
      | .val a, .val (b + 1) => some (.val (a / (b + 1)))
      | _, _ => none }, sample, by decide +kernel, by decide +kernel⟩

end Ispc.Scalarize
