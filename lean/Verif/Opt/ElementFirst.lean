import Verif.Opt.ElementProps

/-!
# C78: the scalar computation of the first element of a vector
-/

namespace Ispc.Elt

/-- Identifiers from `n` on are free: no value of the function has one or uses one. -/
structure Free (P : Prog) (n : Nat) : Prop where
  leaf : ∀ v, n ≤ v → P.node v = .leaf
  uses : ∀ v a, a ∈ (P.node v).uses → a < n
  phi : ∀ v ins x b, P.node v = .phi ins → (x, b) ∈ ins → x < n

/-- No vector is cast to a vector with another number of elements. -/
def LanesKept (P : Prog) : Prop :=
  ∀ v op a, P.node v = .cast op a → (P.ty a).n ≠ 0 → (P.ty v).n ≠ 0 → (P.ty a).n = (P.ty v).n

/-- No phi has two entries for a block (a block is not twice a successor of another one). -/
def OneEdge (P : Prog) : Prop := ∀ v ins, P.node v = .phi ins → (ins.map (·.2)).Nodup

/-! ### Elements of a chain are in scope -/

theorem walk_elts {P : Prog} {rank : Nat → Nat} (hP : Valid P rank) {n : Nat} (hF : Free P n) (v0 W : Nat) :
    ∀ (fuel v : Nat) (els : Nat → Option Nat), Dom P (P.blk v) (P.blk v0) → (P.ty v) = P.ty v0 →
    (∀ l e, els l = some e → Dom P (P.blk e) (P.blk v0) ∧ P.ty e = ⟨(P.ty v0).w, 0⟩ ∧ e < n) →
    ∀ els', (walk P W fuel v els = .full els' ∨ walk P W fuel v els = .other els') →
    ∀ l e, els' l = some e → Dom P (P.blk e) (P.blk v0) ∧ P.ty e = ⟨(P.ty v0).w, 0⟩ ∧ e < n
  | 0, v, els, _, _, _, els', h => by simp [walk] at h
  | fuel + 1, v, els, hv, ht, hg, els', h => by
    simp only [walk] at h
    split at h
    · rename_i base e idx hnode
      cases idx with
      | none => simp at h
      | some i =>
        simp only at h
        split at h
        · simp at h
        · have hty := hP.ins_ty v base e (some i) hnode
          have hbase : Dom P (P.blk base) (P.blk v0) := (hP.dom v base (by simp [hnode, Node.uses])).trans hv
          have hg' : ∀ l x, record els i e l = some x →
              Dom P (P.blk x) (P.blk v0) ∧ P.ty x = ⟨(P.ty v0).w, 0⟩ ∧ x < n := by
            intro l x hx
            simp only [record] at hx
            split at hx
            · simp only [Option.some.injEq] at hx
              subst hx
              exact ⟨(hP.dom v e (by simp [hnode, Node.uses])).trans hv, by rw [hty.2, ht],
                hF.uses v e (by simp [hnode, Node.uses])⟩
            · exact hg l x hx
          split at h
          · exact walk_elts hP hF v0 W fuel base _ hbase (by rw [hty.1, ht]) hg' els' h
          · simp only [Chain.full.injEq, reduceCtorEq, or_false] at h
            subst h
            exact hg'
          · rename_i ops hc
            split at h
            · simp only [Chain.full.injEq, reduceCtorEq, or_false] at h
              subst h
              intro l x hx
              simp only [fill] at hx
              split at hx
              · rename_i y hy
                simp only [Option.some.injEq] at hx
                subst hx
                exact hg' l y hy
              · have hm := List.mem_of_getElem? hx
                refine ⟨(hP.dom base x (by simp [hc, Node.uses, hm])).trans hbase, ?_,
                  hF.uses base x (by simp [hc, Node.uses, hm])⟩
                rw [(hP.cvec_ty base ops hc).2 x hm, hty.1, ht]
            · simp at h
          · split at h
            · simp only [Chain.full.injEq, reduceCtorEq, or_false] at h
              subst h
              exact hg'
            · simp at h
          · simp only [Chain.other.injEq, reduceCtorEq, false_or] at h
            subst h
            exact hg'
    · simp at h

theorem flatten_elt {P : Prog} {rank : Nat → Nat} (hP : Valid P rank) {n : Nat} (hF : Free P n) {add : Nat → Bool}
    {fuel v W s base e : Nat} {idx : Option Nat} (hnode : P.node v = .insert base e idx)
    (h : flatten P add fuel v W false true false = .val s) :
    Dom P (P.blk s) (P.blk v) ∧ P.ty s = ⟨(P.ty v).w, 0⟩ ∧ s < n := by
  have hw := walk_elts hP hF v W fuel v (fun _ => none) (Dom.refl _ _) rfl (by intro l e h; simp at h)
  simp only [flatten, hnode] at h
  split at h
  · simp at h
  · simp at h
  · rename_i els hels
    simp only [Bool.false_eq_true, if_false] at h
    split at h
    · rename_i s' hs
      simp only [Res.val.injEq] at h
      subst h
      exact hw els (.inr hels) 0 s' hs
    · simp at h
  · rename_i els hels
    simp only [finish, if_true] at h
    split at h
    · rename_i s' hs
      simp only [Res.val.injEq] at h
      subst h
      exact hw els (.inl hels) 0 s' hs
    · simp at h

/-! ### What the extraction builds -/

/-- The added value `d` computes the first element of the vector `v`, given that related scalars compute those of the
operands. -/
inductive Made (P : Prog) (n : Nat) (R : Nat → Nat → Prop) : Nat → Def → Prop
  | zero {v s : Nat} : P.node v = .zero → Made P n R v ⟨s, .const 0, P.entry, ⟨(P.ty v).w, 0⟩⟩
  | cdata {v s x : Nat} {xs : List Nat} : P.node v = .cdata (x :: xs) →
      Made P n R v ⟨s, .const x, P.entry, ⟨(P.ty v).w, 0⟩⟩
  | bin {v s op a b s0 s1 : Nat} : P.node v = .bin op a b → R a s0 → R b s1 → s0 < s → s1 < s →
      Made P n R v ⟨s, .bin op s0 s1, P.blk v, ⟨(P.ty v).w, 0⟩⟩
  | cast {v s op a s0 : Nat} : P.node v = .cast op a → (P.ty v).n ≠ 0 → (P.ty a).n ≠ 0 → R a s0 → s0 < s →
      Made P n R v ⟨s, .cast op s0, P.blk v, ⟨(P.ty v).w, 0⟩⟩
  | phi {v s : Nat} {ins ss : List (Nat × Nat)} : P.node v = .phi ins →
      List.Forall₂ (fun p q => p.2 = q.2 ∧ R p.1 q.1) ins ss →
      Made P n R v ⟨s, .phi ss, P.blk v, ⟨(P.ty v).w, 0⟩⟩
  | elt {v s : Nat} : v < n → n ≤ s → Made P n R v ⟨s, .elt v, P.blk v, ⟨(P.ty v).w, 0⟩⟩

/-- The scalar `s` is the first element of the vector `v`: it was added for that, or it was there. -/
inductive First (P : Prog) (add : Nat → Bool) (n : Nat) (D : List Def) (R : Nat → Nat → Prop) : Nat → Nat → Prop
  | made {v : Nat} {d : Def} : Made P n R v d → d ∈ D → First P add n D R v d.id
  | cvec {v s : Nat} {ops : List Nat} : P.node v = .cvec (s :: ops) → First P add n D R v s
  | shuffle {v s a : Nat} : P.node v = .shuffle a true → R a s → First P add n D R v s
  | insert {v s fuel base e : Nat} {idx : Option Nat} : P.node v = .insert base e idx → (P.ty v).n ≠ 0 →
      flatten P add fuel v (P.ty v).n false true false = .val s → First P add n D R v s

theorem Made.mono {P : Prog} {n : Nat} {R T : Nat → Nat → Prop} (hRT : ∀ x y, R x y → T x y) {v : Nat} {d : Def}
    (h : Made P n R v d) : Made P n T v d := by
  cases h with
  | zero h1 => exact .zero h1
  | cdata h1 => exact .cdata h1
  | bin h1 h2 h3 h4 h5 => exact .bin h1 (hRT _ _ h2) (hRT _ _ h3) h4 h5
  | cast h1 h2 h3 h4 h5 => exact .cast h1 h2 h3 (hRT _ _ h4) h5
  | phi h1 h2 => exact .phi h1 (forall₂_imp (fun _ _ h => ⟨h.1, hRT _ _ h.2⟩) h2)
  | elt h1 h2 => exact .elt h1 h2

theorem First.mono {P : Prog} {add : Nat → Bool} {n : Nat} {D D' : List Def} {R T : Nat → Nat → Prop} (hD : ∀ d ∈ D, d ∈ D')
    (hRT : ∀ x y, R x y → T x y) {v s : Nat} (h : First P add n D R v s) : First P add n D' T v s := by
  cases h with
  | made h1 h2 => exact .made (h1.mono hRT) (hD _ h2)
  | cvec h1 => exact .cvec h1
  | shuffle h1 h2 => exact .shuffle h1 (hRT _ _ h2)
  | insert h1 h2 h3 => exact .insert h1 h2 h3

/-- The state before and after a part of the extraction: values are only added, with new and different identifiers, each
of them computes a first element, and so do all scalars that `U` relates to a vector. -/
structure Grow (P : Prog) (add : Nat → Bool) (n : Nat) (st st' : St) (U : Nat → Nat → Prop) : Prop where
  next : st.next ≤ st'.next
  defs : ∃ new, st'.defs = new ++ st.defs ∧ (new.map Def.id).Nodup ∧
    ∀ d ∈ new, st.next ≤ d.id ∧ d.id < st'.next ∧ ∃ v, Made P n (Or U st.map) v d
  map : ∀ v s, (v, s) ∈ st'.map → U v s ∨ (v, s) ∈ st.map
  below : (∀ p ∈ st.map, p.2 < st.next) → ∀ p ∈ st'.map, p.2 < st'.next
  first : ∀ v s, U v s → First P add n st'.defs (Or U st.map) v s

theorem Grow.refl (P : Prog) (add : Nat → Bool) (n : Nat) (st : St) : Grow P add n st st (fun _ _ => False) where
  next := Nat.le_refl _
  defs := ⟨[], by simp, by simp, by simp⟩
  map := fun _ _ h => .inr h
  below := fun h => h
  first := fun _ _ h => h.elim

theorem Grow.trans {P : Prog} {add : Nat → Bool} {n : Nat} {st st1 st2 : St} {U V : Nat → Nat → Prop}
    (h1 : Grow P add n st st1 U) (h2 : Grow P add n st1 st2 V) :
    Grow P add n st st2 (fun v s => U v s ∨ V v s) where
  next := Nat.le_trans h1.next h2.next
  defs := by
    obtain ⟨n1, e1, k1, p1⟩ := h1.defs
    obtain ⟨n2, e2, k2, p2⟩ := h2.defs
    refine ⟨n2 ++ n1, by rw [e2, e1, List.append_assoc], ?_, ?_⟩
    · rw [List.map_append, List.nodup_append]
      refine ⟨k2, k1, ?_⟩
      intro x hx y hy hxy
      obtain ⟨d, hd, rfl⟩ := List.mem_map.mp hx
      obtain ⟨d', hd', rfl⟩ := List.mem_map.mp hy
      have := (p2 d hd).1
      have := (p1 d' hd').2.1
      omega
    · intro d hd
      rcases List.mem_append.mp hd with hd | hd
      · obtain ⟨a, b, v, hv⟩ := p2 d hd
        refine ⟨Nat.le_trans h1.next a, b, v, hv.mono ?_⟩
        intro x y hxy
        rcases hxy with h | h
        · exact .inl (.inr h)
        · exact (h1.map x y h).elim (fun h => .inl (.inl h)) .inr
      · obtain ⟨a, b, v, hv⟩ := p1 d hd
        refine ⟨a, Nat.lt_of_lt_of_le b h2.next, v, hv.mono ?_⟩
        intro x y hxy
        exact hxy.elim (fun h => .inl (.inl h)) .inr
  map := by
    intro v s h
    rcases h2.map v s h with h | h
    · exact .inl (.inr h)
    · exact (h1.map v s h).elim (fun h => .inl (.inl h)) .inr
  below := fun h => h2.below (h1.below h)
  first := by
    obtain ⟨n2, e2, _⟩ := h2.defs
    intro v s h
    rcases h with h | h
    · refine (h1.first v s h).mono (by rw [e2]; simp +contextual) ?_
      intro x y hxy
      exact hxy.elim (fun h => .inl (.inl h)) .inr
    · refine (h2.first v s h).mono (fun _ h => h) ?_
      intro x y hxy
      rcases hxy with h | h
      · exact .inl (.inr h)
      · exact (h1.map x y h).elim (fun h => .inl (.inl h)) .inr

/-- Adding a value. -/
theorem Grow.emit {P : Prog} {add : Nat → Bool} {n : Nat} {st st' : St} {U : Nat → Nat → Prop} (h : Grow P add n st st' U)
    {v : Nat} {node : Node} {blk : Nat} {ty : Ty} (hm : Made P n (Or U st.map) v ⟨st'.next, node, blk, ty⟩) :
    Grow P add n st (st'.emit node blk ty).2 (fun a s => U a s ∨ a = v ∧ s = st'.next) where
  next := Nat.le_succ_of_le h.next
  defs := by
    obtain ⟨n1, e1, k1, p1⟩ := h.defs
    refine ⟨⟨st'.next, node, blk, ty⟩ :: n1, by simp [St.emit, e1], ?_, ?_⟩
    · simp only [List.map_cons, List.nodup_cons]
      refine ⟨?_, k1⟩
      intro hx
      obtain ⟨d, hd, he⟩ := List.mem_map.mp hx
      have := (p1 d hd).2.1
      omega
    · intro d hd
      rcases List.mem_cons.mp hd with rfl | hd
      · refine ⟨h.next, Nat.lt_succ_self _, v, hm.mono ?_⟩
        intro x y hxy
        exact hxy.elim (fun h => .inl (.inl h)) .inr
      · obtain ⟨a, b, u, hu⟩ := p1 d hd
        refine ⟨a, Nat.lt_succ_of_lt b, u, hu.mono ?_⟩
        intro x y hxy
        exact hxy.elim (fun h => .inl (.inl h)) .inr
  map := fun a s ha => (h.map a s ha).elim (fun h => .inl (.inl h)) .inr
  below := fun hb p hp => Nat.lt_succ_of_lt (h.below hb p hp)
  first := by
    intro a s ha
    rcases ha with ha | ⟨rfl, rfl⟩
    · refine (h.first a s ha).mono (by simp +contextual [St.emit]) ?_
      intro x y hxy
      exact hxy.elim (fun h => .inl (.inl h)) .inr
    · refine First.made (d := ⟨st'.next, node, blk, ty⟩) (hm.mono ?_) (by simp [St.emit])
      intro x y hxy
      exact hxy.elim (fun h => .inl (.inl h)) .inr

/-- Adding a relation for a scalar that was there. -/
theorem Grow.also {P : Prog} {add : Nat → Bool} {n : Nat} {st st' : St} {U : Nat → Nat → Prop} (h : Grow P add n st st' U)
    {v s : Nat} (hf : First P add n st'.defs (Or U st.map) v s) :
    Grow P add n st st' (fun a t => U a t ∨ a = v ∧ t = s) where
  next := h.next
  defs := by
    obtain ⟨n1, e1, k1, p1⟩ := h.defs
    refine ⟨n1, e1, k1, ?_⟩
    intro d hd
    obtain ⟨a, b, u, hu⟩ := p1 d hd
    exact ⟨a, b, u, hu.mono fun x y hxy => hxy.elim (fun h => .inl (.inl h)) .inr⟩
  map := fun a s ha => (h.map a s ha).elim (fun h => .inl (.inl h)) .inr
  below := h.below
  first := by
    intro a t ha
    rcases ha with ha | ⟨rfl, rfl⟩
    · exact (h.first a t ha).mono (fun _ h => h) fun x y hxy => hxy.elim (fun h => .inl (.inl h)) .inr
    · exact hf.mono (fun _ h => h) fun x y hxy => hxy.elim (fun h => .inl (.inl h)) .inr

/-- What a function that extracts first elements does. -/
def Extracts (P : Prog) (add : Nat → Bool) (n : Nat) (ex : Nat → St → Option (Nat × St)) : Prop :=
  ∀ v st s st', v < n → n ≤ st.next → (∀ p ∈ st.map, p.2 < st.next) → ex v st = some (s, st') →
    ∃ U, Or U st.map v s ∧ s < st'.next ∧ (P.ty v).n ≠ 0 ∧ Grow P add n st st' U

theorem extractIns_ok {P : Prog} {add : Nat → Bool} {n : Nat} {ex : Nat → St → Option (Nat × St)}
    (hex : Extracts P add n ex) : ∀ (ins : List (Nat × Nat)) (st : St) (ss : List (Nat × Nat)) (st' : St),
    (∀ p ∈ ins, p.1 < n) → n ≤ st.next → (∀ p ∈ st.map, p.2 < st.next) → extractIns ex ins st = some (ss, st') →
    ∃ U, List.Forall₂ (fun p q => p.2 = q.2 ∧ Or U st.map p.1 q.1) ins ss ∧ Grow P add n st st' U
  | [], st, ss, st', _, _, _, h => by
    simp only [extractIns, Option.some.injEq, Prod.mk.injEq] at h
    obtain ⟨rfl, rfl⟩ := h
    exact ⟨_, .nil, Grow.refl P add n st⟩
  | (x, b) :: xs, st, ss, st', hi, hn, hm, h => by
    simp only [extractIns] at h
    split at h
    · simp at h
    · rename_i s st1 h1
      split at h
      · simp at h
      · rename_i ss' st2 h2
        simp only [Option.some.injEq, Prod.mk.injEq] at h
        obtain ⟨rfl, rfl⟩ := h
        obtain ⟨U, hU, _, _, hg⟩ := hex x st s st1 (hi (x, b) List.mem_cons_self) hn hm h1
        obtain ⟨V, hV, hg'⟩ := extractIns_ok hex xs st1 ss' st2 (fun p hp => hi p (List.mem_cons_of_mem _ hp))
          (Nat.le_trans hn hg.next) (hg.below hm) h2
        refine ⟨_, .cons ⟨rfl, ?_⟩ (forall₂_imp ?_ hV), hg.trans hg'⟩
        · exact hU.elim (fun h => .inl (.inl h)) .inr
        · intro p q hpq
          refine ⟨hpq.1, ?_⟩
          rcases hpq.2 with h | h
          · exact .inl (.inr h)
          · exact (hg.map _ _ h).elim (fun h => .inl (.inl h)) .inr

theorem find_mem {st : St} {v s : Nat} (h : st.find v = some s) : (v, s) ∈ st.map := by
  simp only [St.find, Option.map_eq_some_iff] at h
  obtain ⟨⟨a, b⟩, h1, h2⟩ := h
  have h3 := List.find?_some h1
  have h4 := List.mem_of_find?_eq_some h1
  simp only [decide_eq_true_eq] at h3
  simp only at h2
  subst h3
  subst h2
  exact h4

theorem extract_ok {P : Prog} {rank : Nat → Nat} (hP : Valid P rank) {n : Nat} (hF : Free P n) (add : Nat → Bool) :
    ∀ fuel, Extracts P add n (extract P add fuel)
  | 0 => by
    intro v st s st' _ _ _ h
    simp [extract] at h
  | fuel + 1 => by
    have ih := extract_ok hP hF add fuel
    intro v st s st' hv hn hm h
    have hU : ∀ a, a ∈ (P.node v).uses → a < n := hF.uses v
    simp only [extract] at h
    split at h
    · simp at h
    · rename_i hvec
      split at h
      · -- zero
        rename_i hnode
        simp only [Option.some.injEq] at h
        have h1 := congrArg Prod.fst h
        have h2 := congrArg Prod.snd h
        simp only at h1 h2
        subst h1 h2
        exact ⟨_, .inl (.inr ⟨rfl, rfl⟩), Nat.lt_succ_self _, hvec, (Grow.refl P add n st).emit (.zero hnode)⟩
      · -- constant vector
        rename_i ops hnode
        split at h
        · simp at h
        · rename_i o ops'
          simp only [Option.some.injEq, Prod.mk.injEq] at h
          obtain ⟨rfl, rfl⟩ := h
          refine ⟨_, .inl (.inr ⟨rfl, rfl⟩), ?_, hvec, (Grow.refl P add n st).also (.cvec hnode)⟩
          exact Nat.lt_of_lt_of_le (hU o (by simp [hnode, Node.uses])) hn
      · -- constant data vector
        rename_i xs hnode
        split at h
        · simp at h
        · rename_i x xs'
          simp only [Option.some.injEq] at h
          have h1 := congrArg Prod.fst h
          have h2 := congrArg Prod.snd h
          simp only at h1 h2
          subst h1 h2
          exact ⟨_, .inl (.inr ⟨rfl, rfl⟩), Nat.lt_succ_self _, hvec, (Grow.refl P add n st).emit (.cdata hnode)⟩
      · simp at h
      · simp at h
      · -- binary operator
        rename_i op a b hnode
        split at h
        · simp at h
        · rename_i s0 st1 h0
          split at h
          · simp at h
          · rename_i s1 st2 h1
            simp only [Option.some.injEq] at h
            have e1 := congrArg Prod.fst h
            have e2 := congrArg Prod.snd h
            simp only at e1 e2
            subst e1 e2
            obtain ⟨U, hU0, hs0, _, hg⟩ := ih a st s0 st1 (hU a (by simp [hnode, Node.uses])) hn hm h0
            obtain ⟨V, hV0, hs1, _, hg'⟩ := ih b st1 s1 st2 (hU b (by simp [hnode, Node.uses]))
              (Nat.le_trans hn hg.next) (hg.below hm) h1
            refine ⟨_, .inl (.inr ⟨rfl, rfl⟩), Nat.lt_succ_self _, hvec, (hg.trans hg').emit (.bin hnode ?_ ?_ ?_ ?_)⟩
            · exact hU0.elim (fun h => .inl (.inl h)) .inr
            · rcases hV0 with h | h
              · exact .inl (.inr h)
              · exact (hg.map _ _ h).elim (fun h => .inl (.inl h)) .inr
            · exact Nat.lt_of_lt_of_le hs0 hg'.next
            · exact hs1
      · -- cast
        rename_i op a hnode
        split at h
        · simp at h
        · rename_i s0 st1 h0
          simp only [Option.some.injEq] at h
          have e1 := congrArg Prod.fst h
          have e2 := congrArg Prod.snd h
          simp only at e1 e2
          subst e1 e2
          obtain ⟨U, hU0, hs0, hva, hg⟩ := ih a st s0 st1 (hU a (by simp [hnode, Node.uses])) hn hm h0
          exact ⟨_, .inl (.inr ⟨rfl, rfl⟩), Nat.lt_succ_self _, hvec, hg.emit (.cast hnode hvec hva hU0 hs0)⟩
      · -- phi
        rename_i ins hnode
        split at h
        · rename_i t ht
          simp only [Option.some.injEq, Prod.mk.injEq] at h
          obtain ⟨rfl, rfl⟩ := h
          have hmem := find_mem ht
          exact ⟨_, .inr hmem, hm _ hmem, hvec, Grow.refl P add n st⟩
        · split at h
          · simp at h
          · rename_i ss st1 h1
            simp only [Option.some.injEq, Prod.mk.injEq] at h
            obtain ⟨rfl, rfl⟩ := h
            have hm' : ∀ p ∈ (v, st.next) :: st.map, p.2 < st.next + 1 := by
              intro p hp
              rcases List.mem_cons.mp hp with rfl | hp
              · exact Nat.lt_succ_self _
              · exact Nat.lt_succ_of_lt (hm p hp)
            obtain ⟨U, hf, hg⟩ := extractIns_ok ih ins _ ss st1 (fun p hp => hF.phi v ins p.1 p.2 hnode hp)
              (Nat.le_succ_of_le hn) hm' h1
            have hnext : st.next + 1 ≤ st1.next := hg.next
            have lift : ∀ x y, Or U ((v, st.next) :: st.map) x y →
                Or (fun a t => U a t ∨ a = v ∧ t = st.next) st.map x y := by
              intro x y hxy
              rcases hxy with h | h
              · exact .inl (.inl h)
              · rcases List.mem_cons.mp h with h | h
                · simp only [Prod.mk.injEq] at h
                  exact .inl (.inr h)
                · exact .inr h
            have hmade : Made P n (Or (fun a t => U a t ∨ a = v ∧ t = st.next) st.map) v
                ⟨st.next, .phi ss, P.blk v, ⟨(P.ty v).w, 0⟩⟩ :=
              .phi hnode (forall₂_imp (fun p q h => ⟨h.1, lift _ _ h.2⟩) hf)
            refine ⟨fun a t => U a t ∨ a = v ∧ t = st.next, .inl (.inr ⟨rfl, rfl⟩), by simp only; omega, hvec, ?_⟩
            obtain ⟨n1, e1, k1, p1⟩ := hg.defs
            simp only at e1 p1
            constructor
            · simp only; omega
            · refine ⟨_ :: n1, by rw [e1]; rfl, ?_, ?_⟩
              · simp only [List.map_cons, List.nodup_cons]
                refine ⟨?_, k1⟩
                intro hx
                obtain ⟨d, hd, he⟩ := List.mem_map.mp hx
                have := (p1 d hd).1
                omega
              · intro d hd
                rcases List.mem_cons.mp hd with rfl | hd
                · exact ⟨Nat.le_refl _, by simp only; omega, v, hmade⟩
                · obtain ⟨a, b, u, hu⟩ := p1 d hd
                  exact ⟨by omega, b, u, hu.mono lift⟩
            · intro a t ha
              rcases hg.map a t ha with h | h
              · exact .inl (.inl h)
              · rcases List.mem_cons.mp h with h | h
                · simp only [Prod.mk.injEq] at h
                  exact .inl (.inr h)
                · exact .inr h
            · intro _
              exact hg.below hm'
            · intro a t ha
              rcases ha with ha | ⟨rfl, rfl⟩
              · exact (hg.first a t ha).mono (fun d hd => List.mem_cons_of_mem _ hd) lift
              · exact First.made (d := ⟨st.next, .phi ss, P.blk a, ⟨(P.ty a).w, 0⟩⟩) hmade List.mem_cons_self
      · -- shuffle
        rename_i a hnode
        obtain ⟨U, hU0, hs0, _, hg⟩ := ih a st s st' (hU a (by simp [hnode, Node.uses])) hn hm h
        exact ⟨_, .inl (.inr ⟨rfl, rfl⟩), hs0, hvec, hg.also (.shuffle hnode hU0)⟩
      · -- insertions
        rename_i base e idx hnode
        split at h
        · rename_i t ht
          simp only [Option.some.injEq, Prod.mk.injEq] at h
          obtain ⟨rfl, rfl⟩ := h
          refine ⟨_, .inl (.inr ⟨rfl, rfl⟩), ?_, hvec, (Grow.refl P add n st).also (.insert hnode hvec ht)⟩
          exact Nat.lt_of_lt_of_le (flatten_elt hP hF hnode ht).2.2 hn
        · simp at h
      · -- anything else
        simp only [Option.some.injEq] at h
        have h1 := congrArg Prod.fst h
        have h2 := congrArg Prod.snd h
        simp only at h1 h2
        subst h1 h2
        exact ⟨_, .inl (.inr ⟨rfl, rfl⟩), Nat.lt_succ_self _, hvec,
          (Grow.refl P add n st).emit (.elt hv hn)⟩

end Ispc.Elt
