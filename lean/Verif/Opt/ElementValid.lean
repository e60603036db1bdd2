import Verif.Opt.ElementFirst

/-!
# C78: the function with the scalar computation added
-/

namespace Ispc.Elt

/-! ### Looking up added values -/

theorem find_of_nodup : ∀ {D : List Def} {d : Def}, (D.map Def.id).Nodup → d ∈ D →
    D.find? (fun e => e.id = d.id) = some d
  | [], _, _, h => by simp at h
  | e :: D, d, hn, h => by
    simp only [List.map_cons, List.nodup_cons] at hn
    rw [List.find?_cons]
    by_cases he : e.id = d.id
    · simp only [he, decide_true]
      rcases List.mem_cons.mp h with rfl | h
      · rfl
      · exact absurd (List.mem_map.mpr ⟨d, h, he.symm⟩) hn.1
    · simp only [he, decide_false]
      rcases List.mem_cons.mp h with rfl | h
      · exact absurd rfl he
      · exact find_of_nodup hn.2 h

theorem find_none {D : List Def} {v : Nat} (h : ∀ d ∈ D, d.id ≠ v) : D.find? (fun e => e.id = v) = none := by
  rw [List.find?_eq_none]
  intro d hd
  simpa using h d hd

/-- The values added: identifiers are new and different, each computes a first element. -/
structure Added (P : Prog) (add : Nat → Bool) (n : Nat) (D : List Def) (U : Nat → Nat → Prop) : Prop where
  nodup : (D.map Def.id).Nodup
  new : ∀ d ∈ D, n ≤ d.id
  made : ∀ d ∈ D, ∃ v, Made P n U v d
  first : ∀ v s, U v s → First P add n D U v s

variable {P : Prog} {add : Nat → Bool} {n : Nat} {D : List Def} {U : Nat → Nat → Prop}

theorem Added.node (h : Added P add n D U) {d : Def} (hd : d ∈ D) : (P.with D).node d.id = d.node := by
  simp [Prog.with, find_of_nodup h.nodup hd]

theorem Added.blk (h : Added P add n D U) {d : Def} (hd : d ∈ D) : (P.with D).blk d.id = d.blk := by
  simp [Prog.with, find_of_nodup h.nodup hd]

theorem Added.ty (h : Added P add n D U) {d : Def} (hd : d ∈ D) : (P.with D).ty d.id = d.ty := by
  simp [Prog.with, find_of_nodup h.nodup hd]

theorem Added.same (h : ∀ d ∈ D, d.id ≠ v) :
    (P.with D).node v = P.node v ∧ (P.with D).blk v = P.blk v ∧ (P.with D).ty v = P.ty v := by
  simp [Prog.with, find_none h]

theorem Added.old (h : Added P add n D U) {v : Nat} (hv : v < n) :
    (P.with D).node v = P.node v ∧ (P.with D).blk v = P.blk v ∧ (P.with D).ty v = P.ty v :=
  Added.same fun d hd => by have := h.new d hd; omega

theorem Added.which (D : List Def) (v : Nat) : (∃ d ∈ D, d.id = v) ∨ ∀ d ∈ D, d.id ≠ v := by
  by_cases h : ∃ d ∈ D, d.id = v
  · exact .inl h
  · refine .inr ?_
    intro d hd he
    exact h ⟨d, hd, he⟩

theorem path_with {b : Nat} {π : List Nat} : Path (P.with D) b π ↔ Path P b π := by
  constructor
  · intro h
    induction h with
    | start => exact .start
    | step b c π _ hb ih => exact .step b c π ih hb
  · intro h
    induction h with
    | start => exact Path.start (P := P.with D)
    | step b c π _ hb ih => exact Path.step (P := P.with D) b c π ih hb

theorem dom_with {d b : Nat} : Dom (P.with D) d b ↔ Dom P d b :=
  ⟨fun h π hπ => h π (path_with.mpr hπ), fun h π hπ => h π (path_with.mp hπ)⟩

theorem dom_entry (P : Prog) (b : Nat) : Dom P P.entry b := by
  intro π h
  induction h with
  | start => simp
  | step b c π _ _ ih => exact List.mem_cons_of_mem _ ih

/-! ### The scalar of a vector is in scope where the vector is -/

theorem Added.scope (h : Added P add n D U) {rank : Nat → Nat} (hP : Valid P rank) (hF : Free P n) :
    ∀ (k v s : Nat), rank v = k → U v s →
      Dom P ((P.with D).blk s) (P.blk v) ∧ (P.with D).ty s = ⟨(P.ty v).w, 0⟩ := by
  intro k
  induction k using Nat.strongRecOn with
  | ind k ih =>
    intro v s hk hv
    cases h.first v s hv with
    | made hm hd =>
      rw [h.blk hd, h.ty hd]
      cases hm with
      | zero => exact ⟨dom_entry P _, rfl⟩
      | cdata => exact ⟨dom_entry P _, rfl⟩
      | _ => exact ⟨Dom.refl P _, rfl⟩
    | cvec hn =>
      have hs : s < n := hF.uses v s (by simp [hn, Node.uses])
      rw [(h.old hs).2.1, (h.old hs).2.2]
      exact ⟨hP.dom v s (by simp [hn, Node.uses]), (hP.cvec_ty v _ hn).2 s (by simp)⟩
    | shuffle hn ha =>
      rename_i a
      obtain ⟨h1, h2⟩ := ih (rank a) (by rw [← hk]; exact hP.order v a (by simp [hn, Node.uses])) a s rfl ha
      exact ⟨h1.trans (hP.dom v a (by simp [hn, Node.uses])), by rw [h2, (hP.shuf_ty v a true hn).1]⟩
    | insert hn _ hf =>
      obtain ⟨h1, h2, h3⟩ := flatten_elt hP hF hn hf
      rw [(h.old h3).2.1, (h.old h3).2.2]
      exact ⟨h1, h2⟩

/-- An upper bound of the ranks of the values of the function. -/
def top (rank : Nat → Nat) : Nat → Nat
  | 0 => 0
  | n + 1 => top rank n + rank n + 1

theorem rank_lt_top (rank : Nat → Nat) : ∀ {n v : Nat}, v < n → rank v < top rank n
  | n + 1, v, h => by
    simp only [top]
    by_cases hv : v = n
    · subst hv
      omega
    · have := rank_lt_top rank (n := n) (v := v) (by omega)
      omega

/-- The order of the values of the new function: added values after the old ones, in the order of their identifiers. -/
def rankWith (rank : Nat → Nat) (n v : Nat) : Nat := if v < n then rank v else top rank n + v

theorem forall₂_right {R : Nat × Nat → Nat × Nat → Prop} {l l' : List (Nat × Nat)} (h : List.Forall₂ R l l')
    {q : Nat × Nat} (hq : q ∈ l') : ∃ p ∈ l, R p q := by
  induction h with
  | nil => simp at hq
  | cons hr _ ih =>
    rcases List.mem_cons.mp hq with rfl | hq
    · exact ⟨_, List.mem_cons_self, hr⟩
    · obtain ⟨p, hp, hr'⟩ := ih hq
      exact ⟨p, List.mem_cons_of_mem _ hp, hr'⟩

theorem one_of_nodup : ∀ {l : List (Nat × Nat)} {x y b : Nat}, (l.map (·.2)).Nodup → (x, b) ∈ l → (y, b) ∈ l → x = y
  | [], _, _, _, _, h, _ => by simp at h
  | (z, c) :: l, x, y, b, hn, hx, hy => by
    simp only [List.map_cons, List.nodup_cons] at hn
    rcases List.mem_cons.mp hx with h1 | h1 <;> rcases List.mem_cons.mp hy with h2 | h2
    · simp only [Prod.mk.injEq] at h1 h2
      rw [h1.1, h2.1]
    · simp only [Prod.mk.injEq] at h1
      exact absurd (List.mem_map.mpr ⟨(y, b), h2, by simp [h1.2]⟩) hn.1
    · simp only [Prod.mk.injEq] at h2
      exact absurd (List.mem_map.mpr ⟨(x, b), h1, by simp [h2.2]⟩) hn.1
    · exact one_of_nodup hn.2 h1 h2

/-- The function with the added values is valid, except that a phi may have different values for the same block. -/
theorem Added.valid (h : Added P add n D U) {rank : Nat → Nat} (hP : Valid P rank) (hF : Free P n) :
    Valid (P.with D) (rankWith rank n) where
  start := hP.start
  phi_blk := by
    intro v ins hv
    rcases Added.which D v with ⟨d, hd, rfl⟩ | hno
    · rw [h.node hd] at hv
      rw [h.blk hd]
      obtain ⟨u, hm⟩ := h.made d hd
      cases hm with
      | phi hn _ => exact hP.phi_blk u _ hn
      | _ => simp at hv
    · rw [(Added.same hno).1] at hv
      rw [(Added.same hno).2.1]
      exact hP.phi_blk v ins hv
  dom := by
    intro v a ha
    rw [dom_with]
    rcases Added.which D v with ⟨d, hd, rfl⟩ | hno
    · rw [h.node hd] at ha
      rw [h.blk hd]
      obtain ⟨u, hm⟩ := h.made d hd
      cases hm with
      | bin hn h0 h1 _ _ =>
        simp only [Node.uses, List.mem_cons, List.not_mem_nil, or_false] at ha
        rcases ha with rfl | rfl
        · exact (h.scope hP hF _ _ _ rfl h0).1.trans (hP.dom u _ (by simp [hn, Node.uses]))
        · exact (h.scope hP hF _ _ _ rfl h1).1.trans (hP.dom u _ (by simp [hn, Node.uses]))
      | cast hn _ _ h0 _ =>
        simp only [Node.uses, List.mem_cons, List.not_mem_nil, or_false] at ha
        subst ha
        exact (h.scope hP hF _ _ _ rfl h0).1.trans (hP.dom u _ (by simp [hn, Node.uses]))
      | elt hlt _ =>
        simp only [Node.uses, List.mem_cons, List.not_mem_nil, or_false] at ha
        subst ha
        rw [(h.old hlt).2.1]
        exact Dom.refl P _
      | _ => simp [Node.uses] at ha
    · rw [(Added.same hno).1] at ha
      rw [(Added.same hno).2.1, (h.old (hF.uses v a ha)).2.1]
      exact hP.dom v a ha
  order := by
    intro v a ha
    rcases Added.which D v with ⟨d, hd, rfl⟩ | hno
    · rw [h.node hd] at ha
      have hnd := h.new d hd
      have key : ∀ a, a < d.id → rankWith rank n a < rankWith rank n d.id := by
        intro a ha
        simp only [rankWith, if_neg (Nat.not_lt.mpr hnd)]
        split
        · rename_i hlt
          have := rank_lt_top rank hlt
          omega
        · omega
      obtain ⟨u, hm⟩ := h.made d hd
      cases hm with
      | bin hn h0 h1 l0 l1 =>
        simp only [Node.uses, List.mem_cons, List.not_mem_nil, or_false] at ha
        rcases ha with rfl | rfl
        · exact key _ l0
        · exact key _ l1
      | cast hn _ _ h0 l0 =>
        simp only [Node.uses, List.mem_cons, List.not_mem_nil, or_false] at ha
        subst ha
        exact key _ l0
      | elt hlt hle =>
        simp only [Node.uses, List.mem_cons, List.not_mem_nil, or_false] at ha
        subst ha
        exact key _ (Nat.lt_of_lt_of_le hlt hle)
      | _ => simp [Node.uses] at ha
    · rw [(Added.same hno).1] at ha
      have han := hF.uses v a ha
      have hvn : v < n := by
        by_contra hc
        rw [hF.leaf v (by omega)] at ha
        simp [Node.uses] at ha
      simp only [rankWith, if_pos han, if_pos hvn]
      exact hP.order v a ha
  phi_dom := by
    intro v ins x b hv hx
    rw [dom_with]
    rcases Added.which D v with ⟨d, hd, rfl⟩ | hno
    · rw [h.node hd] at hv
      obtain ⟨u, hm⟩ := h.made d hd
      cases hm with
      | phi hn hf =>
        simp only [Node.phi.injEq] at hv
        subst hv
        obtain ⟨p, hp, hpb, hpu⟩ := forall₂_right hf hx
        simp only at hpb hpu
        subst hpb
        exact (h.scope hP hF _ _ _ rfl hpu).1.trans (hP.phi_dom u _ p.1 p.2 hn hp)
      | _ => simp at hv
    · rw [(Added.same hno).1] at hv
      rw [(h.old (hF.phi v ins x b hv hx)).2.1]
      exact hP.phi_dom v ins x b hv hx
  phi_pred := by
    intro v ins x b hv hx
    show b ∈ P.preds ((P.with D).blk v)
    rcases Added.which D v with ⟨d, hd, rfl⟩ | hno
    · rw [h.node hd] at hv
      rw [h.blk hd]
      obtain ⟨u, hm⟩ := h.made d hd
      cases hm with
      | phi hn hf =>
        simp only [Node.phi.injEq] at hv
        subst hv
        obtain ⟨p, hp, hpb, hpu⟩ := forall₂_right hf hx
        simp only at hpb
        subst hpb
        exact hP.phi_pred u _ p.1 p.2 hn hp
      | _ => simp at hv
    · rw [(Added.same hno).1] at hv
      rw [(Added.same hno).2.1]
      exact hP.phi_pred v ins x b hv hx
  phi_all := by
    intro v ins b hv hb
    rcases Added.which D v with ⟨d, hd, rfl⟩ | hno
    · rw [h.node hd] at hv
      rw [h.blk hd] at hb
      obtain ⟨u, hm⟩ := h.made d hd
      cases hm with
      | phi hn hf =>
        simp only [Node.phi.injEq] at hv
        subst hv
        obtain ⟨x, hx⟩ := hP.phi_all u _ b hn hb
        obtain ⟨q, hq, hqb, _⟩ := forall₂_left hf hx
        simp only at hqb
        subst hqb
        exact ⟨q.1, hq⟩
      | _ => simp at hv
    · rw [(Added.same hno).1] at hv
      rw [(Added.same hno).2.1] at hb
      exact hP.phi_all v ins b hv hb
  bin_ty := by
    intro v op a b hv
    rcases Added.which D v with ⟨d, hd, rfl⟩ | hno
    · rw [h.node hd] at hv
      rw [h.ty hd]
      obtain ⟨u, hm⟩ := h.made d hd
      cases hm with
      | bin hn h0 h1 _ _ =>
        simp only [Node.bin.injEq] at hv
        obtain ⟨rfl, rfl, rfl⟩ := hv
        obtain ⟨t0, t1⟩ := hP.bin_ty u _ _ _ hn
        rw [(h.scope hP hF _ _ _ rfl h0).2, (h.scope hP hF _ _ _ rfl h1).2, t0, t1]
        exact ⟨rfl, rfl⟩
      | _ => simp at hv
    · rw [(Added.same hno).1] at hv
      rw [(Added.same hno).2.2, (h.old (hF.uses v a (by simp [hv, Node.uses]))).2.2,
        (h.old (hF.uses v b (by simp [hv, Node.uses]))).2.2]
      exact hP.bin_ty v op a b hv
  phi_ty := by
    intro v ins x b hv hx
    rcases Added.which D v with ⟨d, hd, rfl⟩ | hno
    · rw [h.node hd] at hv
      rw [h.ty hd]
      obtain ⟨u, hm⟩ := h.made d hd
      cases hm with
      | phi hn hf =>
        simp only [Node.phi.injEq] at hv
        subst hv
        obtain ⟨p, hp, hpb, hpu⟩ := forall₂_right hf hx
        rw [(h.scope hP hF _ _ _ rfl hpu).2, hP.phi_ty u _ p.1 p.2 hn hp]
      | _ => simp at hv
    · rw [(Added.same hno).1] at hv
      rw [(Added.same hno).2.2, (h.old (hF.phi v ins x b hv hx)).2.2]
      exact hP.phi_ty v ins x b hv hx
  shuf_ty := by
    intro v a z hv
    rcases Added.which D v with ⟨d, hd, rfl⟩ | hno
    · rw [h.node hd] at hv
      obtain ⟨u, hm⟩ := h.made d hd
      cases hm <;> simp at hv
    · rw [(Added.same hno).1] at hv
      rw [(Added.same hno).2.2, (h.old (hF.uses v a (by simp [hv, Node.uses]))).2.2]
      exact hP.shuf_ty v a z hv
  ins_ty := by
    intro v base e i hv
    rcases Added.which D v with ⟨d, hd, rfl⟩ | hno
    · rw [h.node hd] at hv
      obtain ⟨u, hm⟩ := h.made d hd
      cases hm <;> simp at hv
    · rw [(Added.same hno).1] at hv
      rw [(Added.same hno).2.2, (h.old (hF.uses v base (by simp [hv, Node.uses]))).2.2,
        (h.old (hF.uses v e (by simp [hv, Node.uses]))).2.2]
      exact hP.ins_ty v base e i hv
  cvec_ty := by
    intro v ops hv
    rcases Added.which D v with ⟨d, hd, rfl⟩ | hno
    · rw [h.node hd] at hv
      obtain ⟨u, hm⟩ := h.made d hd
      cases hm <;> simp at hv
    · rw [(Added.same hno).1] at hv
      rw [(Added.same hno).2.2]
      refine ⟨(hP.cvec_ty v ops hv).1, ?_⟩
      intro o ho
      rw [(h.old (hF.uses v o (by simp [hv, Node.uses, ho]))).2.2]
      exact (hP.cvec_ty v ops hv).2 o ho
  cdata_ty := by
    intro v xs hv
    rcases Added.which D v with ⟨d, hd, rfl⟩ | hno
    · rw [h.node hd] at hv
      obtain ⟨u, hm⟩ := h.made d hd
      cases hm <;> simp at hv
    · rw [(Added.same hno).1] at hv
      rw [(Added.same hno).2.2]
      exact hP.cdata_ty v xs hv

theorem Added.oneValue (h : Added P add n D U) (hV : OneValue P) (hO : OneEdge P) : OneValue (P.with D) := by
  intro v ins x y b hv hx hy
  rcases Added.which D v with ⟨d, hd, rfl⟩ | hno
  · rw [h.node hd] at hv
    obtain ⟨u, hm⟩ := h.made d hd
    cases hm with
    | phi hn hf =>
      simp only [Node.phi.injEq] at hv
      subst hv
      have hb := forall₂_blocks hf
      exact one_of_nodup (by rw [← hb]; exact hO u _ hn) hx hy
    | _ => simp at hv
  · rw [(Added.same hno).1] at hv
    exact hV v ins x y b hv hx hy

/-! ### What the extraction adds -/

theorem added_of_extract {P : Prog} {rank : Nat → Nat} (hP : Valid P rank) {n : Nat} (hF : Free P n) {add : Nat → Bool}
    {fuel v s : Nat} {st : St} (hv : v < n) (h : extract P add fuel v ⟨n, [], []⟩ = some (s, st)) :
    ∃ U, U v s ∧ Added P add n st.defs U ∧ (P.ty v).n ≠ 0 := by
  obtain ⟨U, hU, _, hvec, hg⟩ := extract_ok hP hF add fuel v ⟨n, [], []⟩ s st hv (Nat.le_refl _) (by simp) h
  have hor : ∀ x y, Or U [] x y → U x y := fun x y h => h.elim id (by simp)
  obtain ⟨new, he, hn, hd⟩ := hg.defs
  simp only [List.append_nil] at he
  subst he
  refine ⟨U, hor _ _ hU, ⟨hn, fun d h => (hd d h).1, ?_, ?_⟩, hvec⟩
  · intro d h
    obtain ⟨_, _, u, hu⟩ := hd d h
    exact ⟨u, hu.mono hor⟩
  · intro a t ha
    exact (hg.first a t ha).mono (fun _ h => h) hor

theorem of_firstElement {P : Prog} {rank : Nat → Nat} (hP : Valid P rank) {n : Nat} (hF : Free P n) {add : Nat → Bool}
    {fuel v s : Nat} {Q : Prog} (hv : v < n) (h : firstElement P add fuel v n = some (s, Q)) :
    ∃ D U, Q = P.with D ∧ U v s ∧ Added P add n D U := by
  simp only [firstElement] at h
  split at h
  · simp at h
  · rename_i t st he
    simp only [Option.some.injEq, Prod.mk.injEq] at h
    obtain ⟨rfl, rfl⟩ := h
    obtain ⟨U, hU, hA, _⟩ := added_of_extract hP hF hv he
    exact ⟨st.defs, U, rfl, hU, hA⟩

/-- **C78.** The scalar computation that the compiler adds is well formed: the function with it is in SSA form (each new
value is defined once, where its operands are in scope), the values of the old function are as they were, and the scalar
is in scope where the vector is and has the type of its elements. -/
theorem first_valid {P : Prog} {rank : Nat → Nat} (hP : Valid P rank) {n : Nat} (hF : Free P n) {add : Nat → Bool}
    {fuel v s : Nat} {Q : Prog} (hv : v < n) (h : firstElement P add fuel v n = some (s, Q)) :
    (∃ rank', Valid Q rank') ∧ Q.preds = P.preds ∧ Q.entry = P.entry ∧ Dom P (Q.blk s) (P.blk v) ∧
      Q.ty s = ⟨(P.ty v).w, 0⟩ ∧ ∀ u, u < n → Q.node u = P.node u ∧ Q.blk u = P.blk u ∧ Q.ty u = P.ty u := by
  obtain ⟨D, U, rfl, hU, hA⟩ := of_firstElement hP hF hv h
  obtain ⟨h1, h2⟩ := hA.scope hP hF _ v s rfl hU
  exact ⟨⟨_, hA.valid hP hF⟩, rfl, rfl, h1, h2, fun u hu => hA.old hu⟩

/-- **C78.** The phis of the new function have one value for each block, if no block is twice a successor of another
one.  Missing: blocks that are, as with two cases of a switch that go to the same place (`phi_twice_wrong`). -/
theorem one_value_partial {P : Prog} {rank : Nat → Nat} (hP : Valid P rank) {n : Nat} (hF : Free P n)
    (hV : OneValue P) (hO : OneEdge P) {add : Nat → Bool} {fuel v s : Nat} {Q : Prog} (hv : v < n)
    (h : firstElement P add fuel v n = some (s, Q)) : OneValue Q := by
  obtain ⟨D, U, rfl, hU, hA⟩ := of_firstElement hP hF hv h
  exact hA.oneValue hV hO

/-- The values of the old function are what they were defined as, in executions of the new one. -/
theorem Added.inScope (h : Added P add n D U) {rank rank' : Nat → Nat} (_hP : Valid P rank) (hF : Free P n)
    (hQ : Valid (P.with D) rank') {S : Sem} {b : Nat} {env : Env} (hrun : Run S (P.with D) b env) :
    InScope S P b env := by
  intro v hv hphi
  by_cases hvn : v < n
  · obtain ⟨o1, o2, o3⟩ := h.old hvn
    have h1 := holds_of_run hQ hrun v (by rw [dom_with, o2]; exact hv) (by rw [o1]; exact hphi)
    unfold Holds at h1 ⊢
    rw [o1, o3] at h1
    cases hn : P.node v with
    | cast op a =>
      simp only [hn] at h1 ⊢
      rw [(h.old (hF.uses v a (by simp [hn, Node.uses]))).2.2] at h1
      exact h1
    | insert base e idx =>
      cases idx with
      | none => trivial
      | some i =>
        simp only [hn] at h1 ⊢
        exact h1
    | shuffle a z =>
      cases z with
      | false => trivial
      | true =>
        simp only [hn] at h1 ⊢
        exact h1
    | _ => simpa only [hn] using h1
  · simp [Holds, hF.leaf v (by omega)]

/-- Related scalars are the first elements, if related scalar phis are. -/
theorem Added.equal_at (h : Added P add n D U) {rank : Nat → Nat} (hP : Valid P rank) (hF : Free P n)
    (hL : LanesKept P) {rank' : Nat → Nat} (hQ : Valid (P.with D) rank') {S : Sem} {b : Nat} {env : Env}
    (hrun : Run S (P.with D) b env)
    (hphi : ∀ v s ins ss, U v s → P.node v = .phi ins → ⟨s, .phi ss, P.blk v, ⟨(P.ty v).w, 0⟩⟩ ∈ D →
      List.Forall₂ (fun p q => p.2 = q.2 ∧ U p.1 q.1) ins ss → Dom P (P.blk v) b → env s 0 = env v 0) :
    ∀ (k v s : Nat), rank v = k → U v s → Dom P (P.blk v) b → env s 0 = env v 0 := by
  have hS := h.inScope hP hF hQ hrun
  intro k
  induction k using Nat.strongRecOn with
  | ind k ih =>
    intro v s hk hv hd
    obtain ⟨hsd, _⟩ := h.scope hP hF _ v s rfl hv
    have hsb := hsd.trans hd
    have sub : ∀ a t, a ∈ (P.node v).uses → U a t → env t 0 = env a 0 := by
      intro a t ha hat
      exact ih (rank a) (by rw [← hk]; exact hP.order v a ha) a t rfl hat ((hP.dom v a ha).trans hd)
    cases h.first v s hv with
    | made hm hd' =>
      have hs := fun hp => holds_of_run hQ hrun _ (by rw [dom_with]; exact hsb) (by rw [h.node hd']; exact hp)
      unfold Holds at hs
      rw [h.node hd', h.ty hd'] at hs
      cases hm with
      | zero hn =>
        have hv1 := hS v hd (by simp [hn, Node.isPhi])
        simp only [Holds, hn] at hv1
        rw [hv1 0]
        exact hs rfl 0
      | cdata hn =>
        have hv1 := hS v hd (by simp [hn, Node.isPhi])
        simp only [Holds, hn] at hv1
        rw [hv1 0 _ rfl]
        exact hs rfl 0
      | bin hn h0 h1 _ _ =>
        have hv1 := hS v hd (by simp [hn, Node.isPhi])
        simp only [Holds, hn] at hv1
        rw [hv1 0, ← sub _ _ (by simp [hn, Node.uses]) h0, ← sub _ _ (by simp [hn, Node.uses]) h1]
        exact hs rfl 0
      | cast hn hvn han h0 _ =>
        have hv1 := hS v hd (by simp [hn, Node.isPhi])
        simp only [Holds, hn] at hv1
        have hs1 := hs rfl 0
        simp only [(h.scope hP hF _ _ _ rfl h0).2, Sem.castv, if_true] at hs1
        rw [hs1, hv1 0, Sem.castv, if_pos (hL v _ _ hn han hvn), ← sub _ _ (by simp [hn, Node.uses]) h0]
      | phi hn hf => exact hphi v _ _ _ hv hn hd' hf hd
      | elt _ _ => exact hs rfl 0
    | cvec hn =>
      have hv1 := hS v hd (by simp [hn, Node.isPhi])
      simp only [Holds, hn] at hv1
      rw [hv1 0 s rfl]
    | shuffle hn ha =>
      have hv1 := hS v hd (by simp [hn, Node.isPhi])
      simp only [Holds, hn] at hv1
      rw [hv1 0, sub _ _ (by simp [hn, Node.uses]) ha]
    | insert hn _ hf =>
      obtain ⟨els, hg, h1, _⟩ := insert_case hP add hS hd hn hf
      exact (hg 0 s (h1 rfl)).1.symm

theorem Added.lt (h : Added P add n D U) (hF : Free P n) {v s : Nat} (hv : U v s) : v < n := by
  by_contra hc
  have hl := hF.leaf v (by omega)
  cases h.first v s hv with
  | made hm _ =>
    cases hm with
    | elt hlt _ => exact hc hlt
    | _ => simp_all
  | _ => simp_all

theorem Added.equal (h : Added P add n D U) {rank : Nat → Nat} (hP : Valid P rank) (hF : Free P n)
    (hL : LanesKept P) {rank' : Nat → Nat} (hQ : Valid (P.with D) rank') {S : Sem} {b : Nat}
    {env : Env} (hrun : Run S (P.with D) b env) : ∀ v s, U v s → Dom P (P.blk v) b → env s 0 = env v 0 := by
  induction hrun with
  | start env h0 =>
    intro v s
    refine h.equal_at hP hF hL hQ (.start env h0) ?_ (rank v) v s rfl
    intro v s ins ss _ hn _ _ hd
    exact absurd (by simpa using hd _ Path.start) (hP.phi_blk v ins hn)
  | step b c env env' hr hbc hph hkeep hcomp ih =>
    intro v s
    refine h.equal_at hP hF hL hQ (.step b c env env' hr hbc hph hkeep hcomp) ?_ (rank v) v s rfl
    intro v s ins ss hvs hn hD hf hd
    have hvn : v < n := h.lt hF hvs
    have hnode := h.node hD
    have hblk := h.blk hD
    simp only at hnode hblk
    obtain ⟨o1, o2, _⟩ := h.old hvn
    by_cases hc : P.blk v = c
    · obtain ⟨x, hx⟩ := hP.phi_all v ins b hn (by rw [hc]; exact hbc)
      obtain ⟨⟨t, b'⟩, ht, hbt, hxt⟩ := forall₂_left hf hx
      simp only at hbt hxt
      subst hbt
      rw [hph v ins (by rw [o2]; exact hc) (by rw [o1]; exact hn) x hx, hph s ss (by rw [hblk]; exact hc) hnode t ht]
      exact ih x t hxt (hP.phi_dom v ins x b hn hx)
    · rw [hkeep v (by rw [o2]; exact hc), hkeep s (by rw [hblk]; exact hc)]
      exact ih v s hvs (hd.pred hc hbc)

/-- **C78.** The scalar that the compiler uses for the first element of a vector is the first element of the vector: in
every execution of the function with the scalar computation, at the end of every block that the definition of the vector
dominates, whatever operations, loops and constants the vector is computed with.  Missing: casts between vectors with
different numbers of elements (`regroup_wrong`). -/
theorem first_partial {P : Prog} {rank : Nat → Nat} (hP : Valid P rank) {n : Nat} (hF : Free P n) (hL : LanesKept P)
    {add : Nat → Bool} {fuel v s : Nat} {Q : Prog} (hv : v < n) (h : firstElement P add fuel v n = some (s, Q))
    {S : Sem} {b : Nat} {env : Env} (hrun : Run S Q b env) (hd : Dom P (P.blk v) b) : env s 0 = env v 0 := by
  obtain ⟨D, U, rfl, hU, hA⟩ := of_firstElement hP hF hv h
  exact hA.equal hP hF hL (hA.valid hP hF) hrun v s hU hd

/-- The values of the old function. -/
def oldEnv (n : Nat) (env : Env) : Env := fun u l => if u < n then env u l else 0

theorem oldEnv_lt {n u : Nat} (env : Env) (h : u < n) : oldEnv n env u = env u := by
  funext l
  simp [oldEnv, h]

theorem Added.holds_old (h : Added P add n D U) (hF : Free P n) {S : Sem} {env : Env} {v : Nat}
    (hv : v < n → Holds S (P.with D) env v) : Holds S P (oldEnv n env) v := by
  by_cases hvn : v < n
  · have h1 := hv hvn
    obtain ⟨o1, _, o3⟩ := h.old hvn
    have hu := hF.uses v
    have h2 : Holds S (P.with D) (oldEnv n env) v :=
      h1.congr (oldEnv_lt env hvn) fun a ha => oldEnv_lt env (hu a (by rw [o1] at ha; exact ha))
    unfold Holds at h2 ⊢
    rw [o1, o3] at h2
    cases hn : P.node v with
    | cast op a =>
      simp only [hn] at h2 ⊢
      rw [(h.old (hu a (by simp [hn, Node.uses]))).2.2] at h2
      exact h2
    | insert base e idx =>
      cases idx with
      | none => trivial
      | some i =>
        simp only [hn] at h2 ⊢
        exact h2
    | shuffle a z =>
      cases z with
      | false => trivial
      | true =>
        simp only [hn] at h2 ⊢
        exact h2
    | _ => simpa only [hn] using h2
  · simp [Holds, hF.leaf v (by omega)]

/-- **C78.** The added scalar computation does not change the function: in its executions, the values of the old
function go through the states of an execution of the old function. -/
theorem first_keeps {P : Prog} {rank : Nat → Nat} (hP : Valid P rank) {n : Nat} (hF : Free P n)
    {add : Nat → Bool} {fuel v s : Nat} {Q : Prog} (hv : v < n) (h : firstElement P add fuel v n = some (s, Q))
    {S : Sem} {b : Nat} {env : Env} (hrun : Run S Q b env) : ∃ env', Run S P b env' ∧ ∀ u, u < n → env' u = env u := by
  obtain ⟨D, U, rfl, _, hA⟩ := of_firstElement hP hF hv h
  refine ⟨oldEnv n env, ?_, fun u hu => oldEnv_lt env hu⟩
  induction hrun with
  | start env h0 =>
    refine .start _ ?_
    intro v hvb hvp
    refine hA.holds_old hF fun hvn => ?_
    exact h0 v (by rw [(hA.old hvn).2.1]; exact hvb) (by rw [(hA.old hvn).1]; exact hvp)
  | step b c env env' _ hbc hph hkeep hcomp ih =>
    refine .step b c _ _ ih hbc ?_ ?_ ?_
    · intro u ins hub hun x hx
      have hlt : u < n := by
        by_contra hc
        rw [hF.leaf u (by omega)] at hun
        simp at hun
      rw [oldEnv_lt env' hlt, oldEnv_lt env (hF.phi u ins x b hun hx)]
      exact hph u ins (by rw [(hA.old hlt).2.1]; exact hub) (by rw [(hA.old hlt).1]; exact hun) x hx
    · intro u hu
      by_cases hlt : u < n
      · rw [oldEnv_lt env' hlt, oldEnv_lt env hlt]
        exact hkeep u (by rw [(hA.old hlt).2.1]; exact hu)
      · funext l
        simp [oldEnv, hlt]
    · intro u hu hup
      refine hA.holds_old hF fun hlt => ?_
      exact hcomp u (by rw [(hA.old hlt).2.1]; exact hu) (by rw [(hA.old hlt).1]; exact hup)

end Ispc.Elt
