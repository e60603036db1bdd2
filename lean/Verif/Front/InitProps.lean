import Mathlib.Data.List.Perm.Subperm
import Verif.Front.Init

/-!
# Initialisers of variables: theorems
-/

namespace Ispc.Braces

variable {V S : Type}

/-! ### Zero filling -/

theorem elems_nil (C : Cfg V) : ∀ (ts : List Ty) (s : S), Elems C ts [] s (zeroMems C ts) s
  | [], s      => by rw [zeroMems]; exact .nil
  | t :: ts, s => by rw [zeroMems]; exact .fill (elems_nil C ts s)

theorem elems_nil_inv (C : Cfg V) : ∀ (ts : List Ty) (s : S) (ms : List (Mem V)) (s' : S),
    Elems C ts [] s ms s' → ms = zeroMems C ts ∧ s' = s
  | [], s, ms, s', h => by cases h; exact ⟨by rw [zeroMems], rfl⟩
  | t :: ts, s, ms, s', h => by
    cases h with
    | fill h =>
      obtain ⟨h1, h2⟩ := elems_nil_inv C ts s _ _ h
      exact ⟨by rw [zeroMems, h1], h2⟩

theorem elems_length (C : Cfg V) : ∀ (is : List (Init V S)) (ts : List Ty) (s : S) (ms : List (Mem V))
    (s' : S), Elems C ts is s ms s' → is.length ≤ ts.length
  | [], _, _, _, _, _ => Nat.zero_le _
  | i :: is, [], s, ms, s', h => by cases h
  | i :: is, t :: ts, s, ms, s', h => by
    cases h with
    | cons _ h => have := elems_length C is ts _ _ _ h; simp only [List.length_cons]; omega

/-! ### Expressions -/

/-- An expression initialises exactly the types it converts to. -/
theorem inits_expr_iff (C : Cfg V) (T : Ty) (e : Ex V S) (s : S) (m : Mem V) (s' : S) :
    Inits C T (.expr e) s m s' ↔
      convertible T e = true ∧ m = place C e (e.ev s).1 T ∧ s' = (e.ev s).2 := by
  constructor
  · intro h
    cases h with
    | uni h1 h2 => simp [convertible, place, h1, h2]
    | spread h1 h2 => simp [convertible, place, h1, h2]
    | lanes h1 h2 => simp [convertible, place, h1, h2]
    | smear h1 h2 => simp [convertible, place, h1, h2]
  · rintro ⟨h1, rfl, rfl⟩
    cases T with
    | uni k =>
      have hv : e.varying = false := by simpa [convertible] using h1
      exact .uni hv rfl
    | var k =>
      by_cases hv : e.varying = true
      · have := Inits.lanes (C := C) (k := k) hv (show e.ev s = ((e.ev s).1, (e.ev s).2) from rfl)
        simpa [place, hv] using this
      · have hv : e.varying = false := by simpa using hv
        have := Inits.spread (C := C) (k := k) hv (show e.ev s = ((e.ev s).1, (e.ev s).2) from rfl)
        simpa [place, hv] using this
    | vec k n =>
      have hv : e.varying = false := by simpa [convertible] using h1
      exact .smear hv rfl
    | coll ts => simp [convertible] at h1

theorem constExpr_some (C : Cfg V) (T : Ty) (e : Ex V S) (m : Mem V)
    (hw : Wf (.expr e)) (h : constExpr C T e = .some m) (s : S) :
    Inits C T (.expr e) s m s := by
  rw [inits_expr_iff]
  unfold constExpr at h
  rw [Wf] at hw
  split at h
  · rename_i c k hc
    split at h
    · cases h
    · rename_i hv
      cases h
      have := hw c hc s
      simp [this, convertible, place, hv]
  · rename_i c k hc
    cases h
    have := hw c hc s
    simp [this, convertible]
  · cases h

theorem constExpr_not_error (C : Cfg V) (T : Ty) (e : Ex V S) : constExpr C T e ≠ .error := by
  unfold constExpr
  split
  · split <;> simp
  · simp
  · simp

/-! ### Constants -/

theorem node_some {r : CRes (List (Mem V))} {m : Mem V} (h : r.node = .some m) :
    ∃ ms, r = .some ms ∧ m = .node ms := by
  cases r with
  | error => cases h
  | none => cases h
  | some ms => cases h; exact ⟨ms, rfl, rfl⟩

theorem node_error {r : CRes (List (Mem V))} (h : r.node = .error) : r = .error := by
  cases r with
  | error => rfl
  | none => cases h
  | some ms => cases h

theorem cons_some {r : CRes (Mem V)} {q : CRes (List (Mem V))} {ms : List (Mem V)}
    (h : CRes.cons r q = .some ms) : ∃ m ms', r = .some m ∧ q = .some ms' ∧ ms = m :: ms' := by
  cases r with
  | error => cases h
  | none => cases h
  | some m =>
    cases q with
    | error => cases h
    | none => cases h
    | some ms' => cases h; exact ⟨m, ms', rfl, rfl, rfl⟩

theorem cons_error {r : CRes (Mem V)} {q : CRes (List (Mem V))}
    (h : CRes.cons r q = .error) : r = .error ∨ q = .error := by
  cases r with
  | error => exact .inl rfl
  | none => cases h
  | some m =>
    cases q with
    | error => exact .inr rfl
    | none => cases h
    | some ms' => cases h

mutual
theorem constOf_some (C : Cfg V) : ∀ (i : Init V S) (T : Ty) (m : Mem V), Wf i →
    constOf C T i = .some m → ∀ s, Inits C T i s m s
  | .expr e, T, m, hw, h, s => by
    rw [constOf] at h
    exact constExpr_some C T e m hw h s
  | .list is, T, m, hw, h, s => by
    rw [Wf] at hw
    cases T with
    | uni k =>
      rw [constOf] at h
      obtain ⟨i, rfl, hi⟩ := constOne_some C is (.uni k) m hw h
      exact .braceUni (hi s)
    | var k =>
      rw [constOf] at h
      split at h
      · obtain ⟨i, rfl, hi⟩ := constOne_some C is (.var k) m hw h
        exact .braceVar (hi s)
      · split at h
        · cases h
        · split at h
          · cases h
          · obtain ⟨ms, h1, rfl⟩ := node_some h
            exact .each (by assumption) (by omega)
              (constElems_some C is _ ms hw (by rw [List.length_replicate]; omega) h1 s)
    | vec k n =>
      rw [constOf] at h
      split at h
      · cases h
      · obtain ⟨ms, h1, rfl⟩ := node_some h
        exact .vec (constElems_some C is _ ms hw (by rw [List.length_replicate]; omega) h1 s)
    | coll ts =>
      rw [constOf] at h
      split at h
      · cases h
      · obtain ⟨ms, h1, rfl⟩ := node_some h
        exact .coll (constElems_some C is _ ms hw (by omega) h1 s)
theorem constOne_some (C : Cfg V) : ∀ (is : List (Init V S)) (T : Ty) (m : Mem V), Wfs is →
    constOne C T is = .some m → ∃ i, is = [i] ∧ ∀ s, Inits C T i s m s
  | [], T, m, hw, h => by rw [constOne] at h; cases h
  | i :: [], T, m, hw, h => by
    rw [Wfs] at hw
    rw [constOne] at h
    exact ⟨i, rfl, constOf_some C i T m hw.1 h⟩
  | _ :: _ :: _, T, m, hw, h => by rw [constOne] at h; cases h
theorem constElems_some (C : Cfg V) : ∀ (is : List (Init V S)) (ts : List Ty) (ms : List (Mem V)),
    Wfs is → is.length ≤ ts.length → constElems C ts is = .some ms → ∀ s, Elems C ts is s ms s
  | [], [], ms, hw, hl, h, s => by rw [constElems] at h; cases h; exact .nil
  | [], t :: ts, ms, hw, hl, h, s => by
    rw [constElems] at h; cases h; exact elems_nil C (t :: ts) s
  | i :: is, [], ms, hw, hl, h, s => by simp at hl
  | i :: is, t :: ts, ms, hw, hl, h, s => by
    rw [Wfs] at hw
    rw [constElems] at h
    split at h
    · cases h
    · obtain ⟨m, ms', h1, h2, rfl⟩ := cons_some h
      exact .cons (constOf_some C i t m hw.1 h1 s)
        (constElems_some C is ts ms' hw.2 (by simpa using hl) h2 s)
end

mutual
theorem constOf_error (C : Cfg V) : ∀ (i : Init V S) (T : Ty), constOf C T i = .error →
    ∀ s m s', ¬ Inits C T i s m s'
  | .expr e, T, h, s, m, s', hi => by
    rw [constOf] at h
    exact constExpr_not_error C T e h
  | .list is, T, h, s, m, s', hi => by
    cases T with
    | uni k =>
      rw [constOf] at h
      obtain ⟨i, rfl, he⟩ := constOne_error C is (.uni k) h
      cases hi with
      | braceUni hi => exact he s m s' hi
    | var k =>
      rw [constOf] at h
      split at h
      · obtain ⟨i, rfl, he⟩ := constOne_error C is (.var k) h
        cases hi with
        | braceVar hi => exact he s m s' hi
        | each h1 => simp at h1
      · rename_i h1
        cases hi with
        | braceVar hi => simp at h1
        | each _ hW hel =>
          rw [if_neg (by omega), if_neg (by omega)] at h
          exact constElems_error C is _ (node_error h) s _ s' hel
    | vec k n =>
      cases hi with
      | vec hel =>
        rw [constOf] at h
        have := elems_length C is _ s _ s' hel
        rw [List.length_replicate] at this
        rw [if_neg (by omega)] at h
        exact constElems_error C is _ (node_error h) s _ s' hel
    | coll ts =>
      cases hi with
      | coll hel =>
        rw [constOf] at h
        have := elems_length C is _ s _ s' hel
        rw [if_neg (by omega)] at h
        exact constElems_error C is _ (node_error h) s _ s' hel
theorem constOne_error (C : Cfg V) : ∀ (is : List (Init V S)) (T : Ty),
    constOne C T is = .error → ∃ i, is = [i] ∧ ∀ s m s', ¬ Inits C T i s m s'
  | [], T, h => by rw [constOne] at h; cases h
  | i :: [], T, h => by
    rw [constOne] at h
    exact ⟨i, rfl, constOf_error C i T h⟩
  | _ :: _ :: _, T, h => by rw [constOne] at h; cases h
theorem constElems_error (C : Cfg V) : ∀ (is : List (Init V S)) (ts : List Ty),
    constElems C ts is = .error → ∀ s ms s', ¬ Elems C ts is s ms s'
  | [], [], h, s, ms, s', he => by rw [constElems] at h; cases h
  | [], t :: ts, h, s, ms, s', he => by rw [constElems] at h; cases h
  | i :: is, [], h, s, ms, s', he => by cases he
  | i :: is, t :: ts, h, s, ms, s', he => by
    cases he with
    | cons hi he =>
      rw [constElems] at h
      split at h
      · rename_i hb
        cases i with
        | expr e =>
          rw [inits_expr_iff] at hi
          simp [unconvertible, hi.1] at hb
        | list js => simp [unconvertible] at hb
      · rcases cons_error h with h | h
        · exact constOf_error C i t h s _ _ hi
        · exact constElems_error C is ts h _ _ _ he
end

/-! ### A uniform short vector from atomic expressions -/

/-- The elements that evaluating `es` once each, in order, gives. -/
def cells (C : Cfg V) (k : Kind) : List (Ex V S) → S → List (Mem V) × S
  | [], s => ([], s)
  | e :: es, s =>
    let r := e.ev s
    let q := cells C k es r.2
    (.cell (.val (C.conv e.kind k (r.1 0))) :: q.1, q.2)

theorem cells_length (C : Cfg V) (k : Kind) : ∀ (es : List (Ex V S)) (s : S),
    (cells C k es s).1.length = es.length
  | [], s => rfl
  | e :: es, s => by simp [cells, cells_length C k es]

theorem elems_cells (C : Cfg V) (k : Kind) : ∀ (es : List (Ex V S)) (s : S) (ms : List (Mem V)) (s' : S),
    (∀ e ∈ es, e.varying = false) →
    (Elems C (List.replicate es.length (.uni k)) (es.map .expr) s ms s' ↔ (ms, s') = cells C k es s)
  | [], s, ms, s', _ => by
    constructor
    · intro h; cases h; rfl
    · intro h; cases h; exact .nil
  | e :: es, s, ms, s', hu => by
    have ih := fun s ms s' => elems_cells C k es s ms s' (fun e he => hu e (.tail _ he))
    constructor
    · intro h
      cases h with
      | cons hi he =>
        rw [inits_expr_iff] at hi
        obtain ⟨-, rfl, rfl⟩ := hi
        have := (ih _ _ _).1 he
        simp [cells, ← this, place]
    · intro h
      simp only [cells] at h
      obtain ⟨rfl, rfl⟩ := Prod.mk.inj h
      refine .cons (s1 := (e.ev s).2) ?_ ((ih _ _ _).2 rfl)
      rw [inits_expr_iff]
      exact ⟨by simp [convertible, hu e (.head _)], rfl, rfl⟩

theorem le_vecMem (dtw n : Nat) (hd : 0 < dtw) : n ≤ vecMem dtw n := by
  have h1 : n ≤ 2 ^ Nat.clog 2 n := Nat.le_pow_clog (by decide) n
  unfold vecMem
  simp only
  split
  · rename_i h
    have : 2 ^ Nat.clog 2 n ≤ 128 / dtw := by
      rw [Nat.le_div_iff_mul_le hd]; omega
    omega
  · exact h1

/-- The sequential insertions, for the expressions of a list at consecutive
positions. -/
theorem insertAll_seq (C : Cfg V) (k : Kind) (k' : Kind) : ∀ (es : List (Ex V S)) (off : Nat)
    (f : Nat → Cell V) (s : S), (∀ e ∈ es, e.kind = k') →
    (insertAll (es.zipIdx off) f s).2 = (cells C k es s).2 ∧
    (∀ j, j < off → (insertAll (es.zipIdx off) f s).1 j = f j) ∧
    (∀ j, off + es.length ≤ j → (insertAll (es.zipIdx off) f s).1 j = f j) ∧
    (∀ j, j < es.length →
      ((cells C k es s).1[j]?).getD (.cell .uninit) =
        .cell (convLanes C k' k (insertAll (es.zipIdx off) f s).1 (off + j)))
  | [], off, f, s, _ => by simp [insertAll, cells]
  | e :: es, off, f, s, hk => by
    have ih := insertAll_seq C k k' es (off + 1) (setLane f off (.val ((e.ev s).1 0))) (e.ev s).2
      (fun e he => hk e (.tail _ he))
    obtain ⟨h1, h2, h3, h4⟩ := ih
    simp only [List.zipIdx_cons, insertAll, cells]
    refine ⟨h1, ?_, ?_, ?_⟩
    · intro j hj
      rw [h2 j (by omega)]
      simp [setLane, Nat.ne_of_lt hj]
    · intro j hj
      simp only [List.length_cons] at hj
      rw [h3 j (by omega), setLane, if_neg (by omega)]
    · intro j hj
      cases j with
      | zero =>
        simp only [List.getElem?_cons_zero, Option.getD_some, Nat.add_zero]
        unfold convLanes
        rw [h2 off (by omega)]
        simp [setLane, hk e (.head _)]
      | succ j =>
        simp only [List.getElem?_cons_succ]
        rw [h4 j (by simpa using hj)]
        congr 2; omega

/-- Insertions of pure expressions. -/
theorem insertAll_pure : ∀ (g : List (Ex V S × Nat)) (f : Nat → Cell V) (s : S),
    (∀ x ∈ g, x.1.pure) → (g.map Prod.snd).Nodup →
    (insertAll g f s).2 = s ∧
    (∀ j, j ∉ g.map Prod.snd → (insertAll g f s).1 j = f j) ∧
    (∀ x ∈ g, (insertAll g f s).1 x.2 = .val ((x.1.ev s).1 0))
  | [], f, s, _, _ => by simp [insertAll]
  | (e, p) :: g, f, s, hp, hn => by
    have he : (e.ev s).2 = s := hp (e, p) (.head _) s
    simp only [List.map_cons, List.nodup_cons] at hn
    obtain ⟨h1, h2, h3⟩ := insertAll_pure g (setLane f p (.val ((e.ev s).1 0))) s
      (fun x hx => hp x (.tail _ hx)) hn.2
    simp only [insertAll, he]
    refine ⟨h1, ?_, ?_⟩
    · intro j hj
      simp only [List.map_cons, List.mem_cons, not_or] at hj
      rw [h2 j hj.2, setLane, if_neg hj.1]
    · intro x hx
      rcases List.mem_cons.1 hx with rfl | hx
      · rw [h2 _ hn.1, setLane, if_pos rfl]
      · exact h3 x hx

theorem mem_group {es : List (Ex V S)} {k : Kind} {x : Ex V S × Nat} :
    x ∈ group es k ↔ x ∈ es.zipIdx ∧ x.1.kind = k := by
  simp [group]

theorem zipIdx_snd_nodup (es : List (Ex V S)) : (es.zipIdx.map Prod.snd).Nodup := by
  rw [List.zipIdx_map_snd]
  exact List.nodup_range'

theorem group_nodup (es : List (Ex V S)) (k : Kind) : ((group es k).map Prod.snd).Nodup :=
  (zipIdx_snd_nodup es).sublist (List.Sublist.map _ List.filter_sublist)

theorem zipIdx_inj {es : List (Ex V S)} {x y : Ex V S × Nat} (hx : x ∈ es.zipIdx)
    (hy : y ∈ es.zipIdx) (h : x.2 = y.2) : x = y := by
  obtain ⟨e, p⟩ := x
  obtain ⟨e', p'⟩ := y
  simp only at h
  subst h
  rw [List.mem_zipIdx_iff_getElem?] at hx hy
  simp only at hx hy
  rw [hx] at hy
  cases hy
  rfl

theorem kinds_nodup : kinds.Nodup := by decide

theorem mem_kinds (k : Kind) : k ∈ kinds := by cases k <;> decide

/-- Two different basic types in the list make two entries of the map. -/
theorem two_entries {es : List (Ex V S)} {x y : Ex V S × Nat} (hx : x ∈ es.zipIdx)
    (hy : y ∈ es.zipIdx) (h : x.1.kind ≠ y.1.kind) : entries es > 1 := by
  unfold entries
  have hsub : [x.1.kind, y.1.kind] ⊆ kinds.filter fun k => group es k ≠ [] := by
    intro k hk
    simp only [List.mem_cons, List.not_mem_nil, or_false] at hk
    rw [List.mem_filter]
    refine ⟨mem_kinds k, ?_⟩
    simp only [decide_eq_true_eq]
    intro hnil
    rcases hk with rfl | rfl
    · have : x ∈ group es x.1.kind := mem_group.2 ⟨hx, rfl⟩
      rw [hnil] at this; cases this
    · have : y ∈ group es y.1.kind := mem_group.2 ⟨hy, rfl⟩
      rw [hnil] at this; cases this
  have hnd : [x.1.kind, y.1.kind].Nodup := by simp [h]
  have := (List.subperm_of_subset hnd hsub).length_le
  exact this

theorem mem_zipIdx_lt {es : List (Ex V S)} {x : Ex V S × Nat} (hx : x ∈ es.zipIdx) :
    x.2 < es.length := by
  have := List.mem_zipIdx hx
  omega

/-- One turn of the loop, when no expression has a side effect. -/
theorem vstep_pure (C : Cfg V) (k : Kind) (N : Nat) (es : List (Ex V S)) (k' : Kind)
    (acc : Nat → Cell V) (s : S) (hN : es.length ≤ N)
    (hu : ∀ e ∈ es, e.varying = false) (hp : ∀ e ∈ es, e.pure) :
    ∃ acc', vstep C k N (entries es) (group es k') (.go acc s) = .go acc' s ∧
      ∀ x ∈ es.zipIdx, acc' x.2 =
        if x.1.kind = k' then .val (C.conv x.1.kind k ((x.1.ev s).1 0)) else acc x.2 := by
  have hug : ∀ x ∈ group es k', x.1.varying = false := fun x hx =>
    hu x.1 (List.fst_mem_of_mem_zipIdx (mem_group.1 hx).1)
  have hpg : ∀ x ∈ group es k', x.1.pure := fun x hx =>
    hp x.1 (List.fst_mem_of_mem_zipIdx (mem_group.1 hx).1)
  have hin : ∀ x, x ∈ es.zipIdx → x.1.kind = k' → x ∈ group es k' :=
    fun x hx hk => mem_group.2 ⟨hx, hk⟩
  have hkg : ∀ x ∈ group es k', x.1.kind = k' := fun x hx => (mem_group.1 hx).2
  have hzg : ∀ x ∈ group es k', x ∈ es.zipIdx := fun x hx => (mem_group.1 hx).1
  have hnd := group_nodup es k'
  generalize hg : group es k' = g at hug hpg hin hkg hzg hnd
  match g with
  | [] =>
    refine ⟨acc, rfl, ?_⟩
    intro x hx
    by_cases hk : x.1.kind = k'
    · exact absurd (hin x hx hk) (by simp)
    · rw [if_neg hk]
  | [(e, p)] =>
    have hv := hug (e, p) (.head _)
    have hs := hpg (e, p) (.head _)
    have hk0 : e.kind = k' := hkg (e, p) (.head _)
    simp only at hv hs
    have hz := hzg (e, p) (.head _)
    refine ⟨setLane acc p (.val (C.conv e.kind k ((e.ev s).1 0))), ?_, ?_⟩
    · simp only [vstep, hv, hs s, Bool.false_eq_true, if_false]
      split
      · rename_i hkk
        simp [hkk, C.conv_self]
      · rfl
    · intro x hx
      by_cases hk : x.1.kind = k'
      · have hxe := hin x hx hk
        simp only [List.mem_cons, List.not_mem_nil, or_false] at hxe
        subst hxe
        rw [if_pos hk]
        simp [setLane]
      · rw [if_neg hk, setLane, if_neg]
        intro h
        have := zipIdx_inj hx hz h
        rw [this] at hk
        exact hk hk0
  | (e, p) :: y :: g' =>
    have hall : (((e, p) :: y :: g').all fun x => x.1.varying) = false := by
      rw [List.all_eq_false]
      exact ⟨(e, p), .head _, by
        have : e.varying = false := hug (e, p) (.head _)
        simp [this]⟩
    have hany : (((e, p) :: y :: g').any fun x => x.1.varying) = false := by
      rw [List.any_eq_false]
      intro x hx
      simp [hug x hx]
    have hk0 : e.kind = k' := hkg (e, p) (.head _)
    obtain ⟨h1, h2, h3⟩ := insertAll_pure ((e, p) :: y :: g') (fun _ => .poison) s hpg hnd
    have hper : ∀ x ∈ (e, p) :: y :: g', convLanes C e.kind k
        (insertAll ((e, p) :: y :: g') (fun _ => .poison) s).1 x.2 =
          .val (C.conv x.1.kind k ((x.1.ev s).1 0)) := by
      intro x hx
      unfold convLanes
      rw [h3 x hx, hkg x hx, hk0]
    by_cases hng : entries es > 1
    · refine ⟨_, by simp only [vstep, hall, hany, if_pos hng, h1]; rfl, ?_⟩
      intro x hx
      have hlt := mem_zipIdx_lt hx
      by_cases hk : x.1.kind = k'
      · have hxe := hin x hx hk
        rw [if_pos hk]
        have hm : x.2 ∈ ((e, p) :: y :: g').map Prod.snd := List.mem_map.2 ⟨x, hxe, rfl⟩
        rw [shuffle, linear, if_pos hm, if_pos (by omega)]
        exact hper x hxe
      · rw [if_neg hk]
        have hm : x.2 ∉ ((e, p) :: y :: g').map Prod.snd := by
          intro hm
          obtain ⟨z, hz, hzx⟩ := List.mem_map.1 hm
          have := zipIdx_inj (hzg z hz) hx hzx
          rw [← this] at hk
          exact hk (hkg z hz)
        rw [shuffle, linear, if_neg hm, if_neg (by omega), Nat.add_sub_cancel_left]
    · refine ⟨_, by simp only [vstep, hall, hany, if_neg hng, h1]; rfl, ?_⟩
      intro x hx
      by_cases hk : x.1.kind = k'
      · rw [if_pos hk]
        exact hper x (hin x hx hk)
      · exact absurd (two_entries hx (hzg (e, p) (.head _)) (by rw [hk0]; exact hk)) hng

theorem fold_pure (C : Cfg V) (k : Kind) (N : Nat) (es : List (Ex V S)) (s : S)
    (hN : es.length ≤ N) (hu : ∀ e ∈ es, e.varying = false) (hp : ∀ e ∈ es, e.pure) :
    ∀ (ks : List Kind) (acc : Nat → Cell V),
    ∃ acc', ks.foldl (fun st k' => vstep C k N (entries es) (group es k') st) (.go acc s)
        = .go acc' s ∧
      ∀ x ∈ es.zipIdx, (x.1.kind ∈ ks ∨ acc x.2 = .val (C.conv x.1.kind k ((x.1.ev s).1 0))) →
        acc' x.2 = .val (C.conv x.1.kind k ((x.1.ev s).1 0))
  | [], acc => ⟨acc, rfl, fun x hx h => by simpa using h⟩
  | k' :: ks, acc => by
    obtain ⟨a1, h1, h2⟩ := vstep_pure C k N es k' acc s hN hu hp
    obtain ⟨a2, h3, h4⟩ := fold_pure C k N es s hN hu hp ks a1
    refine ⟨a2, by rw [List.foldl_cons, h1]; exact h3, ?_⟩
    intro x hx h
    apply h4 x hx
    by_cases hm : x.1.kind ∈ ks
    · exact .inl hm
    · right
      rw [h2 x hx]
      split
      · rfl
      · rcases h with h | h
        · rcases List.mem_cons.1 h with h | h
          · contradiction
          · contradiction
        · exact h

theorem cells_pure (C : Cfg V) (k : Kind) (s : S) : ∀ (es : List (Ex V S)),
    (∀ e ∈ es, e.pure) → cells C k es s =
      (es.map fun e => .cell (.val (C.conv e.kind k ((e.ev s).1 0))), s)
  | [], _ => rfl
  | e :: es, hp => by
    have he : (e.ev s).2 = s := hp e (.head _) s
    simp only [cells, he, cells_pure C k s es (fun e he => hp e (.tail _ he)), List.map_cons]

/-- A list of a single basic type makes a single turn of the loop. -/
theorem fold_single (C : Cfg V) (k : Kind) (N ng : Nat) (es : List (Ex V S)) (k' : Kind)
    (hk : ∀ e ∈ es, e.kind = k') :
    ∀ (ks : List Kind) (st : VSt V S), ks.Nodup →
    ks.foldl (fun st k' => vstep C k N ng (group es k') st) st =
      if k' ∈ ks then vstep C k N ng es.zipIdx st else st := by
  have hempty : ∀ k'', k'' ≠ k' → group es k'' = [] := by
    intro k'' hne
    rw [List.eq_nil_iff_forall_not_mem]
    intro x hx
    obtain ⟨h1, h2⟩ := mem_group.1 hx
    exact hne (h2.symm.trans (hk x.1 (List.fst_mem_of_mem_zipIdx h1)))
  have hfull : group es k' = es.zipIdx := by
    unfold group
    rw [List.filter_eq_self]
    intro x hx
    simp [hk x.1 (List.fst_mem_of_mem_zipIdx hx)]
  have hnil : ∀ st : VSt V S, vstep C k N ng [] st = st := by
    intro st; cases st <;> rfl
  intro ks
  induction ks with
  | nil => intro st _; simp
  | cons a ks ih =>
    intro st hn
    rw [List.nodup_cons] at hn
    rw [List.foldl_cons, ih _ hn.2]
    by_cases ha : a = k'
    · subst ha
      rw [hfull]
      simp [hn.1]
    · rw [hempty a ha, hnil]
      have : k' ≠ a := fun h => ha h.symm
      simp [this]

/-- When the fast path for short vectors does what the language asks for: the
elements are not `bool`, there is a value for every element, every value is
uniform, and either no value has a side effect or the values have one basic type
(the one of the vector if there is a single one). -/
def VecOk (k : Kind) (n : Nat) (es : List (Ex V S)) : Prop :=
  k ≠ .bool ∧ es.length = n ∧ (∀ e ∈ es, e.varying = false) ∧
    ((∀ e ∈ es, e.pure) ∨ ∃ k', (∀ e ∈ es, e.kind = k') ∧ (k' = k ∨ 2 ≤ es.length))

theorem stored_eq (k : Kind) (N n : Nat) (f : Nat → Cell V) (hk : k ≠ .bool) :
    stored k N n f = (List.range n).map fun i => .cell (f i) := by
  simp [stored, hk]

theorem vecPath_ok (C : Cfg V) (k : Kind) (n : Nat) (es : List (Ex V S)) (s : S)
    (hd : 0 < C.dtw) (h : VecOk k n es) :
    vecPath C k n es s = .ok (.node (cells C k es s).1) (cells C k es s).2 := by
  obtain ⟨hb, hn, hu, h⟩ := h
  have hN : es.length ≤ vecMem C.dtw n := by rw [hn]; exact le_vecMem _ _ hd
  unfold vecPath
  simp only
  rcases h with hp | ⟨k', hk, hk2⟩
  · obtain ⟨acc, h1, h2⟩ := fold_pure C k (vecMem C.dtw n) es s hN hu hp kinds (fun _ => .poison)
    rw [h1]
    simp only
    rw [cells_pure C k s es hp, stored_eq _ _ _ _ hb]
    congr 2
    apply List.ext_getElem
    · simp [hn]
    · intro j hj1 hj2
      simp only [List.getElem_map, List.getElem_range]
      simp only [List.length_map] at hj2
      have hx : (es[j], j) ∈ es.zipIdx := by
        rw [List.mem_zipIdx_iff_getElem?]
        simp
      rw [h2 (es[j], j) hx (.inl (mem_kinds _))]
  · rw [fold_single C k _ _ es k' hk kinds _ kinds_nodup, if_pos (mem_kinds k')]
    match es, hn, hu, hk, hk2, hN with
    | [], hn, _, _, _, _ =>
      simp only [List.length_nil] at hn
      subst hn
      rfl
    | [e], hn, hu, hk, hk2, _ =>
      simp only [List.length_singleton] at hn hk2
      subst hn
      have hv := hu e (.head _)
      have hkk : e.kind = k := by
        rcases hk2 with h | h
        · rw [← h]; exact hk e (.head _)
        · omega
      simp [vstep, hv, hkk, stored_eq _ _ _ _ hb, cells, C.conv_self, setLane, List.range_succ]
    | e :: e2 :: es, hn, hu, hk, hk2, hN =>
      have hall : ((e :: e2 :: es).zipIdx.all fun x => x.1.varying) = false := by
        rw [List.all_eq_false]
        exact ⟨(e, 0), by simp, by simp [hu e (.head _)]⟩
      have hany : ((e :: e2 :: es).zipIdx.any fun x => x.1.varying) = false := by
        rw [List.any_eq_false]
        intro x hx
        simp [hu x.1 (List.fst_mem_of_mem_zipIdx hx)]
      obtain ⟨h1, h2, h3, h4⟩ := insertAll_seq C k k' (e :: e2 :: es) 0 (fun _ => .poison) s hk
      have hlane : ∀ f : Nat → Cell V, (∀ j, j < n → f j = convLanes C k' k
          (insertAll ((e :: e2 :: es).zipIdx) (fun _ => .poison) s).1 j) →
          stored k (vecMem C.dtw n) n f = (cells C k (e :: e2 :: es) s).1 := by
        intro f hf
        rw [stored_eq _ _ _ _ hb]
        apply List.ext_getElem
        · simp [cells_length, ← hn]
        · intro j hj1 hj2
          simp only [List.getElem_map, List.getElem_range]
          rw [cells_length] at hj2
          have := h4 j hj2
          rw [Nat.zero_add] at this
          rw [hf j (by omega), ← this, List.getElem?_eq_getElem (by rw [cells_length]; exact hj2)]
          rfl
      have hek : e.kind = k' := hk e (.head _)
      rw [List.zipIdx_cons, List.zipIdx_cons] at hall hany h1 hlane ⊢
      by_cases hng : entries (e :: e2 :: es) > 1
      · simp only [vstep, hall, hany, if_pos hng, hek]
        simp only [Bool.false_eq_true, if_false]
        rw [h1, hlane]
        intro j hj
        have hm : j ∈ ((e, 0) :: (e2, 0 + 1) :: es.zipIdx (0 + 1 + 1)).map Prod.snd := by
          have : (e, 0) :: (e2, 0 + 1) :: es.zipIdx (0 + 1 + 1) = (e :: e2 :: es).zipIdx := by
            rw [List.zipIdx_cons, List.zipIdx_cons]
          rw [this, List.zipIdx_map_snd, List.mem_range']
          exact ⟨j, by omega, by omega⟩
        rw [shuffle, linear, if_pos hm, if_pos (by omega)]
      · simp only [vstep, hall, hany, if_neg hng, hek]
        simp only [Bool.false_eq_true, if_false]
        rw [h1, hlane]
        intro j hj
        rfl

theorem atomics_some : ∀ (is : List (Init V S)) (es : List (Ex V S)),
    atomics is = some es ↔ is = es.map .expr ∧ ∀ e ∈ es, e.atomic = true
  | [], es => by
    cases es <;> simp [atomics]
  | .expr e :: is, es => by
    rw [atomics]
    split
    · rename_i ha
      cases h : atomics is with
      | none =>
        simp only [Option.map_none]
        constructor
        · intro h; cases h
        · rintro ⟨h1, h2⟩
          cases es with
          | nil => cases h1
          | cons e' es =>
            simp only [List.map_cons, List.cons.injEq] at h1
            have := (atomics_some is es).2 ⟨h1.2, fun e he => h2 e (.tail _ he)⟩
            rw [h] at this; cases this
      | some es' =>
        have ih := (atomics_some is es').1 h
        simp only [Option.map_some, Option.some.injEq]
        constructor
        · rintro rfl
          refine ⟨by rw [List.map_cons, ih.1], ?_⟩
          intro x hx
          rcases List.mem_cons.1 hx with rfl | hx
          · exact ha
          · exact ih.2 x hx
        · rintro ⟨h1, h2⟩
          cases es with
          | nil => cases h1
          | cons e' es =>
            simp only [List.map_cons, List.cons.injEq, Init.expr.injEq] at h1
            have := (atomics_some is es).2 ⟨h1.2, fun e he => h2 e (.tail _ he)⟩
            rw [h] at this
            cases this
            rw [h1.1]
    · rename_i ha
      constructor
      · intro h; cases h
      · rintro ⟨h1, h2⟩
        cases es with
        | nil => cases h1
        | cons e' es =>
          simp only [List.map_cons, List.cons.injEq, Init.expr.injEq] at h1
          rw [h1.1] at ha
          exact absurd (h2 e' (.head _)) ha
  | .list js :: is, es => by
    rw [atomics]
    constructor
    · intro h; cases h
    · rintro ⟨h1, h2⟩
      cases es with
      | nil => cases h1
      | cons e' es =>
        simp only [List.map_cons, List.cons.injEq] at h1
        cases h1.1

/-- A list for a uniform short vector that the fast path either does not take or
treats as the language asks for. -/
def PlainVec (k : Kind) (n : Nat) (is : List (Init V S)) : Prop :=
  ∀ es, is = es.map .expr → (∀ e ∈ es, e.atomic = true) →
    es = [] ∨ (∀ e ∈ es, e.const.isSome = true) ∨ VecOk k n es

mutual
/-- Every list that initialises a uniform short vector in `i` is a plain one. -/
def Plain : Ty → Init V S → Prop
  | _, .expr _         => True
  | .uni _, .list _    => True
  | .var _, .list _    => True
  | .vec k n, .list is => PlainVec k n is
  | .coll ts, .list is => Plains ts is
/-- The same for the elements of a list. -/
def Plains : List Ty → List (Init V S) → Prop
  | _, []            => True
  | [], _            => True
  | t :: ts, i :: is => Plain t i ∧ Plains ts is
end

theorem plain_uni (k : Kind) (i : Init V S) : Plain (.uni k) i := by
  cases i <;> simp [Plain]

theorem plain_var (k : Kind) (i : Init V S) : Plain (.var k) i := by
  cases i <;> simp [Plain]

theorem plains_uni (k : Kind) : ∀ (is : List (Init V S)) (n : Nat), Plains (List.replicate n (.uni k)) is
  | [], n => by simp [Plains]
  | i :: is, 0 => by simp [Plains]
  | i :: is, n + 1 => by
    rw [List.replicate_succ, Plains]
    exact ⟨plain_uni k i, plains_uni k is n⟩

theorem constElems_allconst (C : Cfg V) (k : Kind) : ∀ (es : List (Ex V S)) (n : Nat),
    (∀ e ∈ es, e.const.isSome = true) →
    constElems C (List.replicate n (.uni k)) (es.map .expr) ≠ .none
  | [], 0, _ => by simp [constElems]
  | [], n + 1, _ => by simp [constElems, List.replicate_succ]
  | e :: es, 0, _ => by simp [constElems]
  | e :: es, n + 1, h => by
    have ih := constElems_allconst C k es n (fun e he => h e (.tail _ he))
    obtain ⟨c, hc⟩ := Option.isSome_iff_exists.1 (h e (.head _))
    rw [List.map_cons, List.replicate_succ, constElems]
    by_cases hv : e.varying = true
    · simp [unconvertible, convertible, hv]
    · have hv : e.varying = false := by simpa using hv
      simp only [unconvertible, convertible, hv, constOf, constExpr, hc]
      cases hr : constElems C (List.replicate n (.uni k)) (es.map .expr) with
      | none => exact absurd hr ih
      | error => simp [CRes.cons]
      | some ms => simp [CRes.cons]

mutual
/-- The specification determines the outcome. -/
theorem inits_det (C : Cfg V) : ∀ (i : Init V S) (T : Ty) (s : S) (m1 m2 : Mem V) (s1 s2 : S),
    Inits C T i s m1 s1 → Inits C T i s m2 s2 → m1 = m2 ∧ s1 = s2
  | .expr e, T, s, m1, m2, s1, s2, h1, h2 => by
    rw [inits_expr_iff] at h1 h2
    exact ⟨h1.2.1.trans h2.2.1.symm, h1.2.2.trans h2.2.2.symm⟩
  | .list is, T, s, m1, m2, s1, s2, h1, h2 => by
    cases h1 with
    | braceUni h1 =>
      cases h2 with
      | braceUni h2 => exact inits_det C _ _ _ _ _ _ _ h1 h2
    | braceVar h1 =>
      cases h2 with
      | braceVar h2 => exact inits_det C _ _ _ _ _ _ _ h1 h2
      | each h _ _ => simp at h
    | each hl hW h1 =>
      cases h2 with
      | braceVar h2 => simp at hl
      | each _ _ h2 =>
        obtain ⟨rfl, rfl⟩ := elems_det C _ _ _ _ _ _ _ h1 h2
        exact ⟨rfl, rfl⟩
    | vec h1 =>
      cases h2 with
      | vec h2 =>
        obtain ⟨rfl, rfl⟩ := elems_det C _ _ _ _ _ _ _ h1 h2
        exact ⟨rfl, rfl⟩
    | coll h1 =>
      cases h2 with
      | coll h2 =>
        obtain ⟨rfl, rfl⟩ := elems_det C _ _ _ _ _ _ _ h1 h2
        exact ⟨rfl, rfl⟩
theorem elems_det (C : Cfg V) : ∀ (is : List (Init V S)) (ts : List Ty) (s : S)
    (ms1 ms2 : List (Mem V)) (s1 s2 : S),
    Elems C ts is s ms1 s1 → Elems C ts is s ms2 s2 → ms1 = ms2 ∧ s1 = s2
  | [], ts, s, ms1, ms2, s1, s2, h1, h2 => by
    obtain ⟨rfl, rfl⟩ := elems_nil_inv C _ _ _ _ h1
    obtain ⟨rfl, rfl⟩ := elems_nil_inv C _ _ _ _ h2
    exact ⟨rfl, rfl⟩
  | i :: is, ts, s, ms1, ms2, s1, s2, h1, h2 => by
    cases h1 with
    | cons a1 b1 =>
      cases h2 with
      | cons a2 b2 =>
        obtain ⟨rfl, rfl⟩ := inits_det C _ _ _ _ _ _ _ a1 a2
        obtain ⟨rfl, rfl⟩ := elems_det C _ _ _ _ _ _ _ b1 b2
        exact ⟨rfl, rfl⟩
end

theorem initSym_error (C : Cfg V) (T : Ty) (is : List (Init V S)) (s : S)
    (h : constOf C T (.list is) = .error) : initSym C T (.list is) s = .reject := by
  cases T <;> rw [initSym, h]

theorem initSym_some (C : Cfg V) (T : Ty) (is : List (Init V S)) (s : S) (m : Mem V)
    (h : constOf C T (.list is) = .some m) : initSym C T (.list is) s = .ok m s := by
  cases T <;> rw [initSym, h]

/-- The outcome of an initialisation is exactly what the specification asks
for. -/
def Exact (C : Cfg V) (T : Ty) (i : Init V S) (s : S) : Prop :=
  (∀ m s', initSym C T i s = .ok m s' ↔ Inits C T i s m s') ∧ initSym C T i s ≠ .crash

/-- The outcome of the loop over the elements is what the specification asks
for. -/
def ExactElems (C : Cfg V) (ts : List Ty) (is : List (Init V S)) (s : S) : Prop :=
  ∀ ms0, (∀ m s', initElems C ts is ms0 s = .ok m s' ↔
      ∃ ms, m = .node (ms0 ++ ms) ∧ Elems C ts is s ms s') ∧ initElems C ts is ms0 s ≠ .crash

theorem ExactElems.nil {C : Cfg V} {ts : List Ty} {is : List (Init V S)} {s : S}
    (h : ExactElems C ts is s) : (∀ m s', initElems C ts is [] s = .ok m s' ↔
      ∃ ms, m = .node ms ∧ Elems C ts is s ms s') ∧ initElems C ts is [] s ≠ .crash := by
  have := h []
  simpa using this

mutual
theorem exact_of_plain (C : Cfg V) (hd : 0 < C.dtw) : ∀ (i : Init V S) (T : Ty), Wf i → Plain T i →
    ∀ s, Exact C T i s
  | .expr e, T, hw, hp, s => by
    unfold Exact
    cases hc : constOf C T (.expr e) with
    | error =>
      rw [constOf] at hc
      exact absurd hc (constExpr_not_error C T e)
    | some m0 =>
      have hi := constOf_some C (.expr e) T m0 hw hc s
      rw [initSym, hc]
      simp only
      refine ⟨?_, by simp⟩
      intro m s'
      rw [inits_expr_iff] at hi ⊢
      constructor
      · intro h; cases h; exact hi
      · rintro ⟨_, h2, h3⟩
        rw [h2, h3, ← hi.2.1, ← hi.2.2]
    | none =>
      rw [initSym, hc]
      simp only
      split
      · rename_i h
        refine ⟨?_, by simp⟩
        intro m s'
        rw [inits_expr_iff]
        constructor
        · intro h'; cases h'; exact ⟨h, rfl, rfl⟩
        · rintro ⟨_, rfl, rfl⟩; rfl
      · rename_i h
        refine ⟨?_, by simp⟩
        intro m s'
        rw [inits_expr_iff]
        constructor
        · intro h'; cases h'
        · rintro ⟨h', _⟩; exact absurd h' h
  | .list is, T, hw, hp, s => by
    have hwc := hw
    rw [Wf] at hw
    unfold Exact
    cases hc : constOf C T (.list is) with
    | error =>
      have := constOf_error C (.list is) T hc s
      rw [initSym_error C T is s hc]
      exact ⟨fun m s' => ⟨(fun h => by cases h), fun h => absurd h (this m s')⟩, by simp⟩
    | some m0 =>
      have hi := constOf_some C (.list is) T m0 hwc hc s
      rw [initSym_some C T is s m0 hc]
      refine ⟨fun m s' => ⟨fun h => by cases h; exact hi, fun h => ?_⟩, by simp⟩
      obtain ⟨rfl, rfl⟩ := inits_det C _ _ _ _ _ _ _ hi h
      rfl
    | none =>
      cases T with
      | uni k =>
        rw [initSym, hc]
        simp only
        have := exact_one C hd is (.uni k) hw (fun i => plain_uni k i) s
        refine ⟨fun m s' => (this.1 m s').trans ⟨?_, ?_⟩, this.2⟩
        · rintro ⟨i, rfl, h⟩; exact .braceUni h
        · intro h
          cases h with
          | braceUni h => exact ⟨_, rfl, h⟩
      | var k =>
        rw [initSym, hc]
        simp only
        split
        · have := exact_one C hd is (.var k) hw (fun i => plain_var k i) s
          refine ⟨fun m s' => (this.1 m s').trans ⟨?_, ?_⟩, this.2⟩
          · rintro ⟨i, rfl, h⟩; exact .braceVar h
          · intro h
            cases h with
            | braceVar h => exact ⟨_, rfl, h⟩
            | each h _ _ => contradiction
        · rename_i h1
          split
          · refine ⟨fun m s' => ⟨(fun h => by cases h), fun h => ?_⟩, by simp⟩
            cases h with
            | braceVar h => simp at h1
            | each _ h _ => omega
          · split
            · refine ⟨fun m s' => ⟨(fun h => by cases h), fun h => ?_⟩, by simp⟩
              cases h with
              | braceVar h => simp at h1
              | each _ h _ => omega
            · have := (exact_elems C hd is (List.replicate C.W (.uni k)) hw (plains_uni k is _)
                (by rw [List.length_replicate]; omega) s).nil
              refine ⟨fun m s' => (this.1 m s').trans ⟨?_, ?_⟩, this.2⟩
              · rintro ⟨ms, rfl, h⟩; exact .each h1 (by omega) h
              · intro h
                cases h with
                | braceVar h => simp at h1
                | each _ _ h => exact ⟨_, rfl, h⟩
      | vec k n =>
        have hvec : ∀ m s', Inits C (.vec k n) (.list is) s m s' ↔
            ∃ ms, m = .node ms ∧ Elems C (List.replicate n (.uni k)) is s ms s' := by
          intro m s'
          constructor
          · intro h
            cases h with
            | vec h => exact ⟨_, rfl, h⟩
          · rintro ⟨ms, rfl, h⟩; exact .vec h
        rw [initSym, hc]
        simp only
        split
        · rename_i h1
          refine ⟨fun m s' => ⟨(fun h => by cases h), fun h => ?_⟩, by simp⟩
          obtain ⟨ms, -, hE⟩ := (hvec _ _).1 h
          have := elems_length C _ _ _ _ _ hE
          rw [List.length_replicate] at this
          omega
        · have hel := (exact_elems C hd is (List.replicate n (.uni k)) hw (plains_uni k is _)
            (by rw [List.length_replicate]; omega) s).nil
          split
          · rename_i hpos
            split
            · rename_i es hes
              obtain ⟨rfl, hat⟩ := (atomics_some _ _).1 hes
              rw [Plain] at hp
              rcases hp es rfl hat with rfl | hcst | hok
              · simp at hpos
              · rw [constOf, if_neg (by assumption)] at hc
                have := constElems_allconst C k es n hcst
                cases hr : constElems C (List.replicate n (.uni k)) (es.map .expr) with
                | none => exact absurd hr this
                | error => rw [hr] at hc; cases hc
                | some ms => rw [hr] at hc; cases hc
              · rw [vecPath_ok C k n es s hd hok]
                refine ⟨fun m s' => ?_, by simp⟩
                rw [hvec]
                have hlen := hok.2.1
                rw [← hlen]
                constructor
                · intro h
                  cases h
                  exact ⟨_, rfl, (elems_cells C k es s _ _ hok.2.2.1).2 rfl⟩
                · rintro ⟨ms, rfl, h⟩
                  have := (elems_cells C k es s _ _ hok.2.2.1).1 h
                  rw [← this]
            · exact ⟨fun m s' => (hel.1 m s').trans (hvec m s').symm, hel.2⟩
          · exact ⟨fun m s' => (hel.1 m s').trans (hvec m s').symm, hel.2⟩
      | coll ts =>
        have hcoll : ∀ m s', Inits C (.coll ts) (.list is) s m s' ↔
            ∃ ms, m = .node ms ∧ Elems C ts is s ms s' := by
          intro m s'
          constructor
          · intro h
            cases h with
            | coll h => exact ⟨_, rfl, h⟩
          · rintro ⟨ms, rfl, h⟩; exact .coll h
        rw [initSym, hc]
        simp only
        split
        · rename_i h1
          refine ⟨fun m s' => ⟨(fun h => by cases h), fun h => ?_⟩, by simp⟩
          obtain ⟨ms, -, hE⟩ := (hcoll _ _).1 h
          have := elems_length C _ _ _ _ _ hE
          omega
        · rw [Plain] at hp
          have hel := (exact_elems C hd is ts hw hp (by omega) s).nil
          exact ⟨fun m s' => (hel.1 m s').trans (hcoll m s').symm, hel.2⟩
theorem exact_one (C : Cfg V) (hd : 0 < C.dtw) : ∀ (is : List (Init V S)) (T : Ty), Wfs is →
    (∀ i : Init V S, Plain T i) → ∀ s,
    (∀ m s', initOne C T is s = .ok m s' ↔ ∃ i, is = [i] ∧ Inits C T i s m s') ∧
      initOne C T is s ≠ .crash
  | [], T, hw, hp, s => by
    rw [initOne]
    exact ⟨fun m s' => ⟨(fun h => by cases h), (fun ⟨i, h, _⟩ => by cases h)⟩, by simp⟩
  | i :: [], T, hw, hp, s => by
    rw [Wfs] at hw
    rw [initOne]
    have := exact_of_plain C hd i T hw.1 (hp i) s
    refine ⟨fun m s' => (this.1 m s').trans ⟨fun h => ⟨i, rfl, h⟩, ?_⟩, this.2⟩
    rintro ⟨j, h, hj⟩
    cases h
    exact hj
  | _ :: _ :: _, T, hw, hp, s => by
    rw [initOne]
    exact ⟨fun m s' => ⟨(fun h => by cases h), (fun ⟨i, h, _⟩ => by cases h)⟩, by simp⟩
theorem exact_elems (C : Cfg V) (hd : 0 < C.dtw) : ∀ (is : List (Init V S)) (ts : List Ty), Wfs is →
    Plains ts is → is.length ≤ ts.length → ∀ s, ExactElems C ts is s
  | [], [], hw, hp, hl, s => by
    intro ms0
    rw [initElems]
    refine ⟨fun m s' => ⟨fun h => ?_, ?_⟩, by simp⟩
    · cases h; exact ⟨[], by simp, .nil⟩
    · rintro ⟨ms, rfl, h⟩; cases h; simp
  | [], t :: ts, hw, hp, hl, s => by
    intro ms0
    rw [initElems]
    refine ⟨fun m s' => ⟨fun h => ?_, ?_⟩, by simp⟩
    · cases h; exact ⟨_, rfl, elems_nil C (t :: ts) s⟩
    · rintro ⟨ms, rfl, h⟩
      obtain ⟨rfl, rfl⟩ := elems_nil_inv C _ _ _ _ h
      rfl
  | i :: is, [], hw, hp, hl, s => by simp at hl
  | i :: is, t :: ts, hw, hp, hl, s => by
    rw [Wfs] at hw
    rw [Plains] at hp
    intro ms0
    have h1 := exact_of_plain C hd i t hw.1 hp.1 s
    rw [initElems]
    cases hr : initSym C t i s with
    | reject =>
      refine ⟨fun m s' => ⟨(fun h => by cases h), ?_⟩, by simp⟩
      rintro ⟨ms, rfl, h⟩
      cases h with
      | cons a b =>
        have := (h1.1 _ _).2 a
        rw [hr] at this
        cases this
    | crash => exact absurd hr h1.2
    | ok m1 s1 =>
      have hi := (h1.1 _ _).1 hr
      have h2 := exact_elems C hd is ts hw.2 hp.2 (by simpa using hl) s1 (ms0 ++ [m1])
      refine ⟨fun m s' => (h2.1 m s').trans ⟨?_, ?_⟩, h2.2⟩
      · rintro ⟨ms, rfl, h⟩
        exact ⟨m1 :: ms, by simp, .cons hi h⟩
      · rintro ⟨ms, rfl, h⟩
        cases h with
        | cons a b =>
          obtain ⟨rfl, rfl⟩ := inits_det C _ _ _ _ _ _ _ hi a
          exact ⟨_, by simp, b⟩
end

/-! ### The property -/

/-- **C55 (partial).**  For every type and every initialiser in which each list
for a uniform short vector is a plain one, the compiler accepts exactly the
initialisers the language allows, and the code it emits leaves in the variable
and in the rest of the program exactly what the language asks for: each
expression is evaluated once, from left to right, converted, and what the list
does not reach is zero.

Missing for the full property: the lists for short vectors that are not plain
(`vec_missing_poison`, `vec_evaluated_twice`, `vec_out_of_order`,
`vec_bool_packed` and `vec_silently_uninitialised` show that it fails there). -/
theorem init_spec_partial (C : Cfg V) (hd : 0 < C.dtw) (T : Ty) (i : Init V S)
    (hw : Wf i) (hp : Plain T i) (s : S) (m : Mem V) (s' : S) :
    initSym C T i s = .ok m s' ↔ Inits C T i s m s' :=
  (exact_of_plain C hd i T hw hp s).1 m s'

/-- **C55.**  ... and it rejects every other one with an error message. -/
theorem init_rejects_partial (C : Cfg V) (hd : 0 < C.dtw) (T : Ty) (i : Init V S)
    (hw : Wf i) (hp : Plain T i) (s : S) :
    initSym C T i s = .reject ↔ ¬ ∃ m s', Inits C T i s m s' := by
  have h := exact_of_plain C hd i T hw hp s
  cases hr : initSym C T i s with
  | reject =>
    simp only [true_iff]
    rintro ⟨m, s', hi⟩
    have := (h.1 m s').2 hi
    rw [hr] at this; cases this
  | crash => exact absurd hr h.2
  | ok m s' =>
    constructor
    · intro h; cases h
    · intro hn
      exact absurd ⟨m, s', (h.1 m s').1 hr⟩ hn

/-- No type at all accepts a list with more values than it has elements. -/
theorem too_many_rejected (C : Cfg V) (ts : List Ty) (is : List (Init V S)) (s : S)
    (h : ts.length < is.length) : initSym C (.coll ts) (.list is) s = .reject := by
  apply initSym_error
  rw [constOf, if_pos h]

theorem vec_too_many_rejected (C : Cfg V) (k : Kind) (n : Nat) (is : List (Init V S)) (s : S)
    (h : n < is.length) : initSym C (.vec k n) (.list is) s = .reject := by
  apply initSym_error
  rw [constOf, if_pos h]

/-- A varying variable takes one value or one value per program instance. -/
theorem varying_count (C : Cfg V) (k : Kind) (is : List (Init V S)) (s : S)
    (h1 : is.length ≠ 1) (hW : is.length ≠ C.W) : initSym C (.var k) (.list is) s = .reject := by
  apply initSym_error
  rw [constOf, if_neg h1]
  split
  · rfl
  · rw [if_pos (by omega)]

/-! ### Where it fails -/

theorem insertAll_beyond (l : Nat) : ∀ (g : List (Ex V S × Nat)) (f : Nat → Cell V) (s : S),
    (∀ x ∈ g, x.2 < l) → (∀ j, l ≤ j → f j = .poison) →
    ∀ j, l ≤ j → (insertAll g f s).1 j = .poison
  | [], f, s, _, hf, j, hj => hf j hj
  | (e, p) :: g, f, s, hg, hf, j, hj => by
    rw [insertAll]
    apply insertAll_beyond l g _ _ (fun x hx => hg x (.tail _ hx)) _ j hj
    intro j hj
    have : p < l := hg (e, p) (.head _)
    rw [setLane, if_neg (by omega)]
    exact hf j hj

/-- Lanes beyond the last value stay poison through the loop over the map. -/
theorem vstep_beyond (C : Cfg V) (k : Kind) (N : Nat) (ng : Nat) (g : List (Ex V S × Nat)) (l : Nat)
    (hg : ∀ x ∈ g, x.1.varying = false ∧ x.2 < l) (acc : Nat → Cell V) (s : S)
    (ha : ∀ j, l ≤ j → acc j = .poison) :
    ∃ acc' s', vstep C k N ng g (.go acc s) = .go acc' s' ∧ ∀ j, l ≤ j → acc' j = .poison := by
  match g, hg with
  | [], _ => exact ⟨acc, s, rfl, ha⟩
  | [(e, p)], hg =>
    obtain ⟨hv, hp⟩ := hg (e, p) (.head _)
    simp only at hv hp
    simp only [vstep, hv, Bool.false_eq_true, if_false]
    split
    · refine ⟨_, _, rfl, fun j hj => ?_⟩
      rw [setLane, if_neg (by omega)]; exact ha j hj
    · refine ⟨_, _, rfl, fun j hj => ?_⟩
      rw [setLane, if_neg (by omega)]; exact ha j hj
  | (e, p) :: y :: g', hg =>
    have hall : (((e, p) :: y :: g').all fun x => x.1.varying) = false := by
      rw [List.all_eq_false]
      exact ⟨(e, p), .head _, by
        have : e.varying = false := (hg (e, p) (.head _)).1
        simp [this]⟩
    have hany : (((e, p) :: y :: g').any fun x => x.1.varying) = false := by
      rw [List.any_eq_false]
      intro x hx
      simp [(hg x hx).1]
    have hper : ∀ j, l ≤ j → convLanes C e.kind k
        (insertAll ((e, p) :: y :: g') (fun _ => .poison) s).1 j = .poison := by
      intro j hj
      unfold convLanes
      rw [insertAll_beyond l _ _ _ (fun x hx => (hg x hx).2) (fun _ _ => rfl) j hj]
    simp only [vstep, hall, hany, Bool.false_eq_true, if_false]
    split
    · refine ⟨_, _, rfl, fun j hj => ?_⟩
      have hm : j ∉ ((e, p) :: y :: g').map Prod.snd := by
        intro hm
        obtain ⟨z, hz, hzx⟩ := List.mem_map.1 hm
        have := (hg z hz).2
        omega
      rw [shuffle, linear, if_neg hm, if_neg (by omega), Nat.add_sub_cancel_left]
      exact ha j hj
    · exact ⟨_, _, rfl, hper⟩

theorem fold_beyond (C : Cfg V) (k : Kind) (N : Nat) (ng : Nat) (es : List (Ex V S))
    (hu : ∀ e ∈ es, e.varying = false) : ∀ (ks : List Kind) (acc : Nat → Cell V) (s : S),
    (∀ j, es.length ≤ j → acc j = .poison) →
    ∃ acc' s', ks.foldl (fun st k' => vstep C k N ng (group es k') st) (.go acc s) = .go acc' s' ∧
      ∀ j, es.length ≤ j → acc' j = .poison
  | [], acc, s, ha => ⟨acc, s, rfl, ha⟩
  | k' :: ks, acc, s, ha => by
    obtain ⟨a1, s1, h1, h2⟩ := vstep_beyond C k N ng (group es k') es.length (fun x hx =>
      ⟨hu x.1 (List.fst_mem_of_mem_zipIdx (mem_group.1 hx).1), mem_zipIdx_lt (mem_group.1 hx).1⟩)
      acc s ha
    rw [List.foldl_cons, h1]
    exact fold_beyond C k N ng es hu ks a1 s1 h2

theorem constElems_nonconst (C : Cfg V) (k : Kind) : ∀ (es : List (Ex V S)) (n : Nat),
    es.length ≤ n → (∀ e ∈ es, e.varying = false) → (∃ e ∈ es, e.const = none) →
    constElems C (List.replicate n (.uni k)) (es.map .expr) = .none
  | [], n, _, _, ⟨e, he, _⟩ => by cases he
  | e :: es, 0, hl, _, _ => by simp at hl
  | e :: es, n + 1, hl, hu, hx => by
    have hv := hu e (.head _)
    rw [List.map_cons, List.replicate_succ, constElems]
    simp only [unconvertible, convertible, hv, constOf, constExpr]
    cases hc : e.const with
    | none => simp [CRes.cons]
    | some c =>
      have ih := constElems_nonconst C k es n (by simpa using hl) (fun e he => hu e (.tail _ he)) (by
        obtain ⟨x, hx, hxc⟩ := hx
        rcases List.mem_cons.1 hx with rfl | hx
        · rw [hc] at hxc; cases hxc
        · exact ⟨x, hx, hxc⟩)
      rw [ih]
      simp [CRes.cons]

/-- The short vector goes through the fast path when every value is a uniform
atomic expression and at least one is not a constant. -/
theorem takes_vecPath (C : Cfg V) (k : Kind) (n : Nat) (es : List (Ex V S)) (s : S)
    (hu : ∀ e ∈ es, e.varying = false) (ha : ∀ e ∈ es, e.atomic = true)
    (hc : ∃ e ∈ es, e.const = none) (hl : es.length ≤ n) :
    initSym C (.vec k n) (.list (es.map .expr)) s = vecPath C k n es s := by
  have h1 : ¬ (es.map Init.expr).length > n := by rw [List.length_map]; omega
  have hpos : (es.map (Init.expr (V := V) (S := S))).length > 0 := by
    obtain ⟨e, he, _⟩ := hc
    rw [List.length_map]
    exact List.length_pos_of_mem he
  rw [initSym, constOf, if_neg h1, constElems_nonconst C k es n hl hu hc]
  simp only [CRes.node]
  rw [if_neg h1, if_pos hpos, (atomics_some _ es).2 ⟨rfl, ha⟩]

/-- **Finding.**  The elements of a uniform short vector that a list with a
non-constant value does not reach are undefined, not zero; with constants only
they are zero. -/
theorem vec_missing_poison (C : Cfg V) (k : Kind) (n : Nat) (es : List (Ex V S)) (s : S)
    (hk : k ≠ .bool) (hu : ∀ e ∈ es, e.varying = false) (ha : ∀ e ∈ es, e.atomic = true)
    (hc : ∃ e ∈ es, e.const = none) (hl : es.length ≤ n) :
    ∃ ms s', initSym C (.vec k n) (.list (es.map .expr)) s = .ok (.node ms) s' ∧
      ms.length = n ∧ ∀ j, es.length ≤ j → j < n → ms[j]? = some (.cell .poison) := by
  rw [takes_vecPath C k n es s hu ha hc hl]
  obtain ⟨f, s', h1, h2⟩ := fold_beyond C k (vecMem C.dtw n) (entries es) es hu kinds
    (fun _ => .poison) s (fun _ _ => rfl)
  unfold vecPath
  simp only
  rw [h1]
  refine ⟨_, _, rfl, by simp [stored], ?_⟩
  intro j hj hjn
  rw [stored_eq _ _ _ _ hk]
  simp [hjn, h2 j hj]

/-- **Finding.**  A uniform short vector of `bool` initialised with a
non-constant value is stored as packed bits: with at most eight elements in the
vector register, no element but the first is written. -/
theorem vec_bool_packed (C : Cfg V) (n : Nat) (es : List (Ex V S)) (s : S)
    (hu : ∀ e ∈ es, e.varying = false) (ha : ∀ e ∈ es, e.atomic = true)
    (hc : ∃ e ∈ es, e.const = none) (hl : es.length ≤ n) (hN : vecMem C.dtw n ≤ 8) :
    ∃ ms s', initSym C (.vec .bool n) (.list (es.map .expr)) s = .ok (.node ms) s' ∧
      ms.length = n ∧ ∀ j, 1 ≤ j → j < n → ms[j]? = some (.cell .uninit) := by
  rw [takes_vecPath C .bool n es s hu ha hc hl]
  obtain ⟨f, s', h1, h2⟩ := fold_beyond C .bool (vecMem C.dtw n) (entries es) es hu kinds
    (fun _ => .poison) s (fun _ _ => rfl)
  unfold vecPath
  simp only
  rw [h1]
  refine ⟨_, _, rfl, by simp [stored], ?_⟩
  intro j hj hjn
  have : ¬ 8 * j < vecMem C.dtw n := by omega
  simp [stored, hjn, this]

/-- **Finding.**  An expression that is the only one of its basic type in the list,
and not of the basic type of the vector, is evaluated twice. -/
theorem vec_evaluated_twice (C : Cfg V) (k : Kind) (n : Nat) (e : Ex V S) (s : S)
    (hu : e.varying = false) (ha : e.atomic = true) (hc : e.const = none) (hk : e.kind ≠ k)
    (hn : 1 ≤ n) :
    ∃ m, initSym C (.vec k n) (.list [.expr e]) s = .ok m (e.ev (e.ev s).2).2 := by
  have h := takes_vecPath C k n [e] s (by simpa using hu) (by simpa using ha) ⟨e, by simp, hc⟩
    (by simpa using hn)
  rw [List.map_singleton] at h
  rw [h]
  unfold vecPath
  simp only
  rw [fold_single C k _ _ [e] e.kind (by simp) kinds _ kinds_nodup, if_pos (mem_kinds _)]
  simp only [List.zipIdx_cons, List.zipIdx_nil, vstep, hu, if_neg hk, Bool.false_eq_true, if_false]
  exact ⟨_, rfl⟩

/-- A uniform, non-constant expression of the given basic type. -/
def Ex.of (k : Kind) (ev : S → (Nat → V) × S) : Ex V S := ⟨false, k, true, none, ev⟩

/-- A varying, non-constant expression of the given basic type. -/
def Ex.ofVarying (k : Kind) (ev : S → (Nat → V) × S) : Ex V S := ⟨true, k, true, none, ev⟩

/-- **Finding.**  The values are evaluated by basic type, not from left to right:
in `uniform float<3> v = { a(), b(), c() }` with `int32` results of `b` and `c`,
`a` comes last. -/
theorem vec_out_of_order (C : Cfg V) (a b c : S → (Nat → V) × S) (s : S) :
    ∃ m, initSym C (.vec .float 3)
      (.list [.expr (.of .float a), .expr (.of .int32 b), .expr (.of .int32 c)]) s
        = .ok m (a (c (b s).2).2).2 :=
  ⟨_, rfl⟩

/-- **Finding.**  Two varying values of one basic type after a uniform non-constant
one of a basic type that comes later: no error, and nothing is stored. -/
theorem vec_silently_uninitialised (C : Cfg V) (a b c : S → (Nat → V) × S) (s : S) :
    initSym C (.vec .float 3)
      (.list [.expr (.of .float a), .expr (.ofVarying .int32 b), .expr (.ofVarying .int32 c)]) s
        = .ok (.node (List.replicate 3 (.cell .uninit))) (c (b s).2).2 ∧
    ¬ ∃ m s', Inits C (.vec .float 3)
      (.list [.expr (.of .float a), .expr (.ofVarying .int32 b), .expr (.ofVarying .int32 c)]) s m s' := by
  refine ⟨rfl, ?_⟩
  rintro ⟨m, s', h⟩
  cases h with
  | vec h =>
    cases h with
    | cons _ h =>
      cases h with
      | cons h _ =>
        rw [inits_expr_iff] at h
        exact absurd h.1 (by simp [convertible, Ex.ofVarying])

/-- **Finding.**  One varying value after a uniform non-constant one: no error but a
malformed instruction. -/
theorem vec_malformed (C : Cfg V) (a b : S → (Nat → V) × S) (s : S) :
    initSym C (.vec .float 2) (.list [.expr (.of .float a), .expr (.ofVarying .float b)]) s = .crash :=
  rfl

/-! ### Unsized arrays -/

/-- The size declared for a dimension agrees with the list: it is absent or the
length of the lists at that depth. -/
def Agree : List Nat → List Nat → Prop
  | [], []           => True
  | d :: ds, e :: es => (d = 0 ∨ d = e) ∧ Agree ds es
  | _, _             => False

theorem isListOf_of_shape {i : Init V S} {d : Nat} {ds : List Nat} (h : Shape i (d :: ds)) :
    i.isListOf d = true := by
  cases h
  simp [Init.isListOf]

/-- **C55.**  A list that gives every dimension of an array sizes the dimensions
that the declaration leaves out, and the declared ones stay. -/
theorem size_of_shape : ∀ (ds : List Nat) (i : Init V S) (decl : List Nat),
    Shape i ds → Agree decl ds → sizeArr decl i = some ds
  | [], i, decl, h, hg => by
    cases decl with
    | nil => cases h; rfl
    | cons d decl => simp [Agree] at hg
  | d :: ds, i, decl, h, hg => by
    cases decl with
    | nil => simp [Agree] at hg
    | cons d0 decl =>
      rw [Agree] at hg
      cases h with
      | list hne hall =>
        rename_i is
        match is, hne, hall with
        | i :: is, _, hall =>
          have hd : (if d0 = 0 then is.length + 1 else d0) = (i :: is).length := by
            rcases hg.1 with h | h
            · simp [h]
            · rw [h]; simp
          have hi := hall i (.head _)
          match ds, i, hi with
          | _, .expr _, .expr =>
            cases decl with
            | nil => rw [sizeArr, hd]
            | cons d decl => simp [Agree] at hg
          | _, .list js, .list (ds := ds) hne' hall' =>
            rw [sizeArr]
            · have ih := size_of_shape (js.length :: ds) (.list js) decl (.list hne' hall') hg.2
              have hcons : (is.all fun j => j.isListOf js.length) = true := by
                rw [List.all_eq_true]
                intro j hj
                exact isListOf_of_shape (hall j (.tail _ hj))
              rw [ih, hcons]
              simp only [Bool.true_eq_false, and_false, if_false, Option.map_some]
              rw [hd]

/-- The type `t[d0][d1]...` -/
def arrOf : List Nat → Ty → Ty
  | [], t      => t
  | d :: ds, t => .arr d (arrOf ds t)

mutual
/-- Every expression of the initialiser satisfies `P`. -/
def Init.All (P : Ex V S → Prop) : Init V S → Prop
  | .expr e  => P e
  | .list is => Init.Alls P is
/-- The same for a list. -/
def Init.Alls (P : Ex V S → Prop) : List (Init V S) → Prop
  | []      => True
  | i :: is => Init.All P i ∧ Init.Alls P is
end

theorem Alls.mem {P : Ex V S → Prop} : ∀ {is : List (Init V S)}, Init.Alls P is → ∀ i ∈ is, i.All P
  | [], _, i, hi => by cases hi
  | j :: is, h, i, hi => by
    rw [Init.Alls] at h
    rcases List.mem_cons.1 hi with rfl | hi
    · exact h.1
    · exact Alls.mem h.2 i hi

theorem elems_of_all (C : Cfg V) (t : Ty) : ∀ (is : List (Init V S)) (s : S),
    (∀ i ∈ is, ∀ s, ∃ m s', Inits C t i s m s') →
    ∃ ms s', Elems C (List.replicate is.length t) is s ms s'
  | [], s, _ => ⟨[], s, .nil⟩
  | i :: is, s, h => by
    obtain ⟨m, s1, h1⟩ := h i (.head _) s
    obtain ⟨ms, s2, h2⟩ := elems_of_all C t is s1 (fun i hi => h i (.tail _ hi))
    exact ⟨m :: ms, s2, .cons h1 h2⟩

theorem plain_arr : ∀ (ds : List Nat) (k : Kind) (i : Init V S), Plain (arrOf ds (.uni k)) i
  | [], k, i => plain_uni k i
  | d :: ds, k, .expr e => by simp [Plain]
  | d :: ds, k, .list is => by
    rw [arrOf, Ty.arr, Plain]
    exact plains_rep ds k is d
where
  plains_rep (ds : List Nat) (k : Kind) : ∀ (is : List (Init V S)) (n : Nat),
      Plains (List.replicate n (arrOf ds (.uni k))) is
    | [], n => by simp [Plains]
    | i :: is, 0 => by simp [Plains]
    | i :: is, n + 1 => by
      rw [List.replicate_succ, Plains]
      exact ⟨plain_arr ds k i, plains_rep ds k is n⟩

/-- **C55.**  An array declared without its dimensions and initialised with a list
that gives them all is accepted, with the dimensions of the list. -/
theorem unsized_array_accepted (C : Cfg V) (hd : 0 < C.dtw) (k : Kind) (ds : List Nat)
    (i : Init V S) (hsh : Shape i ds) (hw : Wf i) (hu : i.All fun e => e.varying = false) (s : S) :
    sizeArr (ds.map fun _ => 0) i = some ds ∧
      ∃ m s', initSym C (arrOf ds (.uni k)) i s = .ok m s' := by
  constructor
  · apply size_of_shape ds i _ hsh
    clear hsh
    induction ds with
    | nil => simp [Agree]
    | cons d ds ih => simpa [Agree] using ih
  · have key : ∀ (ds : List Nat) (i : Init V S), Shape i ds → i.All (fun e => e.varying = false) →
        ∀ s, ∃ m s', Inits C (arrOf ds (.uni k)) i s m s' := by
      intro ds i hsh
      induction hsh with
      | expr =>
        rename_i e
        intro hv s
        rw [Init.All] at hv
        exact ⟨_, _, .uni hv rfl⟩
      | list hne hall ih =>
        intro hv s
        rw [Init.All] at hv
        obtain ⟨ms, s', h⟩ := elems_of_all C _ _ s (fun i hi => ih i hi (Alls.mem hv i hi))
        exact ⟨_, _, .coll h⟩
    obtain ⟨m, s', h⟩ := key ds i hsh hu s
    exact ⟨m, s', (init_spec_partial C hd _ i hw (plain_arr ds k i) s m s').2 h⟩

/-- **Finding.**  Only the first sub-list is looked at below the second dimension: in
`int x[][][] = { { {1, 2} }, { {3} } }` the shorter list passes, and its missing
element is zero. -/
theorem size_inconsistent_accepted (a b c : Ex V S) :
    sizeArr [0, 0, 0] (.list [.list [.list [.expr a, .expr b]], .list [.list [.expr c]]])
      = some [2, 1, 2] :=
  rfl

/-! ### Concrete cases -/

/-- Integers, a gang of four, 32-bit elements; a conversion to `float` is marked
by doubling. -/
def C0 : Cfg Int where
  W := 4
  dtw := 32
  conv := fun a b v => if a = b then v else 2 * v
  zero := fun _ => 0
  conv_self := by simp

/-- `next()`: the counter, which it increments. -/
def tick (k : Kind) : Ex Int Nat := .of k fun s => (fun _ => (s : Int), s + 1)

/-- A literal. -/
def lit (v : Int) : Ex Int Nat := ⟨false, .int32, true, some fun _ => v, fun s => (fun _ => v, s)⟩

/-- `struct { int x; float bar[3]; uniform float<2> v; int y; }` -/
def T0 : Ty := .coll [.uni .int32, .arr 3 (.uni .float), .vec .float 2, .uni .int32]

/-- `{ 7, { next(), next() }, { next(), next() } }` -/
def i0 : Init Int Nat :=
  .list [.expr (lit 7), .list [.expr (tick .int32), .expr (tick .int32)],
    .list [.expr (tick .int32), .expr (tick .int32)]]

theorem wf_i0 : Wf i0 := by
  simp only [i0, Wf, Wfs, and_true]
  refine ⟨?_, ⟨?_, ?_⟩, ?_, ?_⟩ <;> intro c hc s <;> simp only [lit, tick, Ex.of] at hc ⊢
  · cases hc; rfl
  all_goals cases hc

theorem plain_i0 : Plain T0 i0 := by
  simp only [T0, i0, Ty.arr, Plain, Plains, List.replicate, true_and, and_true]
  intro es he _
  match es, he with
  | [a, b], he =>
    simp only [List.map_cons, List.map_nil, List.cons.injEq, Init.expr.injEq, and_true] at he
    obtain ⟨rfl, rfl⟩ := he
    exact .inr (.inr ⟨by decide, rfl, by simp [tick, Ex.of], .inr ⟨.int32, by simp [tick, Ex.of], .inr (by simp)⟩⟩)

/-- The emitted code runs the four calls in order and zeroes `bar[2]` and `y`. -/
example : initSym C0 T0 i0 10 = .ok (.node
    [.cell (.val 7), .node [.cell (.val 20), .cell (.val 22), .cell (.val 0)],
     .node [.cell (.val 24), .cell (.val 26)], .cell (.val 0)]) 14 := rfl

/-- ... which is what the specification asks for. -/
example : Inits C0 T0 i0 10 (.node
    [.cell (.val 7), .node [.cell (.val 20), .cell (.val 22), .cell (.val 0)],
     .node [.cell (.val 24), .cell (.val 26)], .cell (.val 0)]) 14 :=
  (init_spec_partial C0 (by decide) T0 i0 wf_i0 plain_i0 10 _ _).1 rfl

/-- `varying int v = { 1, 2 }` on a gang of four. -/
example : ¬ ∃ m s', Inits C0 (.var .int32) (.list [.expr (lit 1), .expr (lit 2)]) 0 m s' :=
  (init_rejects_partial C0 (by decide) _ _
    (by simp only [Wf, Wfs, and_true, lit]
        exact ⟨(fun c hc s => by cases hc; rfl), (fun c hc s => by cases hc; rfl)⟩) (plain_var _ _) 0).1 rfl

/-- `varying float v = { 1, 2, next(), 4 }` and `varying float v = { 3 }`. -/
example : initSym C0 (.var .float) (.list [.expr (lit 1), .expr (lit 2), .expr (tick .float), .expr (lit 4)]) 9
    = .ok (.node [.cell (.val 2), .cell (.val 4), .cell (.val 9), .cell (.val 8)]) 10 := rfl
example : initSym C0 (.var .float) (.list [.expr (lit 3)]) 9
    = .ok (.node [.cell (.val 6), .cell (.val 6), .cell (.val 6), .cell (.val 6)]) 9 := rfl

/-- `uniform float<4> v = { next(), next() }`: the last two elements are poison,
while `uniform float<4> v = { 1, 2 }` zeroes them. -/
example : initSym C0 (.vec .float 4) (.list [.expr (tick .float), .expr (tick .float)]) 5
    = .ok (.node [.cell (.val 5), .cell (.val 6), .cell .poison, .cell .poison]) 7 := rfl
example : initSym C0 (.vec .float 4) (.list [.expr (lit 1), .expr (lit 2)]) 5
    = .ok (.node [.cell (.val 2), .cell (.val 4), .cell (.val 0), .cell (.val 0)]) 5 := rfl

/-- `uniform float<2> v = { next(), x }` calls `next` twice when it returns an
`int`. -/
example : initSym C0 (.vec .float 2)
    (.list [.expr (tick .int32), .expr (.of .float fun s => (fun _ => 1, s))]) 5
    = .ok (.node [.cell (.val 12), .cell (.val 1)]) 7 := rfl

/-- `uniform bool<4> v = { a, b, c, d }` with non-constant values. -/
example : initSym C0 (.vec .bool 4) (.list (List.replicate 4 (.expr (.of .bool fun s => (fun _ => 1, s))))) 0
    = .ok (.node [.cell (.val 1), .cell .uninit, .cell .uninit, .cell .uninit]) 0 := rfl
example : vecMem C0.dtw 4 ≤ 8 ∧ vecMem 8 3 = 16 := by decide +kernel

/-- `int x[][] = { { 1, 2 }, { 3, next() } }`. -/
example : ∃ m s', initSym C0 (arrOf [2, 2] (.uni .int32))
    (.list [.list [.expr (lit 1), .expr (lit 2)], .list [.expr (lit 3), .expr (tick .int32)]]) 0 = .ok m s' :=
  ⟨_, _, rfl⟩
example : Shape (.list [.list [.expr (lit 1), .expr (lit 2)], .list [.expr (lit 3), .expr (tick .int32)]])
    [2, 2] := by
  apply Shape.list (by simp)
  intro i hi
  simp only [List.mem_cons, List.not_mem_nil, or_false] at hi
  rcases hi with rfl | rfl <;>
  · apply Shape.list (is := [_, _]) (by simp)
    intro i hi
    simp only [List.mem_cons, List.not_mem_nil, or_false] at hi
    rcases hi with rfl | rfl <;> exact .expr

end Ispc.Braces
