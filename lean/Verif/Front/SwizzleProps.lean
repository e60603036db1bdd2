import Verif.Front.Swizzle

/-!
# The letters behind a short vector name its elements

C69.
-/

namespace Ispc.Swizzle

variable {α : Type}

/-! ## Specification -/

/-- The value of element `c` of a vector in program instance `l`.  A varying
vector in memory has, for each element, one cell for each instance. -/
def component (s : State α) (v : Place α) (c l : Nat) : α :=
  match v with
  | .temp var val => val c (if var then l else 0)
  | .mem vp var a => s.cell ((if vp then a l else a 0) + if var then c * s.W + l else c)

/-- If the elements of a vector, read there, may differ between instances. -/
def Place.varying : Place α → Bool
  | .temp var _ => var
  | .mem vp var _ => vp || var

/-- The outcome `o` has, for each number in `cs`, that element of `v` in every
instance that is on, and is varying or uniform as `t` says. -/
def Reads (s : State α) (v : Place α) (t : Bool) (cs : List Nat) (o : Out α) : Prop :=
  ∃ vs, o = .vals vs ∧ (∀ r ∈ vs, r.var = t) ∧
    ∀ l, s.mask l = true → vs.map (fun r => r.val l) = cs.map fun c => component s v c l

/-- The documented letters, docs/ispc.rst:3482-3487. -/
def documented : List (Char × Nat) :=
  [('x', 0), ('r', 0), ('y', 1), ('g', 1), ('z', 2), ('b', 2), ('w', 3), ('a', 3)]

/-! ## Letters -/

theorem letter_ok : ∀ e ∈ documented, letter e.1 = some e.2 := by decide

/-- `u` and `v` are two more names for the first two elements, and no other
letter names any. -/
theorem letter_iff (ch : Char) (i : Nat) :
    letter ch = some i ↔ (ch, i) ∈ documented ∨ (ch = 'u' ∧ i = 0) ∨ (ch = 'v' ∧ i = 1) := by
  unfold letter documented
  constructor
  · intro h
    split at h <;> simp_all
  · intro h
    simp only [List.mem_cons, Prod.mk.injEq, List.not_mem_nil, or_false] at h
    rcases h with (h | h | h | h | h | h | h | h) | h | h <;> obtain ⟨rfl, rfl⟩ := h <;> rfl

/-- **Letters are rejected exactly if one of them names no element.** -/
theorem elements_iff (n : Nat) (cs : List Char) :
    (elements n cs).isSome = true ↔ ∀ ch ∈ cs, ∃ i < n, letter ch = some i := by
  induction cs with
  | nil => simp [elements]
  | cons ch cs ih =>
    have e : elements n (ch :: cs) =
        ((letter ch).bind fun i => if i < n then some i else none).bind fun i =>
          (elements n cs).map (i :: ·) := by
      rfl
    rw [e]
    cases hl : letter ch with
    | none => simp [hl]
    | some i =>
      by_cases hi : i < n
      · simp [hl, hi, ih]
      · simp [hl, hi]

theorem elements_get {n : Nat} {cs : List Char} {is : List Nat} (h : elements n cs = some is) :
    cs.map letter = is.map some ∧ ∀ i ∈ is, i < n := by
  induction cs generalizing is with
  | nil =>
    have : is = [] := by simpa [elements] using h.symm
    subst this; simp
  | cons ch cs ih =>
    have e : elements n (ch :: cs) =
        ((letter ch).bind fun i => if i < n then some i else none).bind fun i =>
          (elements n cs).map (i :: ·) := by
      rfl
    rw [e] at h
    cases hl : letter ch with
    | none => simp [hl] at h
    | some i =>
      by_cases hi : i < n
      · simp only [hl, Option.bind_some, hi, if_true, Option.map_eq_some_iff] at h
        obtain ⟨js, hj, rfl⟩ := h
        obtain ⟨h1, h2⟩ := ih hj
        simp [hl, h1, hi]
        exact fun a ha => h2 a ha
      · simp [hl, hi] at h

/-! ## Reading -/

theorem load_cell (s : State α) (vp var : Bool) (a : Nat → Nat) (c l : Nat) (hl : s.mask l = true) :
    (s.load vp var (elementAddr s vp var a c)).val l = component s (.mem vp var a) c l := by
  cases vp <;> cases var <;>
    simp [State.load, elementAddr, addr, laneOffset, State.size, component, hl, Nat.add_assoc]

theorem load_var (s : State α) (vp var : Bool) (f : Nat → Nat) :
    (s.load vp var f).var = (vp || var) := by
  cases vp <;> cases var <;> rfl

theorem single_ok (s : State α) (v : Place α) (c : Nat) : Reads s v v.varying [c] (single s v c) := by
  cases v with
  | temp var val => exact ⟨_, rfl, by simp [Place.varying], by simp [component]⟩
  | mem vp var a =>
    refine ⟨[s.load vp var (elementAddr s vp var a c)], ?_, ?_, ?_⟩
    · simp [single, load_var, Bool.or_comm]
    · simp [load_var, Place.varying]
    · intro l hl
      simp [load_cell s vp var a c l hl]

theorem swizzle_ok (s : State α) (arrow : Bool) (v : Place α) (cs : List Nat)
    (h : ∀ vp var a, v = .mem vp var a → vp = true → arrow = false ∧ var = false) :
    Reads s v v.varying cs (swizzle s arrow v cs) := by
  cases v with
  | temp var val =>
    refine ⟨_, rfl, by simp [Place.varying], ?_⟩
    intro l _
    simp [component]
  | mem vp var a =>
    have h := h vp var a rfl
    refine ⟨cs.map fun c =>
      s.load vp (vectorVarying arrow vp var) fun l => addr vp a l + c * s.size var, ?_, ?_, ?_⟩
    · unfold swizzle
      refine if_pos ?_
      rw [List.all_map, List.all_eq_true]
      intro c _
      cases vp <;> cases var <;> cases arrow <;> simp_all [load_var, vectorVarying]
    · intro r hr
      obtain ⟨c, _, rfl⟩ := List.mem_map.1 hr
      cases vp <;> cases var <;> cases arrow <;> simp_all [load_var, vectorVarying, Place.varying]
    · intro l hl
      rw [List.map_map]
      refine List.map_congr_left fun c _ => ?_
      cases vp <;> cases var <;> cases arrow <;>
        simp_all [State.load, vectorVarying, addr, State.size, component, Nat.add_assoc]

/-- **One letter names one element**, in a value or in memory, behind any
pointer, with `.` and with `->`. -/
theorem member_one (s : State α) (arrow : Bool) {n : Nat} (v : Place α) {ch : Char} {i : Nat}
    (hi : letter ch = some i) (hn : i < n) :
    Reads s v v.varying [i] (member s arrow n v [ch]) := by
  have : elements n [ch] = some [i] := by simp [elements, hi, hn]
  unfold member
  rw [this]
  exact single_ok s v i

/-- **A row of letters gives the elements they name**, in their order.  Partial:
behind a varying pointer only for uniform vectors and not with `->`. -/
theorem member_partial (s : State α) (arrow : Bool) {n : Nat} (v : Place α) {cs : List Char}
    {is : List Nat} (hi : cs.map letter = is.map some) (hn : ∀ i ∈ is, i < n)
    (h : ∀ vp var a, v = .mem vp var a → vp = true → arrow = false ∧ var = false) :
    Reads s v v.varying is (member s arrow n v cs) := by
  have he : elements n cs = some is := by
    have h1 : (elements n cs).isSome = true := by
      rw [elements_iff]
      intro ch hc
      have : letter ch ∈ cs.map letter := List.mem_map_of_mem hc
      rw [hi] at this
      obtain ⟨i, hm, e⟩ := List.mem_map.1 this
      exact ⟨i, hn i hm, e.symm⟩
    obtain ⟨js, hj⟩ := Option.isSome_iff_exists.1 h1
    have h2 := (elements_get hj).1
    rw [hi] at h2
    have : is = js := List.map_injective_iff.2 (fun _ _ h => Option.some.inj h) h2
    rw [hj, this]
  unfold member
  rw [he]
  match is with
  | [] => exact swizzle_ok s arrow v _ h
  | [c] => exact single_ok s v c
  | c :: d :: r => exact swizzle_ok s arrow v _ h

/-- `v.zyx` of a varying `float<3>`. -/
example : ['z', 'y', 'x'].map letter = [2, 1, 0].map some ∧ ∀ i ∈ [2, 1, 0], i < 3 := by decide

/-- Unknown letters, and elements beyond the end, are rejected. -/
theorem member_rejected (s : State α) (arrow : Bool) (n : Nat) (v : Place α) (cs : List Char)
    (h : ∃ ch ∈ cs, ∀ i < n, letter ch ≠ some i) : member s arrow n v cs = .rejected := by
  have : elements n cs = none := by
    rw [← Option.not_isSome_iff_eq_none]
    intro h1
    rw [elements_iff] at h1
    obtain ⟨ch, hc, h2⟩ := h
    obtain ⟨i, hi, e⟩ := h1 ch hc
    exact h2 i hi e
  unfold member
  rw [this]

/-- What a row of letters gives for a varying vector behind a varying pointer:
the elements of instance 0, in all instances. -/
theorem member_lane0 (s : State α) (arrow : Bool) {n : Nat} (a : Nat → Nat) {cs : List Char}
    {is : List Nat} (hi : elements n cs = some is) (h2 : 2 ≤ is.length) :
    ∃ vs, member s arrow n (.mem true true a) cs = .vals vs ∧
      ∀ l, s.mask l = true → vs.map (fun r => r.val l) = is.map fun c => s.cell (a l + c * s.W) := by
  unfold member
  rw [hi]
  match is with
  | [] => simp at h2
  | [c] => simp at h2
  | c :: d :: r =>
    refine ⟨_, if_pos ?_, ?_⟩
    · cases arrow <;> simp [vectorVarying, load_var]
    · intro l hl
      rw [List.map_map]
      refine List.map_congr_left fun c _ => ?_
      cases arrow <;> simp [State.load, addr, State.size, hl]

/-- `float<3> p[]; p[i].zy` with a varying `i`: instance 1 reads the elements of
instance 0, though `p[i].z` is right. -/
theorem swizzle_wrong :
    let s : State Nat := ⟨4, id, fun _ => true, fun _ => 0⟩
    let v : Place Nat := .mem true true fun _ => 0
    (∃ vs, member s false 3 v ['z', 'y'] = .vals vs ∧ vs.map (fun r => r.val 1) = [8, 4]) ∧
    (∃ vs, member s false 3 v ['z'] = .vals vs ∧ vs.map (fun r => r.val 1) = [9]) ∧
    [2, 1].map (fun c => component s v c 1) = [9, 5] :=
  ⟨⟨_, rfl, rfl⟩, ⟨_, rfl, rfl⟩, rfl⟩

/-- **`p->zyx` on a varying pointer to a uniform vector** stores a whole vector
of values where there is room for one, whatever the letters: the behaviour is
undefined. -/
theorem arrow_wrong (s : State α) {n : Nat} (a : Nat → Nat) {cs : List Char} {is : List Nat}
    (hi : elements n cs = some is) (h2 : 2 ≤ is.length) :
    member s true n (.mem true false a) cs = .undefined := by
  unfold member
  rw [hi]
  match is with
  | [] => simp at h2
  | [c] => simp at h2
  | c :: d :: r => simp [swizzle, vectorVarying, load_var]

example : elements 3 ['z', 'y', 'x'] = some [2, 1, 0] := by decide

/-- **`v[i]` is element `i`**, for a uniform or varying index. -/
theorem index_ok (s : State α) (v : Place α) (vi : Bool) (i : Nat → Nat) :
    ∃ r, index s v vi i = .vals [r] ∧ r.var = (v.varying || vi) ∧
      ∀ l, s.mask l = true → r.val l = component s v (if vi then i l else i 0) l := by
  cases v with
  | temp var val =>
    cases vi <;> cases var <;> refine ⟨_, rfl, rfl, ?_⟩ <;> intro l hl <;> simp [component, hl]
  | mem vp var a =>
    cases vi <;> cases vp <;> cases var <;> refine ⟨_, rfl, rfl, ?_⟩ <;> intro l hl <;>
      simp [State.load, addr, laneOffset, State.size, component, hl, Nat.add_assoc]

/-! ## Writing -/

/-- **Single elements in memory can be assigned to, and rows of them cannot.** -/
theorem assignable_iff (v : Place α) (cs : List Char) :
    assignable v cs = true ↔ (∃ vp var a, v = .mem vp var a) ∧ ∃ ch, cs = [ch] := by
  cases v with
  | temp var val => simp [assignable]
  | mem vp var a => simp [assignable, List.length_eq_one_iff]

/-- The cell that holds element `c` in instance `l`: the specification of `component`. -/
def cellOf (s : State α) (vp var : Bool) (a : Nat → Nat) (c l : Nat) : Nat :=
  (if vp then a l else a 0) + if var then c * s.W + l else c

theorem fold_other (g : Nat → Nat) (m : Nat → Bool) (e : Nat → α) (ls : List Nat) (f : Nat → α) (x : Nat)
    (h : ∀ l ∈ ls, m l = true → g l ≠ x) :
    ls.foldl (fun f l => if m l then put f (g l) (e l) else f) f x = f x := by
  induction ls generalizing f with
  | nil => rfl
  | cons l ls ih =>
    rw [List.foldl_cons, ih _ fun k hk => h k (List.mem_cons_of_mem _ hk)]
    by_cases hm : m l = true
    · have := h l List.mem_cons_self hm
      simp [hm, put, Ne.symm this]
    · simp [hm]

theorem fold_at (g : Nat → Nat) (m : Nat → Bool) (e : Nat → α) (W : Nat) (f : Nat → α) {l : Nat}
    (hl : l < W) (hm : m l = true) (h : ∀ k, l < k → k < W → m k = true → g k ≠ g l) :
    (List.range W).foldl (fun f l => if m l then put f (g l) (e l) else f) f (g l) = e l := by
  have hs : List.range W = List.range (l + 1) ++ (List.range (W - (l + 1))).map (l + 1 + ·) := by
    rw [← List.range_add]; congr 1; omega
  rw [hs, List.foldl_append, fold_other]
  · rw [List.range_succ, List.foldl_append]
    simp [hm, put]
  · intro k hk hmk
    obtain ⟨j, hj, rfl⟩ := List.mem_map.1 hk
    have := List.mem_range.1 hj
    exact h _ (by omega) (by omega) hmk

/-- The instances that write: those that are on; for a uniform vector behind a
uniform pointer, the one store is made in any case. -/
def Writes (s : State α) (vp var : Bool) (l : Nat) : Prop :=
  if vp = false ∧ var = false then l = 0 else l < s.W ∧ s.mask l = true

/-- **`v.c = e` changes no cell but those of element `c`** in the instances that
are on. -/
theorem write_other (s : State α) (vp var : Bool) (a : Nat → Nat) (c : Nat) (e : Nat → α) (x : Nat)
    (h : ∀ l, Writes s vp var l → cellOf s vp var a c l ≠ x) : write s vp var a c e x = s.cell x := by
  cases vp <;> cases var
  · have := h 0 (by simp [Writes])
    simp [cellOf] at this
    simp [write, put, elementAddr, addr, laneOffset, State.size, Ne.symm this]
  · refine fold_other _ _ _ _ _ _ fun l hl hm => ?_
    have := h l (by simp [Writes, List.mem_range.1 hl, hm])
    simpa [cellOf, elementAddr, addr, laneOffset, State.size, Nat.add_assoc] using this
  · refine fold_other _ _ _ _ _ _ fun l hl hm => ?_
    have := h l (by simp [Writes, List.mem_range.1 hl, hm])
    simpa [cellOf, elementAddr, addr, laneOffset, State.size, Nat.add_assoc] using this
  · refine fold_other _ _ _ _ _ _ fun l hl hm => ?_
    have := h l (by simp [Writes, List.mem_range.1 hl, hm])
    simpa [cellOf, elementAddr, addr, laneOffset, State.size, Nat.add_assoc] using this

/-- **`v.c = e` leaves `e` in element `c`** of each instance that writes, if no
later one writes to the same cell. -/
theorem write_ok (s : State α) (vp var : Bool) (a : Nat → Nat) (c : Nat) (e : Nat → α) {l : Nat}
    (hw : Writes s vp var l)
    (h : ∀ k, l < k → Writes s vp var k → cellOf s vp var a c k ≠ cellOf s vp var a c l) :
    write s vp var a c e (cellOf s vp var a c l) = e l := by
  have key : ∀ g : Nat → Nat, (∀ k, g k = cellOf s vp var a c k) → Writes s vp var l →
      ¬ (vp = false ∧ var = false) →
      (List.range s.W).foldl (fun f l => if s.mask l then put f (g l) (e l) else f) s.cell
        (cellOf s vp var a c l) = e l := by
    intro g hg hw hn
    simp only [Writes, if_neg hn] at hw h
    rw [← hg l]
    refine fold_at g s.mask e s.W s.cell hw.1 hw.2 fun k h1 h2 h3 => ?_
    rw [hg, hg]
    exact h k h1 ⟨h2, h3⟩
  cases vp <;> cases var
  · simp [Writes] at hw
    subst hw
    simp [write, put, elementAddr, addr, laneOffset, State.size, cellOf]
  · exact key (fun l => elementAddr s false true a c 0 + l)
      (fun k => by simp [cellOf, elementAddr, addr, laneOffset, State.size, Nat.add_assoc]) hw (by simp)
  · exact key (elementAddr s true false a c)
      (fun k => by simp [cellOf, elementAddr, addr, laneOffset, State.size]) hw (by simp)
  · exact key (elementAddr s true true a c)
      (fun k => by simp [cellOf, elementAddr, addr, laneOffset, State.size, Nat.add_assoc]) hw (by simp)

/-- Writing `y` of a varying vector at 16, four instances, the second off. -/
example : let s : State Nat := ⟨4, fun _ => 0, fun l => l ≠ 1, fun _ => 0⟩
    Writes s false true 2 ∧ ¬ Writes s false true 1 ∧ cellOf s false true (fun _ => 16) 1 2 = 22 := by
  simp [Writes, cellOf]

/-- **The other elements stay**: after `v.c = e` on a vector behind a uniform
pointer, every other element is as it was. -/
theorem write_frame (s : State α) (var : Bool) (a : Nat → Nat) {c d : Nat} (hcd : c ≠ d) (e : Nat → α)
    {l : Nat} (hl : l < s.W) :
    component { s with cell := write s false var a c e } (.mem false var a) d l =
      component s (.mem false var a) d l := by
  refine write_other s false var a c e _ fun k hk => ?_
  cases var
  · simp [cellOf, hcd]
  · have hk : k < s.W := by simp [Writes] at hk; exact hk.1
    simp only [cellOf, if_true, Bool.false_eq_true, if_false, ne_eq, Nat.add_left_cancel_iff]
    intro he
    rcases Nat.lt_or_gt_of_ne hcd with h | h
    · have := Nat.mul_le_mul_right s.W (show c + 1 ≤ d by omega)
      rw [Nat.add_mul] at this; omega
    · have := Nat.mul_le_mul_right s.W (show d + 1 ≤ c by omega)
      rw [Nat.add_mul] at this; omega

end Ispc.Swizzle
