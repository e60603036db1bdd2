import Verif.Opt.ElementValid
import Mathlib.Tactic.IntervalCases

/-!
# C78: examples, and programs for which the compiler is wrong
-/

namespace Ispc.Elt

/-! ### Functions given by a list -/

/-- A function: the values in order, with their blocks and types; block 0 is the first. -/
def progOf (l : List (Node × Nat × Ty)) (preds : Nat → List Nat) : Prog where
  node v := match l[v]? with
    | some d => d.1
    | none => .leaf
  blk v := match l[v]? with
    | some d => d.2.1
    | none => 0
  ty v := match l[v]? with
    | some d => d.2.2
    | none => ⟨0, 0⟩
  entry := 0
  preds := preds

/-- A sufficient test for validity of one value: operands come before it, in the first block or its own. -/
def okAt (P : Prog) (v : Nat) : Bool :=
  (P.node v).uses.all (fun a => decide (a < v) && (P.blk a == 0 || P.blk a == P.blk v)) &&
  match P.node v with
  | .phi ins => P.blk v != 0 &&
      ins.all (fun p => (P.blk p.1 == 0 || P.blk p.1 == p.2) && (P.preds (P.blk v)).contains p.2 && P.ty p.1 == P.ty v) &&
      (P.preds (P.blk v)).all (fun b => ins.any (fun p => p.2 == b))
  | .bin _ a b => P.ty a == P.ty v && P.ty b == P.ty v
  | .shuffle a _ => (P.ty a).w == (P.ty v).w && (P.ty a).n != 0
  | .insert base e _ => P.ty base == P.ty v && P.ty e == ⟨(P.ty v).w, 0⟩
  | .cvec ops => ops.length == (P.ty v).n && ops.all (fun o => P.ty o == ⟨(P.ty v).w, 0⟩)
  | .cdata xs => xs.length == (P.ty v).n
  | _ => true

theorem node_past {l : List (Node × Nat × Ty)} {preds : Nat → List Nat} {v : Nat} (h : l.length ≤ v) :
    (progOf l preds).node v = .leaf := by
  simp [progOf, List.getElem?_eq_none h]

theorem valid_of_ok {l : List (Node × Nat × Ty)} {preds : Nat → List Nat} (h0 : preds 0 = [])
    (h : (List.range l.length).all (okAt (progOf l preds)) = true) : Valid (progOf l preds) id := by
  generalize hP : progOf l preds = P at h
  have hent : P.entry = 0 := by rw [← hP]; rfl
  have hleaf : ∀ v, l.length ≤ v → P.node v = .leaf := fun v hv => by rw [← hP]; exact node_past hv
  have hat : ∀ v, P.node v ≠ .leaf → okAt P v = true := by
    intro v hv
    rw [List.all_eq_true] at h
    refine h v (List.mem_range.mpr ?_)
    by_contra hc
    exact hv (hleaf v (by omega))
  have hdom : ∀ d b, (d = 0 ∨ d = b) → Dom P d b := by
    intro d b hd
    rcases hd with rfl | rfl
    · rw [← hent]; exact dom_entry P b
    · exact Dom.refl P d
  have huse : ∀ v a, a ∈ (P.node v).uses → a < v ∧ (P.blk a = 0 ∨ P.blk a = P.blk v) := by
    intro v a ha
    have h1 := hat v (by intro hl; rw [hl] at ha; simp [Node.uses] at ha)
    simp only [okAt, Bool.and_eq_true, List.all_eq_true] at h1
    have h2 := h1.1 a ha
    simpa using h2
  constructor
  · rw [hent, ← hP]; exact h0
  · intro v ins hn
    have h1 := hat v (by simp [hn])
    simp only [okAt, hn, Bool.and_eq_true] at h1
    rw [hent]
    simpa using h1.2.1.1
  · intro v a ha
    exact hdom _ _ (huse v a ha).2
  · intro v a ha
    exact (huse v a ha).1
  · intro v ins x b hn hx
    have h1 := hat v (by simp [hn])
    simp only [okAt, hn, Bool.and_eq_true, List.all_eq_true] at h1
    have h2 := h1.2.1.2 (x, b) hx
    exact hdom _ _ (by simpa using h2.1.1)
  · intro v ins x b hn hx
    have h1 := hat v (by simp [hn])
    simp only [okAt, hn, Bool.and_eq_true, List.all_eq_true] at h1
    have h2 := h1.2.1.2 (x, b) hx
    simpa using h2.1.2
  · intro v ins b hn hb
    have h1 := hat v (by simp [hn])
    simp only [okAt, hn, Bool.and_eq_true, List.all_eq_true] at h1
    have h2 := h1.2.2 b hb
    simp only [List.any_eq_true, beq_iff_eq] at h2
    obtain ⟨p, hp, rfl⟩ := h2
    exact ⟨p.1, hp⟩
  · intro v op a b hn
    have h1 := hat v (by simp [hn])
    simp only [okAt, hn, Bool.and_eq_true] at h1
    simpa using h1.2
  · intro v ins x b hn hx
    have h1 := hat v (by simp [hn])
    simp only [okAt, hn, Bool.and_eq_true, List.all_eq_true] at h1
    have h2 := h1.2.1.2 (x, b) hx
    simpa using h2.2
  · intro v a z hn
    have h1 := hat v (by simp [hn])
    simp only [okAt, hn, Bool.and_eq_true] at h1
    simpa using h1.2
  · intro v base e i hn
    have h1 := hat v (by simp [hn])
    simp only [okAt, hn, Bool.and_eq_true] at h1
    simpa using h1.2
  · intro v ops hn
    have h1 := hat v (by simp [hn])
    simp only [okAt, hn, Bool.and_eq_true] at h1
    simpa using h1.2
  · intro v xs hn
    have h1 := hat v (by simp [hn])
    simp only [okAt, hn, Bool.and_eq_true] at h1
    simpa using h1.2

/-- A test for identifiers being free. -/
theorem free_of_ok {l : List (Node × Nat × Ty)} {preds : Nat → List Nat}
    (h : (List.range l.length).all (fun v => ((progOf l preds).node v).uses.all (fun a => decide (a < l.length)) &&
      (match (progOf l preds).node v with
       | .phi ins => ins.all (fun p => decide (p.1 < l.length))
       | _ => true)) = true) : Free (progOf l preds) l.length := by
  generalize hP : progOf l preds = P at h
  have hleaf : ∀ v, l.length ≤ v → P.node v = .leaf := fun v hv => by rw [← hP]; exact node_past hv
  rw [List.all_eq_true] at h
  have hat : ∀ v, P.node v ≠ .leaf → _ := fun v hv => h v (List.mem_range.mpr (by
    by_contra hc
    exact hv (hleaf v (by omega))))
  constructor
  · exact hleaf
  · intro v a ha
    have h1 := hat v (by intro hl; rw [hl] at ha; simp [Node.uses] at ha)
    simp only [Bool.and_eq_true, List.all_eq_true] at h1
    simpa using h1.1 a ha
  · intro v ins x b hn hx
    have h1 := hat v (by simp [hn])
    simp only [hn, Bool.and_eq_true, List.all_eq_true] at h1
    simpa using h1.2 (x, b) hx

/-- The machine's operators: 0 is addition, 1 multiplication; casts: 0 truncates, 1 extends with zeros, 2 is a bitcast
(which, between vectors of different lengths, here only makes pairs of elements one element). -/
def machine : Sem where
  bin op w x y := if op = 0 then (x + y) % 2 ^ w else (x * y) % 2 ^ w
  cast op _ w' x := if op = 0 then x % 2 ^ w' else x
  regroup _ t _ f l := f (2 * l) + 2 ^ t.w * f (2 * l + 1)

/-! ### Equal values -/

/-- `(uint32)((uint8)x + (uint8)y)` (value 5) and `(uint32)((uint16)x + (uint16)y)` (value 9). -/
def castProg : Prog := progOf
  [(.leaf, 0, ⟨32, 0⟩), (.leaf, 0, ⟨32, 0⟩),
   (.cast 0 0, 0, ⟨8, 0⟩), (.cast 0 1, 0, ⟨8, 0⟩), (.bin 0 2 3, 0, ⟨8, 0⟩), (.cast 1 4, 0, ⟨32, 0⟩),
   (.cast 0 0, 0, ⟨16, 0⟩), (.cast 0 1, 0, ⟨16, 0⟩), (.bin 0 6 7, 0, ⟨16, 0⟩), (.cast 1 8, 0, ⟨32, 0⟩)] (fun _ => [])

/-- The values of `castProg` for 255 and 1. -/
def castEnv : Env := fun v _ => [255, 1, 255, 1, 0, 0, 255, 1, 256, 256].getD v 0

theorem run_straight {l : List (Node × Nat × Ty)} {S : Sem} {env : Env}
    (h : ∀ v, v < l.length → Holds S (progOf l (fun _ => [])) env v) :
    Run S (progOf l (fun _ => [])) 0 env := by
  refine .start (P := progOf l (fun _ => [])) env ?_
  intro v _ _
  by_cases hv : v < l.length
  · exact h v hv
  · simp [Holds, node_past (Nat.not_lt.mp hv)]

/-- **C78, found false of the code.** The compiler decides that two values of the same type are equal that are not: it
compares casts without the types they start from.  The two sums here differ for 255 and 1. -/
theorem equal_wrong : Valid castProg id ∧ castProg.ty 5 = castProg.ty 9 ∧ valuesEq castProg 5 5 9 [] = .yes ∧
    Dom castProg (castProg.blk 5) 0 ∧ Dom castProg (castProg.blk 9) 0 ∧
    ∃ env, Run machine castProg 0 env ∧ env 5 0 ≠ env 9 0 := by
  refine ⟨valid_of_ok rfl (by decide +kernel), rfl, by decide +kernel, Dom.refl _ _, Dom.refl _ _, castEnv,
    run_straight ?_, by decide⟩
  intro v hv
  simp only [List.length_cons, List.length_nil] at hv
  interval_cases v <;> simp [Holds, progOf, castEnv, machine, Sem.castv]

/-- A loop with two counters that start from the same value and grow alike: `x` (value 2) and `y` (value 3), with the
sums 4 and 5. -/
def loopProg : Prog := progOf
  [(.leaf, 0, ⟨32, 0⟩), (.const 1, 0, ⟨32, 0⟩),
   (.phi [(0, 0), (4, 1)], 1, ⟨32, 0⟩), (.phi [(0, 0), (5, 1)], 1, ⟨32, 0⟩),
   (.bin 0 2 1, 1, ⟨32, 0⟩), (.bin 0 3 1, 1, ⟨32, 0⟩)] (fun b => if b = 1 then [0, 1] else [])

/-- The hypotheses of `equal_partial` are met: the two counters are found equal, and the loop runs. -/
example : Valid loopProg id ∧ CastsAgree loopProg ∧ loopProg.ty 4 = loopProg.ty 5 ∧
    valuesEq loopProg 5 4 5 [] = .yes ∧ Dom loopProg (loopProg.blk 4) 1 ∧ Dom loopProg (loopProg.blk 5) 1 := by
  refine ⟨valid_of_ok rfl (by decide +kernel), ?_, rfl, by decide +kernel, Dom.refl _ _, Dom.refl _ _⟩
  intro x y op a a' hx
  exfalso
  by_cases h : x < 6
  · interval_cases x <;> simp [loopProg, progOf] at hx
  · rw [loopProg, node_past (by simpa using h)] at hx
    simp at hx

/-- The first time round: both counters are 7. -/
example : ∃ env, Run machine loopProg 1 env ∧ env 4 0 = 8 ∧ env 5 0 = 8 := by
  have h0 : Run machine loopProg 0 (fun v _ => [7, 1, 0, 0, 0, 0].getD v 0) := by
    refine .start (P := loopProg) _ ?_
    intro v hb hp
    by_cases h : v < 6
    · interval_cases v <;> first | (simp [Holds, loopProg, progOf]; done) | (simp [loopProg, progOf] at hb)
    · have hn : loopProg.node v = .leaf := by rw [loopProg, node_past (by simpa using h)]
      simp [Holds, hn]
  refine ⟨fun v _ => [7, 1, 7, 7, 8, 8].getD v 0, .step (P := loopProg) 0 1 _ _ h0 (by simp [loopProg, progOf]) ?_ ?_ ?_,
    rfl, rfl⟩
  · intro v ins hb hn x hx
    by_cases h : v < 6
    · interval_cases v <;> simp [loopProg, progOf] at hb hn <;> subst hn <;> simp at hx <;> subst hx <;> rfl
    · rw [loopProg, node_past (by simpa using h)] at hn
      simp at hn
  · intro v hb
    by_cases h : v < 6
    · interval_cases v <;> first | rfl | (simp [loopProg, progOf] at hb)
    · have hl : 6 ≤ v := by omega
      simp [List.getD, List.getElem?_eq_none (l := [7, 1, 7, 7, 8, 8]) (i := v) hl,
        List.getElem?_eq_none (l := [7, 1, 0, 0, 0, 0]) (i := v) hl]
  · intro v hb hp
    by_cases h : v < 6
    · interval_cases v <;> simp [Holds, loopProg, progOf, machine] at hb hp ⊢
    · have hn : loopProg.node v = .leaf := by rw [loopProg, node_past (by simpa using h)]
      simp [Holds, hn]

/-! ### Chains -/

/-- The two sums of `castProg` as the elements of a vector of two. -/
def chainProg : Prog := progOf
  [(.leaf, 0, ⟨32, 0⟩), (.leaf, 0, ⟨32, 0⟩),
   (.cast 0 0, 0, ⟨8, 0⟩), (.cast 0 1, 0, ⟨8, 0⟩), (.bin 0 2 3, 0, ⟨8, 0⟩), (.cast 1 4, 0, ⟨32, 0⟩),
   (.cast 0 0, 0, ⟨16, 0⟩), (.cast 0 1, 0, ⟨16, 0⟩), (.bin 0 6 7, 0, ⟨16, 0⟩), (.cast 1 8, 0, ⟨32, 0⟩),
   (.undef, 0, ⟨32, 2⟩), (.insert 10 5 (some 0), 0, ⟨32, 2⟩), (.insert 11 9 (some 1), 0, ⟨32, 2⟩)] (fun _ => [])

/-- The values of `chainProg` for 255 and 1. -/
def chainEnv : Env := fun v l => [[255], [1], [255], [1], [0], [0], [255], [1], [256], [256], [9, 9], [0, 9], [0, 256]]
  |>.getD v [] |>.getD (if v < 10 then 0 else l) (if v = 10 ∨ v = 11 ∨ v = 12 then 9 else 0)

/-- **C78, found false of the code.** So a vector with different elements is taken for one with equal elements, and the
gather or scatter it is the index of for an access of one element. -/
theorem common_wrong : Valid chainProg id ∧ flatten chainProg (fun _ => false) 20 12 2 true true false = .val 9 ∧
    ∃ env, Run machine chainProg 0 env ∧ env 12 0 ≠ env 9 0 := by
  refine ⟨valid_of_ok rfl (by decide +kernel), by decide +kernel, chainEnv, run_straight ?_, by decide⟩
  intro v hv
  simp only [List.length_cons, List.length_nil] at hv
  interval_cases v
  all_goals try (simp [Holds, progOf, chainEnv, machine, Sem.castv]; done)
  · simp only [Holds, progOf]
    intro l
    rcases l with _ | _ | l <;> simp [chainEnv]
  · simp only [Holds, progOf]
    intro l
    rcases l with _ | _ | l <;> simp [chainEnv]

/-- `insert(i, 3, x)` for an undefined `i` (value 2), and for a constant `i` that is zero (value 4). -/
def laneProg : Prog := progOf
  [(.leaf, 0, ⟨32, 0⟩), (.undef, 0, ⟨32, 4⟩), (.insert 1 0 (some 3), 0, ⟨32, 4⟩), (.zero, 0, ⟨32, 4⟩),
   (.insert 3 0 (some 3), 0, ⟨32, 4⟩), (.leaf, 0, ⟨32, 4⟩), (.insert 5 0 (some 3), 0, ⟨32, 4⟩),
   (.insert 2 0 (some 2), 0, ⟨32, 4⟩), (.insert 7 0 (some 1), 0, ⟨32, 4⟩), (.insert 8 0 (some 0), 0, ⟨32, 4⟩)] (fun _ => [])

/-- The hypotheses of `common_partial` and `first_insert` are met by a vector into which a value was inserted in all four
places. -/
example : Valid laneProg id ∧ flatten laneProg (fun _ => false) 9 9 4 true false false = .val 0 ∧
    flatten laneProg (fun _ => false) 9 9 4 false true false = .val 0 :=
  ⟨valid_of_ok rfl (by decide +kernel), by decide +kernel, by decide +kernel⟩

/-- **C78, found false of the code.** A vector of which only element 3 is defined counts as one with equal elements, and
then has no first element: the compiler stops with a failed assertion (`src/opt/ImproveMemoryOps.cpp:1139-1140`) when
such a vector is an index. -/
theorem defined_wrong : Valid laneProg id ∧ flatten laneProg (fun _ => false) 9 2 4 true true false = .val 0 ∧
    flatten laneProg (fun _ => false) 9 2 4 false true false = .null ∧
    firstElement laneProg (fun _ => false) 9 2 10 = none :=
  ⟨valid_of_ok rfl (by decide +kernel), by decide +kernel, by decide +kernel, by
    simp only [firstElement]
    rw [show extract laneProg (fun _ => false) 9 2 ⟨10, [], []⟩ = none from by decide +kernel]⟩

/-- **C78, found false of the code.** The compiler stops with a failed assertion for an element inserted into a vector
of zeros, and for the first element of a vector in which another element was replaced. -/
theorem chain_stops_wrong : Valid laneProg id ∧ flatten laneProg (fun _ => false) 9 4 4 true true false = .abort ∧
    flatten laneProg (fun _ => false) 9 6 4 false true false = .abort :=
  ⟨valid_of_ok rfl (by decide +kernel), by decide +kernel, by decide +kernel⟩

/-- A broadcast of `p + 4` (value 7) and one of `p` (value 8). -/
def addProg : Prog := progOf
  [(.leaf, 0, ⟨64, 0⟩), (.undef, 0, ⟨64, 2⟩), (.insert 1 0 (some 0), 0, ⟨64, 2⟩), (.const 4, 0, ⟨64, 0⟩),
   (.undef, 0, ⟨64, 0⟩), (.cvec [3, 4], 0, ⟨64, 2⟩), (.bin 0 2 5, 0, ⟨64, 2⟩), (.shuffle 6 true, 0, ⟨64, 2⟩),
   (.shuffle 2 true, 0, ⟨64, 2⟩)] (fun _ => [])

/-- The hypotheses of `broadcast` and `broadcast_base` are met; the base pointer goes with the offset 4. -/
example : Valid addProg id ∧ flatten addProg (fun _ => true) 9 8 2 true false false = .val 0 ∧
    broadcastBase addProg (fun _ => true) (fun _ => true) 9 7 2 = some (0, .splat 5) ∧
    broadcastBase addProg (fun _ => true) (fun _ => true) 9 8 2 = some (0, .zero) :=
  ⟨valid_of_ok rfl (by decide +kernel), by decide +kernel, by decide +kernel, by decide +kernel⟩

/-- The values of `addProg`. -/
def addEnv : Env := fun v _ => [100, 100, 100, 4, 4, 4, 104, 104, 100].getD v 0

/-- **C78.** Asked to look through an addition, the function returns a scalar that is not an element of the vector: the
pointer without the offset.  Its caller adds the offset (`broadcast_base`). -/
theorem search_wrong : Valid addProg id ∧ flatten addProg (fun v => v == 6) 9 7 2 true false true = .val 0 ∧
    ∃ env, Run machine addProg 0 env ∧ env 7 0 ≠ env 0 0 := by
  refine ⟨valid_of_ok rfl (by decide +kernel), by decide +kernel, addEnv, run_straight ?_, by decide⟩
  intro v hv
  simp only [List.length_cons, List.length_nil] at hv
  interval_cases v
  all_goals try (simp [Holds, progOf, addEnv, machine]; done)
  simp only [Holds, progOf]
  intro l o ho
  rcases l with _ | _ | l
  · simp at ho; subst ho; rfl
  · simp at ho; subst ho; rfl
  · simp at ho

/-! ### First elements -/

/-- A vector (value 0) to which 4 is added in each round of a loop. -/
def vecLoop : Prog := progOf
  [(.leaf, 0, ⟨32, 4⟩), (.cdata [4, 4, 4, 4], 0, ⟨32, 4⟩), (.phi [(0, 0), (3, 1)], 1, ⟨32, 4⟩),
   (.bin 0 2 1, 1, ⟨32, 4⟩)] (fun b => if b = 1 then [0, 1] else [])

/-- The hypotheses of `first_valid`, `first_partial` and `first_keeps` are met: the scalar loop is built. -/
example : Valid vecLoop id ∧ Free vecLoop 4 ∧ LanesKept vecLoop ∧ OneEdge vecLoop ∧ OneValue vecLoop ∧
    (extract vecLoop (fun _ => false) 9 3 ⟨4, [], []⟩).map (fun r => (r.1, r.2.defs.map (fun d => (d.id, d.node, d.blk)))) =
      some (9, [(9, .bin 0 4 8, 1), (8, .const 4, 0), (4, .phi [(5, 0), (7, 1)], 1), (7, .bin 0 4 6, 1),
        (6, .const 4, 0), (5, .elt 0, 0)]) := by
  refine ⟨valid_of_ok rfl (by decide +kernel), free_of_ok (by decide +kernel), ?_, ?_, ?_, by decide +kernel⟩
  · intro v op a hn
    exfalso
    by_cases h : v < 4
    · interval_cases v <;> simp [vecLoop, progOf] at hn
    · rw [vecLoop, node_past (by simpa using h)] at hn
      simp at hn
  · intro v ins hn
    by_cases h : v < 4
    · interval_cases v <;> simp [vecLoop, progOf] at hn
      subst hn
      decide
    · rw [vecLoop, node_past (by simpa using h)] at hn
      simp at hn
  · intro v ins x y b hn hx hy
    by_cases h : v < 4
    · interval_cases v <;> simp [vecLoop, progOf] at hn
      subst hn
      simp at hx hy
      omega
    · rw [vecLoop, node_past (by simpa using h)] at hn
      simp at hn

/-- Two edges from block 0 to block 1 (two cases of a switch), both with the vector 0. -/
def twice : Prog := progOf [(.leaf, 0, ⟨32, 4⟩), (.phi [(0, 0), (0, 0)], 1, ⟨32, 4⟩)] (fun b => if b = 1 then [0, 0] else [])

/-- **C78, found false of the code.** If a block is twice a successor of another one, the scalar phi gets two different
values for it, and LLVM refuses the function. -/
theorem phi_twice_wrong : Valid twice id ∧ OneValue twice ∧ Free twice 2 ∧
    ∃ s Q, firstElement twice (fun _ => false) 9 1 2 = some (s, Q) ∧ ¬ OneValue Q := by
  refine ⟨valid_of_ok rfl (by decide +kernel), ?_, free_of_ok (by decide +kernel), 2, _, rfl, ?_⟩
  · intro v ins x y b hn hx hy
    by_cases h : v < 2
    · interval_cases v <;> simp [twice, progOf] at hn
      subst hn
      simp at hx hy
      omega
    · rw [twice, node_past (by simpa using h)] at hn
      simp at hn
  · intro h
    have := h 2 [(3, 0), (4, 0)] 3 4 0 (by decide +kernel) (by simp) (by simp)
    omega

/-- A vector of four 32-bit numbers seen as two 64-bit numbers. -/
def pairs : Prog := progOf [(.leaf, 0, ⟨32, 4⟩), (.cast 2 0, 0, ⟨64, 2⟩)] (fun _ => [])

/-- **C78, found false of the code.** The first element of a bitcast between vectors of different lengths is taken to be
the bitcast of the first element. -/
theorem regroup_wrong : Valid pairs id ∧ Free pairs 2 ∧
    ∃ s Q, firstElement pairs (fun _ => false) 9 1 2 = some (s, Q) ∧ ∃ env, Run machine Q 0 env ∧ env s 0 ≠ env 1 0 := by
  refine ⟨valid_of_ok rfl (by decide +kernel), free_of_ok (by decide +kernel), 3, _, rfl,
    fun v l => if v = 0 then 1 else if v = 1 then 2 ^ 32 + 1 else 1, ?_, by decide⟩
  refine .start (P := Prog.with pairs _) _ ?_
  intro v _ _
  by_cases h : v < 4
  · interval_cases v
    · simp [Holds, Prog.with, pairs, progOf]
    · simp [Holds, Prog.with, pairs, progOf, machine, Sem.castv]
    · simp [Holds, Prog.with, pairs, progOf]
    · simp [Holds, Prog.with, pairs, progOf, machine, Sem.castv]
  · have h2 : 2 ≠ v := by omega
    have h3 : 3 ≠ v := by omega
    have hn : (progOf [(.leaf, 0, ⟨32, 4⟩), (.cast 2 0, 0, ⟨64, 2⟩)] (fun _ => [])).node v = .leaf :=
      node_past (by simp only [List.length_cons, List.length_nil]; omega)
    simp [Holds, Prog.with, h2, h3, pairs, hn]

end Ispc.Elt
