import Verif.Front.Promote
import Mathlib.Data.List.Perm.Basic
import Mathlib.Data.List.MinMax

/-!
# Overload resolution

`lDoTypeConv` in the form overload resolution uses it (no expression, no error
messages), the cost of a call, and the choice among candidates.

Left out: the deduction of template arguments (the instances of templates are
a second list of candidates, as in the code), calls with dependent arguments,
the texts of messages, and wraparound of the 32-bit cost, which
`costs_fit` shows not to occur for up to 103 arguments.
-/

namespace Ispc.Overload

open Ispc.Types

/-! ## The code -/

/-- `IsBoolType` of an atomic type, src/type.cpp:400. -/
def isBoolAtomic : Ty → Bool
  | .atomic .bool _ _ => true
  | .atomic .int1 _ _ => true
  | _ => false

/-- The conversion of a pointer, src/expr.cpp:320-392.  The warning about a
lost `const` is left out. -/
def convPtr (dst : Ty) (b : Ty) (slice : Bool) : Bool :=
  if isBoolAtomic dst then true
  else match dst with
    | .array e _ => equal b e
    | .ptr b' _ _ slice' _ _ =>
      if slice && !slice' then false
      else if isVoidPointer dst then !(b.isConst && !b'.isConst)
      else if !equal b b' && !equal b.asConst b' then equalIC b b'
      else true
    | _ => false

/-- The last part, where neither type is a reference, src/expr.cpp:480-601.
The assertion at line 486 holds, as equal arrays have been dealt with. -/
def convValue (src dst : Ty) : Bool :=
  match dst, src with
  | .array e _, .array e' _ => equal e e' || equal e e'.asConst
  | .vec _ n, .vec _ n' => decide (n' = n)
  | .struct .., .struct .. => equal dst.asUniform.asConst src.asUniform.asConst
  | .enum .., .enum .. => equalIC dst.asUniform src.asUniform
  | .atomic .., .enum .. => true
  | .vec .., .enum .. => true
  | _, .enum .. => false
  | .vec .., .atomic .. => decide (src.soaWidth = dst.soaWidth)
  | .atomic .., .atomic .. => decide (src.soaWidth = dst.soaWidth)
  | _, _ => false

/-- `lDoTypeConv` with `expr = nullptr` and `failureOk`, src/expr.cpp:168-601.
`rec` is the recursive call. -/
def convStep (rec : Ty → Ty → Bool) (src dst : Ty) : Bool :=
  if equal dst src then true
  else if src.isVoid then false
  else if dst.isVoid then false
  else match src, dst with
    | .func fl r ps, .ptr b v c s f a => rec (uniformPtr (.func fl r ps)) (.ptr b v c s f a)
    | .func .., _ => false
    | _, .func .. => false
    | src, dst =>
      if (dst.soaWidth > 0 || src.soaWidth > 0) && equal dst.asUniform src.asUniform &&
          dst.soaWidth != src.soaWidth then false
      else match src, dst with
        | .array e _, .ptr b v c s f a =>
          if isVoidPointer (.ptr b v c s f a) then true
          else equal (.ptr b v c s f a)
            (.ptr (if b.isConst then e.asConst else e) v c false false 0)
        | src, dst =>
          if dst.isUniform && src.isVarying then false
          else match src, dst with
            | .ptr b _ _ s _ a, .ptr b' v' c' s' f' a' =>
              if equal b b' && a != a' then false
              else convPtr (.ptr b' v' c' s' f' a') b s
            | .ptr b _ _ s _ _, dst => convPtr dst b s
            | .ref t v c a, .ref t' v' c' a' =>
              if equal t t' && a != a' then false
              else if equalIC (.ref t' v' c' a') (.ref t v c a) && c' && !c then true
              else if equal t' t.asConst then true
              else match t, t' with
                | .array e _, .array e' _ => equal e e'
                | _, _ => false
            | src, dst =>
              if (match dst, src with
                  | .struct .., .struct .. => dst.soaWidth != src.soaWidth
                  | _, _ => false) then false
              else if equalIC dst src && dst.isConst && !src.isConst then true
              else match src, dst with
                | .ref t _ _ _, dst => rec t dst
                | src, .ref t v c a => rec (mkRef src 0) (.ref t v c a)
                | src, dst =>
                  if equal dst src.asNonConst then true
                  else convValue src dst

/-- `lDoTypeConv` with a bound on the depth of recursion. -/
def conv : Nat → Ty → Ty → Bool
  | 0, _, _ => false
  | k + 1, a, b => convStep (conv k) a b

/-- `CanConvertTypes`, src/expr.cpp:603-605.  Four levels are enough
(`conv_enough`). -/
def canConvert (src dst : Ty) : Bool := conv 4 src dst

/-- The table of `lIsMatchWithTypeWidening`, src/expr.cpp:9361-9390. -/
def widens : Basic → Basic → Bool
  | .int1, _ => true
  | .bool, _ => true
  | .int8, b => b != .bool && b != .int1
  | .uint8, b => b != .bool && b != .int1
  | .int16, b => b != .bool && b != .int1 && b != .int8 && b != .uint8
  | .uint16, b => b != .bool && b != .int1 && b != .int8 && b != .uint8
  | .int32, b => b == .int32 || b == .uint32 || b == .int64 || b == .uint64
  | .uint32, b => b == .int32 || b == .uint32 || b == .int64 || b == .uint64
  | .float16, b => b == .float || b == .double
  | .float, b => b == .double
  | .int64, b => b == .int64 || b == .uint64
  | .uint64, b => b == .int64 || b == .uint64
  | .double, _ => false
  | .void, _ => false

/-- `lIsMatchWithTypeWidening`, src/expr.cpp:9350-9391. -/
def isWidening (call farg : Ty) : Bool :=
  match call, farg with
  | .atomic b v _, .atomic b' v' _ =>
    decide ((v = .uniform) ↔ (v' = .uniform)) && widens b b'
  | _, _ => false

/-- `lArgIsPointerType`, src/expr.cpp:9791-9803. -/
def isPointerArg : Ty → Bool
  | .ptr .. => true
  | .ref (.ptr ..) _ _ _ => true
  | _ => false

/-- Is it a reference? -/
def isRef : Ty → Bool
  | .ref .. => true
  | _ => false

/-- An argument: its type, and the entries of `argCouldBeNULL` and
`argIsConstant`. -/
structure Arg where
  ty : Ty
  null : Bool := false
  const : Bool := false
  deriving DecidableEq, Repr

/-- The cost of one argument in units of `costScale`, for types that are not
equal, src/expr.cpp:9847-9924; `none` is the value -1. -/
def units (call farg : Ty) : Option Nat :=
  if isRef farg then
    if call.isConst && !farg.isConst then none
    else if !equal call.refTarget.asNonConst farg.refTarget.asNonConst then none
    else some ((if !call.isConst && farg.isConst then 2 else 0) + 2)
  else
    let base := if isRef call then 2 else 0
    let callNC := call.refTarget.asNonConst
    let fargNC := farg.asNonConst
    if equalIC call.refTarget farg then some (base + 1)
    else if isWidening callNC fargNC then some (base + 8)
    else if farg.isVarying && call.isUniform then
      if equal callNC.asVarying fargNC then some (base + 16)
      else if isWidening callNC.asVarying fargNC then some (base + 128)
      else if canConvert callNC fargNC then some (base + 128 + 64)
      else none
    else if canConvert callNC fargNC then some (base + 64)
    else none

/-- The cost of one argument out of `n`, src/expr.cpp:9819-9925. -/
def argCost (n : Nat) (a : Arg) (farg : Ty) : Option Nat :=
  if equal a.ty farg then some 0
  else if a.null && isPointerArg farg then some 0
  else (units a.ty farg).map (· * ((n + 1) * if a.const then 1 else 512))

/-- A candidate: a number that identifies it, and its parameters with the
information whether there is a default value. -/
structure Cand where
  id : Nat
  params : List (Ty × Bool)
  deriving DecidableEq, Repr

/-- The test of `getCandidateFunctions`, src/expr.cpp:9403-9415. -/
def viable (argCount : Nat) (c : Cand) : Bool :=
  if argCount > c.params.length then false
  else match c.params[argCount]? with
    | some p => p.2
    | none => true

/-- The loop of `computeOverloadCost` over the arguments: the array `cost`. -/
def costs (n : Nat) : List (Ty × Bool) → List Arg → Option (List Nat)
  | _, [] => some []
  | [], _ :: _ => none
  | p :: ps, a :: as =>
    match argCost n a p.1 with
    | none => none
    | some k =>
      match costs n ps as with
      | none => none
      | some ks => some (k :: ks)

/-- `computeOverloadCost`, src/expr.cpp:9810-9932. -/
def cost (args : List Arg) (c : Cand) : Option Nat :=
  (costs args.length c.params args).map List.sum

/-- `1 << 30`. -/
def inf : Nat := 2 ^ 30

/-- The search for the smallest cost, src/expr.cpp:9966-9971. -/
def bestCost (args : List Arg) (cs : List Cand) : Nat :=
  cs.foldl (fun best c =>
    match cost args c with
    | some k => if k < best then k else best
    | none => best) inf

/-- `FindBestMatchCost`: the matches, src/expr.cpp:9973-10009. -/
def matchesOf (args : List Arg) (cs : List Cand) : List Cand :=
  if bestCost args cs = inf then []
  else cs.filter fun c => cost args c == some (bestCost args cs)

/-- Is the warning about an ambiguous call given?  src/expr.cpp:9983-9999. -/
def warns (args : List Arg) (cs : List Cand) : Bool :=
  (matchesOf args cs).any fun c => cs.any fun d =>
    match costs args.length c.params args, costs args.length d.params args with
    | some ks, some ls => (ks.zip ls).any fun p => p.2 < p.1
    | _, _ => false

/-- What becomes of a call. -/
inductive Outcome
  | chosen (c : Cand)
  | ambiguous
  | noMatch
  deriving DecidableEq, Repr

/-- The decision of `ResolveOverloads`, src/expr.cpp:10066-10121, for
functions `fs` and instances of templates `ts`; `explicit` says that the call
has template arguments. -/
def decideCall (explicit : Bool) (args : List Arg) (fs ts : List Cand) : Outcome :=
  let bf := bestCost args fs
  let bt := bestCost args ts
  if bf = inf ∧ bt = inf then .noMatch
  else match matchesOf args fs, matchesOf args ts with
    | [f], [t] =>
      if bf = bt then .chosen (if explicit then t else f)
      else .chosen (if bt < bf then t else f)
    | [f], [] => .chosen f
    | [], [t] => .chosen t
    | [], [] => .noMatch
    | _, _ => .ambiguous

/-- `ResolveOverloads`, src/expr.cpp:10055-10121. -/
def resolve (explicit : Bool) (args : List Arg) (fs ts : List Cand) : Outcome :=
  decideCall explicit args (fs.filter (viable args.length)) ts

/-! ## The search for the smallest cost -/

theorem foldl_min (args : List Arg) : ∀ (cs : List Cand) (b : Nat),
    (cs.foldl (fun best c =>
      match cost args c with
      | some k => if k < best then k else best
      | none => best) b ≤ b) ∧
    (∀ c ∈ cs, ∀ k, cost args c = some k → cs.foldl (fun best c =>
      match cost args c with
      | some k => if k < best then k else best
      | none => best) b ≤ k) ∧
    (cs.foldl (fun best c =>
      match cost args c with
      | some k => if k < best then k else best
      | none => best) b = b ∨ ∃ c ∈ cs, cost args c = some (cs.foldl (fun best c =>
      match cost args c with
      | some k => if k < best then k else best
      | none => best) b))
  | [], b => by simp
  | c :: cs, b => by
    simp only [List.foldl_cons]
    cases hc : cost args c with
    | none =>
      obtain ⟨h1, h2, h3⟩ := foldl_min args cs b
      refine ⟨h1, ?_, ?_⟩
      · intro d hd k hk
        rcases List.mem_cons.1 hd with rfl | hd
        · rw [hc] at hk; cases hk
        · exact h2 d hd k hk
      · rcases h3 with h3 | ⟨d, hd, h3⟩
        · exact Or.inl h3
        · exact Or.inr ⟨d, List.mem_cons_of_mem _ hd, h3⟩
    | some k =>
      simp only
      split
      · rename_i hlt
        obtain ⟨h1, h2, h3⟩ := foldl_min args cs k
        refine ⟨h1.trans hlt.le, ?_, ?_⟩
        · intro d hd k' hk
          rcases List.mem_cons.1 hd with rfl | hd
          · rw [hc] at hk; cases hk; exact h1
          · exact h2 d hd k' hk
        · rcases h3 with h3 | ⟨d, hd, h3⟩
          · exact Or.inr ⟨c, by simp, by rw [h3]; exact hc⟩
          · exact Or.inr ⟨d, List.mem_cons_of_mem _ hd, h3⟩
      · rename_i hlt
        obtain ⟨h1, h2, h3⟩ := foldl_min args cs b
        refine ⟨h1, ?_, ?_⟩
        · intro d hd k' hk
          rcases List.mem_cons.1 hd with rfl | hd
          · rw [hc] at hk; cases hk; omega
          · exact h2 d hd k' hk
        · rcases h3 with h3 | ⟨d, hd, h3⟩
          · exact Or.inl h3
          · exact Or.inr ⟨d, List.mem_cons_of_mem _ hd, h3⟩

theorem best_le_inf (args : List Arg) (cs : List Cand) : bestCost args cs ≤ inf :=
  (foldl_min args cs inf).1

theorem best_le {args : List Arg} {cs : List Cand} {c : Cand} {k : Nat} (hc : c ∈ cs)
    (hk : cost args c = some k) : bestCost args cs ≤ k :=
  (foldl_min args cs inf).2.1 c hc k hk

theorem best_attained {args : List Arg} {cs : List Cand} (h : bestCost args cs ≠ inf) :
    ∃ c ∈ cs, cost args c = some (bestCost args cs) :=
  ((foldl_min args cs inf).2.2).resolve_left h

theorem mem_matches {args : List Arg} {cs : List Cand} {c : Cand} :
    c ∈ matchesOf args cs ↔
      bestCost args cs < inf ∧ c ∈ cs ∧ cost args c = some (bestCost args cs) := by
  have := best_le_inf args cs
  unfold matchesOf
  split
  · rename_i h
    simp [h]
  · rename_i h
    simp only [List.mem_filter, beq_iff_eq]
    have : bestCost args cs < inf := by omega
    simp [this]

theorem matches_nil {args : List Arg} {cs : List Cand} :
    matchesOf args cs = [] ↔ bestCost args cs = inf := by
  constructor
  · intro h
    by_contra hne
    obtain ⟨c, hc, hk⟩ := best_attained hne
    have : c ∈ matchesOf args cs :=
      mem_matches.2 ⟨lt_of_le_of_ne (best_le_inf args cs) hne, hc, hk⟩
    rw [h] at this
    cases this
  · intro h
    simp [matchesOf, h]

theorem best_perm {args : List Arg} {cs ds : List Cand} (h : cs.Perm ds) :
    bestCost args cs = bestCost args ds := by
  have key : ∀ {cs ds : List Cand}, cs.Perm ds → bestCost args cs ≤ bestCost args ds := by
    intro cs ds h
    by_cases hd : bestCost args ds = inf
    · rw [hd]; exact best_le_inf args cs
    · obtain ⟨c, hc, hk⟩ := best_attained hd
      exact best_le (h.mem_iff.2 hc) hk
  exact Nat.le_antisymm (key h) (key h.symm)

theorem matches_perm {args : List Arg} {cs ds : List Cand} (h : cs.Perm ds) :
    (matchesOf args cs).Perm (matchesOf args ds) := by
  unfold matchesOf
  rw [best_perm h]
  split
  · exact List.Perm.refl _
  · exact h.filter _

/-! ## C31 -/

theorem decide_perm (explicit : Bool) (args : List Arg) {fs fs' ts ts' : List Cand}
    (hf : fs.Perm fs') (ht : ts.Perm ts') :
    decideCall explicit args fs ts = decideCall explicit args fs' ts' := by
  unfold decideCall
  rw [best_perm hf, best_perm ht]
  have h1 := matches_perm (args := args) hf
  have h2 := matches_perm (args := args) ht
  have cases3 : ∀ {l l' : List Cand}, l.Perm l' → (l = [] ∧ l' = []) ∨ (∃ c, l = [c] ∧ l' = [c]) ∨
      (∃ a b r a' b' r', l = a :: b :: r ∧ l' = a' :: b' :: r') := by
    intro l l' h
    match l, l', h with
    | [], l', h => exact Or.inl ⟨rfl, h.symm.eq_nil⟩
    | [c], l', h => exact Or.inr (Or.inl ⟨c, rfl, List.perm_singleton.1 h.symm⟩)
    | a :: b :: r, [], h => exact absurd h.eq_nil (by simp)
    | a :: b :: r, [c], h => exact absurd h.length_eq (by simp)
    | a :: b :: r, a' :: b' :: r', _ => exact Or.inr (Or.inr ⟨a, b, r, a', b', r', rfl, rfl⟩)
  rcases cases3 h1 with ⟨e, e'⟩ | ⟨c, e, e'⟩ | ⟨a, b, r, a', b', r', e, e'⟩ <;>
    rcases cases3 h2 with ⟨g, g'⟩ | ⟨d, g, g'⟩ | ⟨a2, b2, r2, a2', b2', r2', g, g'⟩ <;>
    simp only [e, e', g, g']

/-- **C31, order.**  The outcome does not depend on the order in which the
overloads were declared. -/
theorem order_irrelevant (explicit : Bool) (args : List Arg) (fs fs' ts ts' : List Cand)
    (hf : fs.Perm fs') (ht : ts.Perm ts') :
    resolve explicit args fs ts = resolve explicit args fs' ts' :=
  decide_perm explicit args (hf.filter _) ht

/-- The candidates of a call. -/
def Candidate (args : List Arg) (fs ts : List Cand) (c : Cand) : Prop :=
  (c ∈ fs ∧ viable args.length c = true) ∨ c ∈ ts

theorem chosen_spec {explicit : Bool} {args : List Arg} {fs ts : List Cand} {c : Cand}
    (h : decideCall explicit args fs ts = .chosen c) :
    ∃ k, k < inf ∧ cost args c = some k ∧ k ≤ bestCost args fs ∧ k ≤ bestCost args ts ∧
      ((c ∈ fs ∧ matchesOf args fs = [c]) ∨ (c ∈ ts ∧ matchesOf args ts = [c])) := by
  unfold decideCall at h
  simp only at h
  split at h
  · cases h
  · split at h
    · rename_i f t hf ht
      obtain ⟨f1, f2, f3⟩ := mem_matches.1 (show f ∈ matchesOf args fs by simp [hf])
      obtain ⟨t1, t2, t3⟩ := mem_matches.1 (show t ∈ matchesOf args ts by simp [ht])
      split at h
      · rename_i he
        cases explicit <;> simp at h <;> subst h
        · exact ⟨_, f1, f3, le_refl _, he.le, Or.inl ⟨f2, hf⟩⟩
        · exact ⟨_, t1, t3, he.ge, le_refl _, Or.inr ⟨t2, ht⟩⟩
      · split at h <;> cases h
        · rename_i hlt
          exact ⟨_, t1, t3, hlt.le, le_refl _, Or.inr ⟨t2, ht⟩⟩
        · rename_i hlt
          exact ⟨_, f1, f3, le_refl _, by omega, Or.inl ⟨f2, hf⟩⟩
    · rename_i f hf ht
      cases h
      obtain ⟨f1, f2, f3⟩ := mem_matches.1 (show c ∈ matchesOf args fs by simp [hf])
      have := matches_nil.1 ht
      exact ⟨_, f1, f3, le_refl _, by rw [this]; exact f1.le, Or.inl ⟨f2, hf⟩⟩
    · rename_i t hf ht
      cases h
      obtain ⟨t1, t2, t3⟩ := mem_matches.1 (show c ∈ matchesOf args ts by simp [ht])
      have := matches_nil.1 hf
      exact ⟨_, t1, t3, by rw [this]; exact t1.le, le_refl _, Or.inr ⟨t2, ht⟩⟩
    · cases h
    · cases h

/-- **C31, minimal cost.**  The chosen function is a candidate that can be
called, and no other candidate that can be called is cheaper. -/
theorem chosen_is_cheapest (explicit : Bool) (args : List Arg) (fs ts : List Cand) (c : Cand)
    (h : resolve explicit args fs ts = .chosen c) :
    Candidate args fs ts c ∧ ∃ k, cost args c = some k ∧
      ∀ d, Candidate args fs ts d → ∀ k', cost args d = some k' → k ≤ k' := by
  obtain ⟨k, -, h2, h3, h4, h5⟩ := chosen_spec h
  refine ⟨?_, k, h2, ?_⟩
  · rcases h5 with ⟨h5, -⟩ | ⟨h5, -⟩
    · exact Or.inl (by simpa using h5)
    · exact Or.inr h5
  · intro d hd k' hk'
    rcases hd with hd | hd
    · exact h3.trans (best_le (by simpa using hd) hk')
    · exact h4.trans (best_le hd hk')

/-- **C31, ties.**  No other candidate of the same sort (function or instance
of a template) has the cost of the chosen one. -/
theorem chosen_is_unique (explicit : Bool) (args : List Arg) (fs ts : List Cand) (c : Cand)
    (h : resolve explicit args fs ts = .chosen c) :
    (c ∈ fs ∧ ∀ d ∈ fs, viable args.length d = true → cost args d = cost args c → d = c) ∨
    (c ∈ ts ∧ ∀ d ∈ ts, cost args d = cost args c → d = c) := by
  obtain ⟨k, h1, h2, h3, h4, h5⟩ := chosen_spec h
  have key : ∀ cs : List Cand, matchesOf args cs = [c] → ∀ d ∈ cs, cost args d = cost args c →
      d = c := by
    intro cs hm d hd he
    obtain ⟨m1, -, m3⟩ := mem_matches.1 (show c ∈ matchesOf args cs by simp [hm])
    have : d ∈ matchesOf args cs := mem_matches.2 ⟨m1, hd, he.trans m3⟩
    simpa [hm] using this
  rcases h5 with ⟨h5, h6⟩ | ⟨h5, h6⟩
  · refine Or.inl ⟨(List.mem_filter.1 h5).1, fun d hd hv he => ?_⟩
    exact key _ h6 d (List.mem_filter.2 ⟨hd, hv⟩) he
  · exact Or.inr ⟨h5, key _ h6⟩

/-- **C31, ambiguous.**  The call is reported as ambiguous exactly when two
cheapest functions, or two cheapest instances of templates, have the same
cost. -/
theorem ambiguous_iff (explicit : Bool) (args : List Arg) (fs ts : List Cand) :
    resolve explicit args fs ts = .ambiguous ↔
      2 ≤ (matchesOf args (fs.filter (viable args.length))).length ∨
      2 ≤ (matchesOf args ts).length := by
  unfold resolve decideCall
  simp only
  split
  · rename_i h
    simp [matches_nil.2 h.1, matches_nil.2 h.2]
  · split <;> rename_i e1 e2 <;> (try split) <;> simp_all
    rename_i x1 x2 x3
    cases hx : matchesOf args (fs.filter (viable args.length)) with
    | nil =>
      cases hy : matchesOf args ts with
      | nil => simp_all
      | cons a l => cases l <;> simp_all
    | cons a l =>
      cases l with
      | nil =>
        cases hy : matchesOf args ts with
        | nil => simp_all
        | cons b l' => cases l' <;> simp_all
      | cons b l => simp


/-! ### Nothing matches -/

theorem units_bound {a b : Ty} {k : Nat} (h : units a b = some k) : k ≤ 194 := by
  unfold units at h
  simp only at h
  split at h
  · split at h
    · cases h
    · split at h
      · cases h
      · split at h <;> (cases h; omega)
  · have hb : (if isRef a = true then 2 else 0) ≤ 2 := by split <;> omega
    generalize (if isRef a = true then 2 else 0) = base at h hb
    repeat' split at h
    all_goals first | (cases h; omega) | cases h

theorem argCost_bound {n : Nat} {a : Arg} {t : Ty} {k : Nat} (h : argCost n a t = some k) :
    k ≤ 99328 * (n + 1) := by
  unfold argCost at h
  split at h
  · cases h; omega
  · split at h
    · cases h; omega
    · cases hu : units a.ty t with
      | none => rw [hu] at h; cases h
      | some u =>
        rw [hu] at h
        simp only [Option.map_some, Option.some.injEq] at h
        have := units_bound hu
        subst h
        calc u * ((n + 1) * if a.const = true then 1 else 512)
            ≤ 194 * ((n + 1) * 512) := by
              apply Nat.mul_le_mul this
              apply Nat.mul_le_mul_left
              split <;> omega
          _ = 99328 * (n + 1) := by omega

theorem costs_bound {n : Nat} : ∀ {ps : List (Ty × Bool)} {as : List Arg} {ks : List Nat},
    costs n ps as = some ks → ks.sum ≤ as.length * (99328 * (n + 1))
  | ps, [], ks, h => by
    cases ps <;> (simp [costs] at h; subst h; simp)
  | [], _ :: _, ks, h => by simp [costs] at h
  | p :: ps, a :: as, ks, h => by
    unfold costs at h
    cases ha : argCost n a p.1 with
    | none => simp [ha] at h
    | some k =>
      cases hs : costs n ps as with
      | none => simp [ha, hs] at h
      | some ks' =>
        simp only [ha, hs, Option.some.injEq] at h
        subst h
        have h1 := argCost_bound ha
        have h2 := costs_bound hs
        rw [List.sum_cons, List.length_cons, Nat.add_mul, Nat.one_mul, Nat.add_comm]
        exact Nat.add_le_add h2 h1

/-- With at most 103 arguments a cost stays below the value that stands for
"no match", and so does not overflow an `int`. -/
theorem costs_fit {args : List Arg} {c : Cand} {k : Nat} (hn : args.length ≤ 103)
    (h : cost args c = some k) : k < inf := by
  unfold cost at h
  cases hs : costs args.length c.params args with
  | none => rw [hs] at h; cases h
  | some ks =>
    rw [hs] at h
    simp only [Option.map_some, Option.some.injEq] at h
    have h1 := costs_bound hs
    have h2 : args.length * (99328 * (args.length + 1)) ≤ 103 * (99328 * 104) :=
      Nat.mul_le_mul hn (Nat.mul_le_mul_left _ (by omega))
    have h3 : 103 * (99328 * 104) < inf := by decide
    omega

theorem best_inf_iff {args : List Arg} {cs : List Cand} (hn : args.length ≤ 103) :
    bestCost args cs = inf ↔ ∀ c ∈ cs, cost args c = none := by
  constructor
  · intro h c hc
    cases hk : cost args c with
    | none => rfl
    | some k =>
      have := best_le hc hk
      have := costs_fit hn hk
      omega
  · intro h
    by_contra hne
    obtain ⟨c, hc, hk⟩ := best_attained hne
    rw [h c hc] at hk
    cases hk

theorem noMatch_best (explicit : Bool) (args : List Arg) (fs ts : List Cand) :
    decideCall explicit args fs ts = .noMatch ↔
      bestCost args fs = inf ∧ bestCost args ts = inf := by
  unfold decideCall
  simp only
  split
  · simp_all
  · rename_i h
    split <;> rename_i e1 e2 <;> (try split) <;> simp_all
    exact absurd (matches_nil.1 e2) (h (matches_nil.1 e1))

/-- **C31, no match.**  A call with at most 103 arguments is rejected with "no
matching overload" exactly when none of the candidates can be called with the
arguments. -/
theorem noMatch_iff (explicit : Bool) (args : List Arg) (fs ts : List Cand)
    (hn : args.length ≤ 103) :
    resolve explicit args fs ts = .noMatch ↔
      ∀ c, Candidate args fs ts c → cost args c = none := by
  unfold resolve
  rw [noMatch_best, best_inf_iff hn, best_inf_iff hn]
  constructor
  · rintro ⟨h1, h2⟩ c (⟨hc, hv⟩ | hc)
    · exact h1 c (List.mem_filter.2 ⟨hc, hv⟩)
    · exact h2 c hc
  · intro h
    exact ⟨fun c hc => h c (Or.inl (by simpa using hc)), fun c hc => h c (Or.inr hc)⟩

/-! ### Exact matches -/

/-- The argument can be passed as it is: the types are the same, or the null
pointer is passed to a pointer. -/
def ExactArg (a : Arg) (t : Ty) : Prop :=
  equal a.ty t = true ∨ (a.null = true ∧ isPointerArg t = true)

theorem units_pos {a b : Ty} {k : Nat} (h : units a b = some k) : 0 < k := by
  unfold units at h
  simp only at h
  split at h
  · split at h
    · cases h
    · split at h
      · cases h
      · split at h <;> (cases h; omega)
  · repeat' split at h
    all_goals first | (cases h; omega) | cases h

theorem argCost_zero {n : Nat} {a : Arg} {t : Ty} : argCost n a t = some 0 ↔ ExactArg a t := by
  unfold argCost ExactArg
  split
  · rename_i h; simp [h]
  · rename_i h
    split
    · rename_i h'; simp_all
    · rename_i h'
      cases hu : units a.ty t with
      | none => simp_all
      | some u =>
        have := units_pos hu
        simp only [Option.map_some, Option.some.injEq, Nat.mul_eq_zero]
        constructor
        · rintro (h0 | h0 | h0)
          · omega
          · omega
          · split at h0 <;> omega
        · rintro (h0 | h0) <;> simp_all

/-- A candidate all of whose parameters match exactly. -/
def Exact (args : List Arg) (c : Cand) : Prop :=
  args.length ≤ c.params.length ∧
    ∀ (i : Nat) (a : Arg) (p : Ty × Bool), args[i]? = some a → c.params[i]? = some p → ExactArg a p.1

theorem costs_zero {n : Nat} : ∀ {ps : List (Ty × Bool)} {as : List Arg},
    (costs n ps as).map List.sum = some 0 ↔ as.length ≤ ps.length ∧
      ∀ (i : Nat) (a : Arg) (p : Ty × Bool), as[i]? = some a → ps[i]? = some p → ExactArg a p.1
  | ps, [] => by cases ps <;> simp [costs]
  | [], _ :: _ => by simp [costs]
  | p :: ps, a :: as => by
    have ih := costs_zero (n := n) (ps := ps) (as := as)
    constructor
    · intro h
      unfold costs at h
      cases ha : argCost n a p.1 with
      | none => simp [ha] at h
      | some k =>
        cases hs : costs n ps as with
        | none => simp [ha, hs] at h
        | some ks =>
          simp only [ha, hs, Option.map_some, List.sum_cons, Option.some.injEq] at h
          have hk : k = 0 := by omega
          have hks : ks.sum = 0 := by omega
          subst hk
          have := ih.1 (by rw [hs]; simp only [Option.map_some, hks])
          refine ⟨by simpa using this.1, ?_⟩
          intro i a' p' ha' hp'
          cases i with
          | zero =>
            simp only [List.getElem?_cons_zero, Option.some.injEq] at ha' hp'
            subst ha' hp'
            exact argCost_zero.1 ha
          | succ i => exact this.2 i a' p' (by simpa using ha') (by simpa using hp')
    · rintro ⟨h1, h2⟩
      have ha : argCost n a p.1 = some 0 := argCost_zero.2 (h2 0 a p (by simp) (by simp))
      have hs := ih.2 ⟨by simpa using h1, fun i a' p' h h' =>
        h2 (i + 1) a' p' (by simpa using h) (by simpa using h')⟩
      unfold costs
      cases hc : costs n ps as with
      | none => rw [hc] at hs; cases hs
      | some ks =>
        rw [hc] at hs
        simp only [Option.map_some, Option.some.injEq] at hs
        simp [ha, hs]

theorem cost_zero {args : List Arg} {c : Cand} : cost args c = some 0 ↔ Exact args c :=
  costs_zero

theorem matches_of_exact {args : List Arg} {cs : List Cand} {f : Cand} (hf : f ∈ cs)
    (hnd : cs.Nodup) (hx : Exact args f) (hu : ∀ d ∈ cs, Exact args d → d = f) :
    bestCost args cs = 0 ∧ matchesOf args cs = [f] := by
  have h0 : bestCost args cs = 0 := Nat.le_zero.1 (best_le hf (cost_zero.2 hx))
  refine ⟨h0, ?_⟩
  have hm : ∀ d, d ∈ matchesOf args cs ↔ d = f := by
    intro d
    rw [mem_matches, h0]
    constructor
    · rintro ⟨-, hd, hc⟩
      exact hu d hd (cost_zero.1 hc)
    · rintro rfl
      exact ⟨by decide, hf, cost_zero.2 hx⟩
  have hnd' : (matchesOf args cs).Nodup := by
    unfold matchesOf
    split
    · exact List.nodup_nil
    · exact hnd.filter _
  exact List.perm_singleton.1 ((List.perm_ext_iff_of_nodup hnd' (by simp)).2
    (by simpa using hm))

/-- **C31, exact match.**  A function that matches exactly, and is the only
function to do so, is called, if the call names no template arguments and the
cheapest instances of templates do not tie. -/
theorem exact_match_wins_partial (args : List Arg) (fs ts : List Cand) (f : Cand)
    (hf : f ∈ fs) (hv : viable args.length f = true) (hnd : fs.Nodup) (hx : Exact args f)
    (hu : ∀ d ∈ fs, viable args.length d = true → Exact args d → d = f)
    (ht : (matchesOf args ts).length ≤ 1) :
    resolve false args fs ts = .chosen f := by
  obtain ⟨h0, h1⟩ := matches_of_exact (args := args) (cs := fs.filter (viable args.length))
    (f := f) (List.mem_filter.2 ⟨hf, hv⟩) (hnd.filter _) hx
    (fun d hd hx => hu d (List.mem_filter.1 hd).1 (List.mem_filter.1 hd).2 hx)
  unfold resolve decideCall
  simp only [h0, h1]
  rw [if_neg (by rintro ⟨h, -⟩; exact absurd h (by decide))]
  match hm : matchesOf args ts with
  | [] => rfl
  | [t] =>
    simp only [Bool.false_eq_true, if_false, Nat.not_lt_zero]
    split <;> rfl
  | _ :: _ :: _ => rw [hm] at ht; simp at ht

/-! ### Candidates that cannot be called -/

/-- **C31.**  An overload that cannot be called with the arguments has no
influence on the outcome. -/
theorem uncallable_irrelevant (explicit : Bool) (args : List Arg) (fs ts : List Cand) (d : Cand)
    (hd : viable args.length d = true → cost args d = none) :
    resolve explicit args (d :: fs) ts = resolve explicit args fs ts := by
  unfold resolve
  cases hv : viable args.length d with
  | false => simp [hv]
  | true =>
    have hc := hd hv
    rw [List.filter_cons_of_pos hv]
    have hb : bestCost args (d :: fs.filter (viable args.length)) =
        bestCost args (fs.filter (viable args.length)) := by
      unfold bestCost
      rw [List.foldl_cons]
      simp only [hc]
    have hm : matchesOf args (d :: fs.filter (viable args.length)) =
        matchesOf args (fs.filter (viable args.length)) := by
      unfold matchesOf
      rw [hb]
      split
      · rfl
      · rw [List.filter_cons_of_neg (by simp [hc])]
    unfold decideCall
    rw [hb, hm]

theorem costs_append (n : Nat) : ∀ (ps qs : List (Ty × Bool)) (as : List Arg),
    as.length ≤ ps.length → costs n (ps ++ qs) as = costs n ps as
  | ps, qs, [], _ => by simp [costs]
  | [], qs, _ :: _, h => by simp at h
  | p :: ps, qs, a :: as, h => by
    simp only [List.cons_append, costs]
    rw [costs_append n ps qs as (by simpa using h)]

/-- **C31.**  Parameters filled with default values are free. -/
theorem defaults_free (args : List Arg) (i j : Nat) (ps qs : List (Ty × Bool))
    (h : args.length ≤ ps.length) : cost args ⟨i, ps ++ qs⟩ = cost args ⟨j, ps⟩ := by
  unfold cost
  rw [costs_append _ _ _ _ h]

/-! ### The warning -/

/-- **C31, no warning.**  If no warning about an ambiguous call is given for
the functions of the call, then a function that is chosen is, in every single
argument, at least as cheap as every other function that can be called. -/
theorem no_warning_dominates (args : List Arg) (cs : List Cand) (c d : Cand) (ks ls : List Nat)
    (hw : warns args cs = false) (hc : c ∈ matchesOf args cs) (hd : d ∈ cs)
    (hk : costs args.length c.params args = some ks)
    (hl : costs args.length d.params args = some ls) :
    ∀ (i x y : Nat), ks[i]? = some x → ls[i]? = some y → x ≤ y := by
  intro i x y hx hy
  unfold warns at hw
  rw [List.any_eq_false] at hw
  have h1 := hw c hc
  rw [Bool.not_eq_true, List.any_eq_false] at h1
  have h2 := h1 d hd
  simp only [hk, hl, Bool.not_eq_true] at h2
  rw [List.any_eq_false] at h2
  have h3 := h2 (x, y) (List.mem_iff_getElem?.2 ⟨i, by
    rw [List.getElem?_zip_eq_some]; exact ⟨hx, hy⟩⟩)
  simpa using h3

/-! ### Conversions -/

/-- How many references are around the type. -/
def refDepth : Ty → Nat
  | .ref t _ _ _ => refDepth t + 1
  | _ => 0

theorem convStep_congr {r r' : Ty → Ty → Bool} {a b : Ty}
    (h1 : ∀ fl t ps x v c s f y, a = .func fl t ps → b = .ptr x v c s f y →
      r (uniformPtr a) b = r' (uniformPtr a) b)
    (h2 : ∀ t v c s, a = .ref t v c s → refDepth b = 0 → r t b = r' t b)
    (h3 : ∀ t v c s, b = .ref t v c s → refDepth a = 0 → r (mkRef a 0) b = r' (mkRef a 0) b) :
    convStep r a b = convStep r' a b := by
  unfold convStep
  split
  · rfl
  split
  · rfl
  split
  · rfl
  cases a <;> cases b <;> simp only [] at * <;>
    first
      | rfl
      | (first
          | rw [h1 _ _ _ _ _ _ _ _ _ rfl rfl]
          | rw [h2 _ _ _ _ rfl (by simp [refDepth])]
          | rw [h3 _ _ _ _ rfl (by simp [refDepth])])

theorem conv_step_eq (k : Nat) : ∀ a b, refDepth a + 2 ≤ k → conv k a b = conv (k + 1) a b := by
  induction k with
  | zero => intro a b h; omega
  | succ k ih =>
    intro a b h
    unfold conv
    obtain ⟨j, rfl⟩ : ∃ j, k = j + 1 := ⟨k - 1, by omega⟩
    apply convStep_congr
    · rintro fl t ps x v c s f y rfl rfl
      unfold conv
      exact convStep_congr (by simp [uniformPtr]) (by simp [uniformPtr]) (by simp)
    · rintro t v c s rfl hb
      exact ih t b (by simp only [refDepth] at h; omega)
    · rintro t v c s rfl ha
      unfold conv
      exact convStep_congr (by simp [mkRef]) (by simp [refDepth]) (by simp [mkRef, refDepth])

/-- Four levels of recursion are enough for every type the language has: there
are no references to references. -/
theorem conv_enough (a b : Ty) (h : refDepth a ≤ 1) (k : Nat) :
    conv (4 + k) a b = canConvert a b := by
  induction k with
  | zero => rfl
  | succ k ih =>
    rw [← ih]
    exact (conv_step_eq (4 + k) a b (by omega)).symm

example : conv 40 (mkRef (.atomic .int32 .uniform false) 0) (.atomic .float .varying false) =
    canConvert (mkRef (.atomic .int32 .uniform false) 0) (.atomic .float .varying false) :=
  conv_enough _ _ (by decide) 36

/-- Uniform or varying. -/
def Bound (v : Var) : Prop := v = .uniform ∨ v = .varying

/-- **C31, conversions of numbers.**  A value of an atomic type converts to
every other atomic type, except to and from `void` and from varying to
uniform. -/
theorem atomic_converts (b b' : Basic) (v v' : Var) (c c' : Bool) (hv : Bound v)
    (hv' : Bound v') (hb : b ≠ .void) (hb' : b' ≠ .void) :
    canConvert (.atomic b v c) (.atomic b' v' c') = true ↔ ¬ (v = .varying ∧ v' = .uniform) := by
  have e1 : ∀ b v c, b ≠ .void → (Ty.atomic b v c).isVoid = false := by
    intro b v c hb
    simp [Ty.isVoid, equalIC, checkEq, checkEqBody, constOk, hb]
  unfold canConvert conv convStep
  rw [e1 _ _ _ hb, e1 _ _ _ hb']
  rcases hv with rfl | rfl <;> rcases hv' with rfl | rfl <;>
    simp [convValue, Ty.soaWidth, Ty.variability, Ty.isUniform, Ty.isVarying, equal, checkEq,
      checkEqBody]

example : canConvert (.atomic .int32 .uniform false) (.atomic .float .varying false) = true ∧
    canConvert (.atomic .int32 .varying false) (.atomic .int32 .uniform false) = false := by
  decide

/-- **C31/C29.**  Both operands of an operation on numbers convert to their
common type. -/
theorem operands_convert_to_common (force : Bool) (b0 b1 : Basic) (v0 v1 : Var) (c0 c1 : Bool)
    (h0 : b0 ≠ .void) (h1 : b1 ≠ .void) (hv0 : Bound v0) (hv1 : Bound v1) (t : Ty)
    (h : Promote.moreGeneral force 0 (.atomic b0 v0 c0) (.atomic b1 v1 c1) = .ok t) :
    canConvert (.atomic b0 v0 c0) t = true ∧ canConvert (.atomic b1 v1 c1) t = true := by
  obtain ⟨c, hc⟩ := Promote.atomic_common force b0 b1 v0 v1 c0 c1 hv0 hv1
  rw [hc] at h
  cases h
  have hp : Promote.pick b0 b1 ≠ .void := by
    unfold Promote.pick
    split <;> assumption
  have hj : Bound (if v0 = .varying ∨ v1 = .varying ∨ force = true then .varying
      else .uniform) := by
    split
    · exact Or.inr rfl
    · exact Or.inl rfl
  rw [atomic_converts _ _ _ _ _ _ hv0 hj h0 hp, atomic_converts _ _ _ _ _ _ hv1 hj h1 hp]
  constructor <;> (rintro ⟨rfl, h⟩; simp at h)

example : Promote.moreGeneral false 0 (.atomic .int32 .varying false)
      (.atomic .double .uniform true) = .ok (.atomic .double .varying true) ∧
    canConvert (.atomic .int32 .varying false) (.atomic .double .varying true) = true ∧
    canConvert (.atomic .double .uniform true) (.atomic .double .varying true) = true := by
  decide

/-! ### Varying values are not passed as uniform ones -/

/-- Types of values: no references, functions or arrays. -/
def IsValue : Ty → Prop
  | .atomic .. => True
  | .enum .. => True
  | .ptr .. => True
  | .struct .. => True
  | .vec b _ => IsValue b
  | _ => False

theorem nonConst_variability : ∀ {t : Ty}, IsValue t → t.asNonConst.variability = t.variability
  | .atomic .., _ => rfl
  | .enum .., _ => rfl
  | .ptr _ _ c _ _ _, _ => by cases c <;> rfl
  | .struct .., _ => rfl
  | .vec b _, h => by
    simp only [Ty.asNonConst, Ty.variability]
    exact nonConst_variability (t := b) h

theorem nonConst_value : ∀ {t : Ty}, IsValue t → IsValue t.asNonConst
  | .atomic .., _ => trivial
  | .enum .., _ => trivial
  | .ptr _ _ c _ _ _, _ => by cases c <;> trivial
  | .struct .., _ => trivial
  | .vec b _, h => nonConst_value (t := b) h

theorem checkEq_uniform {ic : Bool} : ∀ {a b : Ty}, IsValue a → IsValue b →
    checkEqBody ic a b = true → (a.variability = .uniform ↔ b.variability = .uniform)
  | .atomic .., b, _, _, h => by cases b <;> simp_all [checkEqBody, Ty.variability]
  | .enum .., b, _, _, h => by cases b <;> simp_all [checkEqBody, Ty.variability]
  | .ptr .., b, _, _, h => by cases b <;> simp_all [checkEqBody, Ty.variability]
  | .struct .., b, _, _, h => by cases b <;> simp_all [checkEqBody, Ty.variability]
  | .vec a _, b, ha, hb, h => by
    cases b with
    | vec b _ =>
      simp only [checkEqBody, Bool.and_eq_true] at h
      simp only [Ty.variability]
      exact checkEq_uniform (a := a) (b := b) ha hb h.2.2
    | _ => simp [checkEqBody] at h

theorem equal_body {a b : Ty} (h : equal a b = true) : checkEqBody false a b = true := by
  simp only [equal, checkEq, Bool.and_eq_true] at h
  exact h.2

theorem equalIC_body {a b : Ty} (h : equalIC a b = true) : checkEqBody true a b = true := by
  simp only [equalIC, checkEq, Bool.and_eq_true] at h
  exact h.2

/-- A varying value converts to no uniform type. -/
theorem varying_not_to_uniform (a b : Ty) (ha : IsValue a) (hb : IsValue b)
    (hv : a.variability = .varying) (hu : b.variability = .uniform) : canConvert a b = false := by
  have hne : equal b a = false := by
    rw [Bool.eq_false_iff]
    intro h
    have := (checkEq_uniform hb ha (equal_body h)).1 hu
    rw [hv] at this
    cases this
  have h1 : a.isVarying = true := by simp [Ty.isVarying, hv]
  have h2 : b.isUniform = true := by simp [Ty.isUniform, hu]
  unfold canConvert conv convStep
  rw [hne]
  cases a <;> cases b <;> simp only [IsValue] at ha hb <;>
    simp only [h1, h2, Bool.and_self, if_true, Bool.false_eq_true, if_false, ite_self]

/-- **C31, variability.**  An argument whose value is varying is never passed
to a parameter that is a uniform value. -/
theorem varying_argument_needs_varying (n : Nat) (a : Arg) (t : Ty) (ha : IsValue a.ty.refTarget)
    (ht : IsValue t) (hnull : a.null = false) (hv : a.ty.refTarget.variability = .varying)
    (hu : t.variability = .uniform) : argCost n a t = none := by
  have href : isRef t = false := by cases t <;> simp_all [IsValue, isRef]
  have huni : ∀ {b : Bool}, checkEqBody b a.ty.refTarget t = true → False := by
    intro b h
    have := (checkEq_uniform ha ht h).2 hu
    rw [hv] at this
    cases this
  have h1 : equal a.ty t = false := by
    rw [Bool.eq_false_iff]
    intro h
    cases hty : a.ty with
    | ref =>
      rw [hty] at h
      have hb := equal_body h
      cases t with
      | ref => exact ht
      | _ => simp [checkEqBody] at hb
    | _ =>
      rw [hty] at huni h
      exact huni (by simpa [Ty.refTarget] using equal_body h)
  have h2 : equalIC a.ty.refTarget t = false := by
    rw [Bool.eq_false_iff]
    exact fun h => huni (equalIC_body h)
  have hnv := nonConst_variability ha
  have hnt := nonConst_variability ht
  have h3 : isWidening a.ty.refTarget.asNonConst t.asNonConst = false := by
    rw [hv] at hnv
    rw [hu] at hnt
    generalize a.ty.refTarget.asNonConst = x at hnv
    generalize t.asNonConst = y at hnt
    cases x <;> cases y <;> simp_all [isWidening, Ty.variability]
  have h4 : t.isVarying = false := by simp [Ty.isVarying, hu]
  have h5 : canConvert a.ty.refTarget.asNonConst t.asNonConst = false :=
    varying_not_to_uniform _ _ (nonConst_value ha) (nonConst_value ht) (hnv.trans hv)
      (hnt.trans hu)
  unfold argCost units
  simp [h1, h2, h3, h4, h5, hnull, href]

example : argCost 1 ⟨mkRef (.atomic .int32 .varying false) 0, false, false⟩
    (.atomic .double .uniform false) = none := by decide

/-- A reference parameter takes an argument only if the types are the same up to
`const`, and a `const` argument only if it is a reference to `const`; nothing is
converted for it.  The one exception is a null pointer for a reference to a
pointer. -/
theorem reference_binding (n : Nat) (a : Arg) (t : Ty) (k : Nat) (ht : isRef t = true)
    (h : argCost n a t = some k) :
    equal a.ty t = true ∨ (a.null = true ∧ isPointerArg t = true) ∨
      equal a.ty.refTarget.asNonConst t.refTarget.asNonConst = true ∧
        (a.ty.isConst = true → t.isConst = true) := by
  unfold argCost at h
  split at h
  · exact Or.inl ‹_›
  · split at h
    · exact Or.inr (Or.inl (by simpa using ‹(a.null && isPointerArg t) = true›))
    · cases hu : units a.ty t with
      | none => rw [hu] at h; cases h
      | some u =>
        right; right
        unfold units at hu
        rw [if_pos ht] at hu
        split at hu
        · cases hu
        · rename_i h1
          split at hu
          · cases hu
          · rename_i h2
            refine ⟨by simpa using h2, fun hc => ?_⟩
            simpa [hc] using h1

example : isRef (mkRef (.atomic .int32 .varying true) 0) = true ∧
    argCost 1 ⟨.atomic .int32 .varying false, false, false⟩ (mkRef (.atomic .int32 .varying true) 0)
      = some (4 * (2 * 512)) ∧
    argCost 1 ⟨.atomic .int8 .varying false, false, false⟩ (mkRef (.atomic .int32 .varying true) 0)
      = none ∧
    argCost 1 ⟨.atomic .int32 .varying true, false, false⟩ (mkRef (.atomic .int32 .varying false) 0)
      = none := by decide

/-! ### "Conversions that don't risk losing any information" -/

theorem not_fits_back (a b : Basic) (ha : Promote.kind a ≠ .other) (hb : Promote.kind b ≠ .other)
    (hlt : b.ord < a.ord) : ¬ Promote.Fits a b := by
  cases a <;> cases b <;> simp [Promote.kind, Basic.ord] at ha hb hlt <;>
    first
    | (intro h; refine Promote.not_int (n := 2 ^ 7) ?_ (h _ (Promote.int_holds ?_)) <;>
        first | (norm_num; done) | fail)
    | (intro h; refine Promote.not_int (n := 2 ^ 8) ?_ (h _ (Promote.int_holds ?_)) <;>
        first | (norm_num; done) | fail)
    | (intro h; refine Promote.not_int (n := 2 ^ 15) ?_ (h _ (Promote.int_holds ?_)) <;>
        first | (norm_num; done) | fail)
    | (intro h; refine Promote.not_int (n := 2 ^ 16) ?_ (h _ (Promote.int_holds ?_)) <;>
        first | (norm_num; done) | fail)
    | (intro h; refine Promote.not_int (n := 2 ^ 31) ?_ (h _ (Promote.int_holds ?_)) <;>
        first | (norm_num; done) | fail)
    | (intro h; refine Promote.not_int (n := 2 ^ 32) ?_ (h _ (Promote.int_holds ?_)) <;>
        first | (norm_num; done) | fail)
    | (intro h; refine Promote.not_int (n := 2 ^ 63) ?_ (h _ (Promote.int_holds ?_)) <;>
        first | (norm_num; done) | fail)
    | (intro h; refine Promote.not_float (n := 2 ^ 53 + 1) ?_ ?_ (h _ (Promote.int_holds ?_)) <;>
        first | (norm_num; done) | fail)
    | (intro h; exact Promote.half_not_int (h (1 / 2) ⟨1, -1, by norm_num, by norm_num,
        by norm_num, by norm_num⟩))
    | (intro h; refine Promote.not_float (n := 2 ^ 11 + 1) ?_ ?_
        (h ((2 ^ 11 + 1 : ℤ) : ℚ) ⟨2 ^ 11 + 1, 0, ?_, ?_, ?_, ?_⟩) <;>
        first | (norm_num; done) | fail)
    | (intro h; refine Promote.not_float (n := 2 ^ 24 + 1) ?_ ?_
        (h ((2 ^ 24 + 1 : ℤ) : ℚ) ⟨2 ^ 24 + 1, 0, ?_, ?_, ?_, ?_⟩) <;>
        first | (norm_num; done) | fail)

/-- Conversions the code ranks as losing no information although they do. -/
def lossy : List (Basic × Basic) :=
  [(.int8, .uint8), (.int8, .uint16), (.int8, .uint32), (.int8, .uint64), (.uint8, .int8),
   (.int16, .uint16), (.int16, .uint32), (.int16, .uint64), (.int16, .float16),
   (.uint16, .int16), (.uint16, .float16), (.int32, .uint32), (.int32, .uint64),
   (.uint32, .int32), (.int64, .uint64), (.uint64, .int64)]

/-- **C31, widening.**  The pairs of different number types on which the
code's "conversion that won't lose information" is right: all but the sixteen
in `lossy`, which it accepts although a value is lost, and the two from 32-bit
integers to `double`, which it does not recognise. -/
theorem widening_partial (a b : Basic) (ha : Promote.kind a ≠ .other)
    (hb : Promote.kind b ≠ .other) (hne : a ≠ b) (h1 : (a, b) ∉ lossy)
    (h2 : ¬ ((a = .int32 ∨ a = .uint32) ∧ b = .double)) :
    widens a b = true ↔ Promote.Fits a b := by
  rcases Nat.lt_trichotomy a.ord b.ord with h | h | h
  · rw [Promote.fits_iff a b ha hb h]
    revert h h1 h2 ha hb hne
    cases a <;> cases b <;> decide
  · exact absurd (by cases a <;> cases b <;> simp_all [Basic.ord]) hne
  · have := not_fits_back a b ha hb h
    simp only [this, iff_false]
    revert h h1 h2 ha hb hne
    cases a <;> cases b <;> decide

theorem lossy_widens (a b : Basic) (h : (a, b) ∈ lossy) :
    widens a b = true ∧ ¬ Promote.Fits a b := by
  have hk : Promote.kind a ≠ .other ∧ Promote.kind b ≠ .other := by
    revert h; cases a <;> cases b <;> decide
  refine ⟨by revert h; cases a <;> cases b <;> decide, ?_⟩
  rcases Nat.lt_trichotomy a.ord b.ord with hlt | hlt | hlt
  · rw [Promote.fits_iff a b hk.1 hk.2 hlt]
    revert h hlt
    cases a <;> cases b <;> decide
  · exfalso
    revert h hlt
    cases a <;> cases b <;> decide
  · exact not_fits_back a b hk.1 hk.2 hlt

theorem int_to_double_not_widening :
    widens .int32 .double = false ∧ Promote.Fits .int32 .double ∧
    widens .uint32 .double = false ∧ Promote.Fits .uint32 .double :=
  ⟨rfl, (Promote.fits_iff .int32 .double (by decide) (by decide) (by decide)).2 rfl,
    rfl, (Promote.fits_iff .uint32 .double (by decide) (by decide) (by decide)).2 rfl⟩

/-! ### The documented steps for numbers -/

/-- The step of docs/ispc.rst:4757-4766 that passing a number of basic type
`b` to a parameter of basic type `b'` needs (steps 1 and 4 to 10 that apply to
values); `w` says which conversions lose nothing. -/
def docStep (w : Basic → Basic → Bool) (b b' : Basic) (v v' : Var) (c c' : Bool) : Option Nat :=
  if v = .varying ∧ v' = .uniform then none
  else if b = b' ∧ v = v' then some (if c = c' then 1 else 4)
  else if v = v' then some (if w b b' then 6 else 8)
  else if b = b' then some 7
  else some (if w b b' then 9 else 10)

/-- The cost of a documented step. -/
def stepUnits : Nat → Nat
  | 1 => 0 | 4 => 1 | 6 => 8 | 7 => 16 | 8 => 64 | 9 => 128 | 10 => 192 | _ => 0

theorem stepUnits_mono {b b' x : Basic} {v v' u : Var} {c c' d : Bool} {w : Basic → Basic → Bool}
    {i j : Nat} (hi : docStep w b b' v v' c c' = some i) (hj : docStep w b x v u c d = some j) :
    i < j ↔ stepUnits i < stepUnits j := by
  have h : ∀ {b b' : Basic} {v v' : Var} {c c' : Bool} {i : Nat},
      docStep w b b' v v' c c' = some i →
      i = 1 ∨ i = 4 ∨ i = 6 ∨ i = 7 ∨ i = 8 ∨ i = 9 ∨ i = 10 := by
    intro b b' v v' c c' i h
    unfold docStep at h
    repeat' split at h
    all_goals first | (cases h; simp; done) | cases h
  rcases h hi with rfl | rfl | rfl | rfl | rfl | rfl | rfl <;>
    rcases h hj with rfl | rfl | rfl | rfl | rfl | rfl | rfl <;> decide

/-- **C31, documented costs.**  Passing a number to a parameter that takes a
number costs what the documented step says, with the code's notion of a
conversion that loses nothing (`widening_partial`). -/
theorem number_cost (n : Nat) (b b' : Basic) (v v' : Var) (c c' null const : Bool)
    (hv : Bound v) (hv' : Bound v') (hb : b ≠ .void) (hb' : b' ≠ .void) :
    argCost n ⟨.atomic b v c, null, const⟩ (.atomic b' v' c') =
      (docStep widens b b' v v' c c').map fun i =>
        stepUnits i * ((n + 1) * if const then 1 else 512) := by
  have hc := atomic_converts b b' v v' false false hv hv' hb hb'
  unfold argCost units
  simp only [isPointerArg, Bool.and_false, Bool.false_eq_true, if_false, isRef, Ty.refTarget,
    Ty.asNonConst, isWidening, Ty.asVarying]
  rcases hv with rfl | rfl <;> rcases hv' with rfl | rfl <;> by_cases he : b = b' <;>
    by_cases hcc : c = c' <;> cases hw : widens b b' <;>
    simp_all [docStep, equal, equalIC, checkEq, checkEqBody, constOk, Ty.isConst, Ty.isVarying,
      Ty.isUniform, Ty.variability, stepUnits]

/-! ## What fails -/

/-- `int`, `float`, ... as parameter types. -/
def at_ (b : Basic) (v : Var := .varying) : Ty := .atomic b v false

/-- A candidate without default values. -/
def cand (i : Nat) (ts : List Ty) : Cand := ⟨i, ts.map (·, false)⟩

/-- An argument that is no constant. -/
def arg (t : Ty) : Arg := ⟨t, false, false⟩

/-- **Finding.**  `f(int, int)` matches `f(int, int)` exactly, but the call is
rejected as ambiguous, because the instances `f(int, float)` and
`f(float, int)` of two templates, both worse, have equal costs. -/
theorem exact_match_rejected :
    Exact [arg (at_ .int32), arg (at_ .int32)] (cand 0 [at_ .int32, at_ .int32]) ∧
    resolve false [arg (at_ .int32), arg (at_ .int32)] [cand 0 [at_ .int32, at_ .int32]]
      [cand 1 [at_ .int32, at_ .float], cand 2 [at_ .float, at_ .int32]] = .ambiguous :=
  ⟨cost_zero.1 (by decide), by decide⟩

/-- Without the templates the call is accepted. -/
example : resolve false [arg (at_ .int32), arg (at_ .int32)] [cand 0 [at_ .int32, at_ .int32],
    cand 1 [at_ .int32, at_ .float]] [] = .chosen (cand 0 [at_ .int32, at_ .int32]) :=
  exact_match_wins_partial _ _ _ _ (by decide) (by decide) (by decide)
    (cost_zero.1 (by decide))
    (by
      intro d hd _ hx
      have := cost_zero.2 hx
      simp only [List.mem_cons, List.not_mem_nil, or_false] at hd
      rcases hd with rfl | rfl
      · rfl
      · exact absurd this (by decide))
    (by decide)

/-- **Finding.**  The documentation ranks binding to a reference (2) below
dropping `const` (4); the code does the opposite: `f(int &)` and
`f(const int)` called with an `int` gives the second. -/
theorem const_beats_reference :
    resolve false [arg (at_ .int32)]
      [cand 0 [mkRef (at_ .int32) 0], cand 1 [.atomic .int32 .varying true]] [] =
      .chosen (cand 1 [.atomic .int32 .varying true]) := by
  decide

/-- The costs of the documented steps 2, 3, 4 and 5 are 2, 4, 1 and 3. -/
theorem documented_order_2_to_5 :
    units (at_ .int32) (mkRef (at_ .int32) 0) = some 2 ∧
    units (at_ .int32) (mkRef (.atomic .int32 .varying true) 0) = some 4 ∧
    units (at_ .int32) (.atomic .int32 .varying true) = some 1 ∧
    units (mkRef (at_ .int32) 0) (at_ .int32) = some 3 := by
  decide

/-- Steps 6 to 10 are in the documented order. -/
theorem documented_order_6_to_10 :
    units (at_ .int16 .uniform) (at_ .int32 .uniform) = some 8 ∧
    units (at_ .int16 .uniform) (at_ .int16) = some 16 ∧
    units (at_ .int32 .uniform) (at_ .float .uniform) = some 64 ∧
    units (at_ .int16 .uniform) (at_ .int32) = some 128 ∧
    units (at_ .int32 .uniform) (at_ .float) = some 192 := by
  decide

/-- **Finding.**  The documentation calls it ambiguous if the chosen function
has an argument that costs more than in another function; the code only warns
and compiles the call. -/
theorem documented_ambiguity_compiles :
    let args := [arg (at_ .int16 .uniform), arg (at_ .int16 .uniform)]
    let fs := [cand 0 [at_ .int16 .uniform, at_ .int16], cand 1 [at_ .int32 .uniform, at_ .int32]]
    let gs := [cand 0 [at_ .int16 .uniform, at_ .int16], cand 1 [at_ .int32, at_ .int16 .uniform]]
    resolve false args fs [] = .chosen (cand 0 [at_ .int16 .uniform, at_ .int16]) ∧
    warns args fs = false ∧
    resolve false args gs [] = .chosen (cand 0 [at_ .int16 .uniform, at_ .int16]) ∧
    warns args gs = true := by
  decide

/-- **Finding.**  The comment on `costScale` says that one conversion of a
class costs more than conversions of the class below in all arguments; with
three arguments it does not: three widenings lose to one broadcast. -/
theorem classes_overlap :
    let args := [arg (at_ .int16 .uniform), arg (at_ .int16 .uniform), arg (at_ .int16 .uniform)]
    resolve false args
      [cand 0 [at_ .int32 .uniform, at_ .int32 .uniform, at_ .int32 .uniform],
       cand 1 [at_ .int16, at_ .int16 .uniform, at_ .int16 .uniform]] [] =
      .chosen (cand 1 [at_ .int16, at_ .int16 .uniform, at_ .int16 .uniform]) := by
  decide

theorem costs_replicate (n k : Nat) (a : Arg) (t : Ty) (h : argCost n a t = some k) :
    ∀ m, costs n (List.replicate m (t, false)) (List.replicate m a) = some (List.replicate m k)
  | 0 => rfl
  | m + 1 => by
    simp only [List.replicate_succ, costs, h, costs_replicate n k a t h m]

/-- **Finding.**  The limit of 103 arguments is nearly sharp: a call with 105
`uniform int` arguments of a function with 105 `varying float` parameters is
rejected, although each argument converts. -/
theorem many_arguments_rejected :
    let args := List.replicate 105 (arg (at_ .int32 .uniform))
    let f := cand 0 (List.replicate 105 (at_ .float))
    (∃ k, cost args f = some k) ∧ resolve false args [f] [] = .noMatch := by
  have hu : argCost 105 (arg (at_ .int32 .uniform)) (at_ .float) = some (192 * (106 * 512)) := by
    decide
  have hc : cost (List.replicate 105 (arg (at_ .int32 .uniform)))
      (cand 0 (List.replicate 105 (at_ .float))) = some (105 * (192 * (106 * 512))) := by
    unfold cost cand
    rw [List.map_replicate, List.length_replicate, costs_replicate _ _ _ _ hu]
    simp only [Option.map_some, List.sum_replicate_nat]
  refine ⟨⟨_, hc⟩, ?_⟩
  unfold resolve
  rw [noMatch_best]
  refine ⟨?_, rfl⟩
  have hv : viable 105 (cand 0 (List.replicate 105 (at_ .float))) = true := by decide
  rw [List.length_replicate, List.filter_cons_of_pos hv]
  simp only [List.filter_nil, bestCost, List.foldl_cons, List.foldl_nil, hc]
  decide

/-! ## Examples -/

/-- Two overloads, `f(float)` and `f(int64)`. -/
def two : List Cand := [cand 0 [at_ .float], cand 1 [at_ .int64]]

example : resolve false [arg (at_ .int32)] two [] = .chosen (cand 1 [at_ .int64]) := by decide

example : resolve false [arg (at_ .int32)] two.reverse [] = .chosen (cand 1 [at_ .int64]) := by
  rw [← order_irrelevant false _ two two.reverse [] [] (List.reverse_perm two).symm
    (List.Perm.refl _)]
  decide

example : resolve false [arg (at_ .int32)] [cand 0 [at_ .float], cand 1 [at_ .double]] [] =
    .ambiguous := by
  rw [ambiguous_iff]
  decide

example : resolve false [arg (at_ .int32)] [cand 0 [at_ .float .uniform]] [] = .noMatch := by
  rw [noMatch_iff _ _ _ _ (by decide)]
  rintro c (⟨hc, -⟩ | hc)
  · simp only [List.mem_cons, List.not_mem_nil, or_false] at hc
    subst hc
    decide
  · cases hc

example : resolve false [arg (at_ .int32)] (cand 7 [at_ .int32 .uniform] :: two) [] =
    .chosen (cand 1 [at_ .int64]) := by
  rw [uncallable_irrelevant _ _ _ _ _ (fun _ => by decide)]
  decide

/-- `f(int, int = 0)` can be called with one argument, `f(int, int)` cannot. -/
example : resolve false [arg (at_ .int32)]
    [⟨0, [(at_ .int32, false), (at_ .int32, true)]⟩, cand 1 [at_ .int32, at_ .int32]] [] =
    .chosen ⟨0, [(at_ .int32, false), (at_ .int32, true)]⟩ := by
  decide

example : warns [arg (at_ .int32)] two = false := by decide

/-- A null constant matches a pointer, here an instance of a template, exactly. -/
example : resolve false [⟨at_ .int32 .uniform, true, true⟩] [cand 0 [at_ .int64 .uniform]]
    [cand 1 [uniformPtr (at_ .float)]] = .chosen (cand 1 [uniformPtr (at_ .float)]) := by
  decide

end Ispc.Overload
