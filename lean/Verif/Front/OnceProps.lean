import Verif.Front.Once
import Mathlib.Data.List.Perm.Basic

/-!
# Operands are evaluated once

Claim C66.  The specification is `effects`: the calls and stores written in an
expression, each once.  The code that is emitted has exactly these, except for
`++` and `--` of an operand with effects and for an element, with effects in
its index, of an array or short vector that is not in memory.
-/

namespace Ispc.Once

/-! ## Specification -/

mutual

/-- The calls and stores written in an expression, without the branches of
`?:`, `&&` and `||` that do not run. -/
def effects (o : Picks) : E → List Ev
  | .const => []
  | .sym _ => []
  | .call f _ as => effectss o as ++ [.call f]
  | .un e => effects o e
  | .bin a b => effects o a ++ effects o b
  | .castPtr e => effects o e
  | .index _ b i => effects o b ++ effects o i
  | .member _ e => effects o e
  | .swizzle _ e => effects o e
  | .deref e => effects o e
  | .addr _ e => effects o e
  | .refOf e => effects o e
  | .step s _ e => effects o e ++ [.store s]
  | .assign s l e => effects o l ++ effects o e ++ [.store s]
  | .cond s t a b => effects o t ++ (if (o s).1 then effects o a else []) ++
    (if (o s).2 then effects o b else [])

def effectss (o : Picks) : Es → List Ev
  | .nil => []
  | .cons e es => effects o e ++ effectss o es

end

mutual

/-- Expressions that name an object in memory. -/
def inMemory : E → Bool
  | .sym _ => true
  | .call _ r _ => r
  | .castPtr _ => true
  | .index k b _ => match k with
    | .seq => inMemory b
    | _ => true
  | .member arrow e => arrow || inMemory e
  | .deref _ => true
  | _ => false

end

mutual

/-- No `++` or `--` of an operand with effects, and no index with effects into
an array or short vector that is not in memory, in the part that runs. -/
def tame (o : Picks) : E → Bool
  | .const => true
  | .sym _ => true
  | .call _ _ as => tames o as
  | .un e => tame o e
  | .bin a b => tame o a && tame o b
  | .castPtr e => tame o e
  | .index k b i => tame o b && tame o i &&
    (k != .seq || inMemory b || (effects o i).isEmpty)
  | .member _ e => tame o e
  | .swizzle _ e => tame o e
  | .deref e => tame o e
  | .addr _ e => tame o e
  | .refOf e => tame o e
  | .step _ _ e => tame o e && (effects o e).isEmpty
  | .assign _ l e => tame o l && tame o e
  | .cond s t a b => tame o t && (!(o s).1 || tame o a) && (!(o s).2 || tame o b)

def tames (o : Picks) : Es → Bool
  | .nil => true
  | .cons e es => tame o e && tames o es

end

/-! ## Proofs -/

theorem lv_inMemory (o : Picks) : ∀ e : E, (lv o e).2 = inMemory e
  | .const | .sym _ | .un _ | .bin _ _ | .castPtr _ | .swizzle _ _ | .deref _ | .addr _ _
  | .refOf _ | .step _ _ _ | .assign _ _ _ | .cond _ _ _ _ => by simp [lv, inMemory]
  | .call f r as => by cases r <;> simp [lv, inMemory]
  | .index k b i => by cases k <;> simp [lv, inMemory, lv_inMemory o b]
  | .member arrow e => by cases arrow <;> simp [lv, inMemory, lv_inMemory o e]

/-- The bounds on the numbers of effects. -/
def Bounds (o : Picks) (e : E) : Prop :=
  (effects o e).length ≤ (val o e).length ∧
  ((lv o e).2 = true → (effects o e).length ≤ (lv o e).1.length) ∧
  (effects o e = [] → val o e = [] ∧ (lv o e).1 = [])

mutual

theorem bounds (o : Picks) : ∀ e : E, ok o e = true → Bounds o e
  | .const, _ => by simp [Bounds, effects, val, lv]
  | .sym x, _ => by simp [Bounds, effects, val, lv]
  | .call f r as, hk => by
    have h := boundss o as hk
    cases r <;> simp [Bounds, effects, val, lv, h.1]
  | .un e, hk => by
    obtain ⟨h1, h2, h3⟩ := bounds o e hk
    simp only [Bounds, effects, val, lv]
    exact ⟨h1, by simp, fun h => ⟨(h3 h).1, trivial⟩⟩
  | .bin a b, hk => by
    simp only [ok, Bool.and_eq_true] at hk
    obtain ⟨h1, h2, h3⟩ := bounds o a hk.1
    obtain ⟨k1, k2, k3⟩ := bounds o b hk.2
    simp only [Bounds, effects, val, lv, List.length_append, List.append_eq_nil_iff]
    exact ⟨by omega, by simp, fun h => ⟨⟨(h3 h.1).1, (k3 h.2).1⟩, trivial⟩⟩
  | .castPtr e, hk => by
    obtain ⟨h1, h2, h3⟩ := bounds o e hk
    simp only [Bounds, effects, val, lv]
    exact ⟨h1, fun _ => h1, fun h => ⟨(h3 h).1, (h3 h).1⟩⟩
  | .index k b i, hk => by
    simp only [ok, Bool.and_eq_true] at hk
    obtain ⟨h1, h2, h3⟩ := bounds o b hk.1
    obtain ⟨k1, k2, k3⟩ := bounds o i hk.2
    have hp : (effects o b ++ effects o i).length ≤ (val o i ++ val o b).length := by
      simp only [List.length_append]; omega
    have hn : effects o b ++ effects o i = [] → val o i ++ val o b = [] := by
      intro h
      rw [List.append_eq_nil_iff] at h ⊢
      exact ⟨(k3 h.2).1, (h3 h.1).1⟩
    cases k with
    | ptr => exact ⟨hp, fun _ => hp, fun h => ⟨hn h, hn h⟩⟩
    | ref => exact ⟨hp, fun _ => hp, fun h => ⟨hn h, hn h⟩⟩
    | seq =>
      simp only [Bounds, effects, val, lv]
      refine ⟨?_, ?_, ?_⟩
      · split
        next hl =>
          have := h2 hl
          simp only [List.length_append]; omega
        next => simp only [List.length_append]; omega
      · intro hl
        have := h2 hl
        simp only [List.length_append]; omega
      · intro h
        rw [List.append_eq_nil_iff] at h
        have h4 := h3 h.1
        have h5 := k3 h.2
        simp [h4.1, h4.2, h5.1]
  | .member arrow e, hk => by
    obtain ⟨h1, h2, h3⟩ := bounds o e hk
    simp only [Bounds, effects, val, lv]
    cases arrow with
    | true => exact ⟨h1, fun _ => h1, fun h => ⟨(h3 h).1, (h3 h).1⟩⟩
    | false =>
      simp only [Bool.false_eq_true, if_false]
      refine ⟨?_, h2, fun h => ?_⟩
      · split
        next hl => exact h2 hl
        next => simp only [List.length_append]; omega
      · have := h3 h
        simp [this.1, this.2]
  | .swizzle arrow e, hk => by
    obtain ⟨h1, h2, h3⟩ := bounds o e hk
    simp only [Bounds, effects, val, lv]
    cases arrow with
    | true => exact ⟨h1, by simp, fun h => ⟨(h3 h).1, trivial⟩⟩
    | false =>
      simp only [Bool.false_eq_true, if_false]
      refine ⟨?_, by simp, fun h => ?_⟩
      · split
        next hl => exact h2 hl
        next => simp only [List.length_append]; omega
      · have := h3 h
        simp [this.1, this.2]
  | .deref e, hk => by
    obtain ⟨h1, h2, h3⟩ := bounds o e hk
    simp only [Bounds, effects, val, lv]
    exact ⟨h1, fun _ => h1, fun h => ⟨(h3 h).1, (h3 h).1⟩⟩
  | .addr r e, hk => by
    simp only [ok, Bool.and_eq_true, Bool.or_eq_true] at hk
    obtain ⟨h1, h2, h3⟩ := bounds o e hk.1
    simp only [Bounds, effects, val, lv]
    cases r with
    | true => exact ⟨h1, by simp, fun h => ⟨(h3 h).1, trivial⟩⟩
    | false =>
      exact ⟨h2 (by simpa using hk.2), by simp, fun h => ⟨(h3 h).2, trivial⟩⟩
  | .refOf e, hk => by
    obtain ⟨h1, h2, h3⟩ := bounds o e hk
    simp only [Bounds, effects, val, lv]
    refine ⟨?_, by simp, fun h => ?_⟩
    · split
      next hl => exact h2 hl
      next => simp only [List.length_append]; omega
    · have := h3 h
      simp [this.1, this.2]
  | .step s r e, hk => by
    simp only [ok, Bool.and_eq_true] at hk
    obtain ⟨h1, h2, h3⟩ := bounds o e hk.1
    simp only [Bounds, effects, val, lv]
    refine ⟨?_, by simp, by simp⟩
    cases r <;> simp only [Bool.false_eq_true, if_false, if_true, List.length_append] <;> omega
  | .assign s l e, hk => by
    simp only [ok, Bool.and_eq_true] at hk
    obtain ⟨h1, h2, h3⟩ := bounds o l hk.1.1
    obtain ⟨k1, k2, k3⟩ := bounds o e hk.1.2
    have := h2 hk.2
    simp only [Bounds, effects, val, lv, List.length_append]
    exact ⟨by omega, by simp, by simp⟩
  | .cond s t a b, hk => by
    simp only [ok, Bool.and_eq_true] at hk
    obtain ⟨h1, h2, h3⟩ := bounds o t hk.1.1
    obtain ⟨k1, k2, k3⟩ := bounds o a hk.1.2
    obtain ⟨m1, m2, m3⟩ := bounds o b hk.2
    simp only [Bounds, effects, val, lv]
    refine ⟨?_, by simp, fun h => ?_⟩
    · simp only [List.length_append]
      cases (o s).1 <;> cases (o s).2 <;>
        simp only [Bool.false_eq_true, if_false, if_true, List.length_nil] <;> omega
    · simp only [List.append_eq_nil_iff] at h ⊢
      refine ⟨⟨⟨(h3 h.1.1).1, ?_⟩, ?_⟩, trivial⟩
      · split
        next hp => simp only [hp, if_true] at h; exact (k3 h.1.2).1
        next => rfl
      · split
        next hp => simp only [hp, if_true] at h; exact (m3 h.2).1
        next => rfl

theorem boundss (o : Picks) : ∀ es : Es, oks o es = true →
    (effectss o es).length ≤ (vals o es).length ∧ (effectss o es = [] → vals o es = [])
  | .nil, _ => by simp [effectss, vals]
  | .cons e es, hk => by
    simp only [oks, Bool.and_eq_true] at hk
    obtain ⟨h1, h2, h3⟩ := bounds o e hk.1
    obtain ⟨k1, k2⟩ := boundss o es hk.2
    simp only [effectss, vals, List.length_append, List.append_eq_nil_iff]
    exact ⟨by omega, fun h => ⟨(h3 h.1).1, k2 h.2⟩⟩

end

/-- The effects of a tame expression. -/
def Fine (o : Picks) (e : E) : Prop :=
  (val o e).Perm (effects o e) ∧ (inMemory e = true → (lv o e).1.Perm (effects o e)) ∧
  (inMemory e = false → (lv o e).1 = [])

/-- The effects where the address is used if there is one. -/
theorem fine_either {o : Picks} {e : E} (h : Fine o e) :
    (if (lv o e).2 then (lv o e).1 else (lv o e).1 ++ val o e).Perm (effects o e) := by
  obtain ⟨h1, h2, h3⟩ := h
  rw [lv_inMemory]
  cases hm : inMemory e with
  | true => simpa using h2 hm
  | false => simpa [h3 hm] using h1

mutual

theorem fine (o : Picks) : ∀ e : E, ok o e = true → tame o e = true → Fine o e
  | .const, _, _ => ⟨.refl _, by simp [inMemory], fun _ => rfl⟩
  | .sym x, _, _ => ⟨.refl _, fun _ => .refl _, fun _ => rfl⟩
  | .call f r as, hk, ht => by
    have h := fines o as hk ht
    refine ⟨h.append_right _, ?_, ?_⟩
    · intro hm
      have hm : r = true := hm
      subst hm
      exact h.append_right _
    · intro hm
      have hm : r = false := hm
      subst hm
      rfl
  | .un e, hk, ht => ⟨(fine o e hk ht).1, by simp [inMemory], fun _ => rfl⟩
  | .bin a b, hk, ht => by
    simp only [ok, tame, Bool.and_eq_true] at hk ht
    exact ⟨(fine o a hk.1 ht.1).1.append (fine o b hk.2 ht.2).1, by simp [inMemory], fun _ => rfl⟩
  | .castPtr e, hk, ht =>
    ⟨(fine o e hk ht).1, fun _ => (fine o e hk ht).1, by simp [inMemory]⟩
  | .index k b i, hk, ht => by
    simp only [ok, tame, Bool.and_eq_true] at hk ht
    obtain ⟨h1, h2, h3⟩ := fine o b hk.1 ht.1.1
    have hi := (fine o i hk.2 ht.1.2).1
    have hp : (val o i ++ val o b).Perm (effects o b ++ effects o i) :=
      (hi.append h1).trans List.perm_append_comm
    cases k with
    | ptr => exact ⟨hp, fun _ => hp, by simp [inMemory]⟩
    | ref => exact ⟨hp, fun _ => hp, by simp [inMemory]⟩
    | seq =>
      cases hm : inMemory b with
      | true =>
        have hq : (val o i ++ (lv o b).1).Perm (effects o b ++ effects o i) :=
          (hi.append (h2 hm)).trans List.perm_append_comm
        refine ⟨?_, fun _ => hq, fun h => ?_⟩
        · simp only [val, lv_inMemory, hm, if_true]
          exact hq
        · have h : inMemory b = false := h
          rw [hm] at h; cases h
      | false =>
        have he : effects o i = [] := by simpa [hm] using ht.2
        have hv : val o i = [] := ((bounds o i hk.2).2.2 he).1
        refine ⟨?_, fun h => ?_, fun _ => ?_⟩
        · simp only [val, lv_inMemory, hm, Bool.false_eq_true, if_false, effects]
          simpa [hv, h3 hm, he] using h1
        · have h : inMemory b = true := h
          rw [hm] at h; cases h
        · simp [lv, hv, h3 hm]
  | .member arrow e, hk, ht => by
    have h := fine o e hk ht
    cases arrow with
    | true => exact ⟨h.1, fun _ => h.1, by simp [inMemory]⟩
    | false =>
      refine ⟨?_, ?_, ?_⟩
      · simp only [val, Bool.false_eq_true, if_false]
        exact fine_either h
      · intro hm
        exact h.2.1 (by simpa [inMemory] using hm)
      · intro hm
        exact h.2.2 (by simpa [inMemory] using hm)
  | .swizzle arrow e, hk, ht => by
    have h := fine o e hk ht
    cases arrow with
    | true => exact ⟨h.1, by simp [inMemory], fun _ => rfl⟩
    | false =>
      refine ⟨?_, by simp [inMemory], fun _ => rfl⟩
      simp only [val, Bool.false_eq_true, if_false]
      exact fine_either h
  | .deref e, hk, ht => ⟨(fine o e hk ht).1, fun _ => (fine o e hk ht).1, by simp [inMemory]⟩
  | .addr r e, hk, ht => by
    simp only [ok, Bool.and_eq_true, Bool.or_eq_true] at hk
    have h := fine o e hk.1 ht
    refine ⟨?_, by simp [inMemory], fun _ => rfl⟩
    cases r with
    | true => exact h.1
    | false => exact h.2.1 (by simpa [lv_inMemory] using hk.2)
  | .refOf e, hk, ht => ⟨fine_either (fine o e hk ht), by simp [inMemory], fun _ => rfl⟩
  | .step s r e, hk, ht => by
    simp only [ok, tame, Bool.and_eq_true, List.isEmpty_iff] at hk ht
    have h := (bounds o e hk.1).2.2 ht.2
    refine ⟨?_, by simp [inMemory], fun _ => rfl⟩
    cases r <;> simp [val, effects, h.1, h.2, ht.2]
  | .assign s l e, hk, ht => by
    simp only [ok, tame, Bool.and_eq_true] at hk ht
    have hl := (fine o l hk.1.1 ht.1).2.1 (by rw [← lv_inMemory o]; exact hk.2)
    exact ⟨(hl.append (fine o e hk.1.2 ht.2).1).append_right _, by simp [inMemory], fun _ => rfl⟩
  | .cond s t a b, hk, ht => by
    simp only [ok, tame, Bool.and_eq_true, Bool.or_eq_true, Bool.not_eq_true'] at hk ht
    refine ⟨?_, by simp [inMemory], fun _ => rfl⟩
    refine List.Perm.append (List.Perm.append (fine o t hk.1.1 ht.1.1).1 ?_) ?_
    · split
      next h => exact (fine o a hk.1.2 (ht.1.2.resolve_left (by simp [h]))).1
      next => exact .refl _
    · split
      next h => exact (fine o b hk.2 (ht.2.resolve_left (by simp [h]))).1
      next => exact .refl _

theorem fines (o : Picks) : ∀ es : Es, oks o es = true → tames o es = true →
    (vals o es).Perm (effectss o es)
  | .nil, _, _ => .refl _
  | .cons e es, hk, ht => by
    simp only [oks, tames, Bool.and_eq_true] at hk ht
    exact (fine o e hk.1 ht.1).1.append (fines o es hk.2 ht.2)

end

/-- No more effects than are written, hence tame. -/
def Few (o : Picks) (e : E) : Prop :=
  ((val o e).length ≤ (effects o e).length → tame o e = true) ∧
  (inMemory e = true → (lv o e).1.length ≤ (effects o e).length → tame o e = true)

theorem few_either {o : Picks} {e : E} (h : Few o e)
    (hl : (if (lv o e).2 then (lv o e).1 else (lv o e).1 ++ val o e).length ≤
      (effects o e).length) : tame o e = true := by
  rw [lv_inMemory] at hl
  cases hm : inMemory e with
  | true => exact h.2 hm (by simpa [hm] using hl)
  | false =>
    simp only [hm, Bool.false_eq_true, if_false, List.length_append] at hl
    exact h.1 (by omega)

mutual

theorem few (o : Picks) : ∀ e : E, ok o e = true → Few o e
  | .const, _ => ⟨fun _ => rfl, fun _ _ => rfl⟩
  | .sym x, _ => ⟨fun _ => rfl, fun _ _ => rfl⟩
  | .call f r as, hk => by
    have h := fews o as hk
    have hb := (boundss o as hk).1
    constructor
    · simp only [val, effects, List.length_append, tame]
      exact fun hl => h (by omega)
    · intro hm
      have hm : r = true := hm
      subst hm
      simp only [lv, if_true, effects, List.length_append, tame]
      exact fun hl => h (by omega)
  | .un e, hk => ⟨(few o e hk).1, by simp [inMemory]⟩
  | .bin a b, hk => by
    simp only [ok, Bool.and_eq_true] at hk
    have h1 := (bounds o a hk.1).1
    have h2 := (bounds o b hk.2).1
    refine ⟨?_, by simp [inMemory]⟩
    simp only [val, effects, List.length_append, tame, Bool.and_eq_true]
    exact fun hl => ⟨(few o a hk.1).1 (by omega), (few o b hk.2).1 (by omega)⟩
  | .castPtr e, hk => ⟨(few o e hk).1, fun _ => (few o e hk).1⟩
  | .index k b i, hk => by
    simp only [ok, Bool.and_eq_true] at hk
    obtain ⟨b1, b2, b3⟩ := bounds o b hk.1
    obtain ⟨i1, i2, i3⟩ := bounds o i hk.2
    have hb := few o b hk.1
    have hi := (few o i hk.2).1
    cases k with
    | ptr =>
      constructor
      · simp only [val, effects, List.length_append, tame]
        exact fun hl => by simp [hb.1 (by omega), hi (by omega)]
      · simp only [lv, effects, List.length_append, tame]
        exact fun _ hl => by simp [hb.1 (by omega), hi (by omega)]
    | ref =>
      constructor
      · simp only [val, effects, List.length_append, tame]
        exact fun hl => by simp [hb.1 (by omega), hi (by omega)]
      · simp only [lv, effects, List.length_append, tame]
        exact fun _ hl => by simp [hb.1 (by omega), hi (by omega)]
    | seq =>
      rw [lv_inMemory] at b2
      have hmem : inMemory b = true → (lv o b).1.length + (val o i).length ≤
          (effects o b).length + (effects o i).length → tame o (.index .seq b i) = true := by
        intro hm hl
        have := b2 hm
        simp [tame, hm, hb.2 hm (by omega), hi (by omega)]
      constructor
      · intro hl
        simp only [val, effects, List.length_append, lv_inMemory] at hl
        cases hm : inMemory b with
        | true =>
          simp only [hm, if_true, List.length_append] at hl
          exact hmem hm (by omega)
        | false =>
          simp only [hm, Bool.false_eq_true, if_false, List.length_append] at hl
          have he : effects o i = [] := List.length_eq_zero_iff.1 (by omega)
          simp [tame, he, hb.1 (by omega), hi (by omega)]
      · intro hm hl
        simp only [lv, effects, List.length_append] at hl
        exact hmem hm (by omega)
  | .member arrow e, hk => by
    have h := few o e hk
    cases arrow with
    | true => exact ⟨h.1, fun _ => h.1⟩
    | false =>
      constructor
      · intro hl
        simp only [val, Bool.false_eq_true, if_false] at hl
        exact few_either (e := e) h hl
      · intro hm hl
        exact h.2 (by simpa [inMemory] using hm) hl
  | .swizzle arrow e, hk => by
    have h := few o e hk
    refine ⟨?_, by simp [inMemory]⟩
    cases arrow with
    | true => exact h.1
    | false =>
      intro hl
      simp only [val, Bool.false_eq_true, if_false] at hl
      exact few_either (e := e) h hl
  | .deref e, hk => ⟨(few o e hk).1, fun _ => (few o e hk).1⟩
  | .addr r e, hk => by
    simp only [ok, Bool.and_eq_true, Bool.or_eq_true] at hk
    have h := few o e hk.1
    refine ⟨?_, by simp [inMemory]⟩
    cases r with
    | true => exact h.1
    | false => exact h.2 (by simpa [lv_inMemory] using hk.2)
  | .refOf e, hk => ⟨fun hl => few_either (e := e) (few o e hk) hl, by simp [inMemory]⟩
  | .step s r e, hk => by
    simp only [ok, Bool.and_eq_true, Bool.or_eq_true] at hk
    obtain ⟨b1, b2, b3⟩ := bounds o e hk.1
    have h := few o e hk.1
    refine ⟨?_, by simp [inMemory]⟩
    intro hl
    have he : effects o e = [] := by
      apply List.length_eq_zero_iff.1
      cases r with
      | true =>
        simp only [val, effects, if_true, List.length_append] at hl
        omega
      | false =>
        have := b2 (by simpa using hk.2)
        simp only [val, effects, Bool.false_eq_true, if_false, List.length_append] at hl
        omega
    simp [tame, he, h.1 (by simp [(b3 he).1])]
  | .assign s l e, hk => by
    simp only [ok, Bool.and_eq_true] at hk
    obtain ⟨b1, b2, b3⟩ := bounds o l hk.1.1
    obtain ⟨e1, e2, e3⟩ := bounds o e hk.1.2
    have := b2 hk.2
    refine ⟨?_, by simp [inMemory]⟩
    intro hl
    simp only [val, effects, List.length_append] at hl
    have hm : inMemory l = true := by rw [← lv_inMemory o]; exact hk.2
    simp [tame, (few o l hk.1.1).2 hm (by omega), (few o e hk.1.2).1 (by omega)]
  | .cond s t a b, hk => by
    simp only [ok, Bool.and_eq_true] at hk
    have t1 := (bounds o t hk.1.1).1
    have a1 := (bounds o a hk.1.2).1
    have b1 := (bounds o b hk.2).1
    refine ⟨?_, by simp [inMemory]⟩
    intro hl
    simp only [val, effects, List.length_append] at hl
    have ht := (few o t hk.1.1).1
    have ha := (few o a hk.1.2).1
    have hb := (few o b hk.2).1
    simp only [tame, Bool.and_eq_true, Bool.or_eq_true, Bool.not_eq_true']
    cases h1 : (o s).1 <;> cases h2 : (o s).2 <;>
      simp only [h1, h2, Bool.false_eq_true, if_false, if_true, List.length_nil] at hl
    · exact ⟨⟨ht (by omega), Or.inl rfl⟩, Or.inl rfl⟩
    · exact ⟨⟨ht (by omega), Or.inl rfl⟩, Or.inr (hb (by omega))⟩
    · exact ⟨⟨ht (by omega), Or.inr (ha (by omega))⟩, Or.inl rfl⟩
    · exact ⟨⟨ht (by omega), Or.inr (ha (by omega))⟩, Or.inr (hb (by omega))⟩

theorem fews (o : Picks) : ∀ es : Es, oks o es = true →
    (vals o es).length ≤ (effectss o es).length → tames o es = true
  | .nil, _, _ => rfl
  | .cons e es, hk, hl => by
    simp only [oks, Bool.and_eq_true] at hk
    have h1 := (bounds o e hk.1).1
    have h2 := (boundss o es hk.2).1
    simp only [vals, effectss, List.length_append] at hl
    simp [tames, (few o e hk.1).1 (by omega), fews o es hk.2 (by omega)]

end

/-! ## The claim -/

/-- **Every operand is evaluated at least once**: nothing that is written is
dropped. -/
theorem at_least_once (o : Picks) (e : E) (hk : ok o e = true) :
    (effects o e).length ≤ (val o e).length :=
  (bounds o e hk).1

/-- **Every operand is evaluated exactly once**: the code has the calls and
stores that are written, each once, in expressions without `++` or `--` of an
operand with effects and without an index with effects into an array or short
vector that is not in memory.  Missing: the other expressions, where the claim
is false (`once_iff`). -/
theorem once_partial (o : Picks) (e : E) (hk : ok o e = true) (ht : tame o e = true) :
    (val o e).Perm (effects o e) :=
  (fine o e hk ht).1

/-- **Exactly these expressions evaluate their operands once.** -/
theorem once_iff (o : Picks) (e : E) (hk : ok o e = true) :
    (val o e).Perm (effects o e) ↔ tame o e = true :=
  ⟨fun h => (few o e hk).1 (Nat.le_of_eq h.length_eq), once_partial o e hk⟩

/-- `a[f()] = g(h(), s.v[i])` -/
def sample : E :=
  .assign 0 (.index .seq (.sym 0) (.call 1 false .nil))
    (.call 2 false (.cons (.call 3 false .nil)
      (.cons (.index .seq (.member false (.sym 1)) (.sym 2)) .nil)))

example : ok (fun _ => (true, true)) sample = true ∧ tame (fun _ => (true, true)) sample = true ∧
    val (fun _ => (true, true)) sample = [.call 1, .call 3, .call 2, .store 0] :=
  ⟨rfl, rfl, rfl⟩

/-- **The operand of `++` is evaluated twice**: `a[f()]++` calls `f` twice, and
adds one to the element at the second result to give the new value of the
element at the first. -/
theorem step_wrong : ∃ e, ok (fun _ => (true, true)) e = true ∧
    effects (fun _ => (true, true)) e = [.call 1, .store 0] ∧
    val (fun _ => (true, true)) e = [.call 1, .call 1, .store 0] :=
  ⟨.step 0 false (.index .seq (.sym 0) (.call 1 false .nil)), rfl, rfl, rfl⟩

/-- The same of `a[i++]++`: `i` is stepped twice. -/
example : val (fun _ => (true, true))
    (.step 0 false (.index .ptr (.sym 0) (.step 1 false (.sym 1)))) =
      [.store 1, .store 1, .store 0] := rfl

/-- **The same of every operand with effects**, of `++` and `--`. -/
theorem step_twice (o : Picks) (s : Nat) (r : Bool) (e : E) (hk : ok o (.step s r e) = true) :
    2 * (effects o e).length + 1 ≤ (val o (.step s r e)).length := by
  simp only [ok, Bool.and_eq_true, Bool.or_eq_true] at hk
  obtain ⟨b1, b2, _⟩ := bounds o e hk.1
  cases r with
  | true => simp only [val, if_true, List.length_append, List.length_singleton]; omega
  | false =>
    have := b2 (by simpa using hk.2)
    simp only [val, Bool.false_eq_true, if_false, List.length_append, List.length_singleton]
    omega

example : ok (fun _ => (true, true)) (.step 0 false (.deref (.call 1 false .nil))) = true := rfl

/-- **An index into a value that is not in memory is evaluated twice**:
`f()[g()]`, where `f` returns a short vector, calls `g` twice. -/
theorem index_wrong : ∃ e, ok (fun _ => (true, true)) e = true ∧
    effects (fun _ => (true, true)) e = [.call 1, .call 2] ∧
    val (fun _ => (true, true)) e = [.call 2, .call 1, .call 2] :=
  ⟨.index .seq (.call 1 false .nil) (.call 2 false .nil), rfl, rfl, rfl⟩

/-- `e.a.b…`, with `n` members. -/
def members (e : E) : Nat → E
  | 0 => e
  | n + 1 => .member false (members e n)

/-- **And once more for each member around it**: `f().t[g()].a.b`, where `f`
returns a struct with an array of structs, calls `g` four times. -/
theorem index_often_wrong (o : Picks) (n : Nat) :
    (val o (members (.index .seq (.member false (.call 1 false .nil)) (.call 2 false .nil))
      n)).count (.call 2) = n + 2 := by
  have hl : ∀ n, lv o (members (.index .seq (.member false (.call 1 false .nil))
      (.call 2 false .nil)) n) = ([.call 2], false) := by
    intro n
    induction n with
    | zero => rfl
    | succ n ih => simpa [members, lv] using ih
  induction n with
  | zero => rfl
  | succ n ih =>
    simp only [members, val, hl n, Bool.false_eq_true, if_false, List.count_append, ih]
    simp
    omega

end Ispc.Once
