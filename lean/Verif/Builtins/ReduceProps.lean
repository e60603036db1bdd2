import Verif.Builtins.Reduce
import Verif.Builtins.FloatBitsProps
import Mathlib.Tactic.IntervalCases
import Mathlib.Tactic.Linarith
import Mathlib.Algebra.BigOperators.Fin

/-!
# Reductions and `min`, `max`, `clamp` on each target (C82): theorems
-/

namespace Ispc.Reduce

open Ispc.Fold (Fmt FV Rel signed)
open Ispc.FloatBits (Bits val infBits signMask isnan sgn isnan_iff)
open Ispc.Vec

variable {α : Type} {W : Nat}

/-! ## Specification -/

/-- `r` is made of the values of the lanes `ls`, each used as often as it is in `ls`, by functions `f` and `g` of two values, and of
constants of `C`. -/
inductive Combines (C : α → Prop) (f g : α → α → α) (v : Fin W → α) : List (Fin W) → α → Prop
  | lane (l : Fin W) : Combines C f g v [l] (v l)
  | const {c : α} (h : C c) : Combines C f g v [] c
  | vec {ls ms : List (Fin W)} {a b : α} (ha : Combines C f g v ls a) (hb : Combines C f g v ms b) :
      Combines C f g v (ls ++ ms) (f a b)
  | sca {ls ms : List (Fin W)} {a b : α} (ha : Combines C f g v ls a) (hb : Combines C f g v ms b) :
      Combines C f g v (ls ++ ms) (g a b)

/-- `r` is made of the values of all the lanes, each used exactly once. -/
def EachOnce (C : α → Prop) (f g : α → α → α) (v : Fin W → α) (r : α) : Prop :=
  ∃ ls, ls.Perm (List.finRange W) ∧ Combines C f g v ls r

/-! ## The macros use each lane once -/

/-- The halves of `W` lanes, down to two. -/
def Good : Nat → List Nat → Prop
  | W, [] => W = 2
  | W, h :: hs => W = 2 * h ∧ 0 < h ∧ Good h hs

theorem filter_or (p q : Fin W → Bool) (hpq : ∀ l, p l = true → q l = true → False) (ls : List (Fin W)) :
    (ls.filter p ++ ls.filter q).Perm (ls.filter fun l => p l || q l) := by
  induction ls with
  | nil => simp
  | cons a ls ih =>
    by_cases hp : p a = true
    · have hq : q a = false := by
        cases h : q a
        · rfl
        · exact (hpq a hp h).elim
      simp only [List.filter_cons, hp, hq, if_true, Bool.or_false, List.cons_append, Bool.false_eq_true, if_false]
      exact ih.cons a
    · simp only [Bool.not_eq_true] at hp
      by_cases hq : q a = true
      · simp only [List.filter_cons, hp, hq, if_true, Bool.or_true, Bool.false_eq_true, if_false]
        exact List.perm_middle.trans (ih.cons a)
      · simp only [Bool.not_eq_true] at hq
        simp only [List.filter_cons, hp, hq, Bool.or_false, Bool.false_eq_true, if_false]
        exact ih

/-- The lanes whose number is `i` modulo `k`. -/
def cls (W k i : Nat) : List (Fin W) := (List.finRange W).filter fun l => decide (l.val % k = i)

theorem cls_split {h i : Nat} (h0 : 0 < h) (hi : i < h) : (cls W (2 * h) (h + i) ++ cls W (2 * h) i).Perm (cls W h i) := by
  refine (filter_or _ _ ?_ _).trans ?_
  · intro l h1 h2
    simp only [decide_eq_true_eq] at h1 h2
    omega
  · unfold cls
    have : (fun l : Fin W => decide (l.val % (2 * h) = h + i) || decide (l.val % (2 * h) = i)) =
        fun l : Fin W => decide (l.val % h = i) := by
      funext l
      have e : l.val % h = l.val % (2 * h) % h := (Nat.mod_mod_of_dvd _ ⟨2, by ring⟩).symm
      have e2 : l.val % (2 * h) < 2 * h := Nat.mod_lt _ (by omega)
      rw [Bool.eq_iff_iff]
      simp only [Bool.or_eq_true, decide_eq_true_eq]
      rw [e]
      generalize l.val % (2 * h) = x at e2
      constructor
      · rintro (rfl | rfl)
        · rw [Nat.add_mod_left, Nat.mod_eq_of_lt hi]
        · exact Nat.mod_eq_of_lt hi
      · intro hx
        by_cases hxh : x < h
        · rw [Nat.mod_eq_of_lt hxh] at hx
          omega
        · rw [Nat.mod_eq_sub_mod (by omega), Nat.mod_eq_of_lt (by omega)] at hx
          omega
    rw [this]

theorem cls_self {i : Nat} (hi : i < W) : (cls W W i).Perm [⟨i, hi⟩] := by
  refine (List.perm_ext_iff_of_nodup ((List.nodup_finRange W).filter _) (List.nodup_singleton _)).mpr fun l => ?_
  simp only [List.mem_filter, List.mem_finRange, true_and, decide_eq_true_eq, List.mem_singleton,
    Nat.mod_eq_of_lt l.isLt, Fin.ext_iff]

/-- Element `i` of `x` is made of the lanes that are `i` modulo `k`. -/
def Inv (C : α → Prop) (f g : α → α → α) (v : Fin W → α) (k : Nat) (x : PVec W α) : Prop :=
  k ≤ W ∧ ∀ i, i < k → ∃ r ls, elt x i = some r ∧ ls.Perm (cls W k i) ∧ Combines C f g v ls r

theorem elt_lt (x : PVec W α) {i : Nat} (h : i < W) : elt x i = x ⟨i, h⟩ := by
  unfold elt
  rw [extract_lt x h]
  rfl

theorem halve_inv {C : α → Prop} {f g : α → α → α} {v : Fin W → α} {h : Nat} (h0 : 0 < h) {x : PVec W α}
    (hx : Inv C f g v (2 * h) x) : Inv C f g v h (halve f x h) := by
  obtain ⟨hk, hx⟩ := hx
  refine ⟨by omega, fun i hi => ?_⟩
  obtain ⟨b, lb, hb, pb, cb⟩ := hx (h + i) (by omega)
  obtain ⟨a, la, ha, pa, ca⟩ := hx i (by omega)
  refine ⟨f b a, lb ++ la, ?_, (pb.append pa).trans (cls_split h0 hi), .vec cb ca⟩
  have hiW : i < W := by omega
  rw [elt_lt _ hiW]
  rw [elt_lt _ hiW] at ha
  simp only [halve, zip, shuffle, down, hi, if_true, Option.bind_some, hb, ha]
  rfl

theorem fold_inv {C : α → Prop} {f g : α → α → α} {v : Fin W → α} : ∀ (hs : List Nat) (k : Nat) (x : PVec W α), Good k hs →
    Inv C f g v k x → Inv C f g v 2 (hs.foldl (halve f) x)
  | [], k, x, hg, hx => by
    have : k = 2 := hg
    subst this
    exact hx
  | h :: hs, k, x, hg, hx => by
    obtain ⟨rfl, h0, hg⟩ := hg
    exact fold_inv hs h _ hg (halve_inv h0 hx)

/-- `reduce4`, …, `reduce64`, and so on for every power of two. -/
theorem halving_each {C : α → Prop} (f g : α → α → α) (v : Fin W → α) {hs : List Nat} (hg : Good W hs) :
    ∃ r, halving hs f g (fun l => some (v l)) = some r ∧ EachOnce C f g v r := by
  have h0 : Inv C f g v W (fun l => some (v l)) := by
    refine ⟨le_rfl, fun i hi => ⟨v ⟨i, hi⟩, [⟨i, hi⟩], elt_lt _ hi, (cls_self hi).symm, .lane _⟩⟩
  obtain ⟨h2, hI⟩ := fold_inv hs W _ hg h0
  obtain ⟨a, la, ha, pa, ca⟩ := hI 0 (by omega)
  obtain ⟨b, lb, hb, pb, cb⟩ := hI 1 (by omega)
  refine ⟨g a b, ?_, la ++ lb, ?_, .sca ca cb⟩
  · simp only [halving, lastTwo, ha, hb]
    rfl
  · refine (pa.append pb).trans ((filter_or _ _ ?_ _).trans ?_)
    · intro l h1 h2
      simp only [decide_eq_true_eq] at h1 h2
      omega
    · have : (fun l : Fin W => decide (l.val % 2 = 0) || decide (l.val % 2 = 1)) = fun _ => true := by
        funext l
        simp only [Bool.or_eq_true, decide_eq_true_eq]
        omega
      rw [this, List.filter_true]

theorem by4_each {C : α → Prop} (f g : α → α → α) (v : Fin 8 → α) :
    ∃ r, by4 f g (fun l => some (v l)) = some r ∧ EachOnce C f g v r := by
  refine ⟨g (f (f (v 2) (v 6)) (f (v 0) (v 4))) (f (f (v 3) (v 7)) (f (v 1) (v 5))), rfl, _, ?_,
    .sca (.vec (.vec (.lane 2) (.lane 6)) (.vec (.lane 0) (.lane 4))) (.vec (.vec (.lane 3) (.lane 7)) (.vec (.lane 1) (.lane 5)))⟩
  decide

theorem fold_some (f : α → α → α) (v : Fin W → α) : ∀ (ls : List (Fin W)) (a : α),
    (ls.map fun l => some (v l)).foldlM (fun (a : α) x => x.map (f a)) a = some (ls.foldl (fun a l => f a (v l)) a)
  | [], a => rfl
  | l :: ls, a => by
    simp only [List.map_cons, List.foldlM_cons, Option.map_some, List.foldl_cons]
    exact fold_some f v ls _

theorem foldl_combines {C : α → Prop} (f g : α → α → α) (v : Fin W → α) : ∀ (ls ms : List (Fin W)) (a : α),
    Combines C f g v ms a → Combines C f g v (ms ++ ls) (ls.foldl (fun a l => f a (v l)) a)
  | [], ms, a, h => by simpa using h
  | l :: ls, ms, a, h => by
    have := foldl_combines f g v ls (ms ++ [l]) _ (.vec h (.lane l))
    simpa using this

theorem inOrder_each {C : α → Prop} (f g : α → α → α) (v : Fin (W + 1) → α) :
    ∃ r, inOrder f none (fun l => some (v l)) = some r ∧ EachOnce C f g v r := by
  have e : (List.finRange (W + 1)).map (fun l => some (v l)) =
      some (v 0) :: ((List.finRange W).map Fin.succ).map (fun l => some (v l)) := by
    rw [List.finRange_succ, List.map_cons]
  refine ⟨((List.finRange W).map Fin.succ).foldl (fun a l => f a (v l)) (v 0), ?_, 0 :: (List.finRange W).map Fin.succ, ?_, ?_⟩
  · simp only [inOrder, e]
    exact fold_some f v _ _
  · rw [List.finRange_succ]
  · exact foldl_combines f g v _ [0] _ (.lane 0)

theorem inOrder_start_each {C : α → Prop} (f g : α → α → α) (v : Fin W → α) {s : α} (hs : C s) :
    ∃ r, inOrder f (some s) (fun l => some (v l)) = some r ∧ EachOnce C f g v r := by
  refine ⟨(List.finRange W).foldl (fun a l => f a (v l)) s, fold_some f v _ _, List.finRange W, .refl _, ?_⟩
  simpa using foldl_combines f g v (List.finRange W) [] s (.const hs)

/-- What a shape needs of the number of lanes. -/
def Fits (W : Nat) : Shape → Prop
  | .halving hs => Good W hs
  | .by4 => W = 8
  | .inOrder => 0 < W

theorem run_each {C : α → Prop} (s : Shape) (hs : Fits W s) (f g : α → α → α) (v : Fin W → α) :
    ∃ r, s.run f g v = some r ∧ EachOnce C f g v r := by
  cases s with
  | halving hs' => exact halving_each f g v hs
  | by4 =>
    have : W = 8 := hs
    subst this
    exact by4_each f g v
  | inOrder =>
    obtain ⟨n, rfl⟩ := Nat.exists_eq_succ_of_ne_zero (show W ≠ 0 from Nat.pos_iff_ne_zero.mp hs)
    exact inOrder_each f g v

theorem shape_fits (t : Tgt) (ty : Num) : Fits t.lanes (minMaxShape t ty) := by
  have key : ∀ hs : List Nat, (t.halves = hs → Good t.lanes hs) ∨ ∃ W, t = .generic W := by
    intro hs
    cases t <;> first
      | (right; exact ⟨_, rfl⟩)
      | (left; rintro rfl; simp [Tgt.halves, Tgt.lanes, Good])
  rcases key t.halves with hk | ⟨n, rfl⟩
  · have hk := hk rfl
    have hpos : 0 < t.lanes := by cases t <;> simp [Tgt.lanes]
    unfold minMaxShape
    split
    · exact hpos
    · simp [Fits, Good, Tgt.lanes]
    · exact hpos
    · exact hpos
    · rfl
    · rfl
    · exact hk
  · exact Nat.succ_pos n

/-- **On every target a reduction by `f` and `g` uses the value of every lane exactly once.** -/
theorem reduction_each_once (t : Tgt) (ty : Num) (f g : α → α → α) (v : Fin t.lanes → α) :
    ∃ r, (minMaxShape t ty).run f g v = some r ∧ EachOnce (fun _ => False) f g v r :=
  run_each _ (shape_fits t ty) f g v

/-! ## Choosing the best -/

theorem combines_best {f g : α → α → α} {v : Fin W → α} {P : α → Prop} {le : α → α → Prop}
    (hr : ∀ a, P a → le a a) (ht : ∀ a b c, P a → P b → P c → le a b → le b c → le a c)
    (hf : ∀ a b, P a → P b → (f a b = a ∨ f a b = b) ∧ le (f a b) a ∧ le (f a b) b)
    (hg : ∀ a b, P a → P b → (g a b = a ∨ g a b = b) ∧ le (g a b) a ∧ le (g a b) b)
    (hv : ∀ l, P (v l)) {ls : List (Fin W)} {r : α} (h : Combines (fun _ => False) f g v ls r) :
    (∃ l ∈ ls, r = v l) ∧ ∀ l ∈ ls, le r (v l) := by
  induction h with
  | lane l => exact ⟨⟨l, by simp, rfl⟩, fun m hm => by rw [List.mem_singleton.mp hm]; exact hr _ (hv l)⟩
  | const h => exact h.elim
  | vec ha hb iha ihb =>
    rename_i ls ms a b
    obtain ⟨⟨la, hla, ea⟩, ba⟩ := iha
    obtain ⟨⟨lb, hlb, eb⟩, bb⟩ := ihb
    have pa : P a := ea ▸ hv la
    have pb : P b := eb ▸ hv lb
    obtain ⟨hsel, h1, h2⟩ := hf a b pa pb
    have pr : P (f a b) := by rcases hsel with h | h <;> rw [h] <;> assumption
    refine ⟨?_, fun l hl => ?_⟩
    · rcases hsel with h | h
      · exact ⟨la, List.mem_append_left _ hla, h.trans ea⟩
      · exact ⟨lb, List.mem_append_right _ hlb, h.trans eb⟩
    · rcases List.mem_append.mp hl with hl | hl
      · exact ht _ _ _ pr pa (hv l) h1 (ba l hl)
      · exact ht _ _ _ pr pb (hv l) h2 (bb l hl)
  | sca ha hb iha ihb =>
    rename_i ls ms a b
    obtain ⟨⟨la, hla, ea⟩, ba⟩ := iha
    obtain ⟨⟨lb, hlb, eb⟩, bb⟩ := ihb
    have pa : P a := ea ▸ hv la
    have pb : P b := eb ▸ hv lb
    obtain ⟨hsel, h1, h2⟩ := hg a b pa pb
    have pr : P (g a b) := by rcases hsel with h | h <;> rw [h] <;> assumption
    refine ⟨?_, fun l hl => ?_⟩
    · rcases hsel with h | h
      · exact ⟨la, List.mem_append_left _ hla, h.trans ea⟩
      · exact ⟨lb, List.mem_append_right _ hlb, h.trans eb⟩
    · rcases List.mem_append.mp hl with hl | hl
      · exact ht _ _ _ pr pa (hv l) h1 (ba l hl)
      · exact ht _ _ _ pr pb (hv l) h2 (bb l hl)

theorem each_best {f g : α → α → α} {v : Fin W → α} {P : α → Prop} {le : α → α → Prop}
    (hr : ∀ a, P a → le a a) (ht : ∀ a b c, P a → P b → P c → le a b → le b c → le a c)
    (hf : ∀ a b, P a → P b → (f a b = a ∨ f a b = b) ∧ le (f a b) a ∧ le (f a b) b)
    (hg : ∀ a b, P a → P b → (g a b = a ∨ g a b = b) ∧ le (g a b) a ∧ le (g a b) b)
    (hv : ∀ l, P (v l)) {r : α} (h : EachOnce (fun _ => False) f g v r) : (∃ l, r = v l) ∧ ∀ l, le r (v l) := by
  obtain ⟨ls, hp, hc⟩ := h
  obtain ⟨⟨l, _, e⟩, hb⟩ := combines_best hr ht hf hg hv hc
  exact ⟨⟨l, e⟩, fun l => hb l (hp.mem_iff.mpr (List.mem_finRange l))⟩

/-! ## The order of floating-point numbers -/

/-- `a` is no worse than `b`: not greater, or for `max` not less. -/
def NoWorse (up : Bool) (f : Fmt) (a b : Bits f) : Prop :=
  if up then (val f a).rel (val f b) ≠ .less else (val f b).rel (val f a) ≠ .less

theorem noWorse_lt (up : Bool) (f : Fmt) (a b : Bits f) :
    NoWorse up f a b ↔ if up then lt f a b = false else lt f b a = false := by
  cases up <;> simp [NoWorse, lt]

theorem rel_nan_left (x : FV) : FV.rel .nan x = .unordered := by cases x <;> rfl
theorem rel_nan_right (x : FV) : FV.rel x .nan = .unordered := by cases x <;> rfl

theorem rel_trans {x y z : FV} (hx : x ≠ .nan) (hy : y ≠ .nan) (hz : z ≠ .nan) (h1 : y.rel x ≠ .less) (h2 : z.rel y ≠ .less) :
    z.rel x ≠ .less := by
  cases x with
  | nan => exact (hx rfl).elim
  | inf a =>
    cases y with
    | nan => exact (hy rfl).elim
    | inf b =>
      cases z with
      | nan => exact (hz rfl).elim
      | inf c => cases a <;> cases b <;> cases c <;> simp_all [FV.rel]
      | fin c r => cases a <;> cases b <;> simp_all [FV.rel]
    | fin b q =>
      cases z with
      | nan => exact (hz rfl).elim
      | inf c => cases a <;> cases c <;> simp_all [FV.rel]
      | fin c r => cases a <;> simp_all [FV.rel]
  | fin a p =>
    cases y with
    | nan => exact (hy rfl).elim
    | inf b =>
      cases z with
      | nan => exact (hz rfl).elim
      | inf c => cases b <;> cases c <;> simp_all [FV.rel]
      | fin c r => cases b <;> simp_all [FV.rel]
    | fin b q =>
      cases z with
      | nan => exact (hz rfl).elim
      | inf c => cases c <;> simp_all [FV.rel]
      | fin c r =>
        simp only [FV.rel] at *
        have e1 : ¬ signed b q < signed a p := fun h => by simp [h] at h1
        have e2 : ¬ signed c r < signed b q := fun h => by simp [h] at h2
        have e3 : ¬ signed c r < signed a p := by linarith
        rw [if_neg e3]
        split <;> simp

theorem rel_asymm {x y : FV} (h : x.rel y = .less) : y.rel x ≠ .less := by
  cases x <;> cases y <;> simp only [FV.rel] at * <;> try cases h
  · rename_i a b; cases a <;> cases b <;> simp_all
  · rename_i a b q; cases a <;> simp_all
  · rename_i a q b; cases b <;> simp_all
  · rename_i a p b q
    have e : signed a p < signed b q := by
      by_contra hc
      rw [if_neg hc] at h
      split at h <;> cases h
    have e2 : ¬ signed b q < signed a p := by linarith
    rw [if_neg e2]
    split <;> simp

theorem lt_asymm {f : Fmt} {a b : Bits f} (h : lt f a b = true) : lt f b a = false := by
  simp only [lt, decide_eq_true_eq, decide_eq_false_iff_not] at *
  exact rel_asymm h

theorem noWorse_refl (up : Bool) (f : Fmt) (a : Bits f) : NoWorse up f a a := by
  have : lt f a a = false := by
    cases h : lt f a a
    · rfl
    · exact absurd h (by rw [lt_asymm h]; simp)
  rw [noWorse_lt]
  split <;> exact this

theorem noWorse_trans {up : Bool} {f : Fmt} {a b c : Bits f} (ha : isnan f a = false) (hb : isnan f b = false)
    (hc : isnan f c = false) (h1 : NoWorse up f a b) (h2 : NoWorse up f b c) : NoWorse up f a c := by
  have nn : ∀ {x : Bits f}, isnan f x = false → val f x ≠ .nan := fun {x} h e => by
    rw [(isnan_iff f x).mpr e] at h
    cases h
  cases up
  · simp only [NoWorse, Bool.false_eq_true, if_false] at *
    exact rel_trans (nn ha) (nn hb) (nn hc) h1 h2
  · simp only [NoWorse, if_true] at *
    exact rel_trans (nn hc) (nn hb) (nn ha) h2 h1

/-- Every way of writing `min` or `max` gives one of the two numbers, no worse than either. -/
theorem pick_best (fl : Flavor) (up : Bool) (f : Fmt) {a b : Bits f} (ha : isnan f a = false) (hb : isnan f b = false) :
    (pick fl up f a b = a ∨ pick fl up f a b = b) ∧ NoWorse up f (pick fl up f a b) a ∧ NoWorse up f (pick fl up f a b) b := by
  have ra := noWorse_refl up f a
  have rb := noWorse_refl up f b
  rw [noWorse_lt] at *
  rw [noWorse_lt]
  cases up <;> cases fl <;> simp only [pick, ha, hb, Bool.or_false, Bool.false_eq_true, if_false, if_true] <;>
    split_ifs <;> simp_all <;>
    exact lt_asymm (by assumption)

/-- `NaN` is not the value. -/
theorem val_ne {f : Fmt} {x : Bits f} (h : isnan f x = false) : val f x ≠ .nan := fun e => by
  rw [(isnan_iff f x).mpr e] at h
  cases h

/-- The value for the lanes that do not run. -/
def off (up : Bool) (f : Fmt) : Bits f := if up then infBits f ||| signMask f else infBits f

theorem val_off (up : Bool) (f : Fmt) : val f (off up f) = .inf up := by
  cases up <;> cases f <;> decide +kernel

theorem off_notNan (up : Bool) (f : Fmt) : isnan f (off up f) = false := by
  cases h : isnan f (off up f)
  · rfl
  · rw [isnan_iff, val_off] at h
    cases h

/-- Only an infinity of the same sign is no better than it. -/
theorem off_worst {up : Bool} {f : Fmt} {x : Bits f} (hx : isnan f x = false) (h : NoWorse up f (off up f) x) : x = off up f := by
  have e : val f x = val f (off up f) := by
    rw [val_off]
    unfold NoWorse at h
    rw [val_off] at h
    have hx := val_ne hx
    revert h hx
    generalize val f x = y
    intro h hx
    cases y with
    | nan => exact (hx rfl).elim
    | inf a => cases up <;> cases a <;> simp_all [FV.rel]
    | fin a q => cases up <;> simp_all [FV.rel]
  rcases FloatBits.val_inj e with h | h
  · exact h
  · exact ((val_ne hx) h).elim

/-! ## `reduce_min` and `reduce_max` -/

/-- **`reduce_min` and `reduce_max` of numbers none of which is NaN give, on every target, the number of a running program instance,
and no running instance has a better one.** -/
theorem reduce_float_best_partial (t : Tgt) (ty : Num) (up : Bool) (v : Vec t.lanes (Bits ty.fmt)) (m : Fin t.lanes → Bool)
    (hm : ∃ l, m l = true) (hn : ∀ l, m l = true → isnan ty.fmt (v l) = false) :
    ∃ r, reduceFloat t ty up v m = some r ∧ (∃ l, m l = true ∧ r = v l) ∧ ∀ l, m l = true → NoWorse up ty.fmt r (v l) := by
  obtain ⟨r, hr, he⟩ := reduction_each_once t ty (pick (vecFlavor t ty) up ty.fmt) (pick (uniformFlavor t ty up) up ty.fmt)
    (mask m v (off up ty.fmt))
  have hv : ∀ l, isnan ty.fmt (mask m v (off up ty.fmt) l) = false := by
    intro l
    unfold mask
    split
    · exact hn l (by assumption)
    · exact off_notNan _ _
  obtain ⟨⟨l, hl⟩, hb⟩ := each_best (P := fun x => isnan ty.fmt x = false) (fun a _ => noWorse_refl up ty.fmt a)
    (fun _ _ _ => noWorse_trans) (fun _ _ => pick_best _ _ _) (fun _ _ => pick_best _ _ _) hv he
  have hb' : ∀ k, m k = true → NoWorse up ty.fmt r (v k) := by
    intro k hk
    have := hb k
    simpa only [mask, hk, if_true] using this
  refine ⟨r, hr, ?_, hb'⟩
  by_cases hml : m l = true
  · refine ⟨l, hml, ?_⟩
    simpa only [mask, hml, if_true] using hl
  · obtain ⟨k, hk⟩ := hm
    refine ⟨k, hk, ?_⟩
    have hro : r = off up ty.fmt := by
      simp only [Bool.not_eq_true] at hml
      simpa [mask, hml] using hl
    subst hro
    exact (off_worst (hn k hk) (hb' k hk)).symm

/-- **With no program instance running `reduce_min` gives ∞ and `reduce_max` gives −∞.** -/
theorem reduce_float_none (t : Tgt) (ty : Num) (up : Bool) (v : Vec t.lanes (Bits ty.fmt)) :
    ∃ r, reduceFloat t ty up v (fun _ => false) = some r ∧ val ty.fmt r = .inf up := by
  obtain ⟨r, hr, he⟩ := reduction_each_once t ty (pick (vecFlavor t ty) up ty.fmt) (pick (uniformFlavor t ty up) up ty.fmt)
    (mask (fun _ => false) v (off up ty.fmt))
  obtain ⟨⟨l, hl⟩, -⟩ := each_best (P := fun x => isnan ty.fmt x = false) (fun a _ => noWorse_refl up ty.fmt a)
    (fun _ _ _ => noWorse_trans) (fun _ _ => pick_best _ _ _) (fun _ _ => pick_best _ _ _)
    (fun l => by simpa [mask] using off_notNan up ty.fmt) he
  refine ⟨r, hr, ?_⟩
  have : r = off up ty.fmt := by simpa [mask] using hl
  rw [this, val_off]

/-! ## Integers -/

/-- The number of a bit pattern. -/
def num (signed : Bool) {w : Nat} (a : BitVec w) : Int := if signed then a.toInt else a.toNat

/-- `a` is not greater than `b`, or for `max` not less. -/
def NoWorseInt (signed up : Bool) {w : Nat} (a b : BitVec w) : Prop :=
  if up then num signed b ≤ num signed a else num signed a ≤ num signed b

theorem pickInt_best (signed up : Bool) {w : Nat} (a b : BitVec w) :
    (pickInt signed up a b = a ∨ pickInt signed up a b = b) ∧ NoWorseInt signed up (pickInt signed up a b) a ∧
      NoWorseInt signed up (pickInt signed up a b) b := by
  have h1 := BitVec.slt_iff_toInt_lt (x := a) (y := b)
  have h2 := BitVec.slt_iff_toInt_lt (x := b) (y := a)
  have h3 := BitVec.ult_iff_lt (x := a) (y := b)
  have h4 := BitVec.ult_iff_lt (x := b) (y := a)
  rw [BitVec.lt_def] at h3 h4
  cases signed <;> cases up <;>
    simp only [pickInt, NoWorseInt, num, if_true, Bool.false_eq_true, if_false, h1, h2, h3, h4] <;>
    split_ifs <;> simp <;> omega

theorem worst_worst (signed up : Bool) {w : Nat} (a : BitVec w) : NoWorseInt signed up a (worst signed up w) := by
  rcases Nat.eq_zero_or_pos w with rfl | hw
  · have : a = worst signed up 0 := Subsingleton.elim _ _
    rw [← this]
    cases up <;> exact le_refl (num signed a)
  have h1 := BitVec.toInt_lt (x := a)
  have h2 := BitVec.le_toInt (x := a)
  have h3 := a.isLt
  cases signed <;> cases up <;> simp only [NoWorseInt, worst, num, if_true, Bool.false_eq_true, if_false]
  · rw [BitVec.toNat_allOnes]
    omega
  · simp
  · rw [BitVec.toInt_intMax]
    omega
  · rw [BitVec.toInt_intMin_of_pos hw]
    omega

theorem noWorseInt_antisymm {signed up : Bool} {w : Nat} {a b : BitVec w} (h1 : NoWorseInt signed up a b)
    (h2 : NoWorseInt signed up b a) : a = b := by
  have : num signed a = num signed b := by
    cases up <;> simp only [NoWorseInt, if_true, Bool.false_eq_true, if_false] at h1 h2 <;> omega
  cases signed
  · simp only [num, Bool.false_eq_true, if_false] at this
    exact BitVec.eq_of_toNat_eq (by omega)
  · simp only [num, if_true] at this
    exact BitVec.eq_of_toInt_eq this

/-- **`reduce_min` and `reduce_max` of integers give, on every target, the number of a running program instance, and no running instance has
a better one.** -/
theorem reduce_int_best (t : Tgt) (signed up : Bool) (w : Nat) (v : Vec t.lanes (BitVec w)) (m : Fin t.lanes → Bool)
    (hm : ∃ l, m l = true) :
    ∃ r, reduceInt t signed up w v m = some r ∧ (∃ l, m l = true ∧ r = v l) ∧ ∀ l, m l = true → NoWorseInt signed up r (v l) := by
  obtain ⟨r, hr, he⟩ := reduction_each_once t (.int w signed) (pickInt signed up) (pickInt signed up) (mask m v (worst signed up w))
  obtain ⟨⟨l, hl⟩, hb⟩ := each_best (P := fun _ => True) (le := NoWorseInt signed up)
    (fun a _ => by cases up <;> exact le_refl (num signed a))
    (fun a b c _ _ _ h1 h2 => by
      cases up <;> simp only [NoWorseInt, if_true, Bool.false_eq_true, if_false] at * <;> omega)
    (fun a b _ _ => pickInt_best signed up a b) (fun a b _ _ => pickInt_best signed up a b) (fun _ => trivial) he
  have hb' : ∀ k, m k = true → NoWorseInt signed up r (v k) := by
    intro k hk
    have := hb k
    simpa only [mask, hk, if_true] using this
  refine ⟨r, hr, ?_, hb'⟩
  by_cases hml : m l = true
  · refine ⟨l, hml, ?_⟩
    simpa only [mask, hml, if_true] using hl
  · obtain ⟨k, hk⟩ := hm
    refine ⟨k, hk, ?_⟩
    have hro : r = worst signed up w := by
      simp only [Bool.not_eq_true] at hml
      simpa [mask, hml] using hl
    subst hro
    exact noWorseInt_antisymm (hb' k hk) (worst_worst signed up (v k))

/-! ## `min`, `max` and `clamp` -/

/-- **`min` and `max` of two numbers that are not NaN give one of them, no worse than either, on every target, `uniform` or `varying`.** -/
theorem min_max_best_partial (t : Tgt) (uniform : Bool) (ty : Num) (up : Bool) (a b : Bits ty.fmt) (ha : isnan ty.fmt a = false)
    (hb : isnan ty.fmt b = false) :
    (minMax t uniform ty up a b = a ∨ minMax t uniform ty up a b = b) ∧ NoWorse up ty.fmt (minMax t uniform ty up a b) a ∧
      NoWorse up ty.fmt (minMax t uniform ty up a b) b :=
  pick_best _ up ty.fmt ha hb

/-- `a ≤ b`. -/
abbrev Le (f : Fmt) (a b : Bits f) : Prop := NoWorse false f a b

theorem noWorse_up {f : Fmt} {a b : Bits f} : NoWorse true f a b ↔ Le f b a := by simp [NoWorse, Le]

/-- **`clamp(v, low, high)` of numbers that are not NaN, with `low ≤ high`, is between them, and equal to `v` if `v` is.** -/
theorem clamp_within_partial (t : Tgt) (uniform : Bool) (ty : Num) (v low high : Bits ty.fmt) (hv : isnan ty.fmt v = false)
    (hl : isnan ty.fmt low = false) (hh : isnan ty.fmt high = false) (hlh : Le ty.fmt low high) :
    (clamp t uniform ty v low high = v ∨ clamp t uniform ty v low high = low ∨ clamp t uniform ty v low high = high) ∧
      Le ty.fmt low (clamp t uniform ty v low high) ∧ Le ty.fmt (clamp t uniform ty v low high) high ∧
      (Le ty.fmt low v → Le ty.fmt v high → Le ty.fmt (clamp t uniform ty v low high) v ∧ Le ty.fmt v (clamp t uniform ty v low high)) ∧
      (Le ty.fmt v low → Le ty.fmt (clamp t uniform ty v low high) low) ∧
      (Le ty.fmt high v → Le ty.fmt high (clamp t uniform ty v low high)) := by
  obtain ⟨s1, a1, a2⟩ := min_max_best_partial t uniform ty true v low hv hl
  rw [noWorse_up] at a1 a2
  have hm : isnan ty.fmt (minMax t uniform ty true v low) = false := by rcases s1 with h | h <;> rw [h] <;> assumption
  obtain ⟨s2, b1, b2⟩ := min_max_best_partial t uniform ty false _ high hm hh
  have e : clamp t uniform ty v low high = minMax t uniform ty false (minMax t uniform ty true v low) high := rfl
  rw [e]
  have hr : isnan ty.fmt (minMax t uniform ty false (minMax t uniform ty true v low) high) = false := by
    rcases s2 with h | h <;> rw [h] <;> assumption
  have tr : ∀ {x y z : Bits ty.fmt}, isnan ty.fmt x = false → isnan ty.fmt y = false → isnan ty.fmt z = false →
    Le ty.fmt x y → Le ty.fmt y z → Le ty.fmt x z := fun h1 h2 h3 h4 h5 => noWorse_trans h1 h2 h3 h4 h5
  have rf : ∀ x : Bits ty.fmt, Le ty.fmt x x := noWorse_refl false ty.fmt
  generalize minMax t uniform ty false (minMax t uniform ty true v low) high = r at *
  generalize minMax t uniform ty true v low = k at *
  refine ⟨?_, ?_, b2, fun h1 h2 => ⟨?_, ?_⟩, fun h1 => ?_, fun h1 => ?_⟩
  · rcases s2 with rfl | rfl
    · rcases s1 with rfl | rfl <;> simp
    · simp
  · rcases s2 with rfl | rfl <;> assumption
  · rcases s1 with rfl | rfl
    · exact b1
    · exact tr hr hl hv b1 h1
  · rcases s2 with rfl | rfl <;> assumption
  · rcases s1 with rfl | rfl
    · exact tr hr hv hl b1 h1
    · exact b1
  · rcases s2 with rfl | rfl
    · exact tr hh hv hr h1 a1
    · exact rf _

/-! ## Sums -/

/-- **On every target a sum adds the number of every lane exactly once, besides zeros.** -/
theorem sum_each_once (t : Tgt) (ty : Num) (zero minus : α) (f : α → α → α) (v : Vec t.lanes α) :
    ∃ r, sumFloat t ty zero minus f v = some r ∧ EachOnce (fun c => c = zero ∨ c = minus) f f v r := by
  have hz : (fun c => c = zero ∨ c = minus) zero := Or.inl rfl
  have hmi : (fun c => c = zero ∨ c = minus) minus := Or.inr rfl
  have g : ∀ {W : Nat} (v : Vec W α) (hs : List Nat), Good W hs → ∃ r, halving hs f f (fun l => some (v l)) = some r ∧
      EachOnce (fun c => c = zero ∨ c = minus) f f v r := fun v hs h => halving_each f f v h
  have b4 : ∀ v : Vec 8 α, ∃ r, by4 f f (fun l => some (v l)) = some r ∧
      EachOnce (fun c => c = zero ∨ c = minus) f f v r := fun v => by4_each f f v
  have io : ∀ {W : Nat} (v : Vec W α), ∃ r, inOrder f (some minus) (fun l => some (v l)) = some r ∧
      EachOnce (fun c => c = zero ∨ c = minus) f f v r := fun v => inOrder_start_each f f v hmi
  have h4 : ∀ v : Vec 4 α, ∃ r, some (addHadd4 f v) = some r ∧ EachOnce (fun c => c = zero ∨ c = minus) f f v r := fun v =>
    ⟨f (f (v 0) (v 1)) (f (v 2) (v 3)), rfl, _, by decide, .vec (.vec (.lane 0) (.lane 1)) (.vec (.lane 2) (.lane 3))⟩
  have f8 : ∀ v : Vec 8 α, ∃ r, some (addFold8 f v) = some r ∧ EachOnce (fun c => c = zero ∨ c = minus) f f v r := fun v =>
    ⟨f (f (f (v 0) (v 4)) (f (v 1) (v 5))) (f (f (v 2) (v 6)) (f (v 3) (v 7))), rfl, _, by decide,
      .vec (.vec (.vec (.lane 0) (.lane 4)) (.vec (.lane 1) (.lane 5))) (.vec (.vec (.lane 2) (.lane 6)) (.vec (.lane 3) (.lane 7)))⟩
  have h8 : ∀ v : Vec 8 α, ∃ r, some (addHadd8 f v) = some r ∧ EachOnce (fun c => c = zero ∨ c = minus) f f v r := fun v =>
    ⟨f (f (f (v 0) (v 1)) (f (v 2) (v 3))) (f (f (v 4) (v 5)) (f (v 6) (v 7))), rfl, _, by decide,
      .vec (.vec (.vec (.lane 0) (.lane 1)) (.vec (.lane 2) (.lane 3))) (.vec (.vec (.lane 4) (.lane 5)) (.vec (.lane 6) (.lane 7)))⟩
  have h16 : ∀ v : Vec 16 α, ∃ r, some (addHadd16 f v) = some r ∧ EachOnce (fun c => c = zero ∨ c = minus) f f v r := fun v =>
    ⟨f (f (f (f (v 0) (v 1)) (f (v 2) (v 3))) (f (f (v 8) (v 9)) (f (v 10) (v 11))))
      (f (f (f (v 4) (v 5)) (f (v 6) (v 7))) (f (f (v 12) (v 13)) (f (v 14) (v 15)))), rfl, _, by decide,
      .vec (.vec (.vec (.vec (.lane 0) (.lane 1)) (.vec (.lane 2) (.lane 3))) (.vec (.vec (.lane 8) (.lane 9)) (.vec (.lane 10) (.lane 11))))
        (.vec (.vec (.vec (.lane 4) (.lane 5)) (.vec (.lane 6) (.lane 7))) (.vec (.vec (.lane 12) (.lane 13)) (.vec (.lane 14) (.lane 15))))⟩
  have p4 : ∀ v : Vec 4 α, ∃ r, some (addPairs4 f v) = some r ∧ EachOnce (fun c => c = zero ∨ c = minus) f f v r := fun v =>
    ⟨f (f (v 0) (v 2)) (f (v 1) (v 3)), rfl, _, by decide, .vec (.vec (.lane 0) (.lane 2)) (.vec (.lane 1) (.lane 3))⟩
  have hd4 : ∀ v : Vec 4 α, ∃ r, some (addHaddPd4 f v) = some r ∧ EachOnce (fun c => c = zero ∨ c = minus) f f v r := fun v =>
    ⟨f (f (v 0) (v 1)) (f (v 2) (v 3)), rfl, _, by decide, .vec (.vec (.lane 0) (.lane 1)) (.vec (.lane 2) (.lane 3))⟩
  have z4 : ∀ v : Vec 4 α, ∃ r, some (addZeroPd4 zero f v) = some r ∧ EachOnce (fun c => c = zero ∨ c = minus) f f v r := fun v =>
    ⟨f (f (f (v 0) (v 1)) (f zero zero)) (f (f (v 2) (v 3)) (f zero zero)), rfl, _, by decide,
      .vec (.vec (.vec (.lane 0) (.lane 1)) (.vec (.const hz) (.const hz))) (.vec (.vec (.lane 2) (.lane 3)) (.vec (.const hz) (.const hz)))⟩
  have hd8 : ∀ v : Vec 8 α, ∃ r, some (addHaddPd8 f v) = some r ∧ EachOnce (fun c => c = zero ∨ c = minus) f f v r := fun v =>
    ⟨f (f (f (v 0) (v 1)) (f (v 4) (v 5))) (f (f (v 2) (v 3)) (f (v 6) (v 7))), rfl, _, by decide,
      .vec (.vec (.vec (.lane 0) (.lane 1)) (.vec (.lane 4) (.lane 5))) (.vec (.vec (.lane 2) (.lane 3)) (.vec (.lane 6) (.lane 7)))⟩
  have fd8 : ∀ v : Vec 8 α, ∃ r, some (addFoldPd8 f v) = some r ∧ EachOnce (fun c => c = zero ∨ c = minus) f f v r := fun v =>
    ⟨f (f (f (v 0) (v 4)) (f (v 1) (v 5))) (f (f (v 2) (v 6)) (f (v 3) (v 7))), rfl, _, by decide,
      .vec (.vec (.vec (.lane 0) (.lane 4)) (.vec (.lane 1) (.lane 5))) (.vec (.vec (.lane 2) (.lane 6)) (.vec (.lane 3) (.lane 7)))⟩
  have hd16 : ∀ v : Vec 16 α, ∃ r, some (addHaddPd16 f v) = some r ∧ EachOnce (fun c => c = zero ∨ c = minus) f f v r := fun v =>
    ⟨f (f (f (f (v 0) (v 4)) (f (v 1) (v 5))) (f (f (v 8) (v 12)) (f (v 9) (v 13))))
      (f (f (f (v 2) (v 6)) (f (v 3) (v 7))) (f (f (v 10) (v 14)) (f (v 11) (v 15)))), rfl, _, by decide,
      .vec (.vec (.vec (.vec (.lane 0) (.lane 4)) (.vec (.lane 1) (.lane 5))) (.vec (.vec (.lane 8) (.lane 12)) (.vec (.lane 9) (.lane 13))))
        (.vec (.vec (.vec (.lane 2) (.lane 6)) (.vec (.lane 3) (.lane 7))) (.vec (.vec (.lane 10) (.lane 14)) (.vec (.lane 11) (.lane 15))))⟩
  cases ty <;> cases t <;> first
    | exact io v
    | exact h4 v
    | exact f8 v
    | exact h8 v
    | exact h16 v
    | exact p4 v
    | exact hd4 v
    | exact z4 v
    | exact hd8 v
    | exact fd8 v
    | exact hd16 v
    | exact b4 v
    | exact g v _ (by simp [Tgt.lanes, Tgt.halves, Good])

/-- `x` is the number `q`. -/
def Is (x : FV) (q : ℚ) : Prop := ∃ s p, x = .fin s p ∧ signed s p = q

theorem ofQ_exact {f : Fmt} {n : Int} {e : Int} (z : Bool) (hn : n.natAbs < 2 ^ f.prec) (he : f.emin ≤ e)
    (hb : (n.natAbs : ℚ) * 2 ^ e < 2 ^ f.emax) : Is (FloatBits.ofQ f z ((n : ℚ) * 2 ^ e)) ((n : ℚ) * 2 ^ e) := by
  have hp : (0 : ℚ) < 2 ^ e := Fold.zpow_pos2 e
  unfold FloatBits.ofQ
  split
  · rename_i h0
    exact ⟨z, 0, rfl, by rw [h0]; cases z <;> simp [signed]⟩
  · rename_i h0
    have ea : |(n : ℚ) * 2 ^ e| = (n.natAbs : ℚ) * 2 ^ e := by
      rw [abs_mul, abs_of_pos hp, Nat.cast_natAbs, Int.cast_abs]
    rw [ea, Fold.round, Fold.roundMag_exact hn he, if_neg (not_le.mpr hb)]
    refine ⟨_, _, rfl, ?_⟩
    unfold signed
    have hn0 : (n : ℚ) * 2 ^ e < 0 ↔ n < 0 := by
      constructor
      · intro h
        by_contra hc
        have : (0 : ℚ) ≤ n := by exact_mod_cast not_lt.mp hc
        exact absurd (mul_nonneg this hp.le) (not_le.mpr h)
      · intro h
        exact mul_neg_of_neg_of_pos (by exact_mod_cast h) hp
    by_cases hneg : n < 0
    · rw [if_pos (by simpa [hn0] using hneg), Nat.cast_natAbs, abs_of_neg hneg]
      push_cast
      ring
    · rw [if_neg (by simpa [hn0] using hneg), Nat.cast_natAbs, abs_of_nonneg (not_lt.mp hneg)]

theorem combines_sum {f : Fmt} {v : Fin W → FV} {n : Fin W → Int} {e : Int} {T : Nat} (he : f.emin ≤ e)
    (hT : T < 2 ^ f.prec) (hb : (T : ℚ) * 2 ^ e < 2 ^ f.emax) (hv : ∀ l, Is (v l) ((n l : ℚ) * 2 ^ e))
    {ls : List (Fin W)} {r : FV} (h : Combines (fun c => c = .fin false 0 ∨ c = .fin true 0) (fadd f) (fadd f) v ls r) :
    (ls.map fun l => (n l).natAbs).sum ≤ T → Is r (((ls.map n).sum : Int) * 2 ^ e) := by
  have step : ∀ {a b : FV} {ls ms : List (Fin W)}, Is a (((ls.map n).sum : Int) * 2 ^ e) → Is b (((ms.map n).sum : Int) * 2 ^ e) →
      ((ls ++ ms).map fun l => (n l).natAbs).sum ≤ T → Is (fadd f a b) ((((ls ++ ms).map n).sum : Int) * 2 ^ e) := by
    rintro a b ls ms ⟨s, p, rfl, hs⟩ ⟨s', p', rfl, hs'⟩ hle
    have e1 : signed s p - signed (!s') p' = ((((ls ++ ms).map n).sum : Int) : ℚ) * 2 ^ e := by
      have : signed (!s') p' = - signed s' p' := by cases s' <;> simp [signed]
      rw [this, hs, hs', List.map_append, List.sum_append]
      push_cast
      ring
    have e2 : ∀ xs : List (Fin W), (xs.map n).sum.natAbs ≤ (xs.map fun l => (n l).natAbs).sum := by
      intro xs
      induction xs with
      | nil => simp
      | cons x xs ih =>
        simp only [List.map_cons, List.sum_cons]
        have := Int.natAbs_add_le (n x) (xs.map n).sum
        omega
    have e3 := (e2 (ls ++ ms)).trans hle
    show Is (FloatBits.ofQ f _ (signed s p - signed (!s') p')) _
    rw [e1]
    refine ofQ_exact _ (lt_of_le_of_lt e3 hT) he (lt_of_le_of_lt ?_ hb)
    exact mul_le_mul_of_nonneg_right (by exact_mod_cast e3) (Fold.zpow_pos2 e).le
  induction h with
  | lane l => intro _; simpa using hv l
  | const hc =>
    intro _
    rcases hc with rfl | rfl
    · exact ⟨_, _, rfl, by simp [signed]⟩
    · exact ⟨_, _, rfl, by simp [signed]⟩
  | vec ha hb iha ihb =>
    intro hle
    have := hle
    rw [List.map_append, List.sum_append] at this
    exact step (iha (by omega)) (ihb (by omega)) hle
  | sca ha hb iha ihb =>
    intro hle
    have := hle
    rw [List.map_append, List.sum_append] at this
    exact step (iha (by omega)) (ihb (by omega)) hle

/-- **`reduce_add` is the exact sum of the numbers of the running program instances, on every target, whenever they are multiples of a
power of two whose magnitudes add up to a number of the type.** -/
theorem reduce_add_exact_partial (t : Tgt) (ty : Num) (v : Vec t.lanes FV) (m : Fin t.lanes → Bool) (n : Fin t.lanes → Int) (e : Int)
    (hv : ∀ l, m l = true → Is (v l) ((n l : ℚ) * 2 ^ e)) (he : ty.fmt.emin ≤ e)
    (hT : (∑ l, if m l then (n l).natAbs else 0) < 2 ^ ty.fmt.prec)
    (hb : ((∑ l, if m l then (n l).natAbs else 0 : Nat) : ℚ) * 2 ^ e < 2 ^ ty.fmt.emax) :
    ∃ r, reduceAdd t ty v m = some r ∧ Is r ((∑ l, if m l then n l else 0 : Int) * 2 ^ e) := by
  obtain ⟨r, hr, ls, hp, hc⟩ := sum_each_once t ty (FV.fin false 0) (FV.fin true 0) (fadd ty.fmt) (mask m v (.fin false 0))
  refine ⟨r, hr, ?_⟩
  have hsum : ∀ {β : Type} [AddCommMonoid β] (g : Fin t.lanes → β), (ls.map g).sum = ∑ l, g l := by
    intro β _ g
    rw [(hp.map g).sum_eq, Fin.sum_univ_def]
  have := combines_sum (n := fun l => if m l then n l else 0) he hT hb (fun l => ?_) hc ?_
  · rw [hsum] at this
    exact this
  · unfold mask
    by_cases hm : m l = true
    · simp only [hm, if_true]
      exact hv l hm
    · simp only [Bool.not_eq_true] at hm
      simp only [hm, Bool.false_eq_true, if_false]
      exact ⟨false, 0, rfl, by simp [signed]⟩
  · rw [hsum]
    refine le_of_eq (Finset.sum_congr rfl fun l _ => ?_)
    cases m l <;> simp

/-! ## What does not hold -/

/-- The bits of numbers: 1, 5, 6 and a NaN. -/
def one : Bits (Num.fmt .float) := 0x3F800000#32
def five : Bits (Num.fmt .float) := 0x40A00000#32
def six : Bits (Num.fmt .float) := 0x40C00000#32
def nan : Bits (Num.fmt .float) := 0x7FC00000#32

/-- Four numbers, one of them a NaN. -/
def withNan : Vec 4 (Bits (Num.fmt .float)) := ![nan, five, one, six]

/-- **With a NaN among the numbers `reduce_min` can give a number greater than that of another running instance: 5 of NaN, 5, 1 and 6 for
SSE4, and 1 where the code is that of generic.ispc.** -/
theorem reduce_min_nan_wrong :
    reduceFloat .sse4I32x4 .float false withNan (fun _ => true) = some five ∧
      reduceFloat (.generic 3) .float false withNan (fun _ => true) = some one := by
  decide +kernel

/-- **`max(1, NaN)` is 1 for `uniform` and NaN for `varying` numbers on AVX, while `max(NaN, 1)` is the other way round.** -/
theorem max_uniform_varying_wrong :
    minMax .avx1I32x8 true .float true one nan = one ∧ minMax .avx1I32x8 false .float true one nan = nan ∧
      minMax .avx1I32x8 true .float true nan one = nan ∧ minMax .avx1I32x8 false .float true nan one = one := by
  decide +kernel

/-- **`clamp(NaN, 1, 6)` is 1 for SSE4 and in generic.ispc, and 6 for `uniform` numbers of AVX.** -/
theorem clamp_nan_wrong :
    clamp .sse4I32x4 true .float nan one six = one ∧ clamp (.generic 3) true .float nan one six = one ∧
      clamp .avx1I32x8 true .float nan one six = six := by
  decide +kernel

/-- **The sum of four `double` −0.0 is +0.0 for `avx1-i64x4`, and −0.0 on other targets.** -/
theorem sum_minus_zero_wrong :
    reduceAdd .avx1I64x4 .double (fun _ => .fin true 0) (fun _ => true) = some (.fin false 0) ∧
      reduceAdd .avx512X4 .double (fun _ => .fin true 0) (fun _ => true) = some (.fin true 0) ∧
      reduceAdd .sse4I32x4 .double (fun _ => .fin true 0) (fun _ => true) = some (.fin true 0) := by
  decide +kernel

/-- Four numbers whose sum depends on the order. -/
def orderly : Vec 4 FV := ![.fin false (2 ^ 24), .fin false 1, .fin true (2 ^ 24), .fin false 1]

/-- **The sum of the same four `float` numbers is 1 for `avx512skx-x4` and 2 for SSE2.** -/
theorem sum_order_wrong :
    reduceAdd .avx512X4 .float orderly (fun _ => true) = some (.fin false 1) ∧
      reduceAdd .sse2I32x4 .float orderly (fun _ => true) = some (.fin false 2) := by
  decide +kernel

/-! ## Concrete cases -/

/-- A case of `reduce_float_best_partial`: `reduce_min` of 6, 5, 1 and 6 with the third instance not running. -/
example : (∀ l : Fin 4, (![true, true, false, true] : Fin 4 → Bool) l = true →
      isnan (Num.fmt .float) ((![six, five, one, six] : Vec 4 (Bits (Num.fmt .float))) l) = false) ∧
    reduceFloat .avx512X4 .float false ![six, five, one, six] ![true, true, false, true] = some five ∧
    reduceFloat .avx512X4 .float true ![six, five, one, six] ![true, true, false, true] = some six := by
  decide +kernel

/-- A case of `reduce_int_best`. -/
example : reduceInt .sse4I32x8 true false 32 (fun l => BitVec.ofNat 32 (7 * l.val + 3)) (fun l => decide (2 ≤ l.val)) = some 17#32 ∧
    reduceInt .sse4I32x8 true true 32 (fun l => BitVec.ofInt 32 (- l.val)) (fun l => decide (2 ≤ l.val)) = some (BitVec.ofInt 32 (-2)) ∧
    reduceInt .avx2I8x32 false true 8 (fun l => BitVec.ofNat 8 (7 * l.val + 3)) (fun l => decide (l.val ≤ 20)) = some 143#8 := by
  decide +kernel

/-- A case of `clamp_within_partial`. -/
example : Le (Num.fmt .float) one six ∧ clamp .avx512X8 false .float five one six = five ∧ clamp .avx512X8 false .float one five six = five ∧
    clamp .avx512X8 true .float six one five = five := by
  refine ⟨?_, ?_⟩
  · show (val (Num.fmt .float) six).rel (val (Num.fmt .float) one) ≠ .less
    decide +kernel
  · decide +kernel

/-- A case of `reduce_add_exact_partial`: 1.5, 2.5 and −1 are multiples of one half. -/
example : ∃ r, reduceAdd .avx1I64x4 .double ![.fin false (3 / 2), .nan, .fin false (5 / 2), .fin true 1] ![true, false, true, true] = some r ∧
    Is r 3 := by
  obtain ⟨r, hr, h⟩ := reduce_add_exact_partial .avx1I64x4 .double ![.fin false (3 / 2), .nan, .fin false (5 / 2), .fin true 1]
    ![true, false, true, true] ![3, 0, 5, -2] (-1)
    (by
      intro l hl
      have : ∀ l : Fin 4, (![true, false, true, true] : Fin 4 → Bool) l = true →
          Is ((![.fin false (3 / 2), .nan, .fin false (5 / 2), .fin true 1] : Fin 4 → FV) l) (((![3, 0, 5, -2] : Fin 4 → Int) l : ℚ) * 2 ^ (-1 : Int)) := by
        intro l hl
        match l, hl with
        | 0, _ => exact ⟨false, 3 / 2, rfl, by simp [signed]; norm_num⟩
        | 2, _ => exact ⟨false, 5 / 2, rfl, by simp [signed]; norm_num⟩
        | 3, _ => exact ⟨true, 1, rfl, by simp [signed]⟩
      exact this l hl)
    (by decide) (by decide +kernel) (by decide +kernel)
  refine ⟨r, hr, ?_⟩
  have e : ((∑ l : Fin 4, if (![true, false, true, true] : Fin 4 → Bool) l then (![3, 0, 5, -2] : Fin 4 → Int) l else 0 : Int) : ℚ) * 2 ^ (-1 : Int) = 3 := by
    decide +kernel
  rw [← e]
  exact h

end Ispc.Reduce
