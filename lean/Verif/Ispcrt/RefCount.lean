import Mathlib.Data.List.Count
import Mathlib.Tactic.Common
import Mathlib.Tactic.IntervalCases
import Mathlib.Data.List.Induction
import Mathlib.Data.List.Nodup

/-!
# C36: reference-counted runtime objects

`RefCounted` and `IntrusivePtr` (`ispcrt/detail/IntrusivePtr.h`), the C entry points `ispcrtRetain` and
`ispcrtRelease`, the C++ handle `GenericObject` of `ispcrt/ispcrt.hpp`, and the futures kept by queues and
command lists (`ispcrt/detail/cpu/CPUDevice.cpp`).

A state has any number of objects and of handle variables.  A history is a sequence of calls; calls are taken
one at a time (the counter is a `std::atomic`, and two threads may not use the same handle variable at the
same time).  Objects that themselves hold references (a kernel on its module, a queue on its command lists)
are not modelled: the reference such an object holds is one of the raw references below.
-/

namespace Ispc.RefCount

/-- Which handle class the history uses. -/
inductive Kind where
  /-- `IntrusivePtr<T>` -/
  | intrusive
  /-- `GenericObject<HANDLE_T>` -/
  | generic
deriving DecidableEq

/-- `cnt`: `refCounter` of each object; `freed`: how often it has been deleted; `bad`: a deleted object, or the
    null pointer, has been used.
    Who refers to objects: `hs`, the handle variables (`none`: null or gone); `raw`, references held by C code
    as plain pointers; `q`, the futures kept by a queue or command list. -/
structure St where
  cnt : Nat → Int
  freed : Nat → Nat
  bad : Bool
  hs : List (Option Nat)
  raw : Nat → Nat
  q : List Nat
  next : Nat

/-- Nothing exists. -/
def init : St := ⟨fun _ => 0, fun _ => 0, false, [], fun _ => 0, [], 0⟩

def upd {β : Type} (f : Nat → β) (a : Nat) (v : β) : Nat → β := fun x => if x = a then v else f x

@[simp, grind =] theorem upd_apply {β : Type} (f : Nat → β) (a : Nat) (v : β) (x : Nat) :
    upd f a v x = if x = a then v else f x := rfl

/-- How many references to object `o` there are. -/
def St.owners (s : St) (o : Nat) : Nat := s.hs.count (some o) + s.raw o + s.q.count o

/-- `RefCounted::refInc` (ispcrt/detail/IntrusivePtr.h:34). -/
def St.inc (s : St) (o : Nat) : St :=
  { s with cnt := upd s.cnt o (s.cnt o + 1), bad := s.bad || decide (0 < s.freed o) }

/-- `RefCounted::refDec` (ispcrt/detail/IntrusivePtr.h:36-39). -/
def St.dec (s : St) (o : Nat) : St :=
  { s with
    cnt := upd s.cnt o (s.cnt o - 1)
    freed := if s.cnt o - 1 = 0 then upd s.freed o (s.freed o + 1) else s.freed
    bad := s.bad || decide (0 < s.freed o) }

/-- `if (ptr) ptr->refInc()` -/
def St.incOpt (s : St) : Option Nat → St
  | none => s
  | some o => s.inc o

/-- `ispcrtRetain(h)` (ispcrt/ispcrt.cpp:527-530), which does not test for null
    (`referenceFromHandle`, ispcrt/ispcrt.cpp:47-50). -/
def St.retain (s : St) : Option Nat → St
  | none => { s with bad := true }
  | some o => s.inc o

/-- `if (ptr) ptr->refDec()` -/
def St.decOpt (s : St) : Option Nat → St
  | none => s
  | some o => s.dec o

/-- `delete f`, whatever its count. -/
def St.del (s : St) (o : Nat) : St :=
  { s with cnt := upd s.cnt o 0, freed := upd s.freed o (s.freed o + 1), bad := s.bad || decide (0 < s.freed o) }

/-- The calls. -/
inductive Op where
  /-- `ispcrtNew...`: a new object, whose count is 1 (ispcrt/detail/IntrusivePtr.h:29); the caller gets a raw
      reference -/
  | create
  /-- `ispcrtRetain(o)`, `ispcrtRelease(o)` from C code -/
  | retain (o : Nat)
  | release (o : Nat)
  /-- a handle from a raw pointer, which counts a reference of its own: `IntrusivePtr(T *)`
      (ispcrt/detail/IntrusivePtr.h:99-102), `Future(f)` and `Fence(f)` (ispcrt/ispcrt.hpp:96-99, 120-123) -/
  | wrap (o : Nat)
  /-- a handle that takes over the raw reference: `GenericObject(object)` (ispcrt/ispcrt.hpp:43) -/
  | adopt (o : Nat)
  /-- copy and move constructors, destructor -/
  | copy (h : Nat)
  | move (h : Nat)
  | destroy (h : Nat)
  /-- `h = g`, `h = std::move(g)`, and `h = o` for a raw pointer (`IntrusivePtr` only) -/
  | assignCopy (h g : Nat)
  | assignMove (h g : Nat)
  | assignRaw (h o : Nat)
  /-- a launch on a queue or command list: a new future with count 1, kept in `m_futures`
      (ispcrt/detail/cpu/CPUDevice.cpp:256-277, 380-400) -/
  | launch
  /-- `CommandListImpl::clearFutures` (ispcrt/detail/cpu/CPUDevice.cpp:312-319) -/
  | clear
  /-- `~TaskQueue` (ispcrt/detail/cpu/CPUDevice.cpp:355-360) -/
  | dropQueue

/-- The pointer in handle variable `h`. -/
def St.get (s : St) (h : Nat) : Option Nat := (s.hs[h]?).join

/-- A call the program may make: handles exist, and a raw pointer is used only while the program, or the queue
    it got it from, has a reference.  `IntrusivePtr` alone has `assignRaw`, `GenericObject` alone `adopt`. -/
def Legal (k : Kind) (s : St) : Op → Prop
  | .create | .launch | .clear | .dropQueue => True
  | .retain o | .wrap o => 0 < s.owners o
  | .release o => 0 < s.raw o
  | .adopt o => k = .generic ∧ 0 < s.raw o
  | .copy h | .move h | .destroy h => h < s.hs.length
  | .assignCopy h g | .assignMove h g => h < s.hs.length ∧ g < s.hs.length
  | .assignRaw h o => k = .intrusive ∧ h < s.hs.length ∧ 0 < s.owners o

/-- What the call does. -/
def step (k : Kind) (s : St) : Op → St
  | .create => { s with cnt := upd s.cnt s.next 1, raw := upd s.raw s.next 1, next := s.next + 1 }
  | .retain o => { s.inc o with raw := upd s.raw o (s.raw o + 1) }
  | .release o => { s.dec o with raw := upd s.raw o (s.raw o - 1) }
  | .wrap o => { s.inc o with hs := s.hs ++ [some o] }
  | .adopt o => { s with raw := upd s.raw o (s.raw o - 1), hs := s.hs ++ [some o] }
  | .copy h =>
    match k with
    -- ispcrt/detail/IntrusivePtr.h:83-86
    | .intrusive => { s.incOpt (s.get h) with hs := s.hs ++ [s.get h] }
    -- ispcrt/ispcrt.hpp:50-53
    | .generic => { s.retain (s.get h) with hs := s.hs ++ [s.get h] }
  -- ispcrt/detail/IntrusivePtr.h:88-90, ispcrt/ispcrt.hpp:55-58
  | .move h => { s with hs := s.hs.set h none ++ [s.get h] }
  -- ispcrt/detail/IntrusivePtr.h:78-81, ispcrt/ispcrt.hpp:45-48
  | .destroy h => { s.decOpt (s.get h) with hs := s.hs.set h none }
  | .assignCopy h g =>
    match k with
    -- ispcrt/detail/IntrusivePtr.h:104-111
    | .intrusive => { (s.incOpt (s.get g)).decOpt (s.get h) with hs := s.hs.set h (s.get g) }
    -- ispcrt/ispcrt.hpp:60-65
    | .generic => { s.retain (s.get g) with hs := s.hs.set h (s.get g) }
  -- ispcrt/detail/IntrusivePtr.h:113-117, ispcrt/ispcrt.hpp:67-72
  | .assignMove h g => { s with hs := (s.hs.set h (s.get g)).set g none }
  -- ispcrt/detail/IntrusivePtr.h:119-126
  | .assignRaw h o => { (s.inc o).decOpt (s.get h) with hs := s.hs.set h (some o) }
  | .launch => { s with cnt := upd s.cnt s.next 1, q := s.next :: s.q, next := s.next + 1 }
  | .clear => { s.q.foldl St.dec s with q := [] }
  | .dropQueue => { s.q.foldl St.del s with q := [] }

/-- Calls that do not run into the two faults that make a pointer dangle: copying a null `GenericObject`, and
    destroying a `TaskQueue` one of whose futures is still referred to. -/
def NoDangle (k : Kind) (s : St) : Op → Prop
  | .copy h => k = .generic → s.get h ≠ none
  | .assignCopy _ g => k = .generic → s.get g ≠ none
  | .dropQueue => ∀ o ∈ s.q, s.owners o = 1
  | _ => True

/-- Calls that do not overwrite a handle without releasing what it held. -/
def NoLeak (k : Kind) (s : St) : Op → Prop
  | .assignCopy h _ => k = .generic → s.get h = none
  | .assignMove h g => s.get h = none ∧ h ≠ g
  | _ => True

/-- States reached by histories of legal calls all of which satisfy `P`. -/
inductive Hist (k : Kind) (P : St → Op → Prop) : St → Prop where
  | init : Hist k P init
  | step (s op) : Hist k P s → Legal k s op → P s op → Hist k P (step k s op)

/-- Safety: nothing deleted was used, nothing is deleted twice, and what is referred to is not deleted. -/
def Safe (s : St) : Prop :=
  s.bad = false ∧ ∀ o, s.freed o ≤ 1 ∧ (0 < s.owners o → s.freed o = 0)

/-- Exactness: an object is deleted, once, as soon as nothing refers to it. -/
def Exact (s : St) : Prop :=
  ∀ o, o < s.next → (s.freed o = if s.owners o = 0 then 1 else 0) ∧ (0 < s.owners o → s.cnt o = s.owners o)

/-! ## Proofs -/

theorem owners_eq (s : St) (o : Nat) : s.owners o = s.hs.count (some o) + s.raw o + s.q.count o := rfl

theorem get_of_lt {s : St} {h : Nat} (hl : h < s.hs.length) : s.get h = s.hs[h] := by
  simp [St.get, List.getElem?_eq_getElem hl]

theorem count_set_get {s : St} {h : Nat} (hl : h < s.hs.length) (v : Option Nat) (o : Nat) :
    (s.hs.set h v).count (some o) + (if s.get h = some o then 1 else 0) =
      s.hs.count (some o) + (if v = some o then 1 else 0) := by
  rw [List.count_set hl, get_of_lt hl]
  have : s.hs[h] = some o → 0 < s.hs.count (some o) := by
    intro e
    rw [← e]
    exact List.count_pos_iff.mpr (List.getElem_mem hl)
  by_cases h1 : s.hs[h] = some o <;> by_cases h2 : v = some o <;> simp [h1, h2] <;> (have := this; simp_all; try omega)

theorem count_pos_of_get {s : St} {h o : Nat} (hl : h < s.hs.length) (e : s.get h = some o) :
    0 < s.hs.count (some o) := by
  rw [get_of_lt hl] at e
  rw [← e]
  exact List.count_pos_iff.mpr (List.getElem_mem hl)

theorem count_append_one (l : List (Option Nat)) (v : Option Nat) (o : Nat) :
    (l ++ [v]).count (some o) = l.count (some o) + (if v = some o then 1 else 0) := by
  rw [List.count_append, List.count_singleton]
  simp

@[simp] theorem inc_hs (s : St) (o : Nat) : (s.inc o).hs = s.hs := rfl
@[simp] theorem inc_raw (s : St) (o : Nat) : (s.inc o).raw = s.raw := rfl
@[simp] theorem inc_q (s : St) (o : Nat) : (s.inc o).q = s.q := rfl
@[simp] theorem inc_next (s : St) (o : Nat) : (s.inc o).next = s.next := rfl
@[simp] theorem dec_hs (s : St) (o : Nat) : (s.dec o).hs = s.hs := rfl
@[simp] theorem dec_raw (s : St) (o : Nat) : (s.dec o).raw = s.raw := rfl
@[simp] theorem dec_q (s : St) (o : Nat) : (s.dec o).q = s.q := rfl
@[simp] theorem dec_next (s : St) (o : Nat) : (s.dec o).next = s.next := rfl

/-- The count covers the references, given as a number per object; an object is deleted exactly when its count
    is 0. -/
def Cov (s : St) (own : Nat → Nat) : Prop :=
  s.bad = false ∧ (∀ o, o < s.next → (own o : Int) ≤ s.cnt o ∧ s.freed o = if s.cnt o = 0 then 1 else 0) ∧
  ∀ o, s.next ≤ o → own o = 0 ∧ s.freed o = 0

/-- The count is the number of references. -/
def TightC (s : St) (own : Nat → Nat) : Prop := ∀ o, o < s.next → s.cnt o = own o

theorem cov_inc {s : St} {own : Nat → Nat} {o : Nat} (h : Cov s own) (ho : 0 < own o) :
    Cov (s.inc o) (upd own o (own o + 1)) ∧ (TightC s own → TightC (s.inc o) (upd own o (own o + 1))) := by
  obtain ⟨h1, h2, h3⟩ := h
  have hlt : o < s.next := by by_contra hc; have := (h3 o (by omega)).1; omega
  have ho2 := h2 o hlt
  have hf : s.freed o = 0 := by rw [ho2.2, if_neg (by omega)]
  refine ⟨⟨by simp [St.inc, h1, hf], fun x hx => ?_, fun x hx => ?_⟩, fun ht x hx => ?_⟩
  · have := h2 x hx
    simp only [St.inc, upd_apply]
    split
    · subst x; refine ⟨by push_cast; omega, ?_⟩; rw [if_neg (by omega)]; omega
    · exact this
  · have := h3 x hx
    simp only [St.inc, upd_apply]
    split
    · subst x; simp only [inc_next] at hx; omega
    · exact this
  · have := ht x hx
    simp only [St.inc, upd_apply]
    split
    · subst x; push_cast; omega
    · exact this

theorem cov_dec {s : St} {own : Nat → Nat} {o : Nat} (h : Cov s own) (ho : 0 < own o) :
    Cov (s.dec o) (upd own o (own o - 1)) ∧ (TightC s own → TightC (s.dec o) (upd own o (own o - 1))) := by
  obtain ⟨h1, h2, h3⟩ := h
  have hlt : o < s.next := by by_contra hc; have := (h3 o (by omega)).1; omega
  have ho2 := h2 o hlt
  have hf : s.freed o = 0 := by rw [ho2.2, if_neg (by omega)]
  refine ⟨⟨by simp [St.dec, h1, hf], fun x hx => ?_, fun x hx => ?_⟩, fun ht x hx => ?_⟩
  · have hx2 := h2 x hx
    simp only [St.dec, upd_apply]
    by_cases hxo : x = o
    · subst x
      simp only [if_true]
      refine ⟨by omega, ?_⟩
      by_cases h0 : s.cnt o - 1 = 0
      · simp [h0, hf]
      · simp [h0, hf]
    · simp only [if_neg hxo]
      refine ⟨hx2.1, ?_⟩
      by_cases h0 : s.cnt o - 1 = 0
      · simp only [if_pos h0, upd_apply, if_neg hxo]; exact hx2.2
      · simp only [if_neg h0]; exact hx2.2
  · simp only [dec_next] at hx
    have hxo : x ≠ o := by omega
    have := h3 x hx
    simp only [St.dec, upd_apply, if_neg hxo]
    refine ⟨this.1, ?_⟩
    split
    · simp only [upd_apply, if_neg hxo]; exact this.2
    · exact this.2
  · have := ht x hx
    simp only [St.dec, upd_apply]
    split
    · subst x; omega
    · exact this

theorem cov_del {s : St} {own : Nat → Nat} {o : Nat} (h : Cov s own) (ho : own o = 1) :
    Cov (s.del o) (upd own o 0) ∧ (TightC s own → TightC (s.del o) (upd own o 0)) := by
  obtain ⟨h1, h2, h3⟩ := h
  have hlt : o < s.next := by by_contra hc; have := (h3 o (by omega)).1; omega
  have ho2 := h2 o hlt
  have hf : s.freed o = 0 := by rw [ho2.2, if_neg (by omega)]
  refine ⟨⟨by simp [St.del, h1, hf], fun x hx => ?_, fun x hx => ?_⟩, fun ht x hx => ?_⟩
  · have hx2 := h2 x hx
    simp only [St.del, upd_apply]
    by_cases hxo : x = o
    · subst x; simp [hf]
    · simp only [if_neg hxo]; exact hx2
  · have hxo : x ≠ o := by
      have : s.next ≤ x := hx
      omega
    have := h3 x hx
    simp only [St.del, upd_apply, if_neg hxo]
    exact this
  · have := ht x hx
    simp only [St.del, upd_apply]
    split
    · rfl
    · exact this

/-- Counters and references of two states that agree. -/
theorem Cov.congr {s s' : St} {own own' : Nat → Nat} (h : Cov s own) (hc : s'.cnt = s.cnt)
    (hf : s'.freed = s.freed) (hb : s'.bad = s.bad) (hn : s'.next = s.next) (ho : ∀ o, own' o ≤ own o) :
    Cov s' own' := by
  obtain ⟨h1, h2, h3⟩ := h
  refine ⟨by rw [hb, h1], fun o hlt => ?_, fun o hle => ?_⟩
  · rw [hn] at hlt
    have := h2 o hlt
    have h4 := ho o
    rw [hc, hf]
    exact ⟨by omega, this.2⟩
  · rw [hn] at hle
    have := h3 o hle
    have h4 := ho o
    rw [hf]
    omega

theorem TightC.congr {s s' : St} {own own' : Nat → Nat} (h : TightC s own) (hc : s'.cnt = s.cnt)
    (hn : s'.next = s.next) (ho : ∀ o, own' o = own o) : TightC s' own' := by
  intro o hlt
  rw [hn] at hlt
  rw [hc, ho, h o hlt]

theorem foldl_dec (l : List Nat) : ∀ (s : St) (own : Nat → Nat), Cov s own → (∀ o, l.count o ≤ own o) →
    let s' := l.foldl St.dec s
    (Cov s' (fun o => own o - l.count o) ∧ (TightC s own → TightC s' (fun o => own o - l.count o))) ∧
      s'.hs = s.hs ∧ s'.raw = s.raw ∧ s'.next = s.next := by
  induction l with
  | nil => intro s own h _; exact ⟨⟨by simpa using h, by intro h; simpa using h⟩, rfl, rfl, rfl⟩
  | cons a l ih =>
    intro s own h hl
    have ha : 0 < own a := by have := hl a; simp at this; omega
    have hd := cov_dec h ha
    have := ih (s.dec a) _ hd.1 (by
      intro o
      have := hl o
      simp only [upd_apply, List.count_cons] at this ⊢
      split
      · subst o; simp at this; omega
      · simp [show ¬ (a = o) from fun e => by simp_all] at this; omega)
    have e : (fun o => upd own a (own a - 1) o - l.count o) = fun o => own o - (a :: l).count o := by
      funext o
      simp only [upd_apply, List.count_cons]
      split
      · subst o; simp; omega
      · simp [show ¬ (a = o) from fun e => by simp_all]
    simp only [List.foldl_cons]
    rw [e] at this
    exact ⟨⟨this.1.1, fun ht => this.1.2 (hd.2 ht)⟩, this.2⟩

theorem foldl_del (l : List Nat) : ∀ (s : St) (own : Nat → Nat), Cov s own → l.Nodup →
    (∀ o ∈ l, own o = 1) →
    let s' := l.foldl St.del s
    (Cov s' (fun o => own o - l.count o) ∧ (TightC s own → TightC s' (fun o => own o - l.count o))) ∧
      s'.hs = s.hs ∧ s'.raw = s.raw ∧ s'.next = s.next := by
  induction l with
  | nil => intro s own h _ _; exact ⟨⟨by simpa using h, by intro h; simpa using h⟩, rfl, rfl, rfl⟩
  | cons a l ih =>
    intro s own h hnd hl
    rw [List.nodup_cons] at hnd
    have ha : own a = 1 := hl a (by simp)
    have hd := cov_del h ha
    have := ih (s.del a) _ hd.1 hnd.2 (by
      intro o ho
      have hne : o ≠ a := fun e => hnd.1 (e ▸ ho)
      simp only [upd_apply, if_neg hne]
      exact hl o (by simp [ho]))
    have e : (fun o => upd own a 0 o - l.count o) = fun o => own o - (a :: l).count o := by
      funext o
      simp only [upd_apply, List.count_cons]
      split
      · subst o; simp [ha]
      · simp [show ¬ (a = o) from fun e => by simp_all]
    simp only [List.foldl_cons]
    rw [e] at this
    exact ⟨⟨this.1.1, fun ht => this.1.2 (hd.2 ht)⟩, this.2⟩

/-- Assignment that counts the new object before it lets the old one go. -/
theorem assign_cov (s : St) (j : Nat) (v : Option Nat) (hj : j < s.hs.length)
    (hv : ∀ o, v = some o → 0 < s.owners o) (h : Cov s s.owners) :
    let s' : St := { (s.incOpt v).decOpt (s.get j) with hs := s.hs.set j v }
    Cov s' s'.owners ∧ (TightC s s.owners → TightC s' s'.owners) := by
  -- references after the increment
  obtain ⟨own1, e1, c1, t1⟩ : ∃ own1 : Nat → Nat, (∀ x, own1 x = s.owners x + if v = some x then 1 else 0) ∧
      Cov (s.incOpt v) own1 ∧ (TightC s s.owners → TightC (s.incOpt v) own1) := by
    cases v with
    | none => exact ⟨s.owners, by simp, h, id⟩
    | some o =>
      have := cov_inc h (hv o rfl)
      refine ⟨_, fun x => ?_, this.1, this.2⟩
      simp only [upd_apply, Option.some.injEq]
      by_cases e : x = o
      · subst x; simp
      · simp [e, show ¬ o = x from fun h => e h.symm]
  obtain ⟨own2, e2, c2, t2⟩ : ∃ own2 : Nat → Nat,
      (∀ x, own2 x + (if s.get j = some x then 1 else 0) = own1 x) ∧
      Cov ((s.incOpt v).decOpt (s.get j)) own2 ∧
      (TightC (s.incOpt v) own1 → TightC ((s.incOpt v).decOpt (s.get j)) own2) := by
    cases hg : s.get j with
    | none => exact ⟨own1, by simp, c1, id⟩
    | some o =>
      have hc := count_pos_of_get hj hg
      have hp : 0 < own1 o := by rw [e1, owners_eq]; omega
      have := cov_dec c1 hp
      refine ⟨_, fun x => ?_, this.1, this.2⟩
      simp only [upd_apply, Option.some.injEq]
      by_cases e : x = o
      · subst x; simp; omega
      · simp [e, show ¬ o = x from fun h => e h.symm]
  have hown : ∀ x, St.owners { (s.incOpt v).decOpt (s.get j) with hs := s.hs.set j v } x = own2 x := by
    intro x
    have h1 := e1 x
    have h2 := e2 x
    have h3 := count_set_get hj v x
    have hraw : ((s.incOpt v).decOpt (s.get j)).raw = s.raw := by
      cases v <;> cases s.get j <;> rfl
    have hq : ((s.incOpt v).decOpt (s.get j)).q = s.q := by
      cases v <;> cases s.get j <;> rfl
    simp only [owners_eq, hraw, hq] at h1 ⊢
    omega
  exact ⟨c2.congr rfl rfl rfl rfl fun x => by rw [hown], fun ht => (t2 (t1 ht)).congr rfl rfl fun x => by rw [hown]⟩

/-- The step of the induction. -/
theorem step_cov (k : Kind) (s : St) (op : Op) (hl : Legal k s op) (hd : NoDangle k s op)
    (h : Cov s s.owners) :
    Cov (step k s op) (step k s op).owners ∧
      (NoLeak k s op → TightC s s.owners → TightC (step k s op) (step k s op).owners) := by
  have h3 := h.2.2
  cases op with
  | create =>
    have hn := h3 s.next (le_refl _)
    have hr : s.raw s.next = 0 := by have := hn.1; rw [owners_eq] at this; omega
    refine ⟨⟨h.1, fun o ho => ?_, fun o ho => ?_⟩, fun _ ht o ho => ?_⟩
    · simp only [step, owners_eq, upd_apply] at ho ⊢
      split
      · subst o; have := hn.1; rw [owners_eq] at this; simp [hn.2]; omega
      · exact h.2.1 o (by omega)
    · simp only [step, owners_eq, upd_apply] at ho ⊢
      rw [if_neg (by omega)]
      exact h3 o (by omega)
    · simp only [step, owners_eq, upd_apply] at ho ⊢
      split
      · subst o; have := hn.1; rw [owners_eq] at this; omega
      · exact ht o (by omega)
  | launch =>
    have hn := h3 s.next (le_refl _)
    have hq : ∀ o, (step k s .launch).owners o = s.owners o + if o = s.next then 1 else 0 := by
      intro o
      simp only [step, owners_eq, List.count_cons]
      by_cases e : o = s.next
      · subst o; simp; omega
      · simp [e, show ¬ s.next = o from fun h => e h.symm]
    refine ⟨⟨h.1, fun o ho => ?_, fun o ho => ?_⟩, fun _ ht o ho => ?_⟩
    · rw [hq]
      simp only [step, upd_apply] at ho ⊢
      split
      · subst o; simp [hn.1, hn.2]
      · exact h.2.1 o (by omega)
    · rw [hq]
      simp only [step] at ho ⊢
      rw [if_neg (by omega)]
      exact h3 o (by omega)
    · rw [hq]
      simp only [step, upd_apply] at ho ⊢
      split
      · subst o; simp [hn.1]
      · exact ht o (by omega)
  | retain o =>
    have := cov_inc h hl
    refine ⟨this.1.congr rfl rfl rfl rfl fun x => ?_, fun _ ht => (this.2 ht).congr rfl rfl fun x => ?_⟩ <;>
    · simp only [step, owners_eq, upd_apply, inc_hs, inc_q]
      split
      · subst x; omega
      · omega
  | release o =>
    have hr : 0 < s.raw o := hl
    have := cov_dec h (o := o) (by rw [owners_eq]; omega)
    refine ⟨this.1.congr rfl rfl rfl rfl fun x => ?_, fun _ ht => (this.2 ht).congr rfl rfl fun x => ?_⟩ <;>
    · simp only [step, owners_eq, upd_apply, dec_hs, dec_q]
      split
      · subst x; omega
      · omega
  | wrap o =>
    have := cov_inc h hl
    refine ⟨this.1.congr rfl rfl rfl rfl fun x => ?_, fun _ ht => (this.2 ht).congr rfl rfl fun x => ?_⟩ <;>
    · simp only [step, owners_eq, upd_apply, inc_raw, inc_q, count_append_one, Option.some.injEq]
      by_cases e : x = o
      · subst x; simp; omega
      · simp [e, show ¬ o = x from fun h => e h.symm]
  | adopt o =>
    obtain ⟨_, hr⟩ := hl
    refine ⟨h.congr rfl rfl rfl rfl fun x => ?_, fun _ ht => ht.congr rfl rfl fun x => ?_⟩ <;>
    · simp only [step, owners_eq, upd_apply, count_append_one, Option.some.injEq]
      by_cases e : x = o
      · subst x; simp; omega
      · simp [e, show ¬ o = x from fun h => e h.symm]
  | copy j =>
    have hj : j < s.hs.length := hl
    cases hg : s.get j with
    | none =>
      cases k with
      | generic => exact absurd hg (hd rfl)
      | intrusive =>
        refine ⟨h.congr ?_ ?_ ?_ ?_ fun x => ?_, fun _ ht => ht.congr ?_ ?_ fun x => ?_⟩ <;>
          simp [step, hg, St.incOpt, owners_eq]
    | some o =>
      have hc := count_pos_of_get hj hg
      have := cov_inc h (o := o) (by rw [owners_eq]; omega)
      have e : ∀ k, step k s (.copy j) = { s.inc o with hs := s.hs ++ [some o] } := by
        intro k; cases k <;> simp [step, hg, St.incOpt, St.retain]
      rw [e]
      refine ⟨this.1.congr rfl rfl rfl rfl fun x => ?_, fun _ ht => (this.2 ht).congr rfl rfl fun x => ?_⟩ <;>
      · simp only [owners_eq, upd_apply, inc_raw, inc_q, count_append_one, Option.some.injEq]
        by_cases e : x = o
        · subst x; simp; omega
        · simp [e, show ¬ o = x from fun h => e h.symm]
  | move j =>
    have hj : j < s.hs.length := hl
    refine ⟨h.congr rfl rfl rfl rfl fun x => ?_, fun _ ht => ht.congr rfl rfl fun x => ?_⟩ <;>
    · simp only [step, owners_eq, count_append_one]
      have := count_set_get hj none x
      simp at this
      omega
  | destroy j =>
    have hj : j < s.hs.length := hl
    cases hg : s.get j with
    | none =>
      have e : step k s (.destroy j) = { s with hs := s.hs.set j none } := by simp [step, hg, St.decOpt]
      rw [e]
      refine ⟨h.congr rfl rfl rfl rfl fun x => ?_, fun _ ht => ht.congr rfl rfl fun x => ?_⟩ <;>
      · have := count_set_get hj none x
        simp [hg] at this
        simp only [owners_eq]; omega
    | some o =>
      have hc := count_pos_of_get hj hg
      have := cov_dec h (o := o) (by rw [owners_eq]; omega)
      have e : step k s (.destroy j) = { s.dec o with hs := s.hs.set j none } := by
        simp [step, hg, St.decOpt]
      rw [e]
      refine ⟨this.1.congr rfl rfl rfl rfl fun x => ?_, fun _ ht => (this.2 ht).congr rfl rfl fun x => ?_⟩ <;>
      · have := count_set_get hj none x
        simp only [hg, Option.some.injEq, reduceCtorEq, if_false, Nat.add_zero] at this
        simp only [owners_eq, upd_apply, dec_raw, dec_q]
        by_cases e : x = o
        · subst x; simp at this ⊢; omega
        · simp [e, show ¬ o = x from fun h => e h.symm] at this ⊢; omega
  | assignCopy j g =>
    obtain ⟨hj, hg⟩ := hl
    cases k with
    | generic =>
      cases hgg : s.get g with
      | none => exact absurd hgg (hd rfl)
      | some o =>
        have hc := count_pos_of_get hg hgg
        have := cov_inc h (o := o) (by rw [owners_eq]; omega)
        have e : step .generic s (.assignCopy j g) = { s.inc o with hs := s.hs.set j (some o) } := by
          simp [step, hgg, St.retain]
        rw [e]
        refine ⟨this.1.congr rfl rfl rfl rfl fun x => ?_, fun hk ht => (this.2 ht).congr rfl rfl fun x => ?_⟩
        · have := count_set_get hj (some o) x
          simp only [Option.some.injEq] at this
          simp only [owners_eq, upd_apply, inc_raw, inc_q]
          by_cases e : x = o
          · subst x; simp at this ⊢; omega
          · simp [e, show ¬ o = x from fun h => e h.symm] at this ⊢; omega
        · have := count_set_get hj (some o) x
          have hk' := hk rfl
          simp only [hk', Option.some.injEq, reduceCtorEq, if_false, Nat.add_zero] at this
          simp only [owners_eq, upd_apply, inc_raw, inc_q]
          by_cases e : x = o
          · subst x; simp at this ⊢; omega
          · simp [e, show ¬ o = x from fun h => e h.symm] at this ⊢; omega
    | intrusive =>
      have key : ∀ v, (∀ o, v = some o → 0 < s.owners o) →
          let s' : St := { (s.incOpt v).decOpt (s.get j) with hs := s.hs.set j v }
          Cov s' s'.owners ∧ (TightC s s.owners → TightC s' s'.owners) := by
        intro v hv
        exact assign_cov s j v hj hv h
      have := key (s.get g) (fun o ho => by have := count_pos_of_get hg ho; rw [owners_eq]; omega)
      exact ⟨this.1, fun _ => this.2⟩
  | assignRaw j o =>
    obtain ⟨_, hj, ho⟩ := hl
    have := assign_cov s j (some o) hj (fun o' ho' => by cases ho'; exact ho) h
    exact ⟨this.1, fun _ => this.2⟩
  | assignMove j g =>
    obtain ⟨hj, hg⟩ := hl
    have key : ∀ x, ((s.hs.set j (s.get g)).set g none).count (some x) +
        (if j ≠ g ∧ s.get j = some x then 1 else 0) ≤ s.hs.count (some x) ∧
        (j ≠ g → ((s.hs.set j (s.get g)).set g none).count (some x) +
        (if s.get j = some x then 1 else 0) = s.hs.count (some x)) := by
      intro x
      by_cases e : j = g
      · subst j
        have := count_set_get hg none x
        simp at this
        simp
        split at this <;> omega
      · have h1 := count_set_get hj (s.get g) x
        have h2 := count_set_get (s := { s with hs := s.hs.set j (s.get g) }) (h := g)
          (by simpa using hg) none x
        have e3 : St.get { s with hs := s.hs.set j (s.get g) } g = s.get g := by
          simp [St.get, e]
        rw [e3] at h2
        simp only [reduceCtorEq, if_false, Nat.add_zero] at h2
        simp only [e, ne_eq, not_false_eq_true, true_and, forall_true_left]
        omega
    refine ⟨h.congr rfl rfl rfl rfl fun x => ?_, fun hk ht => ht.congr rfl rfl fun x => ?_⟩
    · have := (key x).1
      simp only [step, owners_eq]; omega
    · have := (key x).2 hk.2
      simp only [hk.1, reduceCtorEq, if_false] at this
      simp only [step, owners_eq]; omega
  | clear =>
    have := foldl_dec s.q s s.owners h (fun o => by rw [owners_eq]; omega)
    obtain ⟨⟨h1, h2⟩, e1, e2, e3⟩ := this
    have e : ∀ x, (step k s .clear).owners x = s.owners x - s.q.count x := by
      intro x; simp only [step, owners_eq, e1, e2, List.count_nil]; omega
    exact ⟨h1.congr rfl rfl rfl rfl fun x => by rw [e], fun _ ht => (h2 ht).congr rfl rfl fun x => by rw [e]⟩
  | dropQueue =>
    have hnd : s.q.Nodup := by
      rw [List.nodup_iff_count_le_one]
      intro a
      by_cases ha : a ∈ s.q
      · have := hd a ha; rw [owners_eq] at this; omega
      · rw [List.count_eq_zero_of_not_mem ha]; omega
    have := foldl_del s.q s s.owners h hnd hd
    obtain ⟨⟨h1, h2⟩, e1, e2, e3⟩ := this
    have e : ∀ x, (step k s .dropQueue).owners x = s.owners x - s.q.count x := by
      intro x; simp only [step, owners_eq, e1, e2, List.count_nil]; omega
    exact ⟨h1.congr rfl rfl rfl rfl fun x => by rw [e], fun _ ht => (h2 ht).congr rfl rfl fun x => by rw [e]⟩

theorem hist_cov {k : Kind} {P : St → Op → Prop} (hP : ∀ s op, P s op → NoDangle k s op) {s : St}
    (h : Hist k P s) : Cov s s.owners := by
  induction h with
  | init => exact ⟨rfl, fun o ho => absurd ho (by simp [init]), fun o _ => by simp [init, owners_eq]⟩
  | step s op _ hl hp ih => exact (step_cov k s op hl (hP s op hp) ih).1

/-- **C36, safety.**  Whatever the history, for both handle classes, nothing deleted is used again, nothing is
    deleted twice and an object something refers to is not deleted; provided that no null `GenericObject` is
    copied and no `TaskQueue` is destroyed before the futures it gave out (see `copy_of_null`,
    `queue_deletes_live_future`). -/
theorem handles_safe_partial (k : Kind) (s : St) (h : Hist k (NoDangle k) s) : Safe s := by
  have hc := hist_cov (fun _ _ h => h) h
  refine ⟨hc.1, fun o => ?_⟩
  by_cases ho : o < s.next
  · have := hc.2.1 o ho
    rw [this.2]
    refine ⟨by split <;> omega, fun h0 => by rw [if_neg (by omega)]⟩
  · have := hc.2.2 o (by omega)
    omega

/-- **C36, no leak.**  If moreover no handle that still refers to something is assigned to (for `IntrusivePtr`:
    move-assigned to), then each object is deleted exactly when the last reference to it is given up, and
    until then its count is the number of references (see `move_assign_leaks`, `copy_assign_leaks`). -/
theorem handles_exact_partial (k : Kind) (s : St)
    (h : Hist k (fun s op => NoDangle k s op ∧ NoLeak k s op) s) : Exact s := by
  have hc := hist_cov (fun _ _ h => h.1) h
  have ht : TightC s s.owners := by
    clear hc
    induction h with
    | init => exact fun o ho => absurd ho (by simp [init])
    | step s op hh hl hp ih =>
      exact (step_cov k s op hl hp.1 (hist_cov (fun _ _ h => h.1) hh)).2 hp.2 ih
  intro o ho
  have h1 := hc.2.1 o ho
  have h2 := ht o ho
  refine ⟨?_, fun _ => h2⟩
  rw [h1.2, h2]
  simp

/-! ## What goes wrong -/

/-- Run a list of calls. -/
def run (k : Kind) (ops : List Op) : St := ops.foldl (step k) init

theorem run_hist (k : Kind) (P : St → Op → Prop) (ops : List Op)
    (h : ∀ i (hi : i < ops.length), Legal k (run k (ops.take i)) ops[i] ∧ P (run k (ops.take i)) ops[i]) :
    Hist k P (run k ops) := by
  induction ops using List.reverseRecOn with
  | nil => exact .init
  | append_singleton l a ih =>
    have h1 := h l.length (by simp)
    simp only [List.take_left, List.getElem_append_right (le_refl _), Nat.sub_self, List.getElem_cons_zero] at h1
    have : run k (l ++ [a]) = step k (run k l) a := by simp [run]
    rw [this]
    refine .step _ _ (ih fun i hi => ?_) h1.1 h1.2
    have := h i (by simp; omega)
    rwa [List.take_append_of_le_length (by omega), List.getElem_append_left hi] at this

/-- `a = std::move(b)` on an `IntrusivePtr` or a C++ handle that already refers to an object: the old object
    has no reference left and is never deleted.  Two objects, two handles, one move. -/
theorem move_assign_leaks (k : Kind) :
    ∃ s, Hist k (NoDangle k) s ∧ ∃ o, o < s.next ∧ s.owners o = 0 ∧ s.freed o = 0 := by
  refine ⟨run k [.create, .create, .wrap 0, .wrap 1, .release 0, .release 1, .assignMove 0 1, .destroy 0, .destroy 1],
    run_hist k _ _ ?_, 0, ?_⟩
  · intro i hi
    simp only [List.length_cons, List.length_nil] at hi
    interval_cases i <;> cases k <;> simp [run, step, Legal, NoDangle, init, owners_eq, St.inc, St.dec]
  · cases k <;> decide +kernel

/-- `a = b` on C++ handles (`GenericObject`, so `Device`, `Array`, `TaskQueue`, ...): likewise, even `a = a`. -/
theorem copy_assign_leaks :
    ∃ s, Hist .generic (NoDangle .generic) s ∧ ∃ o, o < s.next ∧ s.owners o = 0 ∧ s.freed o = 0 := by
  refine ⟨run .generic [.create, .adopt 0, .assignCopy 0 0, .destroy 0], run_hist _ _ _ ?_, 0, ?_⟩
  · intro i hi
    simp only [List.length_cons, List.length_nil] at hi
    interval_cases i <;> simp [run, step, Legal, NoDangle, init, St.get]
  · decide +kernel

/-- Copying an empty C++ handle uses the null pointer. -/
theorem copy_of_null : ∃ s, Hist .generic (fun _ _ => True) s ∧ s.bad = true := by
  refine ⟨run .generic [.create, .adopt 0, .move 0, .copy 0], run_hist _ _ _ ?_, ?_⟩
  · intro i hi
    simp only [List.length_cons, List.length_nil] at hi
    interval_cases i <;> simp [run, step, Legal, init]
  · decide +kernel

/-- Destroying a CPU `TaskQueue` deletes the futures it returned, although a `Future` handle still counts a
    reference; when that handle goes, it uses the deleted object. -/
theorem queue_deletes_live_future : ∃ s, Hist .generic (fun _ _ => True) s ∧
    0 < s.owners 0 ∧ s.freed 0 = 1 ∧ (step .generic s (.destroy 0)).bad = true := by
  refine ⟨run .generic [.launch, .wrap 0, .dropQueue], run_hist _ _ _ ?_, ?_⟩
  · intro i hi
    simp only [List.length_cons, List.length_nil] at hi
    interval_cases i <;> simp [run, step, Legal, init, owners_eq]
  · decide +kernel

/-- Not vacuous: create, two handles, copy assignment onto an `IntrusivePtr`, a command list whose future
    outlives it. -/
example : let s := run .intrusive [.create, .create, .wrap 0, .wrap 1, .release 0, .release 1, .assignCopy 0 1,
      .launch, .wrap 2, .clear, .destroy 0]
    Hist .intrusive (fun s op => NoDangle .intrusive s op ∧ NoLeak .intrusive s op) s ∧
      s.freed 0 = 1 ∧ s.freed 1 = 0 ∧ s.owners 1 = 1 ∧ s.freed 2 = 0 ∧ s.cnt 2 = 1 := by
  refine ⟨run_hist _ _ _ ?_, by decide +kernel⟩
  intro i hi
  simp only [List.length_cons, List.length_nil] at hi
  interval_cases i <;> simp [run, step, Legal, NoDangle, NoLeak, init, owners_eq, St.inc, St.dec, St.incOpt,
    St.decOpt, St.get]

end Ispc.RefCount
