import Verif.Front.Targets
import Mathlib.Data.List.Nodup
import Mathlib.Tactic.Common

/-!
# C40: linking the builtins

`lLinkTargetBuiltins` of `src/builtins.cpp`.  A module is what the linker sees of it: which functions it defines,
which functions each body refers to, and which functions it only declares.  `llvm::Linker::linkModules` with
`LinkOnlyNeeded` is trusted to take from the library the functions that the module declares without defining them,
together with what their bodies refer to, and never to replace a definition.
-/

namespace Ispc.Link

variable {Name T : Type}

/-- A function in the linked module: where it comes from (`none`: not from a target library), and the functions its
    body refers to. -/
structure Def (Name T : Type) where
  origin : Option T
  refs : List Name

/-- The module being linked. -/
structure Mod (Name T : Type) where
  defs : Name → Option (Def Name T)
  decl : Name → Prop

/-- The bitcode library of a target: the functions it defines, with what their bodies refer to, and the functions it
    declares and does not use. -/
structure Lib (Name : Type) where
  defs : Name → Option (List Name)
  unused : Name → Prop

/-- What the linker takes from library `l`: functions that the module lacks, and what these refer to. -/
inductive Need (m : Mod Name T) (l : Lib Name) : Name → Prop where
  | declared {n} : m.decl n → m.defs n = none → (l.defs n).isSome → Need m l n
  | ref {f rs n} : Need m l f → l.defs f = some rs → n ∈ rs → m.defs n = none → (l.defs n).isSome → Need m l n

open Classical in
/-- `lLinkBuitinsForTarget` with `lAddBitcodeToModule` (src/builtins.cpp:639-647, 139-181). -/
noncomputable def link (t : T) (l : Lib Name) (m : Mod Name T) : Mod Name T :=
  let defs := fun n => match m.defs n with
    | some d => some d
    | none => if Need m l n then (l.defs n).map (⟨some t, ·⟩) else none
  { defs := defs
    decl := fun n => defs n = none ∧ (m.decl n ∨ l.unused n ∨ ∃ f rs, Need m l f ∧ l.defs f = some rs ∧ n ∈ rs) }

/-- `n` is used in the module. -/
def Used (m : Mod Name T) (n : Name) : Prop := ∃ f d, m.defs f = some d ∧ n ∈ d.refs

/-- `lHasUnresolvedSymbols` (src/builtins.cpp:593-603). -/
def Unresolved (syms : Name → Prop) (m : Mod Name T) : Prop := ∃ n, m.defs n = none ∧ Used m n ∧ syms n

open Classical in
/-- The loop of `lLinkTargetBuiltins` (src/builtins.cpp:665-682): `t` is linked, then, as long as something is
    unresolved, the next ancestor.  The flag says whether it ended without the error message. -/
noncomputable def linkChain (lib : T → Lib Name) (syms : Name → Prop) : List T → Mod Name T → Mod Name T × Bool
  | [], m => (m, false)
  | t :: ts, m =>
    let m' := link t (lib t) m
    if Unresolved syms m' then
      if ts = [] then (m', false) else linkChain lib syms ts m'
    else (m', true)

/-- The symbols to resolve: the functions defined by the last target of the chain
    (`lCollectAllDefinedFunctions`, src/builtins.cpp:623-637). -/
def rootSyms (lib : T → Lib Name) (chain : List T) (n : Name) : Prop :=
  ∃ r, chain.getLast? = some r ∧ ((lib r).defs n).isSome

/-! ## Specification -/

/-- The nearest target of the chain that defines `n`. -/
def Nearest (lib : T → Lib Name) (chain : List T) (n : Name) (t : T) : Prop :=
  ∃ before after, chain = before ++ t :: after ∧ ((lib t).defs n).isSome ∧ ∀ u ∈ before, (lib u).defs n = none

/-- Everything a body refers to is defined or declared, as LLVM demands of a module. -/
def Mod.Wf (m : Mod Name T) : Prop := ∀ n, Used m n → m.defs n = none → m.decl n

/-! ## Proofs -/

theorem link_keeps {t : T} {l : Lib Name} {m : Mod Name T} {n d} (h : m.defs n = some d) :
    (link t l m).defs n = some d := by simp [link, h]

theorem link_new {t : T} {l : Lib Name} {m : Mod Name T} {n rs} (h : Need m l n) (hd : l.defs n = some rs) :
    (link t l m).defs n = some ⟨some t, rs⟩ := by
  have : m.defs n = none := by cases h <;> assumption
  simp [link, this, h, hd]

theorem link_cases {t : T} {l : Lib Name} {m : Mod Name T} {n d} (h : (link t l m).defs n = some d) :
    m.defs n = some d ∨ (m.defs n = none ∧ Need m l n ∧ ∃ rs, l.defs n = some rs ∧ d = ⟨some t, rs⟩) := by
  simp only [link] at h
  rcases hm : m.defs n with _ | e
  · rw [hm] at h
    simp only at h
    split at h
    · rename_i hn
      right
      simp only [Option.map_eq_some_iff] at h
      obtain ⟨rs, h1, h2⟩ := h
      exact ⟨rfl, hn, rs, h1, h2.symm⟩
    · simp at h
  · rw [hm] at h; left; exact h

/-- A function that stays undefined is not in the library, unless nobody asked for it. -/
theorem link_none {t : T} {l : Lib Name} {m : Mod Name T} {n} (h : (link t l m).defs n = none) :
    m.defs n = none ∧ (Need m l n → False) := by
  refine ⟨?_, ?_⟩
  · rcases hm : m.defs n with _ | d
    · rfl
    · rw [link_keeps hm] at h; simp at h
  · intro hn
    have : ∃ rs, l.defs n = some rs := by
      cases hn <;> exact Option.isSome_iff_exists.1 (by assumption)
    obtain ⟨rs, hrs⟩ := this
    rw [link_new hn hrs] at h; simp at h

theorem link_wf {t : T} {l : Lib Name} {m : Mod Name T} (hw : m.Wf) : (link t l m).Wf := by
  rintro n ⟨f, d, hf, hn⟩ hnone
  refine ⟨hnone, ?_⟩
  rcases link_cases hf with h | ⟨_, h, rs, hrs, rfl⟩
  · exact .inl (hw n ⟨f, d, h, hn⟩ (link_none hnone).1)
  · exact .inr (.inr ⟨f, rs, h, hrs, hn⟩)

/-- A declared function that the library does not define stays declared. -/
theorem link_decl {t : T} {l : Lib Name} {m : Mod Name T} {n} (hd : m.decl n) (hm : m.defs n = none) :
    (∃ rs, l.defs n = some rs ∧ (link t l m).defs n = some ⟨some t, rs⟩) ∨
    (l.defs n = none ∧ (link t l m).defs n = none ∧ (link t l m).decl n) := by
  rcases hl : l.defs n with _ | rs
  · right
    have hnone : (link t l m).defs n = none := by simp [link, hm, hl]
    exact ⟨rfl, hnone, hnone, .inl hd⟩
  · left
    exact ⟨rs, rfl, link_new (.declared hd hm (by simp [hl])) hl⟩

theorem link_used {t : T} {l : Lib Name} {m : Mod Name T} {n} (h : Used m n) : Used (link t l m) n := by
  obtain ⟨f, d, hf, hn⟩ := h
  exact ⟨f, d, link_keeps hf, hn⟩

theorem chain_keeps {lib : T → Lib Name} {syms : Name → Prop} {ts : List T} {m : Mod Name T} {n d}
    (h : m.defs n = some d) : (linkChain lib syms ts m).1.defs n = some d := by
  induction ts generalizing m with
  | nil => exact h
  | cons t ts ih =>
    simp only [linkChain]
    split
    · split
      · exact link_keeps h
      · exact ih (link_keeps h)
    · exact link_keeps h

/-- **C40.** The definition of a function the module refers to before the linking starts is the one of the nearest
    target of the chain that defines it. -/
theorem nearest_linked_partial {lib : T → Lib Name} {chain : List T} {m : Mod Name T} (hw : m.Wf) {n : Name}
    (hu : Used m n) (hm : m.defs n = none) (hr : rootSyms lib chain n) :
    ∃ t rs, Nearest lib chain n t ∧ (lib t).defs n = some rs ∧
      (linkChain lib (rootSyms lib chain) chain m).1.defs n = some ⟨some t, rs⟩ := by
  suffices H : ∀ (syms : Name → Prop) (ts : List T) (m : Mod Name T), m.decl n → Used m n → m.defs n = none → syms n →
      (∃ r, ts.getLast? = some r ∧ ((lib r).defs n).isSome) →
      ∃ t rs, Nearest lib ts n t ∧ (lib t).defs n = some rs ∧ (linkChain lib syms ts m).1.defs n = some ⟨some t, rs⟩ from
    H (rootSyms lib chain) chain m (hw n hu hm) hu hm hr hr
  intro syms ts
  induction ts with
  | nil => rintro m _ _ _ _ ⟨r, hr, _⟩; simp at hr
  | cons t ts ih =>
    rintro m hd hu hm hs ⟨r, hr, hrs⟩
    rcases link_decl (t := t) (l := lib t) hd hm with ⟨rs, h1, h2⟩ | ⟨h1, h2, h3⟩
    · refine ⟨t, rs, ⟨[], ts, rfl, by simp [h1], by simp⟩, h1, ?_⟩
      simp only [linkChain]
      split
      · split
        · exact h2
        · exact chain_keeps h2
      · exact h2
    · have hne : ts ≠ [] := by
        rintro rfl
        simp at hr; subst hr
        rw [h1] at hrs; simp at hrs
      have hr' : ts.getLast? = some r := by
        rw [List.getLast?_cons] at hr
        rcases hl : ts.getLast? with _ | x
        · simp at hl; exact absurd hl hne
        · rw [hl] at hr; simpa using hr
      obtain ⟨t', rs, ⟨bf, af, e1, e2, e3⟩, h5, h6⟩ := ih _ h3 (link_used hu) h2 hs ⟨r, hr', hrs⟩
      refine ⟨t', rs, ⟨t :: bf, af, by rw [e1]; rfl, e2, ?_⟩, h5, ?_⟩
      · intro u hu'
        rcases List.mem_cons.1 hu' with rfl | hu'
        · exact h1
        · exact e3 u hu'
      · simp only [linkChain]
        rw [if_pos ⟨n, h2, link_used hu, hs⟩, if_neg hne]
        exact h6

/-- **C40.** Every linked function is the definition of some target of the chain, and nothing that was defined
    before is replaced. -/
theorem origin_in_chain {lib : T → Lib Name} {syms : Name → Prop} {chain : List T} {m : Mod Name T} {n d}
    (h : (linkChain lib syms chain m).1.defs n = some d) :
    m.defs n = some d ∨ (m.defs n = none ∧ ∃ t ∈ chain, ∃ rs, (lib t).defs n = some rs ∧ d = ⟨some t, rs⟩) := by
  induction chain generalizing m with
  | nil => exact .inl h
  | cons t ts ih =>
    have one : (link t (lib t) m).defs n = some d →
        m.defs n = some d ∨ (m.defs n = none ∧ ∃ u ∈ t :: ts, ∃ rs, (lib u).defs n = some rs ∧ d = ⟨some u, rs⟩) := by
      intro h
      rcases link_cases h with h | ⟨h0, _, rs, h1, h2⟩
      · exact .inl h
      · exact .inr ⟨h0, t, by simp, rs, h1, h2⟩
    simp only [linkChain] at h
    split at h
    · split at h
      · exact one h
      · rcases ih h with h | ⟨h0, u, hu, rs, h1, h2⟩
        · exact one h
        · exact .inr ⟨(link_none h0).1, u, by simp [hu], rs, h1, h2⟩
    · exact one h

/-- **C40.** Linking always succeeds: at the end every function the root target defines and the module uses is
    defined. -/
theorem all_resolved {lib : T → Lib Name} {chain : List T} (hc : chain ≠ []) {m : Mod Name T} (hw : m.Wf) :
    (linkChain lib (rootSyms lib chain) chain m).2 = true ∧
    ∀ n, Used (linkChain lib (rootSyms lib chain) chain m).1 n → rootSyms lib chain n →
      (linkChain lib (rootSyms lib chain) chain m).1.defs n ≠ none := by
  suffices H : ∀ (syms : Name → Prop) (ts : List T), ts ≠ [] →
      (∀ n, syms n → ∃ r, ts.getLast? = some r ∧ ((lib r).defs n).isSome) → ∀ (m : Mod Name T), m.Wf →
      (linkChain lib syms ts m).2 = true ∧
      ∀ n, Used (linkChain lib syms ts m).1 n → syms n → (linkChain lib syms ts m).1.defs n ≠ none from
    H _ chain hc (fun n h => h) m hw
  intro syms ts hts
  induction ts with
  | nil => exact absurd rfl hts
  | cons t ts ih =>
    intro hsy m hw
    simp only [linkChain]
    split
    · rename_i hun
      by_cases hne : ts = []
      · subst hne
        exfalso
        obtain ⟨n, h1, h2, h3⟩ := hun
        obtain ⟨r, hr, hrs⟩ := hsy n h3
        simp at hr; subst hr
        have hd := link_wf (t := t) (l := lib t) hw n h2 h1
        obtain ⟨h0, hnn⟩ := link_none h1
        obtain ⟨f, d, hf, hmem⟩ := h2
        rcases link_cases hf with hold | ⟨_, hneed, rs, hrs', rfl⟩
        · exact hnn (.declared (hw n ⟨f, d, hold, hmem⟩ h0) h0 hrs)
        · exact hnn (.ref hneed hrs' hmem h0 hrs)
      · rw [if_neg hne]
        apply ih hne _ _ (link_wf hw)
        intro n hn
        obtain ⟨r, hr, hrs⟩ := hsy n hn
        refine ⟨r, ?_, hrs⟩
        rw [List.getLast?_cons] at hr
        rcases hl : ts.getLast? with _ | x
        · simp at hl; exact absurd hl hne
        · rw [hl] at hr; simpa using hr
    · rename_i hun
      refine ⟨rfl, fun n h1 h2 h3 => hun ⟨n, h3, h1, h2⟩⟩

/-- If the program, or a function linked from `w` or from a target before it, refers to a function that ends up
    coming from a target after `w`, then `w` does not define it. -/
theorem no_bypass_aux {lib : T → Lib Name} {syms : Name → Prop} {w : T} {post : List T} (pre : List T)
    (hnd : (pre ++ w :: post).Nodup) {m : Mod Name T} (hw : m.Wf) {f n : Name} {d : Def Name T} {u rs}
    (hf : (linkChain lib syms (pre ++ w :: post) m).1.defs f = some d) (hn : n ∈ d.refs)
    (hfo : m.defs f = some d ∨ ∃ o ∈ pre ++ [w], d.origin = some o)
    (hnf : (linkChain lib syms (pre ++ w :: post) m).1.defs n = some ⟨some u, rs⟩) (hm : m.defs n = none)
    (hu : u ∉ pre ++ [w]) : (lib w).defs n = none := by
  induction pre generalizing m with
  | nil =>
    simp only [List.nil_append] at *
    -- the module after linking `w`
    have hrest : ∀ x e, (linkChain lib syms (w :: post) m).1.defs x = some e →
        (link w (lib w) m).defs x = some e ∨ ∃ o ∈ post, e.origin = some o := by
      intro x e hx
      simp only [linkChain] at hx
      split at hx
      · split at hx
        · exact .inl hx
        · rcases origin_in_chain hx with h | ⟨_, o, ho, _, _, h⟩
          · exact .inl h
          · exact .inr ⟨o, ho, by rw [h]⟩
      · exact .inl hx
    have hfm : (link w (lib w) m).defs f = some d := by
      rcases hfo with h | ⟨o, ho, h⟩
      · exact link_keeps h
      · simp at ho; subst ho
        rcases hrest f d hf with h' | ⟨o', ho', h'⟩
        · exact h'
        · rw [h] at h'; cases h'
          simp at hnd; exact absurd ho' hnd.1
    have hnm : (link w (lib w) m).defs n = none := by
      rcases hx : (link w (lib w) m).defs n with _ | e
      · rfl
      · exfalso
        have : (linkChain lib syms (w :: post) m).1.defs n = some e := by
          simp only [linkChain]
          split
          · split
            · exact hx
            · exact chain_keeps hx
          · exact hx
        rw [hnf] at this; cases this
        rcases link_cases hx with h | ⟨_, _, _, _, h⟩
        · rw [hm] at h; simp at h
        · cases h; simp at hu
    by_contra hc
    obtain ⟨rs', hrs'⟩ := Option.ne_none_iff_exists'.1 hc
    obtain ⟨h0, hnn⟩ := link_none hnm
    rcases link_cases hfm with hold | ⟨_, hneed, rs2, hrs2, rfl⟩
    · exact hnn (.declared (hw n ⟨f, d, hold, hn⟩ h0) h0 (by simp [hrs']))
    · exact hnn (.ref hneed hrs2 hn h0 (by simp [hrs']))
  | cons t pre ih =>
    simp only [List.cons_append] at *
    have hut : u ≠ t := fun e => hu (by simp [e])
    have hnd' := (List.nodup_cons.1 hnd)
    have hnm : (link t (lib t) m).defs n = none := by
      rcases hx : (link t (lib t) m).defs n with _ | e
      · rfl
      · exfalso
        have : (linkChain lib syms (t :: (pre ++ w :: post)) m).1.defs n = some e := by
          simp only [linkChain]
          split
          · split
            · exact hx
            · exact chain_keeps hx
          · exact hx
        rw [hnf] at this; cases this
        rcases link_cases hx with h | ⟨_, _, _, _, h⟩
        · rw [hm] at h; simp at h
        · cases h; exact hut rfl
    -- linking went on after `t`
    have hgo : linkChain lib syms (t :: (pre ++ w :: post)) m = linkChain lib syms (pre ++ w :: post) (link t (lib t) m) := by
      simp only [linkChain] at hnf ⊢
      split
      · rename_i hun
        rw [if_neg (by simp)]
      · rename_i hun
        rw [if_neg hun] at hnf
        simp only at hnf
        rw [hnm] at hnf; simp at hnf
    rw [hgo] at hf hnf
    refine ih hnd'.2 (link_wf hw) hf ?_ hnf hnm (fun h => hu (by simp at h ⊢; tauto))
    rcases hfo with h | ⟨o, ho, h⟩
    · exact .inl (link_keeps h)
    · rcases List.mem_cons.1 ho with rfl | ho
      · left
        rcases origin_in_chain hf with h' | ⟨_, o', ho', _, _, h'⟩
        · exact h'
        · rw [h'] at h; cases h
          exact absurd ho' hnd'.1
      · exact .inr ⟨o, ho, h⟩

/-- **C40.** No target is passed over by mistake: if the program itself, or any function linked from target `w` or from
    a target nearer than `w`, refers to `n`, and `n` is linked from a target farther than `w`, then `w` does not
    define `n`. -/
theorem no_bypass_partial {lib : T → Lib Name} {chain pre post : List T} {w : T} (hc : chain = pre ++ w :: post)
    (hnd : chain.Nodup) {m : Mod Name T} (hw : m.Wf) {f n : Name} {d : Def Name T} {u rs}
    (hf : (linkChain lib (rootSyms lib chain) chain m).1.defs f = some d) (hn : n ∈ d.refs)
    (hfo : m.defs f = some d ∨ ∃ o ∈ pre ++ [w], d.origin = some o)
    (hnf : (linkChain lib (rootSyms lib chain) chain m).1.defs n = some ⟨some u, rs⟩) (hm : m.defs n = none)
    (hu : u ∈ post) : (lib w).defs n = none := by
  have hup : u ∉ pre ++ [w] := by
    intro h
    rw [hc, List.append_cons, List.nodup_append] at hnd
    exact hnd.2.2 u h u hu rfl
  revert hf hnf
  generalize rootSyms lib chain = syms
  subst hc
  intro hf hnf
  exact no_bypass_aux pre hnd hw hf hn hfo hnf hm hup

/-! ### The property fails for functions that only a parent's code refers to -/

/-- A library of two functions: number 0 calls number 1. -/
def generic2 : Lib Nat := ⟨fun n => if n = 0 then some [1] else if n = 1 then some [] else none, fun _ => False⟩

/-- A target with its own version of number 1. -/
def special : Lib Nat := ⟨fun n => if n = 1 then some [] else none, fun _ => False⟩

/-- A program (function 9) that calls number 0. -/
def prog : Mod Nat Nat := ⟨fun n => if n = 9 then some ⟨none, [0]⟩ else none, fun n => n = 0⟩

/-- Target 0 has target 1 as its parent. -/
def demoLib : Nat → Lib Nat
  | 0 => special
  | _ => generic2

/-- **C40, refuted.** The program uses function 0, which only the generic target has and which calls function 1; the
    target has its own function 1, but the generic one is linked. -/
theorem parent_bypasses_target :
    prog.Wf ∧ (linkChain demoLib (rootSyms demoLib [0, 1]) [0, 1] prog).1.defs 1 = some ⟨some 1, []⟩ ∧
      Nearest demoLib [0, 1] 1 0 := by
  have hwf : prog.Wf := by
    rintro n ⟨f, d, hf, hn⟩ _
    simp only [prog] at hf ⊢
    split at hf
    · cases hf; simpa using hn
    · simp at hf
  refine ⟨hwf, ?_, [], [1], rfl, rfl, by simp⟩
  have hno : ∀ n, ¬ Need prog special n := by
    intro n hn
    induction hn with
    | declared h1 h2 h3 => simp only [prog] at h1; subst h1; simp [special] at h3
    | ref _ _ _ _ _ ih => exact ih
  have hm1 : ∀ n, (link 0 special prog).defs n = prog.defs n := by
    intro n
    simp only [link, hno, if_false]
    rcases prog.defs n with _ | d <;> rfl
  have hd0 : (link 0 special prog).decl 0 := by
    refine ⟨?_, .inl rfl⟩
    show (link 0 special prog).defs 0 = none
    rw [hm1]; rfl
  have hu : Unresolved (rootSyms demoLib [0, 1]) (link 0 special prog) :=
    ⟨0, by rw [hm1]; rfl, ⟨9, ⟨none, [0]⟩, by rw [hm1]; rfl, by simp⟩, 1, rfl, rfl⟩
  have hn0 : Need (link 0 special prog) generic2 0 := .declared hd0 (by rw [hm1]; rfl) rfl
  have hn1 : Need (link 0 special prog) generic2 1 := .ref hn0 rfl (by simp) (by rw [hm1]; rfl) rfl
  have hl : (link 1 generic2 (link 0 special prog)).defs 1 = some ⟨some 1, []⟩ := link_new hn1 rfl
  have hu' : Unresolved (rootSyms demoLib [0, 1]) (link 0 (demoLib 0) prog) := hu
  rw [linkChain, if_pos hu', if_neg (by simp), linkChain]
  split
  · rw [if_pos rfl]; exact hl
  · exact hl

/-! ### The hierarchy -/

open Targets

/-- The ancestors of a target, itself first. -/
def chain (t : Target) : List Target := chainUpTo all.length t

theorem mem_all (t : Target) : t ∈ all := by cases t <;> decide

/-- **C40.** From every target the chain of parents ends, in a target without a parent, without meeting a target
    twice; every step goes to the parent. -/
theorem chain_ends (t : Target) :
    (∃ r, (chain t).getLast? = some r ∧ parent r = none) ∧ (chain t).Nodup ∧ (chain t).head? = some t ∧
      ∀ i a b, (chain t)[i]? = some a → (chain t)[i + 1]? = some b → parent a = some b := by
  have h1 : ∀ t ∈ all, ((chain t).getLast?.any fun r => parent r = none) = true := by decide +kernel
  have h2 : ∀ t ∈ all, (chain t).Nodup := by decide +kernel
  have h3 : ∀ fuel t, (chainUpTo (fuel + 1) t).head? = some t := fun _ _ => rfl
  have h4 : ∀ fuel t i a b, (chainUpTo fuel t)[i]? = some a → (chainUpTo fuel t)[i + 1]? = some b → parent a = some b := by
    intro fuel
    induction fuel with
    | zero => intro t i a b h; simp [chainUpTo] at h
    | succ fuel ih =>
      intro t i a b ha hb
      rcases hp : parent t with _ | p
      · simp [chainUpTo, hp] at ha hb
      · simp only [chainUpTo, hp] at ha hb
        cases i with
        | zero =>
          simp only [List.getElem?_cons_zero, Option.some.injEq] at ha
          subst ha
          cases fuel with
          | zero => simp [chainUpTo] at hb
          | succ fuel =>
            simp only [Nat.zero_add, List.getElem?_cons_succ, ← List.head?_eq_getElem?, h3] at hb
            rw [hp, ← hb]
        | succ i =>
          simp only [List.getElem?_cons_succ] at ha hb
          exact ih p i a b ha hb
  refine ⟨?_, h2 t (mem_all t), h3 _ t, h4 _ t⟩
  have := h1 t (mem_all t)
  rcases hl : (chain t).getLast? with _ | r
  · rw [hl] at this; simp at this
  · rw [hl] at this; exact ⟨r, rfl, by simpa using this⟩

/-- **C40.** A target and its parent have the same gang size and the same mask element size, so a parent's functions
    have the right vector types. -/
theorem parent_same_shape (t p : Target) (h : parent t = some p) : width p = width t ∧ maskBits p = maskBits t := by
  have : ∀ t ∈ all, ((parent t).all fun p => width p = width t ∧ maskBits p = maskBits t) = true := by decide +kernel
  have := this t (mem_all t)
  rw [h] at this; simpa using this

/-! ## Examples -/

example : chain .avx2vnni_i32x8 =
    [.avx2vnni_i32x8, .avx2_i32x8, .avx1_i32x8, .sse4_i32x8, .sse41_i32x8, .sse2_i32x8, .generic_i32x8] := by decide

/-- The hypotheses of `nearest_linked_partial` and `all_resolved`, for the program above. -/
example : prog.Wf ∧ Used prog 0 ∧ prog.defs 0 = none ∧
    rootSyms demoLib [0, 1] 0 :=
  ⟨parent_bypasses_target.1, ⟨9, ⟨none, [0]⟩, rfl, by simp⟩, rfl, 1, rfl, rfl⟩

end Ispc.Link
