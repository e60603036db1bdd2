import Verif.Front.Registry
import Mathlib.Data.List.Basic
import Mathlib.Tactic.Common

/-!
# C84: what is asked for by name is what is compiled for

Names, the lists of what is supported and the choice of libraries, for every sequence of registered libraries and every
text on the command line.
-/

namespace Ispc.Registry

open Ispc.Targets (Target width maskBits)

/-! ## Enumerations -/

/-- The list of the targets has all of them. -/
theorem mem_targets (t : Target) : t ∈ Ispc.Targets.all := by cases t <;> decide

theorem mem_oses {o : OS} : o ∈ OS.all ↔ o ≠ .error := by cases o <;> decide
theorem mem_archs {a : Arch} : a ∈ Arch.all ↔ a ≠ .error := by cases a <;> decide

/-! ## Names -/

/-- The targets that are printed with the name of another one. -/
def sharesName (t : Target) : Bool := t == .avx512skx_x16_nozmm || t == .avx512icl_x16_nozmm

/-- The name under which a target is printed is accepted and means this target, but for the two targets that are printed
    with the name of another one. -/
theorem name_parses (t : Target) (hz : sharesName t = false) : parse true (name (.isa t)).toList = .isa t := by
  have h : ∀ t ∈ Ispc.Targets.all, sharesName t = false → parse true (name (.isa t)).toList = .isa t := by
    decide +kernel
  exact h t (mem_targets t) hz

/-- The `nozmm` targets have names of their own on the command line, but are printed with the name of the target that
    does use 512-bit registers: the list of the targets does not show them, and messages name the other target. -/
theorem nozmm_name_wrong :
    parse true "avx512skx-x16-nozmm".toList = .isa .avx512skx_x16_nozmm ∧
    name (.isa .avx512skx_x16_nozmm) = name (.isa .avx512skx_x16) ∧
    parse true "avx512icl-x16-nozmm".toList = .isa .avx512icl_x16_nozmm ∧
    name (.isa .avx512icl_x16_nozmm) = name (.isa .avx512icl_x16) := by
  decide +kernel

/-- Every target can be asked for. -/
theorem every_target (t : Target) : ∃ s, parse true s = .isa t := by
  by_cases h : sharesName t = false
  · exact ⟨_, name_parses t h⟩
  · have h' : t = .avx512skx_x16_nozmm ∨ t = .avx512icl_x16_nozmm := by
      simp only [sharesName, Bool.not_eq_false, Bool.or_eq_true, beq_iff_eq] at h
      exact h
    rcases h' with rfl | rfl
    · exact ⟨_, nozmm_name_wrong.1⟩
    · exact ⟨_, nozmm_name_wrong.2.2.1⟩

theorem host_parses (v : Bool) : parse v (name .host).toList = .host := by
  cases v <;> decide +kernel

/-- Before LLVM 22 this holds for the targets that exist then. -/
theorem name_parses_old (t : Target) (hz : sharesName t = false)
    (h : t ∉ [.avx10_2nvl_x4, .avx10_2nvl_x8, .avx10_2nvl_x16, .avx10_2nvl_x32, .avx10_2nvl_x64]) :
    parse false (name (.isa t)).toList = .isa t := by
  have h' : ∀ t ∈ Ispc.Targets.all, sharesName t = false →
      t ∉ [.avx10_2nvl_x4, .avx10_2nvl_x8, .avx10_2nvl_x16, .avx10_2nvl_x32, .avx10_2nvl_x64] →
      parse false (name (.isa t)).toList = .isa t := by decide +kernel
  exact h' t (mem_targets t) hz h

/-- Different targets are printed with different names, but for these two. -/
theorem name_injective (t u : Target) (ht : sharesName t = false) (hu : sharesName u = false) (h : name (.isa t) = name (.isa u)) : t = u := by
  have h1 := name_parses t ht
  rw [h, name_parses u hu] at h1
  injection h1 with h1
  exact h1.symm

/-- What the name of a target ends with: the bits of a mask element and the gang size, or the gang size alone. -/
def ending (t : Target) : List (List Char) :=
  ["-i".toList ++ (toString (maskBits t)).toList ++ 'x' :: (toString (width t)).toList,
   "-x".toList ++ (toString (width t)).toList]

/-- The name of a target says its gang size, and the size of a mask element where it names one. -/
theorem name_says_width (t : Target) : ∃ e ∈ ending t, e <:+ (name (.isa t)).toList := by
  have h : ∀ t ∈ Ispc.Targets.all, ∃ e ∈ ending t, e <:+ (name (.isa t)).toList := by decide +kernel
  exact h t (mem_targets t)

example : name (.isa .avx2_i8x32) = "avx2-i8x32" ∧ ending .avx2_i8x32 ≠ [] := by decide +kernel

/-- The name of an architecture is accepted and means this architecture. -/
theorem arch_parses (a : Arch) (h : a ≠ .none) (h' : a ≠ .error) : parseArch (archName a).toList = a := by
  cases a <;> first | contradiction | decide +kernel

/-- Only the names of architectures are accepted, and one of them has a second spelling. -/
theorem arch_only (s : List Char) (h : parseArch s ≠ .error) :
    s = (archName (parseArch s)).toList ∨ s = "x86_64".toList := by
  unfold parseArch at h ⊢
  split_ifs at h ⊢ <;> simp_all [archName]
  rename_i h1
  exact h1.symm

/-! ## Lists of targets -/

theorem pieces_free (p : List Char) (h : ',' ∉ p) : pieces p = [p] := by
  induction p with
  | nil => rfl
  | cons c r ih =>
    have hc : c ≠ ',' := fun e => h (by simp [e])
    have hr : ',' ∉ r := fun e => h (List.mem_cons_of_mem _ e)
    simp [pieces, hc, ih hr]

theorem pieces_append (p s : List Char) (h : ',' ∉ p) : pieces (p ++ ',' :: s) = p :: pieces s := by
  induction p with
  | nil => simp [pieces]
  | cons c r ih =>
    have hc : c ≠ ',' := fun e => h (by simp [e])
    have hr : ',' ∉ r := fun e => h (List.mem_cons_of_mem _ e)
    simp [pieces, hc, ih hr]

/-- Texts separated by commas. -/
def commas : List (List Char) → List Char
  | [] => []
  | [p] => p
  | p :: rest => p ++ ',' :: commas rest

theorem pieces_commas (ps : List (List Char)) (hn : ps ≠ []) (h : ∀ p ∈ ps, ',' ∉ p) : pieces (commas ps) = ps := by
  induction ps with
  | nil => exact absurd rfl hn
  | cons p rest ih =>
    cases rest with
    | nil => exact pieces_free p (h p (by simp))
    | cons q r =>
      show pieces (p ++ ',' :: commas (q :: r)) = _
      rw [pieces_append _ _ (h p (by simp)), ih (by simp) (fun x hx => h x (List.mem_cons_of_mem _ hx))]

theorem foldl_addPiece_fst (v : Bool) (ps : List (List Char)) (st : List Tgt × List Char) :
    (ps.foldl (addPiece v) st).1 = st.1 ++ (ps.map (parse v)).filter (· ≠ .error) := by
  induction ps generalizing st with
  | nil => simp
  | cons p rest ih =>
    rw [List.foldl_cons, ih]
    unfold addPiece
    by_cases h : parse v p = .error <;> simp [h]

theorem foldl_addPiece_mono (v : Bool) (ps : List (List Char)) (st : List Tgt × List Char) :
    st.2 <:+: (ps.foldl (addPiece v) st).2 := by
  induction ps generalizing st with
  | nil => exact List.infix_rfl
  | cons p rest ih =>
    refine List.IsInfix.trans ?_ (ih _)
    unfold addPiece
    by_cases h : parse v p = .error
    · simp only [h, if_true]
      split_ifs with h2
      · exact (List.prefix_append _ _).isInfix
      · rw [List.append_assoc]; exact (List.prefix_append _ _).isInfix
    · simp [h]

theorem foldl_addPiece_bad (v : Bool) (ps : List (List Char)) (st : List Tgt × List Char) (p : List Char)
    (hp : p ∈ ps) (hb : parse v p = .error) : p <:+: (ps.foldl (addPiece v) st).2 := by
  induction ps generalizing st with
  | nil => exact absurd hp (by simp)
  | cons q rest ih =>
    rw [List.foldl_cons]
    rcases List.mem_cons.1 hp with rfl | hq
    · refine List.IsInfix.trans ?_ (foldl_addPiece_mono v rest _)
      unfold addPiece
      simp only [hb, if_true]
      exact (List.suffix_append _ _).isInfix
    · exact ih _ hq

theorem foldl_addPiece_empty (v : Bool) (ps : List (List Char)) (st : List Tgt × List Char) (h0 : st.2 = [])
    (h : ∀ p ∈ ps, p ≠ [] → parse v p ≠ .error) : (ps.foldl (addPiece v) st).2 = [] := by
  induction ps generalizing st with
  | nil => exact h0
  | cons q rest ih =>
    rw [List.foldl_cons]
    refine ih _ ?_ (fun p hp => h p (List.mem_cons_of_mem _ hp))
    unfold addPiece
    by_cases hb : parse v q = .error
    · have hq : q = [] := by
        by_contra hq
        exact h q (by simp) hq hb
      subst hq
      simp [hb, h0]
    · simp [hb, h0]

/-- The targets of a list are those of its entries, in order. -/
theorem targets_list (v : Bool) (ps : List (List Char)) (hn : ps ≠ []) (h : ∀ p ∈ ps, ',' ∉ p) :
    (parseTargets v (commas ps)).1 = (ps.map (parse v)).filter (· ≠ .error) := by
  unfold parseTargets
  rw [pieces_commas ps hn h, foldl_addPiece_fst]
  rfl

/-- An error is reported exactly if an entry that is not empty is not the name of a target. -/
theorem targets_error_iff (v : Bool) (ps : List (List Char)) (hn : ps ≠ []) (h : ∀ p ∈ ps, ',' ∉ p) :
    targetsError v (commas ps) = true ↔ ∃ p ∈ ps, p ≠ [] ∧ parse v p = .error := by
  unfold targetsError parseTargets
  rw [pieces_commas ps hn h]
  constructor
  · intro he
    by_contra hc
    push Not at hc
    rw [foldl_addPiece_empty v ps _ rfl (fun p hp hne => hc p hp hne)] at he
    exact absurd he (by simp)
  · rintro ⟨p, hp, hne, hb⟩
    have hi := foldl_addPiece_bad v ps ([], []) p hp hb
    cases hx : (ps.foldl (addPiece v) ([], [])).2 with
    | nil => rw [hx] at hi; exact absurd (List.infix_nil.1 hi) hne
    | cons _ _ => rfl

/-- The message about a list names every entry that is not the name of a target. -/
theorem targets_message (v : Bool) (ps : List (List Char)) (hn : ps ≠ []) (h : ∀ p ∈ ps, ',' ∉ p) (p : List Char)
    (hp : p ∈ ps) (hb : parse v p = .error) : p <:+: (parseTargets v (commas ps)).2 := by
  unfold parseTargets
  rw [pieces_commas ps hn h]
  exact foldl_addPiece_bad v ps _ p hp hb

/-- A list without empty entries that is accepted gives one target for every entry. -/
theorem targets_all (v : Bool) (ps : List (List Char)) (hn : ps ≠ []) (h : ∀ p ∈ ps, ',' ∉ p) (he : [] ∉ ps)
    (ha : targetsError v (commas ps) = false) : (parseTargets v (commas ps)).1 = ps.map (parse v) := by
  rw [targets_list v ps hn h, List.filter_eq_self]
  intro t ht
  obtain ⟨p, hp, rfl⟩ := List.mem_map.1 ht
  have hc : ¬ ∃ p ∈ ps, p ≠ [] ∧ parse v p = .error := fun hx => by
    rw [(targets_error_iff v ps hn h).2 hx] at ha; cases ha
  simp only [ne_eq, decide_not, Bool.not_eq_true', decide_eq_false_iff_not]
  exact fun hb => hc ⟨p, hp, fun e => he (e ▸ hp), hb⟩

example : parseTargets true ("sse4,avx2-i32x8".toList) = ([.isa .sse4_i32x4, .isa .avx2_i32x8], []) := by
  decide +kernel
example : parseTargets true ("avx3,sse2,foo".toList) = ([.isa .sse2_i32x4], "avx3,foo".toList) := by
  decide +kernel

/-- Empty entries are dropped without a message: the list may begin or end with a comma, and an empty list is accepted
    and has no target at all, as if the option were absent. -/
theorem targets_empty_wrong :
    parse true [] = .error ∧ parseTargets true "avx2,".toList = ([.isa .avx2_i32x8], []) ∧
      parseTargets true [] = ([], []) ∧ targetsError true [] = false := by
  decide +kernel

/-! ## Classes and architectures -/

/-- A target belongs to x86, ARM, PowerPC, RISC-V, WebAssembly or the GPUs as its name says; a generic target belongs
    to none of them. -/
theorem class_of_name (t : Target) :
    (isX86 t = true ↔ "sse".toList <+: (name (.isa t)).toList ∨ "avx".toList <+: (name (.isa t)).toList) ∧
    (isNeon t = true ↔ "neon".toList <+: (name (.isa t)).toList) ∧
    (isVSX t = true ↔ "vsx".toList <+: (name (.isa t)).toList) ∧
    (isRiscV t = true ↔ "rvv".toList <+: (name (.isa t)).toList) ∧
    (isWasm t = true ↔ "wasm".toList <+: (name (.isa t)).toList) ∧
    (isGen t = true ↔ "xe".toList <+: (name (.isa t)).toList) ∧
    (isGeneric t = true ↔ "generic".toList <+: (name (.isa t)).toList) := by
  have h : ∀ t ∈ Ispc.Targets.all,
    (isX86 t = true ↔ "sse".toList <+: (name (.isa t)).toList ∨ "avx".toList <+: (name (.isa t)).toList) ∧
    (isNeon t = true ↔ "neon".toList <+: (name (.isa t)).toList) ∧
    (isVSX t = true ↔ "vsx".toList <+: (name (.isa t)).toList) ∧
    (isRiscV t = true ↔ "rvv".toList <+: (name (.isa t)).toList) ∧
    (isWasm t = true ↔ "wasm".toList <+: (name (.isa t)).toList) ∧
    (isGen t = true ↔ "xe".toList <+: (name (.isa t)).toList) ∧
    (isGeneric t = true ↔ "generic".toList <+: (name (.isa t)).toList) := by decide +kernel
  exact h t (mem_targets t)

/-- Every target is in exactly one class. -/
theorem one_class (t : Target) :
    ([isX86 t, isNeon t, isVSX t, isRiscV t, isWasm t, isGen t, isGeneric t].filter id).length = 1 := by
  cases t <;> rfl

/-- The architectures that a target is made for, by its class. -/
def madeFor (t : Target) (a : Arch) : Prop :=
  (isX86 t = true → a = .x86 ∨ a = .x86_64) ∧ (isNeon t = true → a = .arm ∨ a = .aarch64) ∧
  (isVSX t = true → a = .ppc64le) ∧ (isRiscV t = true → a = .riscv64) ∧
  (isWasm t = true → a = .wasm32 ∨ a = .wasm64) ∧ (isGen t = true → a = .xe64)

/-- For x86, ARM, PowerPC and GPU targets the first check refuses exactly the architectures they are not made for. -/
theorem valid_iff (t : Target) (a : Arch) (hr : isRiscV t = false) (hw : isWasm t = false) :
    validForArch t a = true ↔ madeFor t a := by
  have h1 := one_class t
  unfold validForArch madeFor
  revert h1 hr hw
  cases isX86 t <;> cases isNeon t <;> cases isVSX t <;> cases isRiscV t <;> cases isWasm t <;> cases isGen t <;>
    cases isGeneric t <;> simp (config := { decide := true }) [or_comm]

/-- For RISC-V and WebAssembly it refuses nothing. -/
theorem valid_riscv_wrong : validForArch .rvv_x4 .x86_64 = true ∧ ¬ madeFor .rvv_x4 .x86_64 ∧
    validForArch .wasm_i32x4 .arm = true ∧ ¬ madeFor .wasm_i32x4 .arm := by
  refine ⟨rfl, fun h => ?_, rfl, fun h => ?_⟩
  · exact absurd (h.2.2.2.1 rfl) (by decide)
  · exact absurd (h.2.2.2.2.1 rfl) (by decide)

/-! ## The keys of the registry -/

theorem tgt_num_lt (t : Tgt) : t.num < 2 ^ targetWidth := by
  have h : ∀ t ∈ Ispc.Targets.all, Tgt.num (.isa t) < 2 ^ targetWidth := by decide +kernel
  cases t with
  | isa t => exact h t (mem_targets t)
  | none => decide
  | host => decide
  | error => decide

theorem os_num_lt (o : OS) : o.num < 2 ^ osWidth := by cases o <;> decide
theorem arch_num_lt (a : Arch) : a.num < 2 ^ archWidth := by cases a <;> decide

theorem idxOf_inj (t u : Target) (h : Ispc.Targets.all.idxOf t = Ispc.Targets.all.idxOf u) : t = u :=
  List.idxOf_inj (mem_targets t) |>.1 h

theorem tgt_num_inj (t u : Tgt) (h : t.num = u.num) : t = u := by
  have hb : ∀ t : Target, Ispc.Targets.all.idxOf t < Ispc.Targets.all.length := fun t =>
    List.idxOf_lt_length_iff.2 (mem_targets t)
  cases t <;> cases u <;> simp only [Tgt.num] at h <;> first
    | rfl
    | (rename_i a b; rw [idxOf_inj a b (by omega)])
    | (rename_i a; have := hb a; omega)
    | (exfalso; revert h; decide)

theorem os_num_inj (o p : OS) (h : o.num = p.num) : o = p := by
  cases o <;> cases p <;> first | rfl | (exfalso; revert h; decide)

theorem arch_num_inj (a b : Arch) (h : a.num = b.num) : a = b := by
  cases a <;> cases b <;> first | rfl | (exfalso; revert h; decide)

/-- A key fits into the 32 bits in which it is kept. -/
theorem encode_fits (t : Tgt) (o : OS) (a : Arch) : encode t o a < 2 ^ 32 := by
  have h1 := tgt_num_lt t
  have h2 := os_num_lt o
  have h3 := arch_num_lt a
  have e1 : (2 : Nat) ^ targetWidth = 128 := by decide
  have e2 : (2 : Nat) ^ osWidth = 16 := by decide
  have e3 : (2 : Nat) ^ archWidth = 16 := by decide
  unfold encode
  rw [e1] at h1 ⊢; rw [e2] at h2 ⊢; rw [e3] at h3
  omega

/-- Different combinations of target, system and architecture have different keys. -/
theorem encode_injective (t u : Tgt) (o p : OS) (a b : Arch) (h : encode t o a = encode u p b) :
    t = u ∧ o = p ∧ a = b := by
  have h1 := tgt_num_lt t
  have h2 := os_num_lt o
  have h3 := tgt_num_lt u
  have h4 := os_num_lt p
  have e1 : (2 : Nat) ^ targetWidth = 128 := by decide
  have e2 : (2 : Nat) ^ osWidth = 16 := by decide
  unfold encode at h
  rw [e1] at h1 h3 h; rw [e2] at h2 h4 h
  exact ⟨tgt_num_inj _ _ (by omega), os_num_inj _ _ (by omega), arch_num_inj _ _ (by omega)⟩

/-! ## Which library is found -/

/-- A library serves a system if it is made for it; one for Linux on ARM also serves the customised Linux, and one for
    PS4 also PS5. -/
def Serves (l : Lib) (os : OS) : Prop :=
  l.os = os ∨ (os = .custom_linux ∧ l.os = .linux ∧ (l.arch = .arm ∨ l.arch = .aarch64)) ∨
    (os = .ps5 ∧ l.os = .ps4)

instance (l : Lib) (os : OS) : Decidable (Serves l os) := by unfold Serves; infer_instance

/-- A library of the given kind for the given target, system and architecture. -/
def Fits (k : Kind) (t : Tgt) (os : OS) (a : Arch) (l : Lib) : Prop :=
  l.kind = k ∧ l.tgt = t ∧ l.arch = a ∧ Serves l os

instance (k : Kind) (t : Tgt) (os : OS) (a : Arch) (l : Lib) : Decidable (Fits k t os a l) := by
  unfold Fits; infer_instance

/-- The last of the registered libraries with a property. -/
def IsLast (P : Lib → Prop) (libs : List Lib) (l : Lib) : Prop :=
  ∃ before after, libs = before ++ l :: after ∧ P l ∧ ∀ x ∈ after, ¬ P x

theorem enter_eq (m : Map) (l : Lib) (t : Tgt) (os : OS) (a : Arch) :
    enter m l (encode t os a) = if l.tgt = t ∧ l.arch = a ∧ Serves l os then some l else m (encode t os a) := by
  have key : ∀ (o : OS), (encode t os a = encode l.tgt o l.arch) ↔ (l.tgt = t ∧ o = os ∧ l.arch = a) := by
    intro o
    constructor
    · intro h
      have := encode_injective _ _ _ _ _ _ h
      exact ⟨this.1.symm, this.2.1.symm, this.2.2.symm⟩
    · rintro ⟨rfl, rfl, rfl⟩; rfl
  have hA : isCustomAlias l = true ↔ (l.os = .linux ∧ (l.arch = .arm ∨ l.arch = .aarch64)) := by simp [isCustomAlias]
  unfold enter
  by_cases h1 : isCustomAlias l = true <;> by_cases h2 : l.os = .ps4 <;>
    simp only [h1, h2, if_true, if_false, Map.set, key, Bool.false_eq_true] <;> rw [hA] at h1 <;> unfold Serves <;> grind

/-- The state of one of the three maps after a list of registrations. -/
theorem fold_last (k : Kind) (sel : Reg → Map) (t : Tgt) (os : OS) (a : Arch)
    (hs : ∀ r l, sel (add r l) = if l.kind = k then enter (sel r) l else sel r) (libs : List Lib) (r : Reg) :
    sel (libs.foldl add r) (encode t os a) =
      match libs.reverse.find? (fun l => decide (Fits k t os a l)) with
      | some l => some l
      | Option.none => sel r (encode t os a) := by
  induction libs generalizing r with
  | nil => rfl
  | cons l rest ih =>
    rw [List.foldl_cons, ih, List.reverse_cons, List.find?_append]
    cases hf : rest.reverse.find? (fun l => decide (Fits k t os a l)) with
    | some x => rfl
    | none =>
      rw [hs]
      by_cases hk : l.kind = k
      · simp only [hk, if_true, enter_eq]
        by_cases hc : l.tgt = t ∧ l.arch = a ∧ Serves l os
        · simp [hc, Fits, hk]
        · have : ¬ Fits k t os a l := fun hfit => hc hfit.2
          simp [hc, this]
      · have : ¬ Fits k t os a l := fun hfit => hk hfit.1
        simp [hk, this]

theorem find_isLast (P : Lib → Prop) [DecidablePred P] (libs : List Lib) (l : Lib) :
    libs.reverse.find? (fun x => decide (P x)) = some l ↔ IsLast P libs l := by
  rw [List.find?_eq_some_iff_append]
  constructor
  · rintro ⟨hp, as, bs, he, hn⟩
    refine ⟨bs.reverse, as.reverse, ?_, by simpa using hp, ?_⟩
    · have := congrArg List.reverse he
      simpa using this
    · intro x hx
      simpa using hn x (List.mem_reverse.1 hx)
  · rintro ⟨b, a, rfl, hp, hn⟩
    refine ⟨by simpa using hp, a.reverse, b.reverse, by simp, ?_⟩
    intro x hx
    simpa using hn x (List.mem_reverse.1 hx)

theorem sel_builtins (r : Reg) (l : Lib) :
    (add r l).builtins = if l.kind = .builtinsC then enter r.builtins l else r.builtins := by
  unfold add
  cases l.kind <;> simp
  split_ifs <;> rfl

theorem sel_targets (r : Reg) (l : Lib) :
    (add r l).targets = if l.kind = .target then enter r.targets l else r.targets := by
  unfold add
  cases l.kind <;> simp
  split_ifs <;> rfl

theorem sel_stdlibs (r : Reg) (l : Lib) :
    (add r l).stdlibs = if l.kind = .stdlib then enter r.stdlibs l else r.stdlibs := by
  unfold add
  cases l.kind <;> simp
  split_ifs <;> rfl

theorem map_last (k : Kind) (sel : Reg → Map) (he : ∀ n, sel Reg.empty n = Option.none)
    (hs : ∀ r l, sel (add r l) = if l.kind = k then enter (sel r) l else sel r) (libs : List Lib) (t : Tgt) (os : OS)
    (a : Arch) (l : Lib) : sel (build libs) (encode t os a) = some l ↔ IsLast (Fits k t os a) libs l := by
  unfold build
  rw [fold_last k sel t os a hs, ← find_isLast]
  cases libs.reverse.find? (fun l => decide (Fits k t os a l)) with
  | some x => rfl
  | none => simp [he]

/-- The common library for a system and an architecture is the last registered one that serves them. -/
theorem builtins_found (libs : List Lib) (os : OS) (a : Arch) (l : Lib) :
    getBuiltins (build libs) os a = some l ↔ IsLast (Fits .builtinsC .none os a) libs l :=
  map_last .builtinsC Reg.builtins (fun _ => rfl) sel_builtins libs .none os a l

/-- The library of a target that is not an alias, without `--opt=disable-zmm`, is the last registered one of this
    target, this architecture and the group of the system: Windows, the web, or the others together. -/
theorem target_found (libs : List Lib) (t : Target) (os : OS) (a : Arch) (l : Lib) (ha : aliasOf t = Option.none)
    (hm : ¬ (os = .macos ∧ notOnMac t = true)) :
    getTarget (build libs) false t os a = some l ↔ IsLast (Fits .target (.isa t) (canonOS os) a) libs l := by
  unfold getTarget getLib canonTarget
  rw [if_neg hm]
  simp only [noZmm, Bool.false_eq_true, and_false, if_false, if_true, ha, Option.getD_none]
  exact map_last .target Reg.targets (fun _ => rfl) sel_targets libs (.isa t) (canonOS os) a l

/-- A library of this kind is found in the map exactly if one was registered. -/
theorem map_isSome (k : Kind) (sel : Reg → Map) (he : ∀ n, sel Reg.empty n = Option.none)
    (hs : ∀ r l, sel (add r l) = if l.kind = k then enter (sel r) l else sel r) (libs : List Lib) (t : Tgt) (os : OS)
    (a : Arch) : (sel (build libs) (encode t os a)).isSome = true ↔ ∃ l ∈ libs, Fits k t os a l := by
  unfold build
  rw [fold_last k sel t os a hs]
  cases hf : libs.reverse.find? (fun l => decide (Fits k t os a l)) with
  | some x =>
    have h1 := List.find?_some hf
    have h2 := List.mem_of_find?_eq_some hf
    simp only [Option.isSome_some, true_iff]
    exact ⟨x, List.mem_reverse.1 h2, by simpa using h1⟩
  | none =>
    rw [he]
    simp only [Option.isSome_none, Bool.false_eq_true, false_iff, not_exists, not_and]
    intro l hl
    have := List.find?_eq_none.1 hf l (List.mem_reverse.2 hl)
    simpa using this

theorem serves_canon (l : Lib) (os : OS) (h : Serves l (canonOS os)) : l.os = canonOS os := by
  rcases h with h | ⟨h, _⟩ | ⟨h, _⟩
  · exact h
  · cases os <;> cases h
  · cases os <;> cases h

theorem getLib_some (k : Kind) (sel : Reg → Map) (he : ∀ n, sel Reg.empty n = Option.none)
    (hs : ∀ r l, sel (add r l) = if l.kind = k then enter (sel r) l else sel r) (libs : List Lib) (z : Bool)
    (t : Target) (os : OS) (a : Arch) (l : Lib) (h : getLib (sel (build libs)) z t os a = some l) :
    ∃ t', canonTarget z t os true = some t' ∧ l ∈ libs ∧ l.kind = k ∧ l.tgt = .isa t' ∧ l.arch = a ∧
      l.os = canonOS os := by
  unfold getLib at h
  cases hc : canonTarget z t os true with
  | none => rw [hc] at h; cases h
  | some t' =>
    rw [hc] at h
    obtain ⟨b, af, e, hf, -⟩ := (map_last k sel he hs libs (.isa t') (canonOS os) a l).1 h
    exact ⟨t', rfl, by rw [e]; simp, hf.1, hf.2.1, hf.2.2.1, serves_canon l os hf.2.2.2⟩

theorem canon_some (z b : Bool) (t t' : Target) (os : OS) (h : canonTarget z t os b = some t') :
    t' = if b = true then (aliasOf (noZmm z t)).getD (noZmm z t) else noZmm z t := by
  unfold canonTarget at h
  dsimp only at h
  by_cases hm : os = .macos ∧ notOnMac t = true
  · rw [if_pos hm] at h; cases h
  · rw [if_neg hm] at h
    cases b <;> simpa using h.symm

theorem canon_same (z : Bool) (t t' : Target) (os : OS) (b : Bool) (h : canonTarget z t os b = some t') :
    width t' = width t ∧ maskBits t' = maskBits t := by
  rw [canon_some z b t t' os h]
  cases z <;> cases b <;> cases t <;> exact ⟨rfl, rfl⟩

theorem stdlib_same (t : Target) : width (stdlibTarget t) = width t ∧ maskBits (stdlibTarget t) = maskBits t := by
  cases t <;> exact ⟨rfl, rfl⟩

/-- Whatever is registered: the target library and the standard library that are chosen for a compilation are made for
    the gang size, the mask, the architecture and the group of the system that the compilation is for. -/
theorem chosen_fits (libs : List Lib) (z : Bool) (t : Target) (os : OS) (a : Arch) (l : Lib)
    (h : getTarget (build libs) z t os a = some l ∨ getStdlib (build libs) z t os a = some l) :
    l ∈ libs ∧ l.arch = a ∧ l.os = canonOS os ∧
      ∃ u, l.tgt = .isa u ∧ width u = width t ∧ maskBits u = maskBits t := by
  rcases h with h | h
  · obtain ⟨t', hc, hm, _, ht, ha, ho⟩ := getLib_some .target Reg.targets (fun _ => rfl) sel_targets libs z t os a l h
    exact ⟨hm, ha, ho, t', ht, canon_same z t t' os _ hc⟩
  · unfold getStdlib at h
    cases hc : canonTarget z t os false with
    | none => rw [hc] at h; cases h
    | some t1 =>
      rw [hc] at h
      obtain ⟨t', hc', hm, _, ht, ha, ho⟩ :=
        getLib_some .stdlib Reg.stdlibs (fun _ => rfl) sel_stdlibs libs z (stdlibTarget t1) os a l h
      have h1 := canon_same z t t1 os _ hc
      have h2 := stdlib_same t1
      have h3 := canon_same z _ t' os _ hc'
      exact ⟨hm, ha, ho, t', ht, by rw [h3.1, h2.1, h1.1], by rw [h3.2, h2.2, h1.2]⟩

/-- With `--opt=disable-zmm` no library that uses the 512-bit registers for 16 elements is linked for `avx512skx-x16`
    and `avx512icl-x16`. -/
theorem disable_zmm (libs : List Lib) (t : Target) (os : OS) (a : Arch) (l : Lib)
    (ht : t = .avx512skx_x16 ∨ t = .avx512icl_x16)
    (h : getTarget (build libs) true t os a = some l ∨ getStdlib (build libs) true t os a = some l) :
    l.tgt = .isa (if t = .avx512skx_x16 then .avx512skx_x16_nozmm else .avx512icl_x16_nozmm) := by
  rcases h with h | h
  · obtain ⟨t', hc, _, _, hl, _⟩ := getLib_some .target Reg.targets (fun _ => rfl) sel_targets libs true t os a l h
    rw [hl]
    rw [canon_some _ _ _ _ _ hc]
    rcases ht with rfl | rfl <;> rfl
  · unfold getStdlib at h
    cases hc : canonTarget true t os false with
    | none => rw [hc] at h; cases h
    | some t1 =>
      rw [hc] at h
      obtain ⟨t', hc', _, _, hl, _⟩ :=
        getLib_some .stdlib Reg.stdlibs (fun _ => rfl) sel_stdlibs libs true (stdlibTarget t1) os a l h
      rw [hl]
      rw [canon_some _ _ _ _ _ hc', canon_some _ _ _ _ _ hc]
      rcases ht with rfl | rfl <;> rfl

/-! ## What is supported -/

/-- A combination is supported exactly if a common library and a target library were registered for it. -/
theorem supported_iff (libs : List Lib) (z : Bool) (t : Target) (os : OS) (a : Arch) :
    isSupported (build libs) z t os a = true ↔
      (∃ l ∈ libs, Fits .builtinsC .none os a l) ∧
      ∃ t', canonTarget z t os true = some t' ∧
        ∃ l ∈ libs, l.kind = .target ∧ l.tgt = .isa t' ∧ l.arch = a ∧ l.os = canonOS os := by
  unfold isSupported getBuiltins getTarget getLib
  rw [Bool.and_eq_true, map_isSome .builtinsC Reg.builtins (fun _ => rfl) sel_builtins]
  refine and_congr_right fun _ => ?_
  cases hc : canonTarget z t os true with
  | none => simp
  | some t' =>
    simp only [Option.some.injEq, exists_eq_left']
    rw [map_isSome .target Reg.targets (fun _ => rfl) sel_targets]
    constructor
    · rintro ⟨l, hl, h1, h2, h3, h4⟩
      exact ⟨l, hl, h1, h2, h3, serves_canon l os h4⟩
    · rintro ⟨l, hl, h1, h2, h3, h4⟩
      exact ⟨l, hl, h1, h2, h3, Or.inl h4⟩

/-- The support matrix shows an architecture exactly where the compiler accepts it. -/
theorem cell_iff (libs : List Lib) (z : Bool) (t : Target) (os : OS) (a : Arch) (ha : a ≠ .error) :
    a ∈ cell (build libs) z t os ↔ isSupported (build libs) z t os a = true := by
  simp [cell, mem_archs.2 ha]

/-- The list of the architectures has those that are supported for some target on some system. -/
theorem archs_iff (libs : List Lib) (z : Bool) (a : Arch) (ha : a ≠ .error) :
    a ∈ supportedArchs (build libs) z ↔ ∃ t os, os ≠ .error ∧ isSupported (build libs) z t os a = true := by
  simp [supportedArchs, mem_archs.2 ha, mem_targets, mem_oses]

/-- The list of the targets has those that are supported for some architecture on some system. -/
theorem targets_iff (libs : List Lib) (z : Bool) (t : Target) :
    t ∈ supportedTargets (build libs) z ↔
      ∃ a os, a ≠ .error ∧ os ≠ .error ∧ isSupported (build libs) z t os a = true := by
  simp [supportedTargets, mem_archs, mem_targets, mem_oses]

/-- The systems of the registry are those that a registered common library serves. -/
theorem oses_iff (libs : List Lib) (os : OS) :
    (build libs).oses os = true ↔ ∃ l ∈ libs, l.kind = .builtinsC ∧ Serves l os := by
  have h : ∀ (libs : List Lib) (r : Reg), (libs.foldl add r).oses os = true ↔
      r.oses os = true ∨ ∃ l ∈ libs, l.kind = .builtinsC ∧ Serves l os := by
    intro libs
    induction libs with
    | nil => simp
    | cons l rest ih =>
      intro r
      rw [List.foldl_cons, ih]
      have h1 : (add r l).oses os = true ↔ r.oses os = true ∨ (l.kind = .builtinsC ∧ Serves l os) := by
        unfold add
        cases hk : l.kind <;> simp only
        · split_ifs <;> simp
        · simp only [enterOS, isCustomAlias, Serves, Bool.or_eq_true, Bool.and_eq_true, decide_eq_true_eq, true_and]
          grind
        · simp
        · simp
      rw [h1]
      simp only [List.mem_cons, exists_eq_or_imp]
      tauto
  simpa [build, Reg.empty] using h libs Reg.empty

theorem infix_split (w a b : List Char) (c : Char) (hc : c ∉ w) (h : w <:+: a ++ c :: b) : w <:+: a ∨ w <:+: b := by
  obtain ⟨p, q, h⟩ := h
  rw [List.append_assoc, List.append_eq_append_iff] at h
  rcases h with ⟨x, h1, h2⟩ | ⟨x, h1, h2⟩
  · -- `a = p ++ x`, `w ++ q = x ++ c :: b`
    rw [List.append_eq_append_iff] at h2
    rcases h2 with ⟨y, h3, h4⟩ | ⟨y, h3, h4⟩
    · left
      exact ⟨p, y, by rw [h1, h3, List.append_assoc]⟩
    · cases y with
      | nil => left; exact ⟨p, [], by rw [h1, h3]; simp⟩
      | cons d y =>
        simp only [List.cons_append, List.cons.injEq] at h4
        exact absurd (by rw [h3, h4.1]; simp) hc
  · cases x with
    | nil =>
      simp only [List.nil_append] at h2
      cases w with
      | nil => left; exact List.nil_infix
      | cons d w =>
        simp only [List.cons_append, List.cons.injEq] at h2
        exact absurd (by rw [h2.1]; simp) hc
    | cons d x =>
      simp only [List.cons_append, List.cons.injEq] at h2
      right
      exact ⟨x, q, by rw [h2.2, List.append_assoc]⟩

theorem infix_join (w : List Char) (h1 : ',' ∉ w) (h2 : ' ' ∉ w) (hw : w ≠ []) (ns : List String)
    (h : w <:+: joinNames ns) : ∃ n ∈ ns, w <:+: n.toList := by
  induction ns with
  | nil => exact absurd (List.infix_nil.1 h) hw
  | cons n rest ih =>
    cases rest with
    | nil => exact ⟨n, by simp, h⟩
    | cons m r =>
      rcases infix_split w _ _ ',' h1 h with h | h
      · exact ⟨n, by simp, h⟩
      · rcases infix_split w [] _ ' ' h2 h with h | h
        · exact absurd (List.infix_nil.1 h) hw
        · obtain ⟨k, hk, hi⟩ := ih h
          exact ⟨k, List.mem_cons_of_mem _ hk, hi⟩

theorem join_infix (ns : List String) (n : String) (h : n ∈ ns) : n.toList <:+: joinNames ns := by
  induction ns with
  | nil => exact absurd h (by simp)
  | cons m rest ih =>
    cases rest with
    | nil => rw [List.mem_singleton.1 h]; exact List.infix_rfl
    | cons k r =>
      show n.toList <:+: m.toList ++ ',' :: ' ' :: joinNames (k :: r)
      rcases List.mem_cons.1 h with rfl | h
      · exact (List.prefix_append _ _).isInfix
      · obtain ⟨p, q, e⟩ := ih h
        exact ⟨m.toList ++ ',' :: ' ' :: p, q, by rw [← e]; simp⟩

theorem os_overlap (o p : OS) (ho : o ≠ .error) (hp : p ≠ .error) (h : (osName o).toList <:+: (osName p).toList) :
    o = p ∨ (o = .linux ∧ p = .custom_linux) := by
  have k : ∀ o ∈ OS.all, ∀ p ∈ OS.all, (osName o).toList <:+: (osName p).toList →
      o = p ∨ (o = .linux ∧ p = .custom_linux) := by decide +kernel
  exact k o (mem_oses.2 ho) p (mem_oses.2 hp) h

theorem os_plain (o : OS) : ',' ∉ (osName o).toList ∧ ' ' ∉ (osName o).toList ∧ (osName o).toList ≠ [] := by
  cases o <;> decide +kernel

theorem ite_cases {c : Prop} [Decidable c] {x y z : OS} (h : (if c then x else y) = z) : (c ∧ x = z) ∨ (¬ c ∧ y = z) := by
  by_cases hc : c
  · rw [if_pos hc] at h; exact Or.inl ⟨hc, h⟩
  · rw [if_neg hc] at h; exact Or.inr ⟨hc, h⟩

/-- If no library is registered for the customised Linux itself, `--target-os` accepts exactly the names of the systems
    for which a common library was registered, and each name means its system. The test for a part of the list does no
    harm: the customised Linux, whose name ends with `linux`, is there only if Linux is. -/
theorem parseOS_iff (libs : List Lib) (hc : ∀ l ∈ libs, l.os ≠ .custom_linux) (s : List Char) (os : OS)
    (h : os ≠ .error) :
    parseOS (build libs) s = os ↔ s = (osName os).toList ∧ ∃ l ∈ libs, l.kind = .builtinsC ∧ Serves l os := by
  rw [← oses_iff]
  have hlin : (build libs).oses .custom_linux = true → (build libs).oses .linux = true := by
    rw [oses_iff, oses_iff]
    rintro ⟨l, hl, hk, hs⟩
    refine ⟨l, hl, hk, ?_⟩
    rcases hs with hs | ⟨_, hs, _⟩ | ⟨hs, _⟩
    · exact absurd hs (hc l hl)
    · exact Or.inl hs
    · cases hs
  have hin : ∀ o : OS, o ≠ .error → ((osName o).toList <:+: supportedOSes (build libs) ↔ (build libs).oses o = true) := by
    intro o ho
    have hp := os_plain o
    constructor
    · intro hi
      obtain ⟨n, hn, hi⟩ := infix_join _ hp.1 hp.2.1 hp.2.2 _ hi
      obtain ⟨p, hp, rfl⟩ := List.mem_map.1 hn
      have hp' := List.mem_filter.1 hp
      rcases os_overlap o p ho (mem_oses.1 hp'.1) hi with rfl | ⟨rfl, rfl⟩
      · exact hp'.2
      · exact hlin hp'.2
    · intro hs
      exact join_infix _ _ (List.mem_map.2 ⟨o, List.mem_filter.2 ⟨mem_oses.2 ho, hs⟩, rfl⟩)
  have hparse : parseOS (build libs) s = os → s = (osName os).toList ∧ s <:+: supportedOSes (build libs) := by
    intro he
    by_cases h0 : s <:+: supportedOSes (build libs)
    · refine ⟨?_, h0⟩
      unfold parseOS at he
      rw [if_neg (fun hn => hn h0)] at he
      clear hin hlin h0 hc
      rcases ite_cases he with ⟨e, rfl⟩ | ⟨-, he⟩
      · exact e
      rcases ite_cases he with ⟨e, rfl⟩ | ⟨-, he⟩
      · exact e
      rcases ite_cases he with ⟨e, rfl⟩ | ⟨-, he⟩
      · exact e
      rcases ite_cases he with ⟨e, rfl⟩ | ⟨-, he⟩
      · exact e
      rcases ite_cases he with ⟨e, rfl⟩ | ⟨-, he⟩
      · exact e
      rcases ite_cases he with ⟨e, rfl⟩ | ⟨-, he⟩
      · exact e
      rcases ite_cases he with ⟨e, rfl⟩ | ⟨-, he⟩
      · exact e
      rcases ite_cases he with ⟨e, rfl⟩ | ⟨-, he⟩
      · exact e
      rcases ite_cases he with ⟨e, rfl⟩ | ⟨-, he⟩
      · exact e
      rcases ite_cases he with ⟨e, rfl⟩ | ⟨-, he⟩
      · exact e
      exact absurd he.symm h
    · unfold parseOS at he
      rw [if_pos h0] at he
      exact absurd he.symm h
  constructor
  · intro he
    obtain ⟨e, hi⟩ := hparse he
    exact ⟨e, (hin os h).1 (e ▸ hi)⟩
  · rintro ⟨rfl, hs⟩
    have hi := (hin os h).2 hs
    unfold parseOS
    rw [if_neg (fun hn => hn hi)]
    cases os <;> first | contradiction | decide +kernel

/-- The hypotheses hold for a build with libraries for Linux on ARM, and the customised Linux comes with them. -/
example : parseOS (build [⟨.builtinsC, .none, .linux, .aarch64, 0⟩]) "custom_linux".toList = .custom_linux := by
  decide +kernel
example : parseOS (build [⟨.builtinsC, .none, .windows, .x86_64, 0⟩]) "linux".toList = .error := by
  decide +kernel

/-- If every registered target library is made for its architecture, then an accepted combination is one the target is
    made for, also for RISC-V and WebAssembly. -/
theorem accepted_made (libs : List Lib) (z : Bool) (t : Target) (os : OS) (a : Arch)
    (hl : ∀ l ∈ libs, l.kind = .target → ∀ u, l.tgt = .isa u → madeFor u l.arch)
    (h : accepted (build libs) z t os a = true) : madeFor t a := by
  unfold accepted at h
  rw [Bool.and_eq_true] at h
  obtain ⟨-, t', hc, l, hm, hk, ht, ha, -⟩ := (supported_iff libs z t os a).1 h.2
  have hf := hl l hm hk t' ht
  rw [ha] at hf
  by_cases hr : isRiscV t = true
  · rw [canon_some _ _ _ _ _ hc] at hf
    cases z <;> cases t <;> exact hf
  · by_cases hw : isWasm t = true
    · rw [canon_some _ _ _ _ _ hc] at hf
      cases z <;> cases t <;> exact hf
    · exact (valid_iff t a (by simpa using hr) (by simpa using hw)).1 h.1

/-- With what a build registers for x86, every x86 target has a target library and a standard library on every system
    of the group, with or without `--opt=disable-zmm`, except the newest targets on macOS, which have neither. -/
theorem x86_complete (libs : List Lib) (z : Bool) (t : Target) (os : OS) (a : Arch) (ht : isX86 t = true)
    (hr : registersX86 libs (canonOS os) a) :
    ((getTarget (build libs) z t os a).isSome = true ↔ ¬ (os = .macos ∧ notOnMac t = true)) ∧
    ((getStdlib (build libs) z t os a).isSome = true ↔ ¬ (os = .macos ∧ notOnMac t = true)) := by
  have hT : ∀ u ∈ x86Targets ++ genericTargets,
      ((build libs).targets (encode (.isa u) (canonOS os) a)).isSome = true := by
    intro u hu
    rw [map_isSome .target Reg.targets (fun _ => rfl) sel_targets]
    obtain ⟨l, hl, h1, h2, h3, h4⟩ := hr .target (by simp) u hu
    exact ⟨l, hl, h1, h2, h4, Or.inl h3⟩
  have hS : ∀ u ∈ x86Targets ++ genericTargets,
      ((build libs).stdlibs (encode (.isa u) (canonOS os) a)).isSome = true := by
    intro u hu
    rw [map_isSome .stdlib Reg.stdlibs (fun _ => rfl) sel_stdlibs]
    obtain ⟨l, hl, h1, h2, h3, h4⟩ := hr .stdlib (by simp) u hu
    exact ⟨l, hl, h1, h2, h4, Or.inl h3⟩
  have key : ∀ t ∈ Ispc.Targets.all, isX86 t = true → ∀ z,
      (aliasOf (noZmm z t)).getD (noZmm z t) ∈ x86Targets ++ genericTargets ∧
      (aliasOf (noZmm z (stdlibTarget (noZmm z t)))).getD (noZmm z (stdlibTarget (noZmm z t)))
        ∈ x86Targets ++ genericTargets ∧ (notOnMac t = false → notOnMac (stdlibTarget (noZmm z t)) = false) := by
    decide +kernel
  obtain ⟨k1, k2, k3⟩ := key t (mem_targets t) ht z
  constructor
  · unfold getTarget getLib canonTarget
    by_cases hm : os = .macos ∧ notOnMac t = true
    · simp [hm]
    · simp only [hm, if_false, if_true, not_false_eq_true, iff_true]
      exact hT _ k1
  · unfold getStdlib
    by_cases hm : os = .macos ∧ notOnMac t = true
    · simp [canonTarget, hm]
    · have hm' : ¬ (os = .macos ∧ notOnMac (stdlibTarget (noZmm z t)) = true) := by
        rintro ⟨e, h2⟩
        have : notOnMac t = false := by
          cases hx : notOnMac t
          · rfl
          · exact absurd ⟨e, hx⟩ hm
        rw [k3 this] at h2
        cases h2
      simp only [canonTarget, hm, if_false, not_false_eq_true, iff_true, Bool.false_eq_true]
      unfold getLib canonTarget
      simp only [hm', if_false, if_true]
      exact hS _ k2

/-- There are such registrations. -/
example : registersX86 ((x86Targets ++ genericTargets).flatMap fun t =>
    [⟨.target, .isa t, .linux, .x86_64, 0⟩, ⟨.stdlib, .isa t, .linux, .x86_64, 1⟩]) .linux .x86_64 := by
  unfold registersX86
  decide +kernel

end Ispc.Registry
