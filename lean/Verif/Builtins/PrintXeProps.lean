import Verif.Builtins.PrintXe
import Verif.Builtins.PrintProps

/-!
# C51: `print` on the GPU targets writes the documented text
-/

namespace Ispc.Print

/-! ## Specification -/

/-- A lane: a lane that is off is in double parentheses. -/
def laneTextXe (txt : SrcVal → List Char) (on : Bool) (v : SrcVal) : List Char :=
  if on then txt v else ['(', '('] ++ txt v ++ [')', ')']

def lanesTextXe (txt : SrcVal → List Char) (on : Nat → Bool) : Nat → List SrcVal → List Char
  | _, [] => []
  | k, [v] => laneTextXe txt (on k) v
  | k, v :: vs => laneTextXe txt (on k) v ++ ',' :: lanesTextXe txt on (k + 1) vs

def argTextXe (txt : SrcVal → List Char) (on : Nat → Bool) : Arg → List Char
  | .uniform _ v => txt v
  | .varying _ vs => '[' :: lanesTextXe txt on 0 vs ++ [']']

/-- The format with the arguments in the place of the percent signs. -/
def renderBy (arg : Arg → List Char) : List Char → List Arg → List Char
  | [], _ => []
  | c :: f, args =>
    if c = '%' then
      match args with
      | [] => []
      | a :: as => arg a ++ renderBy arg f as
    else c :: renderBy arg f args

/-! ## `printf` -/

theorem ocl_char {c : Char} (h : c ≠ '%') (f : List Char) (args : List XArg) :
    ocl (c :: f) args = (ocl f args).map fun t => c :: t := by
  rw [ocl.eq_def]
  split <;> simp_all

theorem ocl_plain {p : List Char} (h : '%' ∉ p) (f : List Char) (args : List XArg) :
    ocl (p ++ f) args = (ocl f args).map fun t => p ++ t := by
  induction p with
  | nil => simp
  | cons c p ih =>
    simp only [List.mem_cons, not_or] at h
    rw [List.cons_append, ocl_char (Ne.symm h.1), ih h.2, Option.map_map]; rfl

theorem ocl_str (f s : List Char) (args : List XArg) : ocl ('%' :: 's' :: f) (.str s :: args) =
    (ocl f args).map fun t => s ++ t := by rw [ocl]

theorem ocl_uniform {ty : Ty} {v : Val} (h : v.ty = ty) (f : List Char) (args : List XArg) :
    ocl (specifier ty ++ f) (emitUniform (encodeUniform ty) v :: args) = (ocl f args).map fun t => v.text ++ t := by
  subst h
  cases v with
  | bool i =>
    simp only [Val.ty, specifier, emitUniform, encodeUniform, List.cons_append, List.nil_append, ne_eq, not_true_eq_false,
      if_false, ocl_str, Val.text]
    congr 1
    funext t
    by_cases hi : i = 0 <;> simp [hi]
  | int i => simp [Val.ty, specifier, emitUniform, encodeUniform, ocl]
  | uint i => simp [Val.ty, specifier, emitUniform, encodeUniform, ocl]
  | float i => simp [Val.ty, specifier, emitUniform, encodeUniform, ocl]
  | long i => simp [Val.ty, specifier, emitUniform, encodeUniform, ocl]
  | ulong i => simp [Val.ty, specifier, emitUniform, encodeUniform, ocl]
  | double i => simp [Val.ty, specifier, emitUniform, encodeUniform, ocl]
  | ptr i => simp [Val.ty, specifier, emitUniform, encodeUniform, ocl]

theorem uniformOf_encode (ty : Ty) : uniformOf (encodeUniform ty) = some ty := by cases ty <;> rfl
theorem varying_sub (ty : Ty) : encodeVarying ty - 8 = encodeUniform ty := by cases ty <;> rfl
theorem uniform_lt (ty : Ty) : encodeUniform ty < 9 := by cases ty <;> decide
theorem varying_ge (ty : Ty) : ¬ encodeVarying ty < 9 := by cases ty <;> decide

theorem ocl_lane {t : SrcTy} {ty : Ty} (ht : storedTy t = some ty) {v : SrcVal} (hv : v.ty = t) (mask : BitVec 64)
    (k : Nat) (f : List Char) (args : List XArg) :
    ocl ('%' :: 's' :: specifier ty ++ '%' :: 's' :: f)
      (.str (if mask.getLsbD k then [] else ['(', '(']) :: emitUniform (encodeVarying ty - 8) (store v) ::
        .str (if mask.getLsbD k then [] else [')', ')']) :: args) =
    (ocl f args).map fun t => laneTextXe txt (mask.getLsbD k) v ++ t := by
  have h : (store v).ty = ty := by rw [← hv, store_ty] at ht; exact Option.some.inj ht
  rw [List.cons_append, List.cons_append, ocl_str, varying_sub, ocl_uniform h, ocl_str]
  simp only [Option.map_map]
  congr 1
  funext x
  cases hm : mask.getLsbD k <;> simp [laneTextXe, txt]

theorem ocl_lanes {t : SrcTy} {ty : Ty} (ht : storedTy t = some ty) (mask : BitVec 64) (vs : List SrcVal) :
    ∀ (k : Nat) (f : List Char) (args : List XArg), vs ≠ [] → (∀ v ∈ vs, v.ty = t) →
      ocl (specLanes (specifier ty) (vs.length - 1) ++ '%' :: 's' :: specifier ty ++ '%' :: 's' :: f)
        (emitVarying mask (encodeVarying ty) k (vs.map store) ++ args) =
      (ocl f args).map fun t => lanesTextXe txt mask.getLsbD k vs ++ t := by
  induction vs with
  | nil => intro k f args h; exact absurd rfl h
  | cons v vs ih =>
    intro k f args _ hv
    have h1 := hv v (by simp)
    cases vs with
    | nil =>
      simp only [List.length_cons, List.length_nil, Nat.zero_add, Nat.sub_self, specLanes, List.nil_append, List.map_cons,
        List.map_nil, emitVarying, List.cons_append, lanesTextXe]
      exact ocl_lane ht h1 mask k f args
    | cons w ws =>
      have h2 := ih (k + 1) f args (by simp) (fun x hx => hv x (by simp [hx]))
      have e : (v :: w :: ws).length - 1 = (w :: ws).length - 1 + 1 := by simp
      rw [e, specLanes, List.map_cons, emitVarying]
      have e2 : '%' :: 's' :: specifier ty ++ '%' :: 's' :: ',' :: specLanes (specifier ty) ((w :: ws).length - 1) ++
          '%' :: 's' :: specifier ty ++ '%' :: 's' :: f =
        '%' :: 's' :: specifier ty ++ '%' :: 's' :: ([','] ++ (specLanes (specifier ty) ((w :: ws).length - 1) ++
          '%' :: 's' :: specifier ty ++ '%' :: 's' :: f)) := by simp
      rw [e2]
      simp only [List.cons_append]
      have h3 := ocl_lane ht h1 mask k ([','] ++ (specLanes (specifier ty) ((w :: ws).length - 1) ++
          '%' :: 's' :: specifier ty ++ '%' :: 's' :: f)) (emitVarying mask (encodeVarying ty) (k + 1)
            ((w :: ws).map store) ++ args)
      simp only [List.cons_append] at h3
      rw [h3]
      have h4 := ocl_plain (p := [',']) (by decide) (specLanes (specifier ty) ((w :: ws).length - 1) ++
          '%' :: 's' :: specifier ty ++ '%' :: 's' :: f) (emitVarying mask (encodeVarying ty) (k + 1)
            ((w :: ws).map store) ++ args)
      simp only [List.cons_append] at h4
      rw [h4]
      rw [h2, Option.map_map, Option.map_map]
      congr 1
      funext x
      have e5 : lanesTextXe txt mask.getLsbD k (v :: w :: ws) = laneTextXe txt (mask.getLsbD k) v ++
          ',' :: lanesTextXe txt mask.getLsbD (k + 1) (w :: ws) := by rw [lanesTextXe]; simp
      simp [e5]

/-- The code and the cells of an argument. -/
def coded (a : Arg) : Coded := (a.code.getD 0, a.cells)

theorem ocl_arg {width : Nat} {a : Arg} (ha : a.code.isSome) (hw : 0 < width) (ho : a.Ok width) (mask : BitVec 64) :
    ∃ sp, specOf width (coded a).1 = some sp ∧ sp.length ≤ 1 + width * 9 ∧ sp ≠ [] ∧
      ∀ f args, ocl (sp ++ f) (emitArg mask (coded a) ++ args) =
        (ocl f args).map fun t => argTextXe txt mask.getLsbD a ++ t := by
  cases a with
  | uniform t v =>
    obtain ⟨c, hc⟩ := Option.isSome_iff_exists.1 ha
    have hc' := hc
    simp only [Arg.code, typeCode, Option.map_eq_some_iff] at hc'
    obtain ⟨ty, ht, rfl⟩ := hc'
    simp only [Bool.false_eq_true, if_false] at hc
    have h : (store v).ty = ty := by
      have := store_ty v; rw [ho.1] at this; rw [storedTy, ht] at this; exact (Option.some.inj this).symm
    refine ⟨specifier ty, ?_, ?_, ?_, ?_⟩
    · simp [coded, hc, specOf, uniform_lt, specUniform, uniformOf_encode]
    · cases ty <;> simp [specifier] <;> omega
    · cases ty <;> simp [specifier]
    · intro f args
      simp only [coded, hc, Option.getD_some, emitArg, uniform_lt, if_true, Arg.cells, List.take_succ_cons, List.take_zero,
        List.map_cons, List.map_nil, List.cons_append, List.nil_append, argTextXe]
      exact ocl_uniform h f args
  | varying t vs =>
    obtain ⟨c, hc⟩ := Option.isSome_iff_exists.1 ha
    have hc' := hc
    simp only [Arg.code, typeCode, Option.map_eq_some_iff] at hc'
    obtain ⟨ty, ht, rfl⟩ := hc'
    simp only [if_true] at hc
    obtain ⟨hlen, hty⟩ := ho
    have hne : vs ≠ [] := by intro h; subst h; simp at hlen; omega
    refine ⟨'[' :: specLanes (specifier ty) (width - 1) ++ '%' :: 's' :: specifier ty ++ ['%', 's', ']'], ?_, ?_, ?_, ?_⟩
    · simp [coded, hc, specOf, varying_ge, specVarying, varying_sub, specUniform, uniformOf_encode]
    · have hs : (specifier ty).length ≤ 4 := by cases ty <;> simp [specifier]
      have hl : ∀ n, (specLanes (specifier ty) n).length ≤ n * 9 := by
        intro n
        induction n with
        | zero => simp [specLanes]
        | succ n ih => simp [specLanes]; omega
      have := hl (width - 1)
      simp; omega
    · simp
    · intro f args
      have h := ocl_lanes ht mask vs 0 (']' :: f) args hne (fun v hv => (hty v hv).1)
      have e : ('[' :: specLanes (specifier ty) (width - 1) ++ '%' :: 's' :: specifier ty ++ ['%', 's', ']']) ++ f =
        '[' :: (specLanes (specifier ty) (vs.length - 1) ++ '%' :: 's' :: specifier ty ++ '%' :: 's' :: ']' :: f) := by
        simp [hlen]
      simp only [coded, hc, Option.getD_some, emitArg, varying_ge, if_false, Arg.cells, argTextXe]
      rw [e, ocl_char (by decide), h, ocl_char (by decide), Option.map_map, Option.map_map]
      congr 1
      funext x
      simp

/-! ## One call -/

theorem renderBy_char {arg : Arg → List Char} {c : Char} (h : c ≠ '%') (f : List Char) (args : List Arg) :
    renderBy arg (c :: f) args = c :: renderBy arg f args := by
  cases args <;> simp [renderBy, h]

theorem renderBy_percent (arg : Arg → List Char) (f : List Char) (a : Arg) (args : List Arg) :
    renderBy arg ('%' :: f) (a :: args) = arg a ++ renderBy arg f args := by simp [renderBy]

theorem renderBy_plain (arg : Arg → List Char) (p : List Char) (hp : '%' ∉ p) (f : List Char) (args : List Arg) :
    renderBy arg (p ++ f) args = p ++ renderBy arg f args := by
  induction p with
  | nil => rfl
  | cons c p ih =>
    simp only [List.mem_cons, not_or] at hp
    rw [List.cons_append, renderBy_char (fun h => hp.1 h.symm), ih hp.2]; rfl

theorem renderBy_append (arg : Arg → List Char) (f g : List Char) :
    ∀ (as bs : List Arg), f.count '%' = as.length →
      renderBy arg (f ++ g) (as ++ bs) = renderBy arg f as ++ renderBy arg g bs := by
  induction f with
  | nil =>
    intro as bs h
    have : as = [] := List.eq_nil_of_length_eq_zero (by simpa using h.symm)
    subst this; simp [renderBy]
  | cons c f ih =>
    intro as bs h
    by_cases hc : c = '%'
    · subst hc
      cases as with
      | nil => simp at h
      | cons a as =>
        simp only [List.count_cons_self, List.length_cons] at h
        rw [List.cons_append, List.cons_append, renderBy_percent, renderBy_percent, ih as bs (by omega), List.append_assoc]
    · rw [List.count_cons_of_ne hc] at h
      rw [List.cons_append, renderBy_char hc, renderBy_char hc, ih as bs h, List.cons_append]

/-- The sum of the weights. -/
def total (width : Nat) (args : List Arg) : Nat := (args.map fun a => ((specOf width (coded a).1).getD []).length).sum

theorem getLoop_spec {width : Nat} (hw : 0 < width) (mask : BitVec 64) (args : List Arg) :
    ∀ f : List Char, f.count '%' = args.length → (∀ a ∈ args, a.code.isSome ∧ a.Ok width) →
      ∃ fmt, getLoop width f (args.map fun a => (coded a).1) = some fmt ∧
        fmt.length + args.length = f.length + total width args ∧
        ocl fmt (emitArgs mask (args.map coded)) = some (renderBy (argTextXe txt mask.getLsbD) f args) := by
  induction args with
  | nil =>
    intro f hf _
    have hp : '%' ∉ f := by intro h; have := List.count_pos_iff.2 h; simp at hf; omega
    refine ⟨f, rfl, by simp [total], ?_⟩
    have h1 := ocl_plain hp [] []
    have h2 := renderBy_plain (argTextXe txt mask.getLsbD) f hp [] []
    simp only [List.append_nil, renderBy, ocl, Option.map_some] at h1 h2
    rw [h2]; exact h1
  | cons a args ih =>
    intro f hf hok
    obtain ⟨p, hp, hcase⟩ := format_cases f
    rcases hcase with rfl | ⟨g, rfl⟩
    · rw [List.count_eq_zero_of_not_mem hp] at hf; simp at hf
    · simp only [List.count_append, List.count_cons_self, List.count_eq_zero_of_not_mem hp, Nat.zero_add,
        List.length_cons] at hf
      obtain ⟨fmt, h1, h2, h3⟩ := ih g (by omega) (fun b hb => hok b (by simp [hb]))
      obtain ⟨ha, ho⟩ := hok a (by simp)
      obtain ⟨sp, hs, hsl, hne, hocl⟩ := ocl_arg ha hw ho mask
      have e1 : (p ++ '%' :: g).takeWhile (fun c => c ≠ '%') = p := by
        rw [List.takeWhile_append_of_pos]
        · simp
        · intro c hc; simp; exact fun hh => hp (hh ▸ hc)
      have e2 : (p ++ '%' :: g).dropWhile (fun c => c ≠ '%') = '%' :: g := by
        rw [List.dropWhile_append_of_pos]
        · simp
        · intro c hc; simp; exact fun hh => hp (hh ▸ hc)
      refine ⟨p ++ sp ++ fmt, ?_, ?_, ?_⟩
      · rw [List.map_cons, getLoop, hs, Option.bind_some, e1, e2, List.drop_succ_cons, List.drop_zero, h1]; rfl
      · simp only [total, List.map_cons, List.sum_cons, hs, Option.getD_some, List.length_append, List.length_cons] at h2 ⊢
        omega
      · rw [renderBy_plain _ _ hp, renderBy_percent, List.append_assoc, ocl_plain hp, List.map_cons]
        have : emitArgs mask (coded a :: args.map coded) = emitArg mask (coded a) ++ emitArgs mask (args.map coded) := by
          simp [emitArgs]
        rw [this, hocl, h3]; rfl

/-! ## The slices -/

theorem split_spec (limit : Nat) (f : List Char) : ∀ (ws : List Nat) (sum : Nat), f.count '%' ≤ ws.length → sum ≤ limit →
    ∃ n m, splitLoop limit f ws sum = some (n, m) ∧ n ≤ f.length ∧ (f.take n).count '%' = m ∧
      sum + n + (ws.take m).sum ≤ limit + m ∧ (n = 0 → f = [] ∨ sum + 1 > limit ∨ ∃ w ∈ ws, sum + w > limit) := by
  induction f with
  | nil => intro ws sum _ h; exact ⟨0, 0, rfl, by simp, by simp, by simpa using h, fun _ => Or.inl rfl⟩
  | cons c f ih =>
    intro ws sum hc hs
    by_cases hp : c = '%'
    · subst hp
      cases ws with
      | nil => simp at hc
      | cons w ws =>
        simp only [List.count_cons_self, List.length_cons] at hc
        by_cases hl : sum + w ≤ limit
        · obtain ⟨n, m, h1, h2, h3, h4, h5⟩ := ih ws (sum + w) (by omega) hl
          refine ⟨n + 1, m + 1, by simp [splitLoop, hl, h1], by simp [h2], by simp [h3], ?_, by omega⟩
          simp only [List.take_succ_cons, List.sum_cons]; omega
        · exact ⟨0, 0, by simp [splitLoop, hl], by simp, by simp, by simpa using hs,
            fun _ => Or.inr (Or.inr ⟨w, by simp, by omega⟩)⟩
    · rw [List.count_cons_of_ne hp] at hc
      by_cases hl : sum + 1 ≤ limit
      · obtain ⟨n, m, h1, h2, h3, h4, h5⟩ := ih ws (sum + 1) hc hl
        refine ⟨n + 1, m, by simp [splitLoop, hp, hl, h1], by simp [h2], ?_, by omega, by omega⟩
        rw [List.take_succ_cons, List.count_cons_of_ne hp, h3]
      · exact ⟨0, 0, by simp [splitLoop, hp, hl], by simp, by simp, by simpa using hs, fun _ => Or.inr (Or.inl (by omega))⟩

theorem weights_eq {width : Nat} (hw : 0 < width) (args : List Arg) (hok : ∀ a ∈ args, a.code.isSome ∧ a.Ok width) :
    weights width (args.map coded) = some (args.map fun a => ((specOf width (coded a).1).getD []).length) := by
  induction args with
  | nil => rfl
  | cons a args ih =>
    obtain ⟨ha, ho⟩ := hok a (by simp)
    obtain ⟨sp, hs, -⟩ := ocl_arg ha hw ho 0
    rw [List.map_cons, weights, hs, Option.bind_some, ih (fun b hb => hok b (by simp [hb]))]
    simp [hs]

/-- The slices are within the limit, and their calls write the text. -/
theorem slices_spec {width limit : Nat} (hw : 0 < width) (mask : BitVec 64) (hl : 1 + width * 9 ≤ limit) (fuel : Nat) :
    ∀ (f : List Char) (args : List Arg), f.count '%' = args.length → f.length < fuel →
      (∀ a ∈ args, a.code.isSome ∧ a.Ok width) →
      ∃ ss, slicesLoop limit fuel f (args.map fun a => ((specOf width (coded a).1).getD []).length) (args.map coded) =
          some ss ∧
        runSlices width mask ss = some (renderBy (argTextXe txt mask.getLsbD) f args) ∧
        ∀ s ∈ ss, ∃ fmt, getFormat width s.1 (s.2.map fun a => a.1) = some fmt ∧ fmt.length ≤ limit := by
  induction fuel with
  | zero => intro f args _ h; omega
  | succ fuel ih =>
    intro f args hc hf hok
    by_cases h0 : f = []
    · subst h0; exact ⟨[], by simp [slicesLoop], by simp [runSlices, renderBy], by simp⟩
    · set ws := args.map fun a => ((specOf width (coded a).1).getD []).length with hws
      obtain ⟨n, m, h1, h2, h3, h4, h5⟩ := split_spec limit f ws 0 (by simp [hws, hc]) (by omega)
      have hn : n ≠ 0 := by
        intro hn
        rcases h5 hn with h | h | ⟨w, hw', h⟩
        · exact h0 h
        · omega
        · rw [hws, List.mem_map] at hw'
          obtain ⟨a, ha, rfl⟩ := hw'
          obtain ⟨h6, h7⟩ := hok a ha
          obtain ⟨sp, hs, hsl, -⟩ := ocl_arg h6 hw h7 0
          simp only [hs, Option.getD_some] at h; omega
      have hsplit := congrArg (List.count '%') (List.take_append_drop n f)
      rw [List.count_append, h3, hc] at hsplit
      have hm : m ≤ args.length := by omega
      have hdrop : (f.drop n).count '%' = (args.drop m).length := by rw [List.length_drop]; omega
      have htake : (f.take n).count '%' = (args.take m).length := by rw [List.length_take, h3]; omega
      obtain ⟨ss, i1, i2, i3⟩ := ih (f.drop n) (args.drop m) hdrop (by rw [List.length_drop]; omega)
        (fun a ha => hok a (List.mem_of_mem_drop ha))
      obtain ⟨fmt, g1, g2, g3⟩ := getLoop_spec hw mask (args.take m) (f.take n) htake
        (fun a ha => hok a (List.mem_of_mem_take ha))
      have hget : getFormat width (f.take n) (((args.take m).map coded).map fun a => a.1) = some fmt := by
        rw [getFormat, if_pos]
        · rw [← g1, List.map_map]; rfl
        · simp [checkFormat, htake]
      refine ⟨(f.take n, (args.take m).map coded) :: ss, ?_, ?_, ?_⟩
      · rw [slicesLoop, if_neg h0, h1, Option.bind_some]
        simp only [hn, if_false]
        rw [hws, ← List.map_drop, ← List.map_drop, i1, ← List.map_take]; rfl
      · rw [runSlices]
        simp only []
        rw [hget, Option.bind_some, g3, Option.bind_some, i2, Option.map_some]
        rw [← renderBy_append _ _ _ _ _ htake, List.take_append_drop, List.take_append_drop]
      · intro s hs
        rcases List.mem_cons.1 hs with rfl | hs
        · refine ⟨fmt, hget, ?_⟩
          have ht : (ws.take m).sum = total width (args.take m) := by rw [hws, ← List.map_take]; rfl
          rw [ht] at h4
          simp only [List.length_take] at g2
          rw [Nat.min_eq_left hm, Nat.min_eq_left h2] at g2
          omega
        · exact i3 s hs

theorem codes_eq (args : List Arg) : ∀ ts, codes args = some ts →
    (∀ a ∈ args, a.code.isSome) ∧ ts.zip (args.map Arg.cells) = args.map coded := by
  induction args with
  | nil => intro ts h; simp [codes] at h; subst h; simp
  | cons a args ih =>
    intro ts h
    obtain ⟨c, ts', hc, hcs, rfl⟩ := codes_cons h
    obtain ⟨h1, h2⟩ := ih ts' hcs
    refine ⟨?_, ?_⟩
    · intro b hb
      rcases List.mem_cons.1 hb with rfl | hb
      · simp [hc]
      · exact h1 b hb
    · simp [h2, coded, hc]

/-- On the GPU targets `print` writes the whole text, of any length: no assertion of the compiler fails, each call of
`printf` gets the arguments that its format asks for, and no format is longer than the limit of the runtime. -/
theorem printXe_spec {width : Nat} (hw : 0 < width) (hw2 : width ≤ 64) (mask : BitVec 64) (format : List Char)
    (args : List Arg) (hok : ∀ a ∈ args, a.Ok width) {out : Option (List Char)}
    (h : printXe width mask format args = some out) :
    out = some (renderBy (argTextXe txt mask.getLsbD) format args) ∧
      ∃ ss, slices width lzLimit format (args.map coded) = some ss ∧
        ∀ s ∈ ss, ∃ fmt, getFormat width s.1 (s.2.map fun a => a.1) = some fmt ∧ fmt.length + 1 ≤ lzLimit := by
  unfold printXe at h
  split_ifs at h with hcf
  have hcount : format.count '%' = args.length := by simpa [checkFormat] using hcf
  obtain ⟨ts, hts, rfl⟩ := Option.map_eq_some_iff.1 h
  obtain ⟨hc, hz⟩ := codes_eq args ts hts
  obtain ⟨ss, h1, h2, h3⟩ := slices_spec (limit := lzLimit - 1) hw mask (by unfold lzLimit; omega) (format.length + 1)
    format args hcount (by omega) (fun a ha => ⟨hc a ha, hok a ha⟩)
  have hs : slices width lzLimit format (args.map coded) = some ss := by
    rw [slices, if_pos (by simpa [checkFormat] using hcount), weights_eq hw args (fun a ha => ⟨hc a ha, hok a ha⟩),
      Option.bind_some, h1]
  refine ⟨by rw [hz, hs, Option.bind_some, h2], ss, hs, ?_⟩
  intro s hs
  obtain ⟨fmt, h4, h5⟩ := h3 s hs
  exact ⟨fmt, h4, by unfold lzLimit at *; omega⟩

/-- It writes what the CPU targets write, except for booleans of lanes that are off. -/
theorem xe_same (on : Nat → Bool) (a : Arg) (h : ∀ vs, a ≠ .varying .bool vs) {width : Nat} (ho : a.Ok width) :
    argTextXe txt on a = argText txt on a := by
  cases a with
  | uniform t v => rfl
  | varying t vs =>
    have hv := ho.2
    have ht : t ≠ .bool := fun ht => h vs (by rw [ht])
    have key : ∀ (vs : List SrcVal) (k : Nat), (∀ v ∈ vs, v.ty = t) → lanesTextXe txt on k vs = lanesText txt on k vs := by
      intro vs
      induction vs with
      | nil => intro k _; rfl
      | cons v vs ih =>
        intro k hv
        have hl : laneTextXe txt (on k) v = laneText txt (on k) v := by
          have : v.ty ≠ .bool := by rw [hv v (by simp)]; exact ht
          simp [laneTextXe, laneText, this]
        cases vs with
        | nil => simpa [lanesTextXe, lanesText] using hl
        | cons w ws =>
          have e1 : lanesTextXe txt on k (v :: w :: ws) = laneTextXe txt (on k) v ++
            ',' :: lanesTextXe txt on (k + 1) (w :: ws) := by rw [lanesTextXe]; simp
          have e2 : lanesText txt on k (v :: w :: ws) = laneText txt (on k) v ++
            ',' :: lanesText txt on (k + 1) (w :: ws) := by rw [lanesText]; simp
          rw [e1, e2, hl, ih (k + 1) (fun x hx => hv x (by simp [hx]))]
    simp only [argTextXe, argText]
    rw [key vs 0 (fun v hx => (hv v hx).1)]

/-- A boolean of a lane that is off is a line on the CPU targets, and its value in parentheses on the GPU targets. -/
theorem xe_bool_differs : argText txt (fun k => k == 0) (.varying .bool [.bool true, .bool true]) =
      ['[', 't', 'r', 'u', 'e', ',', '_', '_', '_', '_', '_', '_', '_', '_', '_', ']'] ∧
    argTextXe txt (fun k => k == 0) (.varying .bool [.bool true, .bool true]) =
      ['[', 't', 'r', 'u', 'e', ',', '(', '(', 't', 'r', 'u', 'e', ')', ')', ']'] := by decide

example : printXe 2 1#64 ['x', '%', '%'] [.uniform .int8 (.int8 (-3)), .varying .int32 [.int32 7, .int32 8]] =
    some (some ['x', '-', '3', '[', '7', ',', '(', '(', '8', ')', ')', ']']) := by decide +kernel

end Ispc.Print
