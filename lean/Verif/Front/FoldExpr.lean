import Verif.Front.FoldScalar

/-!
# Constant folding of expressions

The trees of constants, variables, operators, `?:` and casts that
`Expr::Optimize` works on, with their types; what they evaluate to at run time,
lane by lane; and the bottom-up folding pass.
-/

namespace Ispc.Fold

/-- Expressions of a type, uniform (`false`) or varying (`true`), after type
checking: both operands of an operator have the same type (src/expr.cpp:2822 on),
except that `&&` and `||` keep the variability of each (src/expr.cpp:3112-3151),
and no cast goes from varying to uniform.  A constant has one value if uniform and
one per program instance if varying. -/
inductive Ex : STy → Bool → Type
  | const {ty : STy} {vr : Bool} (v : List ty.Val) : Ex ty vr
  | var {ty : STy} {vr : Bool} (x : Nat) : Ex ty vr
  | un {ty : STy} {vr : Bool} (op : UOp) (a : Ex ty vr) : Ex ty vr
  | bin {ty : STy} {vr : Bool} (op : Op) (a b : Ex ty vr) : Ex ty vr
  | rel {ty : STy} {vr : Bool} (op : Cmp) (a b : Ex ty vr) : Ex .bool vr
  | logic {vr1 vr2 vr : Bool} (isAnd : Bool) (a : Ex .bool vr1) (b : Ex .bool vr2)
      (h : vr = (vr1 || vr2)) : Ex .bool vr
  | sel {ty : STy} {vt vr : Bool} (t : Ex .bool vt) (a b : Ex ty vr)
      (h : vt = true → vr = true) : Ex ty vr
  | cast {src : STy} {vr : Bool} (dst : STy) (vr' : Bool) (h : vr = true → vr' = true)
      (a : Ex src vr) : Ex dst vr'

/-! ## Evaluation at run time -/

/-- The element of a constant or variable a program instance reads. -/
def slot (vr : Bool) (lane : Nat) : Nat := if vr then lane else 0

/-- The values of the variables. -/
abbrev Env := (ty : STy) → Nat → Nat → ty.Val

/-- What program instance `lane` computes; `none` is poison or undefined.
`&&`, `||` and `?:` do not look at the operand they do not need. -/
def eval (A : FpArith) (wrap : Bool) (ρ : Env) : {ty : STy} → {vr : Bool} → Ex ty vr → Nat → Option ty.Val
  | _, vr, .const v, l => v[slot vr l]?
  | ty, vr, .var x, l => some (ρ ty x (slot vr l))
  | ty, _, .un op a, l => (eval A wrap ρ a l).bind (runUn wrap op ty)
  | ty, _, .bin op a b, l =>
    (eval A wrap ρ a l).bind fun x => (eval A wrap ρ b l).bind fun y => runBin A wrap op ty x y
  | _, _, .rel (ty := ty) op a b, l =>
    (eval A wrap ρ a l).bind fun x => (eval A wrap ρ b l).bind fun y => some (runRelOp op ty x y)
  | _, _, .logic isAnd a b _, l =>
    (eval A wrap ρ a l).bind fun x => if x = isAnd then eval A wrap ρ b l else some x
  | _, _, .sel t a b _, l =>
    (eval A wrap ρ t l).bind fun c => if c then eval A wrap ρ a l else eval A wrap ρ b l
  | _, _, .cast (src := src) dst _ _ a, l => (eval A wrap ρ a l).bind (runCast src dst)

/-! ## Folding -/

/-- The outcome of folding: an expression, a computation of the compiler that
C++ leaves undefined, or a failed assertion. -/
inductive Out (α : Type)
  | ok (a : α)
  | ub
  | crash
  deriving DecidableEq

/-- Sequencing. -/
def Out.bind {α β : Type} : Out α → (α → Out β) → Out β
  | .ok a, f => f a
  | .ub, _ => .ub
  | .crash, _ => .crash

/-- `ConstExpr::Count`, src/expr.cpp:6694. -/
def count (W : Nat) (vr : Bool) : Nat := if vr then W else 1

/-- The loops over the lanes of a constant: they stop at the first lane that is
not folded. -/
def collect {α : Type} (f : Nat → Lane α) : Nat → Lane (List α)
  | 0 => .val []
  | n + 1 =>
    match collect f n with
    | .val xs =>
      match f n with
      | .val x => .val (xs ++ [x])
      | .skip => .skip
      | .ub => .ub
    | .skip => .skip
    | .ub => .ub

/-- One lane of an operation on two constants; reading past the values of a
constant is undefined. -/
def zip {α β γ : Type} (f : α → β → Lane γ) (xs : List α) (ys : List β) (i : Nat) : Lane γ :=
  match xs[i]?, ys[i]? with
  | some x, some y => f x y
  | _, _ => .ub

/-- One lane of an operation on one constant. -/
def at1 {α γ : Type} (f : α → Lane γ) (xs : List α) (i : Nat) : Lane γ :=
  match xs[i]? with
  | some x => f x
  | none => .ub

/-- The new constant, or the expression as it was (`return this`). -/
def finish {ty : STy} {vr : Bool} (orig : Ex ty vr) : Lane (List ty.Val) → Out (Ex ty vr)
  | .val v => .ok (.const v)
  | .skip => .ok orig
  | .ub => .ub

/-- The assertions of `UnaryExpr::Optimize`, src/expr.cpp:1404-1505, on a constant
operand.  Negating a varying `uint16` fails one: the branch for `uint16` compares
with `VaryingUInt32` (1439-1440).  The others are excluded by type checking. -/
def unaryAsserts (op : UOp) (ty : STy) (vr : Bool) : Bool :=
  match op, ty with
  | .neg, .int .w16 false => !vr
  | .neg, .bool => false
  | .neg, _ => true
  | .bnot, .int _ _ => true
  | .bnot, .enum => true
  | .bnot, _ => false
  | .lnot, .bool => true
  | .lnot, _ => false

/-- `UnaryExpr::Optimize`, src/expr.cpp:1404-1505. -/
def optUn (W : Nat) {ty : STy} {vr : Bool} (op : UOp) (a : Ex ty vr) : Out (Ex ty vr) :=
  match a with
  | .const x =>
    if unaryAsserts op ty vr then
      finish (.un op a) (collect (at1 (foldUn op ty) x) (count W vr))
    else .crash
  | _ => .ok (.un op a)

/-- `BinaryExpr::Optimize`, src/expr.cpp:2705-2820, for arithmetic and bit
operators. -/
def optBin (A : FpArith) (W : Nat) {ty : STy} {vr : Bool} (op : Op) (a b : Ex ty vr) : Out (Ex ty vr) :=
  match a, b with
  | .const x, .const y => finish (.bin op a b) (collect (zip (foldBin A op ty) x y) (count W vr))
  | _, _ => .ok (.bin op a b)

/-- `BinaryExpr::Optimize`, src/expr.cpp:2705-2820, for comparisons. -/
def optRel (W : Nat) {ty : STy} {vr : Bool} (op : Cmp) (a b : Ex ty vr) : Out (Ex .bool vr) :=
  match a, b with
  | .const x, .const y =>
    finish (.rel op a b)
      (collect (zip (fun p q => .val (foldRelOp op ty p q)) x y) (count W vr))
  | _, _ => .ok (.rel op a b)

/-- `BinaryExpr::Optimize` for `&&` and `||`: the assertion that both constants have
the same type (src/expr.cpp:2779) also compares uniform and varying. -/
def optLogic (W : Nat) {vr1 vr2 vr : Bool} (isAnd : Bool) (a : Ex .bool vr1) (b : Ex .bool vr2)
    (h : vr = (vr1 || vr2)) : Out (Ex .bool vr) :=
  match a, b with
  | .const x, .const y =>
    if vr1 = vr2 then
      finish (.logic isAnd a b h)
        (collect (zip (fun p q => .val (if isAnd then p && q else p || q)) x y) (count W vr1))
    else .crash
  | _, _ => .ok (.logic isAnd a b h)

/-- `SelectExpr::Optimize`, src/expr.cpp:3962-4034: a test with the same value in
all lanes picks an operand; otherwise two constants are merged lane by lane, except
enums. -/
def optSel (W : Nat) {ty : STy} {vt vr : Bool} (t : Ex .bool vt) (a b : Ex ty vr)
    (h : vt = true → vr = true) : Out (Ex ty vr) :=
  match t with
  | .const c =>
    match c[0]? with
    | none => .ub
    | some first =>
      if ∀ i, i < count W vt → c[i]? = some first then .ok (if first then a else b)
      else
        match a, b with
        | .const x, .const y =>
          if vr = false then .crash
          else if ty = .enum then .ok (.sel t a b h)
          else
            finish (.sel t a b h)
              (collect (fun i => at1 (fun k => zip (fun p q => .val (if k then p else q)) x y i) c i)
                (count W vr))
        | _, _ => .ok (.sel t a b h)
  | _ => .ok (.sel t a b h)

/-- `TypeCastExpr::Optimize`, src/expr.cpp:8200-8289, with `lConvert`, 6562-6585:
the values of a uniform constant are repeated for a varying type. -/
def optCast (W : Nat) {src : STy} {vr : Bool} (dst : STy) (vr' : Bool)
    (h : vr = true → vr' = true) (a : Ex src vr) : Out (Ex dst vr') :=
  match a with
  | .const x =>
    match collect (at1 (foldCast src dst) x) (count W vr) with
    | .val v => .ok (.const (if vr' && !vr then (v.take 1).flatMap (List.replicate W) else v))
    | .skip => .ok (.cast dst vr' h a)
    | .ub => .ub
  | _ => .ok (.cast dst vr' h a)

/-- The pass: operands first. -/
def fold (A : FpArith) (W : Nat) : {ty : STy} → {vr : Bool} → Ex ty vr → Out (Ex ty vr)
  | _, _, .const v => .ok (.const v)
  | _, _, .var x => .ok (.var x)
  | _, _, .un op a => (fold A W a).bind fun a' => optUn W op a'
  | _, _, .bin op a b =>
    (fold A W a).bind fun a' => (fold A W b).bind fun b' => optBin A W op a' b'
  | _, _, .rel op a b =>
    (fold A W a).bind fun a' => (fold A W b).bind fun b' => optRel W op a' b'
  | _, _, .logic isAnd a b h =>
    (fold A W a).bind fun a' => (fold A W b).bind fun b' => optLogic W isAnd a' b' h
  | _, _, .sel t a b h =>
    (fold A W t).bind fun t' => (fold A W a).bind fun a' => (fold A W b).bind fun b' =>
      optSel W t' a' b' h
  | _, _, .cast dst vr' h a => (fold A W a).bind fun a' => optCast W dst vr' h a'

/-! ## Folding does not change what is computed -/

/-- No cast from a 64-bit integer to `float` in the expression. -/
def NoWide : {ty : STy} → {vr : Bool} → Ex ty vr → Prop
  | _, _, .const _ => True
  | _, _, .var _ => True
  | _, _, .un _ a => NoWide a
  | _, _, .bin _ a b => NoWide a ∧ NoWide b
  | _, _, .rel _ a b => NoWide a ∧ NoWide b
  | _, _, .logic _ a b _ => NoWide a ∧ NoWide b
  | _, _, .sel t a b _ => NoWide t ∧ NoWide a ∧ NoWide b
  | _, _, .cast (src := src) dst _ _ a => ¬ WideToFloat src dst ∧ NoWide a

theorem collect_get {α : Type} {f : Nat → Lane α} {n : Nat} {xs : List α}
    (h : collect f n = .val xs) :
    xs.length = n ∧ ∀ i, i < n → ∃ x, f i = .val x ∧ xs[i]? = some x := by
  induction n generalizing xs with
  | zero => simp only [collect, Lane.val.injEq] at h; subst h; simp
  | succ n ih =>
    simp only [collect] at h
    cases hc : collect f n with
    | skip => simp [hc] at h
    | ub => simp [hc] at h
    | val ys =>
      simp only [hc] at h
      cases hf : f n with
      | skip => simp [hf] at h
      | ub => simp [hf] at h
      | val y =>
        simp only [hf, Lane.val.injEq] at h
        subst h
        obtain ⟨hl, hg⟩ := ih hc
        refine ⟨by simp [hl], fun i hi => ?_⟩
        by_cases hin : i < n
        · obtain ⟨x, h1, h2⟩ := hg i hin
          refine ⟨x, h1, ?_⟩
          rw [List.getElem?_append_left (by omega)]
          exact h2
        · have : i = n := by omega
          subst this
          exact ⟨y, hf, by simp [← hl]⟩

theorem slot_lt {W l : Nat} (vr : Bool) (h : l < W) : slot vr l < count W vr := by
  cases vr <;> simp [slot, count, h]

/-- What `finish` returns evaluates to the lane of the collected values. -/
theorem finish_sound {A : FpArith} {wrap : Bool} {ρ : Env} {ty : STy} {vr : Bool}
    {orig e' : Ex ty vr} {f : Nat → Lane ty.Val} {W l : Nat} {r : ty.Val} (hl : l < W)
    (h : finish orig (collect f (count W vr)) = .ok e')
    (hr : eval A wrap ρ orig l = some r)
    (hf : ∀ x, f (slot vr l) = .val x → x = r) : eval A wrap ρ e' l = some r := by
  cases hc : collect f (count W vr) with
  | skip => simp only [hc, finish, Out.ok.injEq] at h; subst h; exact hr
  | ub => simp [hc, finish] at h
  | val v =>
    simp only [hc, finish, Out.ok.injEq] at h
    subst h
    obtain ⟨x, h1, h2⟩ := (collect_get hc).2 _ (slot_lt vr hl)
    rw [eval, h2, hf x h1]

theorem optUn_sound {A : FpArith} {wrap : Bool} {ρ : Env} {W l : Nat} {ty : STy} {vr : Bool}
    {op : UOp} {a e' : Ex ty vr} {r : ty.Val} (hl : l < W) (h : optUn W op a = .ok e')
    (hr : eval A wrap ρ (.un op a) l = some r) : eval A wrap ρ e' l = some r := by
  unfold optUn at h
  split at h
  · rename_i x
    split at h
    · refine finish_sound hl h hr fun y hy => ?_
      simp only [eval] at hr
      unfold at1 at hy
      cases hx : x[slot vr l]? with
      | none => simp [hx] at hr
      | some k =>
        simp only [hx, Option.bind_some] at hr hy
        rcases foldUn_run hr with h1 | h1 <;> rw [h1] at hy <;> cases hy
        rfl
    · cases h
  · cases h; exact hr

theorem optBin_sound {A : FpArith} {wrap : Bool} {ρ : Env} {W l : Nat} {ty : STy} {vr : Bool}
    {op : Op} {a b e' : Ex ty vr} {r : ty.Val} (hl : l < W) (h : optBin A W op a b = .ok e')
    (hr : eval A wrap ρ (.bin op a b) l = some r) : eval A wrap ρ e' l = some r := by
  unfold optBin at h
  split at h
  · rename_i x y
    refine finish_sound hl h hr fun z hz => ?_
    simp only [eval] at hr
    unfold zip at hz
    cases hx : x[slot vr l]? with
    | none => simp [hx] at hr
    | some p =>
      cases hy : y[slot vr l]? with
      | none => simp [hx, hy] at hr
      | some q =>
        simp only [hx, hy, Option.bind_some] at hr hz
        rcases foldBin_run hr with h1 | h1 <;> rw [h1] at hz <;> cases hz
        rfl
  · cases h; exact hr

theorem optRel_sound {A : FpArith} {wrap : Bool} {ρ : Env} {W l : Nat} {ty : STy} {vr : Bool}
    {op : Cmp} {a b : Ex ty vr} {e' : Ex .bool vr} {r : Bool} (hl : l < W)
    (h : optRel W op a b = .ok e')
    (hr : eval A wrap ρ (.rel op a b) l = some r) : eval A wrap ρ e' l = some r := by
  unfold optRel at h
  split at h
  · rename_i x y
    refine finish_sound hl h hr fun z hz => ?_
    simp only [eval] at hr
    unfold zip at hz
    cases hx : x[slot vr l]? with
    | none => simp [hx] at hr
    | some p =>
      cases hy : y[slot vr l]? with
      | none => simp [hx, hy] at hr
      | some q =>
        simp only [hx, hy, Option.bind_some, Option.some.injEq, Lane.val.injEq] at hr hz
        rw [← hz, ← hr, foldRelOp_run]
  · cases h; exact hr

theorem optLogic_sound {A : FpArith} {wrap : Bool} {ρ : Env} {W l : Nat} {vr1 vr2 vr : Bool}
    {isAnd : Bool} {a : Ex .bool vr1} {b : Ex .bool vr2} {hv : vr = (vr1 || vr2)}
    {e' : Ex .bool vr} {r : Bool} (hl : l < W) (h : optLogic W isAnd a b hv = .ok e')
    (hr : eval A wrap ρ (.logic isAnd a b hv) l = some r) : eval A wrap ρ e' l = some r := by
  unfold optLogic at h
  split at h
  · rename_i x y
    split at h
    · rename_i heq
      subst heq
      have : vr = vr1 := by rw [hv]; simp
      subst this
      refine finish_sound hl h hr fun z hz => ?_
      simp only [eval] at hr
      unfold zip at hz
      cases hx : x[slot vr l]? with
      | none => simp [hx] at hr
      | some p =>
        cases hy : y[slot vr l]? with
        | none => simp [hx, hy] at hz
        | some q =>
          simp only [hx, hy, Option.bind_some, Lane.val.injEq] at hr hz
          rw [← hz]
          cases isAnd <;> cases p
          · exact Option.some.inj ((if_pos rfl).symm.trans hr)
          · exact Option.some.inj ((if_neg (by decide)).symm.trans hr)
          · exact Option.some.inj ((if_neg (by decide)).symm.trans hr)
          · exact Option.some.inj ((if_pos rfl).symm.trans hr)
    · cases h
  · cases h; exact hr

theorem optSel_sound {A : FpArith} {wrap : Bool} {ρ : Env} {W l : Nat} {ty : STy} {vt vr : Bool}
    {t : Ex .bool vt} {a b : Ex ty vr} {hv : vt = true → vr = true} {e' : Ex ty vr} {r : ty.Val}
    (hl : l < W) (h : optSel W t a b hv = .ok e')
    (hr : eval A wrap ρ (.sel t a b hv) l = some r) : eval A wrap ρ e' l = some r := by
  unfold optSel at h
  split at h
  · rename_i c
    split at h
    · cases h
    · rename_i first hfirst
      split at h
      · rename_i hall
        cases h
        simp only [eval, hall _ (slot_lt vt hl), Option.bind_some] at hr
        cases first <;> simpa using hr
      · rename_i hmix
        split at h
        · rename_i x y
          split at h
          · cases h
          · rename_i hvr
            have hvr : vr = true := by simpa using hvr
            split at h
            · cases h; exact hr
            · refine finish_sound hl h hr fun z hz => ?_
              have hvt : vt = true := by
                cases vt
                · exact absurd (fun i (hi : i < 1) => by
                    have : i = 0 := by omega
                    subst this; exact hfirst) hmix
                · rfl
              subst hvt hvr
              simp only [eval] at hr
              simp only [at1, zip] at hz
              cases hc : c[slot true l]? with
              | none => simp [hc] at hr
              | some k =>
                simp only [hc, Option.bind_some] at hr hz
                cases hx : x[slot true l]? with
                | none => simp [hx] at hz
                | some p =>
                  cases hy : y[slot true l]? with
                  | none => simp [hx, hy] at hz
                  | some q =>
                    simp only [hx, hy, Lane.val.injEq] at hz
                    cases k
                    · simp only [Bool.false_eq_true, if_false, hy, Option.some.injEq] at hr hz
                      rw [← hz, hr]
                    · simp only [if_true, hx, Option.some.injEq] at hr hz
                      rw [← hz, hr]
        · cases h; exact hr
  · cases h; exact hr

theorem optCast_sound {A : FpArith} {wrap : Bool} {ρ : Env} {W l : Nat} {src : STy} {vr : Bool}
    {dst : STy} {vr' : Bool} {hv : vr = true → vr' = true} {a : Ex src vr} {e' : Ex dst vr'}
    {r : dst.Val} (hw : ¬ WideToFloat src dst) (hl : l < W) (h : optCast W dst vr' hv a = .ok e')
    (hr : eval A wrap ρ (.cast dst vr' hv a) l = some r) : eval A wrap ρ e' l = some r := by
  unfold optCast at h
  split at h
  · rename_i x
    split at h
    · rename_i v hc
      cases h
      obtain ⟨hlen, hg⟩ := collect_get hc
      obtain ⟨k, h1, h2⟩ := hg _ (slot_lt vr hl)
      have hk : k = r := by
        simp only [eval] at hr
        unfold at1 at h1
        cases hx : x[slot vr l]? with
        | none => simp [hx] at hr
        | some p =>
          simp only [hx, Option.bind_some] at hr h1
          rw [foldCast_run_partial hw hr] at h1
          cases h1; rfl
      subst hk
      rw [eval]
      cases vr
      · cases vr'
        · simpa [slot] using h2
        · have hv0 : v = [k] := by
            match v, hlen, h2 with
            | [y], _, h2 => simpa [slot] using h2
          subst hv0
          simp [slot, hl]
      · obtain rfl : vr' = true := hv rfl
        simpa [slot] using h2
    · cases h; exact hr
    · cases h
  · cases h; exact hr

theorem bind_ok {α β : Type} {x : Out α} {f : α → Out β} {y : β} (h : x.bind f = .ok y) :
    ∃ a, x = .ok a ∧ f a = .ok y := by
  cases x with
  | ok a => exact ⟨a, rfl, h⟩
  | ub => cases h
  | crash => cases h

/-- Folding keeps every value the program computes: in every lane in which the
expression is defined, the folded expression has the same value, whatever the
variables hold.  Missing: expressions that cast 64-bit integers to `float`, see
`folded_cast_differs`. -/
theorem fold_sound_partial {A : FpArith} {wrap : Bool} {ρ : Env} {W l : Nat} {ty : STy} {vr : Bool}
    {e e' : Ex ty vr} {r : ty.Val} (hw : NoWide e) (h : fold A W e = .ok e') (hl : l < W)
    (hr : eval A wrap ρ e l = some r) : eval A wrap ρ e' l = some r := by
  induction e with
  | const v => cases h; exact hr
  | var x => cases h; exact hr
  | un op a ih =>
    obtain ⟨a', ha, h'⟩ := bind_ok h
    refine optUn_sound hl h' ?_
    simp only [eval] at hr ⊢
    obtain ⟨x, hx, hr⟩ := Option.bind_eq_some_iff.mp hr
    rw [ih hw ha hx]; exact hr
  | bin op a b iha ihb =>
    obtain ⟨a', ha, h'⟩ := bind_ok h
    obtain ⟨b', hb, h'⟩ := bind_ok h'
    refine optBin_sound hl h' ?_
    simp only [eval] at hr ⊢
    obtain ⟨x, hx, hr⟩ := Option.bind_eq_some_iff.mp hr
    obtain ⟨y, hy, hr⟩ := Option.bind_eq_some_iff.mp hr
    rw [iha hw.1 ha hx, ihb hw.2 hb hy]; exact hr
  | rel op a b iha ihb =>
    obtain ⟨a', ha, h'⟩ := bind_ok h
    obtain ⟨b', hb, h'⟩ := bind_ok h'
    refine optRel_sound hl h' ?_
    simp only [eval] at hr ⊢
    obtain ⟨x, hx, hr⟩ := Option.bind_eq_some_iff.mp hr
    obtain ⟨y, hy, hr⟩ := Option.bind_eq_some_iff.mp hr
    rw [iha hw.1 ha hx, ihb hw.2 hb hy]; exact hr
  | logic isAnd a b hv iha ihb =>
    obtain ⟨a', ha, h'⟩ := bind_ok h
    obtain ⟨b', hb, h'⟩ := bind_ok h'
    refine optLogic_sound hl h' ?_
    simp only [eval] at hr ⊢
    obtain ⟨x, hx, hr⟩ := Option.bind_eq_some_iff.mp hr
    rw [iha hw.1 ha hx]
    simp only [Option.bind_some]
    split at hr
    · rw [if_pos ‹_›]; exact ihb hw.2 hb hr
    · rw [if_neg ‹_›]; exact hr
  | sel t a b hv iht iha ihb =>
    obtain ⟨t', ht, h'⟩ := bind_ok h
    obtain ⟨a', ha, h'⟩ := bind_ok h'
    obtain ⟨b', hb, h'⟩ := bind_ok h'
    refine optSel_sound hl h' ?_
    simp only [eval] at hr ⊢
    obtain ⟨c, hc, hr⟩ := Option.bind_eq_some_iff.mp hr
    rw [iht hw.1 ht hc]
    simp only [Option.bind_some]
    split at hr
    · rw [if_pos ‹_›]; exact iha hw.2.1 ha hr
    · rw [if_neg ‹_›]; exact ihb hw.2.2 hb hr
  | cast dst vr' hv a ih =>
    obtain ⟨a', ha, h'⟩ := bind_ok h
    refine optCast_sound hw.1 hl h' ?_
    simp only [eval] at hr ⊢
    obtain ⟨x, hx, hr⟩ := Option.bind_eq_some_iff.mp hr
    rw [ih hw.2 ha hx]; exact hr

/-! ## Constant expressions become constants -/

/-- No variable, no `?:` on enums, and every operand defined in every lane, also
the ones `&&`, `||` and `?:` do not look at. -/
def Constant (A : FpArith) (wrap : Bool) (ρ : Env) (W : Nat) :
    {ty : STy} → {vr : Bool} → Ex ty vr → Prop
  | _, vr, .const v => ∀ l, l < W → (v[slot vr l]?).isSome
  | _, _, .var _ => False
  | _, _, e@(.un _ a) => Constant A wrap ρ W a ∧ ∀ l, l < W → ∃ r, eval A wrap ρ e l = some r
  | _, _, e@(.bin _ a b) =>
    Constant A wrap ρ W a ∧ Constant A wrap ρ W b ∧ ∀ l, l < W → ∃ r, eval A wrap ρ e l = some r
  | _, _, .rel _ a b => Constant A wrap ρ W a ∧ Constant A wrap ρ W b
  | _, _, .logic _ a b _ => Constant A wrap ρ W a ∧ Constant A wrap ρ W b
  | ty, _, .sel t a b _ =>
    ty ≠ .enum ∧ Constant A wrap ρ W t ∧ Constant A wrap ρ W a ∧ Constant A wrap ρ W b
  | _, _, e@(.cast _ _ _ a) =>
    Constant A wrap ρ W a ∧ ∀ l, l < W → ∃ r, eval A wrap ρ e l = some r

theorem collect_skip {α : Type} {f : Nat → Lane α} {n : Nat} (h : collect f n = .skip) :
    ∃ i, i < n ∧ f i = .skip := by
  induction n with
  | zero => cases h
  | succ n ih =>
    simp only [collect] at h
    cases hc : collect f n with
    | skip =>
      obtain ⟨i, hi, hf⟩ := ih hc
      exact ⟨i, by omega, hf⟩
    | ub => simp [hc] at h
    | val ys =>
      simp only [hc] at h
      cases hf : f n with
      | skip => exact ⟨n, by omega, hf⟩
      | ub => simp [hf] at h
      | val y => simp [hf] at h

theorem finish_const {ty : STy} {vr : Bool} {orig e' : Ex ty vr} {f : Nat → Lane ty.Val} {n : Nat}
    (h : finish orig (collect f n) = .ok e') (hf : ∀ i, i < n → f i ≠ .skip) :
    ∃ v, e' = .const v := by
  cases hc : collect f n with
  | skip =>
    obtain ⟨i, hi, hs⟩ := collect_skip hc
    exact absurd hs (hf i hi)
  | ub => simp [hc, finish] at h
  | val v => simp only [hc, finish, Out.ok.injEq] at h; exact ⟨v, h.symm⟩

theorem zip_noskip {α β γ : Type} {f : α → β → Lane γ} {xs : List α} {ys : List β} {i : Nat}
    (h : ∀ x y, xs[i]? = some x → ys[i]? = some y → f x y ≠ .skip) : zip f xs ys i ≠ .skip := by
  unfold zip
  split
  · exact h _ _ ‹_› ‹_›
  · simp

theorem at1_noskip {α γ : Type} {f : α → Lane γ} {xs : List α} {i : Nat}
    (h : ∀ x, xs[i]? = some x → f x ≠ .skip) : at1 f xs i ≠ .skip := by
  unfold at1
  split
  · exact h _ ‹_›
  · simp

/-- Every slot of a constant belongs to a lane. -/
theorem lane_of_slot {W : Nat} {vr : Bool} {i : Nat} (hW : 0 < W) (hi : i < count W vr) :
    ∃ l, l < W ∧ slot vr l = i := by
  cases vr
  · exact ⟨0, hW, by simp only [count, Bool.false_eq_true, if_false] at hi; simp [slot]; omega⟩
  · exact ⟨i, by simpa [count] using hi, by simp [slot]⟩

/-- A constant expression, once folded, is a constant: it can be used where the
language asks for one. -/
theorem constant_folds {A : FpArith} {wrap : Bool} {ρ : Env} {W : Nat} {ty : STy} {vr : Bool}
    {e e' : Ex ty vr} (hW : 0 < W) (hw : NoWide e) (hc : Constant A wrap ρ W e)
    (h : fold A W e = .ok e') : ∃ v, e' = .const v := by
  induction e with
  | const v => cases h; exact ⟨v, rfl⟩
  | var x => exact hc.elim
  | un op a ih =>
    obtain ⟨a', ha, h'⟩ := bind_ok h
    obtain ⟨x, rfl⟩ := ih hw hc.1 ha
    simp only [optUn] at h'
    split at h'
    · refine finish_const h' fun i hi => at1_noskip fun k hk => ?_
      obtain ⟨l, hl, rfl⟩ := lane_of_slot hW hi
      obtain ⟨r, hr⟩ := hc.2 l hl
      simp only [eval] at hr
      obtain ⟨y, hy, hr⟩ := Option.bind_eq_some_iff.mp hr
      have := fold_sound_partial (show NoWide a from hw) ha hl hy
      simp only [eval] at this
      rw [hk] at this
      cases this
      rcases foldUn_run hr with h1 | h1 <;> rw [h1] <;> simp
    · cases h'
  | bin op a b iha ihb =>
    obtain ⟨a', ha, h'⟩ := bind_ok h
    obtain ⟨b', hb, h'⟩ := bind_ok h'
    obtain ⟨x, rfl⟩ := iha hw.1 hc.1 ha
    obtain ⟨y, rfl⟩ := ihb hw.2 hc.2.1 hb
    refine finish_const h' fun i hi => zip_noskip fun p q hp hq => ?_
    obtain ⟨l, hl, rfl⟩ := lane_of_slot hW hi
    obtain ⟨r, hr⟩ := hc.2.2 l hl
    simp only [eval] at hr
    obtain ⟨u, hu, hr⟩ := Option.bind_eq_some_iff.mp hr
    obtain ⟨v, hv, hr⟩ := Option.bind_eq_some_iff.mp hr
    have h1 := fold_sound_partial hw.1 ha hl hu
    have h2 := fold_sound_partial hw.2 hb hl hv
    simp only [eval] at h1 h2
    rw [hp] at h1; rw [hq] at h2
    cases h1; cases h2
    rcases foldBin_run hr with h1 | h1 <;> rw [h1] <;> simp
  | rel op a b iha ihb =>
    obtain ⟨a', ha, h'⟩ := bind_ok h
    obtain ⟨b', hb, h'⟩ := bind_ok h'
    obtain ⟨x, rfl⟩ := iha hw.1 hc.1 ha
    obtain ⟨y, rfl⟩ := ihb hw.2 hc.2 hb
    exact finish_const h' fun i hi => zip_noskip fun p q hp hq => by simp
  | logic isAnd a b hv iha ihb =>
    obtain ⟨a', ha, h'⟩ := bind_ok h
    obtain ⟨b', hb, h'⟩ := bind_ok h'
    obtain ⟨x, rfl⟩ := iha hw.1 hc.1 ha
    obtain ⟨y, rfl⟩ := ihb hw.2 hc.2 hb
    simp only [optLogic] at h'
    split at h'
    · exact finish_const h' fun i hi => zip_noskip fun p q hp hq => by simp
    · cases h'
  | sel t a b hv iht iha ihb =>
    obtain ⟨t', ht, h'⟩ := bind_ok h
    obtain ⟨a', ha, h'⟩ := bind_ok h'
    obtain ⟨b', hb, h'⟩ := bind_ok h'
    obtain ⟨c, rfl⟩ := iht hw.1 hc.2.1 ht
    obtain ⟨x, rfl⟩ := iha hw.2.1 hc.2.2.1 ha
    obtain ⟨y, rfl⟩ := ihb hw.2.2 hc.2.2.2 hb
    simp only [optSel] at h'
    split at h'
    · cases h'
    · split at h'
      · cases h'
        split <;> exact ⟨_, rfl⟩
      · split at h'
        · cases h'
        · rw [if_neg hc.1] at h'
          exact finish_const h' fun i hi => at1_noskip fun k hk => zip_noskip fun p q hp hq => by simp
  | cast dst vr' hv a ih =>
    obtain ⟨a', ha, h'⟩ := bind_ok h
    obtain ⟨x, rfl⟩ := ih hw.2 hc.1 ha
    simp only [optCast] at h'
    split at h'
    · cases h'; exact ⟨_, rfl⟩
    · rename_i hs
      exfalso
      obtain ⟨i, hi, hs⟩ := collect_skip hs
      refine at1_noskip (fun k hk => ?_) hs
      obtain ⟨l, hl, rfl⟩ := lane_of_slot hW hi
      obtain ⟨r, hr⟩ := hc.2 l hl
      simp only [eval] at hr
      obtain ⟨y, hy, hr⟩ := Option.bind_eq_some_iff.mp hr
      have := fold_sound_partial hw.2 ha hl hy
      simp only [eval] at this
      rw [hk] at this
      cases this
      rw [foldCast_run_partial hw.1 hr]
      simp
    · cases h'

/-! ## The compiler does not stop -/

/-- Type-checked unary operators, none of them the negation of a varying `uint16`,
and no `&&` or `||` of a uniform and a varying operand. -/
def Tame : {ty : STy} → {vr : Bool} → Ex ty vr → Prop
  | _, _, .const _ => True
  | _, _, .var _ => True
  | ty, vr, .un op a => unaryAsserts op ty vr = true ∧ Tame a
  | _, _, .bin _ a b => Tame a ∧ Tame b
  | _, _, .rel _ a b => Tame a ∧ Tame b
  | _, _, .logic (vr1 := v1) (vr2 := v2) _ a b _ => v1 = v2 ∧ Tame a ∧ Tame b
  | _, _, .sel t a b _ => Tame t ∧ Tame a ∧ Tame b
  | _, _, .cast _ _ _ a => Tame a

theorem bind_crash {α β : Type} {x : Out α} {f : α → Out β} (h : x.bind f = .crash) :
    x = .crash ∨ ∃ a, x = .ok a ∧ f a = .crash := by
  cases x with
  | ok a => exact Or.inr ⟨a, rfl, h⟩
  | ub => cases h
  | crash => exact Or.inl rfl

theorem finish_ne_crash {ty : STy} {vr : Bool} (orig : Ex ty vr) (x : Lane (List ty.Val)) :
    finish orig x ≠ .crash := by cases x <;> simp [finish]

/-- If the operands of `?:` are uniform, so is the test. -/
theorem all_of_uniform {W : Nat} {vt vr : Bool} (hv : vt = true → vr = true) (h : vr = false)
    {c : List Bool} {first : Bool} (h0 : c[0]? = some first) :
    ∀ i, i < count W vt → c[i]? = some first := by
  intro i hi
  cases vt
  · have : i = 0 := by simp only [count, Bool.false_eq_true, if_false] at hi; omega
    rw [this]; exact h0
  · rw [hv rfl] at h; cases h

/-- Folding fails no assertion on such expressions. -/
theorem no_crash_partial {A : FpArith} {W : Nat} {ty : STy} {vr : Bool} {e : Ex ty vr}
    (ht : Tame e) : fold A W e ≠ .crash := by
  intro h
  induction e with
  | const v => cases h
  | var x => cases h
  | un op a ih =>
    rcases bind_crash h with h | ⟨a', -, h⟩
    · exact ih ht.2 h
    · unfold optUn at h
      split at h
      · rw [if_pos ht.1] at h; exact finish_ne_crash _ _ h
      · cases h
  | bin op a b iha ihb =>
    rcases bind_crash h with h | ⟨a', -, h⟩
    · exact iha ht.1 h
    rcases bind_crash h with h | ⟨b', -, h⟩
    · exact ihb ht.2 h
    · unfold optBin at h
      split at h
      · exact finish_ne_crash _ _ h
      · cases h
  | rel op a b iha ihb =>
    rcases bind_crash h with h | ⟨a', -, h⟩
    · exact iha ht.1 h
    rcases bind_crash h with h | ⟨b', -, h⟩
    · exact ihb ht.2 h
    · unfold optRel at h
      split at h
      · exact finish_ne_crash _ _ h
      · cases h
  | logic isAnd a b hv iha ihb =>
    rcases bind_crash h with h | ⟨a', -, h⟩
    · exact iha ht.2.1 h
    rcases bind_crash h with h | ⟨b', -, h⟩
    · exact ihb ht.2.2 h
    · unfold optLogic at h
      split at h
      · rw [if_pos ht.1] at h; exact finish_ne_crash _ _ h
      · cases h
  | sel t a b hv iht iha ihb =>
    rcases bind_crash h with h | ⟨t', -, h⟩
    · exact iht ht.1 h
    rcases bind_crash h with h | ⟨a', -, h⟩
    · exact iha ht.2.1 h
    rcases bind_crash h with h | ⟨b', -, h⟩
    · exact ihb ht.2.2 h
    · unfold optSel at h
      split at h
      · split at h
        · cases h
        · rename_i first hfirst
          split at h
          · cases h
          · rename_i hmix
            split at h
            · split at h
              · rename_i hvr
                exact hmix (all_of_uniform hv hvr hfirst)
              · split at h
                · cases h
                · exact finish_ne_crash _ _ h
            · cases h
      · cases h
  | cast dst vr' hv a ih =>
    rcases bind_crash h with h | ⟨a', -, h⟩
    · exact ih ht h
    · unfold optCast at h
      split at h
      · split at h <;> cases h
      · cases h

/-! ## Where it goes wrong -/

/-- Negating a varying `uint16` constant fails an assertion in the compiler. -/
theorem negate_varying_uint16_crashes (A : FpArith) (W : Nat) (v : List (BitVec 16)) :
    fold A W (.un .neg (.const v : Ex (.int .w16 false) true)) = .crash := rfl

/-- So does `&&` or `||` of a uniform and a varying constant. -/
theorem mixed_logic_crashes (A : FpArith) (W : Nat) (isAnd vr : Bool) (x y : List Bool) :
    fold A W (.logic isAnd (.const x : Ex .bool vr) (.const y : Ex .bool (!vr)) rfl) = .crash := by
  cases vr <;> rfl

/-- The constant of `folded_cast_differs`. -/
def wide : Ex (.int .w64 true) false := .const [BitVec.ofInt 64 (2 ^ 60 + 2 ^ 36 + 1)]

/-- `(float)` of the 64-bit constant `2 ^ 60 + 2 ^ 36 + 1` is folded to `2 ^ 60`; the
same cast at run time gives `2 ^ 60 + 2 ^ 37`. -/
theorem folded_cast_differs (A : FpArith) (wrap : Bool) (ρ : Env) (W l : Nat) :
    ∃ x y, fold A W (.cast (.fp .f32) false (fun h => h) wide) = .ok (.const [x]) ∧
      eval A wrap ρ (.cast (.fp .f32) false (fun h => h) wide) l = some y ∧
      x.1 = .fin false (2 ^ 60) ∧ y.1 = .fin false (2 ^ 60 + 2 ^ 37) := by
  have hv : val true (BitVec.ofInt 64 (2 ^ 60 + 2 ^ 36 + 1)) = 2 ^ 60 + 2 ^ 36 + 1 := by decide
  refine ⟨_, _, rfl, rfl, ?_, ?_⟩
  · show conv .f32 (ofInt .f64 (val true (BitVec.ofInt 64 (2 ^ 60 + 2 ^ 36 + 1)))) = _
    rw [hv]; exact double_rounding.1
  · show ofInt .f32 (val true (BitVec.ofInt 64 (2 ^ 60 + 2 ^ 36 + 1))) = _
    rw [hv]; exact double_rounding.2

/-- `65535 * 65535` on `uint16` overflows the `int` the compiler computes in; the
generated code gives 1. -/
theorem uint16_product : foldArith .mul .w16 false 65535#16 65535#16 = .ub ∧
    runArith false .mul .w16 false 65535#16 65535#16 = some 1#16 := by
  constructor
  · show cxx .w16 false _ = _
    rw [cxx_ub]
    decide
  · show some (65535#16 * 65535#16) = some 1#16
    decide

/-- `-1 << 3` is undefined in the compiler's C++17; the generated code gives -8. -/
theorem shift_of_negative : foldArith .shl .w32 true (-1#32) 3#32 = .ub ∧
    runArith false .shl .w32 true (-1#32) 3#32 = some (-8#32) := ⟨rfl, rfl⟩

/-! ## Examples -/

/-- Some arithmetic of floating-point numbers. -/
def someArith : FpArith := fun _ _ a _ => a

/-- Integer variables hold the index of the lane. -/
def someEnv : Env
  | .bool, _, _ => true
  | .int w _, _, l => BitVec.ofNat w.bits l
  | .enum, _, _ => 0#32
  | .fp _, _, _ => ⟨.nan, trivial⟩

/-- `x + (7 / 2 - (varying int)(-1))`, four lanes. -/
def sampleEx : Ex (.int .w32 true) true :=
  .bin .add (.var 0)
    (.bin .sub (.bin .div (.const [7#32, 8#32, 9#32, 10#32]) (.const [2#32, 2#32, 2#32, 2#32]))
      (.cast _ true (fun _ => rfl) (.const [BitVec.ofInt 8 (-1)] : Ex (.int .w8 true) false)))

example : NoWide sampleEx ∧ Tame sampleEx := by
  simp [NoWide, Tame, sampleEx, WideToFloat]

example : fold someArith 4 sampleEx = .ok (.bin .add (.var 0) (.const [4#32, 5#32, 5#32, 6#32])) := rfl

example : eval someArith false someEnv sampleEx 2 = some 7#32 := rfl

/-- `(u > 3) ? 10 : 20` on varying constants. -/
def sampleSel : Ex (.int .w8 false) true :=
  .sel (.rel .gt (.const [1#8, 4#8, 3#8, 200#8] : Ex (.int .w8 false) true) (.const [3#8, 3#8, 3#8, 3#8]))
    (.const [10#8, 10#8, 10#8, 10#8]) (.const [20#8, 20#8, 20#8, 20#8]) (fun _ => rfl)

example : fold someArith 4 sampleSel = .ok (.const [20#8, 10#8, 20#8, 10#8]) := rfl

example : Constant someArith false someEnv 4 sampleSel := by
  refine ⟨by simp, ⟨?_, ?_⟩, ?_, ?_⟩ <;> intro l hl <;>
    (have : l = 0 ∨ l = 1 ∨ l = 2 ∨ l = 3 := by omega) <;>
    rcases this with rfl | rfl | rfl | rfl <;> rfl

/-- A division by zero is left to run time. -/
example : fold someArith 2 (.bin .div (.const [1#32, 1#32]) (.const [1#32, 0#32]) : Ex (.int .w32 true) true)
    = .ok (.bin .div (.const [1#32, 1#32]) (.const [1#32, 0#32])) := rfl

example : CompilerUndefined false .mul .w16 false 65535#16 65535#16 := by
  right; left; exact ⟨rfl, rfl, rfl, by decide⟩

end Ispc.Fold
