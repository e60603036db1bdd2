import Verif.Opt.AmxTile
import Mathlib.Data.List.Nodup
import Mathlib.Data.List.Perm.Subperm

/-!
# C90: theorems about the tile numbers of AMX functions
-/

namespace Ispc.AmxTile

/-! ## Specification -/

/-- The numbers an operand can have when the function runs. -/
def Operand.Yields (f : List Block) : Operand → Nat → Prop
  | .const c, n => n = c
  | .load b i x, n => ∃ m, At f b i m ∧ m x = n
  | .other, _ => True

/-- The variable is written by plain stores only. -/
def Plain (f : List Block) (x : Nat) : Prop := ∀ blk ∈ f, ∀ ws, Instr.other ws ∈ blk.instrs → x ∉ ws

/-- The stored values are constants that fit, without casts, or unknown. -/
def NoCasts (f : List Block) : Prop := ∀ blk ∈ f, ∀ x v, Instr.store x v ∈ blk.instrs →
  (∃ w n, v = .const w n ∧ n < 2 ^ w) ∨ ∃ w, v = .opaque w

/-- No edge leads to the entry, as in every function of LLVM. -/
def EntryFirst (f : List Block) : Prop := ∀ blk ∈ f, 0 ∉ blk.succs

/-- The variable an operand loads is written by plain stores only. -/
def Operand.Plain (f : List Block) : Operand → Prop
  | .load _ _ x => AmxTile.Plain f x
  | _ => True

/-- The instruction of Intel's manual, in the spelling of LLVM, that a function of `amx.isph` stands for. -/
def Fn.instruction : Fn → String
  | .zero => "tilezero"
  | .load => "tileloadd64"
  | .loadT1 => "tileloaddt164"
  | .store => "tilestored64"
  | .dpbssd => "t" ++ "dpbssd"
  | .dpbsud => "t" ++ "dpbsud"
  | .dpbusd => "t" ++ "dpbusd"
  | .dpbuud => "t" ++ "dpbuud"
  | .dpbf16ps => "t" ++ "dpbf16ps"
  | .dpfp16ps => "t" ++ "dpfp16ps"

/-! ## The search finds the store that reaches the load -/

/-- The store `v` reaches instruction `i` of block `b`. -/
inductive Found (f : List Block) (x : Nat) : Nat → Nat → Val → Prop
  | here {b i blk v} (hb : f[b]? = some blk) (h : findStore x (blk.instrs.take i) = some v) : Found f x b i v
  | pred {b i blk p pblk v} (hb : f[b]? = some blk) (h : findStore x (blk.instrs.take i) = none)
      (hp : singlePred f b = some p) (hpb : f[p]? = some pblk) (hf : Found f x p pblk.instrs.length v) : Found f x b i v

theorem search_found (f : List Block) (x : Nat) (fuel : Nat) (vis : List Nat) (c i : Nat) (blk : Block) (v : Val)
    (hb : f[c]? = some blk) (hn : findStore x (blk.instrs.take i) = none) (h : search f x fuel vis c = some v) :
    Found f x c i v := by
  induction fuel generalizing vis c i blk with
  | zero => simp [search] at h
  | succ fuel ih =>
    unfold search at h
    split at h
    · cases h
    · rename_i p hp
      split_ifs at h
      split at h
      · cases h
      · rename_i pblk hpb
        refine .pred hb hn hp hpb ?_
        split at h
        · rename_i w hw
          simp only [Option.some.injEq] at h
          subst h
          exact .here hpb (by rw [List.take_length]; exact hw)
        · rename_i hw
          exact ih _ _ _ pblk hpb (by rw [List.take_length]; exact hw) h

theorem mem_preds (f : List Block) (b c : Nat) (blk : Block) (hb : f[b]? = some blk) (hc : c ∈ blk.succs) :
    b ∈ preds f c := by
  unfold preds
  rw [List.mem_flatMap]
  refine ⟨b, List.mem_range.2 (List.getElem?_eq_some_iff.1 hb).1, ?_⟩
  simp only [hb, List.mem_map, List.mem_filter, decide_eq_true_eq]
  exact ⟨c, ⟨hc, rfl⟩, by simp⟩

theorem pred_mem (f : List Block) (p c : Nat) (h : p ∈ preds f c) : ∃ blk ∈ f, c ∈ blk.succs := by
  unfold preds at h
  obtain ⟨b, -, hb⟩ := List.mem_flatMap.1 h
  split at hb
  · rename_i blk hblk
    simp only [List.mem_map, List.mem_filter, decide_eq_true_eq] at hb
    obtain ⟨a, ⟨ha, rfl⟩, -⟩ := hb
    exact ⟨blk, List.mem_of_getElem? hblk, ha⟩
  · cases hb

theorem single_eq (f : List Block) (b c p : Nat) (blk : Block) (hb : f[b]? = some blk) (hc : c ∈ blk.succs)
    (h : singlePred f c = some p) : p = b := by
  have hm := mem_preds f b c blk hb hc
  unfold singlePred at h
  split at h
  · rename_i q hq
    simp only [Option.some.injEq] at h
    rw [hq] at hm
    simp only [List.mem_singleton] at hm
    rw [← h, hm]
  · cases h

theorem single_mem (f : List Block) (c p : Nat) (h : singlePred f c = some p) : p ∈ preds f c := by
  unfold singlePred at h
  split at h
  · rename_i q hq
    simp only [Option.some.injEq] at h
    rw [hq, h]; simp
  · cases h

theorem findStore_snoc (x : Nat) (l : List Instr) (ins : Instr) : findStore x (l ++ [ins]) =
    match ins with
    | .store y v => if y = x then some v else findStore x l
    | .other _ => findStore x l := by
  unfold findStore
  rw [List.reverse_append]
  cases ins with
  | store y v =>
    by_cases h : y = x <;> simp [List.findSome?_cons, h]
  | other ws => simp [List.findSome?_cons]

/-- **The store found is the one that gave the variable its value**, in every execution. -/
theorem found_value (f : List Block) (x : Nat) (he : EntryFirst f) (hx : Plain f x) (b i : Nat) (m : Mem)
    (h : At f b i m) (v : Val) (hf : Found f x b i v) : v.Is (m x) := by
  induction h generalizing v with
  | entry m =>
    cases hf with
    | here hb h => simp [findStore] at h
    | pred hb h hp hpb hf' =>
      obtain ⟨blk, hm, h0⟩ := pred_mem f _ 0 (single_mem f 0 _ hp)
      exact absurd h0 (he blk hm)
  | @step b i m m' blk ins h hb hi hs ih =>
    have htake : blk.instrs.take (i + 1) = blk.instrs.take i ++ [ins] := by
      rw [List.take_add_one, hi]; rfl
    have keep : findStore x (blk.instrs.take (i + 1)) = findStore x (blk.instrs.take i) → Found f x b i v := by
      intro hk
      cases hf with
      | here hb' h' =>
        rw [hb] at hb'; cases hb'
        exact .here hb (hk ▸ h')
      | pred hb' h' hp hpb hf' =>
        rw [hb] at hb'; cases hb'
        exact .pred hb (hk ▸ h') hp hpb hf'
    cases ins with
    | store y w =>
      obtain ⟨n, hn, rfl⟩ := hs
      by_cases hy : y = x
      · have hfs : findStore x (blk.instrs.take (i + 1)) = some w := by
          rw [htake, findStore_snoc]; simp [hy]
        have hvw : v = w := by
          cases hf with
          | here hb' h' =>
            rw [hb] at hb'; cases hb'
            rw [hfs] at h'; cases h'; rfl
          | pred hb' h' hp hpb hf' =>
            rw [hb] at hb'; cases hb'
            rw [hfs] at h'; cases h'
        subst hvw
        simpa [hy] using hn
      · have hk := keep (by rw [htake, findStore_snoc]; simp [hy])
        have := ih v hk
        simpa [Ne.symm hy] using this
    | other ws =>
      have hk := keep (by rw [htake, findStore_snoc])
      have hw : x ∉ ws := hx blk (List.mem_of_getElem? hb) ws (List.mem_of_getElem? hi)
      rw [hs x hw]
      exact ih v hk
  | @jump b m blk c h hb hc ih =>
    cases hf with
    | here hb' h' => simp [findStore] at h'
    | pred hb' h' hp hpb hf' =>
      have := single_eq f b c _ blk hb hc hp
      subst this
      rw [hb] at hpb; cases hpb
      exact ih v hf'

theorem found_mem (f : List Block) (x b i : Nat) (v : Val) (h : Found f x b i v) :
    ∃ blk ∈ f, Instr.store x v ∈ blk.instrs := by
  induction h with
  | @here b i blk v hb h =>
    refine ⟨blk, List.mem_of_getElem? hb, ?_⟩
    unfold findStore at h
    obtain ⟨ins, hm, hi⟩ := List.exists_of_findSome?_eq_some h
    cases ins with
    | store y w =>
      simp only at hi
      split_ifs at hi with hy
      simp only [Option.some.injEq] at hi
      subst hy hi
      exact List.mem_of_mem_take (List.mem_reverse.1 hm)
    | other ws => cases hi
  | pred _ _ _ _ _ ih => exact ih

/-! ## Theorems -/

theorem extract_value (f : List Block) (hc : NoCasts f) (blk : Block) (hb : blk ∈ f) (x : Nat) (v : Val)
    (hm : Instr.store x v ∈ blk.instrs) (t n : Nat) (h : extractConstant v = some t) (hn : v.Is n) : n = t := by
  rcases hc blk hb x v hm with ⟨w, k, rfl, hk⟩ | ⟨w, rfl⟩
  · cases hn
    simp only [extractConstant, Val.inner, Val.width, Option.map_some, Option.some.injEq] at h
    rw [← h, Nat.mod_eq_of_lt hk]
  · simp [extractConstant, Val.inner] at h

theorem through_value (f : List Block) (b i x : Nat) (t : Nat) (h : constantThroughLoad f b i x = some t) :
    ∃ v, Found f x b i v ∧ extractConstant v = some t := by
  unfold constantThroughLoad at h
  split at h
  · cases h
  · rename_i blk hb
    split at h
    · rename_i v hv
      exact ⟨v, .here hb hv, h⟩
    · rename_i hn
      split at h
      · rename_i v hv
        exact ⟨v, search_found f x _ _ b i blk v hb hn hv, h⟩
      · cases h

/-- **An accepted tile number is one of the eight tiles, and is the number that the program passes, in every
    execution**, if the variable it comes from is written by plain stores only and no constant is cast. What is missing:
    the two conditions; see `escaped_wrong` and `cast_wrong`. -/
theorem tile_value_partial (f : List Block) (he : EntryFirst f) (hc : NoCasts f) (o : Operand) (hp : o.Plain f) (t : Nat)
    (h : validate f o = some t) : t ≤ 7 ∧ ∀ n, o.Yields f n → n = t := by
  unfold validate at h
  cases o with
  | const c =>
    simp only at h
    split_ifs at h with h7
    simp only [Option.some.injEq] at h
    subst h
    exact ⟨by omega, fun n hn => hn⟩
  | other => simp at h
  | load b i x =>
    simp only at h
    split at h
    · cases h
    · rename_i k hk
      split_ifs at h with h7
      simp only [Option.some.injEq] at h
      subst h
      refine ⟨by omega, ?_⟩
      rintro n ⟨m, hm, rfl⟩
      obtain ⟨v, hf, hv⟩ := through_value f b i x k hk
      obtain ⟨blk, hb, hs⟩ := found_mem f x b i v hf
      exact extract_value f hc blk hb x v hs k (m x) hv (found_value f x he hp b i m hm v hf)

/-- **A constant is accepted exactly if it is one of the eight tiles.** -/
theorem constant_accepted (f : List Block) (n : Nat) : validate f (.const n) = some n ↔ n ≤ 7 := by
  simp only [validate]
  split_ifs with h <;> simp <;> omega

/-- **What is not known is rejected**: a load that an unknown value reaches gives no tile. -/
theorem unknown_rejected (f : List Block) (b i x w : Nat) (blk : Block) (hb : f[b]? = some blk)
    (h : findStore x (blk.instrs.take i) = some (.opaque w)) : validate f (.load b i x) = none := by
  simp [validate, constantThroughLoad, hb, h, extractConstant, Val.inner]

/-- **A constant stored just before the load is found**, in any block. -/
theorem stored_accepted (f : List Block) (b x w n : Nat) (blk : Block) (l r : List Instr) (hb : f[b]? = some blk)
    (hl : blk.instrs = l ++ .store x (.const w n) :: r) (h7 : n ≤ 7) (hw : 3 ≤ w) :
    validate f (.load b (l.length + 1) x) = some n := by
  have ht : blk.instrs.take (l.length + 1) = l ++ [.store x (.const w n)] := by
    rw [hl]; simp [List.take_append, List.take_of_length_le]
  have h8 : n < 2 ^ w := Nat.lt_of_lt_of_le (by omega : n < 2 ^ 3) (Nat.pow_le_pow_right (by omega) hw)
  have hc : constantThroughLoad f b (l.length + 1) x = some n := by
    simp [constantThroughLoad, hb, ht, findStore_snoc, extractConstant, Val.inner, Val.width, Nat.mod_eq_of_lt h8]
  simp only [validate, hc]
  rw [if_neg (by omega)]

theorem findStore_none (x : Nat) (l : List Instr) (h : ∀ v, Instr.store x v ∉ l) : findStore x l = none := by
  unfold findStore
  rw [List.findSome?_eq_none_iff]
  intro ins hi
  rw [List.mem_reverse] at hi
  cases ins with
  | other ws => rfl
  | store y v =>
    simp only [ite_eq_right_iff, reduceCtorEq, imp_false]
    rintro rfl
    exact h v hi

theorem findStore_append (x : Nat) (l r : List Instr) (h : ∀ v, Instr.store x v ∉ r) :
    findStore x (l ++ r) = findStore x l := by
  have := findStore_none x r h
  unfold findStore at this ⊢
  rw [List.reverse_append, List.findSome?_append, this]
  rfl

/-- **A constant stored in the only block before is found**, if nothing is stored to the variable in between. -/
theorem stored_before_accepted (f : List Block) (c p i x w n : Nat) (blk pblk : Block) (l r : List Instr)
    (hb : f[c]? = some blk) (hn : ∀ v, Instr.store x v ∉ blk.instrs) (hp : preds f c = [p]) (hpc : p ≠ c)
    (hpb : f[p]? = some pblk) (hl : pblk.instrs = l ++ .store x (.const w n) :: r) (hr : ∀ v, Instr.store x v ∉ r)
    (h7 : n ≤ 7) (hw : 3 ≤ w) : validate f (.load c i x) = some n := by
  have h8 : n < 2 ^ w := Nat.lt_of_lt_of_le (by omega : n < 2 ^ 3) (Nat.pow_le_pow_right (by omega) hw)
  have h1 : findStore x (blk.instrs.take i) = none :=
    findStore_none x _ fun v hv => hn v (List.mem_of_mem_take hv)
  have h2 : findStore x pblk.instrs = some (.const w n) := by
    rw [hl, show l ++ Instr.store x (.const w n) :: r = (l ++ [.store x (.const w n)]) ++ r by simp,
      findStore_append x _ r hr, findStore_snoc]
    simp
  have hc : constantThroughLoad f c i x = some n := by
    simp [constantThroughLoad, hb, h1, search, singlePred, hp, hpc, hpb, h2, extractConstant, Val.inner, Val.width,
      Nat.mod_eq_of_lt h8]
  simp only [validate, hc]
  rw [if_neg (by omega)]

/-- Each block of the path is the only one before the block in front of it, and only the last one stores to the variable. -/
def Reaches (f : List Block) (x : Nat) (v : Val) : Nat → List Nat → Prop
  | _, [] => False
  | c, [p] => preds f c = [p] ∧ ∃ blk l r, f[p]? = some blk ∧ blk.instrs = l ++ .store x v :: r ∧
      ∀ v', Instr.store x v' ∉ r
  | c, p :: q :: path => preds f c = [p] ∧ (∃ blk, f[p]? = some blk ∧ ∀ v', Instr.store x v' ∉ blk.instrs) ∧
      Reaches f x v p (q :: path)

theorem search_reaches (f : List Block) (x : Nat) (v : Val) (path : List Nat) : ∀ (c fuel : Nat) (vis : List Nat),
    Reaches f x v c path → path.Nodup → (∀ p ∈ path, p ∉ vis) → path.length ≤ fuel →
    search f x fuel vis c = some v := by
  induction path with
  | nil => intro c fuel vis h; exact h.elim
  | cons p path ih =>
    intro c fuel vis h hnd hv hf
    obtain ⟨fuel, rfl⟩ : ∃ k, fuel = k + 1 := ⟨fuel - 1, by simp at hf; omega⟩
    cases path with
    | nil =>
      obtain ⟨hp, blk, l, r, hb, hl, hr⟩ := h
      have h2 : findStore x blk.instrs = some v := by
        rw [hl, show l ++ Instr.store x v :: r = (l ++ [.store x v]) ++ r by simp, findStore_append x _ r hr,
          findStore_snoc]
        simp
      simp [search, singlePred, hp, hv p (by simp), hb, h2]
    | cons q path =>
      obtain ⟨hp, ⟨blk, hb, hn⟩, hr⟩ := h
      have := ih p fuel (p :: vis) hr (List.nodup_cons.1 hnd).2
        (by
          intro y hy
          have h1 : y ≠ p := fun e => (List.nodup_cons.1 hnd).1 (e ▸ hy)
          simp only [List.mem_cons, not_or]
          exact ⟨h1, hv y (List.mem_cons_of_mem _ hy)⟩)
        (by simp at hf ⊢; omega)
      simp only [search, singlePred, hp, if_neg (hv p (by simp)), hb, findStore_none x _ hn, this]

theorem reaches_lt (f : List Block) (x : Nat) (v : Val) (path : List Nat) : ∀ c, Reaches f x v c path →
    ∀ p ∈ path, p < f.length := by
  induction path with
  | nil => simp
  | cons p path ih =>
    intro c h y hy
    cases path with
    | nil =>
      obtain ⟨-, blk, l, r, hb, -⟩ := h
      simp at hy; subst hy
      exact (List.getElem?_eq_some_iff.1 hb).1
    | cons q path =>
      obtain ⟨-, ⟨blk, hb, -⟩, hr⟩ := h
      rcases List.mem_cons.1 hy with rfl | hy
      · exact (List.getElem?_eq_some_iff.1 hb).1
      · exact ih p hr y hy

/-- **A constant stored along a chain of single predecessors is found**, however long the chain. -/
theorem chain_accepted (f : List Block) (c i x w n : Nat) (blk : Block) (path : List Nat)
    (hb : f[c]? = some blk) (hn : ∀ v, Instr.store x v ∉ blk.instrs) (hr : Reaches f x (.const w n) c path)
    (hd : (c :: path).Nodup) (h7 : n ≤ 7) (hw : 3 ≤ w) : validate f (.load c i x) = some n := by
  have h8 : n < 2 ^ w := Nat.lt_of_lt_of_le (by omega : n < 2 ^ 3) (Nat.pow_le_pow_right (by omega) hw)
  have h1 : findStore x (blk.instrs.take i) = none :=
    findStore_none x _ fun v hv => hn v (List.mem_of_mem_take hv)
  have hd' := List.nodup_cons.1 hd
  have hlen : path.length ≤ f.length := by
    have := (List.subperm_of_subset hd'.2 (l₂ := List.range f.length)
      fun y hy => List.mem_range.2 (reaches_lt f x _ path c hr y hy)).length_le
    simpa using this
  have h2 := search_reaches f x (.const w n) path c (f.length + 1) [c] hr hd'.2
    (by
      intro p hp
      simp only [List.mem_cons, List.not_mem_nil, or_false]
      rintro rfl
      exact hd'.1 hp) (by omega)
  have hc : constantThroughLoad f c i x = some n := by
    simp [constantThroughLoad, hb, h1, h2, extractConstant, Val.inner, Val.width, Nat.mod_eq_of_lt h8]
  simp only [validate, hc]
  rw [if_neg (by omega)]

example : Reaches [⟨[.store 0 (.const 8 3)], [1]⟩, ⟨[.other []], [2]⟩, ⟨[], []⟩] 0 (.const 8 3) 2 [1, 0] :=
  ⟨by decide, ⟨_, rfl, by simp⟩, by decide, _, [], [], rfl, rfl, by simp⟩

/-- **Every function becomes its instruction, with its tiles in order**: the numbers are those the program passes. -/
theorem lower_tiles_partial (f : List Block) (he : EntryFirst f) (hc : NoCasts f) (fn : Fn) (ops : List Operand)
    (hp : ∀ o ∈ ops, o.Plain f) (name : String) (ts : List Nat) (h : lower f fn ops = some (name, ts)) :
    ts.length = fn.tiles ∧ ∀ (k : Nat) (o : Operand) (t : Nat), ops[k]? = some o → ts[k]? = some t →
      t ≤ 7 ∧ ∀ n, o.Yields f n → n = t := by
  unfold lower at h
  split_ifs at h with hl
  split at h
  · cases h
  · rename_i ts' hts
    simp only [Option.some.injEq, Prod.mk.injEq] at h
    obtain ⟨-, rfl⟩ := h
    have key : ∀ (ops : List Operand) (ts : List Nat), ops.mapM (validate f) = some ts →
        ts.length = ops.length ∧ ∀ (k : Nat) (o : Operand) (t : Nat), ops[k]? = some o → ts[k]? = some t →
          validate f o = some t := by
      intro ops
      induction ops with
      | nil => intro ts h; simp at h; subst h; simp
      | cons o ops ih =>
        intro ts h
        simp only [List.mapM_cons, Option.bind_eq_bind, Option.bind_eq_some_iff, Option.pure_def, Option.some.injEq] at h
        obtain ⟨t, ht, ts', hts', rfl⟩ := h
        obtain ⟨h1, h2⟩ := ih ts' hts'
        refine ⟨by simp [h1], ?_⟩
        intro k o' t' ho ht'
        cases k with
        | zero => simp at ho ht'; subst ho ht'; exact ht
        | succ k => exact h2 k o' t' (by simpa using ho) (by simpa using ht')
    obtain ⟨h1, h2⟩ := key ops ts' hts
    refine ⟨by rw [h1, hl], ?_⟩
    intro k o t ho ht
    exact tile_value_partial f he hc o (hp o (List.mem_of_getElem? ho)) t (h2 k o t ho ht)

/-- **A call becomes the instruction of its function.** -/
theorem lower_instruction (f : List Block) (fn : Fn) (ops : List Operand) (name : String) (ts : List Nat)
    (h : lower f fn ops = some (name, ts)) : name = fn.instruction := by
  unfold lower at h
  split_ifs at h
  split at h
  · cases h
  · simp only [Option.some.injEq, Prod.mk.injEq] at h
    rw [← h.1]
    cases fn <;> rfl

/-- **Different functions become different instructions.** -/
theorem lower_distinct (f f' : List Block) (fn fn' : Fn) (ops ops' : List Operand) (name : String) (ts ts' : List Nat)
    (h : lower f fn ops = some (name, ts)) (h' : lower f' fn' ops' = some (name, ts')) : fn = fn' := by
  unfold lower at h h'
  split_ifs at h h'
  split at h
  · cases h
  · split at h'
    · cases h'
    · simp only [Option.some.injEq, Prod.mk.injEq] at h h'
      have e := h.1.trans h'.1.symm
      cases fn <;> cases fn' <;> simp at e ⊢

/-! ## Examples and what fails -/

/-- Two blocks: the number 3 is stored in the first and loaded in the second. -/
def sample : List Block := [⟨[.store 0 (.const 8 3), .other [1]], [1]⟩, ⟨[.other []], []⟩]

example : validate sample (.load 1 1 0) = some 3 ∧ lower sample .dpbssd [.load 1 1 0, .const 1, .const 2] =
    some ("tdpbssd", [3, 1, 2]) := by decide +kernel

example : (Operand.load 1 1 0).Yields sample 3 := by
  refine ⟨fun y => if y = 0 then 3 else 0, ?_, rfl⟩
  have h0 : At sample 0 0 (fun _ => 0) := .entry _
  have h1 : At sample 0 1 (fun y => if y = 0 then 3 else 0) :=
    .step h0 (blk := sample[0]) rfl (ins := .store 0 (.const 8 3)) rfl ⟨3, .const 8 3, rfl⟩
  have h2 : At sample 0 2 (fun y => if y = 0 then 3 else 0) :=
    .step h1 (blk := sample[0]) rfl (ins := .other [1]) rfl fun _ _ => rfl
  have h3 : At sample 1 0 (fun y => if y = 0 then 3 else 0) := .jump (blk := sample[0]) h2 rfl (by decide)
  exact .step h3 (blk := sample[1]) rfl (ins := .other []) rfl fun _ _ => rfl

example : EntryFirst sample ∧ Plain sample 0 := by
  constructor
  · intro blk hb
    simp only [sample, List.mem_cons, List.not_mem_nil, or_false] at hb
    rcases hb with rfl | rfl <;> simp
  · intro blk hb ws hws
    simp only [sample, List.mem_cons, List.not_mem_nil, or_false] at hb
    rcases hb with rfl | rfl <;> simp at hws <;> subst hws <;> simp

example : NoCasts sample := by
  intro blk hb x v hv
  simp only [sample, List.mem_cons, List.not_mem_nil, or_false] at hb
  rcases hb with rfl | rfl <;> simp at hv
  exact Or.inl ⟨8, 3, hv.2, by decide⟩

/-- **A write through a pointer between the store and the load is not seen**: the tile is 1 although the program passes
    another number. -/
theorem escaped_wrong : ∃ f : List Block, EntryFirst f ∧ NoCasts f ∧ validate f (.load 0 2 0) = some 1 ∧
    ∀ n, (Operand.load 0 2 0).Yields f n := by
  refine ⟨[⟨[.store 0 (.const 8 1), .other [0]], []⟩], ?_, ?_, by decide +kernel, ?_⟩
  · intro blk hb
    simp only [List.mem_cons, List.not_mem_nil, or_false] at hb
    subst hb; simp
  · intro blk hb x v hv
    simp only [List.mem_cons, List.not_mem_nil, or_false] at hb
    subst hb
    simp at hv
    exact Or.inl ⟨8, 1, hv.2, by decide⟩
  · intro n
    refine ⟨fun _ => n, ?_, rfl⟩
    refine .step (m := fun y => if y = 0 then 1 else n) (.step (.entry fun _ => n)
      (blk := ⟨[.store 0 (.const 8 1), .other [0]], []⟩) rfl (ins := .store 0 (.const 8 1)) rfl ⟨1, .const 8 1, rfl⟩)
      (blk := ⟨[.store 0 (.const 8 1), .other [0]], []⟩) rfl (ins := .other [0]) rfl ?_
    intro y hy
    simp at hy
    simp [hy]

/-- **Casts of the constant are undone without being applied**: a sign-extended `true` is 255, but tile 1 is taken. -/
theorem cast_wrong : ∃ v : Val, v.Is 255 ∧ extractConstant v = some 1 :=
  ⟨.cast .sext 8 (.const 1 1), .cast .sext 8 (.const 1 1) 1 (.const 1 1), by decide +kernel⟩

end Ispc.AmxTile
