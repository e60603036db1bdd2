import Verif.TaskSys.Args

/-!
# A task starts with the arguments of its launch
-/

namespace Ispc.TaskArgs

/-- Alignments are not zero. -/
structure Layout.Ok (D : Layout) : Prop where
  ialign : ∀ b, 0 < D.ialign b
  valign : ∀ n, 0 < D.valign n

theorem le_roundUp (x a : Nat) (h : 0 < a) : x ≤ roundUp x a := by
  unfold roundUp
  have := Nat.div_add_mod (x + a - 1) a
  have := Nat.mod_lt (x + a - 1) h
  rw [Nat.mul_comm]
  omega

theorem le_bytes (b : Nat) : b ≤ 8 * bytes b := by
  unfold bytes; omega

mutual
theorem align_pos {D : Layout} (h : D.Ok) : (t : LTy) → 0 < align D t
  | .int b     => h.ialign b
  | .vec _ _   => h.valign _
  | .arr _ t   => align_pos h t
  | .struct ms => aligns_pos h ms
theorem aligns_pos {D : Layout} (h : D.Ok) : (ms : LMs) → 0 < aligns D ms
  | .nil       => Nat.one_pos
  | .cons t _  => Nat.lt_of_lt_of_le (align_pos h t) (Nat.le_max_left _ _)
end

theorem le_ends {D : Layout} (h : D.Ok) : (ms : LMs) → (off : Nat) → off ≤ ends D ms off
  | .nil,       _   => Nat.le_refl _
  | .cons t ms, off => by
    have := le_roundUp off (align D t) (align_pos h t)
    have := le_ends h ms (roundUp off (align D t) + size D t)
    rw [ends]
    omega

mutual
/-- A value writes no bit beyond its size. -/
theorem bitAt_lt {D : Layout} (h : D.Ok) : (t : LTy) → (v : t.Val) → (i : Nat) → (b : Bool) →
    bitAt D t v i = some b → i < 8 * size D t
  | .int w,     v, i, b => by
    intro hb
    have := le_roundUp (bytes w) (D.ialign w) (h.ialign w)
    rw [bitAt] at hb
    split at hb
    · rw [size]; omega
    · cases hb
  | .vec n w,   v, i, b => by
    intro hb
    have h1 := le_roundUp (bytes (n * w)) (D.valign (bytes (n * w))) (h.valign _)
    have h2 := le_bytes (n * w)
    rw [bitAt] at hb
    rw [size]
    split at hb
    · rename_i hi; omega
    · split at hb
      · omega
      · cases hb
  | .arr n t,   v, i, b => by
    intro hb
    rw [bitAt] at hb
    split at hb
    · rename_i hi
      have hl := bitAt_lt h t _ _ _ hb
      have hp : 0 < 8 * size D t := by omega
      have := (Nat.div_lt_iff_lt_mul hp).1 hi
      rw [size, show 8 * (n * size D t) = n * (8 * size D t) by ring]
      exact this
    · cases hb
  | .struct ms, v, i, b => by
    intro hb
    rw [bitAt] at hb
    have := (bitsAt_lt h ms v 0 i b hb).2
    have := le_roundUp (ends D ms 0) (aligns D ms) (aligns_pos h ms)
    rw [size]
    omega
theorem bitsAt_lt {D : Layout} (h : D.Ok) : (ms : LMs) → (v : ms.Vals) → (off i : Nat) → (b : Bool) →
    bitsAt D ms v off i = some b → 8 * off ≤ i ∧ i < 8 * ends D ms off
  | .nil,       _, _,   _, _ => by intro hb; cases hb
  | .cons t ms, v, off, i, b => by
    intro hb
    have h1 := le_roundUp off (align D t) (align_pos h t)
    have h2 := le_ends h ms (roundUp off (align D t) + size D t)
    rw [bitsAt] at hb
    rw [ends]
    split at hb
    · omega
    · have := bitsAt_lt h ms v.2 _ _ _ hb
      omega
end

theorem getLsbD_ofBits (b : Nat) (f : Nat → Bool) (i : Nat) (h : i < b) : (ofBits b f).getLsbD i = f i :=
  BitVec.iunfoldr_getLsbD (state := fun _ => ()) (i := ⟨i, h⟩) (fun _ => rfl)

theorem ofBits_eq (b : Nat) (f : Nat → Bool) (x : BitVec b) (h : ∀ i, i < b → f i = x.getLsbD i) : ofBits b f = x := by
  apply BitVec.eq_of_getLsbD_eq
  intro i hi
  rw [getLsbD_ofBits b f i hi, h i hi]

theorem mul_add_div_lt (k b i : Nat) (h : i < b) : (k * b + i) / b = k ∧ (k * b + i) % b = i := by
  constructor
  · rw [Nat.mul_comm, Nat.mul_add_div (by omega), Nat.div_eq_of_lt h]; omega
  · rw [Nat.mul_comm, Nat.mul_add_mod, Nat.mod_eq_of_lt h]

mutual
/-- Memory that has the bits of a value loads as the value. -/
theorem load_eq {D : Layout} (h : D.Ok) (mem : Mem) : (t : LTy) → (v : t.Val) → (a : Nat) →
    (∀ i b, bitAt D t v i = some b → mem (8 * a + i) = b) → load D mem t a = v
  | .int w,     v, a => by
    intro hb
    rw [load]
    apply ofBits_eq w _ v
    intro i hi
    apply hb
    rw [bitAt, if_pos (Nat.lt_of_lt_of_le hi (le_bytes w))]
  | .vec n w,   v, a => by
    intro hb
    rw [load]
    funext k
    apply ofBits_eq w _ (v k)
    intro i hi
    apply hb
    obtain ⟨h1, h2⟩ := mul_add_div_lt k w i hi
    have h3 : k * w + i < n * w := by
      have := Nat.mul_le_mul_right w (Nat.succ_le_of_lt k.isLt)
      rw [Nat.succ_mul] at this
      omega
    rw [bitAt, dif_pos ⟨by rw [h1]; exact k.isLt, h3⟩]
    simp only [h1, h2, Fin.eta]
  | .arr n t,   v, a => by
    intro hb
    rw [load]
    funext k
    apply load_eq h mem t (v k)
    intro i b hi
    have hl := bitAt_lt h t _ _ _ hi
    obtain ⟨h1, h2⟩ := mul_add_div_lt k (8 * size D t) i hl
    have := hb (k * (8 * size D t) + i) b (by
      rw [bitAt, dif_pos (by rw [h1]; exact k.isLt)]
      simp only [h1, h2, Fin.eta]
      exact hi)
    rw [← this]
    congr 1
    ring
  | .struct ms, v, a => by
    intro hb
    rw [load]
    exact loads_eq h mem ms v a 0 fun i b hi => hb i b (by rw [bitAt]; exact hi)
theorem loads_eq {D : Layout} (h : D.Ok) (mem : Mem) : (ms : LMs) → (v : ms.Vals) → (a off : Nat) →
    (∀ i b, bitsAt D ms v off i = some b → mem (8 * a + i) = b) → loads D mem ms a off = v
  | .nil,       _, _, _   => by intro _; rfl
  | .cons t ms, v, a, off => by
    intro hb
    rw [loads]
    refine Prod.ext ?_ ?_
    · apply load_eq h mem t v.1
      intro i b hi
      have hl := bitAt_lt h t _ _ _ hi
      have := hb (8 * roundUp off (align D t) + i) b (by
        rw [bitsAt]
        rw [if_pos (by omega), Nat.add_sub_cancel_left]
        exact hi)
      rw [← this]
      congr 1
      ring
    · apply loads_eq h mem ms v.2
      intro i b hi
      have hl := bitsAt_lt h ms _ _ _ _ hi
      apply hb
      rw [bitsAt]
      rw [if_neg (by omega)]
      exact hi
end

theorem store_in {D : Layout} (h : D.Ok) (junk mem : Mem) (a : Nat) (t : LTy) (v : t.Val) (i : Nat) (b : Bool)
    (hb : bitAt D t v i = some b) : store D junk mem a t v (8 * a + i) = b := by
  have := bitAt_lt h t v i b hb
  rw [store, if_pos (by omega), Nat.add_sub_cancel_left, hb, Option.getD_some]

theorem store_out (D : Layout) (junk mem : Mem) (a : Nat) (t : LTy) (v : t.Val) (x : Nat)
    (hx : x < 8 * a ∨ 8 * (a + size D t) ≤ x) : store D junk mem a t v x = mem x := by
  rw [store, if_neg (by omega)]

/-! ## Filling the block -/

/-- The block ends where the struct of the parameters and the mask does. -/
theorem fill_out {T : Tgt} (h : T.D.Ok) (junk : Mem) (unmasked : Bool) (a : Nat) (mask : Fin T.W → BitVec T.M) :
    (ps : List PTy) → (vs : Args T ps) → (off : Nat) → (mem : Mem) → (x : Nat) →
    x < 8 * (a + off) ∨ 8 * (a + ends T.D (argTypes T unmasked ps) off) ≤ x →
    fill T junk unmasked a mask ps vs off mem x = mem x
  | [],      _,  off, mem, x => by
    intro hx
    have h1 := le_roundUp off (align T.D (.vec T.W T.M)) (align_pos h _)
    rw [fill]
    cases unmasked
    · rw [if_neg (by decide)]
      apply store_out
      simp only [argTypes, ends, Bool.false_eq_true, if_false] at hx
      omega
    · rw [if_pos rfl]
  | p :: ps, vs, off, mem, x => by
    intro hx
    have h1 := le_roundUp off (align T.D (p.reg T)) (align_pos h _)
    rw [argTypes, ends] at hx
    have h2 := le_ends h (argTypes T unmasked ps) (roundUp off (align T.D (p.reg T)) + size T.D (p.reg T))
    rw [fill, fill_out h junk unmasked a mask ps vs.2 _ _ x (by omega)]
    apply store_out
    omega

/-- Values as the code has them in registers: a varying `bool` is all zeros or all ones in every program
instance. -/
def Canon (T : Tgt) : (p : PTy) → (p.reg T).Val → Prop
  | .scalar .bool true,  v => ∀ l, v l = (0 : BitVec T.M) ∨ v l = BitVec.allOnes T.M
  | .short .bool _ true, v => ∀ i l, v i l = (0 : BitVec T.M) ∨ v i l = BitVec.allOnes T.M
  | _,                   _ => True

def Canons (T : Tgt) : (ps : List PTy) → Args T ps → Prop
  | [],      _  => True
  | p :: ps, vs => Canon T p vs.1 ∧ Canons T ps vs.2

/-- The types whose values have the same bits in registers and in memory, or, for a uniform `bool`, are
extended with zeros. -/
def Fine (T : Tgt) : PTy → Prop
  | .scalar .bool true   => T.M = 8
  | .short .bool _ true  => T.M = 8
  | .short .bool _ false => False
  | _                    => True

theorem switch8 (x : BitVec 8) (h : x = 0 ∨ x = BitVec.allOnes 8) : Kind.switch 8 .bool true x = x := by
  show (if x ≠ 0 then BitVec.allOnes 8 else 0) = x
  rcases h with h | h <;> subst h <;> decide

theorem getLsbD_bool (x : BitVec 1) (i : Nat) (hi : i < 8) : x.getLsbD i = (x.setWidth 8).getLsbD i := by
  rw [BitVec.getLsbD_setWidth]; simp [hi]

theorem load_num {T : Tgt} (h : T.D.Ok) (mem : Mem) (p : PTy) (a : Nat) (v : (p.reg T).Val) (hf : Fine T p)
    (hc : Canon T p v) (hb : ∀ i b, bitAt T.D (p.reg T) v i = some b → mem (8 * a + i) = b) :
    p.switch T (load T.D mem (p.stored T) a) = v := by
  obtain ⟨D, W, M, dtw, native⟩ := T
  match p, v, hf, hc, hb with
  | .scalar (.num b) false,  v, _, _, hb => exact load_eq h mem (.int b) v a hb
  | .scalar (.num b) true,   v, _, _, hb => exact load_eq h mem (.vec W b) v a hb
  | .short (.num b) n false, v, _, _, hb => exact load_eq h mem (.vec (Braces.vecMem dtw n) b) v a hb
  | .short (.num b) n true,  v, _, _, hb => exact load_eq h mem (.arr n (.vec W b)) v a hb
  | .struct ms,              v, _, _, hb => exact load_eq h mem (.struct ms) v a hb
  | .scalar .bool true,      v, hf, hc, hb =>
    have hM : M = 8 := hf
    subst hM
    have e := load_eq h mem (.vec W 8) v a hb
    funext l
    have e2 : load D mem (.vec W 8) a l = v l := congrFun e l
    show Kind.switch 8 .bool true (load D mem (.vec W 8) a l) = v l
    rw [e2]
    exact switch8 _ (hc l)
  | .short .bool n true,     v, hf, hc, hb =>
    have hM : M = 8 := hf
    subst hM
    have e := load_eq h mem (.arr n (.vec W 8)) v a hb
    funext i l
    have e2 : load D mem (.arr n (.vec W 8)) a i l = v i l := congrFun (congrFun e i) l
    show Kind.switch 8 .bool true (load D mem (.arr n (.vec W 8)) a i l) = v i l
    rw [e2]
    exact switch8 _ (hc i l)
  | .scalar .bool false,     v, _, _, hb =>
    have e : load D mem (.int 8) a = @BitVec.setWidth 1 8 v := by
      rw [load]
      apply ofBits_eq
      intro i hi
      refine (hb i (BitVec.getLsbD (w := 1) v i) ?_).trans ?_
      · show (if i < 8 * bytes 1 then some (BitVec.getLsbD (w := 1) v i) else none) = _
        rw [if_pos (show i < 8 * bytes 1 from by simpa [bytes] using hi)]
      · exact getLsbD_bool v i hi
    show Kind.switch M .bool false (load D mem (.int 8) a) = v
    rw [e]
    have : ∀ x : BitVec 1, Kind.switch M .bool false (BitVec.setWidth 8 x) = x := by
      intro x
      show (if BitVec.setWidth 8 x ≠ 0 then BitVec.allOnes 1 else 0) = x
      revert x
      decide
    exact this v

/-- The parameters of the task are those of the launch, as long as nobody else has written to the block. -/
theorem start_eq {T : Tgt} (h : T.D.Ok) (junk : Mem) (unmasked : Bool) (a : Nat) (mask : Fin T.W → BitVec T.M)
    (mem' : Mem) : (ps : List PTy) → (vs : Args T ps) → (off : Nat) → (mem : Mem) →
    (∀ p ∈ ps, Fine T p) → Canons T ps vs →
    (∀ x, 8 * (a + off) ≤ x → x < 8 * (a + ends T.D (argTypes T unmasked ps) off) →
      mem' x = fill T junk unmasked a mask ps vs off mem x) →
    start T a mem' ps off = vs
  | [],      _,  _,   _   => by intros; rfl
  | p :: ps, vs, off, mem => by
    intro hf hc hb
    have h1 := le_roundUp off (align T.D (p.reg T)) (align_pos h _)
    have h2 := le_ends h (argTypes T unmasked ps) (roundUp off (align T.D (p.reg T)) + size T.D (p.reg T))
    rw [argTypes, ends] at hb
    rw [start]
    refine Prod.ext ?_ ?_
    · apply load_num h mem' p _ vs.1 (hf p List.mem_cons_self) hc.1
      intro i b hi
      have hl := bitAt_lt h _ _ _ _ hi
      rw [hb _ (by omega) (by omega), fill, fill_out h junk unmasked a mask ps vs.2 _ _ _ (by omega)]
      exact store_in h junk mem _ _ vs.1 i b hi
    · refine start_eq h junk unmasked a mask mem' ps vs.2 _
        (store T.D junk mem (a + roundUp off (align T.D (p.reg T))) (p.reg T) vs.1)
        (fun q hq => hf q (List.mem_cons_of_mem _ hq)) hc.2 ?_
      intro x hx1 hx2
      rw [hb x (by omega) hx2, fill]

theorem maskAt_eq {T : Tgt} (h : T.D.Ok) (junk : Mem) (a : Nat) (mask : Fin T.W → BitVec T.M)
    (mem' : Mem) : (ps : List PTy) → (vs : Args T ps) → (off : Nat) → (mem : Mem) →
    (∀ x, 8 * (a + off) ≤ x → x < 8 * (a + ends T.D (argTypes T false ps) off) →
      mem' x = fill T junk false a mask ps vs off mem x) →
    load T.D mem' (.vec T.W T.M) (a + maskAt T ps off) = mask
  | [],      _,  off, mem => by
    intro hb
    have h1 := le_roundUp off (align T.D (.vec T.W T.M)) (align_pos h _)
    apply load_eq h mem' (.vec T.W T.M) mask
    intro i b hi
    have hl := bitAt_lt h _ _ _ _ hi
    simp only [argTypes, ends, Bool.false_eq_true, if_false] at hb
    rw [maskAt, hb _ (by omega) (by omega), fill, if_neg (by decide)]
    exact store_in h junk mem _ (.vec T.W T.M) mask i b hi
  | p :: ps, vs, off, mem => by
    intro hb
    have h1 := le_roundUp off (align T.D (p.reg T)) (align_pos h _)
    rw [argTypes, ends] at hb
    rw [maskAt]
    refine maskAt_eq h junk a mask mem' ps vs.2 _
      (store T.D junk mem (a + roundUp off (align T.D (p.reg T))) (p.reg T) vs.1) ?_
    intro x hx1 hx2
    rw [hb x (by omega) hx2, fill]

/-! ## What a task sees -/

/-- The parameters of one launch, as the task sees them in memory `mem`. -/
def Launch.seen {T : Tgt} (L : Launch T) (mem : Mem) : Args T L.ps := start T L.addr mem L.ps 0

/-- The bits of the block of a launch. -/
def Launch.Block {T : Tgt} (L : Launch T) (x : Nat) : Prop :=
  8 * L.addr ≤ x ∧ x < 8 * (L.addr + blockSize T L.unmasked L.ps)

theorem Launch.run_out {T : Tgt} (h : T.D.Ok) (junk mem : Mem) (L : Launch T) (x : Nat) (hx : ¬ L.Block x) :
    L.run junk mem x = mem x := by
  apply fill_out h
  have := le_roundUp (ends T.D (argTypes T L.unmasked L.ps) 0) (aligns T.D (argTypes T L.unmasked L.ps)) (aligns_pos h _)
  unfold Launch.Block blockSize at hx
  rw [size] at hx
  omega

theorem Launch.seen_eq {T : Tgt} (h : T.D.Ok) (junk mem mem' : Mem) (L : Launch T) (hf : ∀ p ∈ L.ps, Fine T p)
    (hc : Canons T L.ps L.args) (hb : ∀ x, L.Block x → mem' x = L.run junk mem x) : L.seen mem' = L.args := by
  refine start_eq h junk L.unmasked L.addr L.mask mem' L.ps L.args 0 mem hf hc ?_
  intro x hx1 hx2
  have := le_roundUp (ends T.D (argTypes T L.unmasked L.ps) 0) (aligns T.D (argTypes T L.unmasked L.ps)) (aligns_pos h _)
  apply hb
  unfold Launch.Block blockSize
  rw [size]
  omega

/-- The launches of a task group since its last `sync`, with the state of the allocator and the memory.  The
addresses come from `ISPCAlloc`; everybody else, the tasks too, may write to memory at any time, but not to the blocks
(a task writes to its own variables and to memory of the program). -/
inductive Launches (T : Tgt) : Alloc.St → List (Launch T) → Mem → Prop where
  | init (b : Nat) (mem : Mem) : b + 256 ≤ 2 ^ 62 → Launches T (Alloc.init b) [] mem
  | launch (s s' Ls mem) (L : Launch T) (junk : Mem) (nb : Nat) : Launches T s Ls mem →
      blockAlign T ≤ 2 ^ 29 → blockSize T L.unmasked L.ps + blockAlign T ≤ 2 ^ 30 →
      Alloc.Fresh s nb
        (Alloc.newSize (s.cur + 1) (blockSize T L.unmasked L.ps) (BitVec.ofNat 32 (blockAlign T))) →
      Alloc.alloc 2 s (blockSize T L.unmasked L.ps) (BitVec.ofNat 32 (blockAlign T)) nb = some (L.addr, s') →
      Launches T s' (L :: Ls) (L.run junk mem)
  | write (s Ls mem mem') : Launches T s Ls mem → (∀ L ∈ Ls, ∀ x, L.Block x → mem' x = mem x) → Launches T s Ls mem'
  | sync (s Ls mem) : Launches T s Ls mem → Launches T (Alloc.reset s) [] mem

theorem blockAlign_eq (T : Tgt) : blockAlign T = 2 ^ (2 + Nat.clog 2 T.native) := by
  rw [blockAlign, roundUpPow2, Nat.pow_add]

theorem Launches.hist {T : Tgt} {s Ls mem} (h : Launches T s Ls mem) :
    Alloc.Hist s (Ls.map fun L => ⟨L.addr, blockSize T L.unmasked L.ps, blockAlign T⟩) := by
  induction h with
  | init b mem hb => exact .init b hb
  | sync s Ls mem h ih => exact .reset _ _ ih
  | write s Ls mem mem' h hw ih => exact ih
  | launch s s' Ls mem L junk nb h hl hs hf ha ih =>
    rw [blockAlign_eq] at hs hf ha hl
    have hk : 2 + Nat.clog 2 T.native ≤ 29 := (Nat.pow_le_pow_iff_right (by decide)).1 hl
    have := Alloc.Hist.alloc s _ s' (blockSize T L.unmasked L.ps) _ nb L.addr ih hk hs hf ha
    rw [← blockAlign_eq] at this
    exact this

theorem Launches.block {T : Tgt} (hD : T.D.Ok) {s Ls mem} (h : Launches T s Ls mem) (L : Launch T) (hL : L ∈ Ls) :
    ∃ junk m, ∀ x, L.Block x → mem x = L.run junk m x := by
  induction h with
  | init b mem hb => cases hL
  | sync s Ls mem h ih => cases hL
  | write s Ls mem mem' h hw ih =>
    obtain ⟨junk, m, hb⟩ := ih hL
    exact ⟨junk, m, fun x hx => (hw L hL x hx).trans (hb x hx)⟩
  | launch s s' Ls mem L' junk nb h hl hs hf ha ih =>
    have hp := (Alloc.blocks_ok_partial (Launches.launch s s' Ls mem L' junk nb h hl hs hf ha).hist).2
    rw [List.map_cons, List.pairwise_cons] at hp
    rcases List.mem_cons.1 hL with e | hm
    · subst e
      exact ⟨junk, mem, fun _ _ => rfl⟩
    · obtain ⟨junk', m, hb⟩ := ih hm
      refine ⟨junk', m, fun x hx => ?_⟩
      rw [← hb x hx]
      apply Launch.run_out hD
      have hd := hp.1 _ (List.mem_map_of_mem hm)
      unfold Alloc.Block.Disjoint at hd
      dsimp only at hd
      unfold Launch.Block at hx ⊢
      omega

/-- **C62** (part): after any history of launches, writes elsewhere and `sync`s, every task that was launched since the last
`sync` still finds in its block exactly the arguments of its launch, whatever the types of the parameters are, except for
`bool`s whose form in registers and in memory differs. -/
theorem args_partial {T : Tgt} (hD : T.D.Ok) {s Ls mem} (h : Launches T s Ls mem) (L : Launch T) (hL : L ∈ Ls)
    (hf : ∀ p ∈ L.ps, Fine T p) (hc : Canons T L.ps L.args) : L.seen mem = L.args := by
  suffices ∃ junk m, ∀ x, L.Block x → mem x = L.run junk m x by
    obtain ⟨junk, m, hb⟩ := this
    exact L.seen_eq hD junk m mem hf hc hb
  exact h.block hD L hL

/-- **C62** (part): the block also holds the mask of the launch. -/
theorem block_mask {T : Tgt} (hD : T.D.Ok) {s Ls mem} (h : Launches T s Ls mem) (L : Launch T) (hL : L ∈ Ls)
    (hm : L.unmasked = false) : maskIn T L.addr mem L.ps = L.mask := by
  obtain ⟨junk, m, hb⟩ := h.block hD L hL
  refine maskAt_eq hD junk L.addr L.mask mem L.ps L.args 0 m ?_
  intro x hx1 hx2
  have := le_roundUp (ends T.D (argTypes T L.unmasked L.ps) 0) (aligns T.D (argTypes T L.unmasked L.ps)) (aligns_pos hD _)
  rw [hb x (by unfold Launch.Block blockSize; rw [size]; rw [hm] at *; omega), Launch.run, hm]

/-- **C62** (part): the mask of the task is all on, whatever the mask of the launch is. -/
theorem startMask_eq (T : Tgt) (unmasked : Bool) (a : Nat) (mem : Mem) (ps : List PTy) :
    startMask T unmasked a mem ps = fun _ => BitVec.allOnes _ := by
  cases unmasked <;> rfl

/-- **C62** fails: if a program instance is inactive when the launch statement executes, it is active at the start of the
task. -/
theorem mask_wrong {T : Tgt} (L : Launch T) (mem : Mem) (l : Fin T.W) (hM : 0 < T.M) (hl : L.mask l = 0) :
    startMask T L.unmasked L.addr mem L.ps l = BitVec.allOnes T.M ∧ startMask T L.unmasked L.addr mem L.ps l ≠ L.mask l := by
  rw [startMask_eq, hl]
  refine ⟨rfl, ?_⟩
  intro e
  have e : BitVec.allOnes T.M = 0#T.M := e
  rw [BitVec.allOnes_eq_zero_iff] at e
  omega

/-- **C62** (part): the task starts with the mask of its launch exactly if all program instances were active. -/
theorem mask_iff_partial {T : Tgt} (L : Launch T) (mem : Mem) :
    startMask T L.unmasked L.addr mem L.ps = L.mask ↔ ∀ l, L.mask l = BitVec.allOnes T.M := by
  rw [startMask_eq, funext_iff]
  exact ⟨fun h l => (h l).symm, fun h l => (h l).symm⟩

/-! ## `bool` parameters -/

theorem roundUp_zero (a : Nat) (h : 0 < a) : roundUp 0 a = 0 := by
  rw [roundUp, Nat.div_eq_of_lt (by omega), Nat.zero_mul]

/-- Bit `i` of the block of a task with one parameter. -/
theorem run_bit {T : Tgt} (hD : T.D.Ok) (junk mem : Mem) (p : PTy) (v : (p.reg T).Val) (u : Bool) (mask : Fin T.W → BitVec T.M)
    (a i : Nat) (b : Bool) (hb : bitAt T.D (p.reg T) v i = some b) :
    Launch.run junk mem ⟨[p], u, (v, ()), mask, a⟩ (8 * a + i) = b := by
  have hl := bitAt_lt hD _ _ _ _ hb
  show fill T junk u a mask [] () _ (store T.D junk mem (a + roundUp 0 (align T.D (p.reg T))) (p.reg T) v) _ = b
  refine (fill_out hD junk u a mask [] _ _ _ _ ?_).trans ?_
  · rw [roundUp_zero _ (align_pos hD _)]; omega
  · rw [roundUp_zero _ (align_pos hD _)]
    exact store_in hD junk mem a _ v i b hb

theorem seen_one {T : Tgt} (hD : T.D.Ok) (mem : Mem) (p : PTy) (v : (p.reg T).Val) (u : Bool) (mask : Fin T.W → BitVec T.M)
    (a : Nat) : Launch.seen ⟨[p], u, (v, ()), mask, a⟩ mem = (p.switch T (load T.D mem (p.stored T) a), ()) := by
  rw [Launch.seen]
  dsimp only
  rw [start, roundUp_zero _ (align_pos hD _)]
  rfl

theorem ofBits_ne_zero (f : Nat → Bool) (i : Nat) (hi : i < 8) (h : f i = true) : ofBits 8 f ≠ 0 := by
  intro e
  have := getLsbD_ofBits 8 f i hi
  rw [e, h] at this
  simp at this

/-- A vector with only element `e` on. -/
def only (n m e : Nat) : Fin n → BitVec m := fun l => if l.val = e then BitVec.allOnes m else 0

theorem bitAt_vec (D : Layout) (n m : Nat) (v : (LTy.vec n m).Val) (i : Nat) (h : i / m < n ∧ i < n * m) :
    bitAt D (.vec n m) v i = some (BitVec.getLsbD (w := m) (v ⟨i / m, h.1⟩) (i % m)) := by
  rw [bitAt, dif_pos h]

theorem bitAt_arr (D : Layout) (n : Nat) (t : LTy) (v : (LTy.arr n t).Val) (i : Nat) (hn : 0 < n) (hi : i < 8 * size D t) :
    bitAt D (.arr n t) v i = bitAt D t (v ⟨0, hn⟩) i := by
  have h := Nat.div_eq_of_lt hi
  rw [bitAt, dif_pos (by rw [h]; exact hn)]
  simp only [h, Nat.mod_eq_of_lt hi]

theorem load_arr (D : Layout) (mem : Mem) (n : Nat) (t : LTy) (a : Nat) (hn : 0 < n) :
    load D mem (.arr n t) a ⟨0, hn⟩ = load D mem t a := by
  rw [load]
  simp

theorem bitAt_only (D : Layout) (n m e i : Nat) (he : e < n) (hi : i < m) :
    bitAt D (.vec n m) (only n m e) (e * m + i) = some true := by
  obtain ⟨h1, h2⟩ := mul_add_div_lt e m i hi
  have h3 : e * m + i < n * m := by
    have := Nat.mul_le_mul_right m (Nat.succ_le_of_lt he)
    rw [Nat.succ_mul] at this
    omega
  refine (bitAt_vec D n m (only n m e) (e * m + i) ⟨by rw [h1]; exact he, h3⟩).trans ?_
  simp only [h1, h2, only]
  simp [hi]

theorem le_vecMem (dtw n : Nat) (hd : 0 < dtw) : n ≤ Braces.vecMem dtw n := by
  have h := Nat.le_pow_clog (b := 2) (by decide) n
  unfold Braces.vecMem
  dsimp only
  split
  · rename_i hlt
    refine Nat.le_trans h ?_
    rw [Nat.le_div_iff_mul_le hd]
    omega
  · exact h

theorem load_vec (D : Layout) (mem : Mem) (n b a : Nat) (k : Fin n) :
    load D mem (.vec n b) a k = ofBits b fun i => mem (8 * a + (k * b + i)) := rfl

/-- A vector of elements of `m` bits that is read with elements of eight bits is seen wrongly, if `m` is not eight. -/
theorem lane_wrong (D : Layout) (n m a : Nat) (mem : Mem) (hn : 2 ≤ n) (hm : 0 < m) (h8 : m ≠ 8) (e : Nat)
    (he : e = if m < 8 then 1 else 0)
    (hb : ∀ i b, bitAt D (.vec n m) (only n m e) i = some b → mem (8 * a + i) = b) :
    ∃ l : Fin n, only n m e l = 0 ∧ load D mem (.vec n 8) a l ≠ (0 : BitVec 8) := by
  by_cases hlt : m < 8
  · rw [if_pos hlt] at he
    subst he
    refine ⟨⟨0, by omega⟩, if_neg (Nat.zero_ne_one), ?_⟩
    rw [load_vec]
    apply ofBits_ne_zero _ m hlt
    have := hb _ _ (bitAt_only D n m 1 0 (by omega) hm)
    rw [← this]
    congr 1
    dsimp only
    omega
  · rw [if_neg hlt] at he
    subst he
    refine ⟨⟨1, by omega⟩, if_neg (Nat.one_ne_zero), ?_⟩
    rw [load_vec]
    apply ofBits_ne_zero _ 0 (by decide)
    have := hb _ _ (bitAt_only D n m 0 8 (by omega) (by omega))
    rw [← this]
    congr 1
    dsimp only
    omega

theorem only_canon (n m e : Nat) (l : Fin n) : only n m e l = 0 ∨ only n m e l = BitVec.allOnes m := by
  unfold only
  split
  · exact .inr rfl
  · exact .inl rfl

theorem switch_ne {M : Nat} (hM : 0 < M) {x : BitVec M} {y : BitVec 8} (hx : x = 0) (hy : y ≠ 0) :
    (if y ≠ 0 then BitVec.allOnes M else 0) ≠ x := by
  rw [if_pos hy, hx]
  intro e
  have e : BitVec.allOnes M = 0#M := e
  rw [BitVec.allOnes_eq_zero_iff] at e
  omega

/-- **C62** (part): a task with one parameter sees every argument as it was passed exactly if the parameter is no varying `bool`
(short vector of `bool`) on a target whose mask has not eight bits per program instance, and no uniform short vector of
`bool`. -/
theorem fine_iff_partial {T : Tgt} (hD : T.D.Ok) (hW : 2 ≤ T.W) (hM : 0 < T.M) (hd : 0 < T.dtw) (p : PTy)
    (hn : ∀ k n u, p = .short k n u → 2 ≤ n) :
    Fine T p ↔ ∀ (v : (p.reg T).Val), Canon T p v → ∀ u mask a junk mem,
      (Launch.mk [p] u (v, ()) mask a).seen ((Launch.mk [p] u (v, ()) mask a).run junk mem) = (v, ()) := by
  constructor
  · intro hf v hc u mask a junk mem
    exact Launch.seen_eq hD junk mem _ ⟨[p], u, (v, ()), mask, a⟩ (by simpa using hf) ⟨hc, trivial⟩ fun _ _ => rfl
  · intro h
    have hs : ∀ v, Canon T p v → p.switch T (load T.D (Launch.run (fun _ => false) (fun _ => false) ⟨[p], true, (v, ()), fun _ => 0, 0⟩)
        (p.stored T) 0) = v := by
      intro v hc
      have := h v hc true (fun _ => 0) 0 (fun _ => false) (fun _ => false)
      rw [seen_one hD] at this
      exact congrArg Prod.fst this
    have hb := fun (v : (p.reg T).Val) i b => run_bit hD (fun _ => false) (fun _ => false) p v true (fun _ => 0) 0 i b
    obtain ⟨D, W, M, dtw, native⟩ := T
    match p, hn, hs, hb with
    | .scalar (.num b) false,  _, _, _ => trivial
    | .scalar (.num b) true,   _, _, _ => trivial
    | .short (.num b) n false, _, _, _ => trivial
    | .short (.num b) n true,  _, _, _ => trivial
    | .struct ms,              _, _, _ => trivial
    | .scalar .bool false,     _, _, _ => trivial
    | .scalar .bool true,      _, hs, hb =>
      by_contra h8
      have h8 : M ≠ 8 := h8
      generalize he : (if M < 8 then 1 else 0) = e
      obtain ⟨l, h0, h1⟩ := lane_wrong D W M 0 _ hW hM h8 e he.symm (hb (only W M e))
      have := congrFun (hs (only W M e) (only_canon W M e)) l
      exact switch_ne hM h0 h1 this
    | .short .bool n true,     hn, hs, hb =>
      by_contra h8
      have h8 : M ≠ 8 := h8
      have hn : 0 < n := Nat.lt_of_lt_of_le (by decide) (hn _ _ _ rfl)
      generalize he : (if M < 8 then 1 else 0) = e
      obtain ⟨l, h0, h1⟩ := lane_wrong D W M 0 _ hW hM h8 e he.symm fun i b hi =>
        hb (fun _ => only W M e) i b
          ((bitAt_arr D n (.vec W M) (fun _ => only W M e) i hn (bitAt_lt hD _ _ _ _ hi)).trans hi)
      have := congrFun (congrFun (hs (fun _ => only W M e) (fun _ => only_canon W M e)) ⟨0, hn⟩) l
      exact switch_ne hM h0 (fun e => h1 ((congrFun (load_arr D _ n (.vec W 8) 0 hn) l).symm.trans e)) this
    | .short .bool n false,    hn, hs, hb =>
      have hv : 2 ≤ Braces.vecMem dtw n := Nat.le_trans (hn _ _ _ rfl) (le_vecMem dtw n hd)
      obtain ⟨l, h0, h1⟩ := lane_wrong D (Braces.vecMem dtw n) 1 0 _ hv Nat.one_pos (by decide) 1 (by decide)
        (hb (only (Braces.vecMem dtw n) 1 1))
      have := congrFun (hs (only (Braces.vecMem dtw n) 1 1) trivial) l
      exact switch_ne (M := 1) Nat.one_pos h0 h1 this

/-- **C62** (part): on a target whose mask has `8 * k` bits per program instance, program instance `l` of the task gets the value that
program instance `l / k` had at the launch. -/
theorem bool_lane {T : Tgt} (hD : T.D.Ok) (k : Nat) (hk : 0 < k) (hM : T.M = 8 * k) (v : Fin T.W → BitVec T.M)
    (hc : ∀ l, v l = 0 ∨ v l = BitVec.allOnes T.M) (u : Bool) (mask : Fin T.W → BitVec T.M) (a : Nat) (junk mem : Mem) :
    (Launch.mk [.scalar .bool true] u (v, ()) mask a).seen ((Launch.mk [.scalar .bool true] u (v, ()) mask a).run junk mem) =
      (fun l : Fin T.W => v ⟨l / k, Nat.lt_of_le_of_lt (Nat.div_le_self _ _) l.isLt⟩, ()) := by
  refine (seen_one hD _ (.scalar .bool true) v u mask a).trans ?_
  refine Prod.ext ?_ rfl
  funext l
  have hl : l / k < T.W := Nat.lt_of_le_of_lt (Nat.div_le_self _ _) l.isLt
  have hb : ∀ i, i < 8 → Launch.run junk mem ⟨[.scalar .bool true], u, (v, ()), mask, a⟩ (8 * a + (l * 8 + i)) =
      decide (v ⟨l / k, hl⟩ ≠ 0) := by
    intro i hi
    apply run_bit hD junk mem (.scalar .bool true) v u mask a
    have h1 : (l * 8 + i) / T.M = l / k := by
      rw [hM, ← Nat.div_div_eq_div_mul, show (l * 8 + i) / 8 = l from by omega]
    have h2 : (l * 8 + i) % T.M < T.M := Nat.mod_lt _ (by omega)
    have h3 : l * 8 + i < T.W * T.M := by
      have := Nat.mul_le_mul (Nat.succ_le_of_lt l.isLt) (show 8 ≤ T.M by omega)
      rw [Nat.succ_mul] at this
      omega
    refine (bitAt_vec T.D T.W T.M v (l * 8 + i) ⟨by rw [h1]; exact hl, h3⟩).trans ?_
    simp only [h1]
    rcases hc ⟨l / k, hl⟩ with e | e
    · rw [e]; simp
    · rw [e]
      simp [h2]
      omega
  show (if ofBits 8 (fun i => Launch.run junk mem ⟨[.scalar .bool true], u, (v, ()), mask, a⟩ (8 * a + (l * 8 + i))) ≠ 0
    then BitVec.allOnes T.M else 0) = v ⟨l / k, hl⟩
  by_cases h0 : v ⟨l / k, hl⟩ = 0
  · rw [if_neg, h0]
    rw [not_not]
    apply ofBits_eq
    intro i hi
    rw [hb i hi, h0]
    simp
  · rw [if_pos, (hc _).resolve_left h0]
    apply ofBits_ne_zero _ 0 (by decide)
    rw [hb 0 (by decide)]
    simpa using h0

/-! ## Alignment -/

/-- Where `LaunchInst` stores, and the alignment that its stores promise, that of the type (src/ctx.cpp:3312-3340). -/
def stores (T : Tgt) (unmasked : Bool) (a : Nat) : (ps : List PTy) → (off : Nat) → List (Nat × Nat)
  | [],      off => if unmasked then [] else [(a + roundUp off (align T.D (.vec T.W T.M)), align T.D (.vec T.W T.M))]
  | p :: ps, off => (a + roundUp off (align T.D (p.reg T)), align T.D (p.reg T)) ::
      stores T unmasked a ps (roundUp off (align T.D (p.reg T)) + size T.D (p.reg T))

theorem stores_aligned (T : Tgt) (unmasked : Bool) (a : Nat) : (ps : List PTy) → (off : Nat) →
    (unmasked = false → align T.D (.vec T.W T.M) ∣ a) → (∀ p ∈ ps, align T.D (p.reg T) ∣ a) →
    ∀ x ∈ stores T unmasked a ps off, x.2 ∣ x.1
  | [],      off, hm, _, x => by
    intro hx
    cases unmasked
    · rw [stores, if_neg (by decide), List.mem_singleton] at hx
      subst hx
      exact Nat.dvd_add (hm rfl) (Nat.dvd_mul_left _ _)
    · rw [stores, if_pos rfl] at hx
      cases hx
  | p :: ps, off, hm, hp, x => by
    intro hx
    rw [stores, List.mem_cons] at hx
    rcases hx with e | hx
    · subst e
      exact Nat.dvd_add (hp p List.mem_cons_self) (Nat.dvd_mul_left _ _)
    · exact stores_aligned T unmasked a ps _ hm (fun q hq => hp q (List.mem_cons_of_mem _ hq)) x hx

/-- **C62** (part): the stores to the blocks are aligned as they promise, if no parameter, and not the mask, has a larger alignment than
four times the native vector width. -/
theorem align_partial {T : Tgt} {s Ls mem} (h : Launches T s Ls mem) (L : Launch T) (hL : L ∈ Ls)
    (hm : L.unmasked = false → align T.D (.vec T.W T.M) ∣ blockAlign T) (hp : ∀ p ∈ L.ps, align T.D (p.reg T) ∣ blockAlign T) :
    ∀ x ∈ stores T L.unmasked L.addr L.ps 0, x.2 ∣ x.1 := by
  have := ((Alloc.blocks_ok_partial h.hist).1 _ (List.mem_map_of_mem hL)).1
  exact stores_aligned T _ _ _ _ (fun u => Nat.dvd_trans (hm u) this) fun p hq => Nat.dvd_trans (hp p hq) this

/-! ## The variables of a task -/

/-- **C62** (part): `taskIndex` and the other variables of task `i` of a launch of `c0` by `c1` by `c2` tasks. -/
theorem vars (ti tc : Nat) (c : TaskSys.Counts) (i : Nat) (hi : i < c.total) :
    ∃ V, bind (callArgs ti tc c i) = some V ∧ V.threadIndex = ti ∧ V.threadCount = tc ∧ V.taskIndex = i ∧
      V.taskCount = c.c0 * c.c1 * c.c2 ∧ V.taskCount0 = c.c0 ∧ V.taskCount1 = c.c1 ∧ V.taskCount2 = c.c2 ∧
      V.taskIndex0 < V.taskCount0 ∧ V.taskIndex1 < V.taskCount1 ∧ V.taskIndex2 < V.taskCount2 ∧
      V.taskIndex = V.taskIndex0 + V.taskCount0 * (V.taskIndex1 + V.taskCount1 * V.taskIndex2) := by
  obtain ⟨h0, h1, h2, h3⟩ := TaskSys.task_index_in_range c i hi
  exact ⟨_, rfl, rfl, rfl, rfl, rfl, rfl, rfl, rfl, h0, h1, h2, h3⟩

example : bind (callArgs 3 8 ⟨4, 3, 2⟩ 23) = some ⟨3, 8, 23, 24, 3, 2, 1, 4, 3, 2⟩ := by decide

/-! ## Examples -/

/-- x86-64 (LLVM's data layout): vectors have the alignment of their size rounded up to a power of two. -/
def x86 : Layout where
  ialign b := if b ≤ 8 then 1 else if b ≤ 16 then 2 else if b ≤ 32 then 4 else if b ≤ 64 then 8 else 16
  valign n := if n ≤ 1 then 1 else if n ≤ 2 then 2 else if n ≤ 4 then 4 else if n ≤ 8 then 8 else if n ≤ 16 then 16
    else if n ≤ 32 then 32 else if n ≤ 64 then 64 else 128

theorem x86_ok : x86.Ok := by
  constructor <;> intro n <;> simp only [x86] <;> split_ifs <;> decide

/-- avx2-i32x8 (src/ispc.cpp:1470-1483). -/
def avx2 : Tgt := ⟨x86, 8, 32, 32, 8⟩

theorem avx2_align : blockAlign avx2 = 32 := by
  rw [blockAlign_eq, show avx2.native = 2 ^ 3 from rfl, Nat.clog_pow _ _ (by decide)]
  decide

/-- `task void f(float * uniform p, float x, uniform bool b)`, launched by the lower half of the gang. -/
def sample : Launch avx2 where
  ps := [.scalar (.num 64) false, .scalar (.num 32) true, .scalar .bool false]
  unmasked := false
  args := ((0x123456 : BitVec 64), ((fun l => BitVec.ofNat 32 (1000 + l) : Fin 8 → BitVec 32), ((1 : BitVec 1), ())))
  mask := fun l => if l.val < 4 then BitVec.allOnes 32 else 0
  addr := 4128

/-- `task void g(uniform float<3> x, uniform int16 n)`. -/
def sample2 : Launch avx2 where
  ps := [.short (.num 32) 3 false, .scalar (.num 16) false]
  unmasked := true
  args := ((fun l => BitVec.ofNat 32 (7 + l) : Fin (Braces.vecMem 32 3) → BitVec 32), ((0x7abc : BitVec 16), ()))
  mask := fun _ => 0
  addr := 4256

theorem sample_size : blockSize avx2 sample.unmasked sample.ps = 128 := by decide +kernel

theorem sample2_size : blockSize avx2 sample2.unmasked sample2.ps = 32 := by decide +kernel

theorem fresh_one (b : Nat) (o : Int) (N : Int) (hb : b + 256 ≤ 100000) (hN : N ≤ 8192) :
    Alloc.Fresh { Alloc.init b with off := o } 100000 N := by
  refine ⟨by omega, ?_⟩
  intro j hj
  have : j = 0 := by simpa [Alloc.init] using hj
  subst this
  left
  simp [Alloc.init]
  omega

/-- Both launches, the second from `f`'s caller too, and then a write elsewhere. -/
theorem sample_launches (mem : Mem) : ∃ mem', Launches avx2 { Alloc.init 4128 with off := 160 } [sample2, sample] mem' ∧
    mem' 0 = !mem 0 := by
  have h0 := Launches.init (T := avx2) 4128 mem (by decide)
  have h1 := Launches.launch _ { Alloc.init 4128 with off := 128 } _ _ sample (fun _ => true) 100000 h0
    (by rw [avx2_align]; decide) (by rw [avx2_align, sample_size]; decide)
    (by rw [avx2_align, sample_size]; exact fresh_one 4128 0 _ (by decide) (by decide))
    (by rw [avx2_align, sample_size]; rfl)
  have h2 := Launches.launch _ { Alloc.init 4128 with off := 160 } _ _ sample2 (fun _ => true) 100000 h1
    (by rw [avx2_align]; decide) (by rw [avx2_align, sample2_size]; decide)
    (by rw [avx2_align, sample2_size]; exact fresh_one 4128 128 _ (by decide) (by decide))
    (by rw [avx2_align, sample2_size]; rfl)
  refine ⟨_, Launches.write _ _ _ (fun x => if x = 0 then !mem 0 else
    sample2.run (fun _ => true) (sample.run (fun _ => true) mem) x) h2 ?_, if_pos rfl⟩
  intro L hL x hx
  rw [if_neg]
  intro e
  subst e
  simp only [List.mem_cons, List.not_mem_nil, or_false] at hL
  have h : 8 * L.addr ≤ 0 := hx.1
  rcases hL with e | e <;> subst e <;> exact absurd h (by decide)

/-- Not vacuous: the task of the first launch, after the second one, has the arguments of its own launch. -/
example (mem : Mem) : ∃ mem', Launches avx2 { Alloc.init 4128 with off := 160 } [sample2, sample] mem' ∧
    sample.seen mem' = sample.args ∧ sample2.seen mem' = sample2.args ∧
    maskIn avx2 sample.addr mem' sample.ps = sample.mask ∧
    startMask avx2 false sample.addr mem' sample.ps ⟨7, by decide⟩ ≠ sample.mask ⟨7, by decide⟩ := by
  obtain ⟨mem', h, _⟩ := sample_launches mem
  refine ⟨mem', h, args_partial x86_ok h sample ?_ ?_ ?_, args_partial x86_ok h sample2 ?_ ?_ ?_,
    block_mask x86_ok h sample ?_ rfl, (mask_wrong sample mem' ⟨7, by decide⟩ (by decide) rfl).2⟩
  all_goals simp [sample, sample2, Fine, Canons, Canon]

/-- The stores of the first launch are aligned as promised. -/
example : stores avx2 false 4128 sample.ps 0 = [(4128, 8), (4160, 32), (4192, 1), (4224, 32)] := by decide +kernel

example : avx2.W = 8 ∧ Fine avx2 (.scalar .bool false) ∧ ¬ Fine avx2 (.scalar .bool true) :=
  ⟨rfl, trivial, by show ¬ (32 = 8); decide⟩

/-- On avx2-i32x8 a varying `bool` that is true only for the first program instance is seen as true by the first four. -/
example (mem junk : Mem) :
    ((Launch.mk (T := avx2) [.scalar .bool true] true (only 8 32 0, ()) (fun _ => 0) 4128).seen
      ((Launch.mk (T := avx2) [.scalar .bool true] true (only 8 32 0, ()) (fun _ => 0) 4128).run junk mem)).1 ⟨3, by decide⟩ =
      BitVec.allOnes 32 := by
  have := bool_lane (T := avx2) x86_ok 4 (by decide) rfl (only 8 32 0) (only_canon 8 32 0) true (fun _ => 0) 4128 junk mem
  exact (congrFun (congrArg Prod.fst this) ⟨3, by decide⟩).trans rfl

/-- `task void f(double x)` on avx2-i32x8. -/
def doubles : Launch avx2 where
  ps := [.scalar (.num 64) true]
  unmasked := false
  args := ((fun _ => 0 : Fin 8 → BitVec 64), ())
  mask := fun _ => BitVec.allOnes 32
  addr := 4128

/-- **C62** fails: a varying `double` on avx2-i32x8 is stored with a promise of 64 bytes, to a block that is aligned to 32. -/
theorem align_wrong (mem : Mem) : ∃ s mem', Launches avx2 s [doubles] mem' ∧
    ∃ x ∈ stores avx2 doubles.unmasked doubles.addr doubles.ps 0, ¬ x.2 ∣ x.1 := by
  have hs : blockSize avx2 doubles.unmasked doubles.ps = 128 := by decide +kernel
  refine ⟨_, _, Launches.launch _ { Alloc.init 4128 with off := 128 } _ _ doubles (fun _ => true) 100000
    (Launches.init (T := avx2) 4128 mem (by decide))
    (by rw [avx2_align]; decide) (by rw [avx2_align, hs]; decide)
    (by rw [avx2_align, hs]; exact fresh_one 4128 0 _ (by decide) (by decide)) (by rw [avx2_align, hs]; rfl), (4128, 64), ?_, by decide⟩
  have : stores avx2 doubles.unmasked doubles.addr doubles.ps 0 = [(4128, 64), (4192, 32)] := by decide +kernel
  rw [this]
  exact List.mem_cons_self

end Ispc.TaskArgs
