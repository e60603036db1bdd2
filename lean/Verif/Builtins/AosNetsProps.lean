import Verif.Builtins.AosNets

/-!
# The networks do what the property says (C17)
-/

namespace Ispc.AosNets

open Ispc.Vec
open Ispc.Scan (Mem)

variable {α : Type}

theorem aos_check {e : String × Net} (he : e ∈ aosToSoaNets) : check e.2 (aosSource e.2.fields e.2.width) = true :=
  List.all_eq_true.1 aos_checks e he

theorem soa_check {e : String × Net} (he : e ∈ soaToAosNets) : check e.2 (soaSource e.2.fields e.2.width) = true :=
  List.all_eq_true.1 soa_checks e he

/-- C17: every `__aos_to_soaN_T` of util.m4 and util-xe.m4: instance `l` of vector `f` receives field `f` of element `l`, nothing
else changes. -/
theorem aos_to_soa_nets {e : String × Net} (he : e ∈ aosToSoaNets) (m : Mem α) (a : Int) (outs : Nat → Int)
    (hd : ∀ f < e.2.fields, ∀ g < e.2.fields, f ≠ g → outs f + e.2.width ≤ outs g ∨ outs g + e.2.width ≤ outs f) :
    ∃ m', aosToSoa e.2 m a outs = some m' ∧
      (∀ (f : Fin e.2.fields) (l : Fin e.2.width), m' (outs f + l.val) = m (a + (e.2.fields * l.val + f.val : Nat))) ∧
      ∀ q, (∀ f < e.2.fields, q < outs f ∨ outs f + e.2.width ≤ q) → m' q = m q := by
  obtain ⟨m', h1, h2, h3⟩ := exec_eq (aos_check he)
    (fun k i => m (a + (k.val * e.2.width + i.val : Nat))) outs m hd
  refine ⟨m', h1, ?_, h3⟩
  intro f l
  have hW : 0 < e.2.width := Nat.zero_lt_of_lt l.isLt
  have hlt : e.2.fields * l.val + f.val < e.2.fields * e.2.width := by
    calc e.2.fields * l.val + f.val < e.2.fields * l.val + e.2.fields := by have := f.isLt; omega
      _ = e.2.fields * (l.val + 1) := by rw [Nat.mul_add, Nat.mul_one]
      _ ≤ e.2.fields * e.2.width := Nat.mul_le_mul_left _ l.isLt
  have := h2 f f.isLt l l.isLt ((Nat.div_lt_iff_lt_mul hW).2 hlt) (Nat.mod_lt _ hW)
  rw [this]
  have h : (e.2.fields * l.val + f.val) / e.2.width * e.2.width + (e.2.fields * l.val + f.val) % e.2.width =
    e.2.fields * l.val + f.val := Nat.div_add_mod' _ _
  exact congrArg (fun k : Nat => m (a + (k : Int))) h

/-- C17: every `__soa_to_aosN_T` of util.m4 and util-xe.m4: field `f` of element `l` receives instance `l` of vector `f`, nothing
else changes. -/
theorem soa_to_aos_nets {e : String × Net} (he : e ∈ soaToAosNets) (m : Mem α) (a : Int)
    (v : Fin e.2.fields → Vec e.2.width α) :
    ∃ m', soaToAos e.2 m a v = some m' ∧
      (∀ (f : Fin e.2.fields) (l : Fin e.2.width), m' (a + (e.2.fields * l.val + f.val : Nat)) = v f l) ∧
      ∀ q, q < a ∨ a + (e.2.fields * e.2.width : Nat) ≤ q → m' q = m q := by
  obtain ⟨m', h1, h2, h3⟩ := exec_eq (soa_check he) v (fun k => a + (k * e.2.width : Nat)) m (by
    intro f _ g _ hne
    rcases Nat.lt_or_gt_of_ne hne with h | h
    · left
      have := Nat.mul_le_mul_right e.2.width h
      rw [Nat.succ_mul] at this
      omega
    · right
      have := Nat.mul_le_mul_right e.2.width h
      rw [Nat.succ_mul] at this
      omega)
  refine ⟨m', h1, ?_, ?_⟩
  · intro f l
    have hW : 0 < e.2.width := Nat.zero_lt_of_lt l.isLt
    have hN : 0 < e.2.fields := Nat.zero_lt_of_lt f.isLt
    have hlt : e.2.fields * l.val + f.val < e.2.fields * e.2.width := by
      calc e.2.fields * l.val + f.val < e.2.fields * l.val + e.2.fields := by have := f.isLt; omega
        _ = e.2.fields * (l.val + 1) := by rw [Nat.mul_add, Nat.mul_one]
        _ ≤ e.2.fields * e.2.width := Nat.mul_le_mul_left _ l.isLt
    generalize hc : e.2.fields * l.val + f.val = c at hlt ⊢
    have hf : c % e.2.fields = f.val := by rw [← hc, Nat.mul_add_mod, Nat.mod_eq_of_lt f.isLt]
    have hl : c / e.2.fields = l.val := by rw [← hc, Nat.mul_add_div hN, Nat.div_eq_of_lt f.isLt, Nat.add_zero]
    have hs : soaSource e.2.fields e.2.width (c / e.2.width) (c % e.2.width) = (f.val, l.val) := by
      rw [soaSource, Nat.div_add_mod', hf, hl]
    have := h2 (c / e.2.width) ((Nat.div_lt_iff_lt_mul hW).2 hlt) (c % e.2.width) (Nat.mod_lt _ hW)
      (by rw [hs]; exact f.isLt) (by rw [hs]; exact l.isLt)
    have ha : a + ((c / e.2.width * e.2.width : Nat) : Int) + ((c % e.2.width : Nat) : Int) = a + (c : Int) := by
      have := Nat.div_add_mod' c e.2.width
      omega
    rw [ha] at this
    rw [this]
    have e1 : (⟨(soaSource e.2.fields e.2.width (c / e.2.width) (c % e.2.width)).1, by rw [hs]; exact f.isLt⟩ :
      Fin e.2.fields) = f := Fin.ext (congrArg Prod.fst hs)
    have e2 : (⟨(soaSource e.2.fields e.2.width (c / e.2.width) (c % e.2.width)).2, by rw [hs]; exact l.isLt⟩ :
      Fin e.2.width) = l := Fin.ext (congrArg Prod.snd hs)
    rw [e1, e2]
  · intro q hq
    apply h3
    intro f hf
    have := Nat.mul_le_mul_right e.2.width hf
    rw [Nat.succ_mul] at this
    omega

/-- C17: which networks there are: every number of fields from 2 to 4 and every width that a target of util.m4 has, for `float`
and for `double`. -/
theorem nets_cover (N W : Nat) (hN : N ∈ [2, 3, 4]) (hW : W ∈ [4, 8, 16, 32, 64]) :
    2 ≤ (aosToSoaNets.filter fun e => e.2.fields = N ∧ e.2.width = W).length ∧
    2 ≤ (soaToAosNets.filter fun e => e.2.fields = N ∧ e.2.width = W).length := by
  have h : ∀ N ∈ [2, 3, 4], ∀ W ∈ [4, 8, 16, 32, 64],
    2 ≤ (aosToSoaNets.filter fun e => e.2.fields = N ∧ e.2.width = W).length ∧
    2 ≤ (soaToAosNets.filter fun e => e.2.fields = N ∧ e.2.width = W).length := by decide +kernel
  exact h N hN W hW

/-- C17: a network and the loops of generic.ispc leave the same memory. -/
theorem aos_net_generic (zero : α) {e : String × Net} (he : e ∈ aosToSoaNets) (m : Mem α) (a : Int) (outs : Nat → Int)
    (hd : ∀ f < e.2.fields, ∀ g < e.2.fields, f ≠ g → outs f + e.2.width ≤ outs g ∨ outs g + e.2.width ≤ outs f) :
    aosToSoa e.2 m a outs =
      Ispc.Aos.aosToSoa (W := e.2.width) (N := e.2.fields) zero m a fun f => outs f.val := by
  obtain ⟨m1, h1, h2, h3⟩ := aos_to_soa_nets he m a outs hd
  obtain ⟨m2, k1, k2, k3⟩ := Ispc.Aos.aos_to_soa_spec (W := e.2.width) (N := e.2.fields) zero m a (fun f => outs f.val)
    (fun f g h => hd f f.isLt g g.isLt fun h' => h (Fin.ext h'))
  rw [h1, k1]
  congr 1
  funext q
  by_cases hq : ∃ f : Fin e.2.fields, outs f ≤ q ∧ q < outs f + e.2.width
  · obtain ⟨f, h4, h5⟩ := hq
    have e1 : q = outs f + ((⟨(q - outs f).toNat, by omega⟩ : Fin e.2.width).val : Int) := by
      simp only
      omega
    rw [e1, h2 f, k2 f]
  · rw [h3 q fun f hf => by
        by_contra h
        exact hq ⟨⟨f, hf⟩, by simp only; omega⟩,
      k3 q fun f => by
        by_contra h
        exact hq ⟨f, by omega⟩]

/-- C17: the same for `soa_to_aos`. -/
theorem soa_net_generic {e : String × Net} (he : e ∈ soaToAosNets) (m : Mem α) (a : Int)
    (v : Fin e.2.fields → Vec e.2.width α) : soaToAos e.2 m a v = Ispc.Aos.soaToAos m a v := by
  obtain ⟨m1, h1, h2, h3⟩ := soa_to_aos_nets he m a v
  obtain ⟨m2, k1, k2, k3⟩ := Ispc.Aos.soa_to_aos_spec m a v
  rw [h1, k1]
  congr 1
  funext q
  by_cases hq : a ≤ q ∧ q < a + (e.2.fields * e.2.width : Nat)
  · have hlt : (q - a).toNat < e.2.fields * e.2.width := by omega
    have hN : 0 < e.2.fields := by
      rcases Nat.eq_zero_or_pos e.2.fields with h | h
      · rw [h, Nat.zero_mul] at hlt; omega
      · exact h
    have h4 := h2 ⟨(q - a).toNat % e.2.fields, Nat.mod_lt _ hN⟩
      ⟨(q - a).toNat / e.2.fields, (Nat.div_lt_iff_lt_mul hN).2 (by rw [Nat.mul_comm]; exact hlt)⟩
    have h5 := k2 ⟨(q - a).toNat % e.2.fields, Nat.mod_lt _ hN⟩
      ⟨(q - a).toNat / e.2.fields, (Nat.div_lt_iff_lt_mul hN).2 (by rw [Nat.mul_comm]; exact hlt)⟩
    simp only [Nat.div_add_mod] at h4 h5
    have e1 : q = a + ((q - a).toNat : Int) := by omega
    rw [e1, h4, h5]
  · rw [h3 q (by omega), k3 q (by omega)]

/-! ## Non-vacuity -/

/-- The pumped double network of a gang of eight on concrete data. -/
example : ((soaToAos soa4d8Pumped (fun _ => (0 : Int)) 100 fun f l => 10 * f.val + l.val).map fun m =>
    (List.range 32).map fun k => m (100 + k)) =
    some [0, 10, 20, 30, 1, 11, 21, 31, 2, 12, 22, 32, 3, 13, 23, 33, 4, 14, 24, 34, 5, 15, 25, 35, 6, 16, 26, 36,
      7, 17, 27, 37] := by
  decide +kernel

example : ((aosToSoa aos3d8 (fun q => q) 100 fun f => 1000 + 8 * f).map fun m => (List.range 24).map fun k => m (1000 + k)) =
    some [100, 103, 106, 109, 112, 115, 118, 121, 101, 104, 107, 110, 113, 116, 119, 122, 102, 105, 108, 111, 114, 117,
      120, 123] := by
  decide +kernel

end Ispc.AosNets
