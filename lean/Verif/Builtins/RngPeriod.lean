import Verif.Builtins.Gf2
import Verif.Builtins.Rng
import Mathlib.Tactic.NormNum.Prime
import Mathlib.Tactic.NormNum.GCD
import Mathlib.NumberTheory.LucasLehmer

/-!
# The period of the random number generator (C41)

Each of the four words of the state moves by a linear map over the field with two elements.  The powers of these maps are
evaluated by the kernel; the matrices listed below are only witnesses (left inverses), found by Gaussian elimination outside
Lean and checked here.
-/

namespace Ispc.RngPeriod

open Ispc.Gf2 Ispc.Rng

theorem prime31 : Nat.Prime 2147483647 := by
  have h : (mersenne 31).Prime := lucas_lehmer_sufficiency _ (by simp) (by norm_num)
  have e : mersenne 31 = 2147483647 := by norm_num [mersenne]
  rwa [e] at h

/-- Bits of a number, least significant first. -/
def bitsOf : Nat → Nat → List Bool
  | 0, _ => []
  | k + 1, n => (n % 2 == 1) :: bitsOf k (n / 2)

/-- How `random` moves `z1` (stdlib.ispc:7005-7031); tied to the model by `randomU_state`. -/
def step1 (z : W32) : W32 := ((z &&& 4294967294#32) <<< 18) ^^^ (((z <<< 6) ^^^ z) >>> 13)
/-- How `random` moves `z2` (stdlib.ispc:7005-7031); tied to the model by `randomU_state`. -/
def step2 (z : W32) : W32 := ((z &&& 4294967288#32) <<< 2) ^^^ (((z <<< 2) ^^^ z) >>> 27)
/-- How `random` moves `z3` (stdlib.ispc:7005-7031); tied to the model by `randomU_state`. -/
def step3 (z : W32) : W32 := ((z &&& 4294967280#32) <<< 7) ^^^ (((z <<< 13) ^^^ z) >>> 21)
/-- How `random` moves `z4` (stdlib.ispc:7005-7031); tied to the model by `randomU_state`. -/
def step4 (z : W32) : W32 := ((z &&& 4294967168#32) <<< 13) ^^^ (((z <<< 3) ^^^ z) >>> 12)

/-- `random` moves the four words independently. -/
theorem randomU_state (st : State U32) : (randomU st).1 = ⟨step1 st.z1, step2 st.z2, step3 st.z3, step4 st.z4⟩ := rfl

theorem randomU_value (st : State U32) :
    (randomU st).2 = step1 st.z1 ^^^ step2 st.z2 ^^^ step3 st.z3 ^^^ step4 st.z4 := rfl

theorem lin1 : Lin step1 := by
  intro x y
  unfold step1
  apply BitVec.eq_of_getLsbD_eq
  intro i hi
  simp only [BitVec.getLsbD_xor, BitVec.getLsbD_shiftLeft, BitVec.getLsbD_ushiftRight, BitVec.getLsbD_and]
  generalize_proofs
  grind

theorem lin2 : Lin step2 := by
  intro x y
  unfold step2
  apply BitVec.eq_of_getLsbD_eq
  intro i hi
  simp only [BitVec.getLsbD_xor, BitVec.getLsbD_shiftLeft, BitVec.getLsbD_ushiftRight, BitVec.getLsbD_and]
  generalize_proofs
  grind

theorem lin3 : Lin step3 := by
  intro x y
  unfold step3
  apply BitVec.eq_of_getLsbD_eq
  intro i hi
  simp only [BitVec.getLsbD_xor, BitVec.getLsbD_shiftLeft, BitVec.getLsbD_ushiftRight, BitVec.getLsbD_and]
  generalize_proofs
  grind

theorem lin4 : Lin step4 := by
  intro x y
  unfold step4
  apply BitVec.eq_of_getLsbD_eq
  intro i hi
  simp only [BitVec.getLsbD_xor, BitVec.getLsbD_shiftLeft, BitVec.getLsbD_ushiftRight, BitVec.getLsbD_and]
  generalize_proofs
  grind

theorem return1 : step1^[2147483648] = step1 := of_checkReturn lin1 (bs := bitsOf 32 2147483648) (by decide +kernel)

theorem kernel1 (z : W32) : step1 z = 0#32 ↔ z.toNat < 2 ^ 1 := by
  constructor
  · intro h
    have h1 := of_checkInv lin1 (mask := 4294967294#32) (B := [
    0, 68173824, 136347648, 272695296, 545390592, 1090781184, 2181562368, 68157440,
    136314880, 272629760, 545259520, 1090519040, 2181038080, 67108864, 134217728, 268435456,
    536870912, 1073741824, 2147483648, 2, 4, 8, 16, 32,
    64, 128, 68174080, 136348160, 272696320, 545392640, 1090785280, 2181570560]) (by decide +kernel) z h
    have e : z &&& 4294967294#32 = (z >>> 1) <<< 1 := by
      apply BitVec.eq_of_getLsbD_eq
      intro i hi
      interval_cases i <;> simp
    have h3 := congrArg BitVec.toNat (e.symm.trans h1)
    rw [BitVec.toNat_shiftLeft, BitVec.toNat_ushiftRight, Nat.shiftRight_eq_div_pow, Nat.shiftLeft_eq,
      show (0#32).toNat = 0 from rfl] at h3
    have := z.isLt
    omega
  · intro h
    obtain ⟨n, hn⟩ : ∃ n, z.toNat = n := ⟨_, rfl⟩
    rw [hn] at h
    have hz : z = BitVec.ofNat 32 n := by rw [← hn, BitVec.ofNat_toNat, BitVec.setWidth_eq]
    subst hz
    clear hn
    revert n
    decide +kernel

theorem nofix1_2147483647 (z : W32) (h : step1^[1] z = z) : z = 0#32 :=
  of_checkNoFix lin1 (bs := bitsOf 32 1) (B := [
    1, 2180505725, 66044155, 132088311, 264176623, 528353247, 1056706495, 2113412990,
    4226825980, 4158684664, 4022402032, 3749836768, 3204706240, 2114445185, 4228890371, 4162813447,
    4030659599, 3766351903, 3237736511, 2180505727, 66044159, 132088319, 264176639, 528353279,
    1056706559, 2113413119, 2047336321, 4094672643, 3894377991, 3493788687, 2692610079, 1090252863]) (by decide +kernel) z h

/-- A live `z1` has period exactly `2^31 - 1`. -/
theorem period1 (z : W32) (hz : 2 ^ 1 ≤ z.toNat) (n : Nat) (hn : 0 < n) (m : Nat) :
    step1^[n + m] z = step1^[n] z ↔ 2 ^ 31 - 1 ∣ m := by
  refine linear_period lin1 2147483647 return1 (fun p hp hd y hfix => ?_) z (fun h => ?_) n hn m
  · have hp' : p = 2147483647 := by
      exact (Nat.prime_dvd_prime_iff_eq hp prime31).1 hd
    rcases hp' with rfl
    · rw [show 2147483647 / 2147483647 = 1 by norm_num] at hfix; exact nofix1_2147483647 _ hfix
  · have := (kernel1 z).1 h; omega

theorem return2 : step2^[536870912] = step2 := of_checkReturn lin2 (bs := bitsOf 32 536870912) (by decide +kernel)

theorem kernel2 (z : W32) : step2 z = 0#32 ↔ z.toNat < 2 ^ 3 := by
  constructor
  · intro h
    have h1 := of_checkInv lin2 (mask := 4294967288#32) (B := [
    0, 0, 0, 1073741824, 2147483648, 8, 16, 32,
    64, 128, 256, 512, 1024, 2048, 4096, 8192,
    16384, 32768, 65536, 131072, 262144, 524288, 1048576, 2097152,
    4194304, 8388608, 16777216, 33554432, 67108864, 134217728, 1342177280, 2684354560]) (by decide +kernel) z h
    have e : z &&& 4294967288#32 = (z >>> 3) <<< 3 := by
      apply BitVec.eq_of_getLsbD_eq
      intro i hi
      interval_cases i <;> simp
    have h3 := congrArg BitVec.toNat (e.symm.trans h1)
    rw [BitVec.toNat_shiftLeft, BitVec.toNat_ushiftRight, Nat.shiftRight_eq_div_pow, Nat.shiftLeft_eq,
      show (0#32).toNat = 0 from rfl] at h3
    have := z.isLt
    omega
  · intro h
    obtain ⟨n, hn⟩ : ∃ n, z.toNat = n := ⟨_, rfl⟩
    rw [hn] at h
    have hz : z = BitVec.ofNat 32 n := by rw [← hn, BitVec.ofNat_toNat, BitVec.setWidth_eq]
    subst hz
    clear hn
    revert n
    decide +kernel

theorem nofix2_233 (z : W32) (h : step2^[2304167] z = z) : z = 0#32 :=
  of_checkNoFix lin2 (bs := bitsOf 32 2304167) (B := [
    1, 2, 4, 3540646700, 2786326105, 1277684915, 2555369831, 815772367,
    1631544735, 3263089470, 2231211644, 167455993, 334911986, 669823973, 1339647947, 2679295895,
    1063624494, 2127248988, 4254497976, 4214028656, 4133090017, 3971212738, 3647458181, 2999949067,
    1704930839, 3409861679, 2524756062, 754544829, 1509089659, 3018179318, 3032645321, 1770323346]) (by decide +kernel) z h

theorem nofix2_1103 (z : W32) (h : step2^[486737] z = z) : z = 0#32 :=
  of_checkNoFix lin2 (bs := bitsOf 32 486737) (B := [
    1, 2, 4, 2092977596, 4185955192, 4076943089, 3858918883, 3422870471,
    2550773647, 806579999, 1613159999, 3226319998, 2157672700, 20378104, 40756208, 81512416,
    163024833, 326049666, 652099333, 1304198667, 2608397335, 921827375, 1843654750, 3687309501,
    3079651707, 1864336118, 3728672237, 3162377179, 2029787062, 4059574124, 2670728045, 1046488794]) (by decide +kernel) z h

theorem nofix2_2089 (z : W32) (h : step2^[256999] z = z) : z = 0#32 :=
  of_checkNoFix lin2 (bs := bitsOf 32 256999) (B := [
    1, 2, 4, 3479402271, 2663837247, 1032707198, 2065414396, 4130828793,
    3966690290, 3638413285, 2981859275, 1668751255, 3337502510, 2380037725, 465108155, 930216311,
    1860432622, 3720865245, 3146763194, 1998559093, 3997118186, 3699269077, 3103570858, 1912174421,
    3824348843, 3353730390, 2412493485, 530019674, 1060039348, 2120078697, 869850565, 1739701131]) (by decide +kernel) z h

/-- A live `z2` has period exactly `2^29 - 1`. -/
theorem period2 (z : W32) (hz : 2 ^ 3 ≤ z.toNat) (n : Nat) (hn : 0 < n) (m : Nat) :
    step2^[n + m] z = step2^[n] z ↔ 2 ^ 29 - 1 ∣ m := by
  refine linear_period lin2 536870911 return2 (fun p hp hd y hfix => ?_) z (fun h => ?_) n hn m
  · have hp' : p = 233 ∨ p = 1103 ∨ p = 2089 := by
      rw [show 536870911 = 233 * 1103 * 2089 by norm_num] at hd
      simp only [hp.dvd_mul] at hd
      rcases hd with (hd | hd) | hd
      · have := (Nat.prime_dvd_prime_iff_eq hp (by norm_num)).1 hd; omega
      · have := (Nat.prime_dvd_prime_iff_eq hp (by norm_num)).1 hd; omega
      · have := (Nat.prime_dvd_prime_iff_eq hp (by norm_num)).1 hd; omega
    rcases hp' with rfl | rfl | rfl
    · rw [show 536870911 / 233 = 2304167 by norm_num] at hfix; exact nofix2_233 _ hfix
    · rw [show 536870911 / 1103 = 486737 by norm_num] at hfix; exact nofix2_1103 _ hfix
    · rw [show 536870911 / 2089 = 256999 by norm_num] at hfix; exact nofix2_2089 _ hfix
  · have := (kernel2 z).1 h; omega

theorem return3 : step3^[268435456] = step3 := of_checkReturn lin3 (bs := bitsOf 32 268435456) (by decide +kernel)

theorem kernel3 (z : W32) : step3 z = 0#32 ↔ z.toNat < 2 ^ 4 := by
  constructor
  · intro h
    have h1 := of_checkInv lin3 (mask := 4294967280#32) (B := [
    0, 0, 0, 0, 33554432, 67108864, 134217728, 268435456,
    536870912, 1073741824, 2147483648, 16, 32, 64, 128, 256,
    512, 1024, 2048, 33558528, 67117056, 134234112, 268468224, 536936448,
    1073872896, 2147745792, 524288, 1048576, 2097152, 4194304, 8388608, 16777216]) (by decide +kernel) z h
    have e : z &&& 4294967280#32 = (z >>> 4) <<< 4 := by
      apply BitVec.eq_of_getLsbD_eq
      intro i hi
      interval_cases i <;> simp
    have h3 := congrArg BitVec.toNat (e.symm.trans h1)
    rw [BitVec.toNat_shiftLeft, BitVec.toNat_ushiftRight, Nat.shiftRight_eq_div_pow, Nat.shiftLeft_eq,
      show (0#32).toNat = 0 from rfl] at h3
    have := z.isLt
    omega
  · intro h
    obtain ⟨n, hn⟩ : ∃ n, z.toNat = n := ⟨_, rfl⟩
    rw [hn] at h
    have hz : z = BitVec.ofNat 32 n := by rw [← hn, BitVec.ofNat_toNat, BitVec.setWidth_eq]
    subst hz
    clear hn
    revert n
    decide +kernel

theorem nofix3_3 (z : W32) (h : step3^[89478485] z = z) : z = 0#32 :=
  of_checkNoFix lin3 (bs := bitsOf 32 89478485) (B := [
    1, 2, 4, 8, 1409735544, 2819471089, 1343974883, 2687949767,
    1080932239, 2161864478, 28761661, 57523323, 115046646, 230093293, 460186586, 920373173,
    1840746347, 3681492695, 3068018095, 968532022, 1937064045, 3874128091, 3453288886, 2611610477,
    928253659, 1856507318, 3713014637, 3131061979, 1967156662, 3934313325, 3573659354, 2852351412]) (by decide +kernel) z h

theorem nofix3_5 (z : W32) (h : step3^[53687091] z = z) : z = 0#32 :=
  of_checkNoFix lin3 (bs := bitsOf 32 53687091) (B := [
    1, 2, 4, 8, 335697989, 671395979, 1342791959, 2685583919,
    1076200543, 2152401086, 9834876, 19669752, 39339504, 78679009, 157358018, 314716036,
    629432072, 1258864145, 2517728291, 941662226, 1883324453, 3766648907, 3238330518, 2181693740,
    68420184, 136840368, 273680737, 547361474, 1094722949, 2189445898, 83924501, 167849002]) (by decide +kernel) z h

theorem nofix3_29 (z : W32) (h : step3^[9256395] z = z) : z = 0#32 :=
  of_checkNoFix lin3 (bs := bitsOf 32 9256395) (B := [
    1, 2, 4, 8, 2936055963, 1577144631, 3154289262, 2013611229,
    4027222458, 3759477620, 3223987944, 2153008592, 11049889, 22099778, 44199556, 88399112,
    176798225, 353596451, 707192903, 4216158213, 4137349130, 3979730965, 3664494634, 3034021972,
    1773076648, 3546153297, 2797339298, 1299711300, 2599422600, 903877905, 1807755810, 3615511621]) (by decide +kernel) z h

theorem nofix3_43 (z : W32) (h : step3^[6242685] z = z) : z = 0#32 :=
  of_checkNoFix lin3 (bs := bitsOf 32 6242685) (B := [
    1, 2, 4, 8, 1969582685, 3939165371, 3583363446, 2871759597,
    1448551899, 2897103798, 1499240300, 2998480601, 1701993906, 3403987813, 2513008331, 731049366,
    1462098732, 2924197465, 1553427635, 3427511083, 2560054871, 825142446, 1650284892, 3300569785,
    2306172274, 317377252, 634754505, 1269509010, 2539018020, 783068745, 1566137491, 3132274982]) (by decide +kernel) z h

theorem nofix3_113 (z : W32) (h : step3^[2375535] z = z) : z = 0#32 :=
  of_checkNoFix lin3 (bs := bitsOf 32 2375535) (B := [
    1, 2, 4, 8, 3194249027, 2093530758, 4187061517, 4079155738,
    3863344181, 3431721067, 2568474838, 841982380, 1683964760, 3367929521, 2440891747, 586816199,
    1173632398, 2347264796, 399562296, 2445669154, 596371013, 1192742027, 2385484055, 476000815,
    952001631, 1904003262, 3808006525, 3321045754, 2347124213, 399281130, 798562260, 1597124521]) (by decide +kernel) z h

theorem nofix3_127 (z : W32) (h : step3^[2113665] z = z) : z = 0#32 :=
  of_checkNoFix lin3 (bs := bitsOf 32 2113665) (B := [
    1, 2, 4, 8, 1019386486, 2038772973, 4077545947, 3860124599,
    3425281903, 2555596511, 816225726, 1632451452, 3264902904, 2234838513, 174709731, 349419463,
    698838926, 1397677852, 2795355705, 1912202772, 3824405545, 3353843795, 2412720294, 530473293,
    1060946586, 2121893172, 4243786345, 4192605395, 4090243494, 3885519692, 3476072089, 2657176883]) (by decide +kernel) z h

/-- A live `z3` has period exactly `2^28 - 1`. -/
theorem period3 (z : W32) (hz : 2 ^ 4 ≤ z.toNat) (n : Nat) (hn : 0 < n) (m : Nat) :
    step3^[n + m] z = step3^[n] z ↔ 2 ^ 28 - 1 ∣ m := by
  refine linear_period lin3 268435455 return3 (fun p hp hd y hfix => ?_) z (fun h => ?_) n hn m
  · have hp' : p = 3 ∨ p = 5 ∨ p = 29 ∨ p = 43 ∨ p = 113 ∨ p = 127 := by
      rw [show 268435455 = 3 * 5 * 29 * 43 * 113 * 127 by norm_num] at hd
      simp only [hp.dvd_mul] at hd
      rcases hd with ((((hd | hd) | hd) | hd) | hd) | hd
      · have := (Nat.prime_dvd_prime_iff_eq hp (by norm_num)).1 hd; omega
      · have := (Nat.prime_dvd_prime_iff_eq hp (by norm_num)).1 hd; omega
      · have := (Nat.prime_dvd_prime_iff_eq hp (by norm_num)).1 hd; omega
      · have := (Nat.prime_dvd_prime_iff_eq hp (by norm_num)).1 hd; omega
      · have := (Nat.prime_dvd_prime_iff_eq hp (by norm_num)).1 hd; omega
      · have := (Nat.prime_dvd_prime_iff_eq hp (by norm_num)).1 hd; omega
    rcases hp' with rfl | rfl | rfl | rfl | rfl | rfl
    · rw [show 268435455 / 3 = 89478485 by norm_num] at hfix; exact nofix3_3 _ hfix
    · rw [show 268435455 / 5 = 53687091 by norm_num] at hfix; exact nofix3_5 _ hfix
    · rw [show 268435455 / 29 = 9256395 by norm_num] at hfix; exact nofix3_29 _ hfix
    · rw [show 268435455 / 43 = 6242685 by norm_num] at hfix; exact nofix3_43 _ hfix
    · rw [show 268435455 / 113 = 2375535 by norm_num] at hfix; exact nofix3_113 _ hfix
    · rw [show 268435455 / 127 = 2113665 by norm_num] at hfix; exact nofix3_127 _ hfix
  · have := (kernel3 z).1 h; omega

theorem return4 : step4^[33554432] = step4 := of_checkReturn lin4 (bs := bitsOf 32 33554432) (by decide +kernel)

theorem kernel4 (z : W32) : step4 z = 0#32 ↔ z.toNat < 2 ^ 7 := by
  constructor
  · intro h
    have h1 := of_checkInv lin4 (mask := 4294967168#32) (B := [
    0, 0, 0, 0, 0, 0, 0, 2454192128,
    613416960, 1226833920, 2453667840, 612368384, 1224736768, 2449473536, 603979776, 1207959552,
    2415919104, 536870912, 1073741824, 2147483648, 128, 256, 512, 1024,
    2048, 4096, 8192, 16384, 32768, 2454257664, 613548032, 1227096064]) (by decide +kernel) z h
    have e : z &&& 4294967168#32 = (z >>> 7) <<< 7 := by
      apply BitVec.eq_of_getLsbD_eq
      intro i hi
      interval_cases i <;> simp
    have h3 := congrArg BitVec.toNat (e.symm.trans h1)
    rw [BitVec.toNat_shiftLeft, BitVec.toNat_ushiftRight, Nat.shiftRight_eq_div_pow, Nat.shiftLeft_eq,
      show (0#32).toNat = 0 from rfl] at h3
    have := z.isLt
    omega
  · intro h
    obtain ⟨n, hn⟩ : ∃ n, z.toNat = n := ⟨_, rfl⟩
    rw [hn] at h
    have hz : z = BitVec.ofNat 32 n := by rw [← hn, BitVec.ofNat_toNat, BitVec.setWidth_eq]
    subst hz
    clear hn
    revert n
    decide +kernel

theorem nofix4_31 (z : W32) (h : step4^[1082401] z = z) : z = 0#32 :=
  of_checkNoFix lin4 (bs := bitsOf 32 1082401) (B := [
    1, 2, 4, 8, 16, 32, 64, 2381491825,
    468016354, 936032708, 1872065417, 3744130835, 3193294374, 2091621452, 4183242905, 4071518515,
    3848069735, 3401172175, 2507377055, 719786814, 1439573629, 2879147259, 1463327222, 2926654444,
    1558341593, 3116683186, 1938399077, 3876798155, 3458629015, 297686494, 595372988, 1190745976]) (by decide +kernel) z h

theorem nofix4_601 (z : W32) (h : step4^[55831] z = z) : z = 0#32 :=
  of_checkNoFix lin4 (bs := bitsOf 32 55831) (B := [
    1, 2, 4, 8, 16, 32, 64, 2403252091,
    511536886, 1023073773, 2046147547, 4092295094, 3889622892, 3484278489, 2673589682, 1052212069,
    2104424139, 4208848278, 4122729260, 3950491224, 3606015152, 2917063009, 1539158722, 3078317444,
    1861667592, 3723335184, 3151703072, 2008438849, 4016877698, 1374148351, 2748296702, 1201626109]) (by decide +kernel) z h

theorem nofix4_1801 (z : W32) (h : step4^[18631] z = z) : z = 0#32 :=
  of_checkNoFix lin4 (bs := bitsOf 32 18631) (B := [
    1, 2, 4, 8, 16, 32, 64, 3327238650,
    2359510004, 424052713, 848105427, 1696210854, 3392421709, 2489876123, 684784951, 1369569902,
    2739139804, 1183312313, 2366624626, 438281957, 876563914, 1753127829, 3506255658, 2717544021,
    1140120746, 2280241493, 265515690, 531031381, 1062062762, 3100259375, 1905551454, 3811102909]) (by decide +kernel) z h

/-- A live `z4` has period exactly `2^25 - 1`. -/
theorem period4 (z : W32) (hz : 2 ^ 7 ≤ z.toNat) (n : Nat) (hn : 0 < n) (m : Nat) :
    step4^[n + m] z = step4^[n] z ↔ 2 ^ 25 - 1 ∣ m := by
  refine linear_period lin4 33554431 return4 (fun p hp hd y hfix => ?_) z (fun h => ?_) n hn m
  · have hp' : p = 31 ∨ p = 601 ∨ p = 1801 := by
      rw [show 33554431 = 31 * 601 * 1801 by norm_num] at hd
      simp only [hp.dvd_mul] at hd
      rcases hd with (hd | hd) | hd
      · have := (Nat.prime_dvd_prime_iff_eq hp (by norm_num)).1 hd; omega
      · have := (Nat.prime_dvd_prime_iff_eq hp (by norm_num)).1 hd; omega
      · have := (Nat.prime_dvd_prime_iff_eq hp (by norm_num)).1 hd; omega
    rcases hp' with rfl | rfl | rfl
    · rw [show 33554431 / 31 = 1082401 by norm_num] at hfix; exact nofix4_31 _ hfix
    · rw [show 33554431 / 601 = 55831 by norm_num] at hfix; exact nofix4_601 _ hfix
    · rw [show 33554431 / 1801 = 18631 by norm_num] at hfix; exact nofix4_1801 _ hfix
  · have := (kernel4 z).1 h; omega

/-! ## The whole generator -/

/-- The state after one draw. -/
def next (st : State U32) : State U32 := (randomU st).1

/-- The `n`-th number drawn (counting from zero). -/
def draw (st : State U32) (n : Nat) : U32 := (randomU (next^[n] st)).2

/-- All four words are live: no word is among the few values the generator maps to zero. -/
def Live (st : State U32) : Prop :=
  2 ^ 1 ≤ st.z1.toNat ∧ 2 ^ 3 ≤ st.z2.toNat ∧ 2 ^ 4 ≤ st.z3.toNat ∧ 2 ^ 7 ≤ st.z4.toNat

instance (st : State U32) : Decidable (Live st) := by unfold Live; infer_instance

theorem next_iterate (st : State U32) (n : Nat) :
    next^[n] st = ⟨step1^[n] st.z1, step2^[n] st.z2, step3^[n] st.z3, step4^[n] st.z4⟩ := by
  induction n with
  | zero => rfl
  | succ n ih =>
    rw [Function.iterate_succ_apply', ih, next, randomU_state, Function.iterate_succ_apply', Function.iterate_succ_apply',
      Function.iterate_succ_apply', Function.iterate_succ_apply']

theorem mul_dvd_iff {a b m : Nat} (h : Nat.Coprime a b) : a * b ∣ m ↔ a ∣ m ∧ b ∣ m :=
  ⟨fun hm => ⟨Dvd.dvd.trans ⟨b, rfl⟩ hm, Dvd.dvd.trans ⟨a, Nat.mul_comm _ _⟩ hm⟩, fun hm => h.mul_dvd_of_dvd_of_dvd hm.1 hm.2⟩

theorem cop1 : Nat.Coprime (2 ^ 31 - 1) (2 ^ 29 - 1) := by norm_num
theorem cop2 : Nat.Coprime ((2 ^ 31 - 1) * (2 ^ 29 - 1)) (2 ^ 28 - 1) := by norm_num
theorem cop3 : Nat.Coprime ((2 ^ 31 - 1) * (2 ^ 29 - 1) * (2 ^ 28 - 1)) (2 ^ 25 - 1) := by norm_num

/-- **C41**: from a live state, the state after `n + m` draws is the state after `n` draws exactly when `m` is a multiple of
`(2^31-1)(2^29-1)(2^28-1)(2^25-1)`, about `2^113`. -/
theorem state_period (st : State U32) (h : Live st) (n : Nat) (hn : 0 < n) (m : Nat) :
    next^[n + m] st = next^[n] st ↔ (2 ^ 31 - 1) * (2 ^ 29 - 1) * (2 ^ 28 - 1) * (2 ^ 25 - 1) ∣ m := by
  obtain ⟨h1, h2, h3, h4⟩ := h
  rw [next_iterate, next_iterate, State.mk.injEq, period1 _ h1 n hn, period2 _ h2 n hn, period3 _ h3 n hn, period4 _ h4 n hn,
    mul_dvd_iff cop3, mul_dvd_iff cop2, mul_dvd_iff cop1]
  tauto

/-- Even when only the first word is live, states do not recur for `2^31 - 1` draws. -/
theorem state_period_z1 (st : State U32) (h : 2 ≤ st.z1.toNat) (n : Nat) (hn : 0 < n) (m : Nat)
    (heq : next^[n + m] st = next^[n] st) : 2 ^ 31 - 1 ∣ m := by
  rw [next_iterate, next_iterate, State.mk.injEq] at heq
  exact (period1 _ h n hn m).1 heq.1

/-! ### The drawn numbers -/

/-- A point with two coprime periods is a fixed point. -/
theorem fixed_of_coprime {f : W32 → W32} {y : W32} {N Q : Nat} (h : Nat.Coprime N Q) (hN : f^[N] y = y) (hQ : f^[Q] y = y) :
    f y = y := by
  have h1 : Function.IsPeriodicPt f N y := hN
  have h2 : Function.IsPeriodicPt f Q y := hQ
  have h3 := h1.gcd h2
  rw [h] at h3
  exact h3

theorem iterate_mul_of {f : W32 → W32} {y : W32} {N : Nat} (h : f^[N] y = y) (k : Nat) : f^[N * k] y = y :=
  Function.IsPeriodicPt.mul_const h k

theorem iterate_of_dvd {f : W32 → W32} {y : W32} {N Q : Nat} (h : f^[N] y = y) (hd : N ∣ Q) : f^[Q] y = y := by
  obtain ⟨k, rfl⟩ := hd
  exact iterate_mul_of h k

theorem nofix {f : W32 → W32} {k : Nat} (h : ∀ z, f^[k] z = z → z = 0#32) (y : W32) (hy : f y = y) : y = 0#32 :=
  h y (Function.iterate_fixed hy k)

/-- The difference of a word's orbit with its shift moves by the same linear map. -/
theorem diff_iterate {f : W32 → W32} (hf : Lin f) (z : W32) (m n : Nat) :
    f^[n + m + 1] z ^^^ f^[n + 1] z = f^[n] (f^[m + 1] z ^^^ f z) := by
  rw [(hf.iterate n), ← Function.iterate_add_apply, ← Function.iterate_succ_apply]
  rfl

theorem diff_period {f : W32 → W32} (hf : Lin f) (z : W32) (m N : Nat) (hret : f^[N + 1] = f) :
    f^[N] (f^[m + 1] z ^^^ f z) = f^[m + 1] z ^^^ f z := by
  have e : f^[m + 1] z ^^^ f z = f (f^[m] z ^^^ z) := by rw [hf, Function.iterate_succ_apply']
  rw [e, ← Function.iterate_succ_apply, Nat.succ_eq_add_one, hret]

theorem xor_eq_zero {a b : W32} (h : a ^^^ b = 0#32) : a = b := by
  have := congrArg (· ^^^ b) h
  simpa [BitVec.xor_assoc] using this

/-- If four orbits with pairwise coprime periods always add up to zero, each is zero. -/
theorem split_zero (y1 y2 y3 y4 : W32) (N1 N2 N3 N4 : Nat)
    (p1 : step1^[N1] y1 = y1) (p2 : step2^[N2] y2 = y2) (p3 : step3^[N3] y3 = y3) (p4 : step4^[N4] y4 = y4)
    (c12 : Nat.Coprime N1 N2) (c13 : Nat.Coprime N1 N3) (c14 : Nat.Coprime N1 N4) (c23 : Nat.Coprime N2 N3)
    (c24 : Nat.Coprime N2 N4) (c34 : Nat.Coprime N3 N4)
    (h : ∀ n, step1^[n] y1 ^^^ step2^[n] y2 ^^^ step3^[n] y3 ^^^ step4^[n] y4 = 0#32) :
    y1 = 0#32 ∧ y2 = 0#32 ∧ y3 = 0#32 ∧ y4 = 0#32 := by
  have h0 := h 0
  simp only [Function.iterate_zero, id] at h0
  have n1 : y1 = 0#32 := by
    have hq := h (N2 * N3 * N4)
    rw [iterate_of_dvd p2 ⟨N3 * N4, by ring⟩, iterate_of_dvd p3 ⟨N2 * N4, by ring⟩, iterate_of_dvd p4 ⟨N2 * N3, by ring⟩] at hq
    have hy : step1^[N2 * N3 * N4] y1 = y1 := by
      have := hq.trans h0.symm
      simpa [BitVec.xor_assoc] using this
    exact nofix nofix1_2147483647 _ (fixed_of_coprime ((c12.mul_right c13).mul_right c14) p1 hy)
  have n2 : y2 = 0#32 := by
    have hq := h (N1 * N3 * N4)
    rw [iterate_of_dvd p1 ⟨N3 * N4, by ring⟩, iterate_of_dvd p3 ⟨N1 * N4, by ring⟩, iterate_of_dvd p4 ⟨N1 * N3, by ring⟩] at hq
    have hy : step2^[N1 * N3 * N4] y2 = y2 := by
      have := hq.trans h0.symm
      simpa [BitVec.xor_assoc] using this
    exact nofix nofix2_233 _ (fixed_of_coprime ((c12.symm.mul_right c23).mul_right c24) p2 hy)
  have n3 : y3 = 0#32 := by
    have hq := h (N1 * N2 * N4)
    rw [iterate_of_dvd p1 ⟨N2 * N4, by ring⟩, iterate_of_dvd p2 ⟨N1 * N4, by ring⟩, iterate_of_dvd p4 ⟨N1 * N2, by ring⟩] at hq
    have hy : step3^[N1 * N2 * N4] y3 = y3 := by
      have := hq.trans h0.symm
      simpa [BitVec.xor_assoc] using this
    exact nofix nofix3_3 _ (fixed_of_coprime ((c13.symm.mul_right c23.symm).mul_right c34) p3 hy)
  refine ⟨n1, n2, n3, ?_⟩
  rw [n1, n2, n3] at h0
  simpa using h0

/-- **C41**: the sequence of drawn numbers itself has exactly that period: it repeats after `m` draws only if `m` is a
multiple of `(2^31-1)(2^29-1)(2^28-1)(2^25-1)`. -/
theorem draw_period (st : State U32) (h : Live st) (m : Nat) :
    (∀ n, draw st (n + m) = draw st n) ↔ (2 ^ 31 - 1) * (2 ^ 29 - 1) * (2 ^ 28 - 1) * (2 ^ 25 - 1) ∣ m := by
  have hdraw : ∀ n, draw st n = step1^[n + 1] st.z1 ^^^ step2^[n + 1] st.z2 ^^^ step3^[n + 1] st.z3 ^^^ step4^[n + 1] st.z4 := by
    intro n
    rw [draw, randomU_value, next_iterate, Function.iterate_succ_apply', Function.iterate_succ_apply',
      Function.iterate_succ_apply', Function.iterate_succ_apply']
  constructor
  · intro hrep
    obtain ⟨z1, z2, z3, z4⟩ := split_zero _ _ _ _ 2147483647 536870911 268435455 33554431
      (diff_period lin1 st.z1 m _ return1) (diff_period lin2 st.z2 m _ return2) (diff_period lin3 st.z3 m _ return3)
      (diff_period lin4 st.z4 m _ return4) (by norm_num) (by norm_num) (by norm_num) (by norm_num) (by norm_num)
      (by norm_num) (fun n => by
        rw [← diff_iterate lin1, ← diff_iterate lin2, ← diff_iterate lin3, ← diff_iterate lin4]
        have hn := hrep n
        rw [hdraw, hdraw] at hn
        have := congrArg (· ^^^ (step1^[n + 1] st.z1 ^^^ step2^[n + 1] st.z2 ^^^ step3^[n + 1] st.z3 ^^^ step4^[n + 1] st.z4)) hn
        simp only [BitVec.xor_self] at this
        rw [← this]
        ac_rfl)
    have e : ∀ (f : W32 → W32) (z : W32), f^[m + 1] z ^^^ f z = 0#32 → f^[1 + m] z = f^[1] z := by
      intro f z hz
      rw [Nat.add_comm]
      exact xor_eq_zero hz
    obtain ⟨h1, h2, h3, h4⟩ := h
    rw [mul_dvd_iff cop3, mul_dvd_iff cop2, mul_dvd_iff cop1]
    exact ⟨⟨⟨(period1 _ h1 1 (by decide) m).1 (e _ _ z1), (period2 _ h2 1 (by decide) m).1 (e _ _ z2)⟩,
      (period3 _ h3 1 (by decide) m).1 (e _ _ z3)⟩, (period4 _ h4 1 (by decide) m).1 (e _ _ z4)⟩
  · intro hd n
    have := (state_period st h (n + 1) (by omega) m).2 hd
    rw [next_iterate, next_iterate, State.mk.injEq] at this
    rw [hdraw, hdraw, show n + m + 1 = n + 1 + m by omega, this.1, this.2.1, this.2.2.1, this.2.2.2]

/-! ### Seeds -/

/-- Non-vacuity: the state `seed_rng` makes from the seed 12345 is live, and so are those of the seeds 2 and 63. -/
example : Live (seedU 12345#32) ∧ Live (seedU 2#32) ∧ Live (seedU 63#32) := by decide

theorem iterate_dead {f : W32 → W32} (hf : Lin f) (z : W32) (h : f z = 0#32) (n : Nat) (hn : 0 < n) : f^[n] z = 0#32 := by
  obtain ⟨k, rfl⟩ : ∃ k, n = k + 1 := ⟨n - 1, by omega⟩
  rw [Function.iterate_succ_apply, h]
  exact (hf.iterate k).zero

/-- **C41**, refuted for the seed 0: three of the four words are dead from the start, so the numbers drawn are just the words
`z2` and repeat after `2^29 - 1` draws instead of about `2^113`.  (examples/cpu/aobench/ao.ispc:186 gives this
seed to instance 0 of the rows starting at 0.) -/
theorem seed_zero_short_period (n : Nat) :
    next^[n + 1] (seedU 0#32) = ⟨0#32, step2^[n + 1] 0xbeeff00d#32, 0#32, 0#32⟩ ∧
      draw (seedU 0#32) n = step2^[n + 1] 0xbeeff00d#32 ∧ draw (seedU 0#32) (n + (2 ^ 29 - 1)) = draw (seedU 0#32) n := by
  have hs : seedU 0#32 = ⟨0#32, 0xbeeff00d#32, 0#32, 0#32⟩ := by decide
  have hst : ∀ n, next^[n + 1] (seedU 0#32) = ⟨0#32, step2^[n + 1] 0xbeeff00d#32, 0#32, 0#32⟩ := by
    intro n
    rw [hs, next_iterate, iterate_dead lin1 _ lin1.zero _ (Nat.succ_pos n), iterate_dead lin3 _ lin3.zero _ (Nat.succ_pos n),
      iterate_dead lin4 _ lin4.zero _ (Nat.succ_pos n)]
  have hd : ∀ n, draw (seedU 0#32) n = step2^[n + 1] 0xbeeff00d#32 := by
    intro n
    have h1 := hst n
    rw [Function.iterate_succ_apply', next, randomU_state, State.mk.injEq] at h1
    rw [draw, randomU_value, h1.1, h1.2.1, h1.2.2.1, h1.2.2.2]
    simp
  refine ⟨hst n, hd n, ?_⟩
  rw [hd, hd, show n + (2 ^ 29 - 1) + 1 = n + 1 + (2 ^ 29 - 1) by omega]
  exact (period2 _ (by decide) (n + 1) (Nat.succ_pos n) _).2 (Nat.dvd_refl _)

end Ispc.RngPeriod

