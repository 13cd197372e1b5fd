import Verif.FloatBeta
import Verif.LnGammaModel
import Verif.LanczosProps

/-!
# Property C121: the logarithm of the gamma function with rounding

`lnGammaG` of `LnGammaModel.lean` runs here on rounded numbers without overflow and underflow.  The library functions are
parameters with stated errors.
-/

set_option linter.unusedSectionVars false

namespace Verif
namespace Special
open Rounding

/-- the sum of `ln_gamma` with the absolute values of the terms -/
noncomputable def dkAbs (z : ℝ) : ℝ :=
  2.48574089138753565546e-5 + 1.05142378581721974210 / z + 3.45687097222016235469 / (z + 1) + 4.51227709466894823700 / (z + 2) + 2.98285225323576655721 / (z + 3) + 1.05639711577126713077 / (z + 4) + 1.95428773191645869583e-1 / (z + 5) + 1.70970543404441224307e-2 / (z + 6) + 5.71926117404305781283e-4 / (z + 7) + 4.63399473359905636708e-6 / (z + 8) + 2.71994908488607703910e-9 / (z + 9)

theorem dkAbs_pos {z : ℝ} (hz : 0 < z) : 0 < dkAbs z := by unfold dkAbs; positivity

/-- the cancellation in the sum is at most a factor of 5000 -/
theorem dkAbs_le {z : ℝ} (hz : 1 / 2 ≤ z) : dkAbs z ≤ 5000 * dkVal z := by
  obtain ⟨y, hy, rfl⟩ : ∃ y, 0 ≤ y ∧ z = y + 1 / 2 := ⟨z - 1 / 2, by linarith, by ring⟩
  have h : 5000 * dkVal (y + 1 / 2) - dkAbs (y + 1 / 2) =
      (15570580459864319152808043718101852084825 * y ^ 0
        + 14176116531909787472929273023025142797890 * y ^ 1
        + 5766861823363152669838171068896442069904 * y ^ 2
        + 1368194994902444453817512961061695644768 * y ^ 3
        + 206053639608829347138813867025422515296 * y ^ 4
        + 19906765191625074607354601992671603392 * y ^ 5
        + 1166103855010941430552515887245125376 * y ^ 6
        + 34280900029501613990757813528008192 * y ^ 7
        + 198215278913028528739481871853824 * y ^ 8
        + 1633132975968770052352242590208 * y ^ 9
        + 636222398261570085972200448000 * y ^ 10) / (5120000000000000000000000000000 *
    ((y + 1 / 2) * (y + 1 / 2 + 1) * (y + 1 / 2 + 2) * (y + 1 / 2 + 3) * (y + 1 / 2 + 4) * (y + 1 / 2 + 5) * (y + 1 / 2 + 6) * (y + 1 / 2 + 7) * (y + 1 / 2 + 8) * (y + 1 / 2 + 9))) := by
    unfold dkVal dkAbs
    norm_num
    field_simp
    ring
  have h2 : 0 ≤ 5000 * dkVal (y + 1 / 2) - dkAbs (y + 1 / 2) := by
    rw [h]; positivity
  linarith

/-- and less for small arguments -/
theorem dkAbs_le_lin {z : ℝ} (hz : 1 / 2 ≤ z) : dkAbs z ≤ (10 + 170 * z) * dkVal z := by
  obtain ⟨y, hy, rfl⟩ : ∃ y, 0 ≤ y ∧ z = y + 1 / 2 := ⟨z - 1 / 2, by linarith, by ring⟩
  have h : (10 + 170 * (y + 1 / 2)) * dkVal (y + 1 / 2) - dkAbs (y + 1 / 2) =
      (136138357733585427546764542872972546600 * y ^ 0
        + 360377891378830642036435313455973953845 * y ^ 1
        + 249001249921564340162776967358137258042 * y ^ 2
        + 82460703668153725574985485246701570704 * y ^ 3
        + 15124995382995667502484163436252459488 * y ^ 4
        + 1531802972787505698733750000451722976 * y ^ 5
        + 71781159779251150056099811702802368 * y ^ 6
        + 645297329117584779810514941330176 * y ^ 7
        + 117339057793047998615302719759872 * y ^ 8
        + 24910042574823020289038437025024 * y ^ 9
        + 1189128398111326411188299143680 * y ^ 10
        + 10817944359318555172561920000 * y ^ 11) / (2560000000000000000000000000000 *
    ((y + 1 / 2) * (y + 1 / 2 + 1) * (y + 1 / 2 + 2) * (y + 1 / 2 + 3) * (y + 1 / 2 + 4) * (y + 1 / 2 + 5) * (y + 1 / 2 + 6) * (y + 1 / 2 + 7) * (y + 1 / 2 + 8) * (y + 1 / 2 + 9))) := by
    unfold dkVal dkAbs
    norm_num
    field_simp
    ring
  have h2 : 0 ≤ (10 + 170 * (y + 1 / 2)) * dkVal (y + 1 / 2) - dkAbs (y + 1 / 2) := by
    rw [h]; positivity
  linarith

/-- the sum does not get small -/
theorem dkVal_ge {z : ℝ} (hz : 1 / 2 ≤ z) : 24 / 1000000 ≤ dkVal z := by
  obtain ⟨y, hy, rfl⟩ : ∃ y, 0 ≤ y ∧ z = y + 1 / 2 := ⟨z - 1 / 2, by linarith, by ring⟩
  have h : dkVal (y + 1 / 2) - 24 / 1000000 =
      (3118841665823364586690013176830969825 * y ^ 0
        + 2850954737690520727542039681177259890 * y ^ 1
        + 1172477621444449768235425867478145104 * y ^ 2
        + 285543384873485639809900996542217568 * y ^ 3
        + 45546636794272491519169971369030496 * y ^ 4
        + 4956298407656755712160244062080192 * y ^ 5
        + 369794084299059653722233996818176 * y ^ 6
        + 18340251910072698382042112763392 * y ^ 7
        + 551896312342363151163310010624 * y ^ 8
        + 7775373073297546416317649408 * y ^ 9
        + 4389933639041825559552000 * y ^ 10) / (5120000000000000000000000000000 *
    ((y + 1 / 2) * (y + 1 / 2 + 1) * (y + 1 / 2 + 2) * (y + 1 / 2 + 3) * (y + 1 / 2 + 4) * (y + 1 / 2 + 5) * (y + 1 / 2 + 6) * (y + 1 / 2 + 7) * (y + 1 / 2 + 8) * (y + 1 / 2 + 9))) := by
    unfold dkVal
    norm_num
    field_simp
    ring
  have h2 : 0 ≤ dkVal (y + 1 / 2) - 24 / 1000000 := by
    rw [h]; positivity
  linarith

theorem dkVal_le {z : ℝ} (hz : 1 / 2 ≤ z) : dkVal z ≤ 8 := by
  have key : ∀ {c k : ℝ}, 0 ≤ c → 0 ≤ k → c / (z + k) ≤ c / (1 / 2 + k) := fun hc hk =>
    div_le_div_of_nonneg_left hc (by linarith) (by linarith)
  have key' : ∀ {c k : ℝ}, 0 ≤ c → 0 ≤ k → -c / (z + k) ≤ 0 := fun hc hk =>
    div_nonpos_of_nonpos_of_nonneg (by linarith) (by linarith)
  have h0 := key (c := 1.05142378581721974210) (k := 0) (by norm_num) le_rfl
  rw [add_zero, add_zero] at h0
  have h2 := key' (c := 3.45687097222016235469) (k := 1) (by norm_num) (by norm_num)
  have h3 := key (c := 4.51227709466894823700) (k := 2) (by norm_num) (by norm_num)
  have h4 := key' (c := 2.98285225323576655721) (k := 3) (by norm_num) (by norm_num)
  have h5 := key (c := 1.05639711577126713077) (k := 4) (by norm_num) (by norm_num)
  have h6 := key' (c := 1.95428773191645869583e-1) (k := 5) (by norm_num) (by norm_num)
  have h7 := key (c := 1.70970543404441224307e-2) (k := 6) (by norm_num) (by norm_num)
  have h8 := key' (c := 5.71926117404305781283e-4) (k := 7) (by norm_num) (by norm_num)
  have h9 := key (c := 4.63399473359905636708e-6) (k := 8) (by norm_num) (by norm_num)
  have h10 := key' (c := 2.71994908488607703910e-9) (k := 9) (by norm_num) (by norm_num)
  unfold dkVal
  norm_num at *
  linarith

theorem dkVal_log {z : ℝ} (hz : 1 / 2 ≤ z) : |Real.log (dkVal z)| ≤ 11 := by
  have h1 := dkVal_ge hz
  have h2 := dkVal_le hz
  have h0 : 0 < dkVal z := by linarith
  have h3 : Real.exp (-11) ≤ 24 / 1000000 := by
    rw [Real.exp_neg]
    have : (42000 : ℝ) ≤ Real.exp 11 := by
      have e := Real.exp_one_gt_d9
      rw [show (11 : ℝ) = ((11 : ℕ) : ℝ) * 1 by norm_num, Real.exp_nat_mul]
      refine le_trans ?_ (pow_le_pow_left₀ (by norm_num) e.le 11)
      norm_num
    refine (inv_anti₀ (by norm_num) this).trans (by norm_num)
  rw [abs_le]
  constructor
  · rw [Real.le_log_iff_exp_le h0]; linarith
  · have := Real.log_le_sub_one_of_pos h0
    linarith

section Fl
variable {R : Rounding ℝ}

theorem mul_u_le_gam (R : Rounding ℝ) (n : ℕ) : n * R.u ≤ R.gam n := by
  have := one_add_mul_le_pow (by linarith [R.u_nonneg] : -2 ≤ R.u) n
  unfold Rounding.gam
  linarith

theorem quot_dk (hu : R.u ≤ 1e-4) {d D : ℝ} (hd : LC (11 * R.u) d D) {c : ℝ} (hc : 0 < c) :
    |R.rnd c / d - c / D| ≤ 12.2 * R.u * (c / D) := by
  have h0 := R.u_nonneg
  have hu' : R.u ≤ 1 / 10000 := by norm_num at hu ⊢; linarith
  have h1 := ((LC.lit (R := R) (c := c) (by linarith) hc).div hd)
  refine (h1.abs_sub_le (by linarith)).trans (mul_le_mul_of_nonneg_right ?_ (div_pos hc hd.2.1).le)
  norm_num
  nlinarith

/-- a term of the sum -/
theorem term_dk_aux (hu : R.u ≤ 1e-4) {q p P : ℝ} (h : |q - p| ≤ 12.2 * R.u * P) (hp : |p| ≤ P) {m : ℕ} (hm : 14 ≤ m) :
    |R.rnd q - p| ≤ R.gam m * P := by
  have h0 := R.u_nonneg
  have hu' : R.u ≤ 1 / 10000 := by norm_num at hu ⊢; linarith
  have hP : 0 ≤ P := (abs_nonneg _).trans hp
  have h1 := R.rnd_near h
  have h2 := mul_le_mul_of_nonneg_left hp h0
  have h3 := mul_u_le_gam R m
  have h4 : (14 : ℝ) ≤ m := by exact_mod_cast hm
  have h5 : 14 * R.u * P ≤ R.gam m * P :=
    mul_le_mul_of_nonneg_right ((mul_le_mul_of_nonneg_right h4 h0).trans h3) hP
  have h6 : 0 ≤ R.u * P := mul_nonneg h0 hP
  have h7 : R.u * (R.u * P) ≤ 1 / 10000 * (R.u * P) := mul_le_mul_of_nonneg_right hu' h6
  norm_num at h1
  nlinarith

theorem term_dk (hu : R.u ≤ 1e-4) {d D : ℝ} (hd : LC (11 * R.u) d D) {c : ℝ} (hc : 0 < c) {m : ℕ} (hm : 14 ≤ m) :
    |R.rnd (R.rnd c / d) - c / D| ≤ R.gam m * (c / D) ∧ |c / D| ≤ c / D := by
  have h := (abs_of_pos (div_pos hc hd.2.1)).le
  exact ⟨term_dk_aux hu (quot_dk hu hd hc) h hm, h⟩

theorem term_dk_neg (hu : R.u ≤ 1e-4) {d D : ℝ} (hd : LC (11 * R.u) d D) {c : ℝ} (hc : 0 < c) {m : ℕ} (hm : 14 ≤ m) :
    |R.rnd (-R.rnd c / d) - -c / D| ≤ R.gam m * (c / D) ∧ |-c / D| ≤ c / D := by
  have h : |-c / D| ≤ c / D := by rw [neg_div, abs_neg]; exact (abs_of_pos (div_pos hc hd.2.1)).le
  refine ⟨term_dk_aux hu ?_ h hm, h⟩
  rw [neg_div, neg_div, neg_sub_neg, abs_sub_comm]
  exact quot_dk hu hd hc

/-- the sum with rounding, for denominators with small relative errors -/
theorem dkSum_fl (hu : R.u ≤ 1e-4) {den : ℕ → Fl R} {z : ℝ}
    (hd : ∀ i : ℕ, 1 ≤ i → i ≤ 10 → LC (11 * R.u) (den i).val (z + ((i : ℝ) - 1))) :
    ∃ s : Fl R, dkSumG (fun a b => some (a / b)) den = some s ∧ |s.val - dkVal z| ≤ R.gam 24 * dkAbs z := by
  have hd' : ∀ i : ℕ, 1 ≤ i → i ≤ 10 → LC (11 * R.u) (den i).val (z + ((i : ℝ) - 1)) := hd
  have h0 : |R.rnd 2.48574089138753565546e-5 - 2.48574089138753565546e-5| ≤ R.gam 14 * 2.48574089138753565546e-5 ∧ |(2.48574089138753565546e-5 : ℝ)| ≤ 2.48574089138753565546e-5 :=
    ⟨((Near.of_rnd (by norm_num at hu; linarith) (by norm_num)).mono (by omega)).abs_sub_le, (abs_of_nonneg (by norm_num)).le⟩
  have t1 := term_dk hu (hd' 1 (by norm_num) (by norm_num)) (c := 1.05142378581721974210) (by norm_num) (m := 14) (by omega)
  have a1 := acc h0.1 t1.1 h0.2 t1.2
  have t2 := term_dk_neg hu (hd' 2 (by norm_num) (by norm_num)) (c := 3.45687097222016235469) (by norm_num) (m := 15) (by omega)
  have a2 := acc a1.1 t2.1 a1.2 t2.2
  have t3 := term_dk hu (hd' 3 (by norm_num) (by norm_num)) (c := 4.51227709466894823700) (by norm_num) (m := 16) (by omega)
  have a3 := acc a2.1 t3.1 a2.2 t3.2
  have t4 := term_dk_neg hu (hd' 4 (by norm_num) (by norm_num)) (c := 2.98285225323576655721) (by norm_num) (m := 17) (by omega)
  have a4 := acc a3.1 t4.1 a3.2 t4.2
  have t5 := term_dk hu (hd' 5 (by norm_num) (by norm_num)) (c := 1.05639711577126713077) (by norm_num) (m := 18) (by omega)
  have a5 := acc a4.1 t5.1 a4.2 t5.2
  have t6 := term_dk_neg hu (hd' 6 (by norm_num) (by norm_num)) (c := 1.95428773191645869583e-1) (by norm_num) (m := 19) (by omega)
  have a6 := acc a5.1 t6.1 a5.2 t6.2
  have t7 := term_dk hu (hd' 7 (by norm_num) (by norm_num)) (c := 1.70970543404441224307e-2) (by norm_num) (m := 20) (by omega)
  have a7 := acc a6.1 t7.1 a6.2 t7.2
  have t8 := term_dk_neg hu (hd' 8 (by norm_num) (by norm_num)) (c := 5.71926117404305781283e-4) (by norm_num) (m := 21) (by omega)
  have a8 := acc a7.1 t8.1 a7.2 t8.2
  have t9 := term_dk hu (hd' 9 (by norm_num) (by norm_num)) (c := 4.63399473359905636708e-6) (by norm_num) (m := 22) (by omega)
  have a9 := acc a8.1 t9.1 a8.2 t9.2
  have t10 := term_dk_neg hu (hd' 10 (by norm_num) (by norm_num)) (c := 2.71994908488607703910e-9) (by norm_num) (m := 23) (by omega)
  have a10 := acc a9.1 t10.1 a9.2 t10.2
  refine ⟨_, rfl, ?_⟩
  have e := a10.1
  have e1 : dkVal z = 2.48574089138753565546e-5 + 1.05142378581721974210 / (z + (((1 : ℕ) : ℝ) - 1)) + -3.45687097222016235469 / (z + (((2 : ℕ) : ℝ) - 1)) + 4.51227709466894823700 / (z + (((3 : ℕ) : ℝ) - 1)) + -2.98285225323576655721 / (z + (((4 : ℕ) : ℝ) - 1)) + 1.05639711577126713077 / (z + (((5 : ℕ) : ℝ) - 1)) + -1.95428773191645869583e-1 / (z + (((6 : ℕ) : ℝ) - 1)) + 1.70970543404441224307e-2 / (z + (((7 : ℕ) : ℝ) - 1)) + -5.71926117404305781283e-4 / (z + (((8 : ℕ) : ℝ) - 1)) + 4.63399473359905636708e-6 / (z + (((9 : ℕ) : ℝ) - 1)) + -2.71994908488607703910e-9 / (z + (((10 : ℕ) : ℝ) - 1)) := by
    unfold dkVal
    norm_num
  have e2 : dkAbs z = 2.48574089138753565546e-5 + 1.05142378581721974210 / (z + (((1 : ℕ) : ℝ) - 1)) + 3.45687097222016235469 / (z + (((2 : ℕ) : ℝ) - 1)) + 4.51227709466894823700 / (z + (((3 : ℕ) : ℝ) - 1)) + 2.98285225323576655721 / (z + (((4 : ℕ) : ℝ) - 1)) + 1.05639711577126713077 / (z + (((5 : ℕ) : ℝ) - 1)) + 1.95428773191645869583e-1 / (z + (((6 : ℕ) : ℝ) - 1)) + 1.70970543404441224307e-2 / (z + (((7 : ℕ) : ℝ) - 1)) + 5.71926117404305781283e-4 / (z + (((8 : ℕ) : ℝ) - 1)) + 4.63399473359905636708e-6 / (z + (((9 : ℕ) : ℝ) - 1)) + 2.71994908488607703910e-9 / (z + (((10 : ℕ) : ℝ) - 1)) := by
    unfold dkAbs
    norm_num
  rw [e1, e2]
  exact e

/-- the sum, relative: `κ` bounds the cancellation -/
theorem dkSum_lc (hu : R.u ≤ 1e-7) {den : ℕ → Fl R} {z κ : ℝ} (hz : 1 / 2 ≤ z)
    (hd : ∀ i : ℕ, 1 ≤ i → i ≤ 10 → LC (11 * R.u) (den i).val (z + ((i : ℝ) - 1))) (hκ : dkAbs z ≤ κ * dkVal z) (hκ' : κ ≤ 5000) :
    ∃ s : Fl R, dkSumG (fun a b => some (a / b)) den = some s ∧ LC (28 * κ * R.u) s.val (dkVal z) := by
  have h0 := R.u_nonneg
  have hu7 : R.u ≤ 1 / 10000000 := by norm_num at hu ⊢; linarith
  obtain ⟨s, e, h⟩ := dkSum_fl (by norm_num; linarith : R.u ≤ 1e-4) hd
  refine ⟨s, e, ?_⟩
  have hS : 0 < dkVal z := dkVal_pos (by linarith)
  have hA := dkAbs_pos (z := z) (by linarith)
  have hκ0 : 0 < κ := pos_of_mul_pos_left (hA.trans_le hκ) hS.le
  have g : R.gam 24 ≤ 25 * R.u := by
    have h1 : (1 + R.u) ^ 24 ≤ Real.exp (24 * R.u) := by
      have := pow_le_pow_left₀ (by linarith) (by linarith [Real.add_one_le_exp R.u] : 1 + R.u ≤ Real.exp R.u) 24
      rwa [← Real.exp_nat_mul] at this
    have h2 := (abs_le.1 (Real.abs_exp_sub_one_sub_id_le (x := 24 * R.u) (by
      rw [abs_of_nonneg (by linarith)]; linarith))).2
    unfold Rounding.gam
    nlinarith
  have hb : |s.val - dkVal z| ≤ 25 * κ * R.u * dkVal z := by
    refine h.trans ((mul_le_mul g hκ hA.le (by linarith)).trans (le_of_eq (by ring)))
  have hκu : κ * R.u ≤ 5000 * (1 / 10000000) := mul_le_mul hκ' hu7 h0 (by norm_num)
  have hκu0 : 0 ≤ κ * R.u := by positivity
  refine (LC.of_abs hS (by positivity) (by linarith) hb).mono ?_
  linarith

/-- The library functions: relative errors of at most `φ`, and rounded constants. -/
structure LnGammaLib (R : Rounding ℝ) (φ : ℝ) (ln : Fl R → Fl R) (pi e : Fl R) (sin : Fl R → Fl R) (pow : Fl R → Fl R → Fl R) :
    Prop where
  nonneg : 0 ≤ φ
  small : φ ≤ 1 / 10
  pi_eq : pi.val = R.rnd Real.pi
  e_eq : e.val = R.rnd (Real.exp 1)
  ln_le : ∀ x : Fl R, 0 < x.val → |(ln x).val - Real.log x.val| ≤ φ * |Real.log x.val|
  sin_le : ∀ x : Fl R, 0 < x.val → x.val < 2 →
    (sin x).val ≤ (1 + φ) * Real.sin x.val ∧ Real.sin x.val ≤ (1 + φ) * (sin x).val
  pow_le : ∀ x y : Fl R, 0 < x.val →
    (pow x y).val ≤ (1 + φ) * x.val ^ y.val ∧ x.val ^ y.val ≤ (1 + φ) * (pow x y).val

variable {φ : ℝ} {ln : Fl R → Fl R} {pi e : Fl R} {sin : Fl R → Fl R} {pow : Fl R → Fl R → Fl R}

theorem LnGammaLib.ln_lc (L : LnGammaLib R φ ln pi e sin pow) {ε b : ℝ} {a : Fl R} (h : LC ε a.val b) :
    |(ln a).val - Real.log b| ≤ ε + φ * (|Real.log b| + ε) := by
  have h1 := L.ln_le a h.1
  have h2 := h.2.2
  have h3 : |Real.log a.val| ≤ |Real.log b| + ε := by
    have := abs_sub_abs_le_abs_sub (Real.log a.val) (Real.log b)
    linarith
  have h4 := mul_le_mul_of_nonneg_left h3 L.nonneg
  have := abs_sub_le (ln a).val (Real.log a.val) (Real.log b)
  linarith

theorem lit_half (h2 : R.rnd (1 / 2) = 1 / 2) : (0.5 : Fl R).val = 1 / 2 := by
  show R.rnd 0.5 = 1 / 2
  rw [show (0.5 : ℝ) = 1 / 2 by norm_num, h2]

/-- the constant `ln (2 √(e/π))` -/
theorem l3_fl (L : LnGammaLib R φ ln pi e sin pow) (hu : R.u ≤ 1e-7) (h2 : R.rnd (1 / 2) = 1 / 2) :
    |(ln (2.0 * pow (e / pi) 0.5)).val - Real.log (2 * (Real.exp 1 / Real.pi) ^ (0.5 : ℝ))| ≤ 3 * φ + 7 * R.u ∧
      |Real.log (2 * (Real.exp 1 / Real.pi) ^ (0.5 : ℝ))| ≤ 1 := by
  have h0 := R.u_nonneg
  have hu7 : R.u ≤ 1 / 10000000 := by norm_num at hu ⊢; linarith
  have hu' : R.u < 1 := by linarith
  have hφ := L.nonneg
  have hφ1 := L.small
  have le : LC R.u e.val (Real.exp 1) := by rw [L.e_eq]; exact LC.lit hu' (Real.exp_pos 1)
  have lp : LC R.u pi.val Real.pi := by rw [L.pi_eq]; exact LC.lit hu' Real.pi_pos
  have lq : LC (3 * R.u) (e / pi).val (Real.exp 1 / Real.pi) := LC.mono ((le.div lp).rnd hu') (by linarith)
  have hh : (0.5 : Fl R).val = 1 / 2 := lit_half h2
  have lw : LC (φ + 3 * R.u) (pow (e / pi) 0.5).val ((Real.exp 1 / Real.pi) ^ (0.5 : ℝ)) := by
    have p := L.pow_le (e / pi) 0.5 lq.1
    refine (LC.of_rel hφ (Real.rpow_pos_of_pos lq.1 _) p.1 p.2).trans (((lq.rpow (c := (0.5 : Fl R).val) (d := 0.5) (δ := 0)
      (by rw [hh]; norm_num))).mono ?_)
    rw [hh, abs_of_pos (by norm_num)]
    linarith
  have l2 : LC (φ + 5 * R.u) (2.0 * pow (e / pi) 0.5 : Fl R).val (2 * (Real.exp 1 / Real.pi) ^ (0.5 : ℝ)) :=
    LC.mono (((two_lc hu').mul lw).rnd hu') (by linarith)
  have hc : |Real.log (2 * (Real.exp 1 / Real.pi) ^ (0.5 : ℝ))| ≤ 1 := by
    have e1 := Real.exp_one_gt_d9
    have e2 := Real.exp_one_lt_d9
    have p1 := Real.pi_gt_d2
    have p2 := Real.pi_lt_d2
    have hq : Real.exp 1 / Real.pi ≤ 1 := by
      rw [div_le_one Real.pi_pos]; norm_num at *; linarith
    have hq2 : 1 / 4 ≤ Real.exp 1 / Real.pi := by
      rw [le_div_iff₀ Real.pi_pos]; norm_num at *; linarith
    have hs : (Real.exp 1 / Real.pi) ^ (0.5 : ℝ) = Real.sqrt (Real.exp 1 / Real.pi) := by
      rw [Real.sqrt_eq_rpow]; norm_num
    have s1 : Real.sqrt (Real.exp 1 / Real.pi) ≤ 1 := Real.sqrt_le_one.2 hq
    have s2 : 1 / 2 ≤ Real.sqrt (Real.exp 1 / Real.pi) := Real.le_sqrt_of_sq_le (by norm_num at hq2 ⊢; linarith)
    rw [hs, abs_of_nonneg (Real.log_nonneg (by linarith))]
    have := Real.log_le_sub_one_of_pos (x := 2 * Real.sqrt (Real.exp 1 / Real.pi)) (by linarith)
    linarith
  refine ⟨(L.ln_lc l2).trans ?_, hc⟩
  have h3 : φ * (|Real.log (2 * (Real.exp 1 / Real.pi) ^ (0.5 : ℝ))| + (φ + 5 * R.u)) ≤ φ * 2 :=
    mul_le_mul_of_nonneg_left (by linarith) hφ
  linarith

/-- the last product `y ln ((y + 10.900511) / e)` -/
theorem prod_fl (L : LnGammaLib R φ ln pi e sin pow) (hu : R.u ≤ 1e-7) {y : ℝ} {y' : Fl R} (hy : 0 ≤ y)
    (hy' : |y'.val - y| ≤ R.u * y) :
    0 ≤ Real.log ((y + 10.900511) / Real.exp 1) ∧
    |(y' * ln ((y' + 10.900511) / e)).val - y * Real.log ((y + 10.900511) / Real.exp 1)| ≤
      y * ((2 * φ + 3 * R.u) * Real.log ((y + 10.900511) / Real.exp 1) + 8 * R.u) := by
  have h0 := R.u_nonneg
  have hu7 : R.u ≤ 1 / 10000000 := by norm_num at hu ⊢; linarith
  have hu' : R.u < 1 := by linarith
  have hφ := L.nonneg
  have hφ1 := L.small
  have le : LC R.u e.val (Real.exp 1) := by rw [L.e_eq]; exact LC.lit hu' (Real.exp_pos 1)
  set T := y + 10.900511 with hT
  have hT0 : 10 ≤ T := by rw [hT]; norm_num; linarith
  have a1 : |y'.val + R.rnd 10.900511 - T| ≤ R.u * T := by
    have := R.err 10.900511
    rw [abs_of_pos (by norm_num : (0 : ℝ) < 10.900511)] at this
    rw [hT, add_sub_add_comm, mul_add]
    exact (abs_add_le _ _).trans (add_le_add hy' this)
  have a2 := R.rnd_near a1
  rw [abs_of_pos (by linarith : 0 < T)] at a2
  have a3 : |(y' + 10.900511 : Fl R).val - T| ≤ 3 * R.u * T := by
    refine LE.le.trans a2 ?_
    have : R.u * (R.u * T) ≤ 1 * (R.u * T) := mul_le_mul_of_nonneg_right hu'.le (by positivity)
    linarith
  have l1 : LC (4 * R.u) (y' + 10.900511 : Fl R).val T := (LC.of_abs (by linarith) (by linarith) (by linarith) a3).mono (by linarith)
  have l2 : LC (6 * R.u) ((y' + 10.900511) / e : Fl R).val (T / Real.exp 1) := LC.mono ((l1.div le).rnd hu') (by linarith)
  have hW : 0 ≤ Real.log (T / Real.exp 1) := by
    refine Real.log_nonneg ?_
    rw [le_div_iff₀ (Real.exp_pos 1)]
    linarith [Real.exp_one_lt_three]
  refine ⟨hW, ?_⟩
  have a4 := L.ln_lc l2
  rw [abs_of_nonneg hW] at a4
  set W := Real.log (T / Real.exp 1) with hWd
  set l := (ln ((y' + 10.900511) / e)).val with hl
  have b1 : |l - W| ≤ φ * W + 7 * R.u := by
    refine a4.trans ?_
    have : φ * (6 * R.u) ≤ 1 / 10 * (6 * R.u) := mul_le_mul_of_nonneg_right hφ1 (by linarith)
    linarith
  have hφW : φ * W ≤ 1 / 10 * W := mul_le_mul_of_nonneg_right hφ1 hW
  have b2 : |l| ≤ 2 * W + 1 := by
    have := abs_sub_abs_le_abs_sub l W
    rw [abs_of_nonneg hW] at this
    linarith
  have b3 : |y'.val * l - y * W| ≤ R.u * y * (1.2 * W + 1e-3) + y * (φ * W + 7 * R.u) := by
    have b2' : |l| ≤ 1.2 * W + 1e-3 := by
      have := abs_sub_abs_le_abs_sub l W
      rw [abs_of_nonneg hW] at this
      norm_num
      linarith
    rw [show y'.val * l - y * W = (y'.val - y) * l + y * (l - W) by ring]
    refine (abs_add_le _ _).trans ?_
    rw [abs_mul, abs_mul, abs_of_nonneg hy]
    exact add_le_add (mul_le_mul hy' b2' (abs_nonneg _) (by positivity)) (mul_le_mul_of_nonneg_left b1 hy)
  have b4 := R.rnd_near b3
  rw [abs_of_nonneg (mul_nonneg hy hW)] at b4
  refine LE.le.trans b4 ?_
  have p1 : 0 ≤ y * W := mul_nonneg hy hW
  have p2 : 0 ≤ R.u * (y * W) := mul_nonneg h0 p1
  have p3 : 0 ≤ R.u * y := mul_nonneg h0 hy
  have p4 : 0 ≤ φ * (y * W) := mul_nonneg hφ p1
  have q1 : R.u * (R.u * (y * W)) ≤ 1 / 10000000 * (R.u * (y * W)) := mul_le_mul_of_nonneg_right hu7 p2
  have q2 : R.u * (R.u * y) ≤ 1 / 10000000 * (R.u * y) := mul_le_mul_of_nonneg_right hu7 p3
  have q3 : R.u * (φ * (y * W)) ≤ 1 / 10000000 * (φ * (y * W)) := mul_le_mul_of_nonneg_right hu7 p4
  norm_num
  nlinarith

set_option maxHeartbeats 1000000 in
/-- **C121** (`/repo/src/special/gamma.rs:317-329`, `ln_gamma` for arguments from ½ on, with rounding): the error is at most
`2e-17` of the formula, `29 κ u` of the sum, where `κ = min(10 + 170 x, 5000)` bounds the cancellation in it, and the errors of
the other operations, which grow with `x log x`. -/
theorem C121_ln_gamma (L : LnGammaLib R φ ln pi e sin pow) (hu : R.u ≤ 1e-7) (h1 : R.rnd 1 = 1) (h2 : R.rnd (1 / 2) = 1 / 2)
    {x : Fl R} (hx : 1 / 2 ≤ x.val) :
    ∃ v : Fl R, lnGammaG (fun a b => some (a / b)) (fun a => some (ln a)) pi e sin pow x = some v ∧
      |v.val - Real.log (Real.Gamma x.val)| ≤ 2e-17 + (29 * min (10 + 170 * x.val) 5000 + 40) * R.u + 16 * φ
        + (x.val - 1 / 2) * ((3 * φ + 5 * R.u) * Real.log ((x.val - 1 / 2 + 10.900511) / Real.exp 1) + 9 * R.u) := by
  have h0 := R.u_nonneg
  have hu7 : R.u ≤ 1 / 10000000 := by norm_num at hu ⊢; linarith
  have hu' : R.u < 1 := by linarith
  have hφ := L.nonneg
  have hφ1 := L.small
  have half : (0.5 : Fl R).val = 1 / 2 := lit_half h2
  have one : (1.0 : Fl R).val = 1 := by
    show R.rnd 1.0 = 1
    rw [show (1.0 : ℝ) = 1 by norm_num, h1]
  set κ := min (10 + 170 * x.val) 5000 with hκd
  have hκ0 : 0 ≤ κ := le_min (by linarith) (by norm_num)
  have hκ : dkAbs x.val ≤ κ * dkVal x.val := by
    rcases min_choice (10 + 170 * x.val) 5000 with h | h
    · rw [hκd, h]; exact dkAbs_le_lin hx
    · rw [hκd, h]; exact dkAbs_le hx
  have hd : ∀ i : ℕ, 1 ≤ i → i ≤ 10 → LC (11 * R.u) (x + (i : Fl R) - 1.0).val (x.val + ((i : ℝ) - 1)) := by
    intro i hi _
    have hi' : (1 : ℝ) ≤ i := by exact_mod_cast hi
    set D := x.val + ((i : ℝ) - 1) with hD
    have hD0 : 1 / 2 ≤ D := by linarith
    have d1 : |x.val + R.rnd (i : ℝ) - (D + 1)| ≤ R.u * (D + 1 / 2) := by
      rw [show x.val + R.rnd (i : ℝ) - (D + 1) = R.rnd (i : ℝ) - i by rw [hD]; ring]
      have := R.err (i : ℝ)
      rw [abs_of_pos (show (0 : ℝ) < i by linarith)] at this
      exact this.trans (mul_le_mul_of_nonneg_left (by linarith) h0)
    have d2 := R.rnd_near d1
    rw [abs_of_pos (by linarith : 0 < D + 1)] at d2
    have d3 : |R.rnd (x.val + R.rnd (i : ℝ)) - (1.0 : Fl R).val - D| ≤ 2.01 * R.u * (D + 1) := by
      rw [one, sub_sub, add_comm 1 D]
      refine d2.trans ?_
      have : R.u * (R.u * (D + 1 / 2)) ≤ 1 / 10000000 * (R.u * (D + 1 / 2)) := mul_le_mul_of_nonneg_right hu7 (by positivity)
      norm_num
      nlinarith
    have d4 := R.rnd_near d3
    rw [abs_of_pos (by linarith : 0 < D)] at d4
    have d5 : |(x + (i : Fl R) - 1.0).val - D| ≤ 8 * R.u * D := by
      refine LE.le.trans d4 ?_
      have p1 : 0 ≤ R.u * D := by positivity
      have p2 : R.u * 1 ≤ R.u * (2 * D) := mul_le_mul_of_nonneg_left (by linarith) h0
      have p3 : R.u * (R.u * (D + 1)) ≤ 1 / 10000000 * (R.u * (D + 1)) := mul_le_mul_of_nonneg_right hu7 (by positivity)
      norm_num
      nlinarith
    exact (LC.of_abs (by linarith) (by linarith) (by linarith) d5).mono (by linarith)
  obtain ⟨s, es, ls⟩ := dkSum_lc hu hx hd hκ (min_le_right _ _)
  have hκu : κ * R.u ≤ 5000 * (1 / 10000000) := mul_le_mul (min_le_right _ _) hu7 h0 (by norm_num)
  have hκu0 : 0 ≤ κ * R.u := by positivity
  have hS := dkVal_log hx
  have b2 : |(ln s).val - Real.log (dkVal x.val)| ≤ 28 * (κ * R.u) + 12 * φ := by
    refine (L.ln_lc ls).trans ?_
    have : φ * (|Real.log (dkVal x.val)| + 28 * κ * R.u) ≤ φ * 12 := mul_le_mul_of_nonneg_left (by linarith) hφ
    linarith
  obtain ⟨b3, c3⟩ := l3_fl L hu h2
  have hy' : |(x - 0.5 : Fl R).val - (x.val - 1 / 2)| ≤ R.u * (x.val - 1 / 2) := by
    show |R.rnd (x.val - (0.5 : Fl R).val) - _| ≤ _
    rw [half]
    have := R.err (x.val - 1 / 2)
    rwa [abs_of_nonneg (show 0 ≤ x.val - 1 / 2 by linarith)] at this
  obtain ⟨hW, b4⟩ := prod_fl L hu (by linarith : 0 ≤ x.val - 1 / 2) hy'
  refine ⟨ln s + ln (2.0 * pow (e / pi) 0.5) + (x - 0.5) * ln ((x - 0.5 + 10.900511) / e), ?_, ?_⟩
  · unfold lnGammaG
    rw [if_neg (by rw [not_lt, Fl.le_iff, half]; exact hx), es]
    rfl
  set l2 := Real.log (dkVal x.val)
  set l3 := Real.log (2 * (Real.exp 1 / Real.pi) ^ (0.5 : ℝ)) with hl3
  set y := x.val - 1 / 2 with hy
  set W := Real.log ((y + 10.900511) / Real.exp 1) with hWd
  have hy0 : 0 ≤ y := by rw [hy]; linarith
  set p := ((x - 0.5) * ln ((x - 0.5 + 10.900511) / e)).val
  have m1 : |(ln s).val + (ln (2.0 * pow (e / pi) 0.5)).val - (l2 + l3)| ≤ 28 * (κ * R.u) + 15 * φ + 7 * R.u := by
    rw [add_sub_add_comm]
    exact (abs_add_le _ _).trans (by linarith)
  have m2 := R.rnd_near m1
  have n1 : |l2 + l3| ≤ 12 := (abs_add_le _ _).trans (by linarith)
  have n1' := mul_le_mul_of_nonneg_left n1 h0
  have m3 : |R.rnd ((ln s).val + (ln (2.0 * pow (e / pi) 0.5)).val) + p - (l2 + l3 + y * W)| ≤
      ((1 + R.u) * (28 * (κ * R.u) + 15 * φ + 7 * R.u) + R.u * 12) + y * ((2 * φ + 3 * R.u) * W + 8 * R.u) := by
    rw [add_sub_add_comm]
    exact (abs_add_le _ _).trans (add_le_add (by linarith) b4)
  have m4 := R.rnd_near m3
  have n2 : |l2 + l3 + y * W| ≤ 12 + y * W := by
    refine (abs_add_le _ _).trans ?_
    rw [abs_of_nonneg (mul_nonneg hy0 hW)]
    linarith
  have n2' := mul_le_mul_of_nonneg_left n2 h0
  have m5 : |(ln s + ln (2.0 * pow (e / pi) 0.5) + (x - 0.5) * ln ((x - 0.5 + 10.900511) / e)).val - (l2 + l3 + y * W)| ≤
      (29 * κ + 40) * R.u + 16 * φ + y * ((3 * φ + 5 * R.u) * W + 9 * R.u) := by
    refine LE.le.trans m4 ?_
    have p1 : 0 ≤ y * W := mul_nonneg hy0 hW
    have p2 : 0 ≤ R.u * (y * W) := mul_nonneg h0 p1
    have p3 : 0 ≤ R.u * y := mul_nonneg h0 hy0
    have p4 : 0 ≤ φ * (y * W) := mul_nonneg hφ p1
    have q1 : R.u * (R.u * (y * W)) ≤ 1 / 10000000 * (R.u * (y * W)) := mul_le_mul_of_nonneg_right hu7 p2
    have q2 : R.u * (R.u * y) ≤ 1 / 10000000 * (R.u * y) := mul_le_mul_of_nonneg_right hu7 p3
    have q3 : R.u * (φ * (y * W)) ≤ 1 / 10000000 * (φ * (y * W)) := mul_le_mul_of_nonneg_right hu7 p4
    have q4 : R.u * (κ * R.u) ≤ 1 / 10000000 * (κ * R.u) := mul_le_mul_of_nonneg_right hu7 hκu0
    have q5 : R.u * (R.u * (κ * R.u)) ≤ 1 / 10000000 * (κ * R.u) :=
      (mul_le_mul_of_nonneg_right hu7 (mul_nonneg h0 hκu0)).trans (by linarith)
    have q6 : R.u * φ ≤ 1 / 10000000 * φ := mul_le_mul_of_nonneg_right hu7 hφ
    have q7 : R.u * (R.u * φ) ≤ 1 / 10000000 * φ := (mul_le_mul_of_nonneg_right hu7 (mul_nonneg h0 hφ)).trans (by linarith)
    have q8 : R.u * R.u ≤ 1 / 10000000 * R.u := mul_le_mul_of_nonneg_right hu7 h0
    have q9 : R.u * (R.u * R.u) ≤ 1 / 10000000 * R.u := (mul_le_mul_of_nonneg_right hu7 (mul_nonneg h0 h0)).trans (by linarith)
    linarith
  have hL : l2 + l3 + y * W = lnLanczos x.val := by
    unfold lnLanczos
    rw [show x.val - 0.5 = y by rw [hy]; norm_num]
  rw [hL] at m5
  have := abs_sub_le (ln s + ln (2.0 * pow (e / pi) 0.5) + (x - 0.5) * ln ((x - 0.5 + 10.900511) / e)).val (lnLanczos x.val)
    (Real.log (Real.Gamma x.val))
  have := lnLanczos_error hx
  linarith

set_option maxHeartbeats 1000000 in
/-- **C121** (`/repo/src/special/gamma.rs:304-316`, `ln_gamma` for `0 < x < ½`, with rounding): the error also depends on
`log sin(π x)`, which is large near 0. -/
theorem C121_ln_gamma_reflection (L : LnGammaLib R φ ln pi e sin pow) (hu : R.u ≤ 1e-7) (h2 : R.rnd (1 / 2) = 1 / 2)
    {x : Fl R} (hx0 : 0 < x.val) (hx : x.val < 1 / 2) :
    ∃ v : Fl R, lnGammaG (fun a b => some (a / b)) (fun a => some (ln a)) pi e sin pow x = some v ∧
      |v.val - Real.log (Real.Gamma x.val)| ≤ 2e-17 + (5400 + 5 * |Real.log (Real.sin (Real.pi * x.val))|) * R.u
        + (30 + 2 * |Real.log (Real.sin (Real.pi * x.val))|) * φ := by
  have h0 := R.u_nonneg
  have hu7 : R.u ≤ 1 / 10000000 := by norm_num at hu ⊢; linarith
  have hu' : R.u < 1 := by linarith
  have hφ := L.nonneg
  have hφ1 := L.small
  have half : (0.5 : Fl R).val = 1 / 2 := lit_half h2
  have hz : 1 / 2 ≤ 1 - x.val := by linarith
  have hκ : dkAbs (1 - x.val) ≤ 180 * dkVal (1 - x.val) := by
    refine (dkAbs_le_lin hz).trans (mul_le_mul_of_nonneg_right (by linarith) (dkVal_pos (by linarith)).le)
  have hd : ∀ i : ℕ, 1 ≤ i → i ≤ 10 → LC (11 * R.u) ((i : Fl R) - x).val (1 - x.val + ((i : ℝ) - 1)) := by
    intro i hi _
    have hi' : (1 : ℝ) ≤ i := by exact_mod_cast hi
    rw [show 1 - x.val + ((i : ℝ) - 1) = i - x.val by ring]
    set D := (i : ℝ) - x.val with hD
    have hD0 : 1 / 2 ≤ D := by linarith
    have d1 : |R.rnd (i : ℝ) - x.val - D| ≤ R.u * (2 * D) := by
      rw [hD, sub_sub_sub_cancel_right]
      have := R.err (i : ℝ)
      rw [abs_of_pos (show (0 : ℝ) < i by linarith)] at this
      exact this.trans (mul_le_mul_of_nonneg_left (by linarith) h0)
    have d2 := R.rnd_near d1
    rw [abs_of_pos (by linarith : 0 < D)] at d2
    have d5 : |((i : Fl R) - x).val - D| ≤ 4 * R.u * D := by
      refine LE.le.trans d2 ?_
      have p3 : R.u * (R.u * D) ≤ 1 / 10000000 * (R.u * D) := mul_le_mul_of_nonneg_right hu7 (by positivity)
      have p4 : 0 ≤ R.u * D := by positivity
      linarith
    exact (LC.of_abs (by linarith) (by linarith) (by linarith) d5).mono (by linarith)
  obtain ⟨s, es, ls⟩ := dkSum_lc hu hz hd hκ (by norm_num)
  have hS := dkVal_log hz
  have b2 : |(ln s).val - Real.log (dkVal (1 - x.val))| ≤ 5040 * R.u + 12 * φ := by
    refine (L.ln_lc ls).trans ?_
    have : φ * (|Real.log (dkVal (1 - x.val))| + 28 * 180 * R.u) ≤ φ * 12 := mul_le_mul_of_nonneg_left (by linarith) hφ
    linarith
  obtain ⟨b3, c3⟩ := l3_fl L hu h2
  have hy' : |(0.5 - x : Fl R).val - (1 / 2 - x.val)| ≤ R.u * (1 / 2 - x.val) := by
    show |R.rnd ((0.5 : Fl R).val - x.val) - _| ≤ _
    rw [half]
    have := R.err (1 / 2 - x.val)
    rwa [abs_of_nonneg (show 0 ≤ 1 / 2 - x.val by linarith)] at this
  obtain ⟨hW, b4⟩ := prod_fl L hu (by linarith : 0 ≤ 1 / 2 - x.val) hy'
  have lp : LC R.u pi.val Real.pi := by rw [L.pi_eq]; exact LC.lit hu' Real.pi_pos
  have hpi := Real.pi_lt_d2
  have hpi0 := Real.pi_gt_d2
  norm_num at hpi hpi0
  have lpx : LC (2 * R.u) (pi * x).val (Real.pi * x.val) := LC.mono ((lp.mul (LC.refl hx0)).rnd hu') (by linarith)
  have q1 : Real.pi * x.val ≤ 1.575 := by norm_num; nlinarith
  have q2 : (pi * x).val ≤ 1.6 := by
    have := lpx.abs_sub_le (by linarith)
    have := (abs_le.1 this).2
    have q3 : (2 * R.u + (2 * R.u) ^ 2) * (Real.pi * x.val) ≤ 1 / 100 * 1.575 :=
      mul_le_mul (by nlinarith) q1 lpx.2.1.le (by norm_num)
    norm_num at q1 q3 ⊢
    linarith
  have lsin : LC (φ + 2 * R.u) (sin (pi * x)).val (Real.sin (Real.pi * x.val)) := by
    have h := L.sin_le (pi * x) lpx.1 (by norm_num at q2; linarith)
    have hs := sin_lc lpx q2 (by norm_num at q1 ⊢; linarith)
    exact (LC.of_rel hφ hs.1 h.1 h.2).trans hs
  have b1 := L.ln_lc lsin
  set Λ := |Real.log (Real.sin (Real.pi * x.val))| with hΛ
  have hΛ0 : 0 ≤ Λ := abs_nonneg _
  have b1' : |(ln (sin (pi * x))).val - Real.log (Real.sin (Real.pi * x.val))| ≤ 2 * φ + 2 * R.u + φ * Λ := by
    refine b1.trans ?_
    have : φ * (Λ + (φ + 2 * R.u)) ≤ φ * (Λ + 1) := mul_le_mul_of_nonneg_left (by linarith) hφ
    linarith
  have c0 : |Real.log Real.pi| ≤ 3 - 1 / 2 := by
    rw [abs_of_nonneg (Real.log_nonneg (by linarith))]
    have := Real.log_le_sub_one_of_pos Real.pi_pos
    linarith
  have b0 : |(ln pi).val - Real.log Real.pi| ≤ 3 * φ + R.u := by
    refine (L.ln_lc lp).trans ?_
    have : φ * (|Real.log Real.pi| + R.u) ≤ φ * 3 := mul_le_mul_of_nonneg_left (by linarith) hφ
    linarith
  refine ⟨ln pi - ln (sin (pi * x)) - ln s - ln (2.0 * pow (e / pi) 0.5) - (0.5 - x) * ln ((0.5 - x + 10.900511) / e), ?_, ?_⟩
  · unfold lnGammaG
    rw [if_pos (by rw [← not_le, Fl.le_iff, half]; exact not_le.2 hx), es]
    rfl
  set l0 := Real.log Real.pi
  set l1 := Real.log (Real.sin (Real.pi * x.val))
  set l2 := Real.log (dkVal (1 - x.val))
  set l3 := Real.log (2 * (Real.exp 1 / Real.pi) ^ (0.5 : ℝ)) with hl3
  set y := 1 / 2 - x.val with hy
  have hW4 : Real.log ((y + 10.900511) / Real.exp 1) ≤ 4 := by
    have e1 := Real.exp_one_gt_d9
    have h3 : (y + 10.900511) / Real.exp 1 ≤ 5 := by
      rw [div_le_iff₀ (Real.exp_pos 1)]
      norm_num at e1 ⊢
      linarith
    have := Real.log_le_sub_one_of_pos (x := (y + 10.900511) / Real.exp 1) (by
      have := Real.exp_pos 1
      have : 0 ≤ y := by linarith
      positivity)
    linarith
  set W := Real.log ((y + 10.900511) / Real.exp 1) with hWd
  have hy0 : 0 ≤ y := by rw [hy]; linarith
  have hy1 : y ≤ 1 / 2 := by rw [hy]; linarith
  have hyW : y * W ≤ 2 := by nlinarith
  set p := ((0.5 - x) * ln ((0.5 - x + 10.900511) / e)).val
  have b4' : |p - y * W| ≤ 4 * φ + 10 * R.u := by
    refine b4.trans ?_
    have e1 : (2 * φ + 3 * R.u) * W ≤ (2 * φ + 3 * R.u) * 4 := mul_le_mul_of_nonneg_left hW4 (by linarith)
    have e2 : y * ((2 * φ + 3 * R.u) * W + 8 * R.u) ≤ 1 / 2 * ((2 * φ + 3 * R.u) * 4 + 8 * R.u) :=
      mul_le_mul hy1 (by linarith) (by positivity) (by norm_num)
    linarith
  have step : ∀ {a b A B E F M : ℝ}, |a - A| ≤ E → |b - B| ≤ F → |A - B| ≤ M →
      |R.rnd (a - b) - (A - B)| ≤ (1 + R.u) * (E + F) + R.u * M := by
    intro a b A B E F M h1 h2 h3
    have h4 : |a - b - (A - B)| ≤ E + F := by
      rw [sub_sub_sub_comm]
      exact (abs_sub _ _).trans (add_le_add h1 h2)
    have := R.rnd_near h4
    have := mul_le_mul_of_nonneg_left h3 h0
    linarith
  have n1 : |l0 - l1| ≤ 3 + Λ := (abs_sub _ _).trans (by linarith)
  have n2 : |l0 - l1 - l2| ≤ 14 + Λ := (abs_sub _ _).trans (by linarith)
  have n3 : |l0 - l1 - l2 - l3| ≤ 15 + Λ := (abs_sub _ _).trans (by linarith)
  have n4 : |l0 - l1 - l2 - l3 - y * W| ≤ 17 + Λ := by
    refine (abs_sub _ _).trans ?_
    rw [abs_of_nonneg (mul_nonneg hy0 hW)]
    linarith
  have m1 := step b0 b1' n1
  have m2 := step m1 b2 n2
  have m3 := step m2 b3 n3
  have m4 := step m3 b4' n4
  have m5 : |(ln pi - ln (sin (pi * x)) - ln s - ln (2.0 * pow (e / pi) 0.5) - (0.5 - x) * ln ((0.5 - x + 10.900511) / e)).val
      - (l0 - l1 - l2 - l3 - y * W)| ≤ (5400 + 5 * Λ) * R.u + (30 + 2 * Λ) * φ := by
    refine LE.le.trans m4 ?_
    have grow : ∀ {E : ℝ}, 0 ≤ E → (1 + R.u) * E ≤ E + 1 / 10000000 * E := fun hE => by
      have := mul_le_mul_of_nonneg_right hu7 hE
      linarith
    have hφΛ : 0 ≤ φ * Λ := mul_nonneg hφ hΛ0
    have huΛ : 0 ≤ R.u * Λ := mul_nonneg h0 hΛ0
    have g1 := grow (E := 3 * φ + R.u + (2 * φ + 2 * R.u + φ * Λ)) (by linarith)
    have u1 : 0 ≤ (1 + R.u) * (3 * φ + R.u + (2 * φ + 2 * R.u + φ * Λ)) := mul_nonneg (by linarith) (by linarith)
    set E1 := (1 + R.u) * (3 * φ + R.u + (2 * φ + 2 * R.u + φ * Λ)) with hE1
    have g2 := grow (E := E1 + R.u * (3 + Λ) + (5040 * R.u + 12 * φ)) (by linarith)
    have u2 : 0 ≤ (1 + R.u) * (E1 + R.u * (3 + Λ) + (5040 * R.u + 12 * φ)) := mul_nonneg (by linarith) (by linarith)
    set E2 := (1 + R.u) * (E1 + R.u * (3 + Λ) + (5040 * R.u + 12 * φ)) with hE2
    have g3 := grow (E := E2 + R.u * (14 + Λ) + (3 * φ + 7 * R.u)) (by linarith)
    have u3 : 0 ≤ (1 + R.u) * (E2 + R.u * (14 + Λ) + (3 * φ + 7 * R.u)) := mul_nonneg (by linarith) (by linarith)
    set E3 := (1 + R.u) * (E2 + R.u * (14 + Λ) + (3 * φ + 7 * R.u)) with hE3
    have g4 := grow (E := E3 + R.u * (15 + Λ) + (4 * φ + 10 * R.u)) (by linarith)
    linarith
  have hL : l0 - l1 - l2 - l3 - y * W = l0 - l1 - lnLanczos (1 - x.val) := by
    unfold lnLanczos
    rw [show 1 - x.val - 0.5 = y by rw [hy]; norm_num; ring]
    ring
  have hr : Real.log (Real.Gamma x.val) = l0 - l1 - Real.log (Real.Gamma (1 - x.val)) := by
    have hr := Real.Gamma_mul_Gamma_one_sub x.val
    have g1 := Real.Gamma_pos_of_pos hx0
    have g2 := Real.Gamma_pos_of_pos (show 0 < 1 - x.val by linarith)
    have hsp := lsin.2.1
    have := congrArg Real.log hr
    rw [Real.log_mul g1.ne' g2.ne', Real.log_div Real.pi_pos.ne' hsp.ne'] at this
    linarith
  rw [hL] at m5
  have t1 := abs_sub_le (ln pi - ln (sin (pi * x)) - ln s - ln (2.0 * pow (e / pi) 0.5) -
    (0.5 - x) * ln ((0.5 - x + 10.900511) / e)).val (l0 - l1 - lnLanczos (1 - x.val)) (Real.log (Real.Gamma x.val))
  have t2 := lnLanczos_error hz
  have t3 : |l0 - l1 - lnLanczos (1 - x.val) - Real.log (Real.Gamma x.val)| ≤ 2e-17 := by
    rw [hr, sub_sub_sub_cancel_left, abs_sub_comm]
    exact t2
  linarith

/-- correctly rounded library functions have the relative error `u` -/
theorem correct_lnlib (R : Rounding ℝ) (hu : R.u ≤ 1 / 10) : LnGammaLib R R.u (fun x => ⟨R.rnd (Real.log x.val)⟩)
    ⟨R.rnd Real.pi⟩ ⟨R.rnd (Real.exp 1)⟩ (fun x => ⟨R.rnd (Real.sin x.val)⟩) (fun x y => ⟨R.rnd (x.val ^ y.val)⟩) := by
  have L := correct_lib R (by linarith)
  exact ⟨R.u_nonneg, hu, rfl, rfl, fun x _ => R.err _, L.sin_le, L.pow_le⟩

/-- with 53 bits the error of `ln_gamma` at 20 is at most `2e-11`, where `ln Γ(20) = ln 19!` -/
example : ∃ v : Fl (binary ℝ 53 (by norm_num)), lnGammaG (fun a b => some (a / b))
      (fun x => some ⟨(binary ℝ 53 (by norm_num)).rnd (Real.log x.val)⟩) ⟨(binary ℝ 53 (by norm_num)).rnd Real.pi⟩
      ⟨(binary ℝ 53 (by norm_num)).rnd (Real.exp 1)⟩ (fun x => ⟨(binary ℝ 53 (by norm_num)).rnd (Real.sin x.val)⟩)
      (fun x y => ⟨(binary ℝ 53 (by norm_num)).rnd (x.val ^ y.val)⟩) ⟨20⟩ = some v ∧
      |v.val - Real.log 121645100408832000| ≤ 2e-11 := by
  have e : (binary ℝ 53 (by norm_num)).u = 1 / 2 ^ 53 := (one_div _).symm
  obtain ⟨v, hv, h⟩ := C121_ln_gamma (x := ⟨20⟩) (correct_lnlib (binary ℝ 53 (by norm_num)) (by rw [e]; norm_num))
    (by rw [e]; norm_num) (binary_one _) (binary_half _) (by norm_num)
  refine ⟨v, hv, ?_⟩
  have g : Real.Gamma 20 = 121645100408832000 := by
    rw [show (20 : ℝ) = ((19 : ℕ) : ℝ) + 1 by norm_num, Real.Gamma_nat_eq_factorial]
    norm_num [Nat.factorial]
  simp only [g, e] at h
  refine h.trans ?_
  have hW : Real.log ((20 - 1 / 2 + 10.900511) / Real.exp 1) ≤ 15 := by
    have h3 : (20 - 1 / 2 + 10.900511) / Real.exp 1 ≤ 16 := by
      rw [div_le_iff₀ (Real.exp_pos 1)]
      have := Real.exp_one_gt_d9
      norm_num at this ⊢
      linarith
    have := Real.log_le_sub_one_of_pos (x := (20 - 1 / 2 + 10.900511) / Real.exp 1) (div_pos (by norm_num) (Real.exp_pos 1))
    linarith
  rw [min_eq_left (by norm_num : (10 + 170 * 20 : ℝ) ≤ 5000)]
  set W := Real.log ((20 - 1 / 2 + 10.900511) / Real.exp 1)
  norm_num
  linarith

/-- and at 1/4 it is at most `1e-12` -/
example : ∃ v : Fl (binary ℝ 53 (by norm_num)), lnGammaG (fun a b => some (a / b))
      (fun x => some ⟨(binary ℝ 53 (by norm_num)).rnd (Real.log x.val)⟩) ⟨(binary ℝ 53 (by norm_num)).rnd Real.pi⟩
      ⟨(binary ℝ 53 (by norm_num)).rnd (Real.exp 1)⟩ (fun x => ⟨(binary ℝ 53 (by norm_num)).rnd (Real.sin x.val)⟩)
      (fun x y => ⟨(binary ℝ 53 (by norm_num)).rnd (x.val ^ y.val)⟩) ⟨1 / 4⟩ = some v ∧
      |v.val - Real.log (Real.Gamma (1 / 4))| ≤ 1e-12 := by
  have e : (binary ℝ 53 (by norm_num)).u = 1 / 2 ^ 53 := (one_div _).symm
  obtain ⟨v, hv, h⟩ := C121_ln_gamma_reflection (x := ⟨1 / 4⟩) (correct_lnlib (binary ℝ 53 (by norm_num)) (by rw [e]; norm_num))
    (by rw [e]; norm_num) (binary_half _) (by norm_num) (by norm_num)
  refine ⟨v, hv, ?_⟩
  simp only [e] at h
  refine h.trans ?_
  have hs : |Real.log (Real.sin (Real.pi * (1 / 4)))| ≤ 2 := by
    rw [mul_one_div, Real.sin_pi_div_four]
    have h1 : (1 : ℝ) ≤ Real.sqrt 2 := Real.one_le_sqrt.2 (by norm_num)
    have h2 : Real.sqrt 2 ≤ 2 := Real.sqrt_le_iff.2 ⟨by norm_num, by norm_num⟩
    rw [abs_le]
    constructor
    · have := Real.one_sub_inv_le_log_of_pos (x := Real.sqrt 2 / 2) (by positivity)
      have h3 : (Real.sqrt 2 / 2)⁻¹ ≤ 2 := by
        rw [inv_div]
        exact (div_le_iff₀ (by positivity)).2 (by linarith)
      linarith
    · have := Real.log_le_sub_one_of_pos (x := Real.sqrt 2 / 2) (by positivity)
      linarith
  set Λ := |Real.log (Real.sin (Real.pi * (1 / 4)))|
  norm_num
  linarith

end Fl
end Special
end Verif
