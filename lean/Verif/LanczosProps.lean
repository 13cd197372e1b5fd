import Verif.GammaProps
import Verif.LanczosLemmas
import Verif.LanczosPoly
import Verif.LanczosPolyDk

/-!
# C48: `gamma` and `ln_gamma` are the gamma function and its logarithm
-/

namespace Verif
namespace Special
open Filter Topology

theorem lzN_deriv (y : ℝ) : HasDerivAt lzN (lzN' y) y ∧ HasDerivAt lzN' (lzN'' y) y := by
  have hp : ∀ (c : ℝ) (k : ℕ), HasDerivAt (fun y : ℝ => c * y ^ k) (c * (k * y ^ (k - 1))) y :=
    fun c k => (hasDerivAt_pow k y).const_mul c
  have h1 : ∀ c : ℝ, HasDerivAt (fun y : ℝ => c * y) c y := fun c => by
    simpa using (hasDerivAt_id y).const_mul c
  constructor
  · unfold lzN lzN'
    refine ((((((((h1 _).const_add _).add (hp _ 2)).add (hp _ 3)).add (hp _ 4)).add (hp _ 5)).add (hp _ 6)).add
      (hp _ 7)).add (hp _ 8) |>.congr_deriv ?_
    norm_num; ring
  · unfold lzN' lzN''
    refine (((((((h1 _).const_add _).add (hp _ 2)).add (hp _ 3)).add (hp _ 4)).add (hp _ 5)).add (hp _ 6)).add
      (hp _ 7) |>.congr_deriv ?_
    norm_num; ring

theorem dkN_deriv (y : ℝ) : HasDerivAt dkN (dkN' y) y ∧ HasDerivAt dkN' (dkN'' y) y := by
  have hp : ∀ (c : ℝ) (k : ℕ), HasDerivAt (fun y : ℝ => c * y ^ k) (c * (k * y ^ (k - 1))) y :=
    fun c k => (hasDerivAt_pow k y).const_mul c
  have h1 : ∀ c : ℝ, HasDerivAt (fun y : ℝ => c * y) c y := fun c => by
    simpa using (hasDerivAt_id y).const_mul c
  constructor
  · unfold dkN dkN'
    refine ((((((((((h1 _).const_add _).add (hp _ 2)).add (hp _ 3)).add (hp _ 4)).add (hp _ 5)).add (hp _ 6)).add
      (hp _ 7)).add (hp _ 8)).add (hp _ 9)).add (hp _ 10) |>.congr_deriv ?_
    norm_num; ring
  · unfold dkN' dkN''
    refine (((((((((h1 _).const_add _).add (hp _ 2)).add (hp _ 3)).add (hp _ 4)).add (hp _ 5)).add (hp _ 6)).add
      (hp _ 7)).add (hp _ 8)).add (hp _ 9) |>.congr_deriv ?_
    norm_num; ring

theorem lzN_pos {y : ℝ} (hy : 0 ≤ y) : 0 < lzN y := by unfold lzN; positivity

theorem dkN_pos {y : ℝ} (hy : 0 ≤ y) : 0 < dkN y := by unfold dkN; positivity

/-- the second derivative from the polynomial inequalities -/
theorem defect_abs_le {A B E b p p1 p2 q q1 q2 T M : ℝ} (hA : 0 < A) (hB : 0 < B) (hE : 0 < E) (hp : 0 < p)
    (hq : 0 < q) (hT : 0 < T) (hM : 0 < M)
    (hu : 0 ≤ A ^ 2 * B ^ 2 * E ^ 2 * (p ^ 2 * q ^ 2) - M * T ^ 4 * (p ^ 2 * q ^ 2
      * ((A + b) * B ^ 2 * E ^ 2 - (B + b) * A ^ 2 * E ^ 2 + A ^ 2 * B ^ 2)
      + A ^ 2 * B ^ 2 * E ^ 2 * ((p1 ^ 2 - p2 * p) * q ^ 2 - (q1 ^ 2 - q2 * q) * p ^ 2)))
    (hl : 0 ≤ A ^ 2 * B ^ 2 * E ^ 2 * (p ^ 2 * q ^ 2) + M * T ^ 4 * (p ^ 2 * q ^ 2
      * ((A + b) * B ^ 2 * E ^ 2 - (B + b) * A ^ 2 * E ^ 2 + A ^ 2 * B ^ 2)
      + A ^ 2 * B ^ 2 * E ^ 2 * ((p1 ^ 2 - p2 * p) * q ^ 2 - (q1 ^ 2 - q2 * q) * p ^ 2))) :
    |(A + b) / A ^ 2 - (B + b) / B ^ 2 + (q2 * q - q1 ^ 2) / q ^ 2 - (p2 * p - p1 ^ 2) / p ^ 2 + 1 / E ^ 2|
      ≤ 1 / M / T ^ 4 := by
  have e : (A + b) / A ^ 2 - (B + b) / B ^ 2 + (q2 * q - q1 ^ 2) / q ^ 2 - (p2 * p - p1 ^ 2) / p ^ 2 + 1 / E ^ 2
      = (p ^ 2 * q ^ 2 * ((A + b) * B ^ 2 * E ^ 2 - (B + b) * A ^ 2 * E ^ 2 + A ^ 2 * B ^ 2)
      + A ^ 2 * B ^ 2 * E ^ 2 * ((p1 ^ 2 - p2 * p) * q ^ 2 - (q1 ^ 2 - q2 * q) * p ^ 2))
        / (A ^ 2 * B ^ 2 * E ^ 2 * (p ^ 2 * q ^ 2)) := by
    field_simp
    ring
  rw [e, abs_div, abs_of_pos (by positivity : 0 < A ^ 2 * B ^ 2 * E ^ 2 * (p ^ 2 * q ^ 2)), div_div,
    div_le_div_iff₀ (by positivity) (by positivity), one_mul, ← abs_of_pos (by positivity : 0 < M * T ^ 4), ← abs_mul,
    abs_le]
  constructor <;> nlinarith [hu, hl]

theorem lanczosSum_lzN {y : ℝ} (hy : 0 ≤ y) : lanczosSum (y + 1 / 2) = lzN y / (3200000000000000000000000 *
    ((y + 1 / 2) * (y + 1 / 2 + 1) * (y + 1 / 2 + 2) * (y + 1 / 2 + 3) * (y + 1 / 2 + 4) * (y + 1 / 2 + 5)
      * (y + 1 / 2 + 6) * (y + 1 / 2 + 7))) := by
  rw [lanczosSum_eq (by positivity), div_eq_div_iff (by positivity) (by positivity)]
  unfold lzN
  ring

theorem dkVal_dkN {y : ℝ} (hy : 0 ≤ y) : dkVal (y + 1 / 2) = dkN y / (5120000000000000000000000000000 *
    ((y + 1 / 2) * (y + 1 / 2 + 1) * (y + 1 / 2 + 2) * (y + 1 / 2 + 3) * (y + 1 / 2 + 4) * (y + 1 / 2 + 5)
      * (y + 1 / 2 + 6) * (y + 1 / 2 + 7) * (y + 1 / 2 + 8) * (y + 1 / 2 + 9))) := by
  rw [dkVal_eq (by positivity), div_eq_div_iff (by positivity) (by positivity)]
  unfold dkN
  ring

theorem tendsto_const_div_add (c i : ℝ) : Tendsto (fun z : ℝ => c / (z + i)) atTop (𝓝 0) :=
  (tendsto_atTop_add_const_right _ _ tendsto_id).const_div_atTop c

theorem lanczosSum_tendsto : Tendsto lanczosSum atTop (𝓝 0.99999999999980993) := by
  unfold lanczosSum
  have h0 : Tendsto (fun z : ℝ => 676.5203681218851 / z) atTop (𝓝 0) := tendsto_id.const_div_atTop _
  have := ((((((((h0.const_add 0.99999999999980993).sub (tendsto_const_div_add 1259.1392167224028 1)).add
    (tendsto_const_div_add 771.32342877765313 2)).sub (tendsto_const_div_add 176.61502916214059 3)).add
    (tendsto_const_div_add 12.507343278686905 4)).sub (tendsto_const_div_add 0.13857109526572012 5)).add
    (tendsto_const_div_add 9.9843695780195716e-6 6)).add (tendsto_const_div_add 1.5056327351493116e-7 7))
  simpa only [add_zero, sub_zero] using this

theorem dkVal_tendsto : Tendsto dkVal atTop (𝓝 2.48574089138753565546e-5) := by
  unfold dkVal
  have h0 : Tendsto (fun z : ℝ => 1.05142378581721974210 / z) atTop (𝓝 0) := tendsto_id.const_div_atTop _
  have := ((((((((((h0.const_add 2.48574089138753565546e-5).add (tendsto_const_div_add (-3.45687097222016235469) 1)).add
    (tendsto_const_div_add 4.51227709466894823700 2)).add (tendsto_const_div_add (-2.98285225323576655721) 3)).add
    (tendsto_const_div_add 1.05639711577126713077 4)).add (tendsto_const_div_add (-1.95428773191645869583e-1) 5)).add
    (tendsto_const_div_add 1.70970543404441224307e-2 6)).add
    (tendsto_const_div_add (-5.71926117404305781283e-4) 7)).add
    (tendsto_const_div_add 4.63399473359905636708e-6 8)).add (tendsto_const_div_add (-2.71994908488607703910e-9) 9))
  simpa only [add_zero] using this

/-- a Lanczos formula with the sum `S = N / (l ∏ (z + i))` against the gamma function -/
theorem lanczos_log_error {S N N' N'' D : ℝ → ℝ} {K b e a M s : ℝ} (hb : 1 / 2 < b) (he : 0 < e) (ha : 0 < a)
    (hM : 0 < M) (hs : 0 < s) (hS : Tendsto S atTop (𝓝 s))
    (hN : ∀ y, 0 ≤ y → 0 < N y) (h1 : ∀ y, HasDerivAt N (N' y) y) (h2 : ∀ y, HasDerivAt N' (N'' y) y)
    (hD : ∀ y, 0 ≤ y → 0 < D y) (hDs : ∀ y, 0 ≤ y → D (y + 1) * (y + 1 / 2) = D y * (y + e))
    (hSN : ∀ y, 0 ≤ y → S (y + 1 / 2) = N y / D y)
    (hbound : ∀ y, 0 ≤ y → |(y + b + 1 + b) / (y + b + 1) ^ 2 - (y + b + b) / (y + b) ^ 2
        + (N'' (y + 1) * N (y + 1) - N' (y + 1) ^ 2) / N (y + 1) ^ 2
        - (N'' y * N y - N' y ^ 2) / N y ^ 2 + 1 / (y + e) ^ 2| ≤ 1 / M / (y + a) ^ 4)
    {y : ℝ} (hy : 0 ≤ y) :
    |K + y * Real.log (y + b) - (y + 1 / 2) + Real.log (S (y + 1 / 2)) - Real.log (Real.Gamma (y + 1 / 2))
      - (K + (b - 1 / 2) + Real.log s - Real.log (Real.sqrt (2 * Real.pi)))|
      ≤ 1 / M / 6 * (1 / (y + a) ^ 2 + 1 / (y + a)) := by
  set F : ℝ → ℝ := fun y => K + y * Real.log (y + b) - (y + 1 / 2) + Real.log (S (y + 1 / 2))
    - Real.log (Real.Gamma (y + 1 / 2)) with hFdef
  have hF : ∀ y, 0 ≤ y → F (y + 1) - F y = (y + 1) * Real.log (y + b + 1) - y * Real.log (y + b)
      + Real.log (N (y + 1)) - Real.log (N y) - Real.log (y + e) - 1 := by
    intro y hy
    have hy1 : 0 ≤ y + 1 := by linarith
    have p1 := hD y hy
    have p2 := hD (y + 1) hy1
    have hl : Real.log (D (y + 1)) + Real.log (y + 1 / 2) = Real.log (D y) + Real.log (y + e) := by
      rw [← Real.log_mul p2.ne' (by positivity), ← Real.log_mul p1.ne' (by positivity), hDs y hy]
    have hg : Real.log (Real.Gamma (y + 1 + 1 / 2)) = Real.log (y + 1 / 2) + Real.log (Real.Gamma (y + 1 / 2)) := by
      rw [← Real.log_mul (by positivity) (Real.Gamma_pos_of_pos (by positivity)).ne',
        ← Real.Gamma_add_one (by positivity)]
      congr 2; ring
    simp only [hFdef]
    rw [hSN y hy, hSN (y + 1) hy1, Real.log_div (hN y hy).ne' p1.ne', Real.log_div (hN _ hy1).ne' p2.ne', hg,
      show y + 1 + b = y + b + 1 by ring]
    linarith
  have hlim : ∀ y, 0 ≤ y → Tendsto (fun n : ℕ => F (y + n)) atTop
      (𝓝 (K + (b - 1 / 2) + Real.log s - Real.log (Real.sqrt (2 * Real.pi)))) := by
    intro y hy
    have := lanczos_limit (S := S) (K := K) (G := b - 1 / 2) (s := s) (z := y + 1 / 2) (by positivity) (by linarith) hs hS
    refine this.congr fun n => ?_
    simp only [hFdef]
    rw [show y + 1 / 2 + (n : ℝ) = y + n + 1 / 2 by ring]
    rw [show y + (n : ℝ) + 1 / 2 - 1 / 2 = y + n by ring, show y + (n : ℝ) + 1 / 2 + (b - 1 / 2) = y + n + b by ring]
  have hg := abs_le_of_second_deriv (g := fun y => (y + 1) * Real.log (y + b + 1) - y * Real.log (y + b)
      + Real.log (N (y + 1)) - Real.log (N y) - Real.log (y + e) - 1) ha
    (fun y hy => (defect_deriv (by linarith) he hN h1 h2 hy).1)
    (fun y hy => (defect_deriv (by linarith) he hN h1 h2 hy).2) hbound (by
      intro y hy
      have t1 := hlim (y + 1) (by linarith)
      have := t1.sub (hlim y hy)
      rw [sub_self] at this
      refine this.congr fun n => ?_
      rw [← hF (y + n) (by positivity), show y + 1 + (n : ℝ) = y + n + 1 by ring])
  exact abs_sub_le_of_defect ha (by positivity) hF hg hy (hlim y hy)

theorem inv_bound {y a c : ℝ} (hy : 0 ≤ y) (ha : 0 < a) (hc : 0 ≤ c) :
    c * (1 / (y + a) ^ 2 + 1 / (y + a)) ≤ c * (1 / a ^ 2 + 1 / a) := by
  have : a ≤ y + a := by linarith
  gcongr

/-- the logarithm of the main formula of `gamma` -/
theorem log_lanczos_error {z : ℝ} (hz : 1 / 2 ≤ z) :
    |Real.log (lanczos z) - Real.log (Real.Gamma z)| ≤ 2.6e-12 := by
  obtain ⟨y, hy, rfl⟩ : ∃ y, 0 ≤ y ∧ z = y + 1 / 2 := ⟨z - 1 / 2, by linarith, by ring⟩
  have key := lanczos_log_error (S := lanczosSum) (N := lzN) (N' := lzN') (N'' := lzN'')
    (D := fun y => 3200000000000000000000000 *
    ((y + 1 / 2) * (y + 1 / 2 + 1) * (y + 1 / 2 + 2) * (y + 1 / 2 + 3) * (y + 1 / 2 + 4) * (y + 1 / 2 + 5)
      * (y + 1 / 2 + 6) * (y + 1 / 2 + 7)))
    (K := Real.log (Real.sqrt (2 * Real.pi)) - 13 / 2) (b := 7) (e := 17 / 2) (a := 10) (M := 8000000000)
    (s := 0.99999999999980993) (by norm_num) (by norm_num) (by norm_num) (by norm_num) (by norm_num)
    lanczosSum_tendsto (fun y hy => lzN_pos hy) (fun y => (lzN_deriv y).1) (fun y => (lzN_deriv y).2)
    (fun y hy => by positivity) (fun y hy => by ring) (fun y hy => lanczosSum_lzN hy)
    (fun y hy => defect_abs_le (by positivity) (by positivity) (by positivity) (lzN_pos hy)
      (lzN_pos (by linarith)) (by positivity) (by norm_num) (lz_upper hy) (lz_lower hy)) hy
  have hL : Real.log (lanczos (y + 1 / 2)) = Real.log (Real.sqrt (2 * Real.pi)) - 13 / 2 + y * Real.log (y + 7)
      - (y + 1 / 2) + Real.log (lanczosSum (y + 1 / 2)) := by
    unfold lanczos
    have h1 : 0 < Real.sqrt 2 := by positivity
    have h2 : 0 < Real.sqrt Real.pi := Real.sqrt_pos.2 Real.pi_pos
    have h3 : (0 : ℝ) < y + 1 / 2 + 6.5 := by positivity
    have h4 : 0 < (y + 1 / 2 + 6.5) ^ (y + 1 / 2 - 0.5) := Real.rpow_pos_of_pos h3 _
    have h5 := lanczosSum_pos (z := y + 1 / 2) (by positivity)
    simp only
    rw [Real.log_mul (by positivity) h5.ne', Real.log_mul (by positivity) (Real.exp_pos _).ne',
      Real.log_mul (by positivity) h4.ne', Real.log_rpow h3, Real.log_exp, ← Real.sqrt_mul (by norm_num)]
    rw [show y + 1 / 2 + 6.5 = y + 7 by norm_num; ring, show y + 1 / 2 - 0.5 = y by norm_num]
    ring
  have hc : |Real.log (0.99999999999980993 : ℝ)| ≤ 2e-13 := by
    rw [abs_le]
    constructor
    · have := Real.one_sub_inv_le_log_of_pos (by norm_num : (0 : ℝ) < 0.99999999999980993)
      refine le_trans ?_ this
      norm_num
    · refine (Real.log_nonpos (by norm_num) (by norm_num)).trans (by norm_num)
  rw [hL]
  have hb := inv_bound hy (by norm_num : (0 : ℝ) < 10) (by norm_num : (0 : ℝ) ≤ 1 / 8000000000 / 6)
  have hn : (1 : ℝ) / 8000000000 / 6 * (1 / 10 ^ 2 + 1 / 10) ≤ 2.3e-12 := by norm_num
  have h3 := (key.trans hb).trans hn
  rw [abs_le] at h3 hc ⊢
  norm_num at h3 hc ⊢
  constructor <;> linarith [h3.1, h3.2, hc.1, hc.2]

/-- numerical value of `exp 11.400511` -/
theorem exp_num : (2.0391477225566460872045 : ℝ) ^ 16 ≤ Real.exp 11.400511 ∧
    Real.exp 11.400511 ≤ (2.0391477225566460872051 : ℝ) ^ 16 := by
  have e : Real.exp 11.400511 = Real.exp 0.7125319375 ^ 16 := by
    rw [← Real.exp_nat_mul]; norm_num
  have h1 := Real.sum_le_exp_of_nonneg (by norm_num : (0 : ℝ) ≤ 0.7125319375) 20
  have h2 := Real.exp_bound' (by norm_num : (0 : ℝ) ≤ 0.7125319375) (by norm_num) (by norm_num : 0 < 20)
  simp only [Finset.sum_range_succ, Finset.sum_range_zero, Nat.factorial] at h1 h2
  norm_num at h1 h2
  rw [e, show (0.7125319375 : ℝ) = 11400511 / 16000000 by norm_num]
  constructor
  · refine pow_le_pow_left₀ (by norm_num) (le_trans ?_ h1) 16
    norm_num
  · refine pow_le_pow_left₀ (Real.exp_pos _).le (h2.trans ?_) 16
    norm_num

/-- the constant of the formula of `ln_gamma`: `2 √(e/π) d₀ e^(10.900511) / √(2π)` is 1 up to `1e-19` -/
theorem dk_const : |Real.log (2 * (Real.exp 1 / Real.pi) ^ (0.5 : ℝ)) + 1 / 2 + (10.900511 - 1 / 2)
    + Real.log 2.48574089138753565546e-5 - Real.log (Real.sqrt (2 * Real.pi))| ≤ 2e-19 := by
  have hpi := Real.pi_pos
  have hs2 : (0 : ℝ) < Real.sqrt 2 := by positivity
  have e : Real.log (2 * (Real.exp 1 / Real.pi) ^ (0.5 : ℝ)) + 1 / 2 + (10.900511 - 1 / 2)
      + Real.log 2.48574089138753565546e-5 - Real.log (Real.sqrt (2 * Real.pi))
      = Real.log (Real.sqrt 2 * 2.48574089138753565546e-5 * Real.exp 11.400511 / Real.pi) := by
    rw [Real.log_div (by positivity) hpi.ne', Real.log_mul (by positivity) (Real.exp_pos _).ne',
      Real.log_mul hs2.ne' (by norm_num), Real.log_exp, Real.log_mul two_ne_zero (by positivity),
      Real.log_rpow (by positivity), Real.log_div (Real.exp_pos 1).ne' hpi.ne', Real.log_exp,
      Real.log_sqrt (by positivity), Real.log_sqrt (by norm_num : (0 : ℝ) ≤ 2), Real.log_mul two_ne_zero hpi.ne']
    norm_num
    ring
  rw [e]
  have p1 := Real.pi_gt_d20
  have p2 := Real.pi_lt_d20
  obtain ⟨x1, x2⟩ := exp_num
  have s1 : (1.41421356237309504880 : ℝ) ≤ Real.sqrt 2 := by
    apply Real.le_sqrt_of_sq_le; norm_num
  have s2 : Real.sqrt 2 ≤ 1.41421356237309504881 := by
    rw [Real.sqrt_le_left (by norm_num)]; norm_num
  have r1 : (1 - 1e-19 : ℝ) ≤ Real.sqrt 2 * 2.48574089138753565546e-5 * Real.exp 11.400511 / Real.pi := by
    rw [le_div_iff₀ hpi]
    calc (1 - 1e-19) * Real.pi ≤ (1 - 1e-19) * 3.14159265358979323847 := by gcongr
      _ ≤ 1.41421356237309504880 * 2.48574089138753565546e-5 * 2.0391477225566460872045 ^ 16 := by norm_num
      _ ≤ Real.sqrt 2 * 2.48574089138753565546e-5 * Real.exp 11.400511 := by gcongr
  have r2 : Real.sqrt 2 * 2.48574089138753565546e-5 * Real.exp 11.400511 / Real.pi ≤ 1 + 1e-19 := by
    rw [div_le_iff₀ hpi]
    calc Real.sqrt 2 * 2.48574089138753565546e-5 * Real.exp 11.400511
        ≤ 1.41421356237309504881 * 2.48574089138753565546e-5 * 2.0391477225566460872051 ^ 16 := by gcongr
      _ ≤ (1 + 1e-19) * 3.14159265358979323846 := by norm_num
      _ ≤ (1 + 1e-19) * Real.pi := by gcongr
  set r := Real.sqrt 2 * 2.48574089138753565546e-5 * Real.exp 11.400511 / Real.pi
  have hr : 0 < r := lt_of_lt_of_le (by norm_num) r1
  rw [abs_le]
  constructor
  · refine le_trans ?_ (Real.one_sub_inv_le_log_of_pos hr)
    have : r⁻¹ ≤ (1 - 1e-19 : ℝ)⁻¹ := inv_anti₀ (by norm_num) r1
    refine le_trans ?_ (sub_le_sub_left this 1)
    norm_num
  · refine (Real.log_le_sub_one_of_pos hr).trans ?_
    norm_num at r2 ⊢; linarith

/-- `ln_gamma` for arguments from ½ on -/
theorem lnLanczos_error {z : ℝ} (hz : 1 / 2 ≤ z) : |lnLanczos z - Real.log (Real.Gamma z)| ≤ 2e-17 := by
  obtain ⟨y, hy, rfl⟩ : ∃ y, 0 ≤ y ∧ z = y + 1 / 2 := ⟨z - 1 / 2, by linarith, by ring⟩
  have key := lanczos_log_error (S := dkVal) (N := dkN) (N' := dkN') (N'' := dkN'')
    (D := fun y => 5120000000000000000000000000000 *
    ((y + 1 / 2) * (y + 1 / 2 + 1) * (y + 1 / 2 + 2) * (y + 1 / 2 + 3) * (y + 1 / 2 + 4) * (y + 1 / 2 + 5)
      * (y + 1 / 2 + 6) * (y + 1 / 2 + 7) * (y + 1 / 2 + 8) * (y + 1 / 2 + 9)))
    (K := Real.log (2 * (Real.exp 1 / Real.pi) ^ (0.5 : ℝ)) + 1 / 2) (b := 10900511 / 1000000) (e := 21 / 2) (a := 20)
    (M := 500000000000000)
    (s := 2.48574089138753565546e-5) (by norm_num) (by norm_num) (by norm_num) (by norm_num) (by norm_num)
    dkVal_tendsto (fun y hy => dkN_pos hy) (fun y => (dkN_deriv y).1) (fun y => (dkN_deriv y).2)
    (fun y hy => by positivity) (fun y hy => by ring) (fun y hy => dkVal_dkN hy)
    (fun y hy => defect_abs_le (by positivity) (by positivity) (by positivity) (dkN_pos hy)
      (dkN_pos (by linarith)) (by positivity) (by norm_num) (dk_upper hy) (dk_lower hy)) hy
  have hL : lnLanczos (y + 1 / 2) = Real.log (2 * (Real.exp 1 / Real.pi) ^ (0.5 : ℝ)) + 1 / 2
      + y * Real.log (y + 10900511 / 1000000) - (y + 1 / 2) + Real.log (dkVal (y + 1 / 2)) := by
    unfold lnLanczos
    rw [show y + 1 / 2 - 0.5 = y by norm_num, show y + 10.900511 = y + 10900511 / 1000000 by norm_num,
      Real.log_div (by positivity) (Real.exp_pos 1).ne', Real.log_exp]
    ring
  have hc := dk_const
  rw [show (10.900511 : ℝ) = 10900511 / 1000000 by norm_num] at hc
  rw [hL]
  have hb := inv_bound hy (by norm_num : (0 : ℝ) < 20) (by norm_num : (0 : ℝ) ≤ 1 / 500000000000000 / 6)
  have hn : (1 : ℝ) / 500000000000000 / 6 * (1 / 20 ^ 2 + 1 / 20) ≤ 1.76e-17 := by norm_num
  have h3 := (key.trans hb).trans hn
  set c := Real.log (2 * (Real.exp 1 / Real.pi) ^ (0.5 : ℝ)) + 1 / 2 + (10900511 / 1000000 - 1 / 2)
    + Real.log 2.48574089138753565546e-5 - Real.log (Real.sqrt (2 * Real.pi))
  rw [abs_le] at h3 hc ⊢
  have n1 : (1.76e-17 : ℝ) + 2e-19 ≤ 2e-17 := by norm_num
  constructor <;> linarith [h3.1, h3.2, hc.1, hc.2]

/-- the main formula of `gamma`, relative error -/
theorem lanczos_error {z : ℝ} (hz : 1 / 2 ≤ z) : |lanczos z - Real.Gamma z| ≤ 3e-12 * Real.Gamma z := by
  have h := log_lanczos_error hz
  have hG := Real.Gamma_pos_of_pos (show 0 < z by linarith)
  have hL := lanczos_pos (show 0 < z by linarith)
  rw [← Real.log_div hL.ne' hG.ne'] at h
  set r := lanczos z / Real.Gamma z with hr
  have hr0 : 0 < r := div_pos hL hG
  have e : lanczos z = r * Real.Gamma z := by rw [hr]; field_simp
  have h1 := Real.one_sub_inv_le_log_of_pos hr0
  have h2 := Real.log_le_sub_one_of_pos hr0
  rw [abs_le] at h
  have l1 : (1 - 3e-12 : ℝ) ≤ r := by
    have : (1 - 2.6e-12 : ℝ) ≤ r := by linarith [h.1]
    refine le_trans ?_ this; norm_num
  have l2 : r ≤ 1 + 3e-12 := by
    have h3 : (1 - 2.6e-12 : ℝ) ≤ r⁻¹ := by linarith [h.2]
    have h4 : r ≤ (1 - 2.6e-12 : ℝ)⁻¹ := by
      rw [← inv_inv r]; exact inv_anti₀ (by norm_num) h3
    refine h4.trans ?_; norm_num
  rw [e, abs_le]
  constructor <;> nlinarith

/-- `gamma` is the gamma function with a relative error of at most `4e-12`, for every argument that is no pole; at
the poles it panics. -/
theorem C48_gamma_accuracy (z : ℝ) (hp : ∀ n : ℕ, z ≠ -(n : ℝ)) :
    ∃ v, gamma z = some v ∧ |v - Real.Gamma z| ≤ 4e-12 * |Real.Gamma z| := by
  by_cases hz : z < 1 / 2
  · have h1 : (1 : ℝ) / 2 ≤ 1 - z := by linarith
    obtain ⟨u, v, hu, hv, huv⟩ := C48_gamma_reflection z (by norm_num; linarith) hp
    rw [gamma_of_ge (by norm_num; linarith)] at hv
    obtain rfl : lanczos (1 - z) = v := Option.some.inj hv
    refine ⟨u, hu, ?_⟩
    have hr := Real.Gamma_mul_Gamma_one_sub z
    have hG := Real.Gamma_pos_of_pos (show 0 < 1 - z by linarith)
    have hL := lanczos_pos (show 0 < 1 - z by linarith)
    have he := lanczos_error h1
    rw [← hr] at huv
    have e : u = Real.Gamma z * Real.Gamma (1 - z) / lanczos (1 - z) := by
      rw [eq_div_iff hL.ne', huv]
    have e2 : u - Real.Gamma z = Real.Gamma z * ((Real.Gamma (1 - z) - lanczos (1 - z)) / lanczos (1 - z)) := by
      rw [e]; field_simp
    rw [e2, abs_mul, mul_comm (4e-12)]
    refine mul_le_mul_of_nonneg_left ?_ (abs_nonneg _)
    rw [abs_div, abs_of_pos hL, div_le_iff₀ hL, abs_sub_comm]
    rw [abs_le] at he ⊢
    norm_num at he ⊢
    constructor <;> nlinarith [he.1, he.2]
  · have h1 : (1 : ℝ) / 2 ≤ z := not_lt.1 hz
    refine ⟨_, gamma_of_ge (by norm_num; linarith), ?_⟩
    have hG := Real.Gamma_pos_of_pos (show 0 < z by linarith)
    rw [abs_of_pos hG]
    refine (lanczos_error h1).trans ?_
    norm_num
    linarith

example : ∃ v, gamma 5 = some v ∧ |v - 24| ≤ 1e-10 := by
  obtain ⟨v, hv, h⟩ := C48_gamma_accuracy 5 (fun n hn => by
    have : (0 : ℝ) ≤ n := Nat.cast_nonneg n
    linarith)
  have e : Real.Gamma 5 = 24 := by
    rw [show (5 : ℝ) = ((4 : ℕ) : ℝ) + 1 by norm_num, Real.Gamma_nat_eq_factorial]
    norm_num [Nat.factorial]
  rw [e] at h
  exact ⟨v, hv, h.trans (by norm_num)⟩

/-- The method `ln_gamma` has a value exactly where the gamma function is positive, and there it is its logarithm with
an absolute error of at most `2e-17`. -/
theorem C48_ln_gamma_accuracy (x : ℝ) :
    (lnGamma x = none ↔ Real.Gamma x ≤ 0) ∧
    (0 < Real.Gamma x → ∃ v, lnGamma x = some v ∧ |v - Real.log (Real.Gamma x)| ≤ 2e-17) := by
  by_cases hx : x < 1 / 2
  · have hx' : x < 0.5 := by norm_num; linarith
    have h1 : (1 : ℝ) / 2 ≤ 1 - x := by linarith
    have hr := Real.Gamma_mul_Gamma_one_sub x
    have hG := Real.Gamma_pos_of_pos (show 0 < 1 - x by linarith)
    have hpi := Real.pi_pos
    by_cases hs : 0 < Real.sin (Real.pi * x)
    · have hpos : 0 < Real.Gamma x := by
        have : 0 < Real.Gamma x * Real.Gamma (1 - x) := by rw [hr]; positivity
        exact pos_of_mul_pos_left this hG.le
      have hv := lnGamma_of_lt hx' hs
      refine ⟨⟨fun h => ?_, fun h => absurd hpos (not_lt.2 h)⟩, fun _ => ⟨_, hv, ?_⟩⟩
      · rw [h] at hv; cases hv
      · have hl : Real.log (Real.Gamma x) + Real.log (Real.Gamma (1 - x))
            = Real.log Real.pi - Real.log (Real.sin (Real.pi * x)) := by
          rw [← Real.log_mul hpos.ne' hG.ne', hr, Real.log_div hpi.ne' hs.ne']
        have := lnLanczos_error h1
        rw [abs_sub_comm] at this
        refine le_of_eq_of_le ?_ this
        congr 1
        linarith
    · have hs' := not_lt.1 hs
      have hneg : Real.Gamma x ≤ 0 := by
        have : Real.Gamma x * Real.Gamma (1 - x) ≤ 0 := by
          rw [hr]; exact div_nonpos_of_nonneg_of_nonpos hpi.le hs'
        by_contra hc
        exact absurd (mul_pos (not_le.1 hc) hG) (not_lt.2 this)
      exact ⟨⟨fun _ => hneg, fun _ => lnGamma_of_lt_none hx' hs'⟩, fun h => absurd h (not_lt.2 hneg)⟩
  · have h1 : (1 : ℝ) / 2 ≤ x := not_lt.1 hx
    have hG := Real.Gamma_pos_of_pos (show 0 < x by linarith)
    have hv := lnGamma_of_ge (x := x) (by norm_num; linarith)
    refine ⟨⟨fun h => ?_, fun h => absurd hG (not_lt.2 h)⟩, fun _ => ⟨_, hv, lnLanczos_error h1⟩⟩
    rw [h] at hv; cases hv

example : ∃ v, lnGamma 5 = some v ∧ |v - Real.log 24| ≤ 2e-17 := by
  have e : Real.Gamma 5 = 24 := by
    rw [show (5 : ℝ) = ((4 : ℕ) : ℝ) + 1 by norm_num, Real.Gamma_nat_eq_factorial]
    norm_num [Nat.factorial]
  have := (C48_ln_gamma_accuracy 5).2 (by rw [e]; norm_num)
  rwa [e] at this

/-- `beta` is the beta function `Γ(x)Γ(y)/Γ(x+y)` with a relative error of at most `2e-11` for positive arguments. -/
theorem C48_beta_accuracy (x y : ℝ) (hx : 0 < x) (hy : 0 < y) :
    ∃ v, beta x y = some v ∧
      |v - Real.Gamma x * Real.Gamma y / Real.Gamma (x + y)|
        ≤ 2e-11 * (Real.Gamma x * Real.Gamma y / Real.Gamma (x + y)) := by
  have nopole : ∀ {t : ℝ}, 0 < t → ∀ n : ℕ, t ≠ -(n : ℝ) := fun {t} ht n hn => by
    have : (0 : ℝ) ≤ n := Nat.cast_nonneg n
    linarith
  obtain ⟨gx, gy, g, h1, h2, h3, hb, -⟩ := (C48_beta x y).2 hx hy
  have bound : ∀ {t v : ℝ}, 0 < t → gamma t = some v →
      (1 - 4e-12) * Real.Gamma t ≤ v ∧ v ≤ (1 + 4e-12) * Real.Gamma t := by
    intro t v ht hv
    obtain ⟨w, hw, he⟩ := C48_gamma_accuracy t (nopole ht)
    rw [hv] at hw
    obtain rfl := Option.some.inj hw
    rw [abs_of_pos (Real.Gamma_pos_of_pos ht), abs_le] at he
    constructor <;> linarith [he.1, he.2]
  obtain ⟨x1, x2⟩ := bound hx h1
  obtain ⟨y1, y2⟩ := bound hy h2
  obtain ⟨z1, z2⟩ := bound (add_pos hx hy) h3
  have px := Real.Gamma_pos_of_pos hx
  have py := Real.Gamma_pos_of_pos hy
  have pz := Real.Gamma_pos_of_pos (add_pos hx hy)
  refine ⟨_, hb, ?_⟩
  have c0 : (0 : ℝ) < 1 - 4e-12 := by norm_num
  have q0 : 0 < g := lt_of_lt_of_le (by positivity) z1
  have qx : 0 < gx := lt_of_lt_of_le (by positivity) x1
  have qy : 0 < gy := lt_of_lt_of_le (by positivity) y1
  set B := Real.Gamma x * Real.Gamma y / Real.Gamma (x + y) with hB
  have pB : 0 < B := by positivity
  have u1 : gx * gy / g ≤ ((1 + 4e-12) * Real.Gamma x) * ((1 + 4e-12) * Real.Gamma y)
      / ((1 - 4e-12) * Real.Gamma (x + y)) := by gcongr
  have u2 : ((1 + 4e-12) * Real.Gamma x) * ((1 + 4e-12) * Real.Gamma y) / ((1 - 4e-12) * Real.Gamma (x + y))
      = (1 + 4e-12) ^ 2 / (1 - 4e-12) * B := by
    rw [hB]; field_simp
  have l1 : ((1 - 4e-12) * Real.Gamma x) * ((1 - 4e-12) * Real.Gamma y) / ((1 + 4e-12) * Real.Gamma (x + y))
      ≤ gx * gy / g := by gcongr
  have l2 : ((1 - 4e-12) * Real.Gamma x) * ((1 - 4e-12) * Real.Gamma y) / ((1 + 4e-12) * Real.Gamma (x + y))
      = (1 - 4e-12) ^ 2 / (1 + 4e-12) * B := by
    rw [hB]; field_simp
  have c1 : ((1 + 4e-12) ^ 2 / (1 - 4e-12) : ℝ) ≤ 1 + 2e-11 := by norm_num
  have c2 : (1 - 2e-11 : ℝ) ≤ (1 - 4e-12) ^ 2 / (1 + 4e-12) := by norm_num
  have k1 := mul_le_mul_of_nonneg_right c1 pB.le
  have k2 := mul_le_mul_of_nonneg_right c2 pB.le
  rw [abs_le]
  constructor <;> linarith

example : ∃ v, beta 2 3 = some v ∧ |v - 1 / 12| ≤ 2e-12 := by
  have e2 : Real.Gamma 2 = 1 := by
    rw [show (2 : ℝ) = ((1 : ℕ) : ℝ) + 1 by norm_num, Real.Gamma_nat_eq_factorial]
    norm_num [Nat.factorial]
  have e3 : Real.Gamma 3 = 2 := by
    rw [show (3 : ℝ) = ((2 : ℕ) : ℝ) + 1 by norm_num, Real.Gamma_nat_eq_factorial]
    norm_num [Nat.factorial]
  have e5 : Real.Gamma (2 + 3) = 24 := by
    rw [show (2 + 3 : ℝ) = ((4 : ℕ) : ℝ) + 1 by norm_num, Real.Gamma_nat_eq_factorial]
    norm_num [Nat.factorial]
  obtain ⟨v, hv, h⟩ := C48_beta_accuracy 2 3 (by norm_num) (by norm_num)
  rw [e2, e3, e5] at h
  refine ⟨v, hv, ?_⟩
  norm_num at h ⊢
  linarith

end Special
end Verif
