import Verif.ContProps
import Mathlib.Probability.Distributions.Gaussian.Real
import Mathlib.MeasureTheory.Function.JacobianOneDim
import Mathlib.Analysis.SpecialFunctions.Gaussian.GaussianIntegral

/-! # Normal and log-normal distributions: C58 and C69 -/

namespace Verif
namespace Stat
open MeasureTheory Set Filter

/-! ## Specifications -/

/-- the Gaussian density with mean `m` and variance `v` -/
noncomputable def gauss (m v x : ℝ) : ℝ := 1 / √(2 * Real.pi * v) * Real.exp (-(x - m) ^ 2 / (2 * v))

/-- the error function -/
noncomputable def erfSpec (x : ℝ) : ℝ := 2 / √Real.pi * ∫ t in (0 : ℝ)..x, Real.exp (-t ^ 2)

theorem gauss_eq (m : ℝ) {v : ℝ} (hv : 0 ≤ v) : gauss m v = ProbabilityTheory.gaussianPDFReal m v.toNNReal := by
  ext x; simp [gauss, ProbabilityTheory.gaussianPDFReal, Real.coe_toNNReal v hv]

theorem gauss_integrable (m : ℝ) {v : ℝ} (hv : 0 < v) : Integrable (gauss m v) := by
  rw [gauss_eq m hv.le]; exact ProbabilityTheory.integrable_gaussianPDFReal _ _

theorem gauss_integral (m : ℝ) {v : ℝ} (hv : 0 < v) : ∫ x, gauss m v x = 1 := by
  rw [gauss_eq m hv.le]
  exact ProbabilityTheory.integral_gaussianPDFReal_eq_one m (Real.toNNReal_pos.2 hv).ne'

theorem gauss_pos (m : ℝ) {v : ℝ} (hv : 0 < v) (x : ℝ) : 0 < gauss m v x := by
  unfold gauss
  have := Real.pi_pos
  positivity

theorem gauss_expect (m : ℝ) {v : ℝ} (hv : 0 < v) (f : ℝ → ℝ) :
    ∫ x, f x * gauss m v x = ∫ x, f x ∂(ProbabilityTheory.gaussianReal m v.toNNReal) := by
  rw [ProbabilityTheory.integral_gaussianReal_eq_integral_smul (Real.toNNReal_pos.2 hv).ne',
    gauss_eq m hv.le]
  simp [mul_comm]

theorem gauss_mean (m : ℝ) {v : ℝ} (hv : 0 < v) : ∫ x, x * gauss m v x = m := by
  rw [gauss_expect m hv (fun x => x)]
  exact ProbabilityTheory.integral_id_gaussianReal

theorem gauss_variance (m : ℝ) {v : ℝ} (hv : 0 < v) : ∫ x, (x - m) ^ 2 * gauss m v x = v := by
  rw [gauss_expect m hv (fun x => (x - m) ^ 2)]
  have h := ProbabilityTheory.variance_id_gaussianReal (μ := m) (v := v.toNNReal)
  rw [ProbabilityTheory.variance_eq_integral aemeasurable_id] at h
  simp only [id] at h
  rw [ProbabilityTheory.integral_id_gaussianReal, Real.coe_toNNReal v hv.le] at h
  exact h

theorem gauss_sq_integrable (m : ℝ) {v : ℝ} (hv : 0 < v) : Integrable (fun x => (x - m) ^ 2 * gauss m v x) := by
  by_contra hc
  have := gauss_variance m hv
  rw [integral_undef hc] at this
  linarith

theorem gauss_log (m : ℝ) {v : ℝ} (hv : 0 < v) (x : ℝ) :
    -Real.log (gauss m v x) = Real.log (2 * Real.pi * v) / 2 + 1 / (2 * v) * (x - m) ^ 2 := by
  have hp : 0 < 2 * Real.pi * v := by have := Real.pi_pos; positivity
  rw [gauss, Real.log_mul (by positivity) (Real.exp_pos _).ne', Real.log_exp, one_div, Real.log_inv,
    Real.log_sqrt hp.le]
  field_simp
  ring

/-- the differential entropy of the Gaussian density -/
theorem gauss_entropy (m : ℝ) {v : ℝ} (hv : 0 < v) :
    ∫ x, -Real.log (gauss m v x) * gauss m v x = 1 / 2 * Real.log (2 * Real.pi * Real.exp 1 * v) := by
  have hp : 0 < 2 * Real.pi * v := by have := Real.pi_pos; positivity
  have e : (fun x => -Real.log (gauss m v x) * gauss m v x) = fun x =>
      Real.log (2 * Real.pi * v) / 2 * gauss m v x + 1 / (2 * v) * ((x - m) ^ 2 * gauss m v x) := by
    ext x; rw [gauss_log m hv]; ring
  rw [e, integral_add ((gauss_integrable m hv).const_mul _) ((gauss_sq_integrable m hv).const_mul _),
    integral_const_mul, integral_const_mul, gauss_integral m hv, gauss_variance m hv,
    show 2 * Real.pi * Real.exp 1 * v = 2 * Real.pi * v * Real.exp 1 by ring,
    Real.log_mul hp.ne' (Real.exp_pos _).ne', Real.log_exp]
  field_simp

theorem erfSpec_hasDerivAt (x : ℝ) : HasDerivAt erfSpec (2 / √Real.pi * Real.exp (-x ^ 2)) x := by
  have hc : Continuous fun t : ℝ => Real.exp (-t ^ 2) := by fun_prop
  exact (intervalIntegral.integral_hasDerivAt_right (hc.intervalIntegrable _ _)
    (hc.stronglyMeasurableAtFilter _ _) hc.continuousAt).const_mul _

theorem erfSpec_neg (x : ℝ) : erfSpec (-x) = -erfSpec x := by
  unfold erfSpec
  have := intervalIntegral.integral_comp_neg (a := 0) (b := x) (fun t => Real.exp (-t ^ 2))
  simp only [neg_sq, neg_zero] at this
  rw [this, intervalIntegral.integral_symm (-x) 0]
  ring

theorem erfSpec_atTop : Tendsto erfSpec atTop (nhds 1) := by
  have hi : IntegrableOn (fun t : ℝ => Real.exp (-t ^ 2)) (Ioi 0) := by
    have := (integrable_exp_neg_mul_sq (b := 1) one_pos).integrableOn (s := Ioi 0)
    simpa using this
  have h := (intervalIntegral_tendsto_integral_Ioi (0 : ℝ) hi tendsto_id).const_mul (2 / √Real.pi)
  have g := integral_gaussian_Ioi 1
  simp only [neg_mul, one_mul, div_one] at g
  rw [g, show 2 / √Real.pi * (√Real.pi / 2) = 1 by
    have : √Real.pi ≠ 0 := (Real.sqrt_pos.2 Real.pi_pos).ne'
    field_simp] at h
  exact h

theorem erfSpec_atBot : Tendsto erfSpec atBot (nhds (-1)) := by
  have := (erfSpec_atTop.comp tendsto_neg_atBot_atTop).neg
  refine this.congr fun x => ?_
  simp [erfSpec_neg]

/-! ## C58 normal -/

/-- C58: `new` panics exactly for variances `≤ 0`. -/
theorem C58_new (m v : ℝ) : normalNew m v = none ↔ v ≤ 0 := by
  unfold normalNew; split_ifs with h <;> simp [h]

theorem normalNew_some {m v : ℝ} {d : ℝ × ℝ} (h : normalNew m v = some d) : d = (m, v) ∧ 0 < v := by
  unfold normalNew at h
  split_ifs at h with h1
  exact ⟨(Option.some.inj h).symm, not_le.1 h1⟩

/-- C58 (partial): for variance 1 `pdf` is the Gaussian density.  Missing: all other variances, where it is false
(`C58_pdf_violated`). -/
theorem C58_pdf_partial (m x : ℝ) : normalPdf (m, 1) x = gauss m 1 x := by
  unfold normalPdf gauss
  rw [show (1 : ℝ) * 2 * Real.pi = 2 * Real.pi * 1 by ring, div_one]
  congr 2
  norm_num
  ring

/-- C58 is violated: the exponent divides by the variance instead of the standard deviation.  `pdf` integrates to the
standard deviation, it is the Gaussian density only for variance 1, and it is a density only then. -/
theorem C58_pdf_violated {m v : ℝ} {d : ℝ × ℝ} (h : normalNew m v = some d) :
    ∫ x, normalPdf d x = √v ∧ (∫ x, normalPdf d x = 1 ↔ v = 1) ∧ ((∀ x, normalPdf d x = gauss m v x) ↔ v = 1) := by
  obtain ⟨rfl, hv⟩ := normalNew_some h
  have hp := Real.pi_pos
  have hI : ∫ x, normalPdf (m, v) x = √v := by
    have e : normalPdf (m, v) = fun x => 1 / √(v * 2 * Real.pi) * Real.exp (-(1 / (2 * v ^ 2)) * (x - m) ^ 2) := by
      ext x; unfold normalPdf
      congr 2
      simp only
      norm_num
      field_simp
    rw [e, integral_const_mul, integral_sub_right_eq_self (fun x => Real.exp (-(1 / (2 * v ^ 2)) * x ^ 2)) m,
      integral_gaussian, show Real.pi / (1 / (2 * v ^ 2)) = v * 2 * Real.pi * v by field_simp,
      Real.sqrt_mul (show 0 ≤ v * 2 * Real.pi by positivity)]
    have hq : √(v * 2 * Real.pi) ≠ 0 := (Real.sqrt_pos.2 (by positivity)).ne'
    clear e
    generalize √(v * 2 * Real.pi) = q at *
    field_simp
  refine ⟨hI, ?_, ⟨fun h => ?_, fun h x => ?_⟩⟩
  · rw [hI, Real.sqrt_eq_one]
  · have h1 := h (m + 1)
    unfold normalPdf gauss at h1
    simp only [add_sub_cancel_left] at h1
    rw [show v * 2 * Real.pi = 2 * Real.pi * v by ring] at h1
    have : 1 / √(2 * Real.pi * v) ≠ 0 := (one_div_pos.2 (Real.sqrt_pos.2 (by positivity))).ne'
    have h2 := Real.exp_injective (mul_left_cancel₀ this h1)
    norm_num at h2
    field_simp at h2
    linarith
  · subst h; exact C58_pdf_partial m x

theorem normalCdf_hasDerivAt (m : ℝ) {v : ℝ} (hv : 0 < v) (x : ℝ) :
    HasDerivAt (normalCdf erfSpec (m, v)) (gauss m v x) x := by
  have hp := Real.pi_pos
  have hs : 0 < √(2 * v) := Real.sqrt_pos.2 (by positivity)
  have h1 : HasDerivAt (fun x => (x - m) / √(2 * v)) (1 / √(2 * v)) x := ((hasDerivAt_id x).sub_const m).div_const _
  have h2 := ((((erfSpec_hasDerivAt ((x - m) / √(2 * v))).comp x h1).const_add 1).const_mul 0.5)
  refine h2.congr_deriv ?_
  unfold gauss
  rw [div_pow, Real.sq_sqrt (by positivity), show 2 * Real.pi * v = Real.pi * (2 * v) by ring, Real.sqrt_mul hp.le,
    neg_div]
  have : √Real.pi ≠ 0 := (Real.sqrt_pos.2 hp).ne'
  field_simp
  ring

/-- C58 (partial): if `erf` is the error function, then `cdf` is the distribution function of the Gaussian density, and
has the Gaussian density as derivative.  Missing: that `special::error::erf` is the error function up to a small error, see `C58_cdf` (it is computed by a
truncated continued fraction or series). -/
theorem C58_cdf_partial {m v : ℝ} {d : ℝ × ℝ} (h : normalNew m v = some d) (x : ℝ) :
    normalCdf erfSpec d x = ∫ t in Iic x, gauss m v t ∧ HasDerivAt (normalCdf erfSpec d) (gauss m v x) x := by
  obtain ⟨rfl, hv⟩ := normalNew_some h
  refine ⟨?_, normalCdf_hasDerivAt m hv x⟩
  have hs : 0 < √(2 * v) := Real.sqrt_pos.2 (by positivity)
  have ht : Tendsto (normalCdf erfSpec (m, v)) atBot (nhds 0) := by
    have h1 : Tendsto (fun x : ℝ => (x - m) / √(2 * v)) atBot atBot :=
      (tendsto_atBot_add_const_right _ (-m) tendsto_id).atBot_div_const hs
    have := ((erfSpec_atBot.comp h1).const_add 1).const_mul 0.5
    rw [show (0.5 : ℝ) * (1 + -1) = 0 by norm_num] at this
    exact this
  rw [integral_Iic_of_hasDerivAt_of_tendsto' (fun t _ => normalCdf_hasDerivAt m hv t)
    (gauss_integrable m hv).integrableOn ht, sub_zero]

/-- C58: with any odd `erf` the distribution function is symmetric around the mean, and the median has probability 1/2. -/
theorem C58_cdf_symm {erf : ℝ → ℝ} (herf : ∀ x, erf (-x) = -erf x) (d : ℝ × ℝ) (t : ℝ) :
    normalCdf erf d (normalMean d + t) + normalCdf erf d (normalMean d - t) = 1 ∧
      normalCdf erf d (normalMedian d) = 1 / 2 := by
  have h0 : erf 0 = 0 := by have := herf 0; rw [neg_zero] at this; linarith
  constructor
  · unfold normalCdf normalMean
    rw [add_sub_cancel_left, show d.1 - t - d.1 = -t by ring, neg_div, herf]
    norm_num
    ring
  · unfold normalCdf normalMedian
    rw [sub_self, zero_div, h0]; norm_num

theorem normalPpnd_inr {p : ℝ} (h0 : 0 < p) (h1 : p < 1) : ∃ v, normalPpnd p = .inr v ∧ normalPpnd (1 - p) = .inr (-v) := by
  unfold normalPpnd
  simp only
  have hq : 1 - p - 0.5 = -(p - 0.5) := by ring
  rw [hq, abs_neg]
  by_cases c : |p - 0.5| ≤ 0.425
  · rw [if_pos c, if_pos c]
    exact ⟨_, rfl, by rw [neg_mul_neg, neg_mul]⟩
  · rw [if_neg c, if_neg c]
    have hne : p - 0.5 ≠ 0 := by intro h; rw [h] at c; norm_num at c
    rcases lt_or_gt_of_ne hne with hn | hn
    · rw [if_pos hn, if_neg (by linarith : ¬ -(p - 0.5) < 0), sub_sub_cancel, if_neg (not_le.2 h0), if_neg (not_le.2 h0),
        if_pos hn.le, if_neg (by linarith : ¬ -(p - 0.5) ≤ 0)]
      exact ⟨_, rfl, by rw [neg_neg]⟩
    · rw [if_neg (by linarith : ¬ p - 0.5 < 0), if_pos (by linarith : -(p - 0.5) < 0), if_neg (by linarith : ¬ 1 - p ≤ 0),
        if_neg (by linarith : ¬ 1 - p ≤ 0), if_neg (by linarith : ¬ p - 0.5 ≤ 0), if_pos (by linarith : -(p - 0.5) ≤ 0)]
      exact ⟨_, rfl, rfl⟩

/-- C58: `quantile` panics exactly outside `(0, 1)`, is symmetric around the mean, and `quantile(1/2)` is the median. -/
theorem C58_quantile (d : ℝ × ℝ) :
    (∀ p, normalQuantile d p = none ↔ p ≤ 0 ∨ 1 ≤ p) ∧
    (∀ p a b, normalQuantile d p = some a → normalQuantile d (1 - p) = some b → a + b = 2 * normalMean d) ∧
    normalQuantile d (1 / 2) = some (normalMedian d) := by
  have hv : ∀ p, 0 < p → p < 1 → ∃ v, normalQuantile d p = some (d.1 + √d.2 * v) ∧
      normalQuantile d (1 - p) = some (d.1 + √d.2 * -v) := fun p h0 h1 => by
    obtain ⟨v, e1, e2⟩ := normalPpnd_inr h0 h1
    refine ⟨v, ?_, ?_⟩
    · rw [normalQuantile, if_neg (by push Not; exact ⟨h0, h1⟩), e1]
    · rw [normalQuantile, if_neg (by push Not; constructor <;> linarith), e2]
  refine ⟨fun p => ?_, fun p a b ha hb => ?_, ?_⟩
  · by_cases c : p ≤ 0 ∨ 1 ≤ p
    · rw [normalQuantile, if_pos c]; simp [c]
    · obtain ⟨v, e, -⟩ := hv p (by by_contra hc; exact c (Or.inl (not_lt.1 hc)))
        (by by_contra hc; exact c (Or.inr (not_lt.1 hc)))
      rw [e]; simp [c]
  · have c : 0 < p ∧ p < 1 := by
      by_contra c
      rw [normalQuantile, if_pos (by
        by_contra hc; push Not at hc; exact c hc)] at ha
      simp at ha
    obtain ⟨v, e1, e2⟩ := hv p c.1 c.2
    rw [e1] at ha; rw [e2] at hb
    cases ha; cases hb
    unfold normalMean; ring
  · rw [normalQuantile, if_neg (by norm_num)]
    have : normalPpnd (1 / 2) = .inr 0 := by
      unfold normalPpnd; norm_num
    rw [this]; simp [normalMedian]

/-- C58 is violated: `entropy` returns `2 π e σ²` instead of the differential entropy `½ ln(2 π e σ²)` of the Gaussian
density; the two differ for every variance. -/
theorem C58_entropy_violated {m v : ℝ} {d : ℝ × ℝ} (h : normalNew m v = some d) :
    ∫ x, -Real.log (gauss m v x) * gauss m v x = 1 / 2 * Real.log (2 * Real.pi * Real.exp 1 * v) ∧
      normalEntropy d ≠ 1 / 2 * Real.log (2 * Real.pi * Real.exp 1 * v) := by
  obtain ⟨rfl, hv⟩ := normalNew_some h
  refine ⟨gauss_entropy m hv, fun h => ?_⟩
  unfold normalEntropy at h
  simp only at h
  have hp : 0 < 2 * Real.pi * Real.exp 1 * v := by have := Real.pi_pos; positivity
  have := Real.log_le_sub_one_of_pos hp
  linarith

/-- C58: `mean` and `variance` are those of the Gaussian density. -/
theorem C58_moments {m v : ℝ} {d : ℝ × ℝ} (h : normalNew m v = some d) :
    normalMean d = ∫ x, x * gauss m v x ∧ normalVariance d = ∫ x, (x - normalMean d) ^ 2 * gauss m v x := by
  obtain ⟨rfl, hv⟩ := normalNew_some h
  exact ⟨(gauss_mean m hv).symm, (gauss_variance m hv).symm⟩

example : normalPdf (1, 4) 5 = 1 / √(8 * Real.pi) * Real.exp (-1 / 2) ∧
    gauss 1 4 5 = 1 / √(8 * Real.pi) * Real.exp (-2) := by
  constructor
  · unfold normalPdf; norm_num
  · unfold gauss
    rw [show 2 * Real.pi * 4 = 8 * Real.pi by ring]; norm_num

end Stat
end Verif
