import Verif.NormalProps
import Mathlib.Analysis.SpecialFunctions.Log.Base

/-! # The log-normal distribution: C69 -/

namespace Verif
namespace Stat
open MeasureTheory Set Filter

/-- the log-normal density: the density of `exp Y` for a Gaussian `Y` -/
noncomputable def lnDens (m v x : ℝ) : ℝ := if 0 < x then gauss m v (Real.log x) / x else 0

theorem lnDens_expect (m v : ℝ) (h : ℝ → ℝ) (c : ℝ) :
    ∫ x in Ioc 0 (Real.exp c), h x * lnDens m v x = ∫ y in Iic c, h (Real.exp y) * gauss m v y := by
  have hi : Real.exp '' Iic c = Ioc 0 (Real.exp c) := by
    ext x; constructor
    · rintro ⟨y, hy, rfl⟩; exact ⟨Real.exp_pos y, Real.exp_le_exp.2 hy⟩
    · rintro ⟨h1, h2⟩
      exact ⟨Real.log x, by rw [mem_Iic, Real.log_le_iff_le_exp h1]; exact h2, Real.exp_log h1⟩
  have := integral_image_eq_integral_abs_deriv_smul (f := Real.exp) (f' := Real.exp) (measurableSet_Iic (a := c))
    (fun x _ => (Real.hasDerivAt_exp x).hasDerivWithinAt) Real.exp_injective.injOn (fun x => h x * lnDens m v x)
  rw [hi] at this
  rw [this]
  refine setIntegral_congr_fun measurableSet_Iic fun y _ => ?_
  have hy := Real.exp_pos y
  simp only [lnDens, if_pos hy, abs_of_pos hy, Real.log_exp, smul_eq_mul]
  field_simp

theorem lnDens_expect_univ (m v : ℝ) (h : ℝ → ℝ) :
    ∫ x, h x * lnDens m v x = ∫ y, h (Real.exp y) * gauss m v y := by
  have e : (fun x => h x * lnDens m v x) = (Ioi (0 : ℝ)).indicator fun x => h x * lnDens m v x := by
    ext x
    by_cases hx : x ∈ Ioi (0 : ℝ)
    · rw [indicator_of_mem hx]
    · rw [indicator_of_notMem hx, lnDens, if_neg (show ¬ 0 < x from hx), mul_zero]
  rw [e, integral_indicator measurableSet_Ioi]
  have hi : Real.exp '' univ = Ioi 0 := by rw [image_univ, Real.range_exp]
  have := integral_image_eq_integral_abs_deriv_smul (f := Real.exp) (f' := Real.exp) MeasurableSet.univ
    (fun x _ => (Real.hasDerivAt_exp x).hasDerivWithinAt) Real.exp_injective.injOn (fun x => h x * lnDens m v x)
  rw [hi, setIntegral_univ] at this
  rw [this]
  congr 1
  ext y
  have hy := Real.exp_pos y
  simp only [lnDens, if_pos hy, abs_of_pos hy, Real.log_exp, smul_eq_mul]
  field_simp

theorem gauss_mgf (m : ℝ) {v : ℝ} (hv : 0 < v) (t : ℝ) :
    ∫ y, Real.exp (t * y) * gauss m v y = Real.exp (m * t + v * t ^ 2 / 2) := by
  rw [gauss_expect m hv (fun y => Real.exp (t * y))]
  have := congrFun (ProbabilityTheory.mgf_id_gaussianReal (μ := m) (v := v.toNNReal)) t
  rw [ProbabilityTheory.mgf, Real.coe_toNNReal v hv.le] at this
  exact this

theorem gauss_mgf_integrable (m : ℝ) {v : ℝ} (hv : 0 < v) (t : ℝ) :
    Integrable fun y => Real.exp (t * y) * gauss m v y := by
  by_contra hc
  have := gauss_mgf m hv t
  rw [integral_undef hc] at this
  exact (Real.exp_pos _).ne this

theorem ln_poly (m : ℝ) {v : ℝ} (hv : 0 < v) (c0 c1 c2 c3 : ℝ) :
    ∫ x, (c0 + c1 * x + c2 * x ^ 2 + c3 * x ^ 3) * lnDens m v x =
      c0 + c1 * Real.exp (m + v / 2) + c2 * Real.exp (m + v / 2) ^ 2 * Real.exp v +
        c3 * Real.exp (m + v / 2) ^ 3 * Real.exp v ^ 3 := by
  have g := gauss_mgf m hv
  have i := gauss_mgf_integrable m hv
  rw [lnDens_expect_univ]
  have e : (fun y => (c0 + c1 * Real.exp y + c2 * Real.exp y ^ 2 + c3 * Real.exp y ^ 3) * gauss m v y) = fun y =>
      c0 * (Real.exp (0 * y) * gauss m v y) + c1 * (Real.exp (1 * y) * gauss m v y) +
        c2 * (Real.exp (2 * y) * gauss m v y) + c3 * (Real.exp (3 * y) * gauss m v y) := by
    ext y
    rw [show Real.exp (2 * y) = Real.exp y ^ 2 by rw [← Real.exp_nat_mul]; norm_num,
      show Real.exp (3 * y) = Real.exp y ^ 3 by rw [← Real.exp_nat_mul]; norm_num]
    simp; ring
  have j0 := (i 0).const_mul c0
  have j1 := (i 1).const_mul c1
  have j2 := (i 2).const_mul c2
  have j3 := (i 3).const_mul c3
  have j01 : Integrable fun y => c0 * (Real.exp (0 * y) * gauss m v y) + c1 * (Real.exp (1 * y) * gauss m v y) :=
    j0.add j1
  have j012 : Integrable fun y => c0 * (Real.exp (0 * y) * gauss m v y) + c1 * (Real.exp (1 * y) * gauss m v y) +
    c2 * (Real.exp (2 * y) * gauss m v y) := j01.add j2
  rw [e, integral_add j012 j3, integral_add j01 j2, integral_add j0 j1, integral_const_mul, integral_const_mul,
    integral_const_mul, integral_const_mul, g, g, g, g]
  have e2 : Real.exp (m * 2 + v * 2 ^ 2 / 2) = Real.exp (m + v / 2) ^ 2 * Real.exp v := by
    rw [← Real.exp_nat_mul, ← Real.exp_add]; congr 1; push_cast; ring
  have e3 : Real.exp (m * 3 + v * 3 ^ 2 / 2) = Real.exp (m + v / 2) ^ 3 * Real.exp v ^ 3 := by
    rw [← Real.exp_nat_mul, ← Real.exp_nat_mul, ← Real.exp_add]; congr 1; push_cast; ring
  rw [e2, e3]
  simp
  ring

/-- C69: `new` panics exactly for `sigma² ≤ 0`. -/
theorem C69_new (m v : ℝ) : logNormalNew m v = none ↔ v ≤ 0 := by
  unfold logNormalNew; split_ifs with h <;> simp [h]

theorem logNormalNew_some {m v : ℝ} {d : ℝ × ℝ} (h : logNormalNew m v = some d) : d = (m, v) ∧ 0 < v := by
  unfold logNormalNew at h
  split_ifs at h with h1
  exact ⟨(Option.some.inj h).symm, not_le.1 h1⟩

/-- C69 (partial): except at 0, `pdf` is the density of the exponential of a Gaussian variable; `mean`, `variance`,
`skewness` and `entropy` (in bits) are the first moment, the second central moment, the third standardised moment and
the differential entropy of this density; if `erf` is the error function, `cdf` is its distribution function.
Missing: `pdf 0` (`C69_violated`). The accuracy of `special::error::erf` is in `C69_cdf`. -/
theorem C69_partial {m v : ℝ} {d : ℝ × ℝ} (h : logNormalNew m v = some d) :
    (∀ x, x ≠ 0 → logNormalPdf d x = some (lnDens m v x)) ∧ (∀ x, 0 ≤ lnDens m v x) ∧ ∫ x, lnDens m v x = 1 ∧
    logNormalMean d = ∫ x, x * lnDens m v x ∧
    logNormalVariance d = ∫ x, (x - logNormalMean d) ^ 2 * lnDens m v x ∧
    logNormalSkewness d = ∫ x, ((x - logNormalMean d) / √(logNormalVariance d)) ^ 3 * lnDens m v x ∧
    logNormalEntropy d = ∫ x, -Real.logb 2 (lnDens m v x) * lnDens m v x ∧
    ∀ x, logNormalCdf erfSpec d x = ∫ t in Iic x, lnDens m v t := by
  obtain ⟨rfl, hv⟩ := logNormalNew_some h
  have hp := Real.pi_pos
  have hw : 0 < Real.exp v - 1 := by have := Real.add_one_lt_exp hv.ne'; linarith
  have ha := Real.exp_pos (m + v / 2)
  have hV : logNormalVariance (m, v) = Real.exp (m + v / 2) ^ 2 * (Real.exp v - 1) := by
    rw [logNormalVariance, ← Real.exp_nat_mul]
    simp only
    rw [show 2 * m + v = ((2 : ℕ) : ℝ) * (m + v / 2) by push_cast; ring]
    ring
  refine ⟨fun x hx => ?_, fun x => ?_, ?_, ?_, ?_, ?_, ?_, fun x => ?_⟩
  · rcases lt_or_gt_of_ne hx with h1 | h1
    · rw [logNormalPdf, if_pos h1, lnDens, if_neg (by linarith)]
    · rw [logNormalPdf, if_neg (by linarith), if_neg hx, lnDens, if_pos h1, gauss]
      simp only [Option.some.injEq]
      rw [show v * 2 * Real.pi = 2 * Real.pi * v by ring,
        show -0.5 * (Real.log x - m) ^ 2 / v = -(Real.log x - m) ^ 2 / (2 * v) by norm_num; field_simp]
      field_simp
  · unfold lnDens; split_ifs with h1
    · exact div_nonneg (gauss_pos m hv _).le h1.le
    · exact le_rfl
  · have := ln_poly m hv 1 0 0 0
    simpa using this
  · have := ln_poly m hv 0 1 0 0
    simp only [zero_mul, one_mul, zero_add, add_zero] at this
    rw [this, logNormalMean]
  · have := ln_poly m hv (Real.exp (m + v / 2) ^ 2) (-2 * Real.exp (m + v / 2)) 1 0
    rw [hV, show (fun x => (x - logNormalMean (m, v)) ^ 2 * lnDens m v x) = fun x =>
      (Real.exp (m + v / 2) ^ 2 + -2 * Real.exp (m + v / 2) * x + 1 * x ^ 2 + 0 * x ^ 3) * lnDens m v x by
        ext x; rw [logNormalMean]; ring, this]
    ring
  · have hs : √(logNormalVariance (m, v)) = Real.exp (m + v / 2) * √(Real.exp v - 1) := by
      rw [hV, Real.sqrt_mul (by positivity), Real.sqrt_sq ha.le]
    set a := Real.exp (m + v / 2) with hadef
    set q := √(Real.exp v - 1) with hqdef
    have hq : 0 < q := Real.sqrt_pos.2 hw
    have hq2 : Real.exp v = q ^ 2 + 1 := by rw [hqdef, Real.sq_sqrt hw.le]; ring
    have := ln_poly m hv (-a ^ 3 / (a * q) ^ 3) (3 * a ^ 2 / (a * q) ^ 3) (-3 * a / (a * q) ^ 3) (1 / (a * q) ^ 3)
    rw [hs, show (fun x => ((x - logNormalMean (m, v)) / (a * q)) ^ 3 * lnDens m v x) = fun x =>
      (-a ^ 3 / (a * q) ^ 3 + 3 * a ^ 2 / (a * q) ^ 3 * x + -3 * a / (a * q) ^ 3 * x ^ 2 + 1 / (a * q) ^ 3 * x ^ 3)
        * lnDens m v x by
        ext x; rw [logNormalMean, ← hadef]; field_simp; ring, this, logNormalSkewness]
    simp only
    rw [← hqdef, ← hadef, hq2]
    field_simp
    ring
  · have e : (fun x => -Real.logb 2 (lnDens m v x) * lnDens m v x) = fun x =>
        (Real.log x / Real.log 2 + -Real.log (gauss m v (Real.log x)) / Real.log 2) * lnDens m v x := by
      ext x; unfold lnDens; split_ifs with h1
      · rw [Real.logb, Real.log_div (gauss_pos m hv _).ne' h1.ne']; ring
      · simp
    rw [e, lnDens_expect_univ]
    simp only [Real.log_exp]
    have i1 : Integrable fun y => y * gauss m v y := by
      have h1 : Integrable (fun y => (y - m) * gauss m v y) := by
        refine Integrable.mono' (g := fun y => (y - m) ^ 2 * gauss m v y + gauss m v y)
          ((gauss_sq_integrable m hv).add (gauss_integrable m hv)) ?_ (ae_of_all _ fun y => ?_)
        · have : Continuous fun y => (y - m) * gauss m v y := by unfold gauss; fun_prop
          exact this.aestronglyMeasurable
        · rw [norm_mul, Real.norm_of_nonneg (gauss_pos m hv y).le, ← add_one_mul]
          refine mul_le_mul_of_nonneg_right ?_ (gauss_pos m hv y).le
          rw [Real.norm_eq_abs, ← sq_abs]
          nlinarith [abs_nonneg (y - m), sq_nonneg (|y - m| - 1)]
      have h2 := h1.add ((gauss_integrable m hv).const_mul m)
      refine h2.congr (ae_of_all _ fun y => ?_)
      simp only [Pi.add_apply]; ring
    have i2 : Integrable fun y => -Real.log (gauss m v y) * gauss m v y := by
      have e2 : (fun x => -Real.log (gauss m v x) * gauss m v x) = fun x =>
          Real.log (2 * Real.pi * v) / 2 * gauss m v x + 1 / (2 * v) * ((x - m) ^ 2 * gauss m v x) := by
        ext x; rw [gauss_log m hv]; ring
      rw [e2]
      exact ((gauss_integrable m hv).const_mul _).add ((gauss_sq_integrable m hv).const_mul _)
    have e3 : (fun y => (y / Real.log 2 + -Real.log (gauss m v y) / Real.log 2) * gauss m v y) = fun y =>
        1 / Real.log 2 * (y * gauss m v y) + 1 / Real.log 2 * (-Real.log (gauss m v y) * gauss m v y) := by
      ext y; ring
    rw [e3, integral_add (i1.const_mul _) (i2.const_mul _), integral_const_mul, integral_const_mul, gauss_mean m hv,
      gauss_entropy m hv, logNormalEntropy]
    simp only
    have hsv : 0 < √v := Real.sqrt_pos.2 hv
    have hsp : 0 < √(2 * Real.pi) := Real.sqrt_pos.2 (by positivity)
    rw [Real.log_mul (by positivity) hsp.ne', Real.log_mul hsv.ne' (Real.exp_pos _).ne', Real.log_exp,
      Real.log_sqrt hv.le, Real.log_sqrt (by positivity), show 2 * Real.pi * Real.exp 1 * v = 2 * Real.pi * v * Real.exp 1 by ring,
      Real.log_mul (by positivity) (Real.exp_pos _).ne', Real.log_exp, Real.log_mul (by positivity) hv.ne']
    ring
  · have hn : normalNew m v = some (m, v) := by rw [normalNew, if_neg (not_le.2 hv)]
    rw [logNormalCdf]
    split_ifs with h1
    · rw [setIntegral_congr_fun measurableSet_Iic (g := fun _ => (0 : ℝ))]
      · simp
      · intro t ht
        simp only [lnDens, if_neg (not_lt.2 ((mem_Iic.1 ht).trans h1))]
    · push Not at h1
      have e := lnDens_expect m v (fun _ => 1) (Real.log x)
      simp only [one_mul, Real.exp_log h1] at e
      have hI : ∫ t in Iic x, lnDens m v t = ∫ t in Ioc 0 x, lnDens m v t := by
        refine setIntegral_eq_of_subset_of_forall_sdiff_eq_zero measurableSet_Iic (fun t ht => ht.2) fun t ht => ?_
        rw [lnDens, if_neg]
        exact fun h0 => ht.2 ⟨h0, ht.1⟩
      rw [hI, e, ← (C58_cdf_partial hn (Real.log x)).1, normalCdf]
      ring

/-- C69: `quantile` panics exactly outside `(0, 1)`, is multiplicatively symmetric around the median, and the quantile
of 1/2 is the median. -/
theorem C69_quantile (d : ℝ × ℝ) :
    (∀ p, logNormalQuantile d p = none ↔ p ≤ 0 ∨ 1 ≤ p) ∧
    (∀ p a b, logNormalQuantile d p = some a → logNormalQuantile d (1 - p) = some b → a * b = logNormalMedian d ^ 2) ∧
    logNormalQuantile d (1 / 2) = some (logNormalMedian d) := by
  have hstd : normalNew (0 : ℝ) 1 = some (0, 1) := by rw [normalNew, if_neg (by norm_num)]
  obtain ⟨q1, q2, q3⟩ := C58_quantile (0, 1)
  have key : ∀ p z, logNormalQuantile d p = some z ↔
      ∃ w, normalQuantile (0, 1) p = some w ∧ z = Real.exp (d.1 + w * √d.2) := fun p z => by
    rw [logNormalQuantile]
    by_cases c : p ≤ 0 ∨ p ≥ 1
    · rw [if_pos c, (q1 p).2 c]; simp
    · rw [if_neg c, hstd]
      simp only [Option.bind_eq_bind, Option.bind_some]
      cases normalQuantile (0, 1) p with
      | none => simp
      | some w => simp [eq_comm]
  refine ⟨fun p => ?_, fun p a b ha hb => ?_, ?_⟩
  · by_cases c : p ≤ 0 ∨ 1 ≤ p
    · rw [logNormalQuantile, if_pos c]; simp [c]
    · have h1 : normalQuantile (0, 1) p ≠ none := fun h => c ((q1 p).1 h)
      obtain ⟨w, hw⟩ := Option.ne_none_iff_exists'.1 h1
      rw [(key p _).2 ⟨w, hw, rfl⟩]; simp [c]
  · obtain ⟨w1, h1, rfl⟩ := (key _ _).1 ha
    obtain ⟨w2, h2, rfl⟩ := (key _ _).1 hb
    have := q2 p w1 w2 h1 h2
    rw [← Real.exp_add, logNormalMedian, ← Real.exp_nat_mul]
    congr 1
    simp only [normalMean, mul_zero] at this
    push_cast
    linear_combination √d.2 * this
  · exact (key _ _).2 ⟨_, q3, by simp [normalMedian, logNormalMedian]⟩

/-- C69 is violated at the boundary of the support: `pdf 0` is `∞ · 0`, a NaN, for all parameters. -/
theorem C69_violated (d : ℝ × ℝ) : logNormalPdf d 0 = none := by simp [logNormalPdf]

example : logNormalMean (1, 2) = Real.exp 2 ∧ logNormalMedian (1, 2) = Real.exp 1 ∧
    logNormalPdf (0, 1) 1 = some (1 / √(2 * Real.pi)) := by
  refine ⟨by norm_num [logNormalMean], rfl, by norm_num [logNormalPdf]⟩

end Stat
end Verif
