import Verif.DistModel
import Verif.IncGammaRounds
import Verif.DigammaProps
import Mathlib.Analysis.SpecialFunctions.Gamma.Deriv
import Mathlib.Analysis.SpecialFunctions.Gaussian.GaussianIntegral

/-!
# C71: the gamma distribution
-/

namespace Verif
namespace Stat
open Special MeasureTheory Set Filter Topology Asymptotics

/-! ## Integrals of `x ^ (s - 1) exp (-b x)` -/

theorem gm_integrable {s b : ℝ} (hs : 0 < s) (hb : 0 < b) :
    IntegrableOn (fun x : ℝ => x ^ (s - 1) * Real.exp (-b * x)) (Ioi 0) := by
  have := integrableOn_rpow_mul_exp_neg_mul_rpow (p := 1) (s := s - 1) (b := b) (by linarith) one_pos hb
  simpa using this

theorem gm_integral {s b : ℝ} (hs : 0 < s) (hb : 0 < b) :
    ∫ x in Ioi (0 : ℝ), x ^ (s - 1) * Real.exp (-b * x) = Real.Gamma s / b ^ s := by
  have := Real.integral_rpow_mul_exp_neg_mul_Ioi hs hb
  simp only [neg_mul]
  rw [this, one_div, Real.inv_rpow hb.le]
  field_simp

theorem log_mellin {s : ℝ} (hs : 0 < s) :
    IntegrableOn (fun t : ℝ => t ^ (s - 1) * (Real.log t * Real.exp (-t))) (Ioi 0) ∧
    ∫ t in Ioi (0 : ℝ), t ^ (s - 1) * (Real.log t * Real.exp (-t)) = deriv Real.Gamma s := by
  have hs' : (0 : ℝ) < (s : ℂ).re := by simpa using hs
  have key := mellin_hasDerivAt_of_isBigO_rpow (E := ℂ) (f := fun x : ℝ => ((Real.exp (-x) : ℝ) : ℂ)) (s := (s : ℂ))
    (a := s + 1) (b := 0)
    ((Continuous.continuousOn (Complex.continuous_ofReal.comp (Real.continuous_exp.comp continuous_neg))).locallyIntegrableOn
      measurableSet_Ioi)
    (by
      rw [← isBigO_norm_left]
      simp_rw [Complex.norm_real, isBigO_norm_left]
      simpa only [neg_one_mul] using (isLittleO_exp_neg_mul_rpow_atTop zero_lt_one _).isBigO)
    (by simp)
    (by
      simp_rw [neg_zero, Real.rpow_zero]
      refine isBigO_const_of_tendsto (?_ : Tendsto _ _ (𝓝 (1 : ℂ))) one_ne_zero
      rw [(by simp : (1 : ℂ) = ((Real.exp (-0) : ℝ) : ℂ))]
      exact (Complex.continuous_ofReal.comp (Real.continuous_exp.comp continuous_neg)).continuousWithinAt)
    (by simpa using hs)
  have e : ∀ t ∈ Ioi (0 : ℝ), (t : ℂ) ^ ((s : ℂ) - 1) • ((Real.log t) • ((Real.exp (-t) : ℝ) : ℂ))
      = ((t ^ (s - 1) * (Real.log t * Real.exp (-t)) : ℝ) : ℂ) := by
    intro t ht
    have h1 : (t : ℂ) ^ ((s : ℂ) - 1) = ((t ^ (s - 1) : ℝ) : ℂ) := by
      rw [Complex.ofReal_cpow (le_of_lt ht)]; push_cast; rfl
    rw [h1, smul_eq_mul, Complex.real_smul]
    push_cast; rfl
  have hint : IntegrableOn (fun t : ℝ => t ^ (s - 1) * (Real.log t * Real.exp (-t))) (Ioi 0) := by
    have h1 : IntegrableOn (fun t : ℝ => (t : ℂ) ^ ((s : ℂ) - 1) • ((Real.log t) • ((Real.exp (-t) : ℝ) : ℂ))) (Ioi 0) :=
      key.1
    have h2 := (h1.congr_fun e measurableSet_Ioi).re
    simp only [RCLike.re_to_complex, Complex.ofReal_re] at h2
    exact h2
  refine ⟨hint, ?_⟩
  have h2 : HasDerivAt (mellin fun x : ℝ => ((Real.exp (-x) : ℝ) : ℂ))
      (((∫ t in Ioi (0 : ℝ), t ^ (s - 1) * (Real.log t * Real.exp (-t)) : ℝ)) : ℂ) (s : ℂ) := by
    refine key.2.congr_deriv ?_
    rw [mellin, setIntegral_congr_fun measurableSet_Ioi e]
    exact integral_ofReal
  rw [← Complex.GammaIntegral_eq_mellin] at h2
  have h3 := h2.real_of_complex
  have h4 : HasDerivAt Real.Gamma (∫ t in Ioi (0 : ℝ), t ^ (s - 1) * (Real.log t * Real.exp (-t))) s := by
    refine (h3.congr_of_eventuallyEq ?_).congr_deriv (by simp)
    filter_upwards [lt_mem_nhds hs] with y hy
    rw [Complex.GammaIntegral_ofReal, Complex.ofReal_re, Real.Gamma_eq_integral hy]
  exact h4.deriv.symm

theorem gm_log {s b : ℝ} (hs : 0 < s) (hb : 0 < b) :
    IntegrableOn (fun x : ℝ => Real.log x * (x ^ (s - 1) * Real.exp (-b * x))) (Ioi 0) ∧
    ∫ x in Ioi (0 : ℝ), Real.log x * (x ^ (s - 1) * Real.exp (-b * x))
      = Real.Gamma s / b ^ s * (psi s - Real.log b) := by
  obtain ⟨hi, hv⟩ := log_mellin hs
  have hG := (Real.Gamma_pos_of_pos hs).ne'
  -- substitute `t = b x`
  have e : ∀ x ∈ Ioi (0 : ℝ), Real.log x * (x ^ (s - 1) * Real.exp (-b * x))
      = b ^ (1 - s) * ((b * x) ^ (s - 1) * (Real.log (b * x) * Real.exp (-(b * x))))
        - Real.log b * (x ^ (s - 1) * Real.exp (-b * x)) := by
    intro x hx
    have hx0 : (0 : ℝ) < x := hx
    rw [Real.mul_rpow hb.le hx0.le, Real.log_mul hb.ne' hx0.ne', show -(b * x) = -b * x by ring]
    have : b ^ (1 - s) * b ^ (s - 1) = 1 := by
      rw [← Real.rpow_add hb]; simp
    linear_combination (-(x ^ (s - 1) * (Real.log b + Real.log x) * Real.exp (-b * x))) * this
  have hi2 : IntegrableOn (fun x : ℝ => b ^ (1 - s) * ((b * x) ^ (s - 1) * (Real.log (b * x) * Real.exp (-(b * x)))))
      (Ioi 0) := by
    have := (integrableOn_Ioi_comp_mul_left_iff (fun t : ℝ => t ^ (s - 1) * (Real.log t * Real.exp (-t))) 0 hb).2
      (by simpa using hi)
    exact this.const_mul _
  have hi3 : IntegrableOn (fun x : ℝ => Real.log b * (x ^ (s - 1) * Real.exp (-b * x))) (Ioi 0) :=
    (gm_integrable hs hb).const_mul _
  refine ⟨IntegrableOn.congr_fun (hi2.sub hi3) (fun x hx => (e x hx).symm) measurableSet_Ioi, ?_⟩
  rw [setIntegral_congr_fun measurableSet_Ioi e, integral_sub hi2 hi3, MeasureTheory.integral_const_mul,
    MeasureTheory.integral_const_mul, gm_integral hs hb]
  have := integral_comp_mul_left_Ioi (fun t : ℝ => t ^ (s - 1) * (Real.log t * Real.exp (-t))) 0 hb
  rw [mul_zero, hv] at this
  rw [this, smul_eq_mul, psi]
  have h1 : b ^ (1 - s) = b / b ^ s := by rw [Real.rpow_sub hb, Real.rpow_one]
  rw [h1]
  have := (Real.rpow_pos_of_pos hb s).ne'
  field_simp

/-! ## The density -/

/-- the density of the gamma distribution -/
noncomputable def gammaDens (a b x : ℝ) : ℝ := b ^ a / Real.Gamma a * x ^ (a - 1) * Real.exp (-b * x)

theorem gamma_moment {a b : ℝ} (ha : 0 < a) (hb : 0 < b) (k : ℕ) :
    IntegrableOn (fun x : ℝ => x ^ k * gammaDens a b x) (Ioi 0) ∧
    ∫ x in Ioi (0 : ℝ), x ^ k * gammaDens a b x = Real.Gamma (a + k) / (Real.Gamma a * b ^ k) := by
  have hG := (Real.Gamma_pos_of_pos ha).ne'
  have hba := (Real.rpow_pos_of_pos hb a).ne'
  have hk : 0 < a + k := by positivity
  have e : ∀ x ∈ Ioi (0 : ℝ), b ^ a / Real.Gamma a * (x ^ (a + k - 1) * Real.exp (-b * x)) = x ^ k * gammaDens a b x := by
    intro x hx
    have hx0 : (0 : ℝ) < x := hx
    rw [show a + k - 1 = (a - 1) + k by ring, Real.rpow_add hx0, Real.rpow_natCast, gammaDens]
    ring
  refine ⟨IntegrableOn.congr_fun ((gm_integrable hk hb).const_mul _) e measurableSet_Ioi, ?_⟩
  rw [← setIntegral_congr_fun measurableSet_Ioi e, MeasureTheory.integral_const_mul, gm_integral hk hb,
    Real.rpow_add hb, Real.rpow_natCast]
  field_simp

theorem gamma_moment1 {a b : ℝ} (ha : 0 < a) (hb : 0 < b) :
    ∫ x in Ioi (0 : ℝ), x ^ 1 * gammaDens a b x = a / b := by
  rw [(gamma_moment ha hb 1).2]
  have hG := (Real.Gamma_pos_of_pos ha).ne'
  push_cast
  rw [Real.Gamma_add_one ha.ne']
  field_simp

theorem gamma_moment2 {a b : ℝ} (ha : 0 < a) (hb : 0 < b) :
    ∫ x in Ioi (0 : ℝ), x ^ 2 * gammaDens a b x = a * (a + 1) / b ^ 2 := by
  rw [(gamma_moment ha hb 2).2]
  have hG := (Real.Gamma_pos_of_pos ha).ne'
  push_cast
  rw [show a + 2 = (a + 1) + 1 by ring, Real.Gamma_add_one (by positivity), Real.Gamma_add_one ha.ne']
  field_simp

theorem gamma_moment3 {a b : ℝ} (ha : 0 < a) (hb : 0 < b) :
    ∫ x in Ioi (0 : ℝ), x ^ 3 * gammaDens a b x = a * (a + 1) * (a + 2) / b ^ 3 := by
  rw [(gamma_moment ha hb 3).2]
  have hG := (Real.Gamma_pos_of_pos ha).ne'
  push_cast
  rw [show a + 3 = ((a + 1) + 1) + 1 by ring, Real.Gamma_add_one (by positivity), Real.Gamma_add_one (by positivity),
    Real.Gamma_add_one ha.ne']
  field_simp
  ring

theorem gamma_integral_one {a b : ℝ} (ha : 0 < a) (hb : 0 < b) : ∫ x in Ioi (0 : ℝ), gammaDens a b x = 1 := by
  have := (gamma_moment ha hb 0).2
  have hG := (Real.Gamma_pos_of_pos ha).ne'
  simpa [hG] using this

theorem gamma_central2 {a b : ℝ} (ha : 0 < a) (hb : 0 < b) :
    ∫ x in Ioi (0 : ℝ), (x - a / b) ^ 2 * gammaDens a b x = a / b ^ 2 := by
  have h0 := gamma_moment ha hb 0
  have h1 := gamma_moment ha hb 1
  have h2 := gamma_moment ha hb 2
  have e : (fun x : ℝ => (x - a / b) ^ 2 * gammaDens a b x) = fun x =>
      x ^ 2 * gammaDens a b x - 2 * (a / b) * (x ^ 1 * gammaDens a b x) + (a / b) ^ 2 * (x ^ 0 * gammaDens a b x) := by
    ext x; ring
  have i1 : IntegrableOn (fun x : ℝ => 2 * (a / b) * (x ^ 1 * gammaDens a b x)) (Ioi 0) := h1.1.const_mul _
  have i0 : IntegrableOn (fun x : ℝ => (a / b) ^ 2 * (x ^ 0 * gammaDens a b x)) (Ioi 0) := h0.1.const_mul _
  have i21 : IntegrableOn (fun x : ℝ => x ^ 2 * gammaDens a b x - 2 * (a / b) * (x ^ 1 * gammaDens a b x)) (Ioi 0) :=
    h2.1.sub i1
  rw [e, integral_add i21 i0, integral_sub h2.1 i1, MeasureTheory.integral_const_mul, MeasureTheory.integral_const_mul,
    gamma_moment1 ha hb, gamma_moment2 ha hb]
  simp only [pow_zero, one_mul]
  rw [gamma_integral_one ha hb]
  field_simp
  ring

theorem gamma_central3 {a b : ℝ} (ha : 0 < a) (hb : 0 < b) :
    ∫ x in Ioi (0 : ℝ), (x - a / b) ^ 3 * gammaDens a b x = 2 * a / b ^ 3 := by
  have h0 := gamma_moment ha hb 0
  have h1 := gamma_moment ha hb 1
  have h2 := gamma_moment ha hb 2
  have h3 := gamma_moment ha hb 3
  have e : (fun x : ℝ => (x - a / b) ^ 3 * gammaDens a b x) = fun x =>
      (x ^ 3 * gammaDens a b x - 3 * (a / b) * (x ^ 2 * gammaDens a b x)) + (3 * (a / b) ^ 2 * (x ^ 1 * gammaDens a b x)
        - (a / b) ^ 3 * (x ^ 0 * gammaDens a b x)) := by
    ext x; ring
  have i2 : IntegrableOn (fun x : ℝ => 3 * (a / b) * (x ^ 2 * gammaDens a b x)) (Ioi 0) := h2.1.const_mul _
  have i1 : IntegrableOn (fun x : ℝ => 3 * (a / b) ^ 2 * (x ^ 1 * gammaDens a b x)) (Ioi 0) := h1.1.const_mul _
  have i0 : IntegrableOn (fun x : ℝ => (a / b) ^ 3 * (x ^ 0 * gammaDens a b x)) (Ioi 0) := h0.1.const_mul _
  have i32 : IntegrableOn (fun x : ℝ => x ^ 3 * gammaDens a b x - 3 * (a / b) * (x ^ 2 * gammaDens a b x)) (Ioi 0) :=
    h3.1.sub i2
  have i10 : IntegrableOn (fun x : ℝ => 3 * (a / b) ^ 2 * (x ^ 1 * gammaDens a b x)
      - (a / b) ^ 3 * (x ^ 0 * gammaDens a b x)) (Ioi 0) := i1.sub i0
  rw [e, integral_add i32 i10, integral_sub h3.1 i2, integral_sub i1 i0,
    MeasureTheory.integral_const_mul, MeasureTheory.integral_const_mul, MeasureTheory.integral_const_mul,
    gamma_moment1 ha hb, gamma_moment2 ha hb, gamma_moment3 ha hb]
  simp only [pow_zero, one_mul]
  rw [gamma_integral_one ha hb]
  field_simp
  ring

theorem gamma_neg_log {a b : ℝ} (ha : 0 < a) (hb : 0 < b) :
    -∫ x in Ioi (0 : ℝ), gammaDens a b x * Real.log (gammaDens a b x)
      = a - Real.log b + Real.log (Real.Gamma a) + (1 - a) * psi a := by
  have hG := Real.Gamma_pos_of_pos ha
  have hba := Real.rpow_pos_of_pos hb a
  have h0 := gamma_moment ha hb 0
  have h1 := gamma_moment ha hb 1
  obtain ⟨hl, hv⟩ := gm_log ha hb
  have e : ∀ x ∈ Ioi (0 : ℝ), gammaDens a b x * Real.log (gammaDens a b x)
      = ((a * Real.log b - Real.log (Real.Gamma a)) * (x ^ 0 * gammaDens a b x) - b * (x ^ 1 * gammaDens a b x))
        + (a - 1) * (b ^ a / Real.Gamma a) * (Real.log x * (x ^ (a - 1) * Real.exp (-b * x))) := by
    intro x hx
    have hx0 : (0 : ℝ) < x := hx
    have hxa := Real.rpow_pos_of_pos hx0 (a - 1)
    have : Real.log (gammaDens a b x) = a * Real.log b - Real.log (Real.Gamma a) + (a - 1) * Real.log x + -b * x := by
      rw [gammaDens, Real.log_mul (by positivity) (Real.exp_ne_zero _), Real.log_mul (by positivity) hxa.ne',
        Real.log_div hba.ne' hG.ne', Real.log_rpow hb, Real.log_rpow hx0, Real.log_exp]
    rw [this, gammaDens]
    ring
  have i0 : IntegrableOn (fun x : ℝ => (a * Real.log b - Real.log (Real.Gamma a)) * (x ^ 0 * gammaDens a b x)) (Ioi 0) :=
    h0.1.const_mul _
  have i1 : IntegrableOn (fun x : ℝ => b * (x ^ 1 * gammaDens a b x)) (Ioi 0) := h1.1.const_mul _
  have il : IntegrableOn (fun x : ℝ => (a - 1) * (b ^ a / Real.Gamma a)
      * (Real.log x * (x ^ (a - 1) * Real.exp (-b * x)))) (Ioi 0) := hl.const_mul _
  have i01 : IntegrableOn (fun x : ℝ => (a * Real.log b - Real.log (Real.Gamma a)) * (x ^ 0 * gammaDens a b x)
      - b * (x ^ 1 * gammaDens a b x)) (Ioi 0) := i0.sub i1
  rw [setIntegral_congr_fun measurableSet_Ioi e, integral_add i01 il, integral_sub i0 i1,
    MeasureTheory.integral_const_mul, MeasureTheory.integral_const_mul, MeasureTheory.integral_const_mul,
    gamma_moment1 ha hb, hv]
  simp only [pow_zero, one_mul]
  rw [gamma_integral_one ha hb]
  field_simp
  ring

theorem gamma_cdf_int {a b x : ℝ} (hb : 0 < b) (hx : 0 ≤ x) :
    ∫ t in (0 : ℝ)..x, gammaDens a b t = gInt a (b * x) / Real.Gamma a := by
  have h := intervalIntegral.integral_comp_mul_left (fun t : ℝ => t ^ (a - 1) * Real.exp (-t)) (a := 0) (b := x) hb.ne'
  rw [mul_zero] at h
  have e : ∫ t in (0 : ℝ)..x, gammaDens a b t
      = ∫ t in (0 : ℝ)..x, b / Real.Gamma a * ((b * t) ^ (a - 1) * Real.exp (-(b * t))) := by
    refine intervalIntegral.integral_congr fun t ht => ?_
    rw [uIcc_of_le hx] at ht
    simp only [gammaDens]
    have : b ^ a = b * b ^ (a - 1) := by rw [mul_comm, ← Real.rpow_add_one hb.ne']; congr 1; ring
    rw [Real.mul_rpow hb.le ht.1, this, neg_mul]
    ring
  rw [e, intervalIntegral.integral_const_mul, h, gInt, smul_eq_mul]
  field_simp

theorem powf_pos {x : ℝ} (hx : 0 < x) (y : ℝ) : R.powf x y = some (x ^ y) := by simp [R.powf, hx]

theorem gamma_close {z : ℝ} (hz : 0 < z) :
    ∃ g, gamma z = some g ∧ 0 < g ∧ |g - Real.Gamma z| ≤ 4e-12 * Real.Gamma z := by
  obtain ⟨g, hg, h⟩ := C48_gamma_accuracy z (fun n hn => by
    have : (0 : ℝ) ≤ n := Nat.cast_nonneg n
    linarith)
  have hG := Real.Gamma_pos_of_pos hz
  rw [abs_of_pos hG] at h
  refine ⟨g, hg, ?_, h⟩
  rw [abs_le] at h
  have := h.1
  norm_num at this
  linarith

/-- the quotient with an approximate denominator -/
theorem div_close {w g G : ℝ} (hw : 0 ≤ w) (hG : 0 < G) (hg : 0 < g) (h : |g - G| ≤ 4e-12 * G) :
    |w / g - w / G| ≤ 5e-12 * (w / G) := by
  rw [abs_le] at h
  obtain ⟨h1, h2⟩ := h
  norm_num at h1 h2
  have e : w / g - w / G = (w / G) * ((G - g) / g) := by field_simp
  rw [e, abs_mul, abs_of_nonneg (by positivity : 0 ≤ w / G), mul_comm (5e-12)]
  refine mul_le_mul_of_nonneg_left ?_ (by positivity)
  rw [abs_div, abs_of_pos hg, div_le_iff₀ hg, abs_le]
  constructor <;> (norm_num; linarith)

theorem gammaNew_some {a b : ℝ} {d : ℝ × ℝ} (h : gammaNew a b = some d) : d = (a, b) ∧ 0 < a ∧ 0 < b := by
  unfold gammaNew at h
  split_ifs at h with h1
  push Not at h1
  exact ⟨(Option.some.inj h).symm, h1⟩

/-- **C71**, construction: `new` panics exactly when one of the parameters is not positive. -/
theorem C71_new (a b : ℝ) : gammaNew a b = none ↔ a ≤ 0 ∨ b ≤ 0 := by
  unfold gammaNew; split_ifs with h <;> simp [h]

/-- **C71**, density: `pdf` panics exactly for `x ≤ 0`, and for `x > 0` its value is
`β^α / Γ(α) x^(α-1) e^(-βx)` up to a relative error of `5e-12`. -/
theorem C71_pdf {a b : ℝ} {d : ℝ × ℝ} (h : gammaNew a b = some d) (x : ℝ) :
    (gammaPdf d x = none ↔ x ≤ 0) ∧
    (0 < x → ∃ v, gammaPdf d x = some v ∧
      |v - b ^ a / Real.Gamma a * x ^ (a - 1) * Real.exp (-b * x)|
        ≤ 5e-12 * (b ^ a / Real.Gamma a * x ^ (a - 1) * Real.exp (-b * x))) := by
  obtain ⟨rfl, ha, hb⟩ := gammaNew_some h
  obtain ⟨g, hg, hg0, hgG⟩ := gamma_close ha
  have hG := Real.Gamma_pos_of_pos ha
  have key : 0 < x → gammaPdf (a, b) x = some (b ^ a / g * x ^ (a - 1) * Real.exp (-b * x)) := by
    intro hx
    simp only [gammaPdf, not_le.2 hx, if_false, powf_pos hb, powf_pos hx, hg, R.div, hg0.ne', Option.bind_eq_bind,
      Option.bind_some]
  refine ⟨⟨fun hn => ?_, fun hx => by simp [gammaPdf, hx]⟩, fun hx => ⟨_, key hx, ?_⟩⟩
  · by_contra hc
    rw [key (not_le.1 hc)] at hn
    exact absurd hn (by simp)
  · have h1 := div_close (Real.rpow_pos_of_pos hb a).le hG hg0 hgG
    have hp : 0 < x ^ (a - 1) * Real.exp (-b * x) := by
      have := Real.rpow_pos_of_pos hx (a - 1)
      positivity
    have e : b ^ a / g * x ^ (a - 1) * Real.exp (-b * x) - b ^ a / Real.Gamma a * x ^ (a - 1) * Real.exp (-b * x)
        = (b ^ a / g - b ^ a / Real.Gamma a) * (x ^ (a - 1) * Real.exp (-b * x)) := by ring
    rw [e, abs_mul, abs_of_pos hp]
    refine (mul_le_mul_of_nonneg_right h1 hp.le).trans (le_of_eq ?_)
    ring

/-- **C71**, moments: the density integrates to one over the positive numbers, and `mean`, `variance` and `skewness`
are the mean, the variance and the third standardised moment. -/
theorem C71_moments {a b : ℝ} {d : ℝ × ℝ} (h : gammaNew a b = some d) (f : ℝ → ℝ)
    (hf : ∀ x, f x = b ^ a / Real.Gamma a * x ^ (a - 1) * Real.exp (-b * x)) :
    IntegrableOn f (Ioi 0) ∧ ∫ x in Ioi (0 : ℝ), f x = 1 ∧ ∫ x in Ioi (0 : ℝ), x * f x = gammaMean d ∧
    ∫ x in Ioi (0 : ℝ), (x - gammaMean d) ^ 2 * f x = gammaVariance d ∧
    ∫ x in Ioi (0 : ℝ), ((x - gammaMean d) / √(gammaVariance d)) ^ 3 * f x = gammaSkewness d := by
  obtain ⟨rfl, ha, hb⟩ := gammaNew_some h
  obtain rfl : f = gammaDens a b := funext hf
  refine ⟨by simpa using (gamma_moment ha hb 0).1, gamma_integral_one ha hb, by simpa [gammaMean] using gamma_moment1 ha hb,
    gamma_central2 ha hb, ?_⟩
  have hs : √(a / b ^ 2) = √a / b := by rw [Real.sqrt_div ha.le, Real.sqrt_sq hb.le]
  have hsa : 0 < √a := Real.sqrt_pos.2 ha
  simp only [gammaMean, gammaVariance, gammaSkewness]
  have e : ∀ x : ℝ, ((x - a / b) / √(a / b ^ 2)) ^ 3 * gammaDens a b x
      = (b / √a) ^ 3 * ((x - a / b) ^ 3 * gammaDens a b x) := by
    intro x
    rw [hs]
    field_simp
  simp_rw [e]
  rw [MeasureTheory.integral_const_mul, gamma_central3 ha hb]
  have h2 : √a ^ 2 = a := Real.sq_sqrt ha.le
  rw [div_pow, show √a ^ 3 = a * √a by rw [pow_succ, h2]]
  field_simp

/-- **C71**, distribution function: whenever `cdf` returns a value for `x > 0`, which it does after finitely many
rounds, this value is the integral of the density from 0 to `x` up to `1.2e-12 + 7e-15 α` (and a term that only matters
when both `α` and `βx` are below `1e-180`); it is 0 for `x = 0`. -/
theorem C71_cdf {a b : ℝ} {d : ℝ × ℝ} (h : gammaNew a b = some d) (x : ℝ) (hx : 0 < x) :
    gammaCdf 0 d 0 = some 0 ∧ (∃ N v, ∀ n, N ≤ n → gammaCdf n d x = some v) ∧
    ∀ n v, gammaCdf n d x = some v → a ≤ 10 ^ 9 →
      |v - ∫ t in (0 : ℝ)..x, b ^ a / Real.Gamma a * t ^ (a - 1) * Real.exp (-b * t)|
        ≤ 1.2e-12 + 7e-15 * a + 1.2e-200 / max a (b * x) := by
  obtain ⟨rfl, ha, hb⟩ := gammaNew_some h
  refine ⟨by simp [gammaCdf], ?_, ?_⟩
  · obtain ⟨n, v, hv⟩ := (C49_terminates a (b * x) ha).2 (by positivity)
    exact ⟨n, v, fun m hm => by simpa [gammaCdf, hx.ne'] using hv m hm⟩
  · intro n v hv h9
    simp only [gammaCdf, hx.ne', if_false] at hv
    have := C49_accuracy_abs n a (b * x) v ha h9 (by positivity) hv
    change |v - gInt a (b * x) / Real.Gamma a| ≤ _ at this
    rw [← gamma_cdf_int hb hx.le] at this
    exact this

/-- **C71**, entropy: the value is the differential entropy of the density up to `5e-12 + 7e-16 |1 - α|`. -/
theorem C71_entropy {a b : ℝ} {d : ℝ × ℝ} (h : gammaNew a b = some d) (n : ℕ) (v : ℝ)
    (hv : gammaEntropy n d = some v) (f : ℝ → ℝ)
    (hf : ∀ x, f x = b ^ a / Real.Gamma a * x ^ (a - 1) * Real.exp (-b * x)) :
    |v + ∫ x in Ioi (0 : ℝ), f x * Real.log (f x)| ≤ 5e-12 + 7e-16 * |1 - a| := by
  obtain ⟨rfl, ha, hb⟩ := gammaNew_some h
  obtain rfl : f = gammaDens a b := funext hf
  obtain ⟨g, hg, hg0, hgG⟩ := gamma_close ha
  have hG := Real.Gamma_pos_of_pos ha
  cases hp : digamma n a with
  | none => simp [gammaEntropy, hg, hp, R.ln, not_le.2 hb] at hv
  | some p =>
    simp only [gammaEntropy, hg, hp, R.ln, not_le.2 hb, not_le.2 hg0, if_false, Option.bind_eq_bind, Option.bind_some,
      Option.some.injEq] at hv
    have hpsi := C52_accuracy n a p ha hp
    have hl := gamma_neg_log ha hb
    have e : v + ∫ x in Ioi (0 : ℝ), gammaDens a b x * Real.log (gammaDens a b x)
        = (Real.log g - Real.log (Real.Gamma a)) + (1 - a) * (p - psi a) := by
      rw [← hv]; linarith
    rw [e]
    have h1 : |Real.log g - Real.log (Real.Gamma a)| ≤ 5e-12 := by
      rw [← Real.log_div hg0.ne' hG.ne']
      rw [abs_le] at hgG ⊢
      obtain ⟨q1, q2⟩ := hgG
      norm_num at q1 q2
      have r0 : 0 < g / Real.Gamma a := by positivity
      constructor
      · have h3 := Real.one_sub_inv_le_log_of_pos r0
        refine le_trans ?_ h3
        rw [inv_div]
        have : Real.Gamma a / g ≤ 1 + 5e-12 := by
          rw [div_le_iff₀ hg0]
          norm_num
          linarith
        linarith
      · have h3 := Real.log_le_sub_one_of_pos r0
        refine h3.trans ?_
        have : g / Real.Gamma a ≤ 1 + 5e-12 := by
          rw [div_le_iff₀ hG]
          norm_num
          linarith
        linarith
    have h2 : |p - psi a| ≤ 7e-16 := by
      rw [abs_le]
      constructor <;> linarith [hpsi.1, hpsi.2]
    calc |(Real.log g - Real.log (Real.Gamma a)) + (1 - a) * (p - psi a)|
        ≤ |Real.log g - Real.log (Real.Gamma a)| + |(1 - a) * (p - psi a)| := abs_add_le _ _
      _ ≤ 5e-12 + |1 - a| * 7e-16 := by
          rw [abs_mul]
          exact add_le_add h1 (mul_le_mul_of_nonneg_left h2 (abs_nonneg _))
      _ = _ := by ring

/-- C71 is violated for negative arguments: the distribution function is 0 there and no panic is documented, but `cdf`
panics for every `x < 0`. -/
theorem C71_cdf_violated {a b : ℝ} {d : ℝ × ℝ} (h : gammaNew a b = some d) (n : ℕ) (x : ℝ) (hx : x < 0) :
    gammaCdf n d x = none := by
  obtain ⟨rfl, ha, hb⟩ := gammaNew_some h
  have : b * x ≤ 0 := by nlinarith
  simp [gammaCdf, hx.ne, gammaLr, this]

/-- the gamma distribution with `α = 2`, `β = 3`: mean 2/3, variance 2/9 -/
example : gammaNew 2 3 = some (2, 3) ∧ gammaMean (2, 3) = 2 / 3 ∧ gammaVariance (2, 3) = 2 / 9 := by
  refine ⟨by norm_num [gammaNew], rfl, by norm_num [gammaVariance]⟩

/-- its density `9 x e^(-3x)` at 1 is `9 e^(-3)` up to the stated error -/
example : ∃ v, gammaPdf (2, 3) 1 = some v ∧ |v - 9 * Real.exp (-3)| ≤ 5e-12 * (9 * Real.exp (-3)) := by
  obtain ⟨v, hv, h⟩ := (C71_pdf (a := 2) (b := 3) (d := (2, 3)) (by norm_num [gammaNew]) 1).2 one_pos
  refine ⟨v, hv, ?_⟩
  have e : Real.Gamma 2 = 1 := by
    rw [show (2 : ℝ) = ((1 : ℕ) : ℝ) + 1 by norm_num, Real.Gamma_nat_eq_factorial]; simp
  have e2 : (3 : ℝ) ^ (2 : ℝ) = 9 := by
    rw [show (2 : ℝ) = ((2 : ℕ) : ℝ) by norm_num, Real.rpow_natCast]; norm_num
  rw [e, e2] at h
  simpa using h

end Stat
end Verif
