import Verif.ContModel
import Verif.DiscreteProps
import Mathlib.Analysis.SpecialFunctions.Exponential
import Mathlib.Analysis.SpecialFunctions.Integrals.Basic
import Mathlib.Analysis.SpecialFunctions.Gamma.Basic
import Mathlib.MeasureTheory.Integral.IntervalIntegral.FundThmCalculus
import Mathlib.MeasureTheory.Integral.IntegralEqImproper

/-! # Poisson, uniform and exponential distributions: C55, C56 and C57 -/

namespace Verif
namespace Stat
open MeasureTheory Set Filter

/-! ## C55 Poisson -/

theorem poisson_hasSum (g : ℝ) : HasSum (fun x : ℕ => g ^ x * Real.exp (-g) / (x.factorial : ℝ)) 1 := by
  have h := (NormedSpace.expSeries_div_hasSum_exp (g : ℝ)).mul_left (Real.exp (-g))
  rw [← Real.exp_eq_exp_ℝ, ← Real.exp_add, neg_add_cancel, Real.exp_zero] at h
  have e : (fun x : ℕ => g ^ x * Real.exp (-g) / (x.factorial : ℝ)) =
      fun x => Real.exp (-g) * (g ^ x / x.factorial) := by ext x; ring
  rw [e]; exact h

theorem poisson_hasSum1 (g : ℝ) :
    HasSum (fun x : ℕ => (x : ℝ) * (g ^ x * Real.exp (-g) / (x.factorial : ℝ))) g := by
  rw [← hasSum_nat_add_iff' 1]
  have h := (poisson_hasSum g).mul_left g
  rw [mul_one] at h
  have e : (fun x : ℕ => ((x + 1 : ℕ) : ℝ) * (g ^ (x + 1) * Real.exp (-g) / ((x + 1).factorial : ℝ))) =
      fun x => g * (g ^ x * Real.exp (-g) / (x.factorial : ℝ)) := by
    ext x
    have h1 : ((x + 1).factorial : ℝ) = (x + 1) * x.factorial := by push_cast [Nat.factorial_succ]; ring
    have h2 : (x.factorial : ℝ) ≠ 0 := by positivity
    have h3 : (x + 1 : ℝ) ≠ 0 := by positivity
    rw [h1, pow_succ]; push_cast
    field_simp
  rw [e]; simpa using h

theorem poisson_hasSum2 (g : ℝ) :
    HasSum (fun x : ℕ => (x : ℝ) * (x - 1) * (g ^ x * Real.exp (-g) / (x.factorial : ℝ))) (g ^ 2) := by
  rw [← hasSum_nat_add_iff' 1]
  have h := (poisson_hasSum1 g).mul_left g
  rw [← sq] at h
  have e : (fun x : ℕ => ((x + 1 : ℕ) : ℝ) * (((x + 1 : ℕ) : ℝ) - 1) *
      (g ^ (x + 1) * Real.exp (-g) / ((x + 1).factorial : ℝ))) =
      fun x : ℕ => g * (x * (g ^ x * Real.exp (-g) / (x.factorial : ℝ))) := by
    ext x
    have h1 : ((x + 1).factorial : ℝ) = (x + 1) * x.factorial := by push_cast [Nat.factorial_succ]; ring
    have h2 : (x.factorial : ℝ) ≠ 0 := by positivity
    have h3 : (x + 1 : ℝ) ≠ 0 := by positivity
    rw [h1]; push_cast
    field_simp
    ring
  rw [e]; simpa using h

/-- C55: `new` panics exactly for parameters `≤ 0`. -/
theorem C55_new (g : ℝ) : poissonNew g = none ↔ g ≤ 0 := by
  unfold poissonNew; split_ifs with h <;> simp [h]

/-- C55 (partial): on `{0, …, 20}` `pmf` is the restriction of the function `f x = g^x e^(-g) / x!`, which is
nonnegative, sums to one over the natural numbers, and whose mean and variance are `mean` and `variance`.  Missing:
`pmf` panics for all other values (`C55_violated`). -/
theorem C55_partial {g g' : ℝ} (h : poissonNew g = some g') :
    ∃ f : ℕ → ℝ, (∀ x, f x = g ^ x * Real.exp (-g) / (x.factorial : ℝ)) ∧
      (∀ x ≤ 20, poissonPmf g' x = some (f x)) ∧ (∀ x, 0 < f x) ∧ HasSum f 1 ∧
      HasSum (fun x : ℕ => (x : ℝ) * f x) (poissonMean g') ∧
      HasSum (fun x : ℕ => ((x : ℝ) - poissonMean g') ^ 2 * f x) (poissonVariance g') := by
  unfold poissonNew at h
  split_ifs at h with hg
  cases h
  push Not at hg
  refine ⟨fun x => g ^ x * Real.exp (-g) / (x.factorial : ℝ), fun x => rfl, fun x hx => ?_, fun x => by positivity,
    poisson_hasSum g, poisson_hasSum1 g, ?_⟩
  · rw [poissonPmf, factorial_of_le hx]; rfl
  · have := ((poisson_hasSum2 g).add ((poisson_hasSum1 g).mul_left (1 - 2 * g))).add
      ((poisson_hasSum g).mul_left (g ^ 2))
    rw [show poissonVariance g = g ^ 2 + (1 - 2 * g) * g + g ^ 2 * 1 by unfold poissonVariance; ring]
    refine this.congr_fun ?_
    intro x
    unfold poissonMean; ring

example : poissonPmf 2 3 = some (4 / 3 * Real.exp (-2)) := by
  rw [poissonPmf, factorial_of_le (by norm_num)]
  simp [Nat.factorial]
  ring

/-- C55 is violated: `pmf` panics for every value above 20 (in a build without overflow checks it divides by
`x! mod 2^64`, which is zero from 66 on, see `C53_release_violated`). -/
theorem C55_violated (g : ℝ) (x : ℕ) (hx : 20 < x) : poissonPmf g x = none := by
  rw [poissonPmf, factorial_of_lt hx]; rfl

/-! ## Densities supported on an interval -/

/-- the density that is `g` on `[a, b]` and zero elsewhere -/
theorem integral_box {f g : ℝ → ℝ} {a b : ℝ} (hab : a ≤ b) (h1 : ∀ x, a ≤ x → x ≤ b → f x = g x)
    (h0 : ∀ x, ¬ (a ≤ x ∧ x ≤ b) → f x = 0) (h : ℝ → ℝ) : ∫ x, h x * f x = ∫ x in a..b, h x * g x := by
  have : (fun x => h x * f x) = (Icc a b).indicator (fun x => h x * g x) := by
    ext x
    by_cases hx : x ∈ Icc a b
    · rw [indicator_of_mem hx, h1 x hx.1 hx.2]
    · rw [indicator_of_notMem hx, h0 x hx, mul_zero]
  rw [this, integral_indicator measurableSet_Icc, integral_Icc_eq_integral_Ioc, intervalIntegral.integral_of_le hab]

theorem integrable_box {f g : ℝ → ℝ} {a b : ℝ} (h1 : ∀ x, a ≤ x → x ≤ b → f x = g x)
    (h0 : ∀ x, ¬ (a ≤ x ∧ x ≤ b) → f x = 0) (hg : ContinuousOn g (Icc a b)) : Integrable f := by
  have : f = (Icc a b).indicator g := by
    ext x
    by_cases hx : x ∈ Icc a b
    · rw [indicator_of_mem hx, h1 x hx.1 hx.2]
    · rw [indicator_of_notMem hx, h0 x hx]
  rw [this]
  exact (hg.integrableOn_compact isCompact_Icc).integrable_indicator measurableSet_Icc

theorem integral_Iic_box {f g : ℝ → ℝ} {a b : ℝ} (hab : a ≤ b) (h1 : ∀ x, a ≤ x → x ≤ b → f x = g x)
    (h0 : ∀ x, ¬ (a ≤ x ∧ x ≤ b) → f x = 0) (x : ℝ) :
    ∫ t in Iic x, f t = if x < a then 0 else if x > b then ∫ t in a..b, g t else ∫ t in a..x, g t := by
  have : f = (Icc a b).indicator g := by
    ext x
    by_cases hx : x ∈ Icc a b
    · rw [indicator_of_mem hx, h1 x hx.1 hx.2]
    · rw [indicator_of_notMem hx, h0 x hx]
  rw [this, setIntegral_indicator measurableSet_Icc]
  split_ifs with c d
  · have e : Iic x ∩ Icc a b = ∅ := by
      ext t; simp only [mem_inter_iff, mem_Iic, mem_Icc, mem_empty_iff_false, iff_false]
      rintro ⟨u, v, -⟩; linarith
    rw [e]; simp
  · have e : Iic x ∩ Icc a b = Icc a b := by
      ext t; simp only [mem_inter_iff, mem_Iic, mem_Icc]
      constructor
      · exact fun u => u.2
      · exact fun u => ⟨by linarith [u.2], u⟩
    rw [e, integral_Icc_eq_integral_Ioc, intervalIntegral.integral_of_le hab]
  · push Not at c d
    have e : Iic x ∩ Icc a b = Icc a x := by
      ext t; simp only [mem_inter_iff, mem_Iic, mem_Icc]
      constructor
      · exact fun u => ⟨u.2.1, u.1⟩
      · exact fun u => ⟨u.2, u.1, u.2.trans d⟩
    rw [e, integral_Icc_eq_integral_Ioc, intervalIntegral.integral_of_le c]

/-! ## C56 uniform -/

/-- C56: `new` panics exactly if `a ≥ b`. -/
theorem C56_new (a b : ℝ) : uniformNew a b = none ↔ b ≤ a := by
  unfold uniformNew; split_ifs with h <;> simp [h]

theorem uniformNew_some {a b : ℝ} {d : ℝ × ℝ} (h : uniformNew a b = some d) : d = (a, b) ∧ a < b := by
  unfold uniformNew at h
  split_ifs at h with h1
  exact ⟨(Option.some.inj h).symm, not_le.1 h1⟩

theorem uniform_box (a b : ℝ) : (∀ x, a ≤ x → x ≤ b → uniformPdf (a, b) x = 1 / (b - a)) ∧
    ∀ x, ¬ (a ≤ x ∧ x ≤ b) → uniformPdf (a, b) x = 0 :=
  ⟨fun x h1 h2 => by rw [uniformPdf, if_pos ⟨h1, h2⟩], fun x h => by rw [uniformPdf, if_neg h]⟩

/-- C56: the uniform density is nonnegative, integrates to one, `cdf` is its integral, and `mean`, `variance`,
`skewness` and `entropy` are the first moment, the second and third central moments and the differential entropy. -/
theorem C56_uniform {a b : ℝ} {d : ℝ × ℝ} (h : uniformNew a b = some d) :
    (∀ x, 0 ≤ uniformPdf d x) ∧ Integrable (uniformPdf d) ∧ ∫ x, uniformPdf d x = 1 ∧
    (∀ x, uniformCdf d x = ∫ t in Iic x, uniformPdf d t) ∧
    uniformMean d = ∫ x, x * uniformPdf d x ∧
    uniformVariance d = ∫ x, (x - uniformMean d) ^ 2 * uniformPdf d x ∧
    uniformSkewness d = ∫ x, ((x - uniformMean d) / √(uniformVariance d)) ^ 3 * uniformPdf d x ∧
    uniformEntropy d = ∫ x, -Real.log (uniformPdf d x) * uniformPdf d x := by
  obtain ⟨rfl, hab⟩ := uniformNew_some h
  have hb : b - a ≠ 0 := by linarith
  have I := integral_box hab.le (uniform_box a b).1 (uniform_box a b).2
  refine ⟨fun x => ?_, integrable_box (uniform_box a b).1 (uniform_box a b).2 continuousOn_const, ?_, fun x => ?_, ?_,
    ?_, ?_, ?_⟩
  · unfold uniformPdf; split_ifs
    · exact one_div_nonneg.2 (by simp only; linarith)
    · exact le_rfl
  · have := I (fun _ => 1)
    simp only [one_mul, intervalIntegral.integral_const, smul_eq_mul] at this
    rw [this]; field_simp
  · rw [integral_Iic_box hab.le (uniform_box a b).1 (uniform_box a b).2]
    simp only [intervalIntegral.integral_const, smul_eq_mul, uniformCdf]
    split_ifs
    · rfl
    · field_simp
    · ring
  · rw [I, intervalIntegral.integral_mul_const, integral_id, uniformMean]
    field_simp
    ring
  · rw [I, intervalIntegral.integral_mul_const, intervalIntegral.integral_comp_sub_right (fun x => x ^ 2), integral_pow,
      uniformMean, uniformVariance]
    field_simp
    ring
  · rw [I, intervalIntegral.integral_mul_const]
    simp only [div_pow]
    rw [intervalIntegral.integral_div, intervalIntegral.integral_comp_sub_right (fun x => x ^ 3), integral_pow,
      uniformMean, uniformSkewness]
    ring
  · rw [show (fun x => -Real.log (uniformPdf (a, b) x) * uniformPdf (a, b) x) =
      fun x => (if a ≤ x ∧ x ≤ b then -Real.log (1 / (b - a)) else 0) * uniformPdf (a, b) x by
        ext x; unfold uniformPdf; split_ifs <;> simp_all, I]
    rw [intervalIntegral.integral_congr (g := fun _ => -Real.log (1 / (b - a)) * (1 / (b - a)))]
    · simp only [intervalIntegral.integral_const, smul_eq_mul, uniformEntropy, one_div, Real.log_inv]
      field_simp
    · intro x hx
      rw [uIcc_of_le hab.le] at hx
      simp only [if_pos (show a ≤ x ∧ x ≤ b from hx)]

/-- C56: `quantile` panics exactly outside `[0, 1]` and is the inverse of `cdf`; the median is the quantile of 1/2. -/
theorem C56_quantile {a b : ℝ} {d : ℝ × ℝ} (h : uniformNew a b = some d) :
    (∀ q, uniformQuantile d q = none ↔ q < 0 ∨ 1 < q) ∧
    (∀ q x, uniformQuantile d q = some x → uniformCdf d x = q ∧ a ≤ x ∧ x ≤ b) ∧
    (∀ x, a ≤ x → x ≤ b → uniformQuantile d (uniformCdf d x) = some x) ∧
    uniformQuantile d (1 / 2) = some (uniformMedian d) := by
  obtain ⟨rfl, hab⟩ := uniformNew_some h
  have hb : 0 < b - a := by linarith
  refine ⟨fun q => ?_, fun q x hq => ?_, fun x h1 h2 => ?_, ?_⟩
  · unfold uniformQuantile; split_ifs with c
    · simp only [true_iff]; tauto
    · simp only [false_iff]; tauto
  · unfold uniformQuantile at hq
    split_ifs at hq with c
    push Not at c
    cases hq
    have h1 : a ≤ q * (b - a) + a := by nlinarith [mul_nonneg c.2 hb.le]
    have h2 : q * (b - a) + a ≤ b := by nlinarith [mul_le_mul_of_nonneg_right c.1 hb.le]
    refine ⟨?_, h1, h2⟩
    simp only [uniformCdf]
    rw [if_neg (not_lt.2 h1), if_neg (not_lt.2 h2)]
    field_simp
    ring
  · simp only [uniformCdf]
    rw [if_neg (not_lt.2 h1), if_neg (not_lt.2 h2)]
    have e1 : 0 ≤ (x - a) / (b - a) := div_nonneg (by linarith) hb.le
    have e2 : (x - a) / (b - a) ≤ 1 := (div_le_one hb).2 (by linarith)
    rw [uniformQuantile, if_neg (by push Not; exact ⟨e2, e1⟩)]
    simp only [Option.some.injEq]
    field_simp
    ring
  · rw [uniformQuantile, if_neg (by norm_num)]
    simp only [Option.some.injEq, uniformMedian, uniformMean]
    ring

example : uniformCdf (2, 6) 3 = 1 / 4 ∧ uniformQuantile (2, 6) (1 / 4) = some 3 ∧ uniformVariance (2, 6) = 4 / 3 := by
  refine ⟨?_, ?_, ?_⟩ <;> norm_num [uniformCdf, uniformQuantile, uniformVariance]

/-! ## C57 exponential -/

/-- C57: `new` panics exactly for `lambda ≤ 0`. -/
theorem C57_new (l : ℝ) : expoNew l = none ↔ l ≤ 0 := by
  unfold expoNew; split_ifs with h <;> simp [h]

theorem expoNew_some {l l' : ℝ} (h : expoNew l = some l') : l' = l ∧ 0 < l := by
  unfold expoNew at h
  split_ifs at h with h1
  exact ⟨(Option.some.inj h).symm, not_le.1 h1⟩

theorem integral_expo (l : ℝ) (h : ℝ → ℝ) :
    ∫ x, h x * expoPdf l x = ∫ x in Ioi (0 : ℝ), h x * (l * Real.exp (-l * x)) := by
  have : (fun x => h x * expoPdf l x) = (Ici (0 : ℝ)).indicator (fun x => h x * (l * Real.exp (-l * x))) := by
    ext x
    by_cases hx : x ∈ Ici (0 : ℝ)
    · rw [indicator_of_mem hx, expoPdf, if_neg (not_lt.2 hx)]
    · rw [indicator_of_notMem hx, expoPdf, if_pos (by simpa using hx), mul_zero]
  rw [this, integral_indicator measurableSet_Ici, integral_Ici_eq_integral_Ioi]

theorem integral_expo_pow {l : ℝ} (hl : 0 < l) (k : ℕ) :
    ∫ x, x ^ k * expoPdf l x = k.factorial / l ^ k := by
  rw [integral_expo]
  have h := Real.integral_rpow_mul_exp_neg_mul_Ioi (a := k + 1) (r := l) (by positivity) hl
  rw [Real.Gamma_nat_eq_factorial] at h
  have : ∀ x : ℝ, x ^ k * (l * Real.exp (-l * x)) = l * (x ^ ((k : ℝ) + 1 - 1) * Real.exp (-(l * x))) := fun x => by
    rw [add_sub_cancel_right, Real.rpow_natCast, neg_mul]; ring
  simp only [this]
  rw [integral_const_mul, h, Real.rpow_add_one (by positivity), Real.rpow_natCast, one_div, inv_pow]
  field_simp

theorem integrable_expo_pow {l : ℝ} (hl : 0 < l) (k : ℕ) : Integrable (fun x => x ^ k * expoPdf l x) := by
  by_contra hc
  have h := integral_expo_pow hl k
  rw [integral_undef hc] at h
  have : (0 : ℝ) < k.factorial / l ^ k := by positivity
  linarith

theorem integral_expo_poly {l : ℝ} (hl : 0 < l) (a b c d : ℝ) :
    ∫ x, (a + b * x + c * x ^ 2 + d * x ^ 3) * expoPdf l x = a + b / l + 2 * c / l ^ 2 + 6 * d / l ^ 3 := by
  have i0 := integrable_expo_pow hl 0
  have i1 := integrable_expo_pow hl 1
  have i2 := integrable_expo_pow hl 2
  have i3 := integrable_expo_pow hl 3
  have m0 := integral_expo_pow hl 0
  have m1 := integral_expo_pow hl 1
  have m2 := integral_expo_pow hl 2
  have m3 := integral_expo_pow hl 3
  have e : (fun x => (a + b * x + c * x ^ 2 + d * x ^ 3) * expoPdf l x) = fun x =>
      ((a * (x ^ 0 * expoPdf l x) + b * (x ^ 1 * expoPdf l x)) + c * (x ^ 2 * expoPdf l x)) +
        d * (x ^ 3 * expoPdf l x) := by ext x; ring
  have j0 : Integrable fun x => a * (x ^ 0 * expoPdf l x) := i0.const_mul a
  have j1 : Integrable fun x => b * (x ^ 1 * expoPdf l x) := i1.const_mul b
  have j2 : Integrable fun x => c * (x ^ 2 * expoPdf l x) := i2.const_mul c
  have j3 : Integrable fun x => d * (x ^ 3 * expoPdf l x) := i3.const_mul d
  have j01 : Integrable fun x => a * (x ^ 0 * expoPdf l x) + b * (x ^ 1 * expoPdf l x) := j0.add j1
  have j012 : Integrable fun x => a * (x ^ 0 * expoPdf l x) + b * (x ^ 1 * expoPdf l x) + c * (x ^ 2 * expoPdf l x) :=
    j01.add j2
  rw [e, integral_add j012 j3, integral_add j01 j2, integral_add j0 j1, integral_const_mul, integral_const_mul, integral_const_mul,
    integral_const_mul, m0, m1, m2, m3]
  norm_num [Nat.factorial]
  ring

/-- C57: the exponential density is nonnegative, integrates to one, `cdf` is its integral, and `mean`, `variance`,
`skewness` and `entropy` are the first moment, the second central moment, the third standardised moment and the
differential entropy. -/
theorem C57_exponential {l l' : ℝ} (h : expoNew l = some l') :
    (∀ x, 0 ≤ expoPdf l' x) ∧ Integrable (expoPdf l') ∧ ∫ x, expoPdf l' x = 1 ∧
    (∀ x, expoCdf l' x = ∫ t in Iic x, expoPdf l' t) ∧ Tendsto (expoCdf l') atTop (nhds 1) ∧
    expoMean l' = ∫ x, x * expoPdf l' x ∧
    expoVariance l' = ∫ x, (x - expoMean l') ^ 2 * expoPdf l' x ∧
    expoSkewness l' = ∫ x, ((x - expoMean l') / √(expoVariance l')) ^ 3 * expoPdf l' x ∧
    expoEntropy l' = ∫ x, -Real.log (expoPdf l' x) * expoPdf l' x := by
  obtain ⟨rfl, hl⟩ := expoNew_some h
  have hC : ∀ x, expoCdf l' x = ∫ t in Iic x, expoPdf l' t := fun x => by
    have hcdf := integral_Iic_box (f := fun t => if t ≤ max x 0 then expoPdf l' t else 0)
      (g := fun t => l' * Real.exp (-l' * t)) (a := 0) (b := max x 0) (le_max_right _ _)
      (fun t h1 h2 => by simp only [if_pos h2, expoPdf, if_neg (not_lt.2 h1)])
      (fun t ht => by
        by_cases h1 : t ≤ max x 0
        · have : t < 0 := by by_contra hc; exact ht ⟨not_lt.1 hc, h1⟩
          simp only [if_pos h1, expoPdf, if_pos this]
        · simp only [if_neg h1]) x
    have e : ∫ t in Iic x, expoPdf l' t = ∫ t in Iic x, (if t ≤ max x 0 then expoPdf l' t else 0) := by
      refine setIntegral_congr_fun measurableSet_Iic fun t ht => ?_
      simp only [if_pos (show t ≤ max x 0 from (mem_Iic.1 ht).trans (le_max_left _ _))]
    rw [e, hcdf]
    unfold expoCdf
    by_cases hx : x < 0
    · rw [if_pos hx, if_pos hx]
    · rw [if_neg hx, if_neg hx, if_neg (not_lt.2 (le_max_left _ _))]
      rw [intervalIntegral.integral_eq_sub_of_hasDerivAt (f := fun t => -Real.exp (-l' * t))]
      · simp; ring_nf
      · intro t _
        have : HasDerivAt (fun t => -Real.exp (-l' * t)) (-(Real.exp (-l' * t) * (-l' * 1))) t :=
          ((hasDerivAt_id t).const_mul (-l')).exp.neg
        rw [show l' * Real.exp (-l' * t) = -(Real.exp (-l' * t) * (-l' * 1)) by ring]
        exact this
      · exact (by fun_prop : Continuous fun t => l' * Real.exp (-l' * t)).intervalIntegrable _ _
  refine ⟨fun x => ?_, by simpa using integrable_expo_pow hl 0, by simpa using integral_expo_pow hl 0, hC, ?_, ?_, ?_, ?_, ?_⟩
  · unfold expoPdf; split_ifs
    · exact le_rfl
    · positivity
  · have h1 : Tendsto (fun x : ℝ => 1 - Real.exp (-x * l')) atTop (nhds (1 - 0)) := by
      refine tendsto_const_nhds.sub (Real.tendsto_exp_atBot.comp ?_)
      have : (fun x : ℝ => -x * l') = fun x => -(x * l') := by ext; ring
      rw [this]
      exact tendsto_neg_atTop_atBot.comp (tendsto_id.atTop_mul_const hl)
    rw [sub_zero] at h1
    refine h1.congr' ?_
    filter_upwards [eventually_ge_atTop 0] with x hx
    rw [expoCdf, if_neg (not_lt.2 hx)]
  · have := integral_expo_poly hl 0 1 0 0
    simp only [zero_add, one_mul, zero_mul, add_zero, mul_zero, zero_div] at this
    rw [this, expoMean]
  · have := integral_expo_poly hl (1 / l' ^ 2) (-2 / l') 1 0
    rw [show (fun x => (x - expoMean l') ^ 2 * expoPdf l' x) =
      fun x => (1 / l' ^ 2 + -2 / l' * x + 1 * x ^ 2 + 0 * x ^ 3) * expoPdf l' x by
        ext x; unfold expoMean; field_simp; ring, this, expoVariance]
    field_simp
    ring
  · have hs : √(expoVariance l') = 1 / l' := by
      rw [expoVariance, show 1 / l' ^ 2 = (1 / l') ^ 2 by ring]
      exact Real.sqrt_sq (by positivity)
    have := integral_expo_poly hl (-1) (3 * l') (-3 * l' ^ 2) (l' ^ 3)
    rw [hs, show (fun x => ((x - expoMean l') / (1 / l')) ^ 3 * expoPdf l' x) =
      fun x => (-1 + 3 * l' * x + -3 * l' ^ 2 * x ^ 2 + l' ^ 3 * x ^ 3) * expoPdf l' x by
        ext x; unfold expoMean; field_simp; ring, this, expoSkewness]
    field_simp
    ring
  · have := integral_expo_poly hl (-Real.log l') l' 0 0
    rw [show (fun x => -Real.log (expoPdf l' x) * expoPdf l' x) =
      fun x => (-Real.log l' + l' * x + 0 * x ^ 2 + 0 * x ^ 3) * expoPdf l' x by
        ext x; unfold expoPdf; split_ifs
        · simp
        · rw [Real.log_mul hl.ne' (Real.exp_pos _).ne', Real.log_exp]; ring, this, expoEntropy]
    field_simp
    ring

/-- C57: `quantile` returns a number exactly for `p < 1`; for `0 ≤ p < 1` it is the inverse of `cdf` (for `p < 0` it
returns a negative number, which is not checked); the median is the quantile of 1/2. -/
theorem C57_quantile {l l' : ℝ} (h : expoNew l = some l') :
    (∀ p, expoQuantile l' p = none ↔ 1 ≤ p) ∧
    (∀ p x, 0 ≤ p → expoQuantile l' p = some x → 0 ≤ x ∧ expoCdf l' x = p) ∧
    (∀ x, 0 ≤ x → expoQuantile l' (expoCdf l' x) = some x) ∧
    expoQuantile l' (1 / 2) = some (expoMedian l') := by
  obtain ⟨rfl, hl⟩ := expoNew_some h
  refine ⟨fun p => ?_, fun p x hp hq => ?_, fun x hx => ?_, ?_⟩
  · unfold expoQuantile; split_ifs with c
    · simp only [true_iff]; linarith
    · simp only [reduceCtorEq, false_iff]; intro hc; exact c (by linarith)
  · unfold expoQuantile at hq
    split_ifs at hq with c
    cases hq
    push Not at c
    have h1 : 0 ≤ -Real.log (1 - p) / l' :=
      div_nonneg (by have := Real.log_nonpos c.le (by linarith); linarith) hl.le
    refine ⟨h1, ?_⟩
    rw [expoCdf, if_neg (not_lt.2 h1), show -(-Real.log (1 - p) / l') * l' = Real.log (1 - p) by field_simp,
      Real.exp_log c]
    ring
  · rw [expoCdf, if_neg (not_lt.2 hx), expoQuantile]
    have := Real.exp_pos (-x * l')
    rw [if_neg (by linarith), sub_sub_cancel, Real.log_exp]
    simp only [Option.some.injEq]
    field_simp
  · rw [expoQuantile, if_neg (by norm_num), expoMedian]
    simp only [Option.some.injEq]
    rw [show (1 : ℝ) - 1 / 2 = 2⁻¹ by norm_num, Real.log_inv, neg_neg]

example : expoCdf 2 (Real.log 3) = 8 / 9 ∧ expoMean 2 = 1 / 2 ∧ expoVariance 2 = 1 / 4 := by
  refine ⟨?_, by norm_num [expoMean], by norm_num [expoVariance]⟩
  rw [expoCdf, if_neg (not_lt.2 (Real.log_nonneg (by norm_num))), show -Real.log 3 * 2 = -(Real.log 3 + Real.log 3) by ring,
    Real.exp_neg, Real.exp_add, Real.exp_log (by norm_num)]
  norm_num

end Stat
end Verif
