import Verif.ErfAcc
import Verif.LogNormalProps

/-!
# C58, C69: the distribution functions with the implemented error function
-/

namespace Verif

namespace Special

/-- `error.rs:72-79`, `erf` as a total function: the value that `erf` of the model has for all large enough numbers of
rounds (`C50_total`) -/
noncomputable def erfFn (x : ℝ) : ℝ := (C50_total x).choose_spec.choose

theorem erfFn_spec (x : ℝ) : ∃ N, ∀ n, N ≤ n → erf n x = some (erfFn x) :=
  ⟨(C50_total x).choose, fun n hn => ((C50_total x).choose_spec.choose_spec n hn).1⟩

theorem erfFn_accuracy (x : ℝ) : |erfFn x - Stat.erfSpec x| ≤ 4.7e-12 := by
  obtain ⟨N, h⟩ := erfFn_spec x
  exact (C50_accuracy N x _ (h N le_rfl)).1

theorem erfFn_neg (x : ℝ) : erfFn (-x) = -erfFn x := by
  obtain ⟨N, h⟩ := erfFn_spec x
  obtain ⟨M, h'⟩ := erfFn_spec (-x)
  have e := (C50_erf (max N M) x).2.1
  rw [h _ (le_max_left _ _), h' _ (le_max_right _ _)] at e
  exact Option.some.inj e

end Special

namespace Stat
open MeasureTheory Set Special

/-- C58: the distribution function of the code, with the implemented `erf`, differs from the integral of the Gaussian
density by at most `2.4e-12`, for every mean, variance and argument; it is exactly symmetric around the mean. -/
theorem C58_cdf {m v : ℝ} {d : ℝ × ℝ} (h : normalNew m v = some d) (x : ℝ) :
    |normalCdf erfFn d x - ∫ t in Iic x, 1 / √(2 * Real.pi * v) * Real.exp (-(t - m) ^ 2 / (2 * v))| ≤ 2.4e-12 ∧
    normalCdf erfFn d (m + x) + normalCdf erfFn d (m - x) = 1 := by
  constructor
  · have := (C58_cdf_partial h x).1
    change _ = ∫ t in Iic x, 1 / √(2 * Real.pi * v) * Real.exp (-(t - m) ^ 2 / (2 * v)) at this
    rw [← this, normalCdf, normalCdf]
    have := erfFn_accuracy ((x - d.1) / √(2 * d.2))
    rw [show ∀ p q : ℝ, 0.5 * (1 + p) - 0.5 * (1 + q) = 0.5 * (p - q) by intro p q; ring, abs_mul,
      abs_of_pos (by norm_num)]
    norm_num at this ⊢
    linarith
  · have h2 := normalNew_some h
    have := (C58_cdf_symm erfFn_neg d x).1
    rw [normalMean, h2.1] at this
    rw [h2.1]
    exact this

/-- the standard normal distribution at 0: exactly one half -/
example : ∃ d, normalNew 0 1 = some d ∧ normalCdf erfFn d 0 = 1 / 2 := by
  refine ⟨(0, 1), by norm_num [normalNew], ?_⟩
  have := (C58_cdf (m := 0) (v := 1) (d := (0, 1)) (by norm_num [normalNew]) 0).2
  norm_num at this ⊢
  linarith

/-- C69: the distribution function of the code, with the implemented `erf`, differs from the integral of the log-normal
density by at most `2.4e-12`. -/
theorem C69_cdf {m v : ℝ} {d : ℝ × ℝ} (h : logNormalNew m v = some d) (x : ℝ) :
    |logNormalCdf erfFn d x - ∫ t in Iic x,
      (if 0 < t then 1 / (t * √(2 * Real.pi * v)) * Real.exp (-(Real.log t - m) ^ 2 / (2 * v)) else 0)| ≤ 2.4e-12 := by
  have := (C69_partial h).2.2.2.2.2.2.2 x
  have e : (fun t : ℝ => if 0 < t then 1 / (t * √(2 * Real.pi * v)) * Real.exp (-(Real.log t - m) ^ 2 / (2 * v)) else 0)
      = lnDens m v := by
    ext t
    unfold lnDens gauss
    split_ifs with ht
    · field_simp
    · rfl
  rw [e, ← this, logNormalCdf, logNormalCdf]
  split_ifs
  · simp; norm_num
  have := erfFn_accuracy ((Real.log x - d.1) / √(2 * d.2))
  rw [show ∀ p q : ℝ, 0.5 + 0.5 * p - (0.5 + 0.5 * q) = 0.5 * (p - q) by intro p q; ring, abs_mul,
    abs_of_pos (by norm_num)]
  norm_num at this ⊢
  linarith

/-- the median of the standard log-normal distribution is 1 -/
example : ∃ d, logNormalNew 0 1 = some d ∧ logNormalCdf erfFn d 1 = 1 / 2 := by
  refine ⟨(0, 1), by norm_num [logNormalNew], ?_⟩
  have h0 : erfFn 0 = 0 := by have := erfFn_neg 0; rw [neg_zero] at this; linarith
  norm_num [logNormalCdf, h0]

end Stat
end Verif
