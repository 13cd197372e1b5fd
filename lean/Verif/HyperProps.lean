import Verif.DistModel
import Mathlib.Algebra.BigOperators.Intervals
import Mathlib.Analysis.SpecificLimits.Basic

/-!
# The series loop of the hypergeometric function

The loop of `f21_norm` returns the partial sum that ends with the first term which is at most `2e-16` times the partial
sum before it.
-/

namespace Verif
namespace Special
open Finset Filter Topology

/-- The `j`-th term of the Gauss series, `(a)_j (b)_j / ((c)_j j!) z ^ j`. -/
noncomputable def f21Term (a b c z : ℝ) (j : ℕ) : ℝ :=
  ∏ i ∈ range j, ((a + i) * (b + i) / ((c + i) * (i + 1)) * z)

/-- The sum of the first `n` terms. -/
noncomputable def f21Sum (a b c z : ℝ) (n : ℕ) : ℝ := ∑ j ∈ range n, f21Term a b c z j

theorem f21Term_zero (a b c z : ℝ) : f21Term a b c z 0 = 1 := by simp [f21Term]

theorem f21Term_succ (a b c z : ℝ) (j : ℕ) :
    f21Term a b c z (j + 1) = f21Term a b c z j * ((a + j) * (b + j) / ((c + j) * (j + 1)) * z) := by
  simp [f21Term, prod_range_succ]

theorem f21Sum_succ (a b c z : ℝ) (n : ℕ) : f21Sum a b c z (n + 1) = f21Sum a b c z n + f21Term a b c z n := by
  simp [f21Sum, sum_range_succ]

/-- One round of the loop. -/
theorem f21Loop_step {a b c z : ℝ} (fuel j : ℕ) (hc : c + j ≠ 0) (sp : ℝ)
    (h : 0.0000000000000002 * |sp| < |f21Term a b c z j|) :
    f21Loop a b c z (fuel + 1) (f21Term a b c z j) (f21Sum a b c z (j + 1)) sp j
      = f21Loop a b c z fuel (f21Term a b c z (j + 1)) (f21Sum a b c z (j + 2)) (f21Sum a b c z (j + 1)) ((j + 1 : ℕ) : ℝ) := by
  have hj : (j : ℝ) + 1 ≠ 0 := by positivity
  rw [f21Loop, if_pos h]
  simp only [R.div, hc, hj, if_false, Option.bind_eq_bind, Option.bind_some]
  rw [f21Sum_succ a b c z (j + 1), f21Term_succ]
  congr 1
  · field_simp
  · congr 1
    field_simp
  · push_cast
    ring

theorem f21Loop_sound {a b c z : ℝ} (fuel : ℕ) : ∀ (j : ℕ) (_ : ∀ i : ℕ, c + i ≠ 0) (v : ℝ),
    f21Loop a b c z fuel (f21Term a b c z (j + 1)) (f21Sum a b c z (j + 2)) (f21Sum a b c z (j + 1)) ((j + 1 : ℕ) : ℝ) = some v →
    ∃ n, v = f21Sum a b c z (n + 2) ∧ |f21Term a b c z (n + 1)| ≤ 0.0000000000000002 * |f21Sum a b c z (n + 1)| := by
  induction fuel with
  | zero => intro j _ v h; simp [f21Loop] at h
  | succ fuel ih =>
    intro j hc v h
    by_cases ht : 0.0000000000000002 * |f21Sum a b c z (j + 1)| < |f21Term a b c z (j + 1)|
    · rw [f21Loop_step fuel (j + 1) (hc _) _ ht] at h
      exact ih (j + 1) hc v h
    · rw [f21Loop, if_neg ht, Option.some.injEq] at h
      exact ⟨j, h.symm, not_lt.1 ht⟩

theorem f21Loop_complete {a b c z : ℝ} (hc : ∀ i : ℕ, c + i ≠ 0) (d : ℕ) : ∀ j : ℕ,
    |f21Term a b c z (j + d + 1)| ≤ 0.0000000000000002 * |f21Sum a b c z (j + d + 1)| →
    ∃ v, ∀ fuel, d + 1 ≤ fuel → f21Loop a b c z fuel (f21Term a b c z (j + 1)) (f21Sum a b c z (j + 2)) (f21Sum a b c z (j + 1)) ((j + 1 : ℕ) : ℝ) = some v := by
  induction d with
  | zero =>
    intro j h
    refine ⟨f21Sum a b c z (j + 2), fun fuel hf => ?_⟩
    obtain ⟨f, rfl⟩ : ∃ f, fuel = f + 1 := ⟨fuel - 1, by omega⟩
    rw [f21Loop, if_neg (not_lt.2 h)]
  | succ d ih =>
    intro j h
    by_cases ht : 0.0000000000000002 * |f21Sum a b c z (j + 1)| < |f21Term a b c z (j + 1)|
    · obtain ⟨v, hv⟩ := ih (j + 1) (by rw [show j + 1 + d + 1 = j + (d + 1) + 1 by ring]; exact h)
      refine ⟨v, fun fuel hf => ?_⟩
      obtain ⟨f, rfl⟩ : ∃ f, fuel = f + 1 := ⟨fuel - 1, by omega⟩
      rw [f21Loop_step f (j + 1) (hc _) _ ht]
      exact hv f (by omega)
    · refine ⟨f21Sum a b c z (j + 2), fun fuel hf => ?_⟩
      obtain ⟨f, rfl⟩ : ∃ f, fuel = f + 1 := ⟨fuel - 1, by omega⟩
      rw [f21Loop, if_neg ht]

theorem f21Norm_step {a b c z : ℝ} (hc : c ≠ 0) (fuel : ℕ) : f21Norm (fuel + 1) a b c z
    = f21Loop a b c z fuel (f21Term a b c z (0 + 1)) (f21Sum a b c z (0 + 2)) (f21Sum a b c z (0 + 1)) ((0 + 1 : ℕ) : ℝ) := by
  have h := f21Loop_step (a := a) (b := b) (c := c) (z := z) fuel 0 (by simpa using hc) 1 (by rw [f21Term_zero]; norm_num)
  rw [← h, f21Norm]
  simp [f21Term_zero, f21Sum]

/-- Whatever the loop returns is the partial sum up to a term that is at most `2e-16` times the sum before it. -/
theorem f21Norm_sound {a b c z : ℝ} (hc : ∀ i : ℕ, c + i ≠ 0) {fuel : ℕ} {v : ℝ} (h : f21Norm fuel a b c z = some v) :
    ∃ n, v = f21Sum a b c z (n + 2) ∧ |f21Term a b c z (n + 1)| ≤ 0.0000000000000002 * |f21Sum a b c z (n + 1)| := by
  cases fuel with
  | zero => simp [f21Norm, f21Loop] at h
  | succ fuel =>
    rw [f21Norm_step (by simpa using hc 0)] at h
    exact f21Loop_sound fuel 0 hc v h

/-- The loop stops as soon as some term is small enough. -/
theorem f21Norm_complete {a b c z : ℝ} (hc : ∀ i : ℕ, c + i ≠ 0) (n : ℕ)
    (h : |f21Term a b c z (n + 1)| ≤ 0.0000000000000002 * |f21Sum a b c z (n + 1)|) :
    ∃ v, ∀ fuel, n + 2 ≤ fuel → f21Norm fuel a b c z = some v := by
  obtain ⟨v, hv⟩ := f21Loop_complete hc n 0 (by simpa using h)
  refine ⟨v, fun fuel hf => ?_⟩
  obtain ⟨f, rfl⟩ : ∃ f, fuel = f + 1 := ⟨fuel - 1, by omega⟩
  rw [f21Norm_step (by simpa using hc 0)]
  exact hv f (by omega)

/-- Terms vanish in the limit inside the disc of convergence. -/
theorem f21Term_tendsto {a b c z : ℝ} (hc : ∀ i : ℕ, c + i ≠ 0) (hz : |z| < 1) :
    Tendsto (f21Term a b c z) atTop (𝓝 0) ∧ Summable (f21Term a b c z) := by
  have hr : Tendsto (fun j : ℕ => |(a + j) * (b + j) / ((c + j) * (j + 1)) * z|) atTop (𝓝 |z|) := by
    have h1 : ∀ u : ℝ, Tendsto (fun j : ℕ => u / (j : ℝ)) atTop (𝓝 0) := fun u =>
      tendsto_const_div_atTop_nhds_zero_nat u
    have h2 : Tendsto (fun j : ℕ => (a / (j : ℝ) + 1) * (b / (j : ℝ) + 1) / ((c / (j : ℝ) + 1) * (1 + 1 / (j : ℝ))) * z)
        atTop (𝓝 ((0 + 1) * (0 + 1) / ((0 + 1) * (1 + 0)) * z)) :=
      (((((h1 a).add_const 1).mul ((h1 b).add_const 1)).div
        (((h1 c).add_const 1).mul (tendsto_const_nhds.add (h1 1))) (by norm_num)).mul_const z)
    have h3 := h2.abs
    norm_num at h3
    refine (tendsto_congr' ?_).1 h3
    filter_upwards [eventually_gt_atTop 0] with j hj
    have hj' : (0 : ℝ) < j := by exact_mod_cast hj
    rw [← abs_mul]
    congr 1
    have hcj := hc j
    have : c / (j : ℝ) + 1 = (c + j) / j := by field_simp
    rw [this]
    field_simp
    try ring
  obtain ⟨r, hr1, hr2⟩ := exists_between hz
  have hev : ∀ᶠ j : ℕ in atTop, ‖f21Term a b c z (j + 1)‖ ≤ r * ‖f21Term a b c z j‖ := by
    filter_upwards [(tendsto_order.1 hr).2 r hr1] with j hj
    rw [f21Term_succ, norm_mul, mul_comm]
    exact mul_le_mul_of_nonneg_right hj.le (norm_nonneg _)
  have hs : Summable (f21Term a b c z) := summable_of_ratio_norm_eventually_le hr2 hev
  exact ⟨hs.tendsto_atTop_zero, hs⟩

theorem f21Sum_tendsto {a b c z : ℝ} (hc : ∀ i : ℕ, c + i ≠ 0) (hz : |z| < 1) :
    Tendsto (f21Sum a b c z) atTop (𝓝 (∑' j, f21Term a b c z j)) :=
  (f21Term_tendsto hc hz).2.hasSum.tendsto_sum_nat

/-- For `|z| < 1` the loop ends, unless the sum of the series is zero. -/
theorem f21Norm_terminates {a b c z : ℝ} (hc : ∀ i : ℕ, c + i ≠ 0) (hz : |z| < 1)
    (h0 : ∑' j, f21Term a b c z j ≠ 0) : ∃ N v, ∀ fuel, N ≤ fuel → f21Norm fuel a b c z = some v := by
  have h1 := ((f21Term_tendsto (a := a) (b := b) hc hz).1.comp (tendsto_add_atTop_nat 1)).abs
  have h2 := (((f21Sum_tendsto (a := a) (b := b) hc hz).comp (tendsto_add_atTop_nat 1)).abs).const_mul (0.0000000000000002 : ℝ)
  have h3 : (0 : ℝ) < 0.0000000000000002 * |∑' j, f21Term a b c z j| := by positivity
  have h4 := h1.eventually_lt h2 (by simpa using h3)
  obtain ⟨n, hn⟩ := h4.exists
  obtain ⟨v, hv⟩ := f21Norm_complete hc n hn.le
  exact ⟨n + 2, v, hv⟩

end Special
end Verif
