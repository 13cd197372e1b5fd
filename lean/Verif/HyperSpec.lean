import Verif.DistTCdf
import Mathlib.Analysis.SpecialFunctions.OrdinaryHypergeometric

/-!
# C75: the hypergeometric function

The specification is Mathlib's Gauss series `₂F₁`.
-/

namespace Verif
namespace Special
open Finset Filter Topology

/-- The terms of the loop are the terms of the Gauss series. -/
theorem f21Term_eq (a b c z : ℝ) (j : ℕ) :
    f21Term a b c z j = ((j.factorial : ℝ)⁻¹ * (ascPochhammer ℝ j).eval a * (ascPochhammer ℝ j).eval b *
      ((ascPochhammer ℝ j).eval c)⁻¹) • z ^ j := by
  induction j with
  | zero => simp [f21Term]
  | succ j ih =>
    rw [f21Term_succ, ih, Nat.factorial_succ]
    simp only [ascPochhammer_succ_eval, smul_eq_mul]
    push_cast
    simp only [mul_inv, div_eq_mul_inv, pow_succ]
    ring

theorem f21Term_tsum (a b c z : ℝ) : ∑' j, f21Term a b c z j = ordinaryHypergeometric a b c z := by
  rw [ordinaryHypergeometric_eq_tsum]
  exact tsum_congr (f21Term_eq a b c z)

/-- **C75**, arguments: `f21` panics if one of `a`, `b`, `c` is not positive or `z > 1`.  Missing: the documented panic for
`z = 1`, see `C75_one_violated`. -/
theorem C75_domain_partial (fuel : ℕ) {a b c z : ℝ} (h : a ≤ 0 ∨ b ≤ 0 ∨ c ≤ 0 ∨ 1 < z) : f21 fuel a b c z = none := by
  rw [f21, if_pos h]

example (fuel : ℕ) : f21 fuel (-1) 2 3 0.5 = none := C75_domain_partial fuel (Or.inl (by norm_num))

/-- The documentation demands `z < 1` and promises a panic otherwise.  `f21(1, 1, 1, 1)` returns a finite number, `1` up
to rounding, although the Gauss series `1 + 1 + 1 + …` diverges. -/
theorem C75_one_violated : ∃ v, (∀ fuel, f21 fuel 1 1 1 1 = some v) ∧ |v - 1| ≤ 2e-11 ∧
    Tendsto (f21Sum 1 1 1 1) atTop atTop := by
  obtain ⟨g, hg, hR, hn⟩ := Stat.gamma_rel_pos one_pos
  refine ⟨g * g / (g * g), fun fuel => ?_, ?_, ?_⟩
  · rw [f21, if_neg (by norm_num), if_pos rfl, if_pos (by norm_num)]
    norm_num [hg, R.div, hn]
  · rw [div_self (mul_ne_zero hn hn)]
    norm_num
  · have e : f21Sum 1 1 1 1 = fun n : ℕ => (n : ℝ) := by
      funext n
      have : ∀ j, f21Term 1 1 1 1 j = 1 := by
        intro j
        unfold f21Term
        refine prod_eq_one fun i _ => ?_
        have : (1 + (i : ℝ)) ≠ 0 := by positivity
        rw [add_comm (i : ℝ) 1]
        field_simp
      simp [f21Sum, this]
    rw [e]
    exact tendsto_natCast_atTop_atTop

theorem f21Term_nonneg {a b c z : ℝ} (ha : 0 < a) (hb : 0 < b) (hc : 0 < c) (hz : 0 ≤ z) (j : ℕ) : 0 ≤ f21Term a b c z j :=
  prod_nonneg fun i _ => by positivity

/-- The stopping rule looks at one term only.  For `a = 1e-20`, `b = 1000`, `c = 1`, `z = 1/2` the first term is below the
tolerance, and the loop returns `1 + 5e-18`; the sum of the series is larger than a million. -/
theorem C75_stop_violated : ∃ v, (∀ fuel, 2 ≤ fuel → f21 fuel 1e-20 1000 1 0.5 = some v) ∧ v < 2 ∧
    (10 : ℝ) ^ 6 < ordinaryHypergeometric (1e-20 : ℝ) 1000 1 (0.5 : ℝ) := by
  have hc : ∀ i : ℕ, (1 : ℝ) + i ≠ 0 := fun i => by positivity
  have hT1 : f21Term 1e-20 1000 1 0.5 1 = 5e-18 := by norm_num [f21Term]
  have hS1 : f21Sum 1e-20 1000 1 0.5 1 = 1 := by simp [f21Sum, f21Term_zero]
  have hstop : ∀ fuel, 2 ≤ fuel → f21Norm fuel 1e-20 1000 1 0.5 = some (f21Sum 1e-20 1000 1 0.5 2) := by
    intro fuel hf
    obtain ⟨f, rfl⟩ : ∃ f, fuel = f + 2 := ⟨fuel - 2, by omega⟩
    rw [f21Norm_step (by norm_num), f21Loop, if_neg]
    simp only [zero_add]
    rw [hT1, hS1]
    norm_num
  refine ⟨f21Sum 1e-20 1000 1 0.5 2, fun fuel hf => ?_, ?_, ?_⟩
  · rw [f21, if_neg (by norm_num), if_neg (by norm_num), if_neg (by norm_num), if_neg (by norm_num), if_pos (by norm_num)]
    exact hstop fuel hf
  · rw [f21Sum_succ, hS1, hT1]
    norm_num
  · rw [← f21Term_tsum]
    have hs := (f21Term_tendsto (a := 1e-20) (b := 1000) (z := 0.5) hc (by norm_num [abs_lt])).2
    refine lt_of_lt_of_le ?_ (hs.le_tsum 15 fun j _ => f21Term_nonneg (by norm_num) (by norm_num) (by norm_num) (by norm_num) j)
    norm_num [f21Term, prod_range_succ]

/-- The error of a partial sum whose terms decrease geometrically. -/
theorem f21_remainder {a b c z r : ℝ} (hc : ∀ i : ℕ, c + i ≠ 0) (hz : |z| < 1) (hr : r < 1)
    (h : ∀ j : ℕ, |(a + j) * (b + j) / ((c + j) * (j + 1)) * z| ≤ r) (N : ℕ) :
    |ordinaryHypergeometric a b c z - f21Sum a b c z N| ≤ |f21Term a b c z N| / (1 - r) := by
  have hs := (f21Term_tendsto (a := a) (b := b) hc hz).2
  have hr0 : 0 ≤ r := (abs_nonneg _).trans (h 0)
  have hgeo : ∀ i, |f21Term a b c z (i + N)| ≤ |f21Term a b c z N| * r ^ i := by
    intro i
    induction i with
    | zero => simp
    | succ i ih =>
      rw [show i + 1 + N = (i + N) + 1 by ring, f21Term_succ, abs_mul, pow_succ, ← mul_assoc]
      exact mul_le_mul ih (h (i + N)) (abs_nonneg _) (by positivity)
  have hsum : Summable fun i => |f21Term a b c z N| * r ^ i := (summable_geometric_of_lt_one hr0 hr).mul_left _
  have e := hs.sum_add_tsum_nat_add N
  rw [← f21Term_tsum, ← e, f21Sum, add_sub_cancel_left]
  have h1 : Summable fun i => |f21Term a b c z (i + N)| := Summable.of_nonneg_of_le (fun _ => abs_nonneg _) hgeo hsum
  calc |∑' i, f21Term a b c z (i + N)| ≤ ∑' i, |f21Term a b c z (i + N)| := by
        have := norm_tsum_le_tsum_norm (f := fun i => f21Term a b c z (i + N)) h1
        simpa using this
    _ ≤ ∑' i, |f21Term a b c z N| * r ^ i := h1.tsum_le_tsum hgeo hsum
    _ = |f21Term a b c z N| / (1 - r) := by rw [tsum_mul_left, tsum_geometric_of_lt_one hr0 hr, div_eq_mul_inv]

/-- The loop is accurate when the quotient of successive terms is bounded by `r < 1`. -/
theorem f21Norm_accuracy {a b c z r : ℝ} (hc : ∀ i : ℕ, c + i ≠ 0) (hz : |z| < 1) (hr : r ≤ 1 - 1e-10)
    (h : ∀ j : ℕ, |(a + j) * (b + j) / ((c + j) * (j + 1)) * z| ≤ r) {fuel : ℕ} {v : ℝ}
    (hv : f21Norm fuel a b c z = some v) :
    |v - ordinaryHypergeometric a b c z| ≤ 2.1e-16 * (r / (1 - r)) * |ordinaryHypergeometric a b c z| := by
  have hr0 : 0 ≤ r := (abs_nonneg _).trans (h 0)
  have hr1 : 1e-10 ≤ 1 - r := by linarith
  have hr2 : 0 < 1 - r := lt_of_lt_of_le (by norm_num) hr1
  obtain ⟨n, hn, ht⟩ := f21Norm_sound hc hv
  set F := ordinaryHypergeometric a b c z with hF
  have h1 := f21_remainder hc hz (by linarith) h (n + 1)
  have h2 := f21_remainder hc hz (by linarith) h (n + 2)
  rw [← hF] at h1 h2
  set S := f21Sum a b c z (n + 1)
  set T := f21Term a b c z (n + 1)
  have hT : |f21Term a b c z (n + 2)| ≤ |T| * r := by
    rw [f21Term_succ, abs_mul]
    exact mul_le_mul_of_nonneg_left (h (n + 1)) (abs_nonneg _)
  have hS : |S| ≤ |F| + |F - S| := by
    calc |S| = |F - (F - S)| := by ring_nf
      _ ≤ |F| + |F - S| := abs_sub _ _
  have h3 : |F - S| ≤ 2e-6 * |S| := by
    refine h1.trans ?_
    rw [div_le_iff₀ hr2]
    have : |T| ≤ 2e-6 * |S| * 1e-10 := by norm_num at ht ⊢; linarith
    exact this.trans (mul_le_mul_of_nonneg_left hr1 (by positivity))
  have h4 : |S| ≤ 1.01 * |F| := by have := abs_nonneg F; norm_num at h3 ⊢; linarith
  rw [hn, abs_sub_comm]
  refine h2.trans ?_
  have h5 : |T| ≤ 2.1e-16 * |F| := by have := abs_nonneg F; norm_num at ht h4 ⊢; linarith
  calc |f21Term a b c z (n + 2)| / (1 - r) ≤ |T| * r / (1 - r) := div_le_div_of_nonneg_right hT hr2.le
    _ = |T| * (r / (1 - r)) := by ring
    _ ≤ 2.1e-16 * |F| * (r / (1 - r)) := mul_le_mul_of_nonneg_right h5 (by positivity)
    _ = _ := by ring

theorem quot_bound {a b c : ℝ} (ha : 0 < a) (hc : 0 < c) (j : ℕ) (z : ℝ) :
    |(a + j) * (b + j) / ((c + j) * (j + 1)) * z| ≤ max 1 (a / c) * max 1 |b| * |z| := by
  have hj : (0 : ℝ) ≤ j := Nat.cast_nonneg j
  have h1 : (a + j) / (c + j) ≤ max 1 (a / c) := by
    rw [div_le_iff₀ (by positivity), mul_add]
    have e1 : a ≤ max 1 (a / c) * c := by
      calc a = a / c * c := by field_simp
        _ ≤ _ := mul_le_mul_of_nonneg_right (le_max_right _ _) hc.le
    have e2 : (j : ℝ) ≤ max 1 (a / c) * j := by
      calc (j : ℝ) = 1 * j := (one_mul _).symm
        _ ≤ _ := mul_le_mul_of_nonneg_right (le_max_left _ _) hj
    linarith
  have h2 : |b + j| / (j + 1) ≤ max 1 |b| := by
    rw [div_le_iff₀ (by positivity), mul_add, mul_one]
    have e1 : |b + j| ≤ |b| + j := (abs_add_le _ _).trans (by rw [abs_of_nonneg hj])
    have e2 : (j : ℝ) ≤ max 1 |b| * j := by
      calc (j : ℝ) = 1 * j := (one_mul _).symm
        _ ≤ _ := mul_le_mul_of_nonneg_right (le_max_left _ _) hj
    linarith [le_max_right (1 : ℝ) |b|]
  rw [abs_mul]
  refine mul_le_mul_of_nonneg_right ?_ (abs_nonneg z)
  rw [abs_div, abs_mul, abs_mul, abs_of_pos (by positivity : 0 < a + j), abs_of_pos (by positivity : 0 < c + j),
    abs_of_pos (by positivity : 0 < (j : ℝ) + 1), mul_div_mul_comm]
  exact mul_le_mul h1 h2 (by positivity) (by positivity)

/-- **C75**, `0 ≤ z ≤ 1/2`: `f21` terminates, and its value is the sum of the Gauss series up to a relative error of
`2.1e-16 r / (1 - r)`, where `r = max(1, a/c) max(1, b) z` is a bound for the quotient of successive terms.  Missing: the
accuracy for `r ≥ 1` (it fails for some arguments, see `C75_stop_violated`). -/
theorem C75_series_partial {a b c z : ℝ} (ha : 0 < a) (hb : 0 < b) (hc : 0 < c) (hz0 : 0 ≤ z) (hz1 : z ≤ 0.5) :
    ∃ N v, (∀ fuel, N ≤ fuel → f21 fuel a b c z = some v) ∧
      ∀ r, r = max 1 (a / c) * max 1 b * z → r ≤ 1 - 1e-10 →
        |v - ordinaryHypergeometric a b c z| ≤ 2.1e-16 * (r / (1 - r)) * ordinaryHypergeometric a b c z := by
  have hc' : ∀ i : ℕ, c + i ≠ 0 := fun i => by positivity
  have hz : |z| < 1 := by rw [abs_of_nonneg hz0]; norm_num at hz1; linarith
  have hs := (f21Term_tendsto (a := a) (b := b) hc' hz).2
  have hF : 0 < ordinaryHypergeometric a b c z := by
    rw [← f21Term_tsum]
    refine hs.tsum_pos (f21Term_nonneg ha hb hc hz0) 0 ?_
    rw [f21Term_zero]
    exact one_pos
  obtain ⟨N, v, hv⟩ := f21Norm_terminates (a := a) (b := b) hc' hz (by rw [f21Term_tsum]; exact hF.ne')
  refine ⟨N, v, fun fuel hf => ?_, fun r hr hr1 => ?_⟩
  · have h1 : ¬ (a ≤ 0 ∨ b ≤ 0 ∨ c ≤ 0 ∨ z > 1) := by
      rintro (h | h | h | h)
      · linarith
      · linarith
      · linarith
      · norm_num at hz1; linarith
    rw [f21, if_neg h1, if_neg (by intro h; norm_num at hz1; linarith), if_neg (by linarith),
      if_neg (by rintro ⟨-, h⟩; linarith), if_pos ⟨hz0, hz1⟩]
    exact hv fuel hf
  · have := f21Norm_accuracy (r := r) hc' hz hr1 (fun j => by
      have := quot_bound (b := b) ha hc j z
      rwa [abs_of_pos hb, abs_of_nonneg hz0, ← hr] at this) (hv N le_rfl)
    rwa [abs_of_pos hF] at this

/-- `₂F₁(1, 1; 1; 1/4) = 4/3`, the geometric series. -/
example : ∃ N v, (∀ fuel, N ≤ fuel → f21 fuel 1 1 1 0.25 = some v) ∧ |v - 4 / 3| ≤ 1e-16 := by
  obtain ⟨N, v, hv, h⟩ := C75_series_partial (a := 1) (b := 1) (c := 1) (z := 0.25) one_pos one_pos one_pos (by norm_num)
    (by norm_num)
  refine ⟨N, v, hv, ?_⟩
  have e : ordinaryHypergeometric (1 : ℝ) 1 1 (0.25 : ℝ) = 4 / 3 := by
    rw [← f21Term_tsum]
    have : ∀ j, f21Term 1 1 1 0.25 j = (0.25 : ℝ) ^ j := by
      intro j
      unfold f21Term
      rw [prod_congr rfl (g := fun _ => (0.25 : ℝ)), prod_const, card_range]
      intro i _
      have : (1 + (i : ℝ)) ≠ 0 := by positivity
      rw [add_comm (i : ℝ) 1]
      field_simp
    simp only [this]
    rw [tsum_geometric_of_lt_one (by norm_num) (by norm_num)]
    norm_num
  have := h 0.25 (by norm_num) (by norm_num)
  rw [e] at this
  norm_num at this ⊢
  linarith

end Special
end Verif
