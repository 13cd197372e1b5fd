import Verif.IncGammaLemmas
import Mathlib.Analysis.SpecialFunctions.Gamma.Basic
import Mathlib.Analysis.SpecialFunctions.Integrals.Basic
import Mathlib.MeasureTheory.Integral.ExpDecay
import Mathlib.MeasureTheory.Integral.IntegralEqImproper
import Mathlib.MeasureTheory.Integral.DominatedConvergence

/-!
# The incomplete gamma integrals, their series and their continued fraction
-/

namespace Verif
namespace Special
open Filter Topology MeasureTheory Set intervalIntegral

/-- the lower incomplete gamma integral -/
noncomputable def gInt (a x : ℝ) : ℝ := ∫ t in (0 : ℝ)..x, t ^ (a - 1) * Real.exp (-t)

theorem gInt_integrable {a x : ℝ} (ha : 0 < a) :
    IntervalIntegrable (fun t : ℝ => t ^ (a - 1) * Real.exp (-t)) volume 0 x :=
  (intervalIntegrable_rpow' (by linarith : -1 < a - 1)).mul_continuousOn (by fun_prop)

/-- integration by parts -/
theorem gInt_rec {a x : ℝ} (ha : 0 < a) (hx : 0 ≤ x) : a * gInt a x = x ^ a * Real.exp (-x) + gInt (a + 1) x := by
  have hc : ContinuousOn (fun t : ℝ => t ^ a * Real.exp (-t)) (Icc 0 x) :=
    (ContinuousOn.rpow_const continuousOn_id (fun t _ => Or.inr ha.le)).mul (by fun_prop)
  have hd : ∀ t ∈ Ioo 0 x, HasDerivAt (fun t : ℝ => t ^ a * Real.exp (-t))
      (a * (t ^ (a - 1) * Real.exp (-t)) - t ^ (a + 1 - 1) * Real.exp (-t)) t := by
    intro t ht
    have h1 : HasDerivAt (fun t : ℝ => t ^ a) (a * t ^ (a - 1)) t := Real.hasDerivAt_rpow_const (Or.inl ht.1.ne')
    have h2 : HasDerivAt (fun t : ℝ => Real.exp (-t)) (Real.exp (-t) * -1) t := (hasDerivAt_neg t).exp
    refine (h1.mul h2).congr_deriv ?_
    rw [add_sub_cancel_right]; ring
  have h := integral_eq_sub_of_hasDerivAt_of_le hx hc hd
    (((gInt_integrable ha).const_mul a).sub (gInt_integrable (by linarith)))
  rw [intervalIntegral.integral_sub ((gInt_integrable ha).const_mul a) (gInt_integrable (by linarith)),
    intervalIntegral.integral_const_mul] at h
  simp only [Real.zero_rpow ha.ne', zero_mul, sub_zero] at h
  unfold gInt
  linarith

theorem gInt_nonneg {a x : ℝ} (hx : 0 ≤ x) : 0 ≤ gInt a x := by
  refine intervalIntegral.integral_nonneg hx fun t ht => ?_
  have := Real.rpow_nonneg ht.1 (a - 1)
  positivity

theorem gInt_succ_le {a x : ℝ} (ha : 0 < a) (hx : 0 ≤ x) : gInt (a + 1) x ≤ x * gInt a x := by
  unfold gInt
  rw [← intervalIntegral.integral_const_mul]
  refine integral_mono_on hx (gInt_integrable (by linarith)) ((gInt_integrable ha).const_mul x) fun t ht => ?_
  have h0 := Real.rpow_nonneg ht.1 (a - 1)
  have e : t ^ (a + 1 - 1) = t * t ^ (a - 1) := by
    rcases eq_or_lt_of_le ht.1 with h | h
    · subst h
      rw [add_sub_cancel_right, Real.zero_rpow ha.ne', zero_mul]
    · rw [add_sub_cancel_right, ← Real.rpow_one_add' h.le (by ring_nf; exact ha.ne')]
      congr 1; ring
  rw [e, mul_assoc]
  exact mul_le_mul_of_nonneg_right ht.2 (by positivity)

theorem gInt_le {a x : ℝ} (ha : 0 < a) (hx : 0 ≤ x) (h : x < a) : (a - x) * gInt a x ≤ x ^ a * Real.exp (-x) := by
  have := gInt_rec ha hx
  have := gInt_succ_le ha hx
  linarith

/-- the partial sums of the series of the lower integral -/
theorem gInt_series {a x : ℝ} (ha : 0 < a) (hx : 0 < x) (N : ℕ) :
    a * gInt a x = x ^ a * Real.exp (-x) * (1 + ∑ k ∈ Finset.range N, ∏ j ∈ Finset.range (k + 1), x / (a + j + 1))
      + gInt (a + N + 1) x / ∏ j ∈ Finset.range N, (a + j + 1) := by
  induction N with
  | zero => simpa using gInt_rec ha hx.le
  | succ N ih =>
    rw [ih, Finset.sum_range_succ, Finset.prod_range_succ (fun j : ℕ => a + j + 1) N]
    have hr := gInt_rec (a := a + N + 1) (x := x) (by positivity) hx.le
    have hp : 0 < ∏ j ∈ Finset.range N, (a + j + 1) := Finset.prod_pos fun j _ => by positivity
    have hq : 0 < a + N + 1 := by positivity
    have e : gInt (a + N + 1) x = (x ^ (a + N + 1) * Real.exp (-x) + gInt (a + N + 1 + 1) x) / (a + N + 1) := by
      rw [eq_div_iff hq.ne']; linarith
    have e2 : x ^ (a + N + 1) = x ^ a * x ^ (N + 1) := by
      rw [add_assoc, Real.rpow_add hx]
      congr 1
      exact_mod_cast Real.rpow_natCast x (N + 1)
    have e3 : ∏ j ∈ Finset.range (N + 1), x / (a + j + 1)
        = x ^ (N + 1) / ((∏ j ∈ Finset.range N, (a + j + 1)) * (a + N + 1)) := by
      rw [Finset.prod_div_distrib, Finset.prod_const, Finset.card_range, Finset.prod_range_succ]
    push_cast
    rw [e, e2, e3, show a + ((N : ℝ) + 1) + 1 = a + N + 1 + 1 by ring]
    field_simp
    ring

/-- the truncation error of the series loop -/
theorem lrSeries_error {a x v : ℝ} {n : ℕ} (ha : 0 < a) (hx : 0 < x) (h : x ≤ 1 ∨ x ≤ a)
    (hv : lrSeries x n a 1 1 = some v) :
    x ^ a * Real.exp (-x) * v ≤ a * gInt a x ∧
    a * gInt a x ≤ x ^ a * Real.exp (-x) * ((1 + 1e-15 * x) * v) := by
  obtain ⟨m, h1, h2⟩ := lrSeries_value hx n ha one_pos one_pos hv
  rw [one_mul] at h1 h2
  have hs := gInt_series ha hx (m + 1)
  rw [← h1] at hs
  have hp : 0 < ∏ j ∈ Finset.range (m + 1), (a + j + 1) := Finset.prod_pos fun j _ => by positivity
  have h0 : 0 ≤ gInt (a + (m + 1 : ℕ) + 1) x := gInt_nonneg hx.le
  have hm : (0 : ℝ) ≤ m := Nat.cast_nonneg m
  have hgap : 1 ≤ a + (m + 1 : ℕ) + 1 - x := by
    push_cast
    rcases h with h | h <;> linarith
  have hle := gInt_le (a := a + (m + 1 : ℕ) + 1) (x := x) (by positivity) hx.le (by linarith)
  have hle' : gInt (a + (m + 1 : ℕ) + 1) x ≤ x ^ (a + (m + 1 : ℕ) + 1) * Real.exp (-x) := by nlinarith
  have e2 : x ^ (a + (m + 1 : ℕ) + 1) = x ^ a * (x ^ (m + 1) * x) := by
    rw [add_assoc, Real.rpow_add hx, ← pow_succ]
    congr 1
    exact_mod_cast Real.rpow_natCast x (m + 1 + 1)
  have e3 : ∏ j ∈ Finset.range (m + 1), x / (a + j + 1)
      = x ^ (m + 1) / ∏ j ∈ Finset.range (m + 1), (a + j + 1) := by
    rw [Finset.prod_div_distrib, Finset.prod_const, Finset.card_range]
  have hE : 0 < x ^ a * Real.exp (-x) := by
    have := Real.rpow_pos_of_pos hx a
    positivity
  constructor
  · rw [hs]
    have : 0 ≤ gInt (a + (m + 1 : ℕ) + 1) x / ∏ j ∈ Finset.range (m + 1), (a + j + 1) := div_nonneg h0 hp.le
    linarith
  · rw [hs]
    have : gInt (a + (m + 1 : ℕ) + 1) x / ∏ j ∈ Finset.range (m + 1), (a + j + 1)
        ≤ x ^ a * Real.exp (-x) * (x * (1e-15 * v)) := by
      calc _ ≤ x ^ (a + (m + 1 : ℕ) + 1) * Real.exp (-x) / ∏ j ∈ Finset.range (m + 1), (a + j + 1) := by gcongr
        _ = x ^ a * Real.exp (-x) * (x * ∏ j ∈ Finset.range (m + 1), x / (a + j + 1)) := by
            rw [e2, e3]; ring
        _ ≤ _ := by
            refine mul_le_mul_of_nonneg_left (mul_le_mul_of_nonneg_left (h2.trans (le_of_eq ?_)) hx.le) hE.le
            norm_num
    nlinarith

/-! ## the upper integral -/

/-- the integrand of the remainder of the continued fraction -/
noncomputable def kf (a x : ℝ) (n : ℕ) (t : ℝ) : ℝ := Real.exp (-t) * t ^ (a - 2) * (1 - x / t) ^ n

/-- the upper incomplete gamma integral -/
noncomputable def uInt (a x : ℝ) : ℝ := ∫ t in Ioi x, Real.exp (-t) * t ^ (a - 1)

noncomputable def kInt (a x : ℝ) (n : ℕ) : ℝ := ∫ t in Ioi x, kf a x n t

theorem exp_rpow_integrable {x : ℝ} (hx : 0 < x) (b : ℝ) :
    IntegrableOn (fun t : ℝ => Real.exp (-t) * t ^ b) (Ioi x) := by
  refine integrable_of_isBigO_exp_neg (b := 1 / 2) (by norm_num) ?_ (Real.Gamma_integrand_isLittleO b).isBigO
  intro t ht
  have : t ≠ 0 := (lt_of_lt_of_le hx ht).ne'
  exact ((Continuous.continuousAt (by fun_prop)).mul
    (ContinuousAt.rpow_const continuousAt_id (Or.inl this))).continuousWithinAt

theorem u_bounds {x t : ℝ} (hx : 0 < x) (ht : x ≤ t) : 0 ≤ 1 - x / t ∧ 1 - x / t ≤ 1 := by
  have h0 : 0 < t := lt_of_lt_of_le hx ht
  have h1 : x / t ≤ 1 := (div_le_one h0).2 ht
  have h2 : 0 < x / t := div_pos hx h0
  constructor <;> linarith

theorem kf_cont {x : ℝ} (hx : 0 < x) (a : ℝ) (n : ℕ) : ContinuousOn (kf a x n) (Ici x) := by
  intro t ht
  have h0 : t ≠ 0 := (lt_of_lt_of_le hx ht).ne'
  have c1 : ContinuousAt (fun t : ℝ => Real.exp (-t)) t := Continuous.continuousAt (by fun_prop)
  have c2 : ContinuousAt (fun t : ℝ => t ^ (a - 2)) t := ContinuousAt.rpow_const continuousAt_id (Or.inl h0)
  have c3 : ContinuousAt (fun t : ℝ => (1 - x / t) ^ n) t :=
    ((continuousAt_const.sub (continuousAt_const.div continuousAt_id h0)).pow n)
  exact ((c1.mul c2).mul c3).continuousWithinAt

theorem kf_bound {x t : ℝ} (hx : 0 < x) (ht : x ≤ t) (a : ℝ) (n : ℕ) :
    0 ≤ kf a x n t ∧ kf a x n t ≤ Real.exp (-t) * t ^ (a - 2) := by
  obtain ⟨h1, h2⟩ := u_bounds hx ht
  have h0 : 0 < t := lt_of_lt_of_le hx ht
  have h3 : 0 < Real.exp (-t) * t ^ (a - 2) := by
    have := Real.rpow_pos_of_pos h0 (a - 2)
    positivity
  unfold kf
  exact ⟨by positivity, mul_le_of_le_one_right h3.le (pow_le_one₀ h1 h2)⟩

theorem kf_integrable {x : ℝ} (hx : 0 < x) (a : ℝ) (n : ℕ) : IntegrableOn (kf a x n) (Ioi x) := by
  refine Integrable.mono' (exp_rpow_integrable hx (a - 2)) ?_ ?_
  · exact ((kf_cont hx a n).mono Ioi_subset_Ici_self).aestronglyMeasurable measurableSet_Ioi
  · refine (ae_restrict_iff' measurableSet_Ioi).2 (Eventually.of_forall fun t ht => ?_)
    obtain ⟨h1, h2⟩ := kf_bound hx (le_of_lt ht) a n
    rwa [Real.norm_eq_abs, abs_of_nonneg h1]

theorem kInt_tendsto {x : ℝ} (hx : 0 < x) (a : ℝ) : Tendsto (kInt a x) atTop (𝓝 0) := by
  have : Tendsto (fun n => ∫ t in Ioi x, kf a x n t) atTop (𝓝 (∫ t in Ioi x, (0 : ℝ))) := by
    refine tendsto_integral_of_dominated_convergence (fun t => Real.exp (-t) * t ^ (a - 2))
      (fun n => ((kf_cont hx a n).mono Ioi_subset_Ici_self).aestronglyMeasurable measurableSet_Ioi)
      (exp_rpow_integrable hx (a - 2)) (fun n => ?_) ?_
    · refine (ae_restrict_iff' measurableSet_Ioi).2 (Eventually.of_forall fun t ht => ?_)
      obtain ⟨h1, h2⟩ := kf_bound hx (le_of_lt ht) a n
      rwa [Real.norm_eq_abs, abs_of_nonneg h1]
    · refine (ae_restrict_iff' measurableSet_Ioi).2 (Eventually.of_forall fun t ht => ?_)
      have h0 : 0 < t := lt_trans hx ht
      obtain ⟨h1, _⟩ := u_bounds hx (le_of_lt ht)
      have h2 : 1 - x / t < 1 := by have := div_pos hx h0; linarith
      simpa [kf] using (tendsto_pow_atTop_nhds_zero_of_lt_one h1 h2).const_mul (Real.exp (-t) * t ^ (a - 2))
  rw [integral_zero] at this
  exact this

theorem exp_rpow_tendsto (b : ℝ) : Tendsto (fun t : ℝ => Real.exp (-t) * t ^ b) atTop (𝓝 0) := by
  refine ((Real.Gamma_integrand_isLittleO b).trans_tendsto ?_)
  have : Tendsto (fun t : ℝ => (1 / 2 : ℝ) * t) atTop atTop := tendsto_id.const_mul_atTop (by norm_num)
  have := Real.tendsto_exp_neg_atTop_nhds_zero.comp this
  refine this.congr fun t => ?_
  simp only [Function.comp]
  congr 1; ring

theorem uInt_rec {x : ℝ} (hx : 0 < x) (a : ℝ) : uInt a x = x ^ (a - 1) * Real.exp (-x) + (a - 1) * uInt (a - 1) x := by
  have hd : ∀ t ∈ Ici x, HasDerivAt (fun t : ℝ => Real.exp (-t) * t ^ (a - 1))
      ((a - 1) * (Real.exp (-t) * t ^ (a - 1 - 1)) - Real.exp (-t) * t ^ (a - 1)) t := by
    intro t ht
    have h0 : t ≠ 0 := (lt_of_lt_of_le hx ht).ne'
    have h1 : HasDerivAt (fun t : ℝ => t ^ (a - 1)) ((a - 1) * t ^ (a - 1 - 1)) t :=
      Real.hasDerivAt_rpow_const (Or.inl h0)
    have h2 : HasDerivAt (fun t : ℝ => Real.exp (-t)) (Real.exp (-t) * -1) t := (hasDerivAt_neg t).exp
    refine (h2.mul h1).congr_deriv ?_
    ring
  have i1 := (exp_rpow_integrable hx (a - 1 - 1)).const_mul (a - 1)
  have i2 := exp_rpow_integrable hx (a - 1)
  have h := integral_Ioi_of_hasDerivAt_of_tendsto' hd (i1.sub i2) (exp_rpow_tendsto (a - 1))
  rw [integral_sub i1 i2, MeasureTheory.integral_const_mul] at h
  unfold uInt
  linarith

theorem kInt_zero (a x : ℝ) : kInt a x 0 = uInt (a - 1) x := by
  unfold kInt uInt kf
  simp only [pow_zero, mul_one]
  congr 1; ext t; congr 2; ring

theorem kInt_one {x : ℝ} (hx : 0 < x) (a : ℝ) : kInt a x 1 = kInt a x 0 - x * uInt (a - 2) x := by
  unfold kInt uInt
  rw [← MeasureTheory.integral_const_mul, ← integral_sub (kf_integrable hx a 0) ((exp_rpow_integrable hx _).const_mul x)]
  refine setIntegral_congr_fun measurableSet_Ioi fun t ht => ?_
  have h0 : 0 < t := lt_trans hx ht
  simp only [kf, pow_zero, pow_one]
  have : t ^ (a - 2) = t ^ (a - 2 - 1) * t := by
    rw [← Real.rpow_add_one h0.ne']; congr 1; ring
  rw [this]
  field_simp

/-- the three term relation of the remainders -/
theorem kInt_rec {x : ℝ} (hx : 0 < x) (a : ℝ) (n : ℕ) :
    (n + 3 - a) * kInt a x (n + 2) = (x + 2 * (n + 1) + 2 - a) * kInt a x (n + 1) - (n + 1) * kInt a x n := by
  have hd : ∀ t ∈ Ici x, HasDerivAt (fun t : ℝ => kf a x (n + 1) t)
      ((n + 1) / x * kf a x n t - (x + 2 * (n + 1) + 2 - a) / x * kf a x (n + 1) t
        + (n + 3 - a) / x * kf a x (n + 2) t) t := by
    intro t ht
    have h0 : 0 < t := lt_of_lt_of_le hx ht
    have h1 : HasDerivAt (fun t : ℝ => t ^ (a - 2)) ((a - 2) * t ^ (a - 2 - 1)) t :=
      Real.hasDerivAt_rpow_const (Or.inl h0.ne')
    have h2 : HasDerivAt (fun t : ℝ => Real.exp (-t)) (Real.exp (-t) * -1) t := (hasDerivAt_neg t).exp
    have h3 : HasDerivAt (fun t : ℝ => 1 - x / t) (x / t ^ 2) t := by
      have := ((hasDerivAt_inv h0.ne').const_mul x).const_sub 1
      refine (this.congr_deriv ?_).congr_of_eventuallyEq (Eventually.of_forall fun s => ?_)
      · field_simp
      · simp [div_eq_mul_inv]
    have h4 := h3.pow (n + 1)
    refine ((h2.mul h1).mul h4).congr_deriv ?_
    have e : t ^ (a - 2) = t ^ (a - 2 - 1) * t := by
      rw [← Real.rpow_add_one h0.ne']; congr 1; ring
    simp only [kf, Pi.pow_apply, Pi.mul_apply, Nat.add_sub_cancel]
    rw [e]
    push_cast
    obtain ⟨w, hw⟩ : ∃ w, w = 1 - x / t := ⟨_, rfl⟩
    have hxw : x = t * (1 - w) := by rw [hw]; field_simp; ring
    rw [← hw]
    have hw1 : 1 - w ≠ 0 := by
      intro h
      rw [h, mul_zero] at hxw
      exact hx.ne' hxw
    rw [hxw]
    field_simp
    ring
  have i0 := (kf_integrable hx a n).const_mul ((n + 1) / x)
  have i1 := (kf_integrable hx a (n + 1)).const_mul ((x + 2 * (n + 1) + 2 - a) / x)
  have i2 := (kf_integrable hx a (n + 2)).const_mul ((n + 3 - a) / x)
  have ht : Tendsto (fun t : ℝ => kf a x (n + 1) t) atTop (𝓝 0) := by
    refine squeeze_zero' ?_ ?_ (exp_rpow_tendsto (a - 2))
    · filter_upwards [eventually_ge_atTop x] with t ht using (kf_bound hx ht a (n + 1)).1
    · filter_upwards [eventually_ge_atTop x] with t ht using (kf_bound hx ht a (n + 1)).2
  have h := integral_Ioi_of_hasDerivAt_of_tendsto' hd ((i0.sub i1).add i2) ht
  have i01 : Integrable (fun t => (n + 1) / x * kf a x n t - (x + 2 * (n + 1) + 2 - a) / x * kf a x (n + 1) t)
      (volume.restrict (Ioi x)) := i0.sub i1
  rw [integral_add i01 i2, integral_sub i0 i1, MeasureTheory.integral_const_mul, MeasureTheory.integral_const_mul, MeasureTheory.integral_const_mul] at h
  have e0 : kf a x (n + 1) x = 0 := by simp [kf, hx.ne']
  rw [e0] at h
  change (n + 1) / x * kInt a x n - (x + 2 * (n + 1) + 2 - a) / x * kInt a x (n + 1)
    + (n + 3 - a) / x * kInt a x (n + 2) = _ at h
  field_simp at h
  linarith

/-- the error of the convergents, as an integral -/
theorem cf_remainder {x : ℝ} (hx : 0 < x) (a : ℝ) (n : ℕ) :
    cfP a x n * (x ^ a * Real.exp (-x)) - cfQ a x n * uInt a x
      = x * (∏ k ∈ Finset.range (n + 1), ((k : ℝ) + 1 - a)) * kInt a x n := by
  have hxa : x ^ a = x * x ^ (a - 1) := by
    rw [mul_comm, ← Real.rpow_add_one hx.ne']; congr 1; ring
  have hxa2 : x ^ (a - 1) = x * x ^ (a - 1 - 1) := by
    rw [mul_comm, ← Real.rpow_add_one hx.ne']; congr 1; ring
  induction n using Nat.twoStepInduction with
  | zero =>
    have h := uInt_rec hx a
    simp only [cfP, cfQ, zero_add, Finset.prod_range_one, Nat.cast_zero, kInt_zero]
    rw [h, hxa]; ring
  | one =>
    have h := uInt_rec hx a
    have h2 := uInt_rec hx (a - 1)
    have h3 := kInt_one hx a
    have e : a - 1 - 1 = a - 2 := by ring
    rw [e] at h2 hxa2
    simp only [cfP, cfQ, Finset.prod_range_succ, Finset.prod_range_zero, Nat.cast_zero, Nat.cast_one, h3, kInt_zero]
    rw [h, hxa, hxa2]
    linear_combination x ^ 2 * (1 - a) * h2
  | more n ih1 ih2 =>
    have h := kInt_rec hx a n
    simp only [cfP, cfQ]
    rw [Finset.prod_range_succ _ (n + 1 + 1)]
    rw [Finset.prod_range_succ _ (n + 1)] at ih2 ⊢
    push_cast at ih2 ⊢
    linear_combination (x + 2 * (n + 1) + 2 - a) * ih2 - ((n + 1) * (n + 2 - a)) * ih1
      + x * (∏ k ∈ Finset.range (n + 1), ((k : ℝ) + 1 - a)) * (n + 2 - a) * (-1) * h

end Special
end Verif
