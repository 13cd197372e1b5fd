import Verif.HyperAn
import Verif.DistBeta
import Mathlib.Analysis.Complex.AbelLimit

/-!
# Euler's integral for the Gauss series, Gauss' theorem and the transformations of Pfaff and Euler
-/

namespace Verif
namespace Special
open Finset Filter Topology MeasureTheory Stat

theorem pos_ok {c : ℝ} (hc : 0 < c) (i : ℕ) : c + i ≠ 0 := by positivity

/-- the binomial series -/
theorem hyp_binomial (a : ℝ) {x : ℝ} (hx : |x| < 1) : hyp a 1 1 x = (1 - x) ^ (-a) := by
  have h1 : ∀ i : ℕ, (1 : ℝ) + i ≠ 0 := pos_ok one_pos
  have hd : ∀ y ∈ Metric.ball (0 : ℝ) 1, HasDerivAt (fun y => (1 - y) ^ a * hyp a 1 1 y) 0 y := by
    intro y hy
    have hy' : |y| < 1 := by simpa using hy
    have hy1 : 0 < 1 - y := by linarith [(abs_lt.1 hy').2]
    have e1 := ((hasDerivAt_id' y).const_sub 1).rpow_const (p := a) (Or.inl hy1.ne')
    refine (e1.mul (hyp_hasDerivAt h1 hy')).congr_deriv ?_
    have e2 := hyp_raise (a := a) (b := 1) h1 hy'
    have e3 : (1 - y) ^ a = (1 - y) ^ (a - 1) * (1 - y) := by
      nth_rw 1 [show a = (a - 1) + 1 by ring]; rw [Real.rpow_add hy1, Real.rpow_one]
    rw [e3]
    linear_combination (1 - y) ^ (a - 1) * e2
  have hx' : x ∈ Metric.ball (0 : ℝ) 1 := by simpa using hx
  have h2 := Metric.isOpen_ball.is_const_of_deriv_eq_zero (convex_ball (0 : ℝ) 1).isPreconnected
    (fun z hz => (hd z hz).differentiableAt.differentiableWithinAt) (fun z hz => (hd z hz).deriv) hx'
    (by simp : (0 : ℝ) ∈ Metric.ball (0 : ℝ) 1)
  have hx1 : 0 < 1 - x := by linarith [(abs_lt.1 hx).2]
  simp only [hyp_zero, sub_zero, Real.one_rpow, mul_one] at h2
  rw [Real.rpow_neg hx1.le, eq_inv_of_mul_eq_one_right h2]

/-- Euler's integral, defined for `0 < b < c` and all `z < 1` -/
noncomputable def eulerInt (a b c z : ℝ) : ℝ :=
  Real.Gamma c / (Real.Gamma b * Real.Gamma (c - b)) *
    ∫ t in (0 : ℝ)..1, t ^ (b - 1) * (1 - t) ^ (c - b - 1) * (1 - z * t) ^ (-a)

theorem dens_moment {b c : ℝ} (hb : 0 < b) (hbc : b < c) (a z : ℝ) (n : ℕ) :
    f21Term a 1 1 z n * ∫ x in (0 : ℝ)..1, x ^ n * betaDens b (c - b) x = f21Term a b c z n := by
  have hq : 0 < c - b := by linarith
  have hc : 0 < c := by linarith
  have G1 := (Real.Gamma_pos_of_pos hb).ne'
  have G2 := (Real.Gamma_pos_of_pos hc).ne'
  rw [(beta_moment hb hq n).2, show b + (c - b) = c by ring, show b + n + (c - b) = c + n by ring]
  induction n with
  | zero => simp [f21Term_zero, G1, G2, mul_comm]
  | succ n ih =>
    have b1 : b + n ≠ 0 := pos_ok hb n
    have c1 : c + n ≠ 0 := pos_ok hc n
    have n1 : (n : ℝ) + 1 ≠ 0 := by positivity
    have G3 := (Real.Gamma_pos_of_pos (by positivity : 0 < c + n)).ne'
    rw [f21Term_succ, f21Term_succ, ← ih]
    push_cast
    rw [show b + ((n : ℝ) + 1) = b + n + 1 by ring, show c + ((n : ℝ) + 1) = c + n + 1 by ring,
      Real.Gamma_add_one b1, Real.Gamma_add_one c1, add_comm (1 : ℝ) n]
    field_simp

theorem dens_nonneg {b q x : ℝ} (hb : 0 < b) (hq : 0 < q) (hx : x ∈ Set.Ioc (0 : ℝ) 1) : 0 ≤ betaDens b q x := by
  have G1 := Real.Gamma_pos_of_pos hb
  have G2 := Real.Gamma_pos_of_pos hq
  have G3 := Real.Gamma_pos_of_pos (by linarith : 0 < b + q)
  have h1 : 0 ≤ 1 - x := by linarith [hx.2]
  have h2 := hx.1.le
  unfold betaDens
  positivity

theorem eulerInt_eq_dens {b c : ℝ} (a z : ℝ) :
    eulerInt a b c z = ∫ t in (0 : ℝ)..1, (1 - z * t) ^ (-a) * betaDens b (c - b) t := by
  rw [eulerInt, ← intervalIntegral.integral_const_mul]
  refine intervalIntegral.integral_congr fun t _ => ?_
  simp only [betaDens]
  rw [show b + (c - b) = c by ring, div_div_eq_mul_div]
  ring

/-- Euler's integral is the sum of the Gauss series -/
theorem euler_hyp {a b c z : ℝ} (hb : 0 < b) (hbc : b < c) (hz : |z| < 1) : eulerInt a b c z = hyp a b c z := by
  have hq : 0 < c - b := by linarith
  have hc : 0 < c := by linarith
  rw [eulerInt_eq_dens, intervalIntegral.integral_of_le zero_le_one]
  set μ := volume.restrict (Set.Ioc (0 : ℝ) 1) with hμ
  have hint : ∀ n : ℕ, Integrable (fun t : ℝ => t ^ n * betaDens b (c - b) t) μ := by
    intro n
    exact (intervalIntegrable_iff_integrableOn_Ioc_of_le zero_le_one).1 (beta_moment hb hq n).1
  have hmom : ∀ n : ℕ, f21Term a 1 1 z n * ∫ t, t ^ n * betaDens b (c - b) t ∂μ = f21Term a b c z n := by
    intro n
    rw [← dens_moment hb hbc a z n, intervalIntegral.integral_of_le zero_le_one]
  have hm0 : ∀ n : ℕ, 0 ≤ ∫ t, t ^ n * betaDens b (c - b) t ∂μ := by
    intro n
    refine setIntegral_nonneg measurableSet_Ioc fun t ht => ?_
    exact mul_nonneg (pow_nonneg ht.1.le n) (dens_nonneg hb hq ht)
  have key := hasSum_integral_of_summable_integral_norm (μ := μ)
    (F := fun (n : ℕ) (t : ℝ) => f21Term a 1 1 z n * (t ^ n * betaDens b (c - b) t))
    (fun n => (hint n).const_mul _) (by
      have h1 : ∀ n : ℕ, ∫ t, ‖f21Term a 1 1 z n * (t ^ n * betaDens b (c - b) t)‖ ∂μ = |f21Term a b c z n| := by
        intro n
        rw [← hmom, abs_mul, abs_of_nonneg (hm0 n), ← integral_const_mul]
        refine setIntegral_congr_fun measurableSet_Ioc fun t ht => ?_
        simp only [Real.norm_eq_abs]
        rw [abs_mul, abs_of_nonneg (mul_nonneg (pow_nonneg ht.1.le n) (dens_nonneg hb hq ht))]
      simp only [h1]
      exact (hyp_hasSum (a := a) (b := b) (pos_ok hc) hz).summable.abs)
  have e1 : ∀ n : ℕ, ∫ t, f21Term a 1 1 z n * (t ^ n * betaDens b (c - b) t) ∂μ = f21Term a b c z n := by
    intro n
    rw [integral_const_mul, hmom]
  simp only [e1] at key
  rw [(hyp_hasSum (a := a) (b := b) (pos_ok hc) hz).unique key]
  refine setIntegral_congr_fun measurableSet_Ioc fun t ht => ?_
  have hzt : |z * t| < 1 := by
    rw [abs_mul, abs_of_pos ht.1]
    calc |z| * t ≤ |z| * 1 := mul_le_mul_of_nonneg_left ht.2 (abs_nonneg z)
      _ < 1 := by linarith
  have h2 := (hyp_hasSum (a := a) (b := 1) (pos_ok one_pos) hzt).mul_right (betaDens b (c - b) t)
  rw [hyp_binomial a hzt] at h2
  have h3 : HasSum (fun n : ℕ => f21Term a 1 1 z n * (t ^ n * betaDens b (c - b) t)) _ := hs_congr h2 fun n => by
    rw [term_pow _ _ _ z, term_pow _ _ _ (z * t), mul_pow]
    ring
  exact h3.tsum_eq.symm

/-- Gauss' theorem as a limit -/
theorem hyp_gauss {a b c : ℝ} (ha : 0 < a) (hb : 0 < b) (h : a + b < c) :
    Tendsto (hyp a b c) (𝓝[<] 1) (𝓝 (Real.Gamma c * Real.Gamma (c - a - b) / (Real.Gamma (c - a) * Real.Gamma (c - b)))) := by
  have hbc : b < c := by linarith
  have hs : 0 < c - a - b := by linarith
  have hc : 0 < c := by linarith
  have hev : ∀ᶠ z : ℝ in 𝓝[<] 1, z ∈ Set.Ioo (0 : ℝ) 1 := Ioo_mem_nhdsLT one_pos
  have h1 : Tendsto (fun z : ℝ => ∫ t in (0 : ℝ)..1, t ^ (b - 1) * (1 - t) ^ (c - b - 1) * (1 - z * t) ^ (-a)) (𝓝[<] 1)
      (𝓝 (∫ t in (0 : ℝ)..1, t ^ (b - 1) * (1 - t) ^ (c - a - b - 1))) := by
    have hne : ∀ᵐ t : ℝ, t ≠ 1 := compl_mem_ae_iff.2 (measure_singleton _)
    refine intervalIntegral.tendsto_integral_filter_of_dominated_convergence
      (fun t => t ^ (b - 1) * (1 - t) ^ (c - a - b - 1)) ?_ ?_ (bt_integrable hb hs) ?_
    · refine Eventually.of_forall fun z => ?_
      exact (by fun_prop : Measurable fun t : ℝ => t ^ (b - 1) * (1 - t) ^ (c - b - 1) * (1 - z * t) ^ (-a)).aestronglyMeasurable
    · filter_upwards [hev] with z hz
      filter_upwards [hne] with t ht1 ht
      rw [Set.uIoc_of_le zero_le_one] at ht
      have t1 : t < 1 := lt_of_le_of_ne ht.2 ht1
      have p1 : 0 < 1 - t := by linarith
      have p2 : 1 - t ≤ 1 - z * t := by nlinarith [hz.2, ht.1]
      have p3 : 0 < 1 - z * t := by linarith
      have t0 := ht.1
      rw [Real.norm_eq_abs, abs_of_nonneg (by positivity), mul_assoc]
      refine mul_le_mul_of_nonneg_left ?_ (by positivity)
      rw [show c - a - b - 1 = (c - b - 1) + (-a) by ring, Real.rpow_add p1]
      exact mul_le_mul_of_nonneg_left (Real.rpow_le_rpow_of_nonpos p1 p2 (by linarith)) (by positivity)
    · filter_upwards [hne] with t ht1 ht
      rw [Set.uIoc_of_le zero_le_one] at ht
      have t1 : t < 1 := lt_of_le_of_ne ht.2 ht1
      have p1 : 0 < 1 - t := by linarith
      rw [show c - a - b - 1 = (c - b - 1) + (-a) by ring, Real.rpow_add p1, ← mul_assoc]
      refine Tendsto.const_mul _ ?_
      have : Tendsto (fun z : ℝ => 1 - z * t) (𝓝[<] 1) (𝓝 (1 - 1 * t)) :=
        ((tendsto_id.mono_left nhdsWithin_le_nhds).mul_const t).const_sub 1
      rw [one_mul] at this
      exact this.rpow_const (Or.inl p1.ne')
  rw [bt_integral hb hs] at h1
  have h2 := h1.const_mul (Real.Gamma c / (Real.Gamma b * Real.Gamma (c - b)))
  have G1 := (Real.Gamma_pos_of_pos hb).ne'
  have G2 := (Real.Gamma_pos_of_pos (by linarith : 0 < c - b)).ne'
  have G3 := (Real.Gamma_pos_of_pos (by linarith : 0 < c - a)).ne'
  have e : Real.Gamma c / (Real.Gamma b * Real.Gamma (c - b)) *
      (Real.Gamma b * Real.Gamma (c - a - b) / Real.Gamma (b + (c - a - b)))
      = Real.Gamma c * Real.Gamma (c - a - b) / (Real.Gamma (c - a) * Real.Gamma (c - b)) := by
    rw [show b + (c - a - b) = c - a by ring]
    field_simp
  rw [e] at h2
  refine h2.congr' ?_
  filter_upwards [hev] with z hz
  exact euler_hyp hb hbc (abs_lt_of_mem hz)

/-- Gauss' theorem: the sum of the series at `z = 1` -/
theorem hyp_one {a b c : ℝ} (ha : 0 < a) (hb : 0 < b) (h : a + b < c) :
    HasSum (f21Term a b c 1) (Real.Gamma c * Real.Gamma (c - a - b) / (Real.Gamma (c - a) * Real.Gamma (c - b))) := by
  have hc : 0 < c := by linarith
  set V := Real.Gamma c * Real.Gamma (c - a - b) / (Real.Gamma (c - a) * Real.Gamma (c - b)) with hV
  have hG := hyp_gauss ha hb h
  have hev : ∀ᶠ z : ℝ in 𝓝[<] 1, z ∈ Set.Ioo (0 : ℝ) 1 := Ioo_mem_nhdsLT one_pos
  have hnn : ∀ z, 0 ≤ z → ∀ n, 0 ≤ f21Term a b c z n := fun z hz n => f21Term_nonneg ha hb hc hz n
  have hb' : ∀ n, ∑ j ∈ range n, f21Term a b c 1 j ≤ V := by
    intro n
    have h1 : Tendsto (fun z : ℝ => ∑ j ∈ range n, f21Term a b c z j) (𝓝[<] 1) (𝓝 (∑ j ∈ range n, f21Term a b c 1 j)) := by
      refine tendsto_finsetSum _ fun j _ => ?_
      have e : (fun z : ℝ => f21Term a b c z j) = fun z => f21Term a b c 1 j * z ^ j := by
        funext z; exact term_pow a b c z j
      rw [e]
      have : Tendsto (fun z : ℝ => f21Term a b c 1 j * z ^ j) (𝓝 1) (𝓝 (f21Term a b c 1 j * 1 ^ j)) :=
        ((continuous_pow j).tendsto 1).const_mul _
      rw [one_pow, mul_one] at this
      exact this.mono_left nhdsWithin_le_nhds
    refine le_of_tendsto_of_tendsto h1 hG ?_
    filter_upwards [hev] with z hz
    exact sum_le_hasSum (range n) (fun i _ => hnn z hz.1.le i) (hyp_hasSum (pos_ok hc) (abs_lt_of_mem hz))
  have hs : Summable (f21Term a b c 1) := summable_of_sum_range_le (hnn 1 zero_le_one) hb'
  have h2 := Real.tendsto_tsum_powerSeries_nhdsWithin_lt hs.hasSum.tendsto_sum_nat
  have h3 : Tendsto (fun z : ℝ => ∑' n, f21Term a b c 1 n * z ^ n) (𝓝[<] 1) (𝓝 V) := by
    refine hG.congr fun z => ?_
    exact tsum_congr fun n => term_pow a b c z n
  rw [tendsto_nhds_unique h3 h2]
  exact hs.hasSum

/-- Pfaff's transformation of Euler's integral -/
theorem euler_pfaff {a b c z : ℝ} (hz : z < 1) :
    eulerInt a b c z = (1 - z) ^ (-a) * eulerInt a (c - b) c (z / (z - 1)) := by
  have hz1 : 0 < 1 - z := by linarith
  have hz2 : z - 1 ≠ 0 := by linarith
  have e := intervalIntegral.integral_comp_sub_left (a := 0) (b := 1)
    (fun t : ℝ => t ^ (b - 1) * (1 - t) ^ (c - b - 1) * (1 - z * t) ^ (-a)) 1
  rw [sub_self, sub_zero] at e
  rw [eulerInt, ← e, eulerInt, sub_sub_cancel, mul_comm (Real.Gamma b), mul_left_comm,
    ← intervalIntegral.integral_const_mul (μ := volume) ((1 - z) ^ (-a))]
  congr 1
  refine intervalIntegral.integral_congr fun t ht => ?_
  rw [Set.uIcc_of_le zero_le_one] at ht
  have h1 : 1 - z * (1 - t) = (1 - z) * (1 - z / (z - 1) * t) := by field_simp; ring
  have h2 : 0 ≤ 1 - z / (z - 1) * t := by
    have : 0 ≤ 1 - z * (1 - t) := by nlinarith [ht.1, ht.2]
    rw [h1] at this
    exact nonneg_of_mul_nonneg_right this hz1
  simp only [sub_sub_cancel]
  rw [h1, Real.mul_rpow hz1.le h2]
  ring

end Special
end Verif
