import Verif.DistBeta
import Verif.HyperProps
import Mathlib.MeasureTheory.Integral.Gamma
import Mathlib.MeasureTheory.Measure.Lebesgue.Integral
import Mathlib.MeasureTheory.Measure.Prod

/-!
# C74: the t distribution
-/

namespace Verif
namespace Stat
open Special MeasureTheory Set Filter Topology

/-! ## Integrals of `x ^ r (1 + x² / n) ^ (-s)` -/

theorem tl_fubini {n r s : ℝ} (hn : 0 < n) (hs : 0 < s) (hr : -1 < r) :
    ∫⁻ x in Ioi (0 : ℝ), ENNReal.ofReal (x ^ r * (1 + x ^ 2 / n) ^ (-s))
      = ENNReal.ofReal (n ^ ((r + 1) / 2) * (1 / 2) * Real.Gamma ((r + 1) / 2) / Real.Gamma s)
        * ∫⁻ t in Ioi (0 : ℝ), ENNReal.ofReal (t ^ (s - (r + 1) / 2 - 1) * Real.exp (-t)) := by
  have hG := Real.Gamma_pos_of_pos hs
  have hGr := Real.Gamma_pos_of_pos (by linarith : 0 < (r + 1) / 2)
  have h1 : ∀ x ∈ Ioi (0 : ℝ), ENNReal.ofReal (x ^ r * (1 + x ^ 2 / n) ^ (-s))
      = ∫⁻ t in Ioi (0 : ℝ), ENNReal.ofReal (x ^ r / Real.Gamma s * (t ^ (s - 1) * Real.exp (-(1 + x ^ 2 / n) * t))) := by
    intro x hx
    have hx0 : (0 : ℝ) < x := hx
    have hb : 0 < 1 + x ^ 2 / n := by positivity
    have hxr := Real.rpow_pos_of_pos hx0 r
    rw [← ofReal_integral_eq_lintegral_ofReal ((gm_integrable hs hb).const_mul _)
      ((ae_restrict_mem measurableSet_Ioi).mono fun t ht => by
        have ht0 : (0 : ℝ) < t := ht
        have := Real.rpow_pos_of_pos ht0 (s - 1)
        simp only [Pi.zero_apply]
        positivity), MeasureTheory.integral_const_mul, gm_integral hs hb, Real.rpow_neg hb.le]
    congr 1
    field_simp
  rw [setLIntegral_congr_fun measurableSet_Ioi h1, lintegral_lintegral_swap]
  · have h2 : ∀ t ∈ Ioi (0 : ℝ),
        ∫⁻ x in Ioi (0 : ℝ), ENNReal.ofReal (x ^ r / Real.Gamma s * (t ^ (s - 1) * Real.exp (-(1 + x ^ 2 / n) * t)))
        = ENNReal.ofReal (n ^ ((r + 1) / 2) * (1 / 2) * Real.Gamma ((r + 1) / 2) / Real.Gamma s)
          * ENNReal.ofReal (t ^ (s - (r + 1) / 2 - 1) * Real.exp (-t)) := by
      intro t ht
      have ht0 : (0 : ℝ) < t := ht
      have hb : 0 < t / n := by positivity
      have hts := Real.rpow_pos_of_pos ht0 (s - 1)
      have hi := integrableOn_rpow_mul_exp_neg_mul_rpow (p := 2) hr two_pos hb
      have hv := integral_rpow_mul_exp_neg_mul_rpow (p := 2) two_pos hr hb
      have e : ∀ x ∈ Ioi (0 : ℝ), ENNReal.ofReal (x ^ r / Real.Gamma s * (t ^ (s - 1) * Real.exp (-(1 + x ^ 2 / n) * t)))
          = ENNReal.ofReal (t ^ (s - 1) * Real.exp (-t) / Real.Gamma s * (x ^ r * Real.exp (-(t / n) * x ^ (2 : ℝ)))) := by
        intro x hx
        congr 1
        rw [Real.rpow_two, show -(1 + x ^ 2 / n) * t = -t + -(t / n) * x ^ 2 by field_simp; ring, Real.exp_add]
        ring
      rw [setLIntegral_congr_fun measurableSet_Ioi e, ← ofReal_integral_eq_lintegral_ofReal (hi.const_mul _)
        ((ae_restrict_mem measurableSet_Ioi).mono fun x hx => by
          have hx0 : (0 : ℝ) < x := hx
          have := Real.rpow_pos_of_pos hx0 r
          simp only [Pi.zero_apply]
          positivity), MeasureTheory.integral_const_mul, hv, ← ENNReal.ofReal_mul (by positivity)]
      congr 1
      rw [Real.div_rpow ht0.le hn.le, neg_div, Real.rpow_neg ht0.le, Real.rpow_neg hn.le,
        show s - (r + 1) / 2 - 1 = (s - 1) - (r + 1) / 2 by ring, Real.rpow_sub ht0 (s - 1) ((r + 1) / 2)]
      have h3 := Real.rpow_pos_of_pos ht0 ((r + 1) / 2)
      have h4 := Real.rpow_pos_of_pos hn ((r + 1) / 2)
      field_simp
    rw [setLIntegral_congr_fun measurableSet_Ioi h2, lintegral_const_mul']
    exact ENNReal.ofReal_ne_top
  · refine Measurable.aemeasurable ?_
    unfold Function.uncurry
    fun_prop

theorem tl_integrand_nonneg {n r s x : ℝ} (hn : 0 < n) (hx : 0 < x) : 0 ≤ x ^ r * (1 + x ^ 2 / n) ^ (-s) := by
  have := Real.rpow_pos_of_pos hx r
  have h2 : 0 < (1 + x ^ 2 / n) ^ (-s) := Real.rpow_pos_of_pos (by positivity) _
  positivity

theorem tl_measurable (n r s : ℝ) : Measurable fun x : ℝ => x ^ r * (1 + x ^ 2 / n) ^ (-s) := by fun_prop

theorem tl_integral {n r s : ℝ} (hn : 0 < n) (hr : -1 < r) (hs : (r + 1) / 2 < s) :
    IntegrableOn (fun x : ℝ => x ^ r * (1 + x ^ 2 / n) ^ (-s)) (Ioi 0) ∧
    ∫ x in Ioi (0 : ℝ), x ^ r * (1 + x ^ 2 / n) ^ (-s)
      = n ^ ((r + 1) / 2) * (1 / 2) * Real.Gamma ((r + 1) / 2) * Real.Gamma (s - (r + 1) / 2) / Real.Gamma s := by
  have hs0 : 0 < s := by linarith
  have hG := Real.Gamma_pos_of_pos hs0
  have hGr := Real.Gamma_pos_of_pos (by linarith : 0 < (r + 1) / 2)
  have hsr : 0 < s - (r + 1) / 2 := by linarith
  have hGs := Real.Gamma_pos_of_pos hsr
  have hnr := Real.rpow_pos_of_pos hn ((r + 1) / 2)
  have h := tl_fubini hn hs0 hr
  have hi := gm_integrable hsr one_pos
  have hv := gm_integral hsr one_pos
  simp only [neg_mul, one_mul, Real.one_rpow, div_one] at hi hv
  rw [← ofReal_integral_eq_lintegral_ofReal hi ((ae_restrict_mem measurableSet_Ioi).mono fun t ht => by
        have ht0 : (0 : ℝ) < t := ht
        have := Real.rpow_pos_of_pos ht0 (s - (r + 1) / 2 - 1)
        simp only [Pi.zero_apply]
        positivity), hv, ← ENNReal.ofReal_mul (by positivity)] at h
  have hnn : 0 ≤ᵐ[volume.restrict (Ioi (0 : ℝ))] fun x : ℝ => x ^ r * (1 + x ^ 2 / n) ^ (-s) :=
    (ae_restrict_mem measurableSet_Ioi).mono fun x hx => tl_integrand_nonneg hn hx
  have hint : IntegrableOn (fun x : ℝ => x ^ r * (1 + x ^ 2 / n) ^ (-s)) (Ioi 0) := by
    refine ⟨(tl_measurable n r s).aestronglyMeasurable, ?_⟩
    rw [hasFiniteIntegral_iff_ofReal hnn, h]
    exact ENNReal.ofReal_lt_top
  refine ⟨hint, ?_⟩
  rw [← ofReal_integral_eq_lintegral_ofReal hint hnn] at h
  have h0 : 0 ≤ ∫ x in Ioi (0 : ℝ), x ^ r * (1 + x ^ 2 / n) ^ (-s) := integral_nonneg_of_ae hnn
  rw [ENNReal.ofReal_eq_ofReal_iff h0 (by positivity)] at h
  rw [h]
  ring

theorem tl_top {n r s : ℝ} (hn : 0 < n) (hr : -1 < r) (hs0 : 0 < s) (hs : s ≤ (r + 1) / 2) :
    ∫⁻ x in Ioi (0 : ℝ), ENNReal.ofReal (x ^ r * (1 + x ^ 2 / n) ^ (-s)) = ⊤ := by
  have hG := Real.Gamma_pos_of_pos hs0
  have hGr := Real.Gamma_pos_of_pos (by linarith : 0 < (r + 1) / 2)
  have hnr := Real.rpow_pos_of_pos hn ((r + 1) / 2)
  rw [tl_fubini hn hs0 hr]
  have hc : ENNReal.ofReal (n ^ ((r + 1) / 2) * (1 / 2) * Real.Gamma ((r + 1) / 2) / Real.Gamma s) ≠ 0 := by
    simp only [ne_eq, ENNReal.ofReal_eq_zero, not_le]
    positivity
  have ht : ∫⁻ t in Ioi (0 : ℝ), ENNReal.ofReal (t ^ (s - (r + 1) / 2 - 1) * Real.exp (-t)) = ⊤ := by
    by_contra hcon
    set e := s - (r + 1) / 2 - 1 with he
    have hfin : IntegrableOn (fun t : ℝ => t ^ e * Real.exp (-t)) (Ioi 0) := by
      refine ⟨(by fun_prop : Measurable fun t : ℝ => t ^ e * Real.exp (-t)).aestronglyMeasurable, ?_⟩
      rw [hasFiniteIntegral_iff_ofReal ((ae_restrict_mem measurableSet_Ioi).mono fun t ht => by
        have ht0 : (0 : ℝ) < t := ht
        have := Real.rpow_pos_of_pos ht0 e
        simp only [Pi.zero_apply]
        positivity)]
      exact lt_top_iff_ne_top.2 hcon
    have h2 : IntegrableOn (fun t : ℝ => t ^ e) (Ioo 0 1) := by
      have h3 := (hfin.mono_set (Ioo_subset_Ioi_self : Ioo (0 : ℝ) 1 ⊆ Ioi 0)).const_mul (Real.exp 1)
      refine Integrable.mono' h3 (by fun_prop : Measurable fun t : ℝ => t ^ e).aestronglyMeasurable ?_
      refine (ae_restrict_mem measurableSet_Ioo).mono fun t ht => ?_
      have ht0 := Real.rpow_pos_of_pos ht.1 e
      rw [Real.norm_of_nonneg ht0.le]
      have h4 : 1 ≤ Real.exp 1 * Real.exp (-t) := by
        rw [← Real.exp_add]
        exact Real.one_le_exp (by linarith [ht.2])
      calc t ^ e = t ^ e * 1 := (mul_one _).symm
        _ ≤ t ^ e * (Real.exp 1 * Real.exp (-t)) := mul_le_mul_of_nonneg_left h4 ht0.le
        _ = _ := by ring
    rw [intervalIntegral.integrableOn_Ioo_rpow_iff one_pos] at h2
    linarith
  rw [ht, ENNReal.mul_top hc]

/-- Even and odd functions that are integrable on one side are integrable. -/
theorem integrable_of_parity {f : ℝ → ℝ} {e : ℝ} (he : ∀ x, f (-x) = e * f x) (h : IntegrableOn f (Ioi 0)) :
    Integrable f := by
  have int_Iic : IntegrableOn f (Iic 0) := by
    rw [← Measure.map_neg_eq_self (volume : Measure ℝ)]
    let m : MeasurableEmbedding fun x : ℝ => -x := (Homeomorph.neg ℝ).measurableEmbedding
    rw [m.integrableOn_map_iff]
    simp_rw [Function.comp_def, neg_preimage, neg_Iic, neg_zero, he]
    exact (Iff.mpr integrableOn_Ici_iff_integrableOn_Ioi h).const_mul e
  rw [← integrableOn_univ, ← Iic_union_Ioi (a := (0 : ℝ))]
  exact int_Iic.union h

/-- The density of the t distribution. -/
noncomputable def tDens (n x : ℝ) : ℝ :=
  Real.Gamma ((n + 1) / 2) / (√(n * Real.pi) * Real.Gamma (n / 2)) * (1 + x ^ 2 / n) ^ (-((n + 1) / 2))

theorem tConst_pos {n : ℝ} (hn : 0 < n) : 0 < Real.Gamma ((n + 1) / 2) / (√(n * Real.pi) * Real.Gamma (n / 2)) := by
  have h1 := Real.Gamma_pos_of_pos (by linarith : 0 < (n + 1) / 2)
  have h2 := Real.Gamma_pos_of_pos (by linarith : 0 < n / 2)
  have h3 : 0 < √(n * Real.pi) := Real.sqrt_pos.2 (mul_pos hn Real.pi_pos)
  positivity

theorem tDens_pos {n : ℝ} (hn : 0 < n) (x : ℝ) : 0 < tDens n x :=
  mul_pos (tConst_pos hn) (Real.rpow_pos_of_pos (by positivity) _)

theorem tDens_neg (n x : ℝ) : tDens n (-x) = tDens n x := by simp [tDens]

theorem tDens_measurable (n : ℝ) : Measurable (tDens n) := by unfold tDens; fun_prop

theorem t_half {n : ℝ} (hn : 0 < n) (j : ℕ) (hj : (j : ℝ) < n) :
    IntegrableOn (fun x => x ^ j * tDens n x) (Ioi 0) ∧
    ∫ x in Ioi (0 : ℝ), x ^ j * tDens n x = Real.Gamma ((n + 1) / 2) / (√(n * Real.pi) * Real.Gamma (n / 2)) *
      (n ^ (((j : ℝ) + 1) / 2) * (1 / 2) * Real.Gamma (((j : ℝ) + 1) / 2) * Real.Gamma ((n - j) / 2) / Real.Gamma ((n + 1) / 2)) := by
  obtain ⟨h1, h2⟩ := tl_integral (n := n) (r := j) (s := (n + 1) / 2) hn
    (by have : (0 : ℝ) ≤ j := Nat.cast_nonneg j
        linarith) (by linarith)
  have e : (fun x => x ^ j * tDens n x) = fun x => Real.Gamma ((n + 1) / 2) / (√(n * Real.pi) * Real.Gamma (n / 2)) *
      (x ^ (j : ℝ) * (1 + x ^ 2 / n) ^ (-((n + 1) / 2))) := by
    funext x
    rw [tDens, Real.rpow_natCast]
    ring
  rw [e]
  refine ⟨h1.const_mul _, ?_⟩
  rw [MeasureTheory.integral_const_mul, h2]
  congr 4
  ring

theorem t_integrable {n : ℝ} (hn : 0 < n) (j : ℕ) (hj : (j : ℝ) < n) : Integrable fun x => x ^ j * tDens n x := by
  refine integrable_of_parity (e := (-1) ^ j) (fun x => ?_) (t_half hn j hj).1
  rw [tDens_neg, neg_pow]
  ring

theorem t_half_zero {n : ℝ} (hn : 0 < n) : ∫ x in Ioi (0 : ℝ), tDens n x = 1 / 2 := by
  have h := (t_half hn 0 (by simpa using hn)).2
  simp only [pow_zero, one_mul, Nat.cast_zero, zero_add, sub_zero] at h
  rw [h, Real.Gamma_one_half_eq, ← Real.sqrt_eq_rpow, Real.sqrt_mul hn.le]
  have h1 := Real.Gamma_pos_of_pos (by linarith : 0 < (n + 1) / 2)
  have h2 := Real.Gamma_pos_of_pos (by linarith : 0 < n / 2)
  have h3 : 0 < √n := Real.sqrt_pos.2 hn
  have h4 : 0 < √Real.pi := Real.sqrt_pos.2 Real.pi_pos
  field_simp

theorem t_half_two {n : ℝ} (hn : 2 < n) : ∫ x in Ioi (0 : ℝ), x ^ 2 * tDens n x = n / (n - 2) / 2 := by
  have hn0 : 0 < n := by linarith
  have h := (t_half hn0 2 (by simpa using hn)).2
  rw [h, show (((2 : ℕ) : ℝ) + 1) / 2 = 1 / 2 + 1 by norm_num, Real.Gamma_add_one (by norm_num), Real.Gamma_one_half_eq,
    Real.rpow_add_one hn0.ne', ← Real.sqrt_eq_rpow, Real.sqrt_mul hn0.le,
    show n / 2 = (n - (2 : ℕ)) / 2 + 1 by push_cast; ring, Real.Gamma_add_one (by push_cast; linarith)]
  have h1 := Real.Gamma_pos_of_pos (by linarith : 0 < (n + 1) / 2)
  have h2 := Real.Gamma_pos_of_pos (by push_cast; linarith : 0 < (n - (2 : ℕ)) / 2)
  have h3 : 0 < √n := Real.sqrt_pos.2 hn0
  have h4 : 0 < √Real.pi := Real.sqrt_pos.2 Real.pi_pos
  have h5 : n - 2 ≠ 0 := by linarith
  push_cast at h2 ⊢
  field_simp

theorem even_integral {f : ℝ → ℝ} (he : ∀ x, f (-x) = f x) : ∫ x, f x = 2 * ∫ x in Ioi (0 : ℝ), f x := by
  rw [← integral_comp_abs]
  congr 1
  funext x
  rcases abs_choice x with h | h <;> rw [h]
  rw [he]

theorem odd_integral {f : ℝ → ℝ} (ho : ∀ x, f (-x) = -f x) : ∫ x, f x = 0 := by
  have h := integral_neg_eq_self f volume
  simp only [ho, MeasureTheory.integral_neg] at h
  linarith

/-- Absolute moments of order `n` and above are infinite. -/
theorem t_lintegral_top {n : ℝ} (hn : 0 < n) (j : ℕ) (hj : n ≤ j) :
    ∫⁻ x in Ioi (0 : ℝ), ENNReal.ofReal (x ^ j * tDens n x) = ⊤ := by
  have h := tl_top (n := n) (r := j) (s := (n + 1) / 2) hn (by linarith) (by linarith) (by linarith)
  have e : ∀ x ∈ Ioi (0 : ℝ), ENNReal.ofReal (x ^ j * tDens n x)
      = ENNReal.ofReal (Real.Gamma ((n + 1) / 2) / (√(n * Real.pi) * Real.Gamma (n / 2))) *
        ENNReal.ofReal (x ^ (j : ℝ) * (1 + x ^ 2 / n) ^ (-((n + 1) / 2))) := by
    intro x _
    rw [← ENNReal.ofReal_mul (tConst_pos hn).le, tDens, Real.rpow_natCast]
    congr 1
    ring
  rw [setLIntegral_congr_fun measurableSet_Ioi e, lintegral_const_mul' _ _ ENNReal.ofReal_ne_top, h, ENNReal.mul_top]
  simp only [ne_eq, ENNReal.ofReal_eq_zero, not_le]
  exact tConst_pos hn

theorem t_not_integrable {n : ℝ} (hn : 0 < n) (j : ℕ) (hj : n ≤ j) : ¬ Integrable fun x => x ^ j * tDens n x := by
  intro h
  have h1 := (hasFiniteIntegral_iff_ofReal ((ae_restrict_mem measurableSet_Ioi).mono fun x hx => by
        have hx0 : (0 : ℝ) < x := hx
        have := tDens_pos hn x
        simp only [Pi.zero_apply]
        positivity)).1 (h.integrableOn (s := Ioi 0)).2
  rw [t_lintegral_top hn j hj] at h1
  exact lt_irrefl _ h1

/-- **C74**, construction: `new` panics exactly for `n < 0`.  Missing: the documented panic for `n = 0`, see
`C74_new_violated`. -/
theorem C74_new_partial (n : ℝ) : (tNew n = none ↔ n < 0) ∧ ∀ d, tNew n = some d → d = n := by
  unfold tNew; split_ifs with h <;> simp [h]

/-- The documentation says that `new` panics for `n ≤ 0`.  It accepts `n = 0`, and the density of the value it returns
is a division by zero. -/
theorem C74_new_violated : ∃ d, tNew 0 = some d ∧ ∀ x, tPdf d x = none := by
  refine ⟨0, by simp [tNew], fun x => ?_⟩
  simp [tPdf, R.div]

/-- **C74**, density: for `n > 0` the value of `pdf` is `Γ((n+1)/2) / (√(nπ) Γ(n/2)) (1 + x²/n) ^ (-(n+1)/2)` up to a
relative error of `1e-11`, and this function is positive and integrates to one. -/
theorem C74_pdf {n : ℝ} (hn : 0 < n) (f : ℝ → ℝ)
    (hf : ∀ x, f x = Real.Gamma ((n + 1) / 2) / (√(n * Real.pi) * Real.Gamma (n / 2)) * (1 + x ^ 2 / n) ^ (-((n + 1) / 2))) :
    (∀ x, ∃ v, tPdf n x = some v ∧ |v - f x| ≤ 1e-11 * f x) ∧ (∀ x, 0 < f x) ∧ Integrable f ∧ ∫ x, f x = 1 := by
  obtain rfl : f = tDens n := funext hf
  refine ⟨fun x => ?_, tDens_pos hn, by simpa using t_integrable hn 0 (by simpa using hn), ?_⟩
  · obtain ⟨g1, hg1, h1p, h1⟩ := gamma_close (by linarith : 0 < (n + 1) / 2)
    obtain ⟨g2, hg2, h2p, h2⟩ := gamma_close (by linarith : 0 < n / 2)
    have hsq : 0 < √(n * Real.pi) := Real.sqrt_pos.2 (mul_pos hn Real.pi_pos)
    have hb : 0 < 1 + x * x / n := by have := mul_self_nonneg x; positivity
    have hw := Real.rpow_pos_of_pos hb (-((n + 1) / 2))
    have hden : √(n * Real.pi) * g2 ≠ 0 := by positivity
    refine ⟨g1 * (1 + x * x / n) ^ (-((n + 1) / 2)) / (√(n * Real.pi) * g2), ?_, ?_⟩
    · simp only [tPdf, hg1, hg2, R.div, hn.ne', if_false, powf_pos hb, hden, Option.bind_eq_bind, Option.bind_some]
    · have hG1 := Real.Gamma_pos_of_pos (by linarith : 0 < (n + 1) / 2)
      have hG2 := Real.Gamma_pos_of_pos (by linarith : 0 < n / 2)
      set W := (1 + x * x / n) ^ (-((n + 1) / 2)) / √(n * Real.pi) with hW
      have hWp : 0 < W := by positivity
      have e1 : g1 * (1 + x * x / n) ^ (-((n + 1) / 2)) / (√(n * Real.pi) * g2) = W * (g1 / g2) := by rw [hW]; field_simp
      have e2 : tDens n x = W * (Real.Gamma ((n + 1) / 2) / Real.Gamma (n / 2)) := by
        rw [tDens, hW, pow_two]; field_simp
      rw [e1, e2, ← mul_sub, abs_mul, abs_of_pos hWp, ← mul_assoc, mul_comm (1e-11) W, mul_assoc]
      refine mul_le_mul_of_nonneg_left ?_ hWp.le
      have h3 := div_close h1p.le hG2 h2p h2
      have h4 : |g1 / Real.Gamma (n / 2) - Real.Gamma ((n + 1) / 2) / Real.Gamma (n / 2)|
          ≤ 4e-12 * (Real.Gamma ((n + 1) / 2) / Real.Gamma (n / 2)) := by
        rw [← sub_div, abs_div, abs_of_pos hG2, ← mul_div_assoc]
        exact div_le_div_of_nonneg_right h1 hG2.le
      have h5 : 0 < Real.Gamma ((n + 1) / 2) / Real.Gamma (n / 2) := by positivity
      rw [abs_le] at h3 h4 ⊢
      norm_num at h3 h4 ⊢
      constructor <;> linarith [h3.1, h3.2, h4.1, h4.2]
  · rw [even_integral (tDens_neg n), t_half_zero hn]
    norm_num

/-- **C74**, mean, variance, skewness and median.  With the density `f` of `C74_pdf`: for `n > 1` the mean is `0`, and
`mean` returns it; for `n ≤ 1` there is no mean, and `mean` panics.  For `n > 2` the variance is `n / (n - 2)`, for
`1 < n ≤ 2` it is infinite, and `variance` returns it.  For `n > 3` the third moment exists, and both it and the value of
`skewness` are zero; for `n ≤ 3` it does not exist and `skewness` panics.  Half of the mass is below `median`. -/
theorem C74_moments {n : ℝ} (hn : 0 < n) (f : ℝ → ℝ)
    (hf : ∀ x, f x = Real.Gamma ((n + 1) / 2) / (√(n * Real.pi) * Real.Gamma (n / 2)) * (1 + x ^ 2 / n) ^ (-((n + 1) / 2))) :
    (1 < n → ∃ m, tMean n = some m ∧ Integrable (fun x => x * f x) ∧ ∫ x, x * f x = m) ∧
    (n ≤ 1 → tMean n = none ∧ ¬ Integrable (fun x => x * f x)) ∧
    (2 < n → ∃ v : ℝ, tVariance n = some (v : EReal) ∧ Integrable (fun x => x ^ 2 * f x) ∧ ∫ x, (x - 0) ^ 2 * f x = v ∧ v = n / (n - 2)) ∧
    (1 < n → n ≤ 2 → tVariance n = some ⊤ ∧ ∫⁻ x, ENNReal.ofReal ((x - 0) ^ 2 * f x) = ⊤) ∧
    (n ≤ 1 → tVariance n = none) ∧
    (3 < n → ∃ s, tSkewness n = some s ∧ Integrable (fun x => x ^ 3 * f x) ∧ ∫ x, ((x - 0) / √(n / (n - 2))) ^ 3 * f x = s) ∧
    (n ≤ 3 → tSkewness n = none ∧ ¬ Integrable (fun x => x ^ 3 * f x)) ∧
    ∫ x in Iic (tMedian n), f x = 1 / 2 := by
  obtain rfl : f = tDens n := funext hf
  have e1 : (fun x => x * tDens n x) = fun x => x ^ 1 * tDens n x := by simp
  have hodd : ∀ x, -x * tDens n (-x) = -(x * tDens n x) := fun x => by rw [tDens_neg]; ring
  refine ⟨fun h => ⟨0, by simp [tMean, h], ?_, odd_integral hodd⟩, fun h => ⟨by simp [tMean, not_lt.2 h], ?_⟩,
    fun h => ⟨n / (n - 2), by simp [tVariance, h], t_integrable hn 2 (by simpa using h), ?_, rfl⟩,
    fun h1 h2 => ⟨by simp [tVariance, h1, not_lt.2 h2], ?_⟩,
    fun h => ?_,
    fun h => ⟨0, by simp [tSkewness, not_le.2 h], t_integrable hn 3 (by simpa using h), ?_⟩,
    fun h => ⟨by simp [tSkewness, h], t_not_integrable hn 3 (by simpa using h)⟩, ?_⟩
  · rw [e1]; exact t_integrable hn 1 (by simpa using h)
  · rw [e1]; exact t_not_integrable hn 1 (by simpa using h)
  · simp only [sub_zero]
    rw [even_integral (fun x => by rw [tDens_neg, neg_sq]), t_half_two h]
    ring
  · simp only [sub_zero]
    have h3 := t_lintegral_top hn 2 (by simpa using h2)
    exact top_le_iff.1 (h3 ▸ setLIntegral_le_lintegral _ _)
  · have h2 : ¬ 2 < n := by linarith
    simp [tVariance, not_lt.2 h, h2]
  · refine odd_integral fun x => ?_
    rw [tDens_neg]
    ring
  · rw [tMedian]
    have h := integral_comp_neg_Iic 0 (tDens n)
    simp only [tDens_neg, neg_zero] at h
    rw [h, t_half_zero hn]

theorem tDens_one (x : ℝ) : tDens 1 x = 1 / (Real.pi * (1 + x ^ 2)) := by
  have hp : 0 < 1 + x ^ 2 := by positivity
  rw [tDens, show ((1 : ℝ) + 1) / 2 = 1 by norm_num, Real.Gamma_one, Real.Gamma_one_half_eq, Real.rpow_neg (by positivity),
    Real.rpow_one, one_mul, Real.mul_self_sqrt Real.pi_pos.le, div_one]
  field_simp

/-- The density of one degree of freedom at zero is `1 / π`, up to `1e-11`. -/
example : ∃ v, tPdf 1 0 = some v ∧ |v - 1 / Real.pi| ≤ 1e-11 * (1 / Real.pi) := by
  obtain ⟨h, -⟩ := C74_pdf (n := 1) one_pos (tDens 1) (fun _ => rfl)
  obtain ⟨v, hv, hb⟩ := h 0
  refine ⟨v, hv, ?_⟩
  rw [tDens_one] at hb
  simpa using hb

/-- Three degrees of freedom: mean `0`, variance `3`, no skewness. -/
example : tMean 3 = some 0 ∧ tVariance 3 = some ((3 : ℝ) : EReal) ∧ tSkewness 3 = none ∧ ∫ x, x ^ 2 * tDens 3 x = 3 := by
  refine ⟨by norm_num [tMean], by norm_num [tVariance], by norm_num [tSkewness], ?_⟩
  obtain ⟨v, -, -, h, rfl⟩ := (C74_moments (n := 3) (by norm_num) (tDens 3) (fun _ => rfl)).2.2.1 (by norm_num)
  simp only [sub_zero] at h
  rw [h]
  norm_num

/-- The entropy of one degree of freedom is at least `log π`, but `entropy` returns a negative number: the code uses the
gamma function in place of the digamma function and `B((n+1)/2, 1/2)` in place of `B(n/2, 1/2)`. -/
theorem C74_entropy_violated : ∃ v, tEntropy 1 = some v ∧ v < 0 ∧ Integrable (fun x => tDens 1 x * Real.log (tDens 1 x)) ∧
    1 < -∫ x, tDens 1 x * Real.log (tDens 1 x) := by
  have hpi := Real.pi_gt_three
  have hd : ∀ x, tDens 1 x = 1 / (Real.pi * (1 + x ^ 2)) := tDens_one
  have hint : Integrable (tDens 1) := by simpa using t_integrable one_pos 0 (by norm_num)
  have hone : ∫ x, tDens 1 x = 1 := (C74_pdf one_pos (tDens 1) (fun _ => rfl)).2.2.2
  have hI : Integrable (fun x => tDens 1 x * Real.log (tDens 1 x)) := by
    have hK := (tl_integral (n := 1) (r := 0) (s := 3 / 4) one_pos (by norm_num) (by norm_num)).1
    have hK2 : Integrable fun x : ℝ => (1 + x ^ 2) ^ (-(3 / 4 : ℝ)) :=
      integrable_of_parity (e := 1) (fun x => by simp) (by simpa using hK)
    refine Integrable.mono' ((hint.const_mul (Real.log Real.pi)).add (hK2.const_mul (4 / Real.pi)))
      ((tDens_measurable 1).mul (tDens_measurable 1).log).aestronglyMeasurable (Eventually.of_forall fun x => ?_)
    have hp : 0 < 1 + x ^ 2 := by positivity
    have hl : Real.log (tDens 1 x) = -(Real.log Real.pi + Real.log (1 + x ^ 2)) := by
      rw [hd, one_div, Real.log_inv, Real.log_mul Real.pi_ne_zero hp.ne']
    have hl1 : 0 ≤ Real.log (1 + x ^ 2) := Real.log_nonneg (by nlinarith [sq_nonneg x])
    have hl2 : 0 ≤ Real.log Real.pi := Real.log_nonneg (by linarith)
    have hl3 : Real.log (1 + x ^ 2) ≤ (1 + x ^ 2) ^ (1 / 4 : ℝ) / (1 / 4) := Real.log_le_rpow_div hp.le (by norm_num)
    have hdp := tDens_pos one_pos x
    rw [Real.norm_eq_abs, abs_mul, abs_of_pos hdp, hl, abs_neg, abs_of_nonneg (by positivity)]
    have h4 : tDens 1 x * (1 + x ^ 2) ^ (1 / 4 : ℝ) = 1 / Real.pi * (1 + x ^ 2) ^ (-(3 / 4 : ℝ)) := by
      rw [hd, show (-(3 / 4 : ℝ)) = 1 / 4 - 1 by norm_num, Real.rpow_sub_one hp.ne']
      field_simp
    have h5 := mul_le_mul_of_nonneg_left hl3 hdp.le
    calc tDens 1 x * (Real.log Real.pi + Real.log (1 + x ^ 2))
        ≤ Real.log Real.pi * tDens 1 x + 4 * (tDens 1 x * (1 + x ^ 2) ^ (1 / 4 : ℝ)) := by linarith
      _ = _ := by
        rw [h4]
        simp only [Pi.add_apply]
        ring
  obtain ⟨g1, hg1, h1p, h1⟩ := gamma_close (by norm_num : (0 : ℝ) < (1 + 1) / 2)
  obtain ⟨g2, hg2, h2p, h2⟩ := gamma_close (by norm_num : (0 : ℝ) < 1 / 2)
  obtain ⟨b, hb, h3⟩ := C48_beta_accuracy (x := (1 + 1) / 2) (y := 0.5) (by norm_num) (by norm_num)
  have hB : Real.Gamma ((1 + 1) / 2) * Real.Gamma 0.5 / Real.Gamma ((1 + 1) / 2 + 0.5) = 2 := by
    rw [show ((1 : ℝ) + 1) / 2 = 1 by norm_num, show (0.5 : ℝ) = 1 / 2 by norm_num, add_comm (1 : ℝ), Real.Gamma_add_one (by norm_num), Real.Gamma_one,
      Real.Gamma_one_half_eq]
    have : 0 < √Real.pi := Real.sqrt_pos.2 Real.pi_pos
    field_simp
  rw [hB, abs_le] at h3
  norm_num at h3
  obtain ⟨h3a, h3b⟩ := h3
  rw [show ((1 : ℝ) + 1) / 2 = 1 by norm_num, Real.Gamma_one, abs_le] at h1
  rw [Real.Gamma_one_half_eq, abs_le] at h2
  norm_num at h1 h2
  have hsp : 1.77 < √Real.pi := by
    rw [Real.lt_sqrt (by norm_num)]
    have := Real.pi_gt_d2
    norm_num at this ⊢
    linarith
  have hbp : 0 < b := by linarith
  refine ⟨(1 + 1) / 2 * (g1 - g2) + Real.log (√1 * b), ?_, ?_, hI, ?_⟩
  · simp only [tEntropy, hg1, hg2, hb, R.ln, Option.bind_eq_bind, Option.bind_some]
    simp [not_le.2 hbp]
  · have hl : Real.log b < 0.7 := by
      rw [Real.log_lt_iff_lt_exp hbp]
      have := Real.add_one_lt_exp (by norm_num : (0.7 : ℝ) ≠ 0)
      have h7 : (2.01 : ℝ) < Real.exp 0.7 := by
        have h8 := Real.sum_le_exp_of_nonneg (by norm_num : (0 : ℝ) ≤ 0.7) 5
        norm_num [Finset.sum_range_succ, Nat.factorial] at h8
        norm_num
        linarith
      norm_num at h7
      linarith
    rw [Real.sqrt_one, one_mul]
    norm_num at hl hsp
    linarith [h1.2, h2.1]
  · have hle : ∀ x, tDens 1 x * Real.log (tDens 1 x) ≤ -Real.log Real.pi * tDens 1 x := by
      intro x
      have hp : 0 < 1 + x ^ 2 := by positivity
      have hl : Real.log (tDens 1 x) = -(Real.log Real.pi + Real.log (1 + x ^ 2)) := by
        rw [hd, one_div, Real.log_inv, Real.log_mul Real.pi_ne_zero hp.ne']
      have hl1 : 0 ≤ Real.log (1 + x ^ 2) := Real.log_nonneg (by nlinarith [sq_nonneg x])
      have := mul_nonneg (tDens_pos one_pos x).le hl1
      rw [hl]
      linarith
    have hm := integral_mono hI (hint.const_mul (-Real.log Real.pi)) hle
    rw [MeasureTheory.integral_const_mul, hone] at hm
    have hlp : 1 < Real.log Real.pi := by
      rw [Real.lt_log_iff_exp_lt Real.pi_pos]
      have := Real.exp_one_lt_d9
      norm_num at this
      linarith
    linarith

end Stat
end Verif
