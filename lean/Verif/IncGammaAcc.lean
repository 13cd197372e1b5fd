import Verif.IncGammaFrac
import Verif.IncGammaProps
import Verif.LanczosProps

/-!
# C49: the values of the incomplete gamma functions
-/

namespace Verif
namespace Special
open Filter Topology MeasureTheory Set

theorem gInt_add_uInt {a x : ℝ} (ha : 0 < a) (hx : 0 < x) : gInt a x + uInt a x = Real.Gamma a := by
  have hi := Real.GammaIntegral_convergent ha
  rw [Real.Gamma_eq_integral ha, gInt, uInt, intervalIntegral.integral_of_le hx.le,
    ← Ioc_union_Ioi_eq_Ioi hx.le, setIntegral_union (Ioc_disjoint_Ioi le_rfl) measurableSet_Ioi
      (hi.mono_set Ioc_subset_Ioi_self) (hi.mono_set (Ioi_subset_Ioi hx.le))]
  congr 1
  refine setIntegral_congr_fun measurableSet_Ioc fun t _ => ?_
  ring

theorem uInt_nonneg {a x : ℝ} (hx : 0 < x) : 0 ≤ uInt a x :=
  setIntegral_nonneg measurableSet_Ioi fun t ht => by
    have := Real.rpow_pos_of_pos (lt_trans hx ht) (a - 1)
    positivity

theorem uInt_pred_le {a x : ℝ} (hx : 0 < x) : x * uInt (a - 1) x ≤ uInt a x := by
  unfold uInt
  rw [← MeasureTheory.integral_const_mul]
  refine setIntegral_mono_on ((exp_rpow_integrable hx _).const_mul x) (exp_rpow_integrable hx _) measurableSet_Ioi
    fun t ht => ?_
  have h0 : 0 < t := lt_trans hx ht
  have e : t ^ (a - 1) = t ^ (a - 1 - 1) * t := by
    rw [← Real.rpow_add_one h0.ne']; congr 1; ring
  have h1 := Real.rpow_pos_of_pos h0 (a - 1 - 1)
  have h2 := Real.exp_pos (-t)
  rw [e]
  have h3 : x ≤ t := le_of_lt ht
  have : x * (Real.exp (-t) * t ^ (a - 1 - 1)) ≤ t * (Real.exp (-t) * t ^ (a - 1 - 1)) := by gcongr
  linarith

/-- a bound of the upper integral -/
theorem uInt_le {a x : ℝ} (hx : 0 < x) (hax : a < x) :
    uInt a x ≤ x ^ a * Real.exp (-x) * (1 + 1 / x) := by
  have hr := uInt_rec hx a
  have hxa : x ^ a = x * x ^ (a - 1) := by
    rw [mul_comm, ← Real.rpow_add_one hx.ne']; congr 1; ring
  have hp := Real.rpow_pos_of_pos hx (a - 1)
  have he := Real.exp_pos (-x)
  have h0 := uInt_nonneg (a := a - 1) hx
  have e : x ^ a * Real.exp (-x) * (1 + 1 / x) = x ^ a * Real.exp (-x) + x ^ (a - 1) * Real.exp (-x) := by
    rw [hxa]; field_simp
  rw [e]
  have h3 : 0 < x ^ (a - 1) * Real.exp (-x) := by positivity
  rcases le_or_gt a 1 with h | h
  · have h2 : (a - 1) * uInt (a - 1) x ≤ 0 := mul_nonpos_of_nonpos_of_nonneg (by linarith) h0
    have h4 : 0 < x ^ a * Real.exp (-x) := by rw [hxa]; positivity
    linarith
  · have h1 := uInt_pred_le (a := a) hx
    have h4 := uInt_nonneg (a := a) hx
    have h2 : x * ((a - 1) * uInt (a - 1) x) ≤ (a - 1) * uInt a x := by nlinarith
    have h5 : x * uInt a x = x ^ a * Real.exp (-x) + x * ((a - 1) * uInt (a - 1) x) := by
      rw [hr, hxa]; ring
    have h6 : uInt a x ≤ x ^ a * Real.exp (-x) := by nlinarith
    linarith

/-- a bound of the lower integral -/
theorem gInt_le' {a x : ℝ} (ha : 0 < a) (hx : 0 < x) (hax : x ≤ a) :
    gInt a x ≤ x ^ a * Real.exp (-x) * ((1 + x) / a) := by
  have hr := gInt_rec ha hx.le
  have hl := gInt_le (a := a + 1) (by linarith) hx.le (by linarith)
  have h0 := gInt_nonneg (a := a + 1) hx.le
  rw [Real.rpow_add_one hx.ne'] at hl
  have h1 : gInt (a + 1) x ≤ x ^ a * x * Real.exp (-x) := by nlinarith
  rw [← mul_div_assoc, le_div_iff₀ ha]
  linarith

theorem exp_underflow : Real.exp (-709.78271289338399) ≤ 1e-200 := by
  have h1 : Real.exp (-500) = (Real.exp 1 ^ 250 * Real.exp 1 ^ 250)⁻¹ := by
    rw [← Real.exp_nat_mul, ← Real.exp_add, ← Real.exp_neg]; norm_num
  have h2 := Real.exp_one_gt_d9
  have h3 : (2.7 : ℝ) ≤ Real.exp 1 := by norm_num at h2 ⊢; linarith
  have h4 : (1e200 : ℝ) ≤ Real.exp 1 ^ 250 * Real.exp 1 ^ 250 := by
    calc (1e200 : ℝ) ≤ 2.7 ^ 250 * 2.7 ^ 250 := by norm_num
      _ ≤ _ := by gcongr
  refine (Real.exp_le_exp.2 (by norm_num : (-709.78271289338399 : ℝ) ≤ -500)).trans ?_
  rw [h1]
  refine (inv_anti₀ (by norm_num) h4).trans ?_
  norm_num

/-- the common factor of `gamma_lr` -/
theorem ax_factor {a x lg : ℝ} (ha : 0 < a) (hx : 0 < x) (h : lnGamma a = some lg) :
    ∃ k, |k - 1| ≤ 3e-17 ∧ Real.exp (a * Real.log x - x - lg) * Real.Gamma a = x ^ a * Real.exp (-x) * k := by
  have hG := Real.Gamma_pos_of_pos ha
  obtain ⟨v, hv, he⟩ := (C48_ln_gamma_accuracy a).2 hG
  rw [h] at hv
  obtain rfl := Option.some.inj hv
  refine ⟨Real.exp (Real.log (Real.Gamma a) - lg), ?_, ?_⟩
  · rw [abs_sub_comm] at he
    set d := Real.log (Real.Gamma a) - lg
    have h1 := Real.abs_exp_sub_one_le (x := d) (he.trans (by norm_num))
    have h2 := Real.add_one_le_exp d
    have h3 : Real.exp d ≤ 1 + d + d ^ 2 := by
      have := Real.abs_exp_sub_one_sub_id_le (x := d) (he.trans (by norm_num))
      rw [abs_le] at this
      linarith [this.2]
    have h4 : d ^ 2 ≤ (2e-17) ^ 2 := by rw [← sq_abs]; gcongr
    rw [abs_le] at he ⊢
    norm_num at he h4 ⊢
    constructor <;> linarith [he.1, he.2]
  · rw [Real.rpow_def_of_pos hx, ← Real.exp_add, ← Real.exp_add]
    nth_rewrite 1 [← Real.exp_log hG]
    rw [← Real.exp_add]
    congr 1
    ring

/-- `gamma_lr` is the lower regularised incomplete gamma function.  For `x ≤ 1` or `x ≤ a` the value `v` times `Γ(a)` is
the integral from 0 to `x` with a relative error of `1e-15 (x + 1)`, otherwise `(1 - v) Γ(a)` is the integral from `x` to
infinity with a relative error of `2e-15 (a + n + 2)`, where `n` is the number of rounds of the continued fraction.
The second terms of the bounds are the error where the function returns 0 or 1 at once. -/
theorem C49_accuracy (n : ℕ) (a x v : ℝ) (ha : 0 < a) (hx : 0 < x) (hv : gammaLr n a x = some v) :
    (x ≤ 1 ∨ x ≤ a →
      |v * Real.Gamma a - ∫ t in (0 : ℝ)..x, t ^ (a - 1) * Real.exp (-t)|
        ≤ 1e-15 * (x + 1) * (∫ t in (0 : ℝ)..x, t ^ (a - 1) * Real.exp (-t))
          + 1.1e-200 * ((1 + x) / max a x) * Real.Gamma a) ∧
    (1 < x ∧ a < x →
      |(1 - v) * Real.Gamma a - ∫ t in Ioi x, Real.exp (-t) * t ^ (a - 1)|
        ≤ 2e-15 * (a + n + 2) * ((1 - v) * Real.Gamma a) + 2.2e-200 * Real.Gamma a) := by
  change (x ≤ 1 ∨ x ≤ a → |v * Real.Gamma a - gInt a x| ≤ 1e-15 * (x + 1) * gInt a x
      + 1.1e-200 * ((1 + x) / max a x) * Real.Gamma a) ∧
    (1 < x ∧ a < x → |(1 - v) * Real.Gamma a - uInt a x|
        ≤ 2e-15 * (a + n + 2) * ((1 - v) * Real.Gamma a) + 2.2e-200 * Real.Gamma a)
  have hG := Real.Gamma_pos_of_pos ha
  obtain ⟨lg, hlg⟩ := lnGamma_of_pos ha
  obtain ⟨k, hk, hfac⟩ := ax_factor ha hx hlg
  have hsum := gInt_add_uInt ha hx
  have g0 := gInt_nonneg (a := a) hx.le
  have u0 := uInt_nonneg (a := a) hx
  have hE : 0 < x ^ a * Real.exp (-x) := by
    have := Real.rpow_pos_of_pos hx a
    positivity
  rw [abs_le] at hk
  unfold gammaLr at hv
  simp only [not_le.2 hx, if_false, ha.ne', hx.ne', hlg, Option.bind_eq_bind, Option.bind_some] at hv
  by_cases hu : a * Real.log x - x - lg < -709.78271289338399
  · -- the value is set to 0 or 1
    have hsmall : x ^ a * Real.exp (-x) ≤ 1.1e-200 * Real.Gamma a := by
      have h1 : Real.exp (a * Real.log x - x - lg) ≤ 1e-200 := (Real.exp_le_exp.2 hu.le).trans exp_underflow
      have h2 : x ^ a * Real.exp (-x) * k ≤ 1e-200 * Real.Gamma a := by
        rw [← hfac]; exact mul_le_mul_of_nonneg_right h1 hG.le
      have h3 : x ^ a * Real.exp (-x) * (1 - 3e-17) ≤ x ^ a * Real.exp (-x) * k :=
        mul_le_mul_of_nonneg_left (by linarith [hk.1]) hE.le
      norm_num at h2 h3 ⊢
      nlinarith
    rw [if_pos hu] at hv
    have hmax : 0 < max a x := lt_max_of_lt_left ha
    by_cases hax : a < x
    · rw [if_pos hax] at hv
      obtain rfl := Option.some.inj hv
      have hU := uInt_le hx hax
      have e : 1 * Real.Gamma a - gInt a x = uInt a x := by linarith
      constructor
      · intro _
        rw [e, abs_of_nonneg u0]
        have h1 : uInt a x ≤ 1.1e-200 * Real.Gamma a * (1 + 1 / x) := hU.trans (by gcongr)
        have h2 : (1 + 1 / x : ℝ) = (1 + x) / max a x := by
          rw [max_eq_right hax.le]; field_simp; ring
        rw [h2] at h1
        have h4 : 0 ≤ 1e-15 * (x + 1) * gInt a x := by positivity
        linarith
      · rintro ⟨h1x, _⟩
        have h1 : uInt a x ≤ 1.1e-200 * Real.Gamma a * (1 + 1 / x) := hU.trans (by gcongr)
        have h2 : (1 + 1 / x : ℝ) ≤ 2 := by
          have : 1 / x ≤ 1 := by rw [div_le_one hx]; exact h1x.le
          linarith
        have h3 : 1.1e-200 * Real.Gamma a * (1 + 1 / x) ≤ 1.1e-200 * Real.Gamma a * 2 := by gcongr
        rw [sub_self, zero_mul, zero_sub, abs_neg, abs_of_nonneg u0, mul_zero, zero_add]
        norm_num at h1 h3 ⊢
        linarith
    · rw [if_neg hax] at hv
      obtain rfl := Option.some.inj hv
      have hle := gInt_le' ha hx (not_lt.1 hax)
      refine ⟨fun _ => ?_, fun h => absurd h.2 hax⟩
      rw [zero_mul, zero_sub, abs_neg, abs_of_nonneg g0]
      have h1 : gInt a x ≤ 1.1e-200 * Real.Gamma a * ((1 + x) / a) := hle.trans (by gcongr)
      rw [max_eq_left (not_lt.1 hax)]
      have h4 : 0 ≤ 1e-15 * (x + 1) * gInt a x := by positivity
      linarith
  · rw [if_neg hu] at hv
    by_cases hs : x ≤ 1 ∨ x ≤ a
    · -- the series
      rw [if_pos hs] at hv
      refine ⟨fun _ => ?_, fun h => ?_⟩
      · cases hser : lrSeries x n a 1 1 with
        | none => rw [hser] at hv; simp at hv
        | some s =>
          rw [hser, Option.bind_some, div_of_ne ha.ne'] at hv
          obtain rfl := Option.some.inj hv
          obtain ⟨l1, l2⟩ := lrSeries_error ha hx hs hser
          have hs0 : 0 ≤ s := by
            by_contra hc
            have h7 : x ^ a * Real.exp (-x) * ((1 + 1e-15 * x) * s) < 0 := by
              have : 0 < 1 + 1e-15 * x := by positivity
              exact mul_neg_of_pos_of_neg hE (mul_neg_of_pos_of_neg this (not_le.1 hc))
            have : 0 ≤ a * gInt a x := by positivity
            linarith
          have e : Real.exp (a * Real.log x - x - lg) * s / a * Real.Gamma a = x ^ a * Real.exp (-x) * s / a * k := by
            calc _ = (Real.exp (a * Real.log x - x - lg) * Real.Gamma a) * s / a := by ring
              _ = _ := by rw [hfac]; ring
          rw [e]
          set T := x ^ a * Real.exp (-x) * s / a with hT
          have hT0 : 0 ≤ T := by positivity
          have t1 : T ≤ gInt a x := by rw [hT, div_le_iff₀ ha]; linarith
          have t2 : gInt a x ≤ (1 + 1e-15 * x) * T := by
            have : a * gInt a x ≤ a * ((1 + 1e-15 * x) * T) := by
              rw [hT]
              calc a * gInt a x ≤ _ := l2
                _ = _ := by field_simp
            exact le_of_mul_le_mul_left this ha
          have hmax : 0 < max a x := lt_max_of_lt_left ha
          have h4 : 0 ≤ 1.1e-200 * ((1 + x) / max a x) * Real.Gamma a := by positivity
          have hxT : 0 ≤ x * T := by positivity
          have hxg : x * T ≤ x * gInt a x := mul_le_mul_of_nonneg_left t1 hx.le
          have k1 : T * (1 - 3e-17) ≤ T * k := mul_le_mul_of_nonneg_left (by linarith [hk.1]) hT0
          have k2 : T * k ≤ T * (1 + 3e-17) := mul_le_mul_of_nonneg_left (by linarith [hk.2]) hT0
          refine le_trans ?_ (le_add_of_nonneg_right h4)
          rw [abs_le]
          norm_num at t2 k1 k2 ⊢
          constructor <;> nlinarith
      · exact absurd hs (by push Not; exact h)
    · -- the continued fraction
      rw [if_neg hs] at hv
      refine ⟨fun h => absurd h hs, fun ⟨h1x, hax⟩ => ?_⟩
      obtain ⟨s, hs1, hs2⟩ := lrFracInit_inv hax hx
      rw [hs1, Option.bind_some] at hv
      cases hf : lrFrac n s with
      | none => rw [hf] at hv; simp at hv
      | some w =>
        rw [hf, Option.bind_some] at hv
        obtain rfl := Option.some.inj hv
        obtain ⟨w0, hw⟩ := lrFrac_error ha hax h1x.le hs2 hf
        have e : (1 - (1 - Real.exp (a * Real.log x - x - lg) * w)) * Real.Gamma a = x ^ a * Real.exp (-x) * w * k := by
          calc _ = (Real.exp (a * Real.log x - x - lg) * Real.Gamma a) * w := by ring
            _ = _ := by rw [hfac]; ring
        rw [e]
        set T := x ^ a * Real.exp (-x) * w with hT
        have hT0 : 0 < T := by positivity
        have hn : (0 : ℝ) ≤ n := Nat.cast_nonneg n
        have t1 : |uInt a x - T| ≤ (a + n + 1) * 1e-15 * T := by
          have : uInt a x - T = x ^ a * Real.exp (-x) * (uInt a x / (x ^ a * Real.exp (-x)) - w) := by
            rw [hT]; field_simp
          rw [this, abs_mul, abs_of_pos hE, hT]
          calc _ ≤ x ^ a * Real.exp (-x) * ((a + n + 1) * 1e-15 * w) := mul_le_mul_of_nonneg_left hw hE.le
            _ = _ := by ring
        have h4 : 0 ≤ 2.2e-200 * Real.Gamma a := by positivity
        have k1 : T * (1 - 3e-17) ≤ T * k := mul_le_mul_of_nonneg_left (by linarith [hk.1]) hT0.le
        have k2 : T * k ≤ T * (1 + 3e-17) := mul_le_mul_of_nonneg_left (by linarith [hk.2]) hT0.le
        have hm : 2e-15 * (a + n + 2) * (T * (1 - 3e-17)) ≤ 2e-15 * (a + n + 2) * (T * k) := by gcongr
        have hp : 0 ≤ (a + n + 1) * T := by positivity
        refine le_trans ?_ (le_add_of_nonneg_right h4)
        refine le_trans ?_ hm
        rw [abs_le] at t1 ⊢
        norm_num at t1 k1 k2 ⊢
        constructor <;> nlinarith [t1.1, t1.2]

/-- `gamma_lr(1, 1)` is `1 - 1/e` up to `2.1e-15` -/
example : ∃ N v, ∀ n, N ≤ n → gammaLr n 1 1 = some v ∧ |v - (1 - Real.exp (-1))| ≤ 2.1e-15 := by
  obtain ⟨N, v, h⟩ := (C49_terminates 1 1 one_pos).2 one_pos
  refine ⟨N, v, fun n hn => ⟨h n hn, ?_⟩⟩
  have := (C49_accuracy n 1 1 v one_pos one_pos (h n hn)).1 (Or.inl le_rfl)
  have e : ∫ t in (0 : ℝ)..1, t ^ ((1 : ℝ) - 1) * Real.exp (-t) = 1 - Real.exp (-1) := by
    simp
  rw [e, Real.Gamma_one, mul_one, mul_one, max_self] at this
  have h0 := Real.exp_pos (-1)
  refine this.trans ?_
  norm_num
  norm_num at h0
  linarith

end Special
end Verif
