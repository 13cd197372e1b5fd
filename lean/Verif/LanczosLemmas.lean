import Mathlib.Analysis.SpecialFunctions.Stirling
import Mathlib.Analysis.SpecialFunctions.Gamma.Beta
import Mathlib.Analysis.Convex.Deriv
import Mathlib.Analysis.SpecialFunctions.Log.Deriv
import Mathlib.Analysis.SpecialFunctions.Complex.LogBounds
import Mathlib.Tactic.FieldSimp

/-!
# Error bound of a Lanczos formula

A function `L` with `log L (z) = K + (z - ½) log (z + G) - z + log (N z / ∏ (z + i))` is compared with the gamma function
through the defect `g z = log L (z + 1) - log L z - log z`: its second derivative is a rational function, so an
inequality between polynomials bounds `g`, and `log L z - log Γ z` is a limit minus the sum of the `g (z + k)`.
-/

namespace Verif
namespace Special
open Filter Topology

/-- a convex function on `[0, ∞)` that tends to 0 along `y + n` is nonnegative -/
theorem nonneg_of_convex {h : ℝ → ℝ} (hc : ConvexOn ℝ (Set.Ici 0) h) {y : ℝ} (hy : 0 ≤ y)
    (hl : Tendsto (fun n : ℕ => h (y + n)) atTop (𝓝 0)) : 0 ≤ h y := by
  have h2 : Tendsto (fun n : ℕ => h (y + ((2 * n : ℕ) : ℝ))) atTop (𝓝 0) :=
    hl.comp (tendsto_id.const_mul_atTop' (by norm_num : 0 < 2))
  have hmid : ∀ n : ℕ, h (y + n) ≤ (1 / 2) * h y + (1 / 2) * h (y + ((2 * n : ℕ) : ℝ)) := by
    intro n
    have hn : (0 : ℝ) ≤ n := Nat.cast_nonneg n
    have hm : y + ((2 * n : ℕ) : ℝ) ∈ Set.Ici (0 : ℝ) := Set.mem_Ici.2 (by push_cast; linarith)
    have := hc.2 (Set.mem_Ici.2 hy) hm (by norm_num : (0 : ℝ) ≤ 1 / 2) (by norm_num : (0 : ℝ) ≤ 1 / 2) (by norm_num)
    simp only [smul_eq_mul] at this
    have e : 1 / 2 * y + 1 / 2 * (y + ((2 * n : ℕ) : ℝ)) = y + n := by push_cast; ring
    rwa [e] at this
  have := le_of_tendsto_of_tendsto' hl ((h2.const_mul (1 / 2)).const_add (1 / 2 * h y)) hmid
  linarith

/-- a function whose second derivative is at most `C / (y + a)^4` in absolute value and which tends to 0 -/
theorem abs_le_of_second_deriv {g g' g'' : ℝ → ℝ} {C a : ℝ} (ha : 0 < a)
    (h1 : ∀ y, 0 ≤ y → HasDerivAt g (g' y) y) (h2 : ∀ y, 0 ≤ y → HasDerivAt g' (g'' y) y)
    (hb : ∀ y, 0 ≤ y → |g'' y| ≤ C / (y + a) ^ 4)
    (hl : ∀ y, 0 ≤ y → Tendsto (fun n : ℕ => g (y + n)) atTop (𝓝 0)) :
    ∀ y, 0 ≤ y → |g y| ≤ C / 6 / (y + a) ^ 2 := by
  have d1 : ∀ y, 0 ≤ y → HasDerivAt (fun y => C / 6 / (y + a) ^ 2) (-(C / 3) / (y + a) ^ 3) y := by
    intro y hy
    have hp : (0 : ℝ) < y + a := by linarith
    have := ((((hasDerivAt_id y).add_const a).pow 2).inv (by simp; positivity)).const_mul (C / 6)
    simp only [id] at this
    refine (this.congr_deriv ?_).congr_of_eventuallyEq (Eventually.of_forall fun t => ?_)
    · simp only [Nat.cast_ofNat, mul_one, Pi.pow_apply]
      field_simp
      ring
    · simp [div_eq_mul_inv]
  have d2 : ∀ y, 0 ≤ y → HasDerivAt (fun y => -(C / 3) / (y + a) ^ 3) (C / (y + a) ^ 4) y := by
    intro y hy
    have hp : (0 : ℝ) < y + a := by linarith
    have := ((((hasDerivAt_id y).add_const a).pow 3).inv (by simp; positivity)).const_mul (-(C / 3))
    simp only [id] at this
    refine (this.congr_deriv ?_).congr_of_eventuallyEq (Eventually.of_forall fun t => ?_)
    · simp only [Nat.cast_ofNat, mul_one, Pi.pow_apply]
      field_simp
    · simp [div_eq_mul_inv]
  have l1 : ∀ y, Tendsto (fun n : ℕ => C / 6 / (y + n + a) ^ 2) atTop (𝓝 0) := by
    intro y
    have t : Tendsto (fun n : ℕ => y + n + a) atTop atTop :=
      tendsto_atTop_add_const_right _ _ (tendsto_atTop_add_const_left _ _ tendsto_natCast_atTop_atTop)
    exact ((tendsto_pow_atTop two_ne_zero).comp t).const_div_atTop _
  have key : ∀ s : ℝ, (s = 1 ∨ s = -1) → ∀ y, 0 ≤ y → 0 ≤ C / 6 / (y + a) ^ 2 + s * g y := by
    intro s hs y hy
    refine nonneg_of_convex (h := fun y => C / 6 / (y + a) ^ 2 + s * g y) ?_ hy ?_
    · refine convexOn_of_hasDerivWithinAt2_nonneg (convex_Ici 0)
        (f' := fun y => -(C / 3) / (y + a) ^ 3 + s * g' y) (f'' := fun y => C / (y + a) ^ 4 + s * g'' y) ?_ ?_ ?_ ?_
      · intro x hx
        exact (((d1 x hx).add ((h1 x hx).const_mul s)).continuousAt).continuousWithinAt
      · intro x hx
        rw [interior_Ici] at hx
        exact ((d1 x hx.le).add ((h1 x hx.le).const_mul s)).hasDerivWithinAt
      · intro x hx
        rw [interior_Ici] at hx
        exact ((d2 x hx.le).add ((h2 x hx.le).const_mul s)).hasDerivWithinAt
      · intro x hx
        rw [interior_Ici] at hx
        have := abs_le.1 (hb x hx.le)
        rcases hs with rfl | rfl
        · linarith
        · linarith
    · have := (l1 y).add ((hl y hy).const_mul s)
      simpa using this
  intro y hy
  have k1 := key 1 (Or.inl rfl) y hy
  have k2 := key (-1) (Or.inr rfl) y hy
  rw [abs_le]
  constructor <;> linarith

theorem sum_inv_sq_le {w : ℝ} (hw : 0 < w) (n : ℕ) :
    ∑ k ∈ Finset.range (n + 1), 1 / (w + k) ^ 2 ≤ 1 / w ^ 2 + 1 / w - 1 / (w + n) := by
  induction n with
  | zero => simp
  | succ n ih =>
    rw [Finset.sum_range_succ]
    have hn : (0 : ℝ) ≤ n := Nat.cast_nonneg n
    have : 1 / (w + ((n + 1 : ℕ) : ℝ)) ^ 2 ≤ 1 / (w + n) - 1 / (w + ((n + 1 : ℕ) : ℝ)) := by
      have p : 0 < w + n := by linarith
      push_cast
      rw [div_sub_div _ _ p.ne' (by positivity), div_le_div_iff₀ (by positivity) (by positivity)]
      nlinarith [p]
    linarith

/-- summing the defects -/
theorem abs_sub_le_of_defect {F g : ℝ → ℝ} {C a l : ℝ} (ha : 0 < a) (hC : 0 ≤ C)
    (hF : ∀ y, 0 ≤ y → F (y + 1) - F y = g y) (hg : ∀ y, 0 ≤ y → |g y| ≤ C / (y + a) ^ 2)
    {y : ℝ} (hy : 0 ≤ y) (hl : Tendsto (fun n : ℕ => F (y + n)) atTop (𝓝 l)) :
    |F y - l| ≤ C * (1 / (y + a) ^ 2 + 1 / (y + a)) := by
  have hs : ∀ n : ℕ, F (y + n) - F y = ∑ k ∈ Finset.range n, g (y + k) := by
    intro n
    induction n with
    | zero => simp
    | succ n ih =>
      rw [Finset.sum_range_succ, ← ih, ← hF (y + n) (by positivity)]
      push_cast
      rw [show y + (n + 1 : ℝ) = y + n + 1 by ring]
      ring
  have hb : ∀ n : ℕ, |F y - F (y + ((n + 1 : ℕ) : ℝ))| ≤ C * (1 / (y + a) ^ 2 + 1 / (y + a)) := by
    intro n
    rw [abs_sub_comm, hs]
    have hn : (0 : ℝ) ≤ n := Nat.cast_nonneg n
    have hw : 0 < y + a := by linarith
    calc |∑ k ∈ Finset.range (n + 1), g (y + k)| ≤ ∑ k ∈ Finset.range (n + 1), |g (y + k)| :=
          Finset.abs_sum_le_sum_abs _ _
      _ ≤ ∑ k ∈ Finset.range (n + 1), C * (1 / (y + a + k) ^ 2) := by
          refine Finset.sum_le_sum fun k _ => ?_
          have := hg (y + k) (by positivity)
          rw [mul_one_div, show y + a + (k : ℝ) = y + k + a by ring]
          exact this
      _ = C * ∑ k ∈ Finset.range (n + 1), 1 / (y + a + k) ^ 2 := by rw [Finset.mul_sum]
      _ ≤ C * (1 / (y + a) ^ 2 + 1 / (y + a) - 1 / (y + a + n)) :=
          mul_le_mul_of_nonneg_left (sum_inv_sq_le hw n) hC
      _ ≤ C * (1 / (y + a) ^ 2 + 1 / (y + a)) := by
          refine mul_le_mul_of_nonneg_left ?_ hC
          have : 0 < 1 / (y + a + n) := by positivity
          linarith
  have hl' : Tendsto (fun n : ℕ => |F y - F (y + ((n + 1 : ℕ) : ℝ))|) atTop (𝓝 |F y - l|) :=
    ((hl.comp (tendsto_add_atTop_nat 1)).const_sub (F y)).abs
  exact le_of_tendsto' hl' hb

/-- the second derivative of the defect of a Lanczos formula -/
theorem defect_deriv {N N' N'' : ℝ → ℝ} {b e : ℝ} (hb : 0 < b) (he : 0 < e)
    (hN : ∀ y, 0 ≤ y → 0 < N y) (h1 : ∀ y, HasDerivAt N (N' y) y) (h2 : ∀ y, HasDerivAt N' (N'' y) y)
    {y : ℝ} (hy : 0 ≤ y) :
    HasDerivAt (fun y => (y + 1) * Real.log (y + b + 1) - y * Real.log (y + b) + Real.log (N (y + 1))
        - Real.log (N y) - Real.log (y + e) - 1)
      (Real.log (y + b + 1) + (y + 1) / (y + b + 1) - (Real.log (y + b) + y / (y + b)) + N' (y + 1) / N (y + 1)
        - N' y / N y - 1 / (y + e)) y ∧
    HasDerivAt (fun y => Real.log (y + b + 1) + (y + 1) / (y + b + 1) - (Real.log (y + b) + y / (y + b))
        + N' (y + 1) / N (y + 1) - N' y / N y - 1 / (y + e))
      ((y + b + 1 + b) / (y + b + 1) ^ 2 - (y + b + b) / (y + b) ^ 2
        + (N'' (y + 1) * N (y + 1) - N' (y + 1) ^ 2) / N (y + 1) ^ 2
        - (N'' y * N y - N' y ^ 2) / N y ^ 2 + 1 / (y + e) ^ 2) y := by
  have pA : 0 < y + b + 1 := by linarith
  have pB : 0 < y + b := by linarith
  have pE : 0 < y + e := by linarith
  have p0 := hN y hy
  have p1 := hN (y + 1) (by linarith)
  have dA : HasDerivAt (fun y : ℝ => y + b + 1) 1 y := ((hasDerivAt_id y).add_const b).add_const 1
  have dB : HasDerivAt (fun y : ℝ => y + b) 1 y := (hasDerivAt_id y).add_const b
  have dE : HasDerivAt (fun y : ℝ => y + e) 1 y := (hasDerivAt_id y).add_const e
  have dy1 : HasDerivAt (fun y : ℝ => y + 1) 1 y := (hasDerivAt_id y).add_const 1
  have dy : HasDerivAt (fun y : ℝ => y) 1 y := hasDerivAt_id y
  have dN1 : HasDerivAt (fun y => N (y + 1)) (N' (y + 1)) y := by
    exact ((h1 (y + 1)).comp y dy1).congr_deriv (mul_one _)
  have dN1' : HasDerivAt (fun y => N' (y + 1)) (N'' (y + 1)) y := by
    exact ((h2 (y + 1)).comp y dy1).congr_deriv (mul_one _)
  constructor
  · have := ((((((dy1.mul (dA.log pA.ne')).sub (dy.mul (dB.log pB.ne'))).add (dN1.log p1.ne')).sub
      ((h1 y).log p0.ne')).sub (dE.log pE.ne')).sub_const 1)
    refine this.congr_deriv ?_
    ring
  · have := (((((dA.log pA.ne').add (dy1.div dA pA.ne')).sub ((dB.log pB.ne').add (dy.div dB pB.ne'))).add
      (dN1'.div dN1 p1.ne')).sub ((h2 y).div (h1 y) p0.ne')).sub ((hasDerivAt_const y (1 : ℝ)).div dE pE.ne')
    refine this.congr_deriv ?_
    field_simp
    ring

/-- the values of the gamma function at `z + n` -/
theorem log_gamma_add_nat {z : ℝ} (hz : 0 < z) :
    Tendsto (fun n : ℕ => Real.log (Real.Gamma (z + n + 1))
      - (z * Real.log n + 1 / 2 * Real.log (2 * n) + n * (Real.log n - 1))) atTop (𝓝 (Real.log (Real.sqrt Real.pi))) := by
  have hG : ∀ n : ℕ, Real.Gamma (z + n + 1) = Real.Gamma z * ∏ j ∈ Finset.range (n + 1), (z + j) := by
    intro n
    induction n with
    | zero => simp [Real.Gamma_add_one hz.ne', mul_comm]
    | succ n ih =>
      have hn : (0 : ℝ) ≤ n := Nat.cast_nonneg n
      rw [Finset.prod_range_succ, ← mul_assoc, ← ih]
      push_cast
      rw [show z + (n + 1 : ℝ) + 1 = (z + n + 1) + 1 by ring, Real.Gamma_add_one (by positivity)]
      rw [show z + (n + 1 : ℝ) = z + n + 1 by ring]
      ring
  have hg := Real.Gamma_pos_of_pos hz
  have t1 : Tendsto (fun n : ℕ => Real.log (Real.Gamma z) - Real.log (Real.GammaSeq z n)) atTop (𝓝 0) := by
    have := ((Real.GammaSeq_tendsto_Gamma z).log hg.ne').const_sub (Real.log (Real.Gamma z))
    simpa using this
  have hpi : 0 < Real.sqrt Real.pi := Real.sqrt_pos.2 Real.pi_pos
  have t2 := Stirling.tendsto_stirlingSeq_sqrt_pi.log hpi.ne'
  have := t1.add t2
  rw [zero_add] at this
  refine this.congr' ?_
  filter_upwards [eventually_gt_atTop 0] with n hn
  have hn0 : (0 : ℝ) < n := by exact_mod_cast hn
  have hp : 0 < ∏ j ∈ Finset.range (n + 1), (z + j) :=
    Finset.prod_pos fun j _ => by positivity
  have hf : (0 : ℝ) < n.factorial := by exact_mod_cast n.factorial_pos
  rw [Stirling.log_stirlingSeq_formula, hG, Real.log_mul hg.ne' hp.ne', Real.GammaSeq,
    Real.log_div (by positivity) hp.ne', Real.log_mul (by positivity) hf.ne', Real.log_rpow hn0,
    Real.log_div hn0.ne' (Real.exp_pos 1).ne', Real.log_exp]
  ring

/-- the limit of the quotient of a Lanczos formula and the gamma function -/
theorem lanczos_limit {S : ℝ → ℝ} {K G s z : ℝ} (hz : 0 < z) (hG : 0 < G) (hs : 0 < s)
    (hS : Tendsto S atTop (𝓝 s)) :
    Tendsto (fun n : ℕ => K + (z + n - 1 / 2) * Real.log (z + n + G) - (z + n) + Real.log (S (z + n))
      - Real.log (Real.Gamma (z + n))) atTop
      (𝓝 (K + G + Real.log s - Real.log (Real.sqrt (2 * Real.pi)))) := by
  rw [← tendsto_add_atTop_iff_nat 1]
  set c := z + 1 + G with hc
  have tn : Tendsto (fun n : ℕ => (n : ℝ)) atTop atTop := tendsto_natCast_atTop_atTop
  have e1 : Tendsto (fun n : ℕ => (n : ℝ) * Real.log (1 + c / n)) atTop (𝓝 c) :=
    (Real.tendsto_mul_log_one_add_div_atTop c).comp tn
  have e2 : Tendsto (fun n : ℕ => Real.log (1 + c / n)) atTop (𝓝 0) := by
    have : Tendsto (fun n : ℕ => 1 + c / (n : ℝ)) atTop (𝓝 1) := by
      simpa using (tn.const_div_atTop c).const_add 1
    simpa using this.log one_ne_zero
  have e3 : Tendsto (fun n : ℕ => Real.log (S (z + n + 1))) atTop (𝓝 (Real.log s)) := by
    refine (hS.log hs.ne').comp ?_
    exact tendsto_atTop_add_const_right _ _ (tendsto_atTop_add_const_left _ _ tn)
  have e4 := log_gamma_add_nat hz
  have := (((((e1.add (e2.const_mul (z + 1 / 2))).add e3).sub e4).add_const (K - z - 1)).sub_const
    (1 / 2 * Real.log 2))
  refine (this.congr' ?_).trans (le_of_eq ?_)
  · filter_upwards [eventually_gt_atTop 0] with n hn
    have hn0 : (0 : ℝ) < n := by exact_mod_cast hn
    have ha : Real.log (z + n + 1 + G) = Real.log n + Real.log (1 + c / n) := by
      rw [← Real.log_mul hn0.ne' (by positivity)]
      congr 1
      field_simp
      rw [hc]; ring
    have hb : Real.log (2 * n) = Real.log 2 + Real.log n := Real.log_mul two_ne_zero hn0.ne'
    push_cast
    rw [← add_assoc, ha, hb]
    ring
  · rw [Real.sqrt_mul (by norm_num), Real.log_mul (by positivity) (Real.sqrt_pos.2 Real.pi_pos).ne',
      Real.log_sqrt (by norm_num : (0 : ℝ) ≤ 2), hc]
    congr 1
    ring

end Special
end Verif
