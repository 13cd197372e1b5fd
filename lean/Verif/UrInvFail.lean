import Verif.UrInvProps
import Verif.DistChi
import Mathlib.Analysis.SpecialFunctions.Gamma.Deligne
import Mathlib.Analysis.SpecialFunctions.ImproperIntegrals
import Mathlib.Analysis.Complex.ExponentialBounds
import Mathlib.NumberTheory.Harmonic.GammaDeriv

/-!
# C49, C72: the iteration of `gamma_ur_inv` leaves the positive numbers

For `a` above 63 the start value of `gamma_ur_inv` (`/repo/src/special/gamma.rs:502-518`) lies so far below the solution that
the first Newton step jumps far beyond it, and the second one to a negative number, at which the code panics.
-/

namespace Verif
namespace Special

open MeasureTheory Set

/-! ### Bounds of the gamma function -/

/-- `a log a - a ≤ log Γ(a+1)` -/
theorem log_gamma_ge {a : ℝ} (ha : 0 < a) : a * Real.log a - a ≤ Real.log (Real.Gamma (a + 1)) := by
  have h1 := gInt_add_uInt (a := a + 1) (x := a) (by linarith) ha
  have h2 := uInt_rec ha (a + 1)
  have h3 := uInt_nonneg (a := a) ha
  have h4 := gInt_nonneg (a := a + 1) ha.le
  rw [show a + 1 - 1 = a by ring] at h2
  have h5 : a ^ a * Real.exp (-a) ≤ Real.Gamma (a + 1) := by nlinarith
  have h6 : 0 < a ^ a := Real.rpow_pos_of_pos ha a
  have h7 := Real.log_le_log (mul_pos h6 (Real.exp_pos _)) h5
  rw [Real.log_mul h6.ne' (Real.exp_pos _).ne', Real.log_rpow ha, Real.log_exp] at h7
  linarith

/-- `Γ(a+1) ≤ 10 (10 a / 9 e)^a` -/
theorem log_gamma_le {a : ℝ} (ha : 0 < a) :
    Real.log (Real.Gamma (a + 1)) ≤ a * (Real.log a + Real.log (10 / 9) - 1) + Real.log 10 := by
  set M := Real.exp (a * (Real.log a + Real.log (10 / 9) - 1)) with hM
  have hb : ∀ t ∈ Ioi (0 : ℝ), Real.exp (-t) * t ^ (a + 1 - 1) ≤ M * Real.exp (-(1 / 10) * t) := by
    intro t ht
    have ht : 0 < t := ht
    rw [show a + 1 - 1 = a by ring, Real.rpow_def_of_pos ht, ← Real.exp_add, hM, ← Real.exp_add]
    refine Real.exp_le_exp.2 ?_
    have h1 := Real.log_le_sub_one_of_pos (x := t * (9 / 10) / a) (by positivity)
    rw [Real.log_div (by positivity) ha.ne', Real.log_mul ht.ne' (by norm_num),
      show (9 / 10 : ℝ) = (10 / 9)⁻¹ by norm_num, Real.log_inv] at h1
    have h2 := mul_le_mul_of_nonneg_left h1 ha.le
    have h3 : a * (t * (10 / 9 : ℝ)⁻¹ / a - 1) = 9 / 10 * t - a := by field_simp
    rw [h3] at h2
    nlinarith
  have h1 : Real.Gamma (a + 1) ≤ M * 10 := by
    rw [Real.Gamma_eq_integral (by linarith)]
    refine (setIntegral_mono_on (Real.GammaIntegral_convergent (by linarith))
      ((integrableOn_exp_mul_Ioi (a := -(1 / 10)) (by norm_num) 0).const_mul M) measurableSet_Ioi hb).trans ?_
    rw [MeasureTheory.integral_const_mul, integral_exp_mul_Ioi (by norm_num)]
    norm_num
  have h2 := Real.log_le_log (Real.Gamma_pos_of_pos (by linarith)) h1
  rw [Real.log_mul (Real.exp_pos _).ne' (by norm_num), Real.log_exp] at h2
  exact h2

/-- `a e^(-c a)` decreases -/
theorem mul_exp_le {a c : ℝ} (ha : 64 ≤ a) (hc : 1 / 64 ≤ c) : a * Real.exp (-(c * a)) ≤ 64 * Real.exp (-(c * 64)) := by
  have h1 := Real.add_one_le_exp (c * (a - 64))
  have h2 : a / 64 ≤ Real.exp (c * (a - 64)) := by nlinarith
  have h3 : Real.exp (-(c * 64)) = Real.exp (c * (a - 64)) * Real.exp (-(c * a)) := by rw [← Real.exp_add]; congr 1; ring
  rw [h3]
  nlinarith [Real.exp_pos (-(c * a))]

/-! ### Numbers -/

theorem exp_ge_cubic {x : ℝ} (hx : 0 ≤ x) : 1 + x + x ^ 2 / 2 + x ^ 3 / 6 ≤ Real.exp x := by
  have := Real.sum_le_exp_of_nonneg hx 4
  simpa [Finset.sum_range_succ, Nat.factorial] using this

theorem log_three_ge : 1.09 ≤ Real.log 3 := by
  rw [Real.le_log_iff_exp_le (by norm_num), show (1.09 : ℝ) = 1 + 0.09 by norm_num, Real.exp_add]
  have h1 := Real.exp_one_lt_d9
  have h2 : Real.exp 0.09 ≤ 1 / 0.91 := by
    have := Real.add_one_le_exp (-0.09 : ℝ)
    rw [Real.exp_neg, le_inv_comm₀ (by norm_num) (Real.exp_pos _)] at this
    refine this.trans (le_of_eq (by norm_num))
  have h3 := Real.exp_pos 0.09
  nlinarith

theorem log_small_ge : -4.64 ≤ Real.log 0.0099 := by
  rw [Real.le_log_iff_exp_le (by norm_num), Real.exp_neg, inv_le_comm₀ (Real.exp_pos _) (by norm_num)]
  have h1 := exp_ge_cubic (x := 0.64) (by norm_num)
  have h2 := Real.exp_one_gt_d9
  have h3 : Real.exp 4.64 = Real.exp 1 ^ 4 * Real.exp 0.64 := by
    rw [← Real.exp_nat_mul, ← Real.exp_add]; norm_num
  rw [h3]
  have h4 : (2.718 : ℝ) ^ 4 ≤ Real.exp 1 ^ 4 := pow_le_pow_left₀ (by norm_num) (by linarith) 4
  have h5 := mul_le_mul h4 h1 (by norm_num) (by positivity)
  refine le_trans ?_ h5
  norm_num

theorem log_three_half_le : Real.log 1.5 ≤ 0.41 := by
  rw [Real.log_le_iff_le_exp (by norm_num)]
  refine le_trans ?_ (exp_ge_cubic (by norm_num))
  norm_num

theorem log_ten_le : Real.log 10 ≤ 2.4 := by
  rw [Real.log_le_iff_le_exp (by norm_num)]
  have := Real.sum_le_exp_of_nonneg (x := 2.4) (by norm_num) 6
  simp only [Finset.sum_range_succ, Finset.sum_range_zero, Nat.factorial] at this
  refine le_trans ?_ this
  norm_num

theorem log_043_ge : -0.85 ≤ Real.log 0.43 := by
  rw [Real.le_log_iff_exp_le (by norm_num), Real.exp_neg, inv_le_comm₀ (Real.exp_pos _) (by norm_num)]
  have := Real.sum_le_exp_of_nonneg (x := 0.85) (by norm_num) 5
  simp only [Finset.sum_range_succ, Finset.sum_range_zero, Nat.factorial] at this
  refine le_trans ?_ this
  norm_num

theorem log_five_half_le : Real.log 2.5 ≤ 1 := by
  rw [Real.log_le_iff_le_exp (by norm_num)]
  have := Real.exp_one_gt_d9
  linarith

/-! ### One round -/

theorem urInvLoop_succ {n m : ℕ} {a q x y : ℝ} (h : urInvLoop n a q (m + 1) x = some y) :
    ∃ g l, gamma a = some g ∧ gammaLr n a x = some l ∧
      (1.1e-5 < |urCorr a q g l x| → urInvLoop n a q m (x * (1 - urCorr a q g l x)) = some y) := by
  rw [urInvLoop] at h
  simp only [Option.bind_eq_bind] at h
  rw [Option.bind_eq_some_iff] at h
  obtain ⟨r, hr, h⟩ := h
  obtain ⟨g, l, hg, hl, e1, -, e2⟩ := urInvStep_some hr
  refine ⟨g, l, hg, hl, fun hc => ?_⟩
  rw [if_neg (fun c => absurd (e2 c) (not_le.2 hc)), e1] at h
  exact h

theorem urCorr_large {a q g l x : ℝ} (h : 0.1 < |(l - (1 - q)) / (x ^ a * Real.exp (-x) / g)|) :
    urCorr a q g l x = (l - (1 - q)) / (x ^ a * Real.exp (-x) / g) := by
  simp only [urCorr]
  rw [if_neg (fun c => absurd c.1 (not_le.2 h))]

/-- the start value: `u = (p Γ(a+1))^(1/a)` lies between `(a+1)/3` and `0.43 (a+1)` -/
theorem start_bounds {a p g1 : ℝ} (ha : 64 ≤ a) (hp : 0.01 ≤ p) (hp' : p ≤ 0.99)
    (hg : |g1 - Real.Gamma (a + 1)| ≤ 4e-12 * Real.Gamma (a + 1)) :
    (a + 1) / 3 ≤ (p * g1) ^ (1 / a) ∧ (p * g1) ^ (1 / a) ≤ 0.43 * (a + 1) ∧ 0 < p * g1 := by
  have a0 : 0 < a := by linarith
  have hG := Real.Gamma_pos_of_pos (show 0 < a + 1 by linarith)
  rw [abs_le] at hg
  obtain ⟨h1, h2⟩ := hg
  norm_num at h1 h2 hp hp'
  have e1 : 0.0099 * Real.Gamma (a + 1) ≤ p * g1 := by
    norm_num
    nlinarith
  have e2 : p * g1 ≤ Real.Gamma (a + 1) := by nlinarith
  have e0 : 0 < p * g1 := lt_of_lt_of_le (by positivity) e1
  have l1 := Real.log_le_log (by positivity) e1
  rw [Real.log_mul (by norm_num) hG.ne'] at l1
  have l2 := Real.log_le_log e0 e2
  have l3 := log_gamma_ge a0
  have l4 := log_gamma_le a0
  have hs : 0 < (p * g1) ^ (1 / a) := Real.rpow_pos_of_pos e0 _
  have hl : a * Real.log ((p * g1) ^ (1 / a)) = Real.log (p * g1) := by
    rw [Real.log_rpow e0]; field_simp
  have hla : Real.log (a + 1) ≤ Real.log a + 1 / a := by
    have := Real.log_le_sub_one_of_pos (x := (a + 1) / a) (by positivity)
    rw [Real.log_div (by linarith) a0.ne'] at this
    have e : (a + 1) / a - 1 = 1 / a := by field_simp; ring
    linarith
  have hla' : Real.log a ≤ Real.log (a + 1) := Real.log_le_log a0 (by linarith)
  have n1 := log_three_ge
  have n2 := log_small_ge
  have n3 := log_ten_le
  have n4 := log_043_ge
  norm_num at n1 n2 n3 n4 l1
  refine ⟨?_, ?_, e0⟩
  · refine (Real.log_le_log_iff (by positivity) hs).1 (le_of_mul_le_mul_left ?_ a0)
    rw [hl, Real.log_div (by linarith) (by norm_num)]
    have h5 : a * Real.log (a + 1) ≤ a * Real.log a + 1 := by
      have := mul_le_mul_of_nonneg_left hla a0.le
      have e : a * (1 / a) = 1 := by field_simp
      linarith
    nlinarith
  · refine (Real.log_le_log_iff hs (by positivity)).1 (le_of_mul_le_mul_left ?_ a0)
    rw [hl, Real.log_mul (x := 0.43) (y := a + 1) (by norm_num) (by linarith)]
    have h6 : Real.log (10 / 9) ≤ 1 / 9 := by
      have := Real.log_le_sub_one_of_pos (x := (10 / 9 : ℝ)) (by norm_num)
      norm_num at this
      linarith
    have n5 : (0.43 : ℝ) = 43 / 100 := by norm_num
    rw [n5]
    have h7 := mul_le_mul_of_nonneg_left hla' a0.le
    have h8 := mul_le_mul_of_nonneg_left n4 a0.le
    have h9 := mul_le_mul_of_nonneg_left h6 a0.le
    nlinarith

/-- the denominator of the first Newton correction is small -/
theorem first_round {a p g g1 u : ℝ} (ha : 64 ≤ a) (hp : 0 < p) (hg0 : 0 < g)
    (hg : g1 ≤ 1.001 * a * g) (hu0 : 0 < u) (hua : u ^ a = p * g1)
    (h1 : (a + 1) / 3 ≤ u) (h2 : u ≤ 0.43 * (a + 1)) :
    (u / (1 - u / (a + 1))) ^ a * Real.exp (-(u / (1 - u / (a + 1)))) / g ≤ 0.21 * p := by
  have a0 : 0 < a := by linarith
  set v := u / (a + 1) with hv
  have hv1 : 1 / 3 ≤ v := by rw [hv, le_div_iff₀ (by linarith)]; linarith
  have hv2 : v ≤ 0.43 := by rw [hv, div_le_iff₀ (by linarith)]; linarith
  have hd : 0 < 1 - v := by norm_num at hv2; linarith
  set w := v / (1 - v) with hw
  have hw1 : 1 / 2 ≤ w := by rw [hw, le_div_iff₀ hd]; linarith
  have ew : 1 - v = 1 / (1 + w) := by rw [hw]; field_simp; ring
  have ex : u / (1 - v) = (a + 1) * w := by rw [hw, hv]; field_simp
  have hlog : Real.log (1 + w) ≤ 0.41 + (w - 1 / 2) * (2 / 3) := by
    have h3 := Real.log_le_sub_one_of_pos (x := (1 + w) / 1.5) (by positivity)
    rw [Real.log_div (by linarith) (by norm_num)] at h3
    have h4 := log_three_half_le
    norm_num at h3 h4 ⊢
    linarith
  have hpow : (u / (1 - v)) ^ a = p * g1 * (1 + w) ^ a := by
    rw [ew, div_div_eq_mul_div, div_one, Real.mul_rpow hu0.le (by linarith), hua]
  have hexp : (1 + w) ^ a * Real.exp (-(u / (1 - v))) ≤ Real.exp (-(0.09 * a)) := by
    rw [Real.rpow_def_of_pos (by linarith), ← Real.exp_add]
    refine Real.exp_le_exp.2 ?_
    rw [ex]
    norm_num at hlog ⊢
    nlinarith
  have h5 := mul_exp_le (c := 0.09) ha (by norm_num)
  have h6 : 64 * Real.exp (-(0.09 * 64)) ≤ 0.205 := by
    rw [Real.exp_neg, show (0.09 * 64 : ℝ) = 5 + 0.76 by norm_num, Real.exp_add, ← div_eq_mul_inv,
      div_le_iff₀ (by positivity)]
    have k1 := exp_ge_cubic (x := 0.76) (by norm_num)
    have k2 := Real.exp_one_gt_d9
    have k3 : Real.exp 5 = Real.exp 1 ^ 5 := by rw [← Real.exp_nat_mul]; norm_num
    have k4 : (2.718 : ℝ) ^ 5 ≤ Real.exp 1 ^ 5 := pow_le_pow_left₀ (by norm_num) (by linarith) 5
    rw [k3]
    have k5 := mul_le_mul k4 k1 (by norm_num) (by positivity)
    refine le_trans ?_ (mul_le_mul_of_nonneg_left k5 (by norm_num))
    norm_num
  rw [div_le_iff₀ hg0, hpow]
  set E := (1 + w) ^ a * Real.exp (-(u / (1 - v)))
  have hE0 : 0 ≤ E := by positivity
  calc p * g1 * (1 + w) ^ a * Real.exp (-(u / (1 - v))) = p * (g1 * E) := by simp only [E]; ring
    _ ≤ p * (1.001 * a * g * E) := by gcongr
    _ ≤ p * (1.001 * a * g * Real.exp (-(0.09 * a))) := by gcongr
    _ = p * g * 1.001 * (a * Real.exp (-(0.09 * a))) := by ring
    _ ≤ p * g * 1.001 * 0.205 := by
      have := h5.trans h6
      gcongr
    _ ≤ 0.21 * p * g := by
      have : 0 < p * g := by positivity
      norm_num
      nlinarith

/-- far beyond `a` the density is small -/
theorem second_round {a x : ℝ} (ha : 64 ≤ a) (hx : 2.5 * a ≤ x) :
    x ^ a * Real.exp (-x) ≤ 1e-5 * Real.Gamma a := by
  have a0 : 0 < a := by linarith
  have x0 : 0 < x := by norm_num at hx; linarith
  have hG := Real.Gamma_pos_of_pos a0
  have h1 := log_gamma_ge a0
  rw [Real.Gamma_add_one a0.ne', Real.log_mul a0.ne' hG.ne'] at h1
  have h2 : Real.log x ≤ Real.log a + x / (2.5 * a) := by
    have h3 := Real.log_le_sub_one_of_pos (x := x / a / 2.5) (by positivity)
    rw [Real.log_div (by positivity) (by norm_num), Real.log_div x0.ne' a0.ne'] at h3
    have h4 := log_five_half_le
    have e : x / a / 2.5 = x / (2.5 * a) := by field_simp
    rw [e] at h3
    linarith
  have h5 : a * Real.log x ≤ a * Real.log a + x / 2.5 := by
    have := mul_le_mul_of_nonneg_left h2 a0.le
    have e : a * (x / (2.5 * a)) = x / 2.5 := by field_simp
    linarith
  have h6 := mul_exp_le (c := 1 / 2) ha (by norm_num)
  have h7 : 64 * Real.exp (-(1 / 2 * 64)) ≤ 1e-5 := by
    rw [Real.exp_neg, ← div_eq_mul_inv, div_le_iff₀ (by positivity)]
    have k2 := Real.exp_one_gt_d9
    have k3 : Real.exp (1 / 2 * 64) = Real.exp 1 ^ 32 := by rw [← Real.exp_nat_mul]; norm_num
    have k4 : (2.7 : ℝ) ^ 32 ≤ Real.exp 1 ^ 32 := pow_le_pow_left₀ (by norm_num) (by linarith) 32
    rw [k3]
    refine le_trans ?_ (mul_le_mul_of_nonneg_left k4 (by norm_num))
    norm_num
  have h8 : x ^ a * Real.exp (-x) ≤ Real.exp (-(1 / 2 * a)) * (a * Real.Gamma a) := by
    rw [Real.rpow_def_of_pos x0, ← Real.exp_add, ← Real.exp_log (mul_pos a0 hG), ← Real.exp_add,
      Real.log_mul a0.ne' hG.ne']
    refine Real.exp_le_exp.2 ?_
    norm_num at hx h5
    linarith
  calc x ^ a * Real.exp (-x) ≤ (a * Real.exp (-(1 / 2 * a))) * Real.Gamma a := by linarith
    _ ≤ 1e-5 * Real.Gamma a := by
      have := h6.trans h7
      gcongr

set_option maxHeartbeats 4000000 in
/-- **C49** is violated for large `a`: for every `a` from 64 to `10⁹` and every probability from 0.01 to 0.99
`gamma_ur_inv` gives no result.  The first Newton step jumps beyond `2.5 a`, the second one to a negative number, for which the
Rust code panics (in `r` or `gamma_lr`). -/
theorem C49_ur_inv_violated (fuel : ℕ) {a q : ℝ} (ha : 64 ≤ a) (ha9 : a ≤ 10 ^ 9) (hq : 0.01 ≤ q) (hq' : q ≤ 0.99) :
    gammaUrInv fuel a q = none := by
  rw [Option.eq_none_iff_forall_ne_some]
  intro y h
  have a0 : 0 < a := by linarith
  norm_num at hq hq'
  obtain ⟨g, hg, g0, hgG⟩ := Stat.gamma_close a0
  obtain ⟨g1, hg1, -, hgG1⟩ := Stat.gamma_close (show 0 < a + 1 by linarith)
  have hG := Real.Gamma_pos_of_pos a0
  have hG720 : 720 ≤ Real.Gamma a := by
    have h7 : Real.Gamma 7 = 720 := by
      have := Real.Gamma_nat_eq_factorial 6
      rw [show ((6 : ℕ) : ℝ) + 1 = 7 by norm_num, show Nat.factorial 6 = 720 from rfl] at this
      rw [this]; norm_num
    rw [← h7]
    exact Real.Gamma_strictMonoOn_Ici.monotoneOn (by simp; norm_num) (by simp; linarith) (by linarith)
  obtain ⟨b1, b2, b0⟩ := start_bounds (p := 1 - q) ha (by norm_num; linarith) (by norm_num; linarith) hgG1
  have hgG' := hgG
  have hgG1' := hgG1
  rw [abs_le] at hgG' hgG1'
  obtain ⟨c1, c2⟩ := hgG'
  obtain ⟨c3, c4⟩ := hgG1'
  rw [Real.Gamma_add_one a0.ne'] at c3 c4
  norm_num at c1 c2 c3 c4
  set u := ((1 - q) * g1) ^ (1 / a) with hu
  have hu0 : 0 < u := lt_of_lt_of_le (by linarith) b1
  have hv : u / (a + 1) ≤ 0.43 := by rw [div_le_iff₀ (by linarith)]; linarith
  have hd : 0 < 1 - u / (a + 1) := by norm_num at hv; linarith
  -- the start value
  have hstart : urInvStart a q = some (u / (1 - u / (a + 1))) := by
    have k1 : 0.6 < q * g := by norm_num; nlinarith
    have k2 : q * g * q > 1.0e-8 := by norm_num; nlinarith
    simp only [urInvStart, hg, hg1, Option.bind_eq_bind, Option.bind_some, k1, true_or, if_true, if_pos k2,
      if_neg (not_lt.2 b0.le)]
    exact div_of_ne hd.ne'
  have ha1 : a ≠ 1 := by linarith
  simp only [gammaUrInv, if_neg ha1, hstart, Option.bind_eq_bind, Option.bind_some] at h
  set x := u / (1 - u / (a + 1)) with hx
  have hx0 : 0 < x := div_pos hu0 hd
  have hxl : a / 2 ≤ x := by
    rw [hx, le_div_iff₀ hd]
    have e : a / 2 * (1 - u / (a + 1)) ≤ a / 2 * (2 / 3) := by
      refine mul_le_mul_of_nonneg_left ?_ (by linarith)
      have : 1 / 3 ≤ u / (a + 1) := by rw [le_div_iff₀ (by linarith)]; linarith
      linarith
    linarith
  have hxu : x ≤ a - 10 := by
    rw [hx, div_le_iff₀ hd]
    have e : (a - 10) * (57 / 100) ≤ (a - 10) * (1 - u / (a + 1)) := by
      refine mul_le_mul_of_nonneg_left ?_ (by linarith)
      norm_num at hv; linarith
    norm_num at b2
    linarith
  -- first round
  have hρ : x ^ a * Real.exp (-x) / g ≤ 0.21 * (1 - q) := by
    refine first_round (g1 := g1) ha (by linarith) g0 ?_ hu0 ?_ b1 b2
    · norm_num; nlinarith
    · rw [hu, ← Real.rpow_mul b0.le, one_div_mul_cancel a0.ne', Real.rpow_one]
  set ρ := x ^ a * Real.exp (-x) / g with hρd
  have hρ0 : 0 < ρ := by
    have := Real.rpow_pos_of_pos hx0 a
    positivity
  obtain ⟨g', l, hg', hl, hnext⟩ := urInvLoop_succ h
  obtain rfl : g = g' := by rw [hg] at hg'; exact Option.some.inj hg'
  have hacc := C49_accuracy_abs fuel a x l a0 ha9 hx0 hl
  have hlt : l ≤ 0.05 * (1 - q) := by
    change |l - gInt a x / Real.Gamma a| ≤ _ at hacc
    have h1 := gInt_le a0 hx0.le (by linarith)
    have h2 : x ^ a * Real.exp (-x) = ρ * g := by rw [hρd]; field_simp
    have h3 := gInt_nonneg (a := a) hx0.le
    have h4 : gInt a x / Real.Gamma a ≤ 0.022 * (1 - q) := by
      rw [div_le_iff₀ hG]
      norm_num at hρ ⊢
      have h5 : 10 * gInt a x ≤ (a - x) * gInt a x := mul_le_mul_of_nonneg_right (by linarith) h3
      have h6 : ρ * g ≤ 21 / 100 * (1 - q) * g := mul_le_mul_of_nonneg_right hρ g0.le
      have h7 : 21 / 100 * (1 - q) * g ≤ 21 / 100 * (1 - q) * (1.01 * Real.Gamma a) :=
        mul_le_mul_of_nonneg_left (by norm_num; linarith) (by nlinarith)
      have h8 : 0 ≤ (1 - q) * Real.Gamma a := mul_nonneg (by linarith) hG.le
      norm_num at h7
      nlinarith
    have h9 := (abs_le.1 hacc).2
    have h10 : 1.2e-200 / max a x ≤ 1e-6 := by
      rw [div_le_iff₀ (lt_max_of_lt_left a0)]
      have : 64 ≤ max a x := le_max_of_le_left ha
      norm_num
      linarith
    norm_num at h4 h9 h10 ⊢
    linarith
  have ht : (l - (1 - q)) / ρ ≤ -(9 / 2) := by
    rw [div_le_iff₀ hρ0]
    norm_num at hlt hρ ⊢
    linarith
  have hcorr : urCorr a q g l x = (l - (1 - q)) / ρ := urCorr_large (by
    rw [← hρd, abs_of_nonpos (by linarith)]
    norm_num1; linarith)
  have h2 := hnext (by
    rw [hcorr, abs_of_nonpos (by linarith)]
    norm_num1; linarith)
  rw [hcorr] at h2
  -- second round
  set z := x * (1 - (l - (1 - q)) / ρ) with hz
  have hz1 : 2.5 * a ≤ z := by
    rw [hz]
    norm_num1
    nlinarith
  have hz0 : 0 < z := by norm_num at hz1; linarith
  have hr2 := second_round ha hz1
  obtain ⟨g', l2, hg', hl2, hnext2⟩ := urInvLoop_succ h2
  obtain rfl : g = g' := by rw [hg] at hg'; exact Option.some.inj hg'
  have hacc2 := C49_accuracy_abs fuel a z l2 a0 ha9 hz0 hl2
  have hl2' : 0.999 ≤ l2 := by
    change |l2 - gInt a z / Real.Gamma a| ≤ _ at hacc2
    have h1 := uInt_le (a := a) hz0 (by norm_num at hz1; linarith)
    have h3 := gInt_add_uInt a0 hz0
    have h4 : 0.9999 ≤ gInt a z / Real.Gamma a := by
      rw [le_div_iff₀ hG]
      have h5 : 1 + 1 / z ≤ 2 := by
        have : 1 / z ≤ 1 := by rw [div_le_one hz0]; norm_num at hz1; linarith
        linarith
      have h6 : z ^ a * Real.exp (-z) * (1 + 1 / z) ≤ (1e-5 * Real.Gamma a) * 2 :=
        mul_le_mul hr2 h5 (by positivity) (by positivity)
      have h7 := h1.trans h6
      norm_num at h7 ⊢
      linarith
    have h9 := (abs_le.1 hacc2).1
    have h10 : 1.2e-200 / max a z ≤ 1e-6 := by
      rw [div_le_iff₀ (lt_max_of_lt_left a0)]
      have : 64 ≤ max a z := le_max_of_le_left ha
      norm_num
      linarith
    norm_num at h4 h9 h10 ⊢
    linarith
  have hρ2 : z ^ a * Real.exp (-z) / g ≤ 2e-5 := by
    rw [div_le_iff₀ g0]
    norm_num at hr2 ⊢
    linarith
  set ρ2 := z ^ a * Real.exp (-z) / g with hρ2d
  have hρ20 : 0 < ρ2 := by
    have := Real.rpow_pos_of_pos hz0 a
    positivity
  have ht2 : 2 ≤ (l2 - (1 - q)) / ρ2 := by
    rw [le_div_iff₀ hρ20]
    norm_num at hl2' hρ2 ⊢
    linarith
  have hcorr2 : urCorr a q g l2 z = (l2 - (1 - q)) / ρ2 := urCorr_large (by
    rw [← hρ2d, abs_of_nonneg (by linarith)]
    norm_num1; linarith)
  have h3 := hnext2 (by
    rw [hcorr2, abs_of_nonneg (by linarith)]
    norm_num1; linarith)
  rw [hcorr2] at h3
  -- third round
  obtain ⟨-, l3, -, hl3, -⟩ := urInvLoop_succ h3
  rw [(C49_terminates a _ a0).1 (by nlinarith) fuel] at hl3
  cases hl3

end Special

namespace Stat
open Special

/-- **C72** is violated by `quantile` for every number of degrees of freedom from 128 to two thousand millions and every
probability from 0.01 to 0.99: the Rust code panics (`C49_ur_inv_violated`). -/
theorem C72_quantile_violated (fuel : ℕ) {k : ℕ} (hk : 128 ≤ k) (hk' : k ≤ 2 * 10 ^ 9) {p : ℝ} (hp : 0.01 ≤ p)
    (hp' : p ≤ 0.99) : chiQuantile fuel k p = none := by
  have h1 : (128 : ℝ) ≤ k := by exact_mod_cast hk
  have h2 : (k : ℝ) ≤ 2 * 10 ^ 9 := by exact_mod_cast hk'
  have := C49_ur_inv_violated fuel (a := (k : ℝ) / 2) (q := 1 - p) (by linarith) (by linarith)
    (by norm_num at hp' ⊢; linarith) (by norm_num at hp ⊢; linarith)
  simp [chiQuantile, this]

/-- the median of the χ² distribution with 200 degrees of freedom -/
example (fuel : ℕ) : chiQuantile fuel 200 0.5 = none := C72_quantile_violated fuel (by norm_num) (by norm_num) (by norm_num) (by norm_num)

end Stat
end Verif
