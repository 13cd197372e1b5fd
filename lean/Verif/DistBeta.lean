import Verif.DistChi
import Verif.BetaAcc
import Mathlib.Probability.Distributions.Beta

/-!
# C51 (unregularised incomplete beta function) and C73 (beta distribution)
-/

namespace Verif
namespace Stat
open Special MeasureTheory Set Filter Topology

/-! ## The beta integral -/

theorem bt_integrable {p q : ℝ} (hp : 0 < p) (hq : 0 < q) :
    IntervalIntegrable (fun t : ℝ => t ^ (p - 1) * (1 - t) ^ (q - 1)) volume 0 1 := by
  have h1 : IntervalIntegrable (fun t : ℝ => t ^ (p - 1) * (1 - t) ^ (q - 1)) volume 0 (1 / 2) :=
    bx_integrable (by norm_num) (by norm_num) hp (q - 1)
  have h2 : IntervalIntegrable (fun t : ℝ => t ^ (q - 1) * (1 - t) ^ (p - 1)) volume 0 (1 / 2) :=
    bx_integrable (by norm_num) (by norm_num) hq (p - 1)
  have h3 := (h2.comp_sub_left 1).symm
  have e : (fun t : ℝ => (1 - t) ^ (q - 1) * (1 - (1 - t)) ^ (p - 1)) = fun t : ℝ => t ^ (p - 1) * (1 - t) ^ (q - 1) := by
    ext t; rw [sub_sub_cancel, mul_comm]
  rw [e] at h3
  norm_num at h1 h3
  exact h1.trans h3

theorem bt_integral {p q : ℝ} (hp : 0 < p) (hq : 0 < q) :
    ∫ t in (0 : ℝ)..1, t ^ (p - 1) * (1 - t) ^ (q - 1) = Real.Gamma p * Real.Gamma q / Real.Gamma (p + q) := by
  have h := ProbabilityTheory.beta_eq_betaIntegralReal p q hp hq
  rw [ProbabilityTheory.beta] at h
  rw [h, Complex.betaIntegral]
  have e : ∫ x in (0 : ℝ)..1, (x : ℂ) ^ ((p : ℂ) - 1) * (1 - (x : ℂ)) ^ ((q : ℂ) - 1)
      = ∫ x in (0 : ℝ)..1, ((x ^ (p - 1) * (1 - x) ^ (q - 1) : ℝ) : ℂ) := by
    refine intervalIntegral.integral_congr fun x hx => ?_
    rw [uIcc_of_le zero_le_one] at hx
    have h1 : (0 : ℝ) ≤ 1 - x := by linarith [hx.2]
    push_cast
    rw [Complex.ofReal_cpow hx.1, Complex.ofReal_cpow h1]
    push_cast
    rfl
  rw [e, intervalIntegral.integral_ofReal, Complex.ofReal_re]

/-- the density of the beta distribution -/
noncomputable def betaDens (p q x : ℝ) : ℝ :=
  x ^ (p - 1) * (1 - x) ^ (q - 1) / (Real.Gamma p * Real.Gamma q / Real.Gamma (p + q))

theorem beta_moment {p q : ℝ} (hp : 0 < p) (hq : 0 < q) (k : ℕ) :
    IntervalIntegrable (fun x : ℝ => x ^ k * betaDens p q x) volume 0 1 ∧
    ∫ x in (0 : ℝ)..1, x ^ k * betaDens p q x
      = Real.Gamma (p + k) * Real.Gamma (p + q) / (Real.Gamma (p + k + q) * Real.Gamma p) := by
  have hG := (Real.Gamma_pos_of_pos hp).ne'
  have hG2 := (Real.Gamma_pos_of_pos hq).ne'
  have hG3 := (Real.Gamma_pos_of_pos (by linarith : 0 < p + q)).ne'
  have hk : 0 < p + k := by positivity
  have e : ∀ x ∈ uIoc (0 : ℝ) 1, (Real.Gamma (p + q) / (Real.Gamma p * Real.Gamma q))
      * (x ^ (p + k - 1) * (1 - x) ^ (q - 1)) = x ^ k * betaDens p q x := by
    intro x hx
    rw [uIoc_of_le zero_le_one] at hx
    rw [show p + k - 1 = (p - 1) + k by ring, Real.rpow_add hx.1, Real.rpow_natCast, betaDens]
    field_simp
  refine ⟨((bt_integrable hk hq).const_mul _).congr e, ?_⟩
  rw [← intervalIntegral.integral_congr_ae (ae_of_all _ e), intervalIntegral.integral_const_mul, bt_integral hk hq]
  field_simp

theorem beta_integral_one {p q : ℝ} (hp : 0 < p) (hq : 0 < q) : ∫ x in (0 : ℝ)..1, betaDens p q x = 1 := by
  have := (beta_moment hp hq 0).2
  have hG := (Real.Gamma_pos_of_pos hp).ne'
  have hG3 := (Real.Gamma_pos_of_pos (by linarith : 0 < p + q)).ne'
  simp only [pow_zero, one_mul, Nat.cast_zero, add_zero] at this
  rw [this]
  field_simp

theorem beta_moment1 {p q : ℝ} (hp : 0 < p) (hq : 0 < q) :
    ∫ x in (0 : ℝ)..1, x ^ 1 * betaDens p q x = p / (p + q) := by
  have hG := (Real.Gamma_pos_of_pos hp).ne'
  have hpq : 0 < p + q := by linarith
  have hG3 := (Real.Gamma_pos_of_pos hpq).ne'
  rw [(beta_moment hp hq 1).2]
  push_cast
  rw [show p + 1 + q = p + q + 1 by ring, Real.Gamma_add_one hp.ne', Real.Gamma_add_one hpq.ne']
  field_simp

theorem beta_moment2 {p q : ℝ} (hp : 0 < p) (hq : 0 < q) :
    ∫ x in (0 : ℝ)..1, x ^ 2 * betaDens p q x = p * (p + 1) / ((p + q) * (p + q + 1)) := by
  have hG := (Real.Gamma_pos_of_pos hp).ne'
  have hpq : 0 < p + q := by linarith
  have hG3 := (Real.Gamma_pos_of_pos hpq).ne'
  rw [(beta_moment hp hq 2).2]
  push_cast
  rw [show p + 2 + q = (p + q + 1) + 1 by ring, show p + 2 = (p + 1) + 1 by ring,
    Real.Gamma_add_one (by positivity : p + 1 ≠ 0), Real.Gamma_add_one (by positivity : p + q + 1 ≠ 0),
    Real.Gamma_add_one hp.ne', Real.Gamma_add_one hpq.ne']
  field_simp

theorem beta_moment3 {p q : ℝ} (hp : 0 < p) (hq : 0 < q) :
    ∫ x in (0 : ℝ)..1, x ^ 3 * betaDens p q x
      = p * (p + 1) * (p + 2) / ((p + q) * (p + q + 1) * (p + q + 2)) := by
  have hG := (Real.Gamma_pos_of_pos hp).ne'
  have hpq : 0 < p + q := by linarith
  have hG3 := (Real.Gamma_pos_of_pos hpq).ne'
  rw [(beta_moment hp hq 3).2]
  push_cast
  rw [show p + 3 + q = ((p + q + 1) + 1) + 1 by ring, show p + 3 = ((p + 1) + 1) + 1 by ring,
    Real.Gamma_add_one (by positivity), Real.Gamma_add_one (by positivity), Real.Gamma_add_one hp.ne',
    Real.Gamma_add_one (by positivity : p + q + 1 + 1 ≠ 0), Real.Gamma_add_one (by positivity : p + q + 1 ≠ 0),
    Real.Gamma_add_one hpq.ne', show p + 1 + 1 = p + 2 by ring, show p + q + 1 + 1 = p + q + 2 by ring]
  field_simp

theorem beta_central2 {p q : ℝ} (hp : 0 < p) (hq : 0 < q) :
    ∫ x in (0 : ℝ)..1, (x - p / (p + q)) ^ 2 * betaDens p q x = p * q / ((p + q + 1) * (p + q) ^ 2) := by
  have h0 := beta_moment hp hq 0
  have h1 := beta_moment hp hq 1
  have h2 := beta_moment hp hq 2
  have e : (fun x : ℝ => (x - p / (p + q)) ^ 2 * betaDens p q x) = fun x =>
      x ^ 2 * betaDens p q x - 2 * (p / (p + q)) * (x ^ 1 * betaDens p q x)
        + (p / (p + q)) ^ 2 * (x ^ 0 * betaDens p q x) := by
    ext x; ring
  have i1 := h1.1.const_mul (2 * (p / (p + q)))
  have i0 := h0.1.const_mul ((p / (p + q)) ^ 2)
  rw [e, intervalIntegral.integral_add (h2.1.sub i1) i0, intervalIntegral.integral_sub h2.1 i1,
    intervalIntegral.integral_const_mul, intervalIntegral.integral_const_mul, beta_moment1 hp hq, beta_moment2 hp hq]
  simp only [pow_zero, one_mul]
  rw [beta_integral_one hp hq]
  field_simp
  ring

theorem beta_central3 {p q : ℝ} (hp : 0 < p) (hq : 0 < q) :
    ∫ x in (0 : ℝ)..1, (x - p / (p + q)) ^ 3 * betaDens p q x
      = 2 * p * q * (q - p) / ((p + q) ^ 3 * (p + q + 1) * (p + q + 2)) := by
  have h0 := beta_moment hp hq 0
  have h1 := beta_moment hp hq 1
  have h2 := beta_moment hp hq 2
  have h3 := beta_moment hp hq 3
  have e : (fun x : ℝ => (x - p / (p + q)) ^ 3 * betaDens p q x) = fun x =>
      (x ^ 3 * betaDens p q x - 3 * (p / (p + q)) * (x ^ 2 * betaDens p q x))
        + (3 * (p / (p + q)) ^ 2 * (x ^ 1 * betaDens p q x) - (p / (p + q)) ^ 3 * (x ^ 0 * betaDens p q x)) := by
    ext x; ring
  have i2 := h2.1.const_mul (3 * (p / (p + q)))
  have i1 := h1.1.const_mul (3 * (p / (p + q)) ^ 2)
  have i0 := h0.1.const_mul ((p / (p + q)) ^ 3)
  rw [e, intervalIntegral.integral_add (h3.1.sub i2) (i1.sub i0), intervalIntegral.integral_sub h3.1 i2,
    intervalIntegral.integral_sub i1 i0, intervalIntegral.integral_const_mul, intervalIntegral.integral_const_mul,
    intervalIntegral.integral_const_mul, beta_moment1 hp hq, beta_moment2 hp hq, beta_moment3 hp hq]
  simp only [pow_zero, one_mul]
  rw [beta_integral_one hp hq]
  field_simp
  ring

/-! ## C51, `beta_inc` -/

end Stat

namespace Special
open MeasureTheory Set

/-- **C51**, the unregularised function: `beta_inc x a b` is the incomplete beta integral, with the relative error
`1e-15 (b + 1 + a / b)` below the mean `a / (a + b)`; above it the error is at most `2e-11` times the complete beta
function plus `1e-15 (a + 1 + b / a)` times the difference to the computed complete function. -/
theorem C51_beta_inc (lo : ℤ) (n : ℕ) (x a b v : ℝ) (ha : 0 < a) (hb : 0 < b) (hx0 : 0 < x) (hx1 : x < 1)
    (hsat : a + b < 2 ^ 30 - 1) (hv : betaInc lo n x a b = some v) :
    (x ≤ a / (a + b) → |v - ∫ t in (0 : ℝ)..x, t ^ (a - 1) * (1 - t) ^ (b - 1)| ≤ 1e-15 * (b + 1 + a / b) * v) ∧
    (a / (a + b) < x → ∃ B, beta a b = some B ∧
      |v - ∫ t in (0 : ℝ)..x, t ^ (a - 1) * (1 - t) ^ (b - 1)|
        ≤ 2e-11 * (Real.Gamma a * Real.Gamma b / Real.Gamma (a + b)) + 1e-15 * (a + 1 + b / a) * (B - v)) := by
  unfold betaInc at hv
  obtain ⟨B, hB, hacc⟩ := C48_beta_accuracy a b ha hb
  cases hw : betaIncReg lo n x a b with
  | none => rw [hB, hw] at hv; simp at hv
  | some w =>
    rw [hB, hw] at hv
    obtain rfl := Option.some.inj hv
    obtain ⟨B', hB', hB0, h1, h2⟩ := C51_accuracy lo n x a b w ha hb hx0 hx1 hsat hw
    obtain rfl : B = B' := by rw [hB] at hB'; exact Option.some.inj hB'
    refine ⟨fun h => ?_, fun h => ⟨B, hB, ?_⟩⟩
    · have := h1 h
      rwa [mul_comm w B] at this
    · have h3 := h2 h
      have hi := Stat.bt_integrable ha hb
      have hs1 : uIcc 0 x ⊆ uIcc (0 : ℝ) 1 := by
        rw [uIcc_of_le hx0.le, uIcc_of_le zero_le_one]; exact Icc_subset_Icc le_rfl hx1.le
      have hs2 : uIcc x 1 ⊆ uIcc (0 : ℝ) 1 := by
        rw [uIcc_of_le hx1.le, uIcc_of_le zero_le_one]; exact Icc_subset_Icc hx0.le le_rfl
      have hsplit := intervalIntegral.integral_add_adjacent_intervals (hi.mono_set hs1) (hi.mono_set hs2)
      rw [Stat.bt_integral ha hb] at hsplit
      set I := ∫ t in (0 : ℝ)..x, t ^ (a - 1) * (1 - t) ^ (b - 1)
      set J := ∫ t in x..1, t ^ (a - 1) * (1 - t) ^ (b - 1)
      set G := Real.Gamma a * Real.Gamma b / Real.Gamma (a + b)
      have e : B * w - I = (B - G) - ((1 - w) * B - J) := by linarith
      rw [e]
      refine (abs_sub _ _).trans ?_
      have e2 : (1 - w) * B = B - B * w := by ring
      rw [e2] at h3 ⊢
      linarith

/-- `B_{1/2}(1, 1) = 1/2` -/
example (lo : ℤ) (n : ℕ) (v : ℝ) (hv : betaInc lo n (1 / 2) 1 1 = some v) : |v - 1 / 2| ≤ 3e-15 * v := by
  have h := (C51_beta_inc lo n (1 / 2) 1 1 v one_pos one_pos (by norm_num) (by norm_num) (by norm_num) hv).1
    (by norm_num)
  norm_num at h ⊢
  linarith

end Special

namespace Stat
open Special MeasureTheory Set Filter Topology

/-! ## C73 -/

/-- **C73**, construction (partial): `new` panics exactly for `p < 0` or `q ≤ 0`.  Missing: the panic for `p = 0`
(`C73_new_violated`). -/
theorem C73_new_partial (p q : ℝ) : betaNew p q = none ↔ p < 0 ∨ q ≤ 0 := by
  unfold betaNew; split_ifs with h <;> simp [h]

/-- C73 is violated: the documentation says that `new` panics for `p ≤ 0`, but `p = 0` is accepted, for which there is
no beta distribution; `pdf` has no finite value on `[0, 1]` then. -/
theorem C73_new_violated (q : ℝ) (hq : 0 < q) :
    betaNew 0 q = some (0, q) ∧ ∀ x, 0 ≤ x → x ≤ 1 → betaPdf (0, q) x = none := by
  refine ⟨by simp [betaNew, not_le.2 hq], fun x h0 h1 => ?_⟩
  have hb : beta 0 q = none := by simp [beta, gamma]
  simp only [betaPdf, not_lt.2 h0, not_lt.2 h1, if_false, hb, Option.bind_eq_bind, Option.bind_none]
  cases R.powf x (0 - 1) <;> cases R.powf (1 - x) (q - 1) <;> rfl

theorem betaNew_some {p q : ℝ} {d : ℝ × ℝ} (h : betaNew p q = some d) (hp : p ≠ 0) : d = (p, q) ∧ 0 < p ∧ 0 < q := by
  unfold betaNew at h
  split_ifs at h with h1
  push Not at h1
  exact ⟨(Option.some.inj h).symm, lt_of_le_of_ne h1.1 hp.symm, h1.2⟩

/-- **C73**, density: for `0 < x < 1` the value is `x^(p-1) (1-x)^(q-1) Γ(p+q) / (Γ(p) Γ(q))` up to a relative error of
`3e-11`; negative arguments panic. -/
theorem C73_pdf {p q : ℝ} {d : ℝ × ℝ} (h : betaNew p q = some d) (hp0 : p ≠ 0) (x : ℝ) :
    (x < 0 → betaPdf d x = none) ∧
    (0 < x → x < 1 → ∃ v, betaPdf d x = some v ∧
      |v - x ^ (p - 1) * (1 - x) ^ (q - 1) / (Real.Gamma p * Real.Gamma q / Real.Gamma (p + q))|
        ≤ 3e-11 * (x ^ (p - 1) * (1 - x) ^ (q - 1) / (Real.Gamma p * Real.Gamma q / Real.Gamma (p + q)))) := by
  obtain ⟨rfl, hp, hq⟩ := betaNew_some h hp0
  refine ⟨fun hx => by simp [betaPdf, hx], fun hx0 hx1 => ?_⟩
  obtain ⟨B, hB, hacc⟩ := C48_beta_accuracy p q hp hq
  have hG : 0 < Real.Gamma p * Real.Gamma q / Real.Gamma (p + q) := by
    have := Real.Gamma_pos_of_pos hp
    have := Real.Gamma_pos_of_pos hq
    have := Real.Gamma_pos_of_pos (by linarith : 0 < p + q)
    positivity
  set G := Real.Gamma p * Real.Gamma q / Real.Gamma (p + q)
  have hx1' : 0 < 1 - x := by linarith
  rw [abs_le] at hacc
  obtain ⟨h1, h2⟩ := hacc
  norm_num at h1 h2
  have hB0 : 0 < B := by linarith
  have hw : 0 < x ^ (p - 1) * (1 - x) ^ (q - 1) :=
    mul_pos (Real.rpow_pos_of_pos hx0 _) (Real.rpow_pos_of_pos hx1' _)
  refine ⟨x ^ (p - 1) * (1 - x) ^ (q - 1) / B, ?_, ?_⟩
  · simp only [betaPdf, not_lt.2 hx0.le, not_lt.2 hx1.le, if_false, powf_pos hx0, powf_pos hx1', hB, R.div,
      hB0.ne', Option.bind_eq_bind, Option.bind_some]
  · set w := x ^ (p - 1) * (1 - x) ^ (q - 1)
    have e : w / B - w / G = (w / G) * ((G - B) / B) := by field_simp
    rw [e, abs_mul, abs_of_nonneg (by positivity : 0 ≤ w / G), mul_comm (3e-11)]
    refine mul_le_mul_of_nonneg_left ?_ (by positivity)
    rw [abs_div, abs_of_pos hB0, div_le_iff₀ hB0, abs_le]
    constructor <;> (norm_num; linarith)

/-- C73 is violated by `pdf` above 1: the density is 0 there, but the value is 1 everywhere. -/
theorem C73_pdf_violated (d : ℝ × ℝ) (x : ℝ) (hx : 1 < x) : betaPdf d x = some 1 := by
  have : ¬ x < 0 := by push Not; linarith
  simp [betaPdf, this, hx]

/-- **C73**, moments: the density integrates to one over `[0, 1]`, and `mean`, `variance` and `skewness` are the mean,
the variance and the third standardised moment. -/
theorem C73_moments {p q : ℝ} {d : ℝ × ℝ} (h : betaNew p q = some d) (hp0 : p ≠ 0) (f : ℝ → ℝ)
    (hf : ∀ x, f x = x ^ (p - 1) * (1 - x) ^ (q - 1) / (Real.Gamma p * Real.Gamma q / Real.Gamma (p + q))) :
    IntervalIntegrable f volume 0 1 ∧ ∫ x in (0 : ℝ)..1, f x = 1 ∧ ∫ x in (0 : ℝ)..1, x * f x = betaMean d ∧
    ∫ x in (0 : ℝ)..1, (x - betaMean d) ^ 2 * f x = betaVariance d ∧
    some (∫ x in (0 : ℝ)..1, ((x - betaMean d) / √(betaVariance d)) ^ 3 * f x) = betaSkewness d := by
  obtain ⟨rfl, hp, hq⟩ := betaNew_some h hp0
  obtain rfl : f = betaDens p q := funext hf
  refine ⟨by simpa using (beta_moment hp hq 0).1, beta_integral_one hp hq, by simpa [betaMean] using beta_moment1 hp hq,
    beta_central2 hp hq, ?_⟩
  have hpq : 0 < p + q := by linarith
  have hs1 : 0 < √(p + q + 1) := Real.sqrt_pos.2 (by linarith)
  have hs2 : 0 < √(q * p) := Real.sqrt_pos.2 (by positivity)
  have hs : √(p * q / ((p + q + 1) * (p + q) ^ 2)) = √(q * p) / (√(p + q + 1) * (p + q)) := by
    rw [Real.sqrt_div (by positivity), Real.sqrt_mul (by linarith : 0 ≤ p + q + 1), Real.sqrt_sq hpq.le, mul_comm p q]
  have hne : (p + q + 2) * √(q * p) ≠ 0 := by positivity
  simp only [betaMean, betaVariance, betaSkewness, R.div, hne, if_false, Option.some.injEq]
  have e : ∀ x : ℝ, ((x - p / (p + q)) / √(p * q / ((p + q + 1) * (p + q) ^ 2))) ^ 3 * betaDens p q x
      = (√(p + q + 1) * (p + q) / √(q * p)) ^ 3 * ((x - p / (p + q)) ^ 3 * betaDens p q x) := by
    intro x
    rw [hs]
    field_simp
  simp_rw [e]
  rw [intervalIntegral.integral_const_mul, beta_central3 hp hq]
  have h1 : √(p + q + 1) ^ 3 = (p + q + 1) * √(p + q + 1) := by rw [pow_succ, Real.sq_sqrt (by linarith)]
  have h2 : √(q * p) ^ 3 = (q * p) * √(q * p) := by rw [pow_succ, Real.sq_sqrt (by positivity)]
  rw [div_pow, mul_pow, h1, h2]
  field_simp

/-- **C73**, distribution function: a value of `cdf` at `0 < x < 1` is the integral of the density from 0 to `x` up to
`2 ε` with `ε = 1.1e-15 (p + q + 1 + p / q + q / p) + 2e-11`, if `ε ≤ 1/2`; `cdf` is 0 at 0 and 1 at 1. -/
theorem C73_cdf {p q : ℝ} {d : ℝ × ℝ} (h : betaNew p q = some d) (hp0 : p ≠ 0) (lo : ℤ) (n : ℕ) (x v : ℝ)
    (hx0 : 0 < x) (hx1 : x < 1) (hsat : p + q < 2 ^ 30 - 1) (hv : betaCdf lo n d x = some v) (ε : ℝ)
    (hε : ε = 1.1e-15 * (p + q + 1 + p / q + q / p) + 2e-11) (hε2 : ε ≤ 1 / 2) :
    betaCdf lo n d 0 = some 0 ∧ betaCdf lo n d 1 = some 1 ∧
    |v - ∫ t in (0 : ℝ)..x, t ^ (p - 1) * (1 - t) ^ (q - 1) / (Real.Gamma p * Real.Gamma q / Real.Gamma (p + q))|
      ≤ 2 * ε := by
  obtain ⟨rfl, hp, hq⟩ := betaNew_some h hp0
  refine ⟨((C51_domain lo n 0 p q).2 hp hq).1, ((C51_domain lo n 0 p q).2 hp hq).2, ?_⟩
  have hacc := C51_accuracy_true lo n x p q v hp hq hx0 hx1 hsat hv
  have hG : 0 < Real.Gamma p * Real.Gamma q / Real.Gamma (p + q) := by
    have := Real.Gamma_pos_of_pos hp
    have := Real.Gamma_pos_of_pos hq
    have := Real.Gamma_pos_of_pos (by linarith : 0 < p + q)
    positivity
  have hi := bt_integrable hp hq
  have hs1 : uIcc 0 x ⊆ uIcc (0 : ℝ) 1 := by
    rw [uIcc_of_le hx0.le, uIcc_of_le zero_le_one]; exact Icc_subset_Icc le_rfl hx1.le
  have hs2 : uIcc x 1 ⊆ uIcc (0 : ℝ) 1 := by
    rw [uIcc_of_le hx1.le, uIcc_of_le zero_le_one]; exact Icc_subset_Icc hx0.le le_rfl
  have hsplit := intervalIntegral.integral_add_adjacent_intervals (hi.mono_set hs1) (hi.mono_set hs2)
  rw [bt_integral hp hq] at hsplit
  have hI0 : 0 ≤ ∫ t in (0 : ℝ)..x, t ^ (p - 1) * (1 - t) ^ (q - 1) :=
    intervalIntegral.integral_nonneg hx0.le fun t ht =>
      mul_nonneg (Real.rpow_nonneg ht.1 _) (Real.rpow_nonneg (by linarith [ht.2]) _)
  have hJ0 : 0 ≤ ∫ t in x..1, t ^ (p - 1) * (1 - t) ^ (q - 1) :=
    intervalIntegral.integral_nonneg hx1.le fun t ht =>
      mul_nonneg (Real.rpow_nonneg (by linarith [ht.1]) _) (Real.rpow_nonneg (by linarith [ht.2]) _)
  rw [intervalIntegral.integral_div]
  set I := ∫ t in (0 : ℝ)..x, t ^ (p - 1) * (1 - t) ^ (q - 1)
  set J := ∫ t in x..1, t ^ (p - 1) * (1 - t) ^ (q - 1)
  set G := Real.Gamma p * Real.Gamma q / Real.Gamma (p + q)
  have hpq1 : 0 ≤ p / q := by positivity
  have hpq2 : 0 ≤ q / p := by positivity
  -- a relative error with respect to the computed value
  have key : ∀ u K c : ℝ, 0 ≤ K → K ≤ G → 0 < c → c ≤ ε → |u * G - K| ≤ c * (u * G) → |u - K / G| ≤ 2 * ε := by
    intro u K c hK hKG hc0 hc hu
    have e : u * G - K = (u - K / G) * G := by field_simp
    rw [e, abs_mul, abs_of_pos hG, ← mul_assoc] at hu
    have h1 := le_of_mul_le_mul_right hu hG
    have hr0 : 0 ≤ K / G := by positivity
    have hr1 : K / G ≤ 1 := by rw [div_le_one hG]; exact hKG
    have h2 := le_abs_self (u - K / G)
    have h3 := abs_nonneg (u - K / G)
    have hu0 : u ≤ 2 := by
      by_contra hcon
      push Not at hcon
      nlinarith
    rcases le_or_gt 0 u with h0 | h0
    · nlinarith
    · have h5 : 0 ≤ c * u := h3.trans h1
      nlinarith
  rcases le_or_gt x (p / (p + q)) with hm | hm
  · refine key v I _ hI0 (by linarith) (by positivity) ?_ (hacc.1 hm)
    rw [hε]
    norm_num
    linarith
  · have h1 := key (1 - v) J _ hJ0 (by linarith) (by positivity) (by rw [hε]; norm_num; linarith) (hacc.2 hm)
    have e : v - I / G = -((1 - v) - J / G) := by
      have : I / G + J / G = 1 := by rw [← add_div, hsplit, div_self hG.ne']
      linarith
    rw [e, abs_neg]
    exact h1

/-- the beta distribution with `p = 2`, `q = 3` -/
example : betaNew 2 3 = some (2, 3) ∧ betaMean (2, 3) = 2 / 5 ∧ betaVariance (2, 3) = 1 / 25 := by
  refine ⟨by norm_num [betaNew], by norm_num [betaMean], by norm_num [betaVariance]⟩

example (lo : ℤ) (n : ℕ) (v : ℝ) (hv : betaCdf lo n (2, 3) (1 / 4) = some v) :
    |v - ∫ t in (0 : ℝ)..(1 / 4), t ^ ((2 : ℝ) - 1) * (1 - t) ^ ((3 : ℝ) - 1)
      / (Real.Gamma 2 * Real.Gamma 3 / Real.Gamma (2 + 3))| ≤ 2 * 2.1e-11 :=
  ((C73_cdf (p := 2) (q := 3) (d := (2, 3)) (by norm_num [betaNew]) (by norm_num) lo n (1 / 4) v (by norm_num) (by norm_num)
    (by norm_num) hv _ rfl (by norm_num)).2.2).trans (by norm_num)

end Stat
end Verif
