import Verif.SpecialLemmas
import Mathlib.Analysis.Real.Pi.Bounds
import Mathlib.Analysis.Complex.ExponentialBounds

/-!
# C48: relations of `gamma`, `ln_gamma` and `beta`
-/

namespace Verif
namespace Special

/-- `gamma` has no value exactly at the poles: zero (the explicit panic) and the negative integers (a division by
`sin (π z) = 0`). -/
theorem C48_gamma_domain (z : ℝ) : gamma z = none ↔ ∃ n : ℕ, z = -(n : ℝ) := by
  by_cases h : z < 0.5
  · by_cases hs : Real.sin (Real.pi * z) = 0
    · obtain ⟨k, hk⟩ := Real.sin_eq_zero_iff.1 hs
      have hz : z = k := by
        have := Real.pi_pos.ne'
        have e : Real.pi * ((k : ℝ) - z) = 0 := by linarith
        rcases mul_eq_zero.1 e with h1 | h1
        · exact absurd h1 this
        · linarith
      have hk0 : k ≤ 0 := by
        by_contra hc
        push Not at hc
        have : (1 : ℝ) ≤ (k : ℝ) := by exact_mod_cast hc
        rw [hz] at h; norm_num at h; linarith
      constructor
      · intro _
        refine ⟨(-k).toNat, ?_⟩
        have : ((-k).toNat : ℤ) = -k := Int.toNat_of_nonneg (by omega)
        have h2 : (((-k).toNat : ℤ) : ℝ) = ((-k : ℤ) : ℝ) := by rw [this]
        rw [Int.cast_natCast] at h2
        rw [h2, hz]; push_cast; ring
      · intro _
        by_cases h0 : z = 0
        · simp [gamma, h0]
        · simp [gamma, h0, h, hs, R.div]
    · rw [gamma_of_lt h hs]
      constructor
      · intro h1; cases h1
      · rintro ⟨n, rfl⟩
        refine absurd ?_ hs
        have : Real.pi * -(n : ℝ) = -((n : ℝ) * Real.pi) := by ring
        rw [this, Real.sin_neg, Real.sin_nat_mul_pi, neg_zero]
  · rw [gamma_of_ge (not_lt.1 h)]
    constructor
    · intro h1; cases h1
    · rintro ⟨n, rfl⟩
      have : (0 : ℝ) ≤ n := Nat.cast_nonneg n
      norm_num at h; linarith

example : gamma (-3) = none := (C48_gamma_domain (-3)).2 ⟨3, by norm_num⟩

/-- The reflection formula holds without error for every `z < 0.5` that is no pole, and `gamma` is positive for
positive arguments. -/
theorem C48_gamma_reflection (z : ℝ) (hz : z < 0.5) (hp : ∀ n : ℕ, z ≠ -(n : ℝ)) :
    ∃ u v, gamma z = some u ∧ gamma (1 - z) = some v ∧ u * v = Real.pi / Real.sin (Real.pi * z) := by
  have h1 : (0.5 : ℝ) ≤ 1 - z := by norm_num at hz ⊢; linarith
  have h2 : (0 : ℝ) < 1 - z := by norm_num at h1; linarith
  have hs : Real.sin (Real.pi * z) ≠ 0 := by
    intro hs
    have : gamma z = none := by
      by_cases h0 : z = 0
      · simp [gamma, h0]
      · simp [gamma, h0, hz, hs, R.div]
    obtain ⟨n, hn⟩ := (C48_gamma_domain z).1 this
    exact hp n hn
  refine ⟨_, _, gamma_of_lt hz hs, gamma_of_ge h1, ?_⟩
  have := (lanczos_pos h2).ne'
  field_simp

theorem C48_gamma_pos (z : ℝ) (hz : 0 < z) : ∃ v, gamma z = some v ∧ 0 < v := gamma_of_pos hz

example : ∃ u v, gamma (1 / 3) = some u ∧ gamma (1 - 1 / 3) = some v ∧
    u * v = Real.pi / Real.sin (Real.pi * (1 / 3)) :=
  C48_gamma_reflection (1 / 3) (by norm_num) (fun n hn => by
    have : (0 : ℝ) ≤ n := Nat.cast_nonneg n
    linarith)

/-- `beta` is symmetric for all arguments (also in where it panics), positive for positive arguments, and the
quotient of the values of `gamma`. -/
theorem C48_beta (x y : ℝ) :
    beta x y = beta y x ∧
    (0 < x → 0 < y → ∃ gx gy g, gamma x = some gx ∧ gamma y = some gy ∧ gamma (x + y) = some g ∧
      beta x y = some (gx * gy / g) ∧ 0 < gx * gy / g) := by
  constructor
  · simp only [beta, add_comm x y, Option.bind_eq_bind]
    cases gamma x <;> cases gamma y <;> simp [mul_comm]
  · intro hx hy
    obtain ⟨gx, h1, p1⟩ := gamma_of_pos hx
    obtain ⟨gy, h2, p2⟩ := gamma_of_pos hy
    obtain ⟨g, h3, p3⟩ := gamma_of_pos (add_pos hx hy)
    refine ⟨gx, gy, g, h1, h2, h3, ?_, by positivity⟩
    simp only [beta, h1, h2, h3, Option.bind_eq_bind, Option.bind_some]
    exact div_of_ne p3.ne'

example : beta (1 / 2) 3 = beta 3 (1 / 2) := (C48_beta (1 / 2) 3).1

/-- The method `ln_gamma` has a value for every positive argument, and its values obey the logarithm of the reflection
formula without error. -/
theorem C48_ln_gamma_reflection (x : ℝ) (h0 : 0 < x) (h1 : x < 1 / 2) :
    ∃ u v, lnGamma x = some u ∧ lnGamma (1 - x) = some v ∧
      u + v = Real.log (Real.pi / Real.sin (Real.pi * x)) := by
  have hx : x < 0.5 := by norm_num; linarith
  have hx1 : (0.5 : ℝ) ≤ 1 - x := by norm_num; linarith
  have hs := sin_pos_of h0 hx
  refine ⟨_, _, lnGamma_of_lt hx hs, lnGamma_of_ge hx1, ?_⟩
  rw [Real.log_div Real.pi_pos.ne' hs.ne']; ring

example : ∃ u v, lnGamma (1 / 4) = some u ∧ lnGamma (1 - 1 / 4) = some v ∧
    u + v = Real.log (Real.pi / Real.sin (Real.pi * (1 / 4))) :=
  C48_ln_gamma_reflection (1 / 4) (by norm_num) (by norm_num)

theorem lanczos_half_gt : 1 < lanczos 0.5 := by
  have hS : 775 < lanczosSum 0.5 := by unfold lanczosSum; norm_num
  have h2 : (1.41 : ℝ) < Real.sqrt 2 := by
    rw [Real.lt_sqrt (by norm_num)]; norm_num
  have h3 : (1.77 : ℝ) < Real.sqrt Real.pi := by
    rw [Real.lt_sqrt (by norm_num)]
    have := Real.pi_gt_d2
    norm_num at this ⊢; linarith
  have h4 : (1 : ℝ) / 1200 < Real.exp (-7) := by
    rw [Real.exp_neg, ← one_div]
    apply one_div_lt_one_div_of_lt (Real.exp_pos _)
    have e : Real.exp 7 = Real.exp 1 ^ 7 := by rw [← Real.exp_nat_mul]; norm_num
    rw [e]
    have := Real.exp_one_lt_d9
    calc Real.exp 1 ^ 7 < 2.7182818286 ^ 7 := by
          apply pow_lt_pow_left₀ this (Real.exp_pos _).le (by norm_num)
      _ < 1200 := by norm_num
  have e1 : (0.5 + 6.5 : ℝ) = 7 := by norm_num
  have e2 : (0.5 - 0.5 : ℝ) = 0 := by norm_num
  unfold lanczos
  simp only [e1, e2, Real.rpow_zero, mul_one]
  calc (1 : ℝ) < 1.41 * 1.77 * (1 / 1200) * 775 := by norm_num
    _ < Real.sqrt 2 * Real.sqrt Real.pi * Real.exp (-7) * lanczosSum 0.5 := by gcongr

theorem lnLanczos_half_lt : lnLanczos 0.5 < 1 := by
  have hS : dkVal 0.5 < 1 := by unfold dkVal; norm_num
  have hS0 := dkVal_pos (z := 0.5) (by norm_num)
  have e2 : (0.5 - 0.5 : ℝ) = 0 := by norm_num
  unfold lnLanczos
  rw [e2, zero_mul, add_zero]
  have h1 : Real.log (dkVal 0.5) < 0 := Real.log_neg hS0 hS
  have hpi := Real.pi_pos
  have h2 : Real.log (2 * (Real.exp 1 / Real.pi) ^ (0.5 : ℝ)) < 1 := by
    rw [Real.log_lt_iff_lt_exp (by positivity)]
    have h3 : (Real.exp 1 / Real.pi) ^ (0.5 : ℝ) ≤ 1 := by
      apply Real.rpow_le_one (by positivity) _ (by norm_num)
      rw [div_le_one hpi]
      have := Real.exp_one_lt_d9
      have := Real.pi_gt_three
      norm_num at *; linarith
    have := Real.exp_one_gt_d9
    norm_num at *; linarith
  linarith

/-- The free function `ln_gamma` is not the method `ln_gamma`: it returns the value of `gamma`.  At `0.5` it gives more
than 1 (`√π`), the method less than 1 (`ln √π`). -/
theorem C48_ln_gamma_violated :
    (∀ x, lnGammaFn x = gamma x) ∧
    ∃ u v, lnGammaFn 0.5 = some u ∧ lnGamma 0.5 = some v ∧ v < 1 ∧ 1 < u :=
  ⟨fun _ => rfl, _, _, gamma_of_ge le_rfl, lnGamma_of_ge le_rfl, lnLanczos_half_lt, lanczos_half_gt⟩

end Special
end Verif
