import Verif.BetaIncProps
import Verif.LanczosProps

/-!
# C51: the incomplete beta function against the true beta function
-/

namespace Verif
namespace Special

theorem ratio_error {v B G I c : ℝ} (hv : |v * B - I| ≤ c * (v * B)) (hc : 0 < c) (hB : 0 < B) (hG : 0 < G)
    (hBG : |B - G| ≤ 2e-11 * G) : |v * G - I| ≤ (1.1 * c + 2e-11) * (v * G) := by
  have h0 : 0 ≤ v := by
    by_contra hn
    push Not at hn
    have h1 : v * B < 0 := mul_neg_of_neg_of_pos hn hB
    have h2 := abs_nonneg (v * B - I)
    nlinarith
  have hB2 : B ≤ 1.1 * G := by
    have := (abs_le.1 hBG).2
    norm_num at this ⊢
    linarith
  calc |v * G - I| = |(v * B - I) - v * (B - G)| := by congr 1; ring
    _ ≤ |v * B - I| + |v * (B - G)| := abs_sub _ _
    _ ≤ c * (v * (1.1 * G)) + v * (2e-11 * G) := by
        rw [abs_mul, abs_of_nonneg h0]
        have : c * (v * B) ≤ c * (v * (1.1 * G)) := by gcongr
        have h2 : v * |B - G| ≤ v * (2e-11 * G) := by gcongr
        linarith
    _ = _ := by ring

/-- `beta_inc_reg x a b` is the incomplete beta integral over the beta function `Γ(a)Γ(b)/Γ(a+b)`: below the mean
`a / (a + b)` with the relative error `1.1e-15 (b + 1 + a / b) + 2e-11`; above it one minus the value has such an error
relative to the other tail. -/
theorem C51_accuracy_true (lo : ℤ) (n : ℕ) (x a b v : ℝ) (ha : 0 < a) (hb : 0 < b) (hx0 : 0 < x) (hx1 : x < 1)
    (hsat : a + b < 2 ^ 30 - 1) (hv : betaIncReg lo n x a b = some v) :
    (x ≤ a / (a + b) →
      |v * (Real.Gamma a * Real.Gamma b / Real.Gamma (a + b)) - ∫ t in (0 : ℝ)..x, t ^ (a - 1) * (1 - t) ^ (b - 1)|
        ≤ (1.1 * (1e-15 * (b + 1 + a / b)) + 2e-11) * (v * (Real.Gamma a * Real.Gamma b / Real.Gamma (a + b)))) ∧
    (a / (a + b) < x →
      |(1 - v) * (Real.Gamma a * Real.Gamma b / Real.Gamma (a + b)) - ∫ t in x..1, t ^ (a - 1) * (1 - t) ^ (b - 1)|
        ≤ (1.1 * (1e-15 * (a + 1 + b / a)) + 2e-11)
          * ((1 - v) * (Real.Gamma a * Real.Gamma b / Real.Gamma (a + b)))) := by
  obtain ⟨B, hB, hB0, h1, h2⟩ := C51_accuracy lo n x a b v ha hb hx0 hx1 hsat hv
  obtain ⟨B', hB', hacc⟩ := C48_beta_accuracy a b ha hb
  obtain rfl : B = B' := by rw [hB] at hB'; exact Option.some.inj hB'
  have hG : 0 < Real.Gamma a * Real.Gamma b / Real.Gamma (a + b) := by
    have := Real.Gamma_pos_of_pos ha
    have := Real.Gamma_pos_of_pos hb
    have := Real.Gamma_pos_of_pos (add_pos ha hb)
    positivity
  exact ⟨fun h => ratio_error (h1 h) (by positivity) hB0 hG hacc, fun h => ratio_error (h2 h) (by positivity) hB0 hG hacc⟩

/-- the uniform distribution: `beta_inc_reg x 1 1` is `x` up to `3e-11` -/
example : ∃ N : ℕ, ∃ v, (∀ n ≥ N, betaIncReg (-N) n 0.25 1 1 = some v) ∧ |v - 0.25| ≤ 3e-11 * v := by
  obtain ⟨N, v, h⟩ := C51_terminates 0.25 1 1 one_pos one_pos (by norm_num) (by norm_num)
  refine ⟨N, v, h _ le_rfl, ?_⟩
  have := (C51_accuracy_true (-N) N 0.25 1 1 v one_pos one_pos (by norm_num) (by norm_num) (by norm_num)
    (h _ le_rfl N le_rfl)).1 (by norm_num)
  have hG2 : Real.Gamma (1 + 1) = 1 := by norm_num
  rw [Real.Gamma_one, hG2] at this
  norm_num at this ⊢
  have hv : 0 ≤ v := by
    by_contra hn
    push Not at hn
    have := abs_nonneg (v - 1 / 4)
    nlinarith
  linarith

end Special
end Verif
