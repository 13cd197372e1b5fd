import Verif.GammaProps

/-!
# C51: the regularised incomplete beta function: domain and reflection
-/

namespace Verif
namespace Special

theorem betaTail_comm (lo : ℤ) (n : ℕ) (a b xx cx pp qq : ℝ) :
    betaTail lo n a b xx cx pp qq = betaTail lo n b a xx cx pp qq := by
  unfold betaTail
  rw [(C48_beta a b).1, add_comm a b]

/-- `beta_inc_reg` panics for `a ≤ 0`, `b ≤ 0` and `x` outside of `[0, 1]`; it is 0 at 0 and 1 at 1. -/
theorem C51_domain (lo : ℤ) (n : ℕ) (x a b : ℝ) :
    (a ≤ 0 ∨ b ≤ 0 ∨ x < 0 ∨ 1 < x → betaIncReg lo n x a b = none) ∧
    (0 < a → 0 < b → betaIncReg lo n 0 a b = some 0 ∧ betaIncReg lo n 1 a b = some 1) := by
  constructor
  · rintro (h | h | h | h)
    · simp [betaIncReg, h]
    · simp [betaIncReg, h]
    · by_cases h2 : a ≤ 0 ∨ b ≤ 0 <;> simp [betaIncReg, h, h2]
    · by_cases h2 : a ≤ 0 ∨ b ≤ 0 <;> simp [betaIncReg, h, h2]
  · intro ha hb
    simp [betaIncReg, not_le.2 ha, not_le.2 hb]

/-- The reflection formula holds without error unless `a = (a + b) x`: one of the two calls changes the tail and then
both do the same computation.  They have values together. -/
theorem C51_reflection_partial (lo : ℤ) (n : ℕ) (x a b : ℝ) (ha : 0 < a) (hb : 0 < b) (hx0 : 0 ≤ x) (hx1 : x ≤ 1)
    (hne : a ≠ (a + b) * x) :
    betaIncReg lo n (1 - x) b a = (betaIncReg lo n x a b).map (fun v => 1 - v) := by
  rcases eq_or_lt_of_le hx0 with rfl | h0
  · norm_num [betaIncReg, not_le.2 ha, not_le.2 hb]
  rcases eq_or_lt_of_le hx1 with rfl | h1
  · norm_num [betaIncReg, not_le.2 ha, not_le.2 hb]
  have c1 : ¬ (a ≤ 0 ∨ b ≤ 0) := by simp [ha, hb]
  have c1' : ¬ (b ≤ 0 ∨ a ≤ 0) := by simp [ha, hb]
  have c2 : ¬ (0 > x ∨ x > 1) := by simp [hx0, hx1]
  have c2' : ¬ (0 > 1 - x ∨ 1 - x > 1) := by simp [hx0, hx1]
  have c3 : ¬ (x = 0 ∨ x = 1) := by simp [h0.ne', h1.ne]
  have c3' : ¬ (1 - x = 0 ∨ 1 - x = 1) := by
    rintro (h | h) <;> linarith
  unfold betaIncReg
  simp only [c1, c1', c2, c2', c3, c3', if_false]
  rcases lt_or_gt_of_ne hne with h | h
  · have h' : ¬ b < (b + a) * (1 - x) := by nlinarith
    simp only [h, h', if_true, if_false, sub_sub_cancel, betaTail_comm lo n b a]
    cases betaTail lo n a b (1 - x) x b a <;> simp
  · have h' : b < (b + a) * (1 - x) := by nlinarith
    simp only [not_lt.2 h.le, h', if_true, if_false, sub_sub_cancel, betaTail_comm lo n b a]
    cases betaTail lo n a b x (1 - x) a b <;> simp

example (n : ℕ) : betaIncReg (-2 ^ 31) n (1 - 0.9) 3 2 = (betaIncReg (-2 ^ 31) n 0.9 2 3).map (fun v => 1 - v) :=
  C51_reflection_partial _ n 0.9 2 3 (by norm_num) (by norm_num) (by norm_num) (by norm_num) (by norm_num)

end Special
end Verif
