import Verif.IncGammaLemmas
import Mathlib.Analysis.Complex.ExponentialBounds

/-!
# C49: the incomplete gamma functions

The complement relations hold without error; the loops end for all `a > 0`, `x > 0`; the inverse of the lower function
is wrong.
-/

namespace Verif
namespace Special
open Finset

/-- More fuel does not change a value. -/
theorem gammaLr_mono {n : ℕ} {a x v : ℝ} (h : gammaLr n a x = some v) (m : ℕ) (hm : n ≤ m) :
    gammaLr m a x = some v := by
  unfold gammaLr at h ⊢
  by_cases h1 : x ≤ 0
  · simp only [h1, if_true] at h ⊢; exact h
  by_cases h2 : a = 0
  · simp only [h1, h2, if_true, if_false] at h ⊢; exact h
  by_cases h3 : x = 0
  · exact absurd h3.le h1
  simp only [h1, h2, h3, if_false, Option.bind_eq_bind] at h ⊢
  cases h4 : lnGamma a with
  | none => rw [h4] at h; simp at h
  | some lg =>
    simp only [h4, Option.bind_some] at h ⊢
    by_cases h5 : a * Real.log x - x - lg < -709.78271289338399
    · simp only [h5, if_true] at h ⊢; exact h
    simp only [h5, if_false] at h ⊢
    by_cases h6 : x ≤ 1 ∨ x ≤ a
    · simp only [h6, if_true] at h ⊢
      cases h8 : lrSeries x n a 1 1 with
      | none => rw [h8] at h; simp at h
      | some s => rw [lrSeries_mono h8 m hm]; rw [h8] at h; exact h
    · simp only [h6, if_false] at h ⊢
      cases h9 : lrFracInit a x with
      | none => rw [h9] at h; simp at h
      | some s =>
        rw [h9] at h
        simp only [Option.bind_some] at h ⊢
        cases h8 : lrFrac n s with
        | none => rw [h8] at h; simp at h
        | some w => rw [lrFrac_mono h8 m hm]; rw [h8] at h; exact h

/-- `gamma_lr` panics exactly for `x ≤ 0`; otherwise, for `a > 0`, both loops end: with enough rounds there is a value,
and it does not depend on the number of rounds. -/
theorem C49_terminates (a x : ℝ) (ha : 0 < a) :
    (x ≤ 0 → ∀ n, gammaLr n a x = none) ∧ (0 < x → ∃ N v, ∀ n, N ≤ n → gammaLr n a x = some v) := by
  refine ⟨fun hx n => by simp [gammaLr, hx], fun hx => ?_⟩
  obtain ⟨lg, hlg⟩ := lnGamma_of_pos ha
  have key : ∃ N v, gammaLr N a x = some v := by
    unfold gammaLr
    simp only [not_le.2 hx, if_false, ha.ne', hx.ne', hlg, Option.bind_eq_bind, Option.bind_some]
    split_ifs with h1 h2 h3
    · exact ⟨0, 1, rfl⟩
    · exact ⟨0, 0, rfl⟩
    · obtain ⟨N, v, h⟩ := lrSeries_terminates hx ha one_pos one_pos
      refine ⟨N, Real.exp (a * Real.log x - x - lg) * v / a, ?_⟩
      rw [h N le_rfl, Option.bind_some]
      exact div_of_ne ha.ne'
    · push Not at h3
      obtain ⟨s, hs, hinv⟩ := lrFracInit_inv h3.2 hx
      obtain ⟨N, v, h⟩ := lrFrac_terminates h3.2 h3.1.le (by linarith) hinv
      refine ⟨N, 1 - Real.exp (a * Real.log x - x - lg) * v, ?_⟩
      rw [hs, Option.bind_some, h N le_rfl, Option.bind_some]
  obtain ⟨N, v, h⟩ := key
  exact ⟨N, v, fun n hn => gammaLr_mono h n hn⟩

example : ∃ N v, ∀ n, N ≤ n → gammaLr n 2.5 40 = some v := (C49_terminates 2.5 40 (by norm_num)).2 (by norm_num)

/-- The regularised functions add up to 1 and the others to `gamma a`, for all arguments and without error: both are
defined where `gamma_lr` (and `gamma`) is. -/
theorem C49_complement (n : ℕ) (a x : ℝ) :
    (∀ l u, gammaLr n a x = some l → gammaUr n a x = some u → l + u = 1) ∧
    (∀ l u g, gammaL n a x = some l → gammaU n a x = some u → gamma a = some g → l + u = g) ∧
    (gammaUr n a x = none ↔ gammaLr n a x = none) ∧ (gammaU n a x = none ↔ gammaL n a x = none) := by
  unfold gammaL gammaU gammaUr
  cases h : gammaLr n a x with
  | none => simp
  | some v =>
    cases h2 : gamma a with
    | none => simp
    | some g =>
      simp only [Option.bind_eq_bind, Option.bind_some, Option.some.injEq]
      refine ⟨?_, ?_, by simp, by simp⟩
      · rintro l u rfl rfl; ring
      · rintro l u g' rfl rfl rfl; ring

/-- The not regularised functions have values for all `a > 0`, `x > 0`. -/
theorem C49_total (a x : ℝ) (ha : 0 < a) (hx : 0 < x) :
    ∃ N l u g, (∀ n, N ≤ n → gammaL n a x = some l ∧ gammaU n a x = some u) ∧ gamma a = some g ∧ l + u = g := by
  obtain ⟨N, v, h⟩ := (C49_terminates a x ha).2 hx
  obtain ⟨g, hg, _⟩ := gamma_of_pos ha
  refine ⟨N, v * g, (1 - v) * g, g, fun n hn => ?_, hg, by ring⟩
  simp [gammaL, gammaU, gammaUr, h n hn, hg]

example : ∃ N l u g, (∀ n, N ≤ n → gammaL n 0.5 3 = some l ∧ gammaU n 0.5 3 = some u) ∧
    gamma 0.5 = some g ∧ l + u = g := C49_total 0.5 3 (by norm_num) (by norm_num)

/-- For `a = 1` the inverse of the upper function is exact: `Q(1, x) = exp (-x)`. -/
theorem C49_ur_inv_one (n : ℕ) (x : ℝ) : gammaUrInv n 1 (Real.exp (-x)) = some x := by
  simp [gammaUrInv, ln_of_pos (Real.exp_pos _)]

/-- A solution of the equation is kept by the iteration of `gamma_ur_inv`: if the current value solves
`gamma_ur a x = q`, the next one is the same. -/
theorem C49_ur_inv_fixed (n : ℕ) (a q x l : ℝ) (ha : 0 < a) (hx : 0 < x) (hl : gammaLr n a x = some l)
    (hq : 1 - l = q) : ∀ k, urInvLoop n a q k x = some x := by
  obtain ⟨g, hg, hg0⟩ := gamma_of_pos ha
  have hr : urInvR a x = some (x ^ a * Real.exp (-x) / g) := by
    simp only [urInvR, not_le.2 ha, not_lt.2 hx.le, if_false, hg, Option.bind_eq_bind, Option.bind_some]
    exact div_of_ne hg0.ne'
  have hr0 : x ^ a * Real.exp (-x) / g ≠ 0 := by
    have := Real.rpow_pos_of_pos hx a
    positivity
  have hstep : ∃ b, urInvStep n a q x = some (x, b) := by
    have e1 : l - (1 - q) = 0 := by rw [← hq]; ring
    have e2 : q - (1 - l) = 0 := by rw [← hq]; ring
    by_cases hp : 1 - q ≤ 0.5
    · simp only [urInvStep, hr, Option.bind_eq_bind, Option.bind_some, hp, if_true, hl, e1, div_of_ne hr0, zero_div,
        abs_zero, mul_zero, add_zero, sub_zero, mul_one]
      split_ifs <;> simp
      all_goals norm_num at *
    · simp only [urInvStep, hr, Option.bind_eq_bind, Option.bind_some, hp, if_false, gammaUr, hl, e2, div_of_ne hr0,
        zero_div, abs_zero, mul_zero, add_zero, sub_zero, mul_one]
      split_ifs <;> simp
      all_goals norm_num at *
  obtain ⟨b, hb⟩ := hstep
  intro k
  induction k with
  | zero => rfl
  | succ k ih =>
    simp only [urInvLoop, hb, Option.bind_eq_bind, Option.bind_some, ih]
    split_ifs <;> rfl

/-- `gamma_lr_inv` is not the inverse of the lower function: it is `1 - gamma_ur_inv`, so for `a = 1`, where
`P(1, x) = 1 - exp (-x)`, the call with `p = P(1, ln 2) = 1/2` gives `1 - ln 2` and not `ln 2`, and the call with
`p = exp (-3)` gives the negative number `-2`. -/
theorem C49_lr_inv_violated (n : ℕ) :
    gammaLrInv n 1 (1 - Real.exp (-Real.log 2)) = some (1 - Real.log 2) ∧ 1 - Real.log 2 ≠ Real.log 2 ∧
    gammaLrInv n 1 (Real.exp (-3)) = some (-2) ∧
    (∀ p, 0 < p → p < 1 → gammaUrInv n 1 (1 - p) = some (-Real.log (1 - p)) ∧
      gammaLrInv n 1 p = some (1 + Real.log p)) := by
  refine ⟨?_, ?_, ?_, ?_⟩
  · have e : 1 - Real.exp (-Real.log 2) = 1 / 2 := by
      rw [Real.exp_neg, Real.exp_log (by norm_num)]; norm_num
    have h : Real.log (1 / 2) = -Real.log 2 := by rw [one_div, Real.log_inv]
    rw [e]
    simp [gammaLrInv, gammaUrInv, R.ln, Real.log_inv]
    norm_num [Real.log_inv]
  · have := Real.log_two_gt_d9
    intro h
    norm_num at this
    linarith
  · rw [gammaLrInv, C49_ur_inv_one]
    norm_num
  · intro p h0 h1
    constructor
    · simp [gammaUrInv, ln_of_pos (sub_pos.2 h1)]
    · simp [gammaLrInv, gammaUrInv, ln_of_pos h0]

end Special
end Verif
