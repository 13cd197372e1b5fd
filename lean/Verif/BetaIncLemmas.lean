import Mathlib.Analysis.SpecialFunctions.Integrals.Basic
import Mathlib.Analysis.SpecialFunctions.Pow.Deriv
import Mathlib.MeasureTheory.Integral.IntervalIntegral.IntegrationByParts
import Mathlib.Analysis.SpecificLimits.Normed
import Mathlib.Tactic.FieldSimp
import Mathlib.Tactic.LinearCombination

/-!
# The incomplete beta integral and its two reduction formulas
-/

namespace Verif
namespace Special
open MeasureTheory intervalIntegral Set

/-- the incomplete beta integral (not regularised) -/
noncomputable def Bx (x p q : ℝ) : ℝ := ∫ t in (0 : ℝ)..x, t ^ (p - 1) * (1 - t) ^ (q - 1)

theorem contOn_one_sub {x : ℝ} (hx1 : x < 1) (r : ℝ) : ContinuousOn (fun t : ℝ => (1 - t) ^ r) (Icc 0 x) := by
  intro t ht
  have h : (1 - t : ℝ) ≠ 0 := by have := ht.2; intro h; linarith
  have : ContinuousAt (fun t : ℝ => (1 - t) ^ r) t :=
    ContinuousAt.rpow_const (by fun_prop) (Or.inl h)
  exact this.continuousWithinAt

theorem bx_integrable {x p : ℝ} (hx0 : 0 ≤ x) (hx1 : x < 1) (hp : 0 < p) (r : ℝ) :
    IntervalIntegrable (fun t : ℝ => t ^ (p - 1) * (1 - t) ^ r) volume 0 x := by
  apply (intervalIntegrable_rpow' (by linarith : -1 < p - 1)).mul_continuousOn
  rw [uIcc_of_le hx0]
  exact contOn_one_sub hx1 r

/-- The fundamental theorem for `t^p (1-t)^r` -/
theorem bx_ftc {x p : ℝ} (hx0 : 0 ≤ x) (hx1 : x < 1) (hp : 0 < p) (r : ℝ) :
    ∫ t in (0 : ℝ)..x, (p * (t ^ (p - 1) * (1 - t) ^ r) - r * (t ^ p * (1 - t) ^ (r - 1)))
      = x ^ p * (1 - x) ^ r := by
  have hc : ContinuousOn (fun t : ℝ => t ^ p * (1 - t) ^ r) (Icc 0 x) :=
    (ContinuousOn.rpow_const continuousOn_id (fun t _ => Or.inr hp.le)).mul (contOn_one_sub hx1 r)
  have hd : ∀ t ∈ Ioo 0 x, HasDerivAt (fun t : ℝ => t ^ p * (1 - t) ^ r)
      (p * (t ^ (p - 1) * (1 - t) ^ r) - r * (t ^ p * (1 - t) ^ (r - 1))) t := by
    intro t ht
    have h1 : HasDerivAt (fun t : ℝ => t ^ p) (p * t ^ (p - 1)) t := Real.hasDerivAt_rpow_const (Or.inl ht.1.ne')
    have h3 : (1 - t : ℝ) ≠ 0 := by have := ht.2; intro h; linarith
    have h2 : HasDerivAt (fun t : ℝ => (1 - t) ^ r) (-1 * r * (1 - t) ^ (r - 1)) t :=
      ((hasDerivAt_id t).const_sub 1).rpow_const (Or.inl h3)
    refine (h1.mul h2).congr_deriv ?_
    ring
  have hi : IntervalIntegrable (fun t : ℝ => p * (t ^ (p - 1) * (1 - t) ^ r) - r * (t ^ p * (1 - t) ^ (r - 1)))
      volume 0 x := by
    apply IntervalIntegrable.sub
    · exact (bx_integrable hx0 hx1 hp r).const_mul p
    · have := bx_integrable hx0 hx1 (by linarith : 0 < p + 1) (r - 1)
      rw [add_sub_cancel_right] at this
      exact this.const_mul r
  rw [integral_eq_sub_of_hasDerivAt_of_le hx0 hc hd hi]
  simp [Real.zero_rpow hp.ne']

/-- Soper's reduction -/
theorem bx_soper {x p : ℝ} (hx0 : 0 ≤ x) (hx1 : x < 1) (hp : 0 < p) (q : ℝ) :
    p * Bx x p q = x ^ p * (1 - x) ^ (q - 1) + (q - 1) * Bx x (p + 1) (q - 1) := by
  have h := bx_ftc hx0 hx1 hp (q - 1)
  rw [intervalIntegral.integral_sub ((bx_integrable hx0 hx1 hp (q - 1)).const_mul p)] at h
  · rw [intervalIntegral.integral_const_mul, intervalIntegral.integral_const_mul] at h
    unfold Bx
    rw [add_sub_cancel_right]
    linarith
  · have := bx_integrable hx0 hx1 (by linarith : 0 < p + 1) (q - 1 - 1)
    rw [add_sub_cancel_right] at this
    exact this.const_mul (q - 1)

/-- the other reduction -/
theorem bx_raise {x p : ℝ} (hx0 : 0 ≤ x) (hx1 : x < 1) (hp : 0 < p) (q : ℝ) :
    p * Bx x p q = x ^ p * (1 - x) ^ q + (p + q) * Bx x (p + 1) q := by
  have h := bx_ftc hx0 hx1 hp q
  have i1 := bx_integrable hx0 hx1 hp (q - 1)
  have i2 := bx_integrable hx0 hx1 (by linarith : 0 < p + 1) (q - 1)
  rw [add_sub_cancel_right] at i2
  have e : ∫ t in (0 : ℝ)..x, (p * (t ^ (p - 1) * (1 - t) ^ q) - q * (t ^ p * (1 - t) ^ (q - 1)))
      = ∫ t in (0 : ℝ)..x, (p * (t ^ (p - 1) * (1 - t) ^ (q - 1)) - (p + q) * (t ^ p * (1 - t) ^ (q - 1))) := by
    rw [integral_of_le hx0, integral_of_le hx0]
    apply setIntegral_congr_fun measurableSet_Ioc
    intro t ht
    have h3 : (1 - t : ℝ) ≠ 0 := by have := ht.2; intro h; linarith
    have e1 : (1 - t) ^ q = (1 - t) ^ (q - 1) * (1 - t) := by
      have := Real.rpow_add_one h3 (q - 1)
      rw [sub_add_cancel] at this; exact this
    have e2 : t ^ p = t ^ (p - 1) * t := by
      have := Real.rpow_add_one ht.1.ne' (p - 1)
      rw [sub_add_cancel] at this; exact this
    simp only
    rw [e1, e2]; ring
  rw [e, intervalIntegral.integral_sub (i1.const_mul p) (i2.const_mul (p + q)),
    intervalIntegral.integral_const_mul, intervalIntegral.integral_const_mul] at h
  unfold Bx
  rw [add_sub_cancel_right]
  linarith

theorem bx_pos {x p : ℝ} (hx0 : 0 < x) (hx1 : x < 1) (hp : 0 < p) (q : ℝ) : 0 < Bx x p q := by
  unfold Bx
  apply intervalIntegral_pos_of_pos_on (bx_integrable hx0.le hx1 hp (q - 1)) _ hx0
  intro t ht
  have h3 : (0 : ℝ) < 1 - t := by have := ht.2; linarith
  exact mul_pos (Real.rpow_pos_of_pos ht.1 _) (Real.rpow_pos_of_pos h3 _)

theorem bx_le {x p : ℝ} (hx0 : 0 < x) (hx1 : x < 1) (hp : 0 < p) (q : ℝ) {c : ℝ}
    (hc : ∀ t, 0 ≤ t → t ≤ x → (1 - t) ^ (q - 1) ≤ c) : p * Bx x p q ≤ x ^ p * c := by
  have h1 : Bx x p q ≤ ∫ t in (0 : ℝ)..x, t ^ (p - 1) * c := by
    unfold Bx
    apply intervalIntegral.integral_mono_on hx0.le (bx_integrable hx0.le hx1 hp (q - 1))
    · exact (intervalIntegrable_rpow' (by linarith : -1 < p - 1)).mul_const c
    · intro t ht
      exact mul_le_mul_of_nonneg_left (hc t ht.1 ht.2) (Real.rpow_nonneg ht.1 _)
  rw [intervalIntegral.integral_mul_const, integral_rpow (Or.inl (by linarith))] at h1
  rw [sub_add_cancel, Real.zero_rpow hp.ne', sub_zero] at h1
  calc p * Bx x p q ≤ p * (x ^ p / p * c) := mul_le_mul_of_nonneg_left h1 hp.le
    _ = x ^ p * c := by field_simp

/-- the quotient of the integral and the first term of Soper's sum -/
noncomputable def Nq (x p q : ℝ) : ℝ := p * Bx x p q / (x ^ p * (1 - x) ^ (q - 1))

/-- the quotient of the integral and the first term of the other sum -/
noncomputable def Mq (x p q : ℝ) : ℝ := p * Bx x p q / (x ^ p * (1 - x) ^ q)

theorem nq_pos {x p : ℝ} (hx0 : 0 < x) (hx1 : x < 1) (hp : 0 < p) (q : ℝ) : 0 < Nq x p q := by
  have h := bx_pos hx0 hx1 hp q
  have h1 := Real.rpow_pos_of_pos hx0 p
  have h2 := Real.rpow_pos_of_pos (sub_pos.2 hx1) (q - 1)
  unfold Nq; positivity

theorem mq_pos {x p : ℝ} (hx0 : 0 < x) (hx1 : x < 1) (hp : 0 < p) (q : ℝ) : 0 < Mq x p q := by
  have h := bx_pos hx0 hx1 hp q
  have h1 := Real.rpow_pos_of_pos hx0 p
  have h2 := Real.rpow_pos_of_pos (sub_pos.2 hx1) q
  unfold Mq; positivity

theorem nq_mq {x p : ℝ} (hx0 : 0 < x) (hx1 : x < 1) (q : ℝ) : Nq x p q = (1 - x) * Mq x p q := by
  have hc : (0 : ℝ) < 1 - x := sub_pos.2 hx1
  have h1 := Real.rpow_pos_of_pos hx0 p
  have h2 := Real.rpow_pos_of_pos hc (q - 1)
  have e1 : (1 - x) ^ q = (1 - x) ^ (q - 1) * (1 - x) := by
    have := Real.rpow_add_one hc.ne' (q - 1)
    rw [sub_add_cancel] at this; exact this
  unfold Nq Mq
  rw [e1]
  field_simp

theorem nq_rec {x p : ℝ} (hx0 : 0 < x) (hx1 : x < 1) (hp : 0 < p) (q : ℝ) :
    Nq x p q = 1 + (q - 1) / (p + 1) * (x / (1 - x)) * Nq x (p + 1) (q - 1) := by
  have hc : (0 : ℝ) < 1 - x := sub_pos.2 hx1
  have h1 := Real.rpow_pos_of_pos hx0 p
  have h2 := Real.rpow_pos_of_pos hc (q - 1 - 1)
  have e1 : (1 - x) ^ (q - 1) = (1 - x) ^ (q - 1 - 1) * (1 - x) := by
    have := Real.rpow_add_one hc.ne' (q - 1 - 1)
    rw [sub_add_cancel] at this; exact this
  have e2 : x ^ (p + 1) = x ^ p * x := Real.rpow_add_one hx0.ne' p
  have h := bx_soper hx0.le hx1 hp q
  unfold Nq
  rw [h, e2, e1]
  have hp1 : p + 1 ≠ 0 := by positivity
  field_simp

theorem mq_rec {x p : ℝ} (hx0 : 0 < x) (hx1 : x < 1) (hp : 0 < p) (q : ℝ) :
    Mq x p q = 1 + (p + q) / (p + 1) * x * Mq x (p + 1) q := by
  have hc : (0 : ℝ) < 1 - x := sub_pos.2 hx1
  have h1 := Real.rpow_pos_of_pos hx0 p
  have h2 := Real.rpow_pos_of_pos hc q
  have e2 : x ^ (p + 1) = x ^ p * x := Real.rpow_add_one hx0.ne' p
  have h := bx_raise hx0.le hx1 hp q
  unfold Mq
  rw [h, e2]
  have hp1 : p + 1 ≠ 0 := by positivity
  field_simp

theorem nq_le_one {x p : ℝ} (hx0 : 0 < x) (hx1 : x < 1) (hp : 0 < p) {q : ℝ} (hq : q ≤ 1) : Nq x p q ≤ 1 := by
  have hc : (0 : ℝ) < 1 - x := sub_pos.2 hx1
  have h1 := Real.rpow_pos_of_pos hx0 p
  have h2 := Real.rpow_pos_of_pos hc (q - 1)
  unfold Nq
  rw [div_le_one (by positivity)]
  apply bx_le hx0 hx1 hp
  intro t _ ht
  exact Real.rpow_le_rpow_of_nonpos hc (by linarith) (by linarith)

/-- a bound that does not depend on `p` -/
theorem mq_le {x : ℝ} (hx0 : 0 < x) (hx1 : x < 1) (q : ℝ) : ∃ K, 0 < K ∧ ∀ p, 0 < p → Mq x p q ≤ K := by
  have hc : (0 : ℝ) < 1 - x := sub_pos.2 hx1
  rcases le_or_gt q 1 with hq | hq
  · refine ⟨1 / (1 - x), by positivity, fun p hp => ?_⟩
    rw [le_div_iff₀ hc, mul_comm, ← nq_mq hx0 hx1]
    exact nq_le_one hx0 hx1 hp hq
  · have h2 := Real.rpow_pos_of_pos hc q
    refine ⟨1 / (1 - x) ^ q, by positivity, fun p hp => ?_⟩
    have h1 := Real.rpow_pos_of_pos hx0 p
    unfold Mq
    rw [div_le_div_iff₀ (by positivity) h2, one_mul]
    apply mul_le_mul_of_nonneg_right _ h2.le
    have := bx_le hx0 hx1 hp q (c := 1) (fun t ht0 ht => by
      apply Real.rpow_le_one (by linarith) (by linarith) (by linarith))
    linarith

/-- the bound of Soper's quotient below the mean -/
theorem nq_le {x p q : ℝ} (hx0 : 0 < x) (hx1 : x < 1) (hp : 0 < p) (hq : 0 < q) (hm : x * q ≤ p * (1 - x)) :
    ∀ (n : ℕ) (P Q : ℝ), p ≤ P → Q ≤ q → Q ≤ n → Nq x P Q ≤ max Q 0 + 1 := by
  have hc : (0 : ℝ) < 1 - x := sub_pos.2 hx1
  intro n
  induction n with
  | zero =>
    intro P Q hP _ hQ
    have := nq_le_one hx0 hx1 (lt_of_lt_of_le hp hP) (q := Q) (by simp at hQ; linarith)
    have : 0 ≤ max Q 0 := le_max_right _ _
    linarith
  | succ n ih =>
    intro P Q hP hQ hn
    rcases le_or_gt Q 1 with h1 | h1
    · have := nq_le_one hx0 hx1 (lt_of_lt_of_le hp hP) h1
      have : 0 ≤ max Q 0 := le_max_right _ _
      linarith
    · have hP0 : 0 < P := lt_of_lt_of_le hp hP
      rw [nq_rec hx0 hx1 hP0]
      have h2 := ih (P + 1) (Q - 1) (by linarith) (by linarith) (by push_cast at hn; linarith)
      rw [max_eq_left (by linarith : (0 : ℝ) ≤ Q - 1), sub_add_cancel] at h2
      rw [max_eq_left (by linarith : (0 : ℝ) ≤ Q)]
      have h3 : (Q - 1) / (P + 1) * (x / (1 - x)) ≤ 1 := by
        rw [div_mul_div_comm, div_le_one (by positivity)]
        have a1 : (Q - 1) * x ≤ q * x := by
          apply mul_le_mul_of_nonneg_right _ hx0.le; linarith
        have a2 : p * (1 - x) ≤ (P + 1) * (1 - x) := by
          apply mul_le_mul_of_nonneg_right _ hc.le; linarith
        linarith
      have h4 : (Q - 1) / (P + 1) * (x / (1 - x)) * Nq x (P + 1) (Q - 1) ≤ 1 * Q := by
        apply mul_le_mul h3 h2 (nq_pos hx0 hx1 (by linarith) _).le zero_le_one
      linarith

end Special
end Verif
