import Verif.ContProps
import Mathlib.Analysis.SpecialFunctions.Trigonometric.Deriv
import Mathlib.Algebra.BigOperators.Group.List.Basic
import Mathlib.Algebra.Order.BigOperators.Group.List
import Mathlib.Tactic.FieldSimp

/-! # Sample mean and variance and the raised cosine distribution: C59 and C60 -/

namespace Verif
namespace Stat
open MeasureTheory Set Filter

/-! ## C59 -/

section data
variable {K : Type} [Field K] [LinearOrder K] [IsStrictOrderedRing K]

omit [LinearOrder K] [IsStrictOrderedRing K] in
theorem foldl_sum (g : K → K) (l : List K) : ∀ s : K, l.foldl (fun sum x => sum + g x) s = s + (l.map g).sum := by
  induction l with
  | nil => intro s; simp
  | cons a l ih => intro s; rw [List.foldl_cons, ih, List.map_cons, List.sum_cons, add_assoc]

omit [LinearOrder K] [IsStrictOrderedRing K] in
theorem dataSum_eq (l : List K) : dataSum l = l.sum := by
  unfold dataSum
  have := foldl_sum (fun x => x) l 0
  simpa using this

/-- the sum of squared deviations vanishes only for constant data -/
theorem sum_sq_zero_iff (l : List K) (m : K) : (l.map fun x => (x - m) ^ 2).sum = 0 ↔ ∀ x ∈ l, x = m := by
  induction l with
  | nil => simp
  | cons a l ih =>
    rw [List.map_cons, List.sum_cons, List.forall_mem_cons, ← ih]
    have h1 : 0 ≤ (a - m) ^ 2 := sq_nonneg _
    have h2 : 0 ≤ (l.map fun x => (x - m) ^ 2).sum := List.sum_nonneg (by
      intro y hy; obtain ⟨x, -, rfl⟩ := List.mem_map.1 hy; exact sq_nonneg _)
    rw [add_eq_zero_iff_of_nonneg h1 h2, sq_eq_zero_iff, sub_eq_zero]

/-- C59: `Normal::from_data` returns exactly the arithmetic mean and the unbiased sample variance, and it panics exactly
for fewer than two samples and for constant data. -/
theorem C59_normal_from_data (data : List K) :
    (normalFromData data = none ↔ data.length < 2 ∨ ∃ c, ∀ x ∈ data, x = c) ∧
    ∀ m v, normalFromData data = some (m, v) →
      m = data.sum / (data.length : K) ∧
      v = (data.map fun x => (x - m) ^ 2).sum / ((data.length : K) - 1) ∧ 0 < v := by
  by_cases hl : data.length < 2
  · refine ⟨⟨fun _ => Or.inl hl, fun _ => ?_⟩, fun m v h => ?_⟩
    · rw [normalFromData, if_pos hl]
    · rw [normalFromData, if_pos hl] at h; simp at h
  set m := data.sum / (data.length : K) with hm
  have e1 : calcMean data = some m := by rw [calcMean, if_neg (by omega), dataSum_eq]
  have hpos : (0 : K) < (data.length : K) - 1 := by
    have : ((2 : ℕ) : K) ≤ (data.length : K) := Nat.cast_le.2 (by omega)
    push_cast at this; linarith
  set S := (data.map fun x => (x - m) ^ 2).sum with hS
  have e2 : calcVariance data m = some (S / ((data.length : K) - 1)) := by
    rw [calcVariance, if_neg (by omega), foldl_sum (fun x => (x - m) ^ 2), zero_add, Nat.cast_sub (by omega), Nat.cast_one]
  have S0 : 0 ≤ S := List.sum_nonneg (by
    intro y hy; obtain ⟨x, -, rfl⟩ := List.mem_map.1 hy; exact sq_nonneg _)
  have e3 : normalFromData data =
      if S / ((data.length : K) - 1) ≤ 0 then none else some (m, S / ((data.length : K) - 1)) := by
    rw [normalFromData, if_neg hl, e1]
    simp only [Option.bind_eq_bind, Option.bind_some, e2]
  have hc : S = 0 ↔ ∃ c, ∀ x ∈ data, x = c := by
    rw [hS, sum_sq_zero_iff]
    constructor
    · exact fun h => ⟨m, h⟩
    · rintro ⟨c, h⟩ x hx
      have : data.sum = (data.length : K) * c := by
        rw [List.eq_replicate_of_mem h, List.sum_replicate, List.length_replicate, nsmul_eq_mul]
      rw [h x hx, hm, this]
      have : (data.length : K) ≠ 0 := by linarith
      field_simp
  refine ⟨?_, fun m' v h => ?_⟩
  · rw [e3, ← hc]
    split_ifs with h
    · have : S = 0 := le_antisymm (by
        have := (div_le_iff₀ hpos).1 h; linarith) S0
      simp [this]
    · have : S ≠ 0 := fun h0 => h (by rw [h0]; simp)
      simp only [reduceCtorEq, false_iff, not_or]
      exact ⟨hl, this⟩
  · rw [e3] at h
    split_ifs at h with h1
    cases h
    exact ⟨rfl, rfl, not_le.1 h1⟩

example : normalFromData [1, 2, 3, (4 : ℚ)] = some (5 / 2, 5 / 3) ∧ normalFromData [(1 : ℚ)] = none ∧
    normalFromData [(2 : ℚ), 2, 2] = none := by decide +kernel

/-- C59: `Exponential::from_data` returns the reciprocal of the arithmetic mean, and accepts exactly the data with a
positive mean. -/
theorem C59_exponential_from_data (data : List K) (l : K) :
    expoFromData data = some l ↔ 0 < data.sum / (data.length : K) ∧ l = (data.length : K) / data.sum := by
  unfold expoFromData calcMean
  rw [dataSum_eq]
  by_cases h0 : data.length = 0
  · simp [h0]
  · rw [if_neg h0]
    simp only [Option.bind_eq_bind, Option.bind_some]
    by_cases h1 : data.sum / (data.length : K) = 0
    · rw [if_pos h1, h1]; simp
    · rw [if_neg h1]
      split_ifs with h2 <;> rw [one_div_nonpos] at h2
      · simp [not_lt.2 h2]
      · simp only [Option.some.injEq, one_div_div, not_le.1 h2, true_and]
        exact eq_comm

example : expoFromData [1, 2, (6 : ℚ)] = some (1 / 3) ∧ expoFromData [-1, -(2 : ℚ)] = none := by decide +kernel

end data

/-! ## C60 -/

theorem rcos_new_some {mu s : ℝ} {d : ℝ × ℝ} (h : rcosNew mu s = some d) : d = (mu, s) ∧ 0 ≤ s := by
  unfold rcosNew at h
  split_ifs at h with h1
  exact ⟨(Option.some.inj h).symm, not_lt.1 h1⟩

theorem rcos_box (mu : ℝ) {s : ℝ} (hs : 0 < s) :
    (∀ x, mu - s ≤ x → x ≤ mu + s → rcosPdf (mu, s) x = (1 + Real.cos (Real.pi * (x - mu) / s)) / (2 * s)) ∧
    ∀ x, ¬ (mu - s ≤ x ∧ x ≤ mu + s) → rcosPdf (mu, s) x = 0 := by
  refine ⟨fun x h1 h2 => ?_, fun x h => ?_⟩
  · rcases h2.lt_or_eq with h3 | h3
    · rw [rcosPdf, if_pos ⟨h1, h3⟩]
    · rw [rcosPdf, if_neg (by simp only [h3]; intro h; exact lt_irrefl _ h.2)]
      subst h3
      rw [show Real.pi * (mu + s - mu) / s = Real.pi by field_simp; ring, Real.cos_pi]
      ring
  · rw [rcosPdf, if_neg (fun h' => h ⟨h'.1, h'.2.le⟩)]

theorem rcos_hasDerivAt (mu : ℝ) {s : ℝ} (hs : 0 < s) (x : ℝ) :
    HasDerivAt (fun x => (1 + (x - mu) / s + 1 / Real.pi * Real.sin ((x - mu) / s * Real.pi)) / 2)
      ((1 + Real.cos (Real.pi * (x - mu) / s)) / (2 * s)) x := by
  have h1 : HasDerivAt (fun x => (x - mu) / s) (1 / s) x := ((hasDerivAt_id x).sub_const mu).div_const s
  have h2 := (((h1.const_add 1).add (((h1.mul_const Real.pi).sin).const_mul (1 / Real.pi))).div_const 2)
  refine h2.congr_deriv ?_
  have := Real.pi_ne_zero
  rw [show Real.pi * (x - mu) / s = (x - mu) / s * Real.pi by ring]
  field_simp

theorem rcos_continuous (mu s : ℝ) : Continuous fun x => (1 + Real.cos (Real.pi * (x - mu) / s)) / (2 * s) := by
  fun_prop

/-- C60: for `s > 0` the raised cosine density is nonnegative and integrates to one, `cdf` is total and the integral of
the density, and `mean` and `variance` are the first moment and the second central moment. -/
theorem C60_raised_cosine (mu : ℝ) {s : ℝ} (hs : 0 < s) :
    rcosNew mu s = some (mu, s) ∧ (∀ x, 0 ≤ rcosPdf (mu, s) x) ∧ Integrable (rcosPdf (mu, s)) ∧
    ∫ x, rcosPdf (mu, s) x = 1 ∧ (∀ x, rcosCdf (mu, s) x = some (∫ t in Iic x, rcosPdf (mu, s) t)) ∧
    rcosMean (mu, s) = ∫ x, x * rcosPdf (mu, s) x ∧
    rcosVariance (mu, s) = ∫ x, (x - rcosMean (mu, s)) ^ 2 * rcosPdf (mu, s) x := by
  have hb := rcos_box mu hs
  have hab : mu - s ≤ mu + s := by linarith
  have I := integral_box hab hb.1 hb.2
  have hpi := Real.pi_ne_zero
  have F : ∀ u : ℝ, ∫ t in (mu - s)..u, (1 + Real.cos (Real.pi * (t - mu) / s)) / (2 * s) =
      (1 + (u - mu) / s + 1 / Real.pi * Real.sin ((u - mu) / s * Real.pi)) / 2 := fun u => by
    rw [intervalIntegral.integral_eq_sub_of_hasDerivAt (fun x _ => rcos_hasDerivAt mu hs x)
      ((rcos_continuous mu s).intervalIntegrable _ _)]
    rw [show (mu - s - mu) / s = -1 by field_simp; ring]
    simp
  have F1 : ∫ t in (mu - s)..(mu + s), (1 + Real.cos (Real.pi * (t - mu) / s)) / (2 * s) = 1 := by
    rw [F, show (mu + s - mu) / s = 1 by field_simp; ring]
    simp
  refine ⟨?_, fun x => ?_, integrable_box hb.1 hb.2 (rcos_continuous mu s).continuousOn, ?_, fun x => ?_, ?_, ?_⟩
  · rw [rcosNew, if_neg (not_lt.2 hs.le)]
  · unfold rcosPdf; split_ifs
    · have := Real.neg_one_le_cos (Real.pi * (x - mu) / s)
      exact div_nonneg (by simp only; linarith) (by simp only; linarith)
    · exact le_rfl
  · have := I (fun _ => 1)
    simp only [one_mul] at this
    rw [this, F1]
  · rw [integral_Iic_box hab hb.1 hb.2, F1, F, rcosCdf]
    simp only
    by_cases h1 : mu - s ≤ x ∧ x ≤ mu + s
    · rw [if_pos h1, if_neg hs.ne', if_neg (not_lt.2 h1.1), if_neg (not_lt.2 h1.2)]
    · rw [if_neg h1]
      by_cases h2 : x < mu - s
      · rw [if_pos h2, if_pos h2]
      · rw [if_neg h2, if_neg h2, if_pos (by by_contra h3; exact h1 ⟨not_lt.1 h2, not_lt.1 h3⟩)]
  · have D : ∀ x : ℝ, HasDerivAt (fun x => ((x - mu) ^ 2 / 2 + mu * (x - mu)
        + s / Real.pi * (x * Real.sin (Real.pi * (x - mu) / s))
        + (s / Real.pi) ^ 2 * Real.cos (Real.pi * (x - mu) / s)) / (2 * s))
        (x * ((1 + Real.cos (Real.pi * (x - mu) / s)) / (2 * s))) x := fun x => by
      have h0 : HasDerivAt (fun x => x - mu) 1 x := (hasDerivAt_id x).sub_const mu
      have h1 : HasDerivAt (fun x => Real.pi * (x - mu) / s) (Real.pi * 1 / s) x := (h0.const_mul _).div_const s
      have h2 := (((((h0.pow 2).div_const 2).add (h0.const_mul mu)).add
        (((hasDerivAt_id x).mul h1.sin).const_mul (s / Real.pi))).add (h1.cos.const_mul ((s / Real.pi) ^ 2))).div_const
          (2 * s)
      refine h2.congr_deriv ?_
      simp only [id]
      field_simp
      ring
    rw [I, intervalIntegral.integral_eq_sub_of_hasDerivAt (fun x _ => D x)
      ((continuous_id.mul (rcos_continuous mu s)).intervalIntegrable _ _)]
    rw [show Real.pi * (mu + s - mu) / s = Real.pi by field_simp; ring,
      show Real.pi * (mu - s - mu) / s = -Real.pi by field_simp; ring]
    simp only [Real.sin_pi, Real.sin_neg, Real.cos_pi, Real.cos_neg, rcosMean]
    field_simp
    ring
  · have D : ∀ x : ℝ, HasDerivAt (fun x => ((x - mu) ^ 3 / 3
        + s / Real.pi * ((x - mu) ^ 2 * Real.sin (Real.pi * (x - mu) / s))
        + 2 * (s / Real.pi) ^ 2 * ((x - mu) * Real.cos (Real.pi * (x - mu) / s))
        - 2 * (s / Real.pi) ^ 3 * Real.sin (Real.pi * (x - mu) / s)) / (2 * s))
        ((x - mu) ^ 2 * ((1 + Real.cos (Real.pi * (x - mu) / s)) / (2 * s))) x := fun x => by
      have h0 : HasDerivAt (fun x => x - mu) 1 x := (hasDerivAt_id x).sub_const mu
      have h1 : HasDerivAt (fun x => Real.pi * (x - mu) / s) (Real.pi * 1 / s) x := (h0.const_mul _).div_const s
      have h2 := (((((h0.pow 3).div_const 3).add (((h0.pow 2).mul h1.sin).const_mul (s / Real.pi))).add
        ((h0.mul h1.cos).const_mul (2 * (s / Real.pi) ^ 2))).sub (h1.sin.const_mul (2 * (s / Real.pi) ^ 3))).div_const
          (2 * s)
      refine h2.congr_deriv ?_
      simp only [Pi.pow_apply]
      field_simp
      ring
    have hcont : Continuous fun x => (x - mu) ^ 2 * ((1 + Real.cos (Real.pi * (x - mu) / s)) / (2 * s)) := by fun_prop
    rw [I]
    simp only [rcosMean]
    rw [intervalIntegral.integral_eq_sub_of_hasDerivAt (fun x _ => D x) (hcont.intervalIntegrable _ _)]
    rw [show Real.pi * (mu + s - mu) / s = Real.pi by field_simp; ring,
      show Real.pi * (mu - s - mu) / s = -Real.pi by field_simp; ring]
    simp only [Real.sin_pi, Real.sin_neg, Real.cos_pi, Real.cos_neg, rcosVariance]
    field_simp
    ring

/-- C60: for `s > 0` the `cdf` is a continuous nondecreasing function, `0` up to `mu - s` and `1` from `mu + s` on, and
takes the value 1/2 at the mean, which is also the median. -/
theorem C60_cdf (mu : ℝ) {s : ℝ} (hs : 0 < s) :
    ∃ F : ℝ → ℝ, (∀ x, rcosCdf (mu, s) x = some (F x)) ∧ Continuous F ∧ Monotone F ∧ (∀ x ≤ mu - s, F x = 0) ∧
      (∀ x, mu + s ≤ x → F x = 1) ∧ F (rcosMean (mu, s)) = 1 / 2 ∧ rcosMedian (mu, s) = rcosMean (mu, s) := by
  obtain ⟨-, h0, hi, h1, hc, -, -⟩ := C60_raised_cosine mu hs
  have hb := rcos_box mu hs
  refine ⟨fun x => ∫ t in Iic x, rcosPdf (mu, s) t, hc, ?_, ?_, fun x hx => ?_, fun x hx => ?_, ?_, rfl⟩
  · have hz : ∀ x, ∫ t in Iic x, rcosPdf (mu, s) t =
        (∫ t in Iic (0 : ℝ), rcosPdf (mu, s) t) + ∫ t in (0 : ℝ)..x, rcosPdf (mu, s) t := fun x => by
      rw [← intervalIntegral.integral_Iic_sub_Iic hi.integrableOn hi.integrableOn]; ring
    rw [funext hz]
    exact continuous_const.add (intervalIntegral.continuous_primitive (fun a b => hi.intervalIntegrable) 0)
  · intro a b hab
    exact setIntegral_mono_set hi.integrableOn (ae_of_all _ fun x => h0 x) (Iic_subset_Iic.2 hab).eventuallyLE
  · have := hc x
    rw [rcosCdf] at this
    simp only at this
    by_cases h2 : x = mu - s
    · rw [if_pos ⟨h2.ge, by linarith⟩, if_neg hs.ne', h2, show (mu - s - mu) / s = -1 by field_simp; ring] at this
      simp at this
      rw [h2]; exact this.symm
    · have h3 : x < mu - s := lt_of_le_of_ne hx h2
      rw [if_neg (fun h => by linarith [h.1]), if_pos h3] at this
      exact (Option.some.inj this).symm
  · have := hc x
    rw [rcosCdf] at this
    simp only at this
    by_cases h2 : x = mu + s
    · rw [if_pos ⟨by linarith, h2.le⟩, if_neg hs.ne', h2, show (mu + s - mu) / s = 1 by field_simp; ring] at this
      simp at this
      rw [h2]; exact this.symm
    · have h3 : mu + s < x := lt_of_le_of_ne hx (Ne.symm h2)
      rw [if_neg (fun h => by linarith [h.2]), if_neg (by linarith)] at this
      exact (Option.some.inj this).symm
  · have := hc mu
    rw [rcosCdf] at this
    simp only at this
    rw [if_pos ⟨by linarith, by linarith⟩, if_neg hs.ne'] at this
    simp at this
    simp only [rcosMean]
    rw [← this]; norm_num

example : rcosCdf (1, 2) 2 = some (3 / 4 + 1 / (2 * Real.pi)) ∧ rcosPdf (1, 2) 2 = 1 / 4 := by
  constructor
  · rw [rcosCdf]
    norm_num
    rw [show 1 / 2 * Real.pi = Real.pi / 2 by ring, Real.sin_pi_div_two]
    ring
  · rw [rcosPdf]
    norm_num

/-- C60 is violated at the boundary of the documented parameter range: `new` accepts `s = 0` (documented is `s > 0`),
the density is then zero everywhere, and `cdf` at the mean is `0 / 0`. -/
theorem C60_zero_violated (mu : ℝ) : rcosNew mu 0 = some (mu, 0) ∧ (∀ x, rcosPdf (mu, 0) x = 0) ∧
    rcosCdf (mu, 0) mu = none := by
  refine ⟨by rw [rcosNew, if_neg (lt_irrefl 0)], fun x => ?_, ?_⟩
  · rw [rcosPdf, if_neg]; intro h; simp only [sub_zero, add_zero] at h; linarith [h.1, h.2]
  · rw [rcosCdf, if_pos (by simp)]; simp

end Stat
end Verif
