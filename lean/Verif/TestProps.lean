import Verif.TestModel
import Verif.RcosProps
import Mathlib.Analysis.SpecialFunctions.Log.Basic
import Mathlib.Algebra.Order.BigOperators.Ring.Finset
import Mathlib.Data.List.GetD

/-! # Chi-square test, G-test and t-tests: C61, C62 and C63 -/

namespace Verif
namespace Stat
open Finset

section sums
variable {K : Type} [Field K]

theorem sum_getD (x : List K) : x.sum = ∑ j ∈ range x.length, x.getD j 0 := by
  induction x with
  | nil => simp
  | cons a x ih => rw [List.sum_cons, List.length_cons, sum_range_succ', ih]; simp [add_comm]

theorem range_foldl (g : ℕ → K) (m : ℕ) : ∀ s : K,
    (List.range m).foldl (fun s l => s + g l) s = s + ∑ l ∈ range m, g l := by
  induction m with
  | zero => intro s; simp
  | succ m ih => intro s; rw [List.range_succ, List.foldl_append, ih, sum_range_succ]; simp [add_assoc]

theorem loop_sum (g : ℕ → K) (F : K → ℕ → Option K) (m : ℕ) (s : K)
    (hF : ∀ t j, j < m → F t j = some (t + g j)) : forRange 0 m F s = some (s + ∑ j ∈ range m, g j) := by
  induction m with
  | zero => rw [forRange_empty le_rfl]; simp
  | succ m ih =>
    rw [forRange_succ (Nat.zero_le _), ih (fun t j hj => hF t j (by omega)), sum_range_succ]
    simp [hF _ m (by omega), add_assoc]

end sums

/-! ## C61 -/

section chi
variable {K : Type} [Field K] [LinearOrder K] [IsStrictOrderedRing K]

omit [IsStrictOrderedRing K] in
/-- C61: `test_vector` panics if the lengths differ (or the samples are empty). -/
theorem C61_panics (x y : List K) (h : x.length ≠ y.length ∨ y.length = 0) : chiSquareTest x y = none := by
  unfold chiSquareTest
  by_cases h1 : x.length ≠ y.length
  · rw [if_pos h1]
  · rw [if_neg h1, if_pos (by tauto)]

omit [IsStrictOrderedRing K] in
theorem chiSquare_eq {x y : List K} (hl : x.length = y.length) (h0 : x.length ≠ 0) (hx : x.sum ≠ 0) (hy : y.sum ≠ 0)
    (hn : x.sum + y.sum ≠ 0) (hj : ∀ j < x.length, x.getD j 0 + y.getD j 0 ≠ 0) :
    chiSquareTest x y = some (x.length - 1, ∑ j ∈ range x.length,
      (x.getD j 0 * y.sum - y.getD j 0 * x.sum) ^ 2 / ((x.getD j 0 + y.getD j 0) * (x.sum * y.sum))) := by
  unfold chiSquareTest
  rw [if_neg (by simpa using hl), if_neg (by omega)]
  simp only [dataSum_eq, range_foldl, zero_add]
  have ex : ∑ l ∈ range x.length, x.getD l 0 = x.sum := (sum_getD x).symm
  have ey : ∑ l ∈ range x.length, y.getD l 0 = y.sum := by rw [hl]; exact (sum_getD y).symm
  rw [ex, ey, loop_sum (fun j => (x.getD j 0 * y.sum - y.getD j 0 * x.sum) ^ 2 /
    ((x.getD j 0 + y.getD j 0) * (x.sum * y.sum)))]
  · simp [hl]
  · intro t j hjl
    have h3 := hj j hjl
    rw [forRange_step (by norm_num), if_neg hn]
    simp only [if_true]
    rw [if_neg (div_ne_zero (mul_ne_zero hx h3) hn)]
    simp only [Option.bind_some]
    rw [forRange_step (by norm_num), if_neg hn]
    simp only [zero_add, one_ne_zero, if_false]
    rw [if_neg (div_ne_zero (mul_ne_zero hy h3) hn)]
    simp only [Option.bind_some]
    rw [forRange_empty (by norm_num), Option.some.injEq, add_assoc]
    congr 1
    generalize x.getD j 0 = a at *
    generalize y.getD j 0 = b at *
    generalize x.sum = X at *
    generalize y.sum = Y at *
    field_simp
    ring

omit [LinearOrder K] [IsStrictOrderedRing K] in
theorem sum_pos_of_pos [LinearOrder K] [IsStrictOrderedRing K] {x : List K} (h0 : x.length ≠ 0) (hx : ∀ a ∈ x, 0 < a) :
    0 < x.sum := by
  refine List.sum_pos x hx ?_
  rintro rfl; exact h0 rfl

theorem getD_pos {x : List K} (hx : ∀ a ∈ x, 0 < a) {j : ℕ} (hj : j < x.length) : 0 < x.getD j 0 := by
  rw [List.getD_eq_getElem _ _ hj]; exact hx _ (List.getElem_mem hj)

/-- C61: for positive count vectors of the same length `m > 0` the test has `df = m - 1`, and its statistic is
Pearson's statistic of the `2 × m` table: the sum over the cells of `(observed - expected)² / expected`, with
`expected = row sum · column sum / total`. -/
theorem C61_statistic {x y : List K} (hl : x.length = y.length) (h0 : x.length ≠ 0) (hx : ∀ a ∈ x, 0 < a)
    (hy : ∀ a ∈ y, 0 < a) :
    chiSquareTest x y = some (x.length - 1,
      let E := fun (r : K) (j : ℕ) => r * (x.getD j 0 + y.getD j 0) / (x.sum + y.sum)
      (∑ j ∈ range x.length, (x.getD j 0 - E x.sum j) ^ 2 / E x.sum j) +
        ∑ j ∈ range x.length, (y.getD j 0 - E y.sum j) ^ 2 / E y.sum j) := by
  have hX := sum_pos_of_pos h0 hx
  have hY := sum_pos_of_pos (by omega) hy
  have hj : ∀ j < x.length, x.getD j 0 + y.getD j 0 ≠ 0 := fun j hj =>
    (add_pos (getD_pos hx hj) (getD_pos hy (by omega))).ne'
  rw [chiSquare_eq hl h0 hX.ne' hY.ne' (add_pos hX hY).ne' hj, ← sum_add_distrib]
  simp only [Option.some.injEq, Prod.mk.injEq, true_and]
  refine sum_congr rfl fun j hjr => ?_
  have h3 := hj j (mem_range.1 hjr)
  have hn := (add_pos hX hY).ne'
  have hX' := hX.ne'
  have hY' := hY.ne'
  generalize x.getD j 0 = a at *
  generalize y.getD j 0 = b at *
  generalize x.sum = X at *
  generalize y.sum = Y at *
  field_simp
  ring

example : chiSquareTest [10, (20 : ℚ)] [30, 10] = some (1, 875 / 72) := by decide +kernel

/-- C61: for positive count vectors of the same positive length the statistic is nonnegative, symmetric in the samples,
it is multiplied by `c` if all counts are multiplied by `c > 0`, and it is zero exactly for proportional samples. -/
theorem C61_chi_square {x y : List K} (hl : x.length = y.length) (h0 : x.length ≠ 0) (hx : ∀ a ∈ x, 0 < a)
    (hy : ∀ a ∈ y, 0 < a) :
    ∃ chi : K, chiSquareTest x y = some (x.length - 1, chi) ∧ 0 ≤ chi ∧ chiSquareTest y x = some (x.length - 1, chi) ∧
      (∀ c : K, 0 < c → chiSquareTest (x.map (c * ·)) (y.map (c * ·)) = some (x.length - 1, c * chi)) ∧
      (chi = 0 ↔ ∃ c : K, 0 < c ∧ ∀ j < x.length, x.getD j 0 = c * y.getD j 0) := by
  have hX := sum_pos_of_pos h0 hx
  have hY := sum_pos_of_pos (by omega) hy
  have hp : ∀ j < x.length, 0 < x.getD j 0 + y.getD j 0 := fun j hj =>
    (add_pos (getD_pos hx hj) (getD_pos hy (by omega)))
  have hj : ∀ j < x.length, x.getD j 0 + y.getD j 0 ≠ 0 := fun j h => (hp j h).ne'
  have hnn : ∀ j ∈ range x.length, 0 ≤
      (x.getD j 0 * y.sum - y.getD j 0 * x.sum) ^ 2 / ((x.getD j 0 + y.getD j 0) * (x.sum * y.sum)) := fun j h =>
    div_nonneg (sq_nonneg _) (mul_nonneg (hp j (mem_range.1 h)).le (mul_pos hX hY).le)
  refine ⟨_, chiSquare_eq hl h0 hX.ne' hY.ne' (add_pos hX hY).ne' hj, sum_nonneg hnn, ?_, fun c hc => ?_, ?_⟩
  · rw [chiSquare_eq hl.symm (by omega) hY.ne' hX.ne' (add_pos hY hX).ne' (fun j h => by
      rw [add_comm]; exact hj j (by omega)), hl]
    simp only [Option.some.injEq, Prod.mk.injEq, true_and]
    refine sum_congr rfl fun j _ => ?_
    rw [show x.sum * y.sum = y.sum * x.sum by ring, add_comm (x.getD j 0), ← neg_sq, neg_sub]
  · have sx : (x.map (c * ·)).sum = c * x.sum := by
      have := List.sum_map_mul_left x id c; simpa using this
    have sy : (y.map (c * ·)).sum = c * y.sum := by
      have := List.sum_map_mul_left y id c; simpa using this
    have gx : ∀ j, (x.map (c * ·)).getD j 0 = c * x.getD j 0 := fun j => by
      have := List.getD_map (l := x) (d := 0) (n := j) (c * ·)
      rw [mul_zero] at this
      exact this
    have gy : ∀ j, (y.map (c * ·)).getD j 0 = c * y.getD j 0 := fun j => by
      have := List.getD_map (l := y) (d := 0) (n := j) (c * ·)
      rw [mul_zero] at this
      exact this
    rw [chiSquare_eq (by simpa using hl) (by simpa using h0) (by rw [sx]; positivity) (by rw [sy]; positivity)
      (by rw [sx, sy]; positivity) (by
        intro j h
        rw [gx, gy, ← mul_add]
        exact mul_ne_zero hc.ne' (hj j (by simpa using h)))]
    rw [mul_sum]
    simp only [List.length_map, gx, gy, sx, sy, Option.some.injEq, Prod.mk.injEq, true_and]
    refine sum_congr rfl fun j hjr => ?_
    have h3 := hj j (mem_range.1 hjr)
    have hX' := hX.ne'
    have hY' := hY.ne'
    generalize x.getD j 0 = a at *
    generalize y.getD j 0 = b at *
    generalize x.sum = X at *
    generalize y.sum = Y at *
    have : c * a + c * b ≠ 0 := by rw [← mul_add]; exact mul_ne_zero hc.ne' h3
    field_simp
  · rw [sum_eq_zero_iff_of_nonneg hnn]
    constructor
    · intro h
      refine ⟨x.sum / y.sum, div_pos hX hY, fun j hjl => ?_⟩
      have := h j (mem_range.2 hjl)
      rw [div_eq_zero_iff, sq_eq_zero_iff] at this
      rcases this with h1 | h1
      · field_simp
        linear_combination h1
      · exact absurd h1 (mul_ne_zero (hj j hjl) (mul_pos hX hY).ne')
    · rintro ⟨c, hc, h⟩ j hjl
      have hs : x.sum = c * y.sum := by
        rw [sum_getD, sum_getD, mul_sum, ← hl]
        exact sum_congr rfl fun j hj => h j (mem_range.1 hj)
      rw [h j (mem_range.1 hjl), hs]
      rw [show c * y.getD j 0 * y.sum - y.getD j 0 * (c * y.sum) = 0 by ring]
      simp

end chi

/-! ## C62 -/

/-- C62: `test_vector` panics if the lengths differ (or the samples are empty). -/
theorem C62_panics (x y : List ℝ) (h : x.length ≠ y.length ∨ x.length = 0) : gTest x y = none := by
  unfold gTest
  by_cases h1 : x.length ≠ y.length
  · rw [if_pos h1]
  · rw [if_neg h1, if_pos (by tauto)]

/-- C62: for positive vectors of the same length `m > 0` the test has `df = m - 1`, and its statistic is
`2 Σ observed · ln(observed / expected)` with the expected counts `y` scaled to the total of `x`. -/
theorem C62_statistic {x y : List ℝ} (hl : x.length = y.length) (h0 : x.length ≠ 0) (hx : ∀ a ∈ x, 0 < a)
    (hy : ∀ a ∈ y, 0 < a) :
    gTest x y = some (x.length - 1,
      2 * ∑ j ∈ range x.length, x.getD j 0 * Real.log (x.getD j 0 / (y.getD j 0 * x.sum / y.sum))) := by
  have hX := sum_pos_of_pos h0 hx
  have hY := sum_pos_of_pos (by omega) hy
  unfold gTest
  rw [if_neg (by simpa using hl), if_neg h0]
  simp only [dataSum_eq]
  rw [if_neg hX.ne', loop_sum (fun j => x.getD j 0 * Real.log (x.getD j 0 / (y.getD j 0 * x.sum / y.sum)))]
  · simp
  · intro t j hj
    have h1 := getD_pos hx hj
    have h2 := getD_pos hy (by omega : j < y.length)
    rw [if_neg (div_pos hY hX).ne', if_neg (div_pos h2 (div_pos hY hX)).ne',
      if_neg (not_le.2 (div_pos h1 (div_pos h2 (div_pos hY hX))))]
    rw [show y.getD j 0 / (y.sum / x.sum) = y.getD j 0 * x.sum / y.sum by rw [div_div_eq_mul_div]]

/-- C62: for positive vectors of the same positive length `g` is nonnegative, and zero exactly for proportional vectors. -/
theorem C62_g_test {x y : List ℝ} (hl : x.length = y.length) (h0 : x.length ≠ 0) (hx : ∀ a ∈ x, 0 < a)
    (hy : ∀ a ∈ y, 0 < a) :
    ∃ g : ℝ, gTest x y = some (x.length - 1, g) ∧ 0 ≤ g ∧
      (g = 0 ↔ ∃ c : ℝ, 0 < c ∧ ∀ j < x.length, x.getD j 0 = c * y.getD j 0) := by
  have hX := sum_pos_of_pos h0 hx
  have hY := sum_pos_of_pos (by omega) hy
  refine ⟨_, C62_statistic hl h0 hx hy, ?_⟩
  -- `x ln(x/e) - (x - e) ≥ 0`, with equality only for `x = e`
  have key : ∀ a e : ℝ, 0 < a → 0 < e → 0 ≤ a * Real.log (a / e) - (a - e) ∧
      (a * Real.log (a / e) - (a - e) = 0 ↔ a = e) := fun a e ha he => by
    have e1 : a * Real.log (a / e) - (a - e) = a * (e / a - 1 - Real.log (e / a)) := by
      rw [← inv_div, Real.log_inv]; field_simp; ring
    rw [e1]
    have h1 := Real.log_le_sub_one_of_pos (div_pos he ha)
    refine ⟨mul_nonneg ha.le (by linarith), ?_⟩
    rw [mul_eq_zero, or_iff_right ha.ne']
    constructor
    · intro h
      by_contra hne
      have := Real.log_lt_sub_one_of_pos (div_pos he ha) (by
        intro h2; rw [div_eq_one_iff_eq ha.ne'] at h2; exact hne h2.symm)
      linarith
    · rintro rfl; rw [div_self ha.ne', Real.log_one]; ring
  have hE : ∀ j ∈ range x.length, 0 < y.getD j 0 * x.sum / y.sum := fun j h =>
    div_pos (mul_pos (getD_pos hy (by have := mem_range.1 h; omega)) hX) hY
  have hsE : ∑ j ∈ range x.length, (x.getD j 0 - y.getD j 0 * x.sum / y.sum) = 0 := by
    rw [sum_sub_distrib, ← sum_div, ← sum_mul, ← sum_getD, hl, ← sum_getD]
    field_simp
    ring
  have hs : ∑ j ∈ range x.length, x.getD j 0 * Real.log (x.getD j 0 / (y.getD j 0 * x.sum / y.sum)) =
      ∑ j ∈ range x.length, (x.getD j 0 * Real.log (x.getD j 0 / (y.getD j 0 * x.sum / y.sum)) -
        (x.getD j 0 - y.getD j 0 * x.sum / y.sum)) := by
    rw [sum_sub_distrib, hsE, sub_zero]
  rw [hs]
  have hnn : ∀ j ∈ range x.length, 0 ≤ (x.getD j 0 * Real.log (x.getD j 0 / (y.getD j 0 * x.sum / y.sum)) -
        (x.getD j 0 - y.getD j 0 * x.sum / y.sum)) := fun j h =>
    (key _ _ (getD_pos hx (mem_range.1 h)) (hE j h)).1
  refine ⟨mul_nonneg (by norm_num) (sum_nonneg hnn), ?_⟩
  rw [mul_eq_zero, or_iff_right (by norm_num : (2 : ℝ) ≠ 0), sum_eq_zero_iff_of_nonneg hnn]
  constructor
  · intro h
    refine ⟨x.sum / y.sum, div_pos hX hY, fun j hj => ?_⟩
    have := (key _ _ (getD_pos hx hj) (hE j (mem_range.2 hj))).2.1 (h j (mem_range.2 hj))
    rw [this]; ring
  · rintro ⟨c, hc, h⟩ j hj
    rw [(key _ _ (getD_pos hx (mem_range.1 hj)) (hE j hj)).2]
    have hs : x.sum = c * y.sum := by
      rw [sum_getD, sum_getD, mul_sum, ← hl]
      exact sum_congr rfl fun j hj => h j (mem_range.1 hj)
    rw [h j (mem_range.1 hj), hs]
    field_simp

/-- C62: a zero among the observed counts makes the test return a NaN (`0 · ln 0`), although the summand should be 0. -/
theorem C62_zero_count {x y : List ℝ} {i : ℕ} (hi : i < x.length) (h : x.getD i 0 = 0) : gTest x y = none := by
  unfold gTest
  by_cases h1 : x.length ≠ y.length
  · rw [if_pos h1]
  by_cases h2 : x.length = 0
  · rw [if_neg h1, if_pos h2]
  · rw [if_neg h1, if_neg h2]
    simp only
    by_cases h3 : dataSum x = 0
    · rw [if_pos h3]
    · rw [if_neg h3]
      have : forRange 0 x.length (fun (g : ℝ) i =>
          if dataSum y / dataSum x = 0 then none
          else if y.getD i 0 / (dataSum y / dataSum x) = 0 then none
          else
            if x.getD i 0 / (y.getD i 0 / (dataSum y / dataSum x)) ≤ 0 then none
            else some (g + x.getD i 0 * Real.log (x.getD i 0 / (y.getD i 0 / (dataSum y / dataSum x))))) 0 = none := by
        by_contra hc
        obtain ⟨t, ht⟩ := Option.ne_none_iff_exists'.1 hc
        have := forRange_inv_of_some (fun k (_ : ℝ) => k ≤ i) (Nat.zero_le _) (fun k s s' h1 h2 h3 h4 => ?_) ht
        · simp at this; omega
        · by_contra h5
          have : k = i := by omega
          subst this
          rw [h] at h4
          simp at h4
      rw [this]; rfl

example : gTest [1, 3] [1, 1] = some (1, 2 * (Real.log (1 / 2) + 3 * Real.log (3 / 2))) := by
  rw [C62_statistic (x := [1, 3]) (y := [1, 1]) rfl (by simp) (by simp) (by simp)]
  norm_num [sum_range_succ]

/-! ## C63 -/

/-- C63: the one-sample statistic is `√n (x̄ - μ₀) / s` with the arithmetic mean and the unbiased sample variance. -/
theorem C63_one_sample (x : List ℝ) (mu0 : ℝ) (r : TResult) (h : tOneSample x mu0 = some r) :
    let m := x.sum / (x.length : ℝ)
    r.value = √(x.length : ℝ) * (m - mu0) / √((x.map fun a => (a - m) ^ 2).sum / ((x.length : ℝ) - 1)) := by
  unfold tOneSample at h
  cases hd : normalFromData x with
  | none => rw [hd] at h; simp at h
  | some d =>
    rw [hd] at h
    obtain ⟨e1, e2, e3⟩ := (C59_normal_from_data x).2 d.1 d.2 hd
    simp only [Option.bind_eq_bind, Option.bind_some] at h
    split_ifs at h with h1
    cases h
    simp only [TResult.value]
    rw [e2, e1]

/-- C63: the one-sample test accepts exactly the samples with at least two different values. -/
theorem C63_one_sample_panics (x : List ℝ) (mu0 : ℝ) :
    tOneSample x mu0 = none ↔ x.length < 2 ∨ ∃ c, ∀ a ∈ x, a = c := by
  rw [← (C59_normal_from_data x).1]
  unfold tOneSample
  cases hd : normalFromData x with
  | none => simp
  | some d =>
    obtain ⟨e1, e2, e3⟩ := (C59_normal_from_data x).2 d.1 d.2 hd
    simp only [Option.bind_eq_bind, Option.bind_some]
    rw [if_neg (Real.sqrt_pos.2 e3).ne']
    simp

/-- C63: both two-sample statistics are antisymmetric in the samples, and the p-value of the test for unequal variances
is symmetric. -/
theorem C63_antisymm (x y : List ℝ) :
    (∀ r, tEqualVariance x y = some r → ∃ r', tEqualVariance y x = some r' ∧ r'.value = -r.value) ∧
    ∀ (tCdf : ℝ → ℝ → Option ℝ) r, tUnequalVariance tCdf x y = some r →
      ∃ r', tUnequalVariance tCdf y x = some r' ∧ r'.value = -r.value ∧ r'.pValue = r.pValue := by
  constructor
  · intro r h
    unfold tEqualVariance at h ⊢
    cases hx : normalFromData x with
    | none => rw [hx] at h; simp at h
    | some a =>
      cases hy : normalFromData y with
      | none => rw [hx, hy] at h; simp at h
      | some b =>
        rw [hx, hy] at h
        simp only [Option.bind_eq_bind, Option.bind_some] at h ⊢
        rw [add_comm (((y.length - 1 : ℕ) : ℝ) * b.2), add_comm y.length, add_comm (1 / (y.length : ℝ))]
        split_ifs at h ⊢ with h1
        cases h
        exact ⟨_, rfl, by simp only [TResult.value]; ring⟩
  · intro tCdf r h
    unfold tUnequalVariance at h ⊢
    cases hx : normalFromData x with
    | none => rw [hx] at h; simp at h
    | some a =>
      cases hy : normalFromData y with
      | none => rw [hx, hy] at h; simp at h
      | some b =>
        rw [hx, hy] at h
        simp only [Option.bind_eq_bind, Option.bind_some] at h ⊢
        rw [add_comm (b.2 / (y.length : ℝ)),
          add_comm (b.2 * b.2 / ((y.length * y.length * (y.length - 1) : ℕ) : ℝ))]
        split_ifs at h ⊢ with h1 h2
        rw [← neg_sub a.1 b.1, neg_div, abs_neg]
        obtain ⟨c, hc, he⟩ := Option.bind_eq_some_iff.1 h
        rw [hc]
        cases he
        exact ⟨_, rfl, rfl, rfl⟩

/-- C63: the formulas of the two-sample statistics, with the arithmetic means `x̄, ȳ` and the unbiased sample variances
`v, w`: `(x̄ - ȳ) / √(((n-1) v + (m-1) w)/(n+m-2)) / √(1/n + 1/m)` (pooled), and Welch's `(x̄ - ȳ) / √(v/n + w/m)`; the
p-value of Welch's test is `2 F(-|t|)` with Welch's degrees of freedom. -/
theorem C63_two_sample {x y : List ℝ} {a v b w : ℝ} (hx : normalFromData x = some (a, v))
    (hy : normalFromData y = some (b, w)) :
    (∃ r, tEqualVariance x y = some r ∧ r.value = (a - b) /
      √((((x.length : ℝ) - 1) * v + ((y.length : ℝ) - 1) * w) / ((x.length : ℝ) + y.length - 2)) /
        √(1 / (x.length : ℝ) + 1 / (y.length : ℝ))) ∧
    ∀ (tCdf : ℝ → ℝ → Option ℝ) r, tUnequalVariance tCdf x y = some r →
      r.value = (a - b) / √(v / x.length + w / y.length) ∧
      ∃ c, tCdf ((v / x.length + w / y.length) ^ 2 / (v ^ 2 / ((x.length : ℝ) ^ 2 * ((x.length : ℝ) - 1)) +
        w ^ 2 / ((y.length : ℝ) ^ 2 * ((y.length : ℝ) - 1)))) (-|r.value|) = some c ∧ r.pValue = 2 * c := by
  have len : ∀ (z : List ℝ) d, normalFromData z = some d → 2 ≤ z.length := fun z d h => by
    by_contra hc
    rw [normalFromData, if_pos (by omega)] at h
    simp at h
  have lx := len x _ hx
  have ly := len y _ hy
  have vx := ((C59_normal_from_data x).2 _ _ hx).2.2
  have vy := ((C59_normal_from_data y).2 _ _ hy).2.2
  have cx : ((x.length - 1 : ℕ) : ℝ) = (x.length : ℝ) - 1 := by rw [Nat.cast_sub (by omega)]; simp
  have cy : ((y.length - 1 : ℕ) : ℝ) = (y.length : ℝ) - 1 := by rw [Nat.cast_sub (by omega)]; simp
  have rx : (2 : ℝ) ≤ x.length := by exact_mod_cast lx
  have ry : (2 : ℝ) ≤ y.length := by exact_mod_cast ly
  constructor
  · unfold tEqualVariance
    rw [hx, hy]
    simp only [Option.bind_eq_bind, Option.bind_some]
    have cd : ((x.length + y.length - 2 : ℕ) : ℝ) = (x.length : ℝ) + y.length - 2 := by
      rw [Nat.cast_sub (by omega)]; push_cast; ring
    rw [cd, cx, cy]
    rw [if_neg]
    · exact ⟨_, rfl, by simp only [TResult.value]; rw [div_div]⟩
    · apply mul_ne_zero
      · apply (Real.sqrt_pos.2 _).ne'
        apply div_pos
        · exact add_pos (mul_pos (by linarith) vx) (mul_pos (by linarith) vy)
        · linarith
      · apply (Real.sqrt_pos.2 _).ne'
        positivity
  · intro tCdf r h
    unfold tUnequalVariance at h
    rw [hx, hy] at h
    simp only [Option.bind_eq_bind, Option.bind_some] at h
    split_ifs at h with h1 h2
    obtain ⟨c, hc, he⟩ := Option.bind_eq_some_iff.1 h
    cases he
    refine ⟨rfl, c, ?_, rfl⟩
    simp only [TResult.value]
    push_cast at hc
    rw [cx, cy] at hc
    rw [← hc]
    congr 2 <;> ring

/-- C63 is violated: the p-value of the one-sample test and of the test for equal variances is always 0, and `df` is
always 0.  A two-sided p-value would be `2 F(-|t|)`, with `F` the distribution function of a t distribution, so 1 if
`t = 0`: e.g. for the sample `1, 3` and the hypothetical mean 2. -/
theorem C63_violated :
    (∀ x mu0 r, tOneSample x mu0 = some r → r.pValue = 0) ∧ (∀ x y r, tEqualVariance x y = some r → r.pValue = 0) ∧
    (∀ r : TResult, r.df = 0) ∧
    ∃ r, tOneSample [1, 3] 2 = some r ∧ r.value = 0 ∧ r.pValue = 0 ∧
      ∀ F : ℝ → ℝ, F 0 = 1 / 2 → r.pValue ≠ 2 * F (-|r.value|) := by
  refine ⟨fun x mu0 r h => ?_, fun x y r h => ?_, fun _ => rfl, ?_⟩
  · unfold tOneSample at h
    obtain ⟨d, -, h⟩ := Option.bind_eq_some_iff.1 h
    simp only at h
    split_ifs at h
    cases h; rfl
  · unfold tEqualVariance at h
    obtain ⟨d, -, h⟩ := Option.bind_eq_some_iff.1 h
    obtain ⟨e, -, h⟩ := Option.bind_eq_some_iff.1 h
    simp only at h
    split_ifs at h
    cases h; rfl
  · have hd : normalFromData [1, (3 : ℝ)] = some (2, 2) := by
      norm_num [normalFromData, calcMean, calcVariance, dataSum]
    refine ⟨⟨0, 0⟩, ?_, rfl, rfl, fun F hF => ?_⟩
    · unfold tOneSample
      rw [hd]
      simp
    · simp [TResult.pValue, TResult.value, hF]

end Stat
end Verif
