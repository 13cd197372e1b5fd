import Verif.TestProps
import Verif.DistChi
import Verif.DistTCdf

/-!
# C101: the p-values of the statistical tests

`/repo/src/statistics/test/chisquare.rs:103-107`, `g.rs:79-83` and `t.rs:149-176` with the distributions of
`/repo/src/statistics/distrib`.  A p-value is the probability of a statistic at least as extreme as the one observed: the
integral of the density of the χ² distribution over `(value, ∞)`, and twice the integral of the density of the
t distribution over `(-∞, -|t|]`.
-/

namespace Verif
namespace Stat

open MeasureTheory Set

/-- `test/chisquare.rs:103-107` and `test/g.rs:79-83`, `p_value`, of a test with `df` degrees of freedom and the statistic
`value` -/
noncomputable def chiPValue (fuel df : ℕ) (value : ℝ) : Option ℝ := do
  let distrib ← chiNew df
  let c ← chiCdf fuel distrib value
  some (1 - c)

/-- `ChiSquare::test_vector(x, y).p_value()`, `test/chisquare.rs:30-107` -/
noncomputable def chiSquarePValue (fuel : ℕ) (x y : List ℝ) : Option ℝ := do
  let t ← chiSquareTest x y
  chiPValue fuel t.1 t.2

/-- `G::test_vector(x, y).p_value()`, `test/g.rs:35-83` -/
noncomputable def gPValue (fuel : ℕ) (x y : List ℝ) : Option ℝ := do
  let t ← gTest x y
  chiPValue fuel t.1 t.2

/-- `test/t.rs:149-176` and `86-89`: `T::test_independence_unequal_variance(x, y).p_value()` with `new` and `cdf` of
`distrib/t.rs:45-53, 96-106` -/
noncomputable def welchPValue (fuel : ℕ) (x y : List ℝ) : Option ℝ := do
  let r ← tUnequalVariance (fun n v => do
    let d ← tNew n
    tCdf fuel d v) x y
  some r.pValue

/-! ## The χ² tests -/

theorem chiPValue_close {df : ℕ} (hdf : 1 ≤ df) {x : ℝ} (hx : 0 ≤ x) (f : ℝ → ℝ)
    (hf : ∀ x, f x = 1 / (2 ^ ((df : ℝ) / 2) * Real.Gamma (df / 2)) * (x ^ ((df : ℝ) / 2 - 1) * Real.exp (-x / 2))) :
    ∃ N p, (∀ fuel, N ≤ fuel → chiPValue fuel df x = some p) ∧ |p - ∫ u in Ioi x, f u| ≤ 1e-11 := by
  have hnew : chiNew df = some df := by rw [chiNew, if_neg (by omega)]
  obtain ⟨⟨N, v, hv⟩, hc⟩ := C72_cdf hnew x hx
  obtain ⟨hi, h1, -⟩ := C72_moments hnew f hf
  refine ⟨N, 1 - v, fun fuel h => by simp [chiPValue, hnew, hv fuel h], ?_⟩
  have hs : (∫ u in (0 : ℝ)..x, f u) + ∫ u in Ioi x, f u = 1 := by
    rw [← h1, intervalIntegral.integral_of_le hx, ← setIntegral_union Ioc_disjoint_Ioi_same measurableSet_Ioi
      (hi.mono_set Ioc_subset_Ioi_self) (hi.mono_set (Ioi_subset_Ioi hx)), Ioc_union_Ioi_eq_Ioi hx]
  have := hc N v (hv N le_rfl)
  simp only [← hf] at this
  rw [abs_sub_comm] at this
  rwa [show 1 - v - ∫ u in Ioi x, f u = (∫ u in (0 : ℝ)..x, f u) - v by linarith]

/-- **C101**, chi-square test: for positive counts in `m ≥ 2` categories `p_value` terminates, and its value is the
probability that a χ² variable with `m - 1` degrees of freedom exceeds the statistic
`Σ (observed - expected)² / expected` over both samples, with an error of at most `1e-11`. -/
theorem C101_chi_square {x y : List ℝ} (hl : x.length = y.length) (h0 : 2 ≤ x.length) (hx : ∀ a ∈ x, 0 < a)
    (hy : ∀ a ∈ y, 0 < a) (k : ℝ) (hk : k = x.length - 1) (f : ℝ → ℝ)
    (hf : ∀ x, f x = 1 / (2 ^ (k / 2) * Real.Gamma (k / 2)) * (x ^ (k / 2 - 1) * Real.exp (-x / 2))) :
    ∃ N p chi, (∀ fuel, N ≤ fuel → chiSquarePValue fuel x y = some p) ∧
      chi = ∑ j ∈ Finset.range x.length,
        ((x.getD j 0 - x.sum * (x.getD j 0 + y.getD j 0) / (x.sum + y.sum)) ^ 2 /
            (x.sum * (x.getD j 0 + y.getD j 0) / (x.sum + y.sum)) +
          (y.getD j 0 - y.sum * (x.getD j 0 + y.getD j 0) / (x.sum + y.sum)) ^ 2 /
            (y.sum * (x.getD j 0 + y.getD j 0) / (x.sum + y.sum))) ∧
      |p - ∫ u in Ioi chi, f u| ≤ 1e-11 := by
  obtain ⟨chi, hc, hc0, -⟩ := C61_chi_square hl (by omega) hx hy
  have hs := C61_statistic hl (by omega) hx hy
  have hd : ((x.length - 1 : ℕ) : ℝ) = k := by rw [hk, Nat.cast_sub (by omega), Nat.cast_one]
  obtain ⟨N, p, hp, hb⟩ := chiPValue_close (df := x.length - 1) (by omega) hc0 f (by rw [hd]; exact hf)
  refine ⟨N, p, chi, fun fuel h => ?_, ?_, hb⟩
  · rw [chiSquarePValue, hc]
    exact hp fuel h
  · rw [hc] at hs
    simp only [Option.some.injEq, Prod.mk.injEq, true_and] at hs
    rw [hs, Finset.sum_add_distrib]

/-- The test of the README's kind of data: for the counts 10, 20 and 30, 10 the statistic is `875/72 ≈ 12.2` with one
degree of freedom, and the p-value is the tail of the χ² density `e^(-u/2) / √(2πu)` beyond it. -/
example : ∃ N p, (∀ fuel, N ≤ fuel → chiSquarePValue fuel [10, 20] [30, 10] = some p) ∧
    |p - ∫ u in Ioi (875 / 72 : ℝ), 1 / (2 ^ ((1 : ℝ) / 2) * Real.Gamma (1 / 2)) *
      (u ^ ((1 : ℝ) / 2 - 1) * Real.exp (-u / 2))| ≤ 1e-11 := by
  obtain ⟨N, p, chi, h1, h2, h3⟩ := C101_chi_square (x := [10, 20]) (y := [30, 10]) rfl (by simp)
    (by simp) (by simp) 1 (by norm_num) _ (fun _ => rfl)
  refine ⟨N, p, h1, ?_⟩
  rwa [show chi = 875 / 72 by rw [h2]; norm_num [Finset.sum_range_succ]] at h3

/-- **C101**, G-test: for positive counts in `m ≥ 2` categories `p_value` terminates, and its value is the probability that
a χ² variable with `m - 1` degrees of freedom exceeds the statistic `2 Σ observed ln (observed / expected)`, with an error
of at most `1e-11`. -/
theorem C101_g {x y : List ℝ} (hl : x.length = y.length) (h0 : 2 ≤ x.length) (hx : ∀ a ∈ x, 0 < a)
    (hy : ∀ a ∈ y, 0 < a) (k : ℝ) (hk : k = x.length - 1) (f : ℝ → ℝ)
    (hf : ∀ x, f x = 1 / (2 ^ (k / 2) * Real.Gamma (k / 2)) * (x ^ (k / 2 - 1) * Real.exp (-x / 2))) :
    ∃ N p g, (∀ fuel, N ≤ fuel → gPValue fuel x y = some p) ∧
      g = 2 * ∑ j ∈ Finset.range x.length, x.getD j 0 * Real.log (x.getD j 0 / (y.getD j 0 * x.sum / y.sum)) ∧
      |p - ∫ u in Ioi g, f u| ≤ 1e-11 := by
  obtain ⟨g, hc, hc0, -⟩ := C62_g_test hl (by omega) hx hy
  have hs := C62_statistic hl (by omega) hx hy
  have hd : ((x.length - 1 : ℕ) : ℝ) = k := by rw [hk, Nat.cast_sub (by omega), Nat.cast_one]
  obtain ⟨N, p, hp, hb⟩ := chiPValue_close (df := x.length - 1) (by omega) hc0 f (by rw [hd]; exact hf)
  refine ⟨N, p, g, fun fuel h => ?_, ?_, hb⟩
  · rw [gPValue, hc]
    exact hp fuel h
  · rw [hc] at hs
    simp only [Option.some.injEq, Prod.mk.injEq, true_and] at hs
    exact hs

/-- **C101**, ideal agreement: if the observed counts are proportional to the others, the p-values of both tests are 1, up
to `1e-11`. -/
theorem C101_agreement {x y : List ℝ} (hl : x.length = y.length) (h0 : 2 ≤ x.length) (hx : ∀ a ∈ x, 0 < a)
    (hy : ∀ a ∈ y, 0 < a) {c : ℝ} (hc : 0 < c) (h : ∀ j < x.length, x.getD j 0 = c * y.getD j 0) :
    ∃ N p q, (∀ fuel, N ≤ fuel → chiSquarePValue fuel x y = some p ∧ gPValue fuel x y = some q) ∧
      |p - 1| ≤ 1e-11 ∧ |q - 1| ≤ 1e-11 := by
  obtain ⟨chi, hc1, hc0, -, -, e1⟩ := C61_chi_square hl (by omega) hx hy
  obtain ⟨g, hg1, hg0, e2⟩ := C62_g_test hl (by omega) hx hy
  obtain rfl := e1.2 ⟨c, hc, h⟩
  obtain rfl := e2.2 ⟨c, hc, h⟩
  have hnew : chiNew (x.length - 1) = some (x.length - 1) := by rw [chiNew, if_neg (by omega)]
  have hm := (C72_moments hnew _ (fun _ => rfl)).2.1
  obtain ⟨N, p, hp, hb⟩ := chiPValue_close (df := x.length - 1) (by omega) le_rfl _ (fun _ => rfl)
  rw [hm] at hb
  refine ⟨N, p, p, fun fuel hf => ⟨?_, ?_⟩, hb, hb⟩
  · rw [chiSquarePValue, hc1]; exact hp fuel hf
  · rw [gPValue, hg1]; exact hp fuel hf

example : ∃ N p q, (∀ fuel, N ≤ fuel → chiSquarePValue fuel [2, 4, 6] [1, 2, 3] = some p ∧
    gPValue fuel [2, 4, 6] [1, 2, 3] = some q) ∧ |p - 1| ≤ 1e-11 ∧ |q - 1| ≤ 1e-11 :=
  C101_agreement (c := 2) rfl (by simp) (by simp) (by simp) (by norm_num) (fun j hj => by
    simp only [List.length_cons, List.length_nil] at hj
    interval_cases j <;> norm_num)

/-- **C101** is violated for a single category: both tests accept it (with zero degrees of freedom and the statistic 0),
but `p_value` panics in `ChiSquare::new(0)`. -/
theorem C101_single_violated {a b : ℝ} (ha : 0 < a) (hb : 0 < b) :
    chiSquareTest [a] [b] = some (0, 0) ∧ gTest [a] [b] = some (0, 0) ∧
      ∀ fuel, chiSquarePValue fuel [a] [b] = none ∧ gPValue fuel [a] [b] = none := by
  obtain ⟨chi, hc1, hc0, -, -, e1⟩ := C61_chi_square (x := [a]) (y := [b]) rfl (by simp) (by simpa) (by simpa)
  obtain ⟨g, hg1, hg0, e2⟩ := C62_g_test (x := [a]) (y := [b]) rfl (by simp) (by simpa) (by simpa)
  have hex : ∃ c : ℝ, 0 < c ∧ ∀ j < [a].length, [a].getD j 0 = c * [b].getD j 0 :=
    ⟨a / b, by positivity, fun j hj => by
      simp only [List.length_cons, List.length_nil] at hj
      interval_cases j
      simp [hb.ne']⟩
  obtain rfl := e1.2 hex
  obtain rfl := e2.2 hex
  refine ⟨hc1, hg1, fun fuel => ⟨?_, ?_⟩⟩
  · rw [chiSquarePValue, hc1]; simp [chiPValue, chiNew]
  · rw [gPValue, hg1]; simp [chiPValue, chiNew]

/-! ## Welch's test -/

/-- Welch's degrees of freedom of samples of sizes `n` and `m` with variances `v` and `w` -/
noncomputable def welchDf (n m v w : ℝ) : ℝ :=
  (v / n + w / m) ^ 2 / (v ^ 2 / (n ^ 2 * (n - 1)) + w ^ 2 / (m ^ 2 * (m - 1)))

theorem normal_len {z : List ℝ} {d : ℝ × ℝ} (h : normalFromData z = some d) : 2 ≤ z.length := by
  by_contra hc
  rw [normalFromData, if_pos (by omega)] at h
  simp at h

theorem welchDf_pos {n m v w : ℝ} (hn : 1 < n) (hm : 1 < m) (hv : 0 < v) (hw : 0 < w) : 0 < welchDf n m v w := by
  have h1 : 0 < n - 1 := by linarith
  have h2 : 0 < m - 1 := by linarith
  have h3 : 0 < n := by linarith
  have h4 : 0 < m := by linarith
  unfold welchDf
  positivity

/-- `welchPValue` is twice the distribution function of the t distribution at `-|t|`. -/
theorem welch_eq {x y : List ℝ} {a v b w : ℝ} (hx : normalFromData x = some (a, v)) (hy : normalFromData y = some (b, w))
    (fuel : ℕ) : welchPValue fuel x y = (tCdf fuel (welchDf x.length y.length v w)
      (-|(a - b) / √(v / x.length + w / y.length)|)).map (2 * ·) := by
  have lx := normal_len hx
  have ly := normal_len hy
  have vx := ((C59_normal_from_data x).2 _ _ hx).2.2
  have vy := ((C59_normal_from_data y).2 _ _ hy).2.2
  have rx : (2 : ℝ) ≤ x.length := by exact_mod_cast lx
  have ry : (2 : ℝ) ≤ y.length := by exact_mod_cast ly
  have cx : ((x.length - 1 : ℕ) : ℝ) = (x.length : ℝ) - 1 := by rw [Nat.cast_sub (by omega)]; simp
  have cy : ((y.length - 1 : ℕ) : ℝ) = (y.length : ℝ) - 1 := by rw [Nat.cast_sub (by omega)]; simp
  have h0 := welchDf_pos (by linarith : (1 : ℝ) < x.length) (by linarith : (1 : ℝ) < y.length) vx vy
  have h1 : (0 : ℝ) < (x.length : ℝ) - 1 := by linarith
  have h2 : (0 : ℝ) < (y.length : ℝ) - 1 := by linarith
  have hden : v * v / ((x.length * x.length * (x.length - 1) : ℕ) : ℝ)
    + w * w / ((y.length * y.length * (y.length - 1) : ℕ) : ℝ) =
    v ^ 2 / ((x.length : ℝ) ^ 2 * ((x.length : ℝ) - 1)) + w ^ 2 / ((y.length : ℝ) ^ 2 * ((y.length : ℝ) - 1)) := by
    push_cast [cx, cy]
    ring
  have hdp : 0 < v ^ 2 / ((x.length : ℝ) ^ 2 * ((x.length : ℝ) - 1)) +
      w ^ 2 / ((y.length : ℝ) ^ 2 * ((y.length : ℝ) - 1)) := by positivity
  have hs : 0 < √(v / x.length + w / y.length) := Real.sqrt_pos.2 (by positivity)
  have hdf : (v / x.length + w / y.length) * (v / x.length + w / y.length) /
      (v ^ 2 / ((x.length : ℝ) ^ 2 * ((x.length : ℝ) - 1)) + w ^ 2 / ((y.length : ℝ) ^ 2 * ((y.length : ℝ) - 1)))
      = welchDf x.length y.length v w := by rw [welchDf, sq (v / _ + _)]
  simp only [welchPValue, tUnequalVariance, hx, hy, Option.bind_eq_bind, Option.bind_some]
  rw [hden, if_neg hdp.ne', hdf, if_neg hs.ne', tNew, if_neg (not_lt.2 h0.le), Option.bind_some]
  cases tCdf fuel (welchDf x.length y.length v w) (-|(a - b) / √(v / x.length + w / y.length)|) <;> rfl

/-- **C101**, Welch's test, in the cases in which the distribution function of the t distribution has a value: for samples
with means `a`, `b` and unbiased variances `v`, `w` the p-value is twice the integral of the density of the t distribution
with Welch's degrees of freedom over `(-∞, -|t|]`, `t = (a - b) / √(v/n + w/m)`, with an error of at most `6e-11`.
Missing: an even number of degrees of freedom together with `t²` above it, where the code has no result
(`C101_welch_violated`). -/
theorem C101_welch_partial {x y : List ℝ} {a v b w : ℝ} (hx : normalFromData x = some (a, v))
    (hy : normalFromData y = some (b, w)) (n m d t : ℝ) (hn : n = x.length) (hm : m = y.length)
    (hd : d = (v / n + w / m) ^ 2 / (v ^ 2 / (n ^ 2 * (n - 1)) + w ^ 2 / (m ^ 2 * (m - 1))))
    (ht : t = (a - b) / √(v / n + w / m)) (f : ℝ → ℝ)
    (hf : ∀ x, f x = Real.Gamma ((d + 1) / 2) / (√(d * Real.pi) * Real.Gamma (d / 2)) * (1 + x ^ 2 / d) ^ (-((d + 1) / 2)))
    (hne : t ^ 2 ≤ d ∨ ∀ k : ℕ, d ≠ 2 * (k + 1)) :
    ∃ N p, (∀ fuel, N ≤ fuel → welchPValue fuel x y = some p) ∧ |p - 2 * ∫ u in Iic (-|t|), f u| ≤ 6e-11 := by
  have lx := normal_len hx
  have ly := normal_len hy
  have vx := ((C59_normal_from_data x).2 _ _ hx).2.2
  have vy := ((C59_normal_from_data y).2 _ _ hy).2.2
  have rx : (2 : ℝ) ≤ x.length := by exact_mod_cast lx
  have ry : (2 : ℝ) ≤ y.length := by exact_mod_cast ly
  have h0 : 0 < d := by
    rw [hd]
    exact welchDf_pos (by linarith) (by linarith) vx vy
  obtain ⟨N, c, hc, hb⟩ := C74_cdf h0 f hf (-|t|) (by simpa using hne)
  refine ⟨N, 2 * c, fun fuel h => ?_, ?_⟩
  · rw [welch_eq hx hy, ← hn, ← hm, welchDf, ← hd, ← ht, hc fuel h]
    rfl
  · rw [← mul_sub, abs_mul, abs_two]
    norm_num at hb ⊢
    linarith

/-- The samples `0, 1, 2` and `1, 3, 5` (variances 1 and 4) have `50/17` degrees of freedom, `t² = 12/5`. -/
example : ∃ N p, (∀ fuel, N ≤ fuel → welchPValue fuel [0, 1, 2] [1, 3, 5] = some p) ∧
    |p - 2 * ∫ u in Iic (-|(1 - 3) / √(1 / 3 + 4 / 3)|), tDens (50 / 17) u| ≤ 6e-11 := by
  have h1 : normalFromData [0, 1, (2 : ℝ)] = some (1, 1) := by
    norm_num [normalFromData, calcMean, calcVariance, dataSum]
  have h2 : normalFromData [1, 3, (5 : ℝ)] = some (3, 4) := by
    norm_num [normalFromData, calcMean, calcVariance, dataSum]
  refine C101_welch_partial h1 h2 3 3 (50 / 17) _ (by norm_num) (by norm_num) (by norm_num) rfl _ (fun _ => rfl)
    (Or.inl ?_)
  rw [div_pow, Real.sq_sqrt (by norm_num)]
  norm_num

/-- **C101** is violated by Welch's test for every pair of samples of the same size `n` and with the same variance `v` whose
means are far apart, `(a - b)² > 4 v (n-1)/n`: there are `2(n-1)` degrees of freedom, `t² > 2(n-1)`, and the distribution
function of the t distribution has no value (`C74_cdf_violated`).  For `[0, 2]` and `[10, 12]` the Rust code panics in
`gamma(0)`, although the p-value is `0.0194…`. -/
theorem C101_welch_violated {x y : List ℝ} {a v b : ℝ} (hx : normalFromData x = some (a, v))
    (hy : normalFromData y = some (b, v)) (hl : x.length = y.length)
    (hab : 4 * v * (x.length - 1) / x.length < (a - b) ^ 2) (fuel : ℕ) :
    welchPValue fuel x y = none := by
  have lx := normal_len hx
  have vx := ((C59_normal_from_data x).2 _ _ hx).2.2
  have rx : (2 : ℝ) ≤ x.length := by exact_mod_cast lx
  obtain ⟨k, hk⟩ : ∃ k, x.length = k + 2 := ⟨x.length - 2, by omega⟩
  have hkr : (x.length : ℝ) = k + 2 := by rw [hk]; push_cast; ring
  have k0 : (0 : ℝ) ≤ k := Nat.cast_nonneg k
  have hdf : welchDf x.length y.length v v = 2 * ((k : ℝ) + 1) := by
    have e : (k : ℝ) + 2 - 1 = k + 1 := by ring
    rw [welchDf, ← hl, hkr, e]
    field_simp
    ring
  rw [welch_eq hx hy, hdf, (C74_cdf_violated k _ ?_ fuel).1]
  · rfl
  · rw [neg_sq, sq_abs, div_pow, Real.sq_sqrt (by positivity), ← hl, ← add_div, lt_div_iff₀ (by positivity)]
    rw [hkr] at hab ⊢
    refine lt_of_eq_of_lt ?_ hab
    field_simp
    ring

example (fuel : ℕ) : welchPValue fuel [0, 2] [10, 12] = none := by
  have h1 : normalFromData [0, (2 : ℝ)] = some (1, 2) := by
    norm_num [normalFromData, calcMean, calcVariance, dataSum]
  have h2 : normalFromData [10, (12 : ℝ)] = some (11, 2) := by
    norm_num [normalFromData, calcMean, calcVariance, dataSum]
  exact C101_welch_violated h1 h2 rfl (by norm_num) fuel

end Stat
end Verif
