import Verif.StatFnModel
import Verif.FloatStat
import Verif.FloatHess

/-!
# Property C122: the t-tests and the G-test with rounding

The statistics are compared with the formulas of the textbook, with the exact mean and variance of the data. As in C113 the only
quantity that is not found with a relative error is the mean, whose error is called `δ`.
-/

namespace Verif
namespace Stat
open Rounding Finset

section
variable {R : Rounding ℝ}

theorem near_natCast (hu : R.u < 1) (n : ℕ) : R.Near 1 ((n : ℕ) : Fl R).val (n : ℝ) := Near.of_rnd hu (Nat.cast_nonneg _)

theorem ne_zero_of_near {n : ℕ} {a : Fl R} {b : ℝ} (h : R.Near n a.val b) (hb : 0 < b) : a ≠ 0 := fun h0 => by
  have := h.pos hb
  rw [h0, Fl.zero_val] at this
  exact lt_irrefl _ this


/-- the arithmetic mean of the data -/
noncomputable def meanOf (l : List (Fl R)) : ℝ := (l.map Fl.val).sum / l.length

/-- the sum of the squared distances to the mean -/
noncomputable def squaresOf (l : List (Fl R)) : ℝ := (l.map fun x => (x.val - meanOf l) ^ 2).sum

/-- the mean of the absolute values -/
noncomputable def absMeanOf (l : List (Fl R)) : ℝ := (l.map fun x => |x.val|).sum / l.length

theorem two_le_length {l : List (Fl R)} (hne : ∃ x ∈ l, ∃ y ∈ l, x ≠ y) : 2 ≤ l.length := by
  obtain ⟨x, hx, y, hy, hxy⟩ := hne
  match l, hx, hy with
  | [a], hx, hy => simp only [List.mem_singleton] at hx hy; exact absurd (hx.trans hy.symm) hxy
  | a :: b :: l, _, _ => simp

variable [Pow (Fl R) ℕ]

/-- `C113_from_data` in terms of `Near` -/
theorem from_data_near (hu : R.u < 1) (hp : ∀ x : Fl R, R.Near 2 (x ^ 2).val (x.val ^ 2)) (l : List (Fl R))
    (hne : ∃ x ∈ l, ∃ y ∈ l, x ≠ y) :
    ∃ (m v : Fl R) (δ : ℝ), normalFromData l = some (m, v) ∧ m.val = meanOf l + δ ∧
      |δ| ≤ R.gam (l.length + 2) * absMeanOf l ∧ 0 < (squaresOf l + l.length * δ ^ 2) / (l.length - 1) ∧
      R.Near (l.length + 6) v.val ((squaresOf l + l.length * δ ^ 2) / (l.length - 1)) := by
  obtain ⟨m, v, δ, V, h1, h2, h3, h4, h5, h6, h7⟩ := C113_from_data hu hp l hne
  have hV : 0 < V := by
    by_contra hc
    have := mul_nonpos_of_nonneg_of_nonpos (R.pw_pos (l.length + 6)).le (not_lt.1 hc)
    linarith
  refine ⟨m, v, δ, h1, h3, h4, ?_⟩
  have e : (squaresOf l + l.length * δ ^ 2) / (l.length - 1) = V := by rw [h5]; rfl
  rw [e]
  exact ⟨hV, hV.le, h6, h7⟩

/-- **C122, one-sample t-test.** For data that are not all equal, the test returns, and the statistic is
`√n (μ + δ - μ₀) / √((S + n δ²) / (n - 1))` with a relative error of at most `(1 + u)^(n + 12) - 1`; here `μ` is the mean, `S` the sum of
the squared distances to it and `δ` the error of the computed mean. -/
theorem C122_one_sample {sqrt : Fl R → Fl R} (hs : FlSqrt sqrt) (hu : R.u < 1)
    (hp : ∀ x : Fl R, R.Near 2 (x ^ 2).val (x.val ^ 2)) (l : List (Fl R)) (mu0 : Fl R) (hne : ∃ x ∈ l, ∃ y ∈ l, x ≠ y) :
    ∃ (t : Fl R) (δ : ℝ), tOneSampleG sqrt l mu0 = some (0, t) ∧ |δ| ≤ R.gam (l.length + 2) * absMeanOf l ∧
      |t.val - √l.length * (meanOf l + δ - mu0.val) / √((squaresOf l + l.length * δ ^ 2) / (l.length - 1))| ≤
        R.gam (l.length + 12) * |√l.length * (meanOf l + δ - mu0.val) / √((squaresOf l + l.length * δ ^ 2) / (l.length - 1))| := by
  obtain ⟨m, v, δ, h1, h2, h3, hV, h4⟩ := from_data_near hu hp l hne
  have s1 := h4.flsqrt hs hu
  have s0 := ne_zero_of_near s1 (Real.sqrt_pos.2 hV)
  refine ⟨sqrt (l.length : Fl R) * (m - mu0) / sqrt v, δ, ?_, h3, ?_⟩
  · rw [tOneSampleG, h1]
    simp only [Option.bind_eq_bind, Option.bind_some]
    rw [if_neg s0]
  · have n1 := (near_natCast hu l.length).flsqrt hs hu
    have d1 : R.RelN 1 (m - mu0).val (meanOf l + δ - mu0.val) := by
      rw [← h2]
      exact RelN.of_rnd hu _
    have t1 := ((((RelN.of_near n1).mul d1).rnd hu).div (RelN.of_near s1)).rnd hu
    exact (t1.mono (by omega : _ ≤ l.length + 12)).abs_sub_le

/-- **C122, t-test with equal variances** -/
theorem C122_equal_variance {sqrt : Fl R → Fl R} (hs : FlSqrt sqrt) (hu : R.u < 1)
    (hp : ∀ x : Fl R, R.Near 2 (x ^ 2).val (x.val ^ 2)) (x y : List (Fl R)) (hx : ∃ a ∈ x, ∃ b ∈ x, a ≠ b)
    (hy : ∃ a ∈ y, ∃ b ∈ y, a ≠ b) :
    ∃ (t : Fl R) (δ ε : ℝ), tEqualVarianceG sqrt x y = some (0, t) ∧
      |δ| ≤ R.gam (x.length + 2) * absMeanOf x ∧ |ε| ≤ R.gam (y.length + 2) * absMeanOf y ∧
      ∀ T, T = (meanOf x + δ - (meanOf y + ε)) /
          (√((squaresOf x + x.length * δ ^ 2 + (squaresOf y + y.length * ε ^ 2)) / (x.length + y.length - 2)) *
            √(1 / x.length + 1 / y.length)) →
        |t.val - T| ≤ R.gam (max x.length y.length + 19) * |T| := by
  obtain ⟨m, v, δ, h1, h2, h3, hV, h4⟩ := from_data_near hu hp x hx
  obtain ⟨m', v', ε, h1', h2', h3', hV', h4'⟩ := from_data_near hu hp y hy
  have lx := two_le_length hx
  have ly := two_le_length hy
  have lx' : (2 : ℝ) ≤ x.length := by exact_mod_cast lx
  have ly' : (2 : ℝ) ≤ y.length := by exact_mod_cast ly
  set N := max x.length y.length with hN
  have ex : ((x.length - 1 : ℕ) : ℝ) = x.length - 1 := by rw [Nat.cast_sub (by omega), Nat.cast_one]
  have ey : ((y.length - 1 : ℕ) : ℝ) = y.length - 1 := by rw [Nat.cast_sub (by omega), Nat.cast_one]
  have ed : ((x.length + y.length - 2 : ℕ) : ℝ) = x.length + y.length - 2 := by
    rw [Nat.cast_sub (by omega)]; push_cast; ring
  have a1 : R.Near (N + 8) (((x.length - 1 : ℕ) : Fl R) * v).val (squaresOf x + x.length * δ ^ 2) := by
    have := ((near_natCast hu (x.length - 1)).mul h4).rnd hu
    rw [ex, mul_div_cancel₀ _ (show (x.length - 1 : ℝ) ≠ 0 by linarith)] at this
    exact this.mono (by omega)
  have a2 : R.Near (N + 8) (((y.length - 1 : ℕ) : Fl R) * v').val (squaresOf y + y.length * ε ^ 2) := by
    have := ((near_natCast hu (y.length - 1)).mul h4').rnd hu
    rw [ey, mul_div_cancel₀ _ (show (y.length - 1 : ℝ) ≠ 0 by linarith)] at this
    exact this.mono (by omega)
  have p1 : 0 < squaresOf x + x.length * δ ^ 2 := by
    have := mul_pos hV (show (0 : ℝ) < x.length - 1 by linarith)
    rwa [div_mul_cancel₀ _ (show (x.length - 1 : ℝ) ≠ 0 by linarith)] at this
  have p2 : 0 < squaresOf y + y.length * ε ^ 2 := by
    have := mul_pos hV' (show (0 : ℝ) < y.length - 1 by linarith)
    rwa [div_mul_cancel₀ _ (show (y.length - 1 : ℝ) ≠ 0 by linarith)] at this
  have a3 := (a1.add a2).rnd hu
  have a4 := ((a3.div (near_natCast hu (x.length + y.length - 2)) (by rw [ed]; linarith)).rnd hu).flsqrt hs hu
    (x := (((x.length - 1 : ℕ) : Fl R) * v + ((y.length - 1 : ℕ) : Fl R) * v') / ((x.length + y.length - 2 : ℕ) : Fl R))
  rw [ed] at a4
  have b1 := ((Near.refl (R := R) zero_le_one).div (near_natCast hu x.length) (by linarith)).rnd hu
  have b2 := ((Near.refl (R := R) zero_le_one).div (near_natCast hu y.length) (by linarith)).rnd hu
  have b3 := ((b1.add b2).rnd hu).flsqrt hs hu (x := 1 / (x.length : Fl R) + 1 / (y.length : Fl R))
  have c1 := (a4.mul b3).rnd hu
  have hD : 0 < √((squaresOf x + x.length * δ ^ 2 + (squaresOf y + y.length * ε ^ 2)) / (x.length + y.length - 2)) *
      √(1 / (x.length : ℝ) + 1 / y.length) := by
    refine mul_pos (Real.sqrt_pos.2 (div_pos (by linarith) (by linarith))) (Real.sqrt_pos.2 ?_)
    have : (0 : ℝ) < x.length := by linarith
    have : (0 : ℝ) < y.length := by linarith
    positivity
  have den0 := ne_zero_of_near (a := sqrt ((((x.length - 1 : ℕ) : Fl R) * v + ((y.length - 1 : ℕ) : Fl R) * v') /
      ((x.length + y.length - 2 : ℕ) : Fl R)) * sqrt (1 / (x.length : Fl R) + 1 / (y.length : Fl R))) c1 hD
  refine ⟨(m - m') / (sqrt ((((x.length - 1 : ℕ) : Fl R) * v + ((y.length - 1 : ℕ) : Fl R) * v') /
      ((x.length + y.length - 2 : ℕ) : Fl R)) * sqrt (1 / (x.length : Fl R) + 1 / (y.length : Fl R))), δ, ε, ?_, h3, h3', ?_⟩
  · rw [tEqualVarianceG, h1, h1']
    simp only [Option.bind_eq_bind, Option.bind_some]
    rw [if_neg den0]
  · rintro T rfl
    have d1 : R.RelN 1 (m - m').val (meanOf x + δ - (meanOf y + ε)) := by
      rw [← h2, ← h2']
      exact RelN.of_rnd hu _
    have t1 := (d1.div (RelN.of_near c1)).rnd hu
    exact (t1.mono (by omega : _ ≤ N + 19)).abs_sub_le

/-- **C122, t-test with unequal variances** (Welch): the statistic and the degrees of freedom that are passed to the distribution
function of the t distribution -/
theorem C122_unequal_variance {sqrt abs : Fl R → Fl R} (hs : FlSqrt sqrt) (hu : R.u < 1) (tCdf : Fl R → Fl R → Option (Fl R))
    (hp : ∀ x : Fl R, R.Near 2 (x ^ 2).val (x.val ^ 2)) (x y : List (Fl R)) (hx : ∃ a ∈ x, ∃ b ∈ x, a ≠ b)
    (hy : ∃ a ∈ y, ∃ b ∈ y, a ≠ b) :
    ∃ (t df : Fl R) (δ ε : ℝ), tUnequalVarianceG sqrt abs tCdf x y = (tCdf df (-abs t)).map (fun c => (2.0 * c, t)) ∧
      |δ| ≤ R.gam (x.length + 2) * absMeanOf x ∧ |ε| ≤ R.gam (y.length + 2) * absMeanOf y ∧
      ∀ Vx Vy, Vx = (squaresOf x + x.length * δ ^ 2) / (x.length - 1) → Vy = (squaresOf y + y.length * ε ^ 2) / (y.length - 1) →
        (∀ T, T = (meanOf x + δ - (meanOf y + ε)) / √(Vx / x.length + Vy / y.length) →
          |t.val - T| ≤ R.gam (max x.length y.length + 12) * |T|) ∧
        ∀ D, D = (Vx / x.length + Vy / y.length) ^ 2 / (Vx ^ 2 / (x.length ^ 2 * (x.length - 1)) + Vy ^ 2 / (y.length ^ 2 * (y.length - 1))) →
          |df.val - D| ≤ R.gam (4 * max x.length y.length + 36) * D := by
  obtain ⟨m, v, δ, h1, h2, h3, hV, h4⟩ := from_data_near hu hp x hx
  obtain ⟨m', v', ε, h1', h2', h3', hV', h4'⟩ := from_data_near hu hp y hy
  have lx := two_le_length hx
  have ly := two_le_length hy
  have lx' : (2 : ℝ) ≤ x.length := by exact_mod_cast lx
  have ly' : (2 : ℝ) ≤ y.length := by exact_mod_cast ly
  set N := max x.length y.length with hN
  set Vx := (squaresOf x + x.length * δ ^ 2) / (x.length - 1) with eVx
  set Vy := (squaresOf y + y.length * ε ^ 2) / (y.length - 1) with eVy
  have ex : ((x.length * x.length * (x.length - 1) : ℕ) : ℝ) = x.length ^ 2 * (x.length - 1) := by
    rw [Nat.cast_mul, Nat.cast_sub (by omega)]; push_cast; ring
  have ey : ((y.length * y.length * (y.length - 1) : ℕ) : ℝ) = y.length ^ 2 * (y.length - 1) := by
    rw [Nat.cast_mul, Nat.cast_sub (by omega)]; push_cast; ring
  have qx : (0 : ℝ) < x.length ^ 2 * (x.length - 1) := mul_pos (by positivity) (by linarith)
  have qy : (0 : ℝ) < y.length ^ 2 * (y.length - 1) := mul_pos (by positivity) (by linarith)
  have px : (0 : ℝ) < x.length := by linarith
  have py : (0 : ℝ) < y.length := by linarith
  have a1 : R.Near (N + 8) (v / (x.length : Fl R)).val (Vx / x.length) :=
    ((h4.div (near_natCast hu x.length) px).rnd hu).mono (by omega)
  have a2 : R.Near (N + 8) (v' / (y.length : Fl R)).val (Vy / y.length) :=
    ((h4'.div (near_natCast hu y.length) py).rnd hu).mono (by omega)
  have a3 : R.Near (N + 9) (v / (x.length : Fl R) + v' / (y.length : Fl R)).val (Vx / x.length + Vy / y.length) := (a1.add a2).rnd hu
  have b1 : R.Near (2 * N + 15) (v * v / ((x.length * x.length * (x.length - 1) : ℕ) : Fl R)).val
      (Vx ^ 2 / (x.length ^ 2 * (x.length - 1))) := by
    have := ((((h4.mul h4).rnd hu).div (near_natCast hu (x.length * x.length * (x.length - 1))) (by rw [ex]; exact qx)).rnd hu)
    rw [ex, ← sq Vx] at this
    exact this.mono (by omega)
  have b2 : R.Near (2 * N + 15) (v' * v' / ((y.length * y.length * (y.length - 1) : ℕ) : Fl R)).val
      (Vy ^ 2 / (y.length ^ 2 * (y.length - 1))) := by
    have := ((((h4'.mul h4').rnd hu).div (near_natCast hu (y.length * y.length * (y.length - 1))) (by rw [ey]; exact qy)).rnd hu)
    rw [ey, ← sq Vy] at this
    exact this.mono (by omega)
  have b3 := (b1.add b2).rnd hu
  have pD : 0 < Vx ^ 2 / (x.length ^ 2 * (x.length - 1) : ℝ) + Vy ^ 2 / (y.length ^ 2 * (y.length - 1)) :=
    add_pos (div_pos (by positivity) qx) (div_pos (by positivity) qy)
  have pT : 0 < Vx / (x.length : ℝ) + Vy / y.length := add_pos (div_pos hV px) (div_pos hV' py)
  have s1 := a3.flsqrt hs hu
  have den0 := ne_zero_of_near (a := v * v / ((x.length * x.length * (x.length - 1) : ℕ) : Fl R) +
    v' * v' / ((y.length * y.length * (y.length - 1) : ℕ) : Fl R)) b3 pD
  have s0 := ne_zero_of_near s1 (Real.sqrt_pos.2 pT)
  have f1 := (((a3.mul a3).rnd hu).div b3 pD).rnd hu
  refine ⟨(m - m') / sqrt (v / (x.length : Fl R) + v' / (y.length : Fl R)),
    (v / (x.length : Fl R) + v' / (y.length : Fl R)) * (v / (x.length : Fl R) + v' / (y.length : Fl R)) /
      (v * v / ((x.length * x.length * (x.length - 1) : ℕ) : Fl R) + v' * v' / ((y.length * y.length * (y.length - 1) : ℕ) : Fl R)),
    δ, ε, ?_, h3, h3', ?_⟩
  · rw [tUnequalVarianceG, h1, h1']
    simp only [Option.bind_eq_bind, Option.bind_some]
    rw [if_neg den0, if_neg s0]
    generalize tCdf _ _ = c
    cases c <;> rfl
  · rintro _ _ rfl rfl
    constructor
    · rintro T rfl
      have d1 : R.RelN 1 (m - m').val (meanOf x + δ - (meanOf y + ε)) := by
        rw [← h2, ← h2']
        exact RelN.of_rnd hu _
      have t1 := (d1.div (RelN.of_near s1)).rnd hu
      exact (t1.mono (by omega : _ ≤ N + 12)).abs_sub_le
    · rintro D rfl
      rw [← sq (Vx / (x.length : ℝ) + Vy / y.length)] at f1
      exact (f1.mono (by omega : _ ≤ 4 * N + 36)).abs_sub_le

end

section
variable {R : Rounding ℝ} {φ : ℝ}

/-- recursive summation of terms with errors -/
theorem sum_step {m : ℕ} {s t : ℝ} {T e : ℕ → ℝ} (he : ∀ j, 0 ≤ e j)
    (h : |s - ∑ j ∈ range m, T j| ≤ ∑ j ∈ range m, ((1 + R.u) ^ m * (|T j| + e j) - |T j|)) (ht : |t - T m| ≤ e m) :
    |R.rnd (s + t) - ∑ j ∈ range (m + 1), T j| ≤ ∑ j ∈ range (m + 1), ((1 + R.u) ^ (m + 1) * (|T j| + e j) - |T j|) := by
  have u0 := R.u_nonneg
  have h1 : |s + t - ∑ j ∈ range (m + 1), T j| ≤ ∑ j ∈ range m, ((1 + R.u) ^ m * (|T j| + e j) - |T j|) + e m := by
    rw [sum_range_succ, show s + t - (∑ j ∈ range m, T j + T m) = (s - ∑ j ∈ range m, T j) + (t - T m) by ring]
    exact (abs_add_le _ _).trans (add_le_add h ht)
  refine (R.rnd_near h1).trans ?_
  have h2 : R.u * |∑ j ∈ range (m + 1), T j| ≤ R.u * (∑ j ∈ range m, |T j| + |T m|) := by
    refine mul_le_mul_of_nonneg_left ?_ u0
    rw [← sum_range_succ]
    exact abs_sum_le_sum_abs _ _
  have h3 : (1 + R.u) * (|T m| + e m) ≤ (1 + R.u) ^ (m + 1) * (|T m| + e m) := by
    refine mul_le_mul_of_nonneg_right ?_ (add_nonneg (abs_nonneg _) (he m))
    rw [pow_succ]
    exact le_mul_of_one_le_left (by linarith) (one_le_pow₀ R.one_le)
  rw [sum_range_succ (fun j => (1 + R.u) ^ (m + 1) * (|T j| + e j) - |T j|)]
  simp only [sum_sub_distrib, ← mul_sum] at h2 h3 ⊢
  rw [pow_succ] at h3 ⊢
  nlinarith

/-- **C122, G-test.** For positive counts the test returns `m - 1` degrees of freedom, and the statistic differs from
`2 ∑ x ln(x / E)`, with the exact expectations `E`, by at most the given sum; `φ` is the relative error of the logarithm. The absolute
part of the error, from the errors of the expectations, is about `2 (2 m + 3) u ∑ x`. -/
theorem C122_g_test (hu : R.u < 1) (hφ : 0 ≤ φ) {ln : Fl R → Fl R}
    (hln : ∀ x : Fl R, 0 < x.val → |(ln x).val - Real.log x.val| ≤ φ * |Real.log x.val|) (x y : List (Fl R)) (m : ℕ)
    (hx : x.length = m) (hy : y.length = m) (hm : 0 < m) (hx0 : ∀ a ∈ x, 0 < a.val) (hy0 : ∀ a ∈ y, 0 < a.val)
    {E : ℕ → ℝ} (eE : ∀ j, E j = (y.getD j 0).val / ((y.map Fl.val).sum / (x.map Fl.val).sum)) {L : ℕ → ℝ}
    (eL : ∀ j, L j = Real.log ((x.getD j 0).val / E j)) :
    ∃ g : Fl R, gTestG ln x y = some (m - 1, g) ∧
      |g.val - 2 * ∑ j ∈ range m, (x.getD j 0).val * L j| ≤ 2 * ∑ j ∈ range m, (x.getD j 0).val *
        (((1 + R.u) ^ (m + 3) * (1 + φ) - 1) * |L j| + (1 + R.u) ^ (m + 3) * (1 + φ) * ((2 * m + 3) * R.u)) := by
  have u0 := R.u_nonneg
  have nx : R.Near m (dataSum x).val (x.map Fl.val).sum := by
    have := Near.foldl (R := R) hu (fun a : Fl R => a) (fun a => a.val) 0 x (fun a ha => Near.refl (hx0 a ha).le)
    rwa [zero_add, hx] at this
  have ny : R.Near m (dataSum y).val (y.map Fl.val).sum := by
    have := Near.foldl (R := R) hu (fun a : Fl R => a) (fun a => a.val) 0 y (fun a ha => Near.refl (hy0 a ha).le)
    rwa [zero_add, hy] at this
  have sumpos : ∀ l : List (Fl R), l.length = m → (∀ a ∈ l, 0 < a.val) → 0 < (l.map Fl.val).sum := by
    intro l hl h
    refine List.sum_pos _ (fun b hb => ?_) (by intro h; simp at h; subst h; simp at hl; omega)
    obtain ⟨a, ha, rfl⟩ := List.mem_map.1 hb
    exact h a ha
  have hSx := sumpos x hx hx0
  have hSy := sumpos y hy hy0
  have gx : ∀ j < m, 0 < (x.getD j 0).val := fun j hj => by
    rw [List.getD_eq_getElem?_getD, List.getElem?_eq_getElem (by omega)]; exact hx0 _ (List.getElem_mem _)
  have gy : ∀ j < m, 0 < (y.getD j 0).val := fun j hj => by
    rw [List.getD_eq_getElem?_getD, List.getElem?_eq_getElem (by omega)]; exact hy0 _ (List.getElem_mem _)
  set k : Fl R := dataSum y / dataSum x with hk
  have nk : R.Near (2 * m + 1) k.val ((y.map Fl.val).sum / (x.map Fl.val).sum) := ((ny.div nx hSx).rnd hu).mono (by omega)
  have hk0 : 0 < (y.map Fl.val).sum / (x.map Fl.val).sum := div_pos hSy hSx
  have hE : ∀ j < m, 0 < E j := fun j hj => by rw [eE]; exact div_pos (gy j hj) hk0
  have nE : ∀ j < m, R.Near (2 * m + 2) (y.getD j 0 / k).val (E j) := fun j hj => by
    rw [eE]
    exact (((Near.refl (gy j hj).le).div nk hk0).rnd hu).mono (by omega)
  have nq : ∀ j < m, R.Near (2 * m + 3) (x.getD j 0 / (y.getD j 0 / k)).val ((x.getD j 0).val / E j) := fun j hj =>
    (((Near.refl (gx j hj).le).div (nE j hj) (hE j hj)).rnd hu).mono (by omega)
  set ε : ℝ := (2 * m + 3) * R.u with hε
  have ε0 : 0 ≤ ε := by positivity
  have lq : ∀ j < m, |Real.log (x.getD j 0 / (y.getD j 0 / k)).val - L j| ≤ ε := by
    intro j hj
    have q0 := div_pos (gx j hj) (hE j hj)
    have h := nq j hj
    have p0 := h.pos q0
    rw [eL]
    have hl : Real.log ((1 + R.u) ^ (2 * m + 3)) ≤ ε := by
      rw [Real.log_pow, hε]
      push_cast
      refine mul_le_mul_of_nonneg_left ?_ (by positivity)
      have := Real.log_le_sub_one_of_pos (show 0 < 1 + R.u by linarith)
      linarith
    have h1 := Real.log_le_log p0 h.2.1
    have h2 := Real.log_le_log q0 h.2.2
    rw [Real.log_mul (R.pw_pos _).ne' q0.ne'] at h1
    rw [Real.log_mul (R.pw_pos _).ne' p0.ne'] at h2
    rw [abs_le]
    constructor <;> linarith
  set T : ℕ → ℝ := fun j => (x.getD j 0).val * L j with hT
  set e : ℕ → ℝ := fun j => |(x.getD j 0).val| * ((1 + R.u) * (1 + φ) * (|L j| + ε) - |L j|) with he
  have e0 : ∀ j, 0 ≤ e j := by
    intro j
    refine mul_nonneg (abs_nonneg _) ?_
    have h1 : 1 ≤ (1 + R.u) * (1 + φ) := by nlinarith
    have h2 := le_mul_of_one_le_left (add_nonneg (abs_nonneg (L j)) ε0) h1
    linarith
  have ht : ∀ j < m, |(x.getD j 0 * ln (x.getD j 0 / (y.getD j 0 / k))).val - T j| ≤ e j := by
    intro j hj
    have h1 := lq j hj
    have h2 := hln _ ((nq j hj).pos (div_pos (gx j hj) (hE j hj)))
    set w := x.getD j 0 / (y.getD j 0 / k)
    have h3 : |Real.log w.val| ≤ |L j| + ε := by
      have := abs_sub_abs_le_abs_sub (Real.log w.val) (L j)
      linarith
    have h4 : |(ln w).val - L j| ≤ (1 + φ) * (|L j| + ε) - |L j| := by
      have := abs_sub_le (ln w).val (Real.log w.val) (L j)
      have := mul_le_mul_of_nonneg_left h3 hφ
      linarith
    have h5 : |(x.getD j 0).val * (ln w).val - T j| ≤ |(x.getD j 0).val| * ((1 + φ) * (|L j| + ε) - |L j|) := by
      rw [hT]
      simp only
      rw [← mul_sub, abs_mul]
      exact mul_le_mul_of_nonneg_left h4 (abs_nonneg _)
    refine (R.rnd_near h5).trans (le_of_eq ?_)
    simp only [hT, he, abs_mul]
    ring
  have hb0 := ne_zero_of_near nx hSx
  have hkz := ne_zero_of_near nk hk0
  obtain ⟨s, h1, h2⟩ := forRange_inv (a := 0) (b := m) (s := (0 : Fl R))
    (f := fun (g : Fl R) i =>
          if k = 0 then none
          else if y.getD i 0 / k = 0 then none
          else
            let q := x.getD i 0 / (y.getD i 0 / k)
            if q ≤ 0 then none else some (g + x.getD i 0 * ln q))
    (P := fun i s => |s.val - ∑ j ∈ range i, T j| ≤ ∑ j ∈ range i, ((1 + R.u) ^ i * (|T j| + e j) - |T j|))
    (Nat.zero_le _) (by simp [Fl.zero_val]) (by
      intro i s _ hi ih
      refine ⟨s + x.getD i 0 * ln (x.getD i 0 / (y.getD i 0 / k)), ?_, ?_⟩
      · rw [if_neg hkz, if_neg (ne_zero_of_near (nE i hi) (hE i hi))]
        simp only
        rw [if_neg]
        intro h
        exact absurd ((Fl.le_iff _ _).1 h) (not_le.2 ((nq i hi).pos (div_pos (gx i hi) (hE i hi))))
      · exact sum_step e0 ih (ht i hi))
  refine ⟨2.0 * s, ?_, ?_⟩
  · rw [gTestG, if_neg (by omega), if_neg (by omega)]
    simp only
    rw [if_neg hb0, ← hk, hx, h1]
    rfl
  · have r2 : R.RelN 2 (2.0 * s).val (2 * s.val) := by
      have h3 : R.RelN 1 (2.0 : Fl R).val 2 := by
        have := RelN.of_rnd hu (2.0 : ℝ)
        rw [show (2.0 : Fl R).val = R.rnd (2.0 : ℝ) from rfl]
        norm_num at this ⊢
        exact this
      exact ((h3.mul (RelN.refl s.val)).rnd hu)
    have h3 := r2.abs_sub_le
    set S := ∑ j ∈ range m, T j with hS
    have hA : ∑ j ∈ range m, ((1 + R.u) ^ m * (|T j| + e j) - |T j|) =
        (1 + R.u) ^ (m + 1) * (1 + φ) * ∑ j ∈ range m, (x.getD j 0).val * (|L j| + ε) - ∑ j ∈ range m, (x.getD j 0).val * |L j| := by
      rw [mul_sum, ← sum_sub_distrib]
      refine sum_congr rfl fun j hj => ?_
      simp only [hT, he, abs_mul, abs_of_pos (gx j (mem_range.1 hj))]
      ring
    have hB : ∑ j ∈ range m, (x.getD j 0).val *
        (((1 + R.u) ^ (m + 3) * (1 + φ) - 1) * |L j| + (1 + R.u) ^ (m + 3) * (1 + φ) * ε) =
        (1 + R.u) ^ 2 * ((1 + R.u) ^ (m + 1) * (1 + φ) * ∑ j ∈ range m, (x.getD j 0).val * (|L j| + ε)) -
          ∑ j ∈ range m, (x.getD j 0).val * |L j| := by
      rw [mul_sum, mul_sum, ← sum_sub_distrib]
      refine sum_congr rfl fun j hj => ?_
      ring
    have hC : |S| ≤ ∑ j ∈ range m, (x.getD j 0).val * |L j| := by
      refine (abs_sum_le_sum_abs _ _).trans (le_of_eq (sum_congr rfl fun j hj => ?_))
      simp only [hT, abs_mul, abs_of_pos (gx j (mem_range.1 hj))]
    rw [hA] at h2
    rw [hB]
    set A := (1 + R.u) ^ (m + 1) * (1 + φ) * ∑ j ∈ range m, (x.getD j 0).val * (|L j| + ε)
    set B := ∑ j ∈ range m, (x.getD j 0).val * |L j|
    have hg : R.gam 2 = (1 + R.u) ^ 2 - 1 := rfl
    rw [hg, abs_mul, abs_two] at h3
    have h4 : |s.val| ≤ |s.val - S| + |S| := by
      have := abs_sub_abs_le_abs_sub s.val S
      linarith
    have g0 : 0 ≤ (1 + R.u) ^ 2 - 1 := by nlinarith
    have h5 := mul_le_mul_of_nonneg_left h4 g0
    have h6 := abs_sub_le (2.0 * s).val (2 * s.val) (2 * S)
    have h7 : |2 * s.val - 2 * S| = 2 * |s.val - S| := by rw [← mul_sub, abs_mul, abs_two]
    have h8 := mul_le_mul_of_nonneg_left h2 (by positivity : 0 ≤ (1 + R.u) ^ 2)
    have h9 := mul_le_mul_of_nonneg_left hC g0
    linarith

end

/-- the rounded power, correct to the last bit: satisfies the hypothesis of the theorems -/
local instance flPow' {R : Rounding ℝ} : Pow (Fl R) ℕ := ⟨fun x n => ⟨R.rnd (x.val ^ n)⟩⟩

/-- `1, 2, 3, 6` against `μ₀ = 1` with 53 bits and correctly rounded functions: the statistic is `4 / √(14/3) = 1.8516…` -/
example (R : Rounding ℝ) (hR : R.u = 1 / 2 ^ 53) : ∃ t : Fl R,
    tOneSampleG (fun x => ⟨R.rnd √x.val⟩) [(⟨1⟩ : Fl R), ⟨2⟩, ⟨3⟩, ⟨6⟩] ⟨1⟩ = some (0, t) ∧ 1.851 ≤ t.val ∧ t.val ≤ 1.852 := by
  have hu : R.u < 1 := by rw [hR]; norm_num
  have hs : FlSqrt (fun x : Fl R => ⟨R.rnd √x.val⟩) := fun x hx => ⟨√x.val, Real.sqrt_nonneg _, Real.mul_self_sqrt hx, rfl⟩
  obtain ⟨t, δ, h1, h2, h3⟩ := C122_one_sample hs hu (fun x => (Near.of_rnd hu (sq_nonneg x.val)).mono (by norm_num))
    [(⟨1⟩ : Fl R), ⟨2⟩, ⟨3⟩, ⟨6⟩] ⟨1⟩ ⟨⟨1⟩, by simp, ⟨2⟩, by simp, by simp⟩
  refine ⟨t, h1, ?_⟩
  have em : meanOf [(⟨1⟩ : Fl R), ⟨2⟩, ⟨3⟩, ⟨6⟩] = 3 := by norm_num [meanOf]
  have eq : squaresOf [(⟨1⟩ : Fl R), ⟨2⟩, ⟨3⟩, ⟨6⟩] = 14 := by norm_num [squaresOf, em]
  have ea : absMeanOf [(⟨1⟩ : Fl R), ⟨2⟩, ⟨3⟩, ⟨6⟩] = 3 := by norm_num [absMeanOf]
  rw [em, eq] at h3
  rw [ea] at h2
  have e4 : (([(⟨1⟩ : Fl R), ⟨2⟩, ⟨3⟩, ⟨6⟩].length : ℕ) : ℝ) = 4 := by norm_num
  rw [e4] at h3
  have l4 : [(⟨1⟩ : Fl R), ⟨2⟩, ⟨3⟩, ⟨6⟩].length = 4 := rfl
  rw [l4] at h2 h3
  have s4 : √(4 : ℝ) = 2 := by rw [show (4 : ℝ) = 2 ^ 2 by norm_num, Real.sqrt_sq (by norm_num)]
  have g1 : R.gam (4 + 2) ≤ 1e-8 := by rw [show R.gam (4 + 2) = (1 + R.u) ^ (4 + 2) - 1 from rfl, hR]; norm_num
  have g2 : R.gam (4 + 12) ≤ 1e-8 := by rw [show R.gam (4 + 12) = (1 + R.u) ^ (4 + 12) - 1 from rfl, hR]; norm_num
  have hδ := abs_le.1 (h2.trans (mul_le_mul_of_nonneg_right g1 (by norm_num)))
  have hδ2 : δ ^ 2 ≤ 1e-8 := by nlinarith
  rw [s4] at h3
  set W := √((14 + 4 * δ ^ 2) / (4 - 1)) with hW
  have w1 : 2.1602 ≤ W := Real.le_sqrt_of_sq_le (by nlinarith [sq_nonneg δ])
  have w2 : W ≤ 2.1603 := Real.sqrt_le_iff.2 ⟨by norm_num, by linarith⟩
  have q1 : 1.85155 ≤ 2 * (3 + δ - 1) / W := by rw [le_div_iff₀ (by linarith)]; linarith
  have q2 : 2 * (3 + δ - 1) / W ≤ 1.8518 := by rw [div_le_iff₀ (by linarith)]; linarith
  rw [abs_of_pos (show 0 < 2 * (3 + δ - 1) / W by linarith)] at h3
  have h4 := abs_le.1 (h3.trans (mul_le_mul g2 q2 (by linarith) (by norm_num)))
  constructor <;> linarith [h4.1, h4.2]

theorem ex_data (R : Rounding ℝ) (a b : ℝ) : meanOf [(⟨a⟩ : Fl R), ⟨b⟩] = (a + b) / 2 ∧
    squaresOf [(⟨a⟩ : Fl R), ⟨b⟩] = (a - b) ^ 2 / 2 ∧ absMeanOf [(⟨a⟩ : Fl R), ⟨b⟩] = (|a| + |b|) / 2 := by
  have e : meanOf [(⟨a⟩ : Fl R), ⟨b⟩] = (a + b) / 2 := by simp [meanOf]
  refine ⟨e, ?_, by simp [absMeanOf]⟩
  simp [squaresOf, e]
  ring

/-- `1, 3` against `5, 9` with 53 bits: the statistic is `-√5 = -2.236…` with equal variances, and also with unequal variances, there with
`25 / 17 = 1.4705…` degrees of freedom -/
example (R : Rounding ℝ) (hR : R.u = 1 / 2 ^ 53) :
    (∃ t : Fl R, tEqualVarianceG (fun x => ⟨R.rnd √x.val⟩) [(⟨1⟩ : Fl R), ⟨3⟩] [⟨5⟩, ⟨9⟩] = some (0, t) ∧
      -2.237 ≤ t.val ∧ t.val ≤ -2.236) ∧
    ∃ t df : Fl R, tUnequalVarianceG (fun x => ⟨R.rnd √x.val⟩) (fun x => ⟨|x.val|⟩) (fun d _ => some d) [(⟨1⟩ : Fl R), ⟨3⟩] [⟨5⟩, ⟨9⟩] =
      some (2.0 * df, t) ∧ -2.237 ≤ t.val ∧ t.val ≤ -2.236 ∧ 1.4705 ≤ df.val ∧ df.val ≤ 1.4706 := by
  have hu : R.u < 1 := by rw [hR]; norm_num
  have hs : FlSqrt (fun x : Fl R => ⟨R.rnd √x.val⟩) := fun x hx => ⟨√x.val, Real.sqrt_nonneg _, Real.mul_self_sqrt hx, rfl⟩
  have hp : ∀ x : Fl R, R.Near 2 (x ^ 2).val (x.val ^ 2) := fun x => (Near.of_rnd hu (sq_nonneg x.val)).mono (by norm_num)
  obtain ⟨mx, sx, ax⟩ := ex_data R 1 3
  obtain ⟨my, sy, ay⟩ := ex_data R 5 9
  have g : ∀ n ≤ 44, R.gam n ≤ 1e-8 := fun n hn => by
    have h1 : (1 + R.u) ^ n ≤ (1 + R.u) ^ 44 := pow_le_pow_right₀ R.one_le hn
    have h2 : (1 + R.u) ^ 44 ≤ 1 + 1e-8 := by rw [hR]; norm_num
    have h3 : R.gam n = (1 + R.u) ^ n - 1 := rfl
    linarith
  have lx : ([(⟨1⟩ : Fl R), ⟨3⟩].length) = 2 := rfl
  have ly : ([(⟨5⟩ : Fl R), ⟨9⟩].length) = 2 := rfl
  have hx : ∃ a ∈ [(⟨1⟩ : Fl R), ⟨3⟩], ∃ b ∈ [(⟨1⟩ : Fl R), ⟨3⟩], a ≠ b := ⟨⟨1⟩, by simp, ⟨3⟩, by simp, by simp⟩
  have hy : ∃ a ∈ [(⟨5⟩ : Fl R), ⟨9⟩], ∃ b ∈ [(⟨5⟩ : Fl R), ⟨9⟩], a ≠ b := ⟨⟨5⟩, by simp, ⟨9⟩, by simp, by simp⟩
  have small : ∀ {d a : ℝ} {n : ℕ}, n ≤ 44 → 0 ≤ a → a ≤ 10 → |d| ≤ R.gam n * a → |d| ≤ 1e-7 := fun hn h0 h1 h => by
    have := mul_le_mul (g _ hn) h1 h0 (by norm_num)
    norm_num at this ⊢
    linarith
  have fin : ∀ {t T d e W : ℝ} {n : ℕ}, n ≤ 44 → |d| ≤ 1e-7 → |e| ≤ 1e-7 → 2.23606 ≤ W → W ≤ 2.23607 → T = (2 + d - (7 + e)) / W →
      |t - T| ≤ R.gam n * |T| → -2.237 ≤ t ∧ t ≤ -2.236 := by
    intro t T d e W n hn hd he w1 w2 hT ht
    have hd := abs_le.1 hd
    have he := abs_le.1 he
    have q1 : -2.2361 ≤ T := by rw [hT, le_div_iff₀ (by linarith)]; linarith
    have q2 : T ≤ -2.23605 := by rw [hT, div_le_iff₀ (by linarith)]; linarith
    rw [abs_of_neg (show T < 0 by linarith)] at ht
    have h4 := abs_le.1 (ht.trans (mul_le_mul (g n hn) (show -T ≤ 3 by linarith) (by linarith) (by norm_num)))
    constructor <;> linarith [h4.1, h4.2]
  have sm : ∀ {d : ℝ}, |d| ≤ 1e-7 → 0 ≤ d ^ 2 ∧ d ^ 2 ≤ 1e-10 := fun {d} h => by
    have h := abs_le.1 h
    exact ⟨sq_nonneg d, by nlinarith⟩
  constructor
  · obtain ⟨t, d, e, h1, h2, h3, h4⟩ := C122_equal_variance hs hu hp _ _ hx hy
    refine ⟨t, h1, ?_⟩
    rw [ax, lx] at h2
    rw [ay, ly] at h3
    have h2 := small (by norm_num) (by positivity) (by norm_num) h2
    have h3 := small (by norm_num) (by positivity) (by norm_num) h3
    have h4 := h4 _ rfl
    rw [mx, my, sx, sy, lx, ly] at h4
    obtain ⟨d1, d2⟩ := sm h2
    obtain ⟨e1, e2⟩ := sm h3
    refine fin (d := d) (e := e) (W := √(((1 - 3) ^ 2 / 2 + ((2 : ℕ) : ℝ) * d ^ 2 + ((5 - 9) ^ 2 / 2 + ((2 : ℕ) : ℝ) * e ^ 2)) / (((2 : ℕ) : ℝ) + ((2 : ℕ) : ℝ) - 2)) *
      √(1 / ((2 : ℕ) : ℝ) + 1 / ((2 : ℕ) : ℝ))) (by norm_num) h2 h3 ?_ ?_ ?_ h4
    · rw [show (1 / ((2 : ℕ) : ℝ) + 1 / ((2 : ℕ) : ℝ)) = 1 by norm_num, Real.sqrt_one, mul_one]
      exact Real.le_sqrt_of_sq_le (by push_cast; linarith)
    · rw [show (1 / ((2 : ℕ) : ℝ) + 1 / ((2 : ℕ) : ℝ)) = 1 by norm_num, Real.sqrt_one, mul_one]
      exact Real.sqrt_le_iff.2 ⟨by norm_num, by push_cast; linarith⟩
    · congr 1
      norm_num
  · obtain ⟨t, df, d, e, h1, h2, h3, h4⟩ := C122_unequal_variance (abs := fun x : Fl R => ⟨|x.val|⟩) hs hu (fun d _ => some d) hp _ _ hx hy
    refine ⟨t, df, h1, ?_⟩
    rw [ax, lx] at h2
    rw [ay, ly] at h3
    have h2 := small (by norm_num) (by positivity) (by norm_num) h2
    have h3 := small (by norm_num) (by positivity) (by norm_num) h3
    obtain ⟨h4, h5⟩ := h4 _ _ rfl rfl
    have h4 := h4 _ rfl
    have h5 := h5 _ rfl
    rw [mx, my, sx, sy, lx, ly] at h4
    rw [sx, sy, lx, ly] at h5
    obtain ⟨d1, d2⟩ := sm h2
    obtain ⟨e1, e2⟩ := sm h3
    have f := fin (d := d) (e := e) (W := √(((1 - 3) ^ 2 / 2 + ((2 : ℕ) : ℝ) * d ^ 2) / (((2 : ℕ) : ℝ) - 1) / ((2 : ℕ) : ℝ) +
      ((5 - 9) ^ 2 / 2 + ((2 : ℕ) : ℝ) * e ^ 2) / (((2 : ℕ) : ℝ) - 1) / ((2 : ℕ) : ℝ))) (by norm_num) h2 h3
      (Real.le_sqrt_of_sq_le (by push_cast; linarith)) (Real.sqrt_le_iff.2 ⟨by norm_num, by push_cast; linarith⟩) (by congr 1; norm_num) h4
    refine ⟨f.1, f.2, ?_⟩
    set D := ((((1 - 3) ^ 2 / 2 + ((2 : ℕ) : ℝ) * d ^ 2) / (((2 : ℕ) : ℝ) - 1) / ((2 : ℕ) : ℝ) +
      ((5 - 9) ^ 2 / 2 + ((2 : ℕ) : ℝ) * e ^ 2) / (((2 : ℕ) : ℝ) - 1) / ((2 : ℕ) : ℝ)) ^ 2 /
      ((((1 - 3) ^ 2 / 2 + ((2 : ℕ) : ℝ) * d ^ 2) / (((2 : ℕ) : ℝ) - 1)) ^ 2 / (((2 : ℕ) : ℝ) ^ 2 * (((2 : ℕ) : ℝ) - 1)) +
      (((5 - 9) ^ 2 / 2 + ((2 : ℕ) : ℝ) * e ^ 2) / (((2 : ℕ) : ℝ) - 1)) ^ 2 / (((2 : ℕ) : ℝ) ^ 2 * (((2 : ℕ) : ℝ) - 1)))) with hD
    have hD' : D = (5 + d ^ 2 + e ^ 2) ^ 2 / ((1 + d ^ 2) ^ 2 + (4 + e ^ 2) ^ 2) := by
      rw [hD]
      push_cast
      congr 1 <;> ring
    have q1 : 1.47058 ≤ D := by rw [hD', le_div_iff₀ (by positivity)]; nlinarith
    have q2 : D ≤ 1.47059 := by rw [hD', div_le_iff₀ (by positivity)]; nlinarith
    have h6 := abs_le.1 (h5.trans (mul_le_mul (g _ (by norm_num)) (show D ≤ 2 by linarith) (by linarith) (by norm_num)))
    constructor <;> linarith [h6.1, h6.2]

/-- the counts `10, 20, 30` against `12, 18, 30` with 53 bits: the error of the statistic is at most `1e-12` -/
example (R : Rounding ℝ) (hR : R.u = 1 / 2 ^ 53) : ∃ g : Fl R,
    gTestG (fun x => ⟨R.rnd (Real.log x.val)⟩) [(⟨10⟩ : Fl R), ⟨20⟩, ⟨30⟩] [⟨12⟩, ⟨18⟩, ⟨30⟩] = some (2, g) ∧
      |g.val - 2 * (10 * Real.log (10 / 12) + 20 * Real.log (20 / 18))| ≤ 1e-12 := by
  have hu : R.u < 1 := by rw [hR]; norm_num
  obtain ⟨g, h1, h2⟩ := C122_g_test hu R.u_nonneg (ln := fun x : Fl R => ⟨R.rnd (Real.log x.val)⟩) (fun x _ => R.err _)
    [(⟨10⟩ : Fl R), ⟨20⟩, ⟨30⟩] [⟨12⟩, ⟨18⟩, ⟨30⟩] 3 rfl rfl (by norm_num) (by simp) (by simp) (fun _ => rfl) (fun _ => rfl)
  refine ⟨g, h1, ?_⟩
  simp only [sum_range_succ, range_zero, sum_empty, List.getD_cons_zero, List.getD_cons_succ, List.map_cons, List.map_nil,
    List.sum_cons, List.sum_nil] at h2
  norm_num at h2
  have a1 : |Real.log (5 / 6)| ≤ 1 / 5 := by
    rw [abs_of_neg (Real.log_neg (by norm_num) (by norm_num)), ← Real.log_inv]
    have := Real.log_le_sub_one_of_pos (show (0 : ℝ) < (5 / 6)⁻¹ by norm_num)
    norm_num at this ⊢
    linarith
  have a2 : |Real.log (10 / 9)| ≤ 1 / 9 := by
    rw [abs_of_pos (Real.log_pos (by norm_num))]
    have := Real.log_le_sub_one_of_pos (show (0 : ℝ) < 10 / 9 by norm_num)
    linarith
  norm_num
  refine h2.trans ?_
  rw [hR]
  norm_num
  linarith

end Stat
end Verif
