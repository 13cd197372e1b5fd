import Verif.HyperConn

/-!
# C75: the branches of the hypergeometric function

The specifications are the Gauss series `₂F₁` and, where it diverges, Euler's integral.
-/

namespace Verif
namespace Special
open Finset Filter Topology Stat

theorem Rel.of_abs' {e v V : ℝ} (he : 0 ≤ e) (h : |v - V| ≤ e * |V|) : Rel e v V := by
  by_cases hV : V = 0
  · subst hV
    rw [abs_zero, mul_zero, sub_zero] at h
    exact ⟨0, by simpa using he, by simpa using h⟩
  · exact Rel.of_abs hV h

/-- **C75**, `z = 1`: for `a + b < c` the value is the sum of the Gauss series (Gauss' theorem) up to a relative error of
`1.7e-11`.  The other cases of this branch are wrong, see `C75_one_violated`. -/
theorem C75_one_partial {a b c : ℝ} (ha : 0 < a) (hb : 0 < b) (h : a + b < c) (fuel : ℕ) :
    ∃ v, f21 fuel a b c 1 = some v ∧ Summable (f21Term a b c 1) ∧
      |v - ordinaryHypergeometric a b c (1 : ℝ)| ≤ 1.7e-11 * |ordinaryHypergeometric a b c (1 : ℝ)| := by
  have hc : 0 < c := by linarith
  obtain ⟨g1, hg1, r1, n1⟩ := gamma_rel_pos hc
  obtain ⟨g2, hg2, r2, n2⟩ := gamma_rel_pos (by linarith : 0 < c - a - b)
  obtain ⟨g3, hg3, r3, n3⟩ := gamma_rel_pos (by linarith : 0 < c - a)
  obtain ⟨g4, hg4, r4, n4⟩ := gamma_rel_pos (by linarith : 0 < c - b)
  have hs := hyp_one ha hb h
  refine ⟨g1 * g2 / (g3 * g4), ?_, hs.summable, ?_⟩
  · have h1 : ¬ (a ≤ 0 ∨ b ≤ 0 ∨ c ≤ 0 ∨ (1 : ℝ) > 1) := by
      rintro (h | h | h | h) <;> linarith
    rw [f21, if_neg h1, if_pos rfl, if_neg (by linarith), if_neg (by linarith)]
    simp [hg1, hg2, hg3, hg4, R.div, n3, n4]
  · rw [← hyp_eq, hyp, hs.tsum_eq]
    exact ((r1.mul r2 (g := 8.1e-12) (by norm_num)).div (r3.mul r4 (g := 8.1e-12) (by norm_num)) (by norm_num)
      (by norm_num)).abs

/-- `₂F₁(1, 1; 3; 1) = Γ(3) Γ(1) / Γ(2) ^ 2 = 2` -/
example (fuel : ℕ) : ∃ v, f21 fuel 1 1 3 1 = some v ∧ |v - 2| ≤ 4e-11 := by
  obtain ⟨v, hv, -, h⟩ := C75_one_partial (a := 1) (b := 1) (c := 3) one_pos one_pos (by norm_num) fuel
  refine ⟨v, hv, ?_⟩
  have e : ordinaryHypergeometric (1 : ℝ) 1 3 (1 : ℝ) = 2 := by
    rw [← hyp_eq, hyp, (hyp_one one_pos one_pos (by norm_num : (1 : ℝ) + 1 < 3)).tsum_eq]
    have g2 : Real.Gamma 2 = 1 := Real.Gamma_two
    have g3 : Real.Gamma 3 = 2 := by
      have := Real.Gamma_add_one (s := 2) (by norm_num)
      rw [g2, mul_one] at this
      rw [← this]
      norm_num
    norm_num [g2, g3, Real.Gamma_one]
  rw [e] at h
  norm_num at h ⊢
  linarith

/-- **C75**, `-1 ≤ z < 0` (Pfaff's transformation): for `b < c`, `f21` terminates and its value is Euler's integral (for
`z > -1` this is the sum of the Gauss series) up to a relative error of `2.1e-16 r / (1 - r)`, where `r` bounds the quotient of
successive terms.  Missing: `c ≤ b`, and the accuracy for `r ≥ 1`. -/
theorem C75_pfaff_partial {a b c z : ℝ} (ha : 0 < a) (hb : 0 < b) (hbc : b < c) (hz0 : -1 ≤ z) (hz1 : z < 0) :
    ∃ N v, (∀ fuel, N ≤ fuel → f21 fuel a b c z = some v) ∧
      (-1 < z → eulerInt a b c z = ordinaryHypergeometric a b c z) ∧
      ∀ r, r = max 1 (a / c) * max 1 (c - b) * (z / (z - 1)) → r ≤ 1 - 1e-10 →
        |v - eulerInt a b c z| ≤ 2.1e-16 * (r / (1 - r)) * |eulerInt a b c z| := by
  have hc : 0 < c := by linarith
  have hq : 0 < c - b := by linarith
  set y := z / (z - 1) with hy
  have hz2 : z - 1 < 0 := by linarith
  have y0 : 0 < y := div_pos_of_neg_of_neg hz1 hz2
  have y1 : y ≤ 1 / 2 := by
    rw [hy, div_le_iff_of_neg hz2]; linarith
  have ym : y ∈ Set.Ioo (0 : ℝ) 1 := ⟨y0, by linarith⟩
  have hF := hyp_pos ha hq hc ym
  have hw : 0 < 1 - z := by linarith
  have e : eulerInt a b c z = hyp a (c - b) c y * (1 - z) ^ (-a) := by
    rw [euler_pfaff (by linarith), ← hy, euler_hyp hq (by linarith) (abs_lt_of_mem ym), mul_comm]
  obtain ⟨N, v, hv⟩ := f21Norm_terminates (a := a) (b := c - b) (pos_ok hc) (abs_lt_of_mem ym) hF.ne'
  refine ⟨N, v * (1 - z) ^ (-a), fun fuel hf => ?_, fun hz => ?_, fun r hr hr1 => ?_⟩
  · have h1 : ¬ (a ≤ 0 ∨ b ≤ 0 ∨ c ≤ 0 ∨ z > 1) := by
      rintro (h | h | h | h) <;> linarith
    rw [f21, if_neg h1, if_neg (by linarith), if_neg (by linarith), if_pos ⟨hz0, hz1⟩]
    simp only [R.div, hz2.ne, if_false, Option.bind_eq_bind, Option.bind_some, ← hy, hv fuel hf, powf_pos hw]
  · rw [← hyp_eq]
    exact euler_hyp hb hbc (by rw [abs_of_neg hz1]; linarith)
  · have h1 := f21Norm_accuracy (r := r) (pos_ok hc) (abs_lt_of_mem ym) hr1 (fun j => by
      have := quot_bound (b := c - b) ha hc j y
      rwa [abs_of_pos hq, abs_of_pos y0, ← hr] at this) (hv N le_rfl)
    rw [← hyp_eq] at h1
    rw [e, ← sub_mul, abs_mul, abs_mul, ← mul_assoc]
    exact mul_le_mul_of_nonneg_right h1 (abs_nonneg _)

/-- `₂F₁(1, 1; 2; -1) = ln 2`: `f21(1, 1, 2, -1)` is `∫ (1 + t)⁻¹` up to `1e-15` -/
example : ∃ N v, (∀ fuel, N ≤ fuel → f21 fuel 1 1 2 (-1) = some v) ∧ |v - Real.log 2| ≤ 1e-15 := by
  obtain ⟨N, v, hv, -, h⟩ := C75_pfaff_partial (a := 1) (b := 1) (c := 2) (z := -1) one_pos one_pos (by norm_num) (by norm_num)
    (by norm_num)
  refine ⟨N, v, hv, ?_⟩
  have e : eulerInt 1 1 2 (-1) = Real.log 2 := by
    have g2 : Real.Gamma 2 = 1 := Real.Gamma_two
    have h1 : ∀ t ∈ Set.uIcc (0 : ℝ) 1, t ^ ((1 : ℝ) - 1) * (1 - t) ^ ((2 : ℝ) - 1 - 1) * (1 - -1 * t) ^ (-(1 : ℝ)) = (t + 1)⁻¹ := by
      intro t ht
      norm_num [Real.rpow_neg_one, add_comm]
    rw [eulerInt, intervalIntegral.integral_congr h1, intervalIntegral.integral_comp_add_right (fun x : ℝ => x⁻¹) 1,
      integral_inv_of_pos (by norm_num) (by norm_num)]
    norm_num [g2, Real.Gamma_one]
  have := h 0.5 (by norm_num) (by norm_num)
  rw [e, abs_of_pos (Real.log_pos (by norm_num))] at this
  have l2 := Real.log_two_lt_d9
  norm_num at this ⊢
  linarith

theorem f21_conn_aux {e l1 L1 l2 L2 f1 F1 f2 F2 : ℝ} (he : 0 ≤ e) (r1 : Rel 1.7e-11 l1 L1)
    (r2 : Rel 1.7e-11 l2 L2) (q1 : |f1 - F1| ≤ e * |F1|) (q2 : |f2 - F2| ≤ e * |F2|) :
    |l1 * f1 + l2 * f2 - (L1 * F1 + L2 * F2)| ≤ (2e-11 + 1.1 * e) * (|L1 * F1| + |L2 * F2|) := by
  have k1 := (r1.mul (Rel.of_abs' he q1) (g := 2e-11 + 1.1 * e) (by norm_num; linarith)).abs
  have k2 := (r2.mul (Rel.of_abs' he q2) (g := 2e-11 + 1.1 * e) (by norm_num; linarith)).abs
  calc |l1 * f1 + l2 * f2 - (L1 * F1 + L2 * F2)| = |(l1 * f1 - L1 * F1) + (l2 * f2 - L2 * F2)| := by ring_nf
    _ ≤ _ := abs_add_le _ _
    _ ≤ _ := by linarith

/-- **C75**, `1/2 < z < 1` (connection formula): if `c - a - b` is not an integer and neither `c - a` nor `c - b` is a
non-positive integer, then `f21` ends (unless one of its two series has the sum zero), and its value is the sum of the Gauss
series up to `2e-11 + 2.4e-16 r / (1 - r)`, relative to the two terms of the formula, where `r` bounds the quotients of
successive terms of both series.  In the excluded cases `f21` panics, see `C75_pole_violated`. -/
theorem C75_near_one_partial {a b c z r : ℝ} (ha : 0 < a) (hb : 0 < b) (hc : 0 < c) (hz0 : 0.5 < z) (hz1 : z < 1)
    (hs : ∀ n : ℤ, c - a - b ≠ n) (h1 : ∀ k : ℕ, c - a ≠ -k) (h2 : ∀ k : ℕ, c - b ≠ -k) {T1 T2 : ℝ}
    (hT1 : T1 = Real.Gamma c * Real.Gamma (c - a - b) / (Real.Gamma (c - a) * Real.Gamma (c - b)) *
      ordinaryHypergeometric a b (a + b - c + 1) (1 - z))
    (hT2 : T2 = (1 - z) ^ (c - a - b) * Real.Gamma c * Real.Gamma (a + b - c) / (Real.Gamma a * Real.Gamma b) *
      ordinaryHypergeometric (c - a) (c - b) (c - a - b + 1) (1 - z)) :
    ordinaryHypergeometric a b c z = T1 + T2 ∧
    (ordinaryHypergeometric a b (a + b - c + 1) (1 - z) ≠ 0 →
      ordinaryHypergeometric (c - a) (c - b) (c - a - b + 1) (1 - z) ≠ 0 →
      ∃ N v, ∀ fuel, N ≤ fuel → f21 fuel a b c z = some v) ∧
    (r ≤ 1 - 1e-10 → (∀ j : ℕ, |(a + j) * (b + j) / ((a + b - c + 1 + j) * (j + 1)) * (1 - z)| ≤ r) →
      (∀ j : ℕ, |(c - a + j) * (c - b + j) / ((c - a - b + 1 + j) * (j + 1)) * (1 - z)| ≤ r) →
      ∀ fuel v, f21 fuel a b c z = some v →
        |v - ordinaryHypergeometric a b c z| ≤ (2e-11 + 2.4e-16 * (r / (1 - r))) * (|T1| + |T2|)) := by
  have hw : 0 < 1 - z := by linarith
  norm_num at hz0
  have hzm : z ∈ Set.Ioo (0 : ℝ) 1 := ⟨by linarith, hz1⟩
  have hwa := abs_lt_of_mem (one_sub_mem hzm)
  have ok1 : ∀ i : ℕ, a + b - c + 1 + i ≠ 0 := by
    intro i e
    refine hs (1 + i) ?_
    push_cast
    linarith
  have ok2 : ∀ i : ℕ, c - a - b + 1 + i ≠ 0 := fun i => by simpa using nat_ok hs 1 i
  obtain ⟨g1, hg1, r1, n1⟩ := gamma_rel_pos hc
  obtain ⟨g2, hg2, r2, n2⟩ := gamma_rel (z := c - a - b) (fun k e => hs (-k) (by push_cast; exact e))
  obtain ⟨g3, hg3, r3, n3⟩ := gamma_rel h1
  obtain ⟨g4, hg4, r4, n4⟩ := gamma_rel h2
  obtain ⟨g5, hg5, r5, n5⟩ := gamma_rel (z := a + b - c) (fun k e => hs k (by push_cast; linarith))
  obtain ⟨g6, hg6, r6, n6⟩ := gamma_rel_pos ha
  obtain ⟨g7, hg7, r7, n7⟩ := gamma_rel_pos hb
  have hdom : ¬ (a ≤ 0 ∨ b ≤ 0 ∨ c ≤ 0 ∨ z > 1) := by
    rintro (h | h | h | h) <;> linarith
  have hf : ∀ fuel, f21 fuel a b c z = (f21Norm fuel a b (a + b - c + 1) (1 - z)).bind fun f1 =>
      (f21Norm fuel (c - a) (c - b) (c - a - b + 1) (1 - z)).bind fun f2 =>
        some (g1 * g2 / (g3 * g4) * f1 + (1 - z) ^ (c - a - b) * g1 * g5 / (g6 * g7) * f2) := by
    intro fuel
    rw [f21, if_neg hdom, if_neg (by linarith), if_neg (by linarith), if_neg (by rintro ⟨-, h⟩; linarith),
      if_neg (by rintro ⟨-, h⟩; norm_num at h; linarith)]
    simp only [hg1, hg2, hg3, hg4, hg5, hg6, hg7, R.div, mul_ne_zero n3 n4, mul_ne_zero n6 n7, if_false, Option.bind_eq_bind,
      Option.bind_some, powf_pos hw]
  have hconn : ordinaryHypergeometric a b c z = T1 + T2 := by
    rw [← hyp_eq, conn ha hb hc hs z hzm, hT1, hT2, ← hyp_eq, ← hyp_eq]
    ring
  refine ⟨hconn, fun z1 z2 => ?_, fun hr q1 q2 fuel v hv => ?_⟩
  · obtain ⟨N1, v1, hv1⟩ := f21Norm_terminates (a := a) (b := b) ok1 hwa (by rw [f21Term_tsum]; exact z1)
    obtain ⟨N2, v2, hv2⟩ := f21Norm_terminates (a := c - a) (b := c - b) ok2 hwa (by rw [f21Term_tsum]; exact z2)
    refine ⟨max N1 N2, g1 * g2 / (g3 * g4) * v1 + (1 - z) ^ (c - a - b) * g1 * g5 / (g6 * g7) * v2, fun fuel hfu => ?_⟩
    rw [hf, hv1 fuel (le_trans (le_max_left _ _) hfu), hv2 fuel (le_trans (le_max_right _ _) hfu)]
    rfl
  · rw [hf, Option.bind_eq_some_iff] at hv
    obtain ⟨f1, hf1, hv⟩ := hv
    rw [Option.bind_eq_some_iff] at hv
    obtain ⟨f2, hf2, hv⟩ := hv
    obtain rfl := Option.some.inj hv
    have a1 := f21Norm_accuracy ok1 hwa hr q1 hf1
    have a2 := f21Norm_accuracy ok2 hwa hr q2 hf2
    have hr0 : 0 ≤ r := (abs_nonneg _).trans (q1 0)
    have hr1 : 0 < 1 - r := by norm_num at hr; linarith
    have q : 0 ≤ r / (1 - r) := div_nonneg hr0 hr1.le
    have m := f21_conn_aux (by positivity)
      ((r1.mul r2 (g := 8.1e-12) (by norm_num)).div (r3.mul r4 (g := 8.1e-12) (by norm_num)) (by norm_num) (by norm_num))
      ((((Rel.refl ((1 - z) ^ (c - a - b))).mul r1 (g := 4e-12) (by norm_num)).mul r5 (g := 8.1e-12) (by norm_num)).div
        (r6.mul r7 (g := 8.1e-12) (by norm_num)) (by norm_num) (by norm_num)) a1 a2
    rw [hconn]
    rw [← hT1, ← hT2] at m
    refine m.trans (mul_le_mul_of_nonneg_right ?_ (by positivity))
    norm_num
    linarith

/-- **C75**, `z < -1` (connection formula for Pfaff's transformation): for `b < c`, if `b - a` is not an integer and `c - a` is
not a non-positive integer, then `f21` ends (unless one of its two series has the sum zero), and its value is Euler's integral
up to `2e-11 + 2.4e-16 r / (1 - r)`, relative to the two terms of the formula.  Missing: `c ≤ b`. -/
theorem C75_negative_partial {a b c z r : ℝ} (ha : 0 < a) (hb : 0 < b) (hbc : b < c) (hz : z < -1)
    (hs : ∀ n : ℤ, b - a ≠ n) (h1 : ∀ k : ℕ, c - a ≠ -k) {T1 T2 : ℝ}
    (hT1 : T1 = (1 - z) ^ (-a) * Real.Gamma c * Real.Gamma (b - a) / (Real.Gamma b * Real.Gamma (c - a)) *
      ordinaryHypergeometric a (c - b) (a - b + 1) (1 / (1 - z)))
    (hT2 : T2 = (1 - z) ^ (-b) * Real.Gamma c * Real.Gamma (a - b) / (Real.Gamma a * Real.Gamma (c - b)) *
      ordinaryHypergeometric b (c - a) (b - a + 1) (1 / (1 - z))) :
    eulerInt a b c z = T1 + T2 ∧
    (ordinaryHypergeometric a (c - b) (a - b + 1) (1 / (1 - z)) ≠ 0 →
      ordinaryHypergeometric b (c - a) (b - a + 1) (1 / (1 - z)) ≠ 0 →
      ∃ N v, ∀ fuel, N ≤ fuel → f21 fuel a b c z = some v) ∧
    (r ≤ 1 - 1e-10 → (∀ j : ℕ, |(a + j) * (c - b + j) / ((a - b + 1 + j) * (j + 1)) * (1 / (1 - z))| ≤ r) →
      (∀ j : ℕ, |(b + j) * (c - a + j) / ((b - a + 1 + j) * (j + 1)) * (1 / (1 - z))| ≤ r) →
      ∀ fuel v, f21 fuel a b c z = some v →
        |v - eulerInt a b c z| ≤ (2e-11 + 2.4e-16 * (r / (1 - r))) * (|T1| + |T2|)) := by
  have hc : 0 < c := by linarith
  have hq : 0 < c - b := by linarith
  have hw : 0 < 1 - z := by linarith
  have hz2 : z - 1 < 0 := by linarith
  set x := 1 / (1 - z) with hx
  have x0 : 0 < x := by positivity
  have x1 : x < 1 / 2 := by rw [hx, div_lt_div_iff₀ hw (by norm_num)]; linarith
  set y := z / (z - 1) with hy
  have hxy : 1 - y = x := by
    have : z / (z - 1) * (1 - z) = -z := by rw [div_mul_eq_mul_div, div_eq_iff hz2.ne]; ring
    rw [hx, hy, eq_div_iff hw.ne', sub_mul, this]
    ring
  have ym : y ∈ Set.Ioo (0 : ℝ) 1 := ⟨by linarith, by linarith⟩
  have hwa : |x| < 1 := by rw [abs_of_pos x0]; linarith
  have ok1 : ∀ i : ℕ, a - b + 1 + i ≠ 0 := by
    intro i e
    refine hs (1 + i) ?_
    push_cast
    linarith
  have ok2 : ∀ i : ℕ, b - a + 1 + i ≠ 0 := fun i => by simpa using nat_ok hs 1 i
  obtain ⟨g1, hg1, r1, n1⟩ := gamma_rel_pos hc
  obtain ⟨g2, hg2, r2, n2⟩ := gamma_rel (z := b - a) (fun k e => hs (-k) (by push_cast; exact e))
  obtain ⟨g3, hg3, r3, n3⟩ := gamma_rel_pos hb
  obtain ⟨g4, hg4, r4, n4⟩ := gamma_rel h1
  obtain ⟨g5, hg5, r5, n5⟩ := gamma_rel (z := a - b) (fun k e => hs k (by push_cast; linarith))
  obtain ⟨g6, hg6, r6, n6⟩ := gamma_rel_pos ha
  obtain ⟨g7, hg7, r7, n7⟩ := gamma_rel_pos hq
  have hdom : ¬ (a ≤ 0 ∨ b ≤ 0 ∨ c ≤ 0 ∨ z > 1) := by
    rintro (h | h | h | h) <;> linarith
  have hf : ∀ fuel, f21 fuel a b c z = (f21Norm fuel a (c - b) (a - b + 1) x).bind fun f1 =>
      (f21Norm fuel b (c - a) (b - a + 1) x).bind fun f2 =>
        some ((1 - z) ^ (-a) * g1 * g2 / (g3 * g4) * f1 + (1 - z) ^ (-b) * g1 * g5 / (g6 * g7) * f2) := by
    intro fuel
    rw [f21, if_neg hdom, if_neg (by linarith), if_pos hz]
    simp only [hg1, hg2, hg3, hg4, hg5, hg6, hg7, R.div, mul_ne_zero n3 n4, mul_ne_zero n6 n7, if_false, Option.bind_eq_bind,
      Option.bind_some, powf_pos hw, hw.ne', ← hx]
  have hconn : eulerInt a b c z = T1 + T2 := by
    have cn := conn ha hq hc (by intro n e; exact hs n (by linarith)) y ym
    rw [euler_pfaff (by linarith), ← hy, euler_hyp hq (by linarith) (abs_lt_of_mem ym), cn, hT1, hT2, ← hyp_eq, ← hyp_eq, hxy,
      show c - (c - b) = b by ring, show c - a - (c - b) = b - a by ring, show a + (c - b) - c = a - b by ring,
      hyp_comm (c - a) b]
    have e1 : (1 - z) ^ (-b) = (1 - z) ^ (-a) * x ^ (b - a) := by
      rw [hx, one_div, Real.inv_rpow hw.le, ← Real.rpow_neg hw.le, ← Real.rpow_add hw]
      congr 1
      ring
    rw [e1]
    ring
  refine ⟨hconn, fun z1 z2 => ?_, fun hr q1 q2 fuel v hv => ?_⟩
  · obtain ⟨N1, v1, hv1⟩ := f21Norm_terminates (a := a) (b := c - b) ok1 hwa (by rw [f21Term_tsum]; exact z1)
    obtain ⟨N2, v2, hv2⟩ := f21Norm_terminates (a := b) (b := c - a) ok2 hwa (by rw [f21Term_tsum]; exact z2)
    refine ⟨max N1 N2, (1 - z) ^ (-a) * g1 * g2 / (g3 * g4) * v1 + (1 - z) ^ (-b) * g1 * g5 / (g6 * g7) * v2,
      fun fuel hfu => ?_⟩
    rw [hf, hv1 fuel (le_trans (le_max_left _ _) hfu), hv2 fuel (le_trans (le_max_right _ _) hfu)]
    rfl
  · rw [hf, Option.bind_eq_some_iff] at hv
    obtain ⟨f1, hf1, hv⟩ := hv
    rw [Option.bind_eq_some_iff] at hv
    obtain ⟨f2, hf2, hv⟩ := hv
    obtain rfl := Option.some.inj hv
    have a1 := f21Norm_accuracy ok1 hwa hr q1 hf1
    have a2 := f21Norm_accuracy ok2 hwa hr q2 hf2
    have hr0 : 0 ≤ r := (abs_nonneg _).trans (q1 0)
    have hr1 : 0 < 1 - r := by norm_num at hr; linarith
    have q : 0 ≤ r / (1 - r) := div_nonneg hr0 hr1.le
    have m := f21_conn_aux (by positivity)
      ((((Rel.refl ((1 - z) ^ (-a))).mul r1 (g := 4e-12) (by norm_num)).mul r2 (g := 8.1e-12) (by norm_num)).div
        (r3.mul r4 (g := 8.1e-12) (by norm_num)) (by norm_num) (by norm_num))
      ((((Rel.refl ((1 - z) ^ (-b))).mul r1 (g := 4e-12) (by norm_num)).mul r5 (g := 8.1e-12) (by norm_num)).div
        (r6.mul r7 (g := 8.1e-12) (by norm_num)) (by norm_num) (by norm_num)) a1 a2
    rw [hconn]
    rw [← hT1, ← hT2] at m
    refine m.trans (mul_le_mul_of_nonneg_right ?_ (by positivity))
    norm_num
    linarith

/-- `f21` is defined for positive parameters and `z < 1`, but for `1/2 < z < 1` it panics whenever `c - a - b` is an integer,
because the gamma function is evaluated at a pole; the Gauss series converges.  For example `f21(1, 1, 2, 0.75)`, which should
be `ln 4 / 0.75`. -/
theorem C75_pole_violated {a b c z : ℝ} (ha : 0 < a) (hb : 0 < b) (hc : 0 < c) (hz0 : 0.5 < z) (hz1 : z < 1) (n : ℤ)
    (h : c - a - b = n) (fuel : ℕ) : f21 fuel a b c z = none ∧ Summable (f21Term a b c z) := by
  norm_num at hz0
  have hdom : ¬ (a ≤ 0 ∨ b ≤ 0 ∨ c ≤ 0 ∨ z > 1) := by
    rintro (h | h | h | h) <;> linarith
  refine ⟨?_, (hyp_hasSum (a := a) (b := b) (pos_ok hc) (abs_lt_of_mem ⟨by linarith, hz1⟩)).summable⟩
  rw [f21, if_neg hdom, if_neg (by linarith), if_neg (by linarith), if_neg (by rintro ⟨-, h⟩; linarith),
    if_neg (by rintro ⟨-, h⟩; norm_num at h; linarith)]
  rcases le_total n 0 with hn | hn
  · have hg : gamma (c - a - b) = none := by
      rw [C48_gamma_domain]
      refine ⟨(-n).toNat, ?_⟩
      have : (((-n).toNat : ℤ) : ℝ) = ((-n : ℤ) : ℝ) := by rw [Int.toNat_of_nonneg (by omega)]
      rw [h]
      push_cast at this
      rw [this]
      ring
    simp only [hg, Option.bind_eq_bind, Option.bind_none, Option.bind_fun_none]
  · have hg : gamma (a + b - c) = none := by
      rw [C48_gamma_domain]
      refine ⟨n.toNat, ?_⟩
      have : ((n.toNat : ℤ) : ℝ) = (n : ℝ) := by rw [Int.toNat_of_nonneg (by omega)]
      push_cast at this
      rw [this, ← h]
      ring
    simp only [hg, Option.bind_eq_bind, Option.bind_none, Option.bind_fun_none]

example (fuel : ℕ) : f21 fuel 1 1 2 0.75 = none :=
  (C75_pole_violated one_pos one_pos (by norm_num) (by norm_num) (by norm_num) 0 (by norm_num) fuel).1

/-- For `z < -1`, `f21` panics whenever `b - a` is an integer, although Euler's integral is finite there.  For example
`f21(1, 1, 2, -2)`, which should be `ln 3 / 2`. -/
theorem C75_difference_violated {a b c z : ℝ} (ha : 0 < a) (hb : 0 < b) (hc : 0 < c) (hz : z < -1) (n : ℤ)
    (h : b - a = n) (fuel : ℕ) : f21 fuel a b c z = none := by
  have hdom : ¬ (a ≤ 0 ∨ b ≤ 0 ∨ c ≤ 0 ∨ z > 1) := by
    rintro (h | h | h | h) <;> linarith
  rw [f21, if_neg hdom, if_neg (by linarith), if_pos hz]
  rcases le_total n 0 with hn | hn
  · have hg : gamma (b - a) = none := by
      rw [C48_gamma_domain]
      refine ⟨(-n).toNat, ?_⟩
      have : (((-n).toNat : ℤ) : ℝ) = ((-n : ℤ) : ℝ) := by rw [Int.toNat_of_nonneg (by omega)]
      rw [h]
      push_cast at this
      rw [this]
      ring
    simp only [hg, Option.bind_eq_bind, Option.bind_none, Option.bind_fun_none]
  · have hg : gamma (a - b) = none := by
      rw [C48_gamma_domain]
      refine ⟨n.toNat, ?_⟩
      have : ((n.toNat : ℤ) : ℝ) = (n : ℝ) := by rw [Int.toNat_of_nonneg (by omega)]
      push_cast at this
      rw [this, ← h]
      ring
    simp only [hg, Option.bind_eq_bind, Option.bind_none, Option.bind_fun_none]

example (fuel : ℕ) : f21 fuel 1 1 2 (-2) = none :=
  C75_difference_violated one_pos one_pos (by norm_num) (by norm_num) 0 (by norm_num) fuel

theorem hyp_geometric {c z : ℝ} (hc : ∀ i : ℕ, c + i ≠ 0) (hz : |z| < 1) : ordinaryHypergeometric c 1 c z = (1 - z)⁻¹ := by
  rw [← f21Term_tsum]
  have : ∀ j, f21Term c 1 c z j = z ^ j := by
    intro j
    unfold f21Term
    rw [prod_congr rfl (g := fun _ => z), prod_const, card_range]
    intro i _
    have h1 := hc i
    have h2 : (1 + (i : ℝ)) ≠ 0 := by positivity
    rw [add_comm (i : ℝ) 1]
    field_simp
  simp only [this]
  exact tsum_geometric_of_abs_lt_one hz

/-- `₂F₁(1/2, 1; 2; 3/4) = 4/3`: the value of `f21(0.5, 1, 2, 0.75)` is `4/3` up to `1e-10` -/
example : ∃ N v, (∀ fuel, N ≤ fuel → f21 fuel 0.5 1 2 0.75 = some v) ∧ |v - 4 / 3| ≤ 1e-10 := by
  have h1 : ordinaryHypergeometric (0.5 : ℝ) 1 (0.5 + 1 - 2 + 1) ((1 : ℝ) - 0.75) = 4 / 3 := by
    rw [show (0.5 + 1 - 2 + 1 : ℝ) = 0.5 by norm_num, hyp_geometric (pos_ok (by norm_num)) (by norm_num)]
    norm_num
  have h2 : ordinaryHypergeometric (2 - 0.5 : ℝ) (2 - 1) (2 - 0.5 - 1 + 1) ((1 : ℝ) - 0.75) = 4 / 3 := by
    rw [show (2 - 0.5 - 1 + 1 : ℝ) = 2 - 0.5 by norm_num, show (2 - 1 : ℝ) = 1 by norm_num,
      hyp_geometric (pos_ok (by norm_num)) (by norm_num)]
    norm_num
  obtain ⟨e, hN, hA⟩ := C75_near_one_partial (a := 0.5) (b := 1) (c := 2) (z := 0.75) (r := 0.25) (by norm_num) (by norm_num)
    (by norm_num) (by norm_num) (by norm_num) (by
      intro n e
      have h : (1 : ℝ) = 2 * n := by rw [← e]; norm_num
      have h' : (1 : ℤ) = 2 * n := by exact_mod_cast h
      omega) (fun k e => by
      have : (0 : ℝ) ≤ k := Nat.cast_nonneg k
      norm_num at e
      linarith) (fun k e => by
      have : (0 : ℝ) ≤ k := Nat.cast_nonneg k
      norm_num at e
      linarith) rfl rfl
  obtain ⟨N, v, hv⟩ := hN (by rw [h1]; norm_num) (by rw [h2]; norm_num)
  refine ⟨N, v, hv, ?_⟩
  have hq : ∀ j : ℕ, ∀ p q : ℝ, p = q → 0 < p → |(p + j) * (1 + j) / ((q + j) * (j + 1)) * (1 - 0.75)| ≤ 0.25 := by
    rintro j p q rfl hp
    have k1 : p + j ≠ 0 := pos_ok hp j
    have k2 : (j : ℝ) + 1 ≠ 0 := by positivity
    rw [add_comm 1 (j : ℝ), div_self (mul_ne_zero k1 k2)]
    norm_num
  have hacc := hA (by norm_num) (fun j => hq j _ _ (by norm_num) (by norm_num)) (fun j => by
    rw [show (2 - 1 : ℝ) = 1 by norm_num]
    exact hq j _ _ (by norm_num) (by norm_num)) N v (hv N le_rfl)
  have hp : (0 : ℝ) < √Real.pi := Real.sqrt_pos.2 Real.pi_pos
  have G1 : Real.Gamma (2 - 0.5 - 1) = √Real.pi := by rw [show (2 - 0.5 - 1 : ℝ) = 1 / 2 by norm_num, Real.Gamma_one_half_eq]
  have G2 : Real.Gamma (2 - 0.5) = √Real.pi / 2 := by
    have := Real.Gamma_add_one (s := 1 / 2) (by norm_num)
    rw [Real.Gamma_one_half_eq] at this
    rw [show (2 - 0.5 : ℝ) = 1 / 2 + 1 by norm_num, this]
    ring
  have G3 : Real.Gamma (0.5 + 1 - 2) = -2 * √Real.pi := by
    have := Real.Gamma_add_one (s := -(1 / 2)) (by norm_num)
    rw [show (-(1 / 2) + 1 : ℝ) = 1 / 2 by norm_num, Real.Gamma_one_half_eq] at this
    rw [show (0.5 + 1 - 2 : ℝ) = -(1 / 2) by norm_num]
    linarith
  have G4 : Real.Gamma 0.5 = √Real.pi := by rw [show (0.5 : ℝ) = 1 / 2 by norm_num, Real.Gamma_one_half_eq]
  have P : ((1 : ℝ) - 0.75) ^ ((2 : ℝ) - 0.5 - 1) = 1 / 2 := by
    rw [show (2 - 0.5 - 1 : ℝ) = 1 / 2 by norm_num, ← Real.sqrt_eq_rpow,
      show ((1 : ℝ) - 0.75) = (1 / 2) ^ 2 by norm_num, Real.sqrt_sq (by norm_num)]
  have T1 : Real.Gamma 2 * Real.Gamma (2 - 0.5 - 1) / (Real.Gamma (2 - 0.5) * Real.Gamma (2 - 1)) *
      ordinaryHypergeometric (0.5 : ℝ) 1 (0.5 + 1 - 2 + 1) ((1 : ℝ) - 0.75) = 8 / 3 := by
    rw [h1, G1, G2, Real.Gamma_two, show (2 - 1 : ℝ) = 1 by norm_num, Real.Gamma_one]
    field_simp
    norm_num
  have T2 : ((1 : ℝ) - 0.75) ^ ((2 : ℝ) - 0.5 - 1) * Real.Gamma 2 * Real.Gamma (0.5 + 1 - 2) / (Real.Gamma 0.5 * Real.Gamma 1) *
      ordinaryHypergeometric (2 - 0.5 : ℝ) (2 - 1) (2 - 0.5 - 1 + 1) ((1 : ℝ) - 0.75) = -(4 / 3) := by
    rw [h2, P, G3, G4, Real.Gamma_two, Real.Gamma_one]
    field_simp
  rw [e, T1, T2] at hacc
  norm_num at hacc ⊢
  linarith

/-- `∫ (1 + 3 t)^(-1/2) dt = 2/3` over `[0, 1]`: the value of `f21(0.5, 1, 2, -3)` is `2/3` up to `1e-10` -/
example : ∃ N v, (∀ fuel, N ≤ fuel → f21 fuel 0.5 1 2 (-3) = some v) ∧ |v - 2 / 3| ≤ 1e-10 := by
  have h1 : ordinaryHypergeometric (0.5 : ℝ) (2 - 1) (0.5 - 1 + 1) (1 / ((1 : ℝ) - -3)) = 4 / 3 := by
    rw [show (0.5 - 1 + 1 : ℝ) = 0.5 by norm_num, show (2 - 1 : ℝ) = 1 by norm_num,
      hyp_geometric (pos_ok (by norm_num)) (by norm_num)]
    norm_num
  have h2 : ordinaryHypergeometric (1 : ℝ) (2 - 0.5) (1 - 0.5 + 1) (1 / ((1 : ℝ) - -3)) = 4 / 3 := by
    rw [← hyp_eq, hyp_comm, hyp_eq, show (1 - 0.5 + 1 : ℝ) = 2 - 0.5 by norm_num,
      hyp_geometric (pos_ok (by norm_num)) (by norm_num)]
    norm_num
  obtain ⟨e, hN, hA⟩ := C75_negative_partial (a := 0.5) (b := 1) (c := 2) (z := -3) (r := 0.25) (by norm_num) (by norm_num)
    (by norm_num) (by norm_num) (by
      intro n e
      have h : (1 : ℝ) = 2 * n := by rw [← e]; norm_num
      have h' : (1 : ℤ) = 2 * n := by exact_mod_cast h
      omega) (fun k e => by
      have : (0 : ℝ) ≤ k := Nat.cast_nonneg k
      norm_num at e
      linarith) rfl rfl
  obtain ⟨N, v, hv⟩ := hN (by rw [h1]; norm_num) (by rw [h2]; norm_num)
  refine ⟨N, v, hv, ?_⟩
  have hq : ∀ j : ℕ, ∀ p q : ℝ, p = q → 0 < p → |(p + j) * (1 + j) / ((q + j) * (j + 1)) * (1 / (1 - -3))| ≤ 0.25 := by
    rintro j p q rfl hp
    have k1 : p + j ≠ 0 := pos_ok hp j
    have k2 : (j : ℝ) + 1 ≠ 0 := by positivity
    rw [add_comm 1 (j : ℝ), div_self (mul_ne_zero k1 k2)]
    norm_num
  have hacc := hA (by norm_num) (fun j => by
    rw [show (2 - 1 : ℝ) = 1 by norm_num]
    exact hq j _ _ (by norm_num) (by norm_num)) (fun j => by
    rw [mul_comm (1 + (j : ℝ))]
    exact hq j _ _ (by norm_num) (by norm_num)) N v (hv N le_rfl)
  have hp : (0 : ℝ) < √Real.pi := Real.sqrt_pos.2 Real.pi_pos
  have G1 : Real.Gamma (1 - 0.5) = √Real.pi := by rw [show (1 - 0.5 : ℝ) = 1 / 2 by norm_num, Real.Gamma_one_half_eq]
  have G2 : Real.Gamma (2 - 0.5) = √Real.pi / 2 := by
    have := Real.Gamma_add_one (s := 1 / 2) (by norm_num)
    rw [Real.Gamma_one_half_eq] at this
    rw [show (2 - 0.5 : ℝ) = 1 / 2 + 1 by norm_num, this]
    ring
  have G3 : Real.Gamma (0.5 - 1) = -2 * √Real.pi := by
    have := Real.Gamma_add_one (s := -(1 / 2)) (by norm_num)
    rw [show (-(1 / 2) + 1 : ℝ) = 1 / 2 by norm_num, Real.Gamma_one_half_eq] at this
    rw [show (0.5 - 1 : ℝ) = -(1 / 2) by norm_num]
    linarith
  have G4 : Real.Gamma 0.5 = √Real.pi := by rw [show (0.5 : ℝ) = 1 / 2 by norm_num, Real.Gamma_one_half_eq]
  have P1 : ((1 : ℝ) - -3) ^ (-(0.5 : ℝ)) = 1 / 2 := by
    rw [show (-(0.5 : ℝ)) = -(1 / 2) by norm_num, Real.rpow_neg (by norm_num), ← Real.sqrt_eq_rpow,
      show ((1 : ℝ) - -3) = 2 ^ 2 by norm_num, Real.sqrt_sq (by norm_num)]
    norm_num
  have P2 : ((1 : ℝ) - -3) ^ (-(1 : ℝ)) = 1 / 4 := by
    rw [Real.rpow_neg_one]
    norm_num
  have T1 : ((1 : ℝ) - -3) ^ (-(0.5 : ℝ)) * Real.Gamma 2 * Real.Gamma (1 - 0.5) / (Real.Gamma 1 * Real.Gamma (2 - 0.5)) *
      ordinaryHypergeometric (0.5 : ℝ) (2 - 1) (0.5 - 1 + 1) (1 / ((1 : ℝ) - -3)) = 4 / 3 := by
    rw [h1, P1, G1, G2, Real.Gamma_two, Real.Gamma_one]
    field_simp
  have T2 : ((1 : ℝ) - -3) ^ (-(1 : ℝ)) * Real.Gamma 2 * Real.Gamma (0.5 - 1) / (Real.Gamma 0.5 * Real.Gamma (2 - 1)) *
      ordinaryHypergeometric (1 : ℝ) (2 - 0.5) (1 - 0.5 + 1) (1 / ((1 : ℝ) - -3)) = -(2 / 3) := by
    rw [h2, P2, G3, G4, Real.Gamma_two, show (2 - 1 : ℝ) = 1 by norm_num, Real.Gamma_one]
    field_simp
  rw [e, T1, T2] at hacc
  norm_num at hacc ⊢
  linarith

end Special
end Verif
