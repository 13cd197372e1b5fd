import Verif.DistT

/-!
# C74: the distribution function of the t distribution
-/

namespace Verif

/-! ## Relative errors -/

/-- `v` is `V` up to a relative error of `e`. -/
def Rel (e v V : ℝ) : Prop := ∃ d, |d| ≤ e ∧ v = V * (1 + d)

theorem Rel.abs {e v V : ℝ} (h : Rel e v V) : |v - V| ≤ e * |V| := by
  obtain ⟨d, hd, rfl⟩ := h
  rw [show V * (1 + d) - V = d * V by ring, abs_mul]
  exact mul_le_mul_of_nonneg_right hd (abs_nonneg _)

theorem Rel.of_abs {e v V : ℝ} (hV : V ≠ 0) (h : |v - V| ≤ e * |V|) : Rel e v V := by
  refine ⟨(v - V) / V, ?_, by field_simp; ring⟩
  rw [abs_div, div_le_iff₀ (abs_pos.2 hV)]
  exact h

theorem Rel.refl (v : ℝ) : Rel 0 v v := ⟨0, by simp, by simp⟩

theorem Rel.mul {e f g v V w W : ℝ} (h : Rel e v V) (k : Rel f w W) (hg : e + f + e * f ≤ g) : Rel g (v * w) (V * W) := by
  obtain ⟨a, ha, rfl⟩ := h
  obtain ⟨b, hb, rfl⟩ := k
  refine ⟨a + b + a * b, ?_, by ring⟩
  calc |a + b + a * b| ≤ |a| + |b| + |a| * |b| := by
        rw [← abs_mul]
        exact (abs_add_le _ _).trans (add_le_add (abs_add_le _ _) le_rfl)
    _ ≤ e + f + e * f := by
        have := mul_le_mul ha hb (abs_nonneg _) ((abs_nonneg _).trans ha)
        linarith
    _ ≤ g := hg

theorem Rel.div {e f g v V w W : ℝ} (h : Rel e v V) (k : Rel f w W) (hf : f < 1) (hg : e + f ≤ g * (1 - f)) :
    Rel g (v / w) (V / W) := by
  obtain ⟨a, ha, rfl⟩ := h
  obtain ⟨b, hb, rfl⟩ := k
  have hb1 : 0 < 1 + b := by linarith [(abs_le.1 hb).1]
  refine ⟨(a - b) / (1 + b), ?_, ?_⟩
  · rw [abs_div, abs_of_pos hb1, div_le_iff₀ hb1]
    have h0 : 0 ≤ e + f := by linarith [abs_nonneg a, abs_nonneg b]
    have hg0 : 0 ≤ g := by
      by_contra hc
      have : g * (1 - f) < 0 := mul_neg_of_neg_of_pos (not_le.1 hc) (by linarith)
      linarith
    calc |a - b| ≤ |a| + |b| := abs_sub _ _
      _ ≤ e + f := add_le_add ha hb
      _ ≤ g * (1 - f) := hg
      _ ≤ g * (1 + b) := mul_le_mul_of_nonneg_left (by linarith [(abs_le.1 hb).1]) hg0
  · rw [show 1 + (a - b) / (1 + b) = (1 + a) / (1 + b) by field_simp; ring]
    rw [mul_div_mul_comm]

namespace Special
open Finset

/-! ## The binomial series and its remainder -/

/-- The coefficient of `t ^ i` in `(1 - t) ^ m`. -/
noncomputable def bA (m : ℝ) (i : ℕ) : ℝ := ∏ l ∈ range i, ((l - m) / (l + 1))

theorem bA_succ (m : ℝ) (i : ℕ) : bA m (i + 1) * (i + 1) = bA m i * (i - m) := by
  rw [bA, prod_range_succ, ← bA]
  have : (i : ℝ) + 1 ≠ 0 := by positivity
  field_simp

noncomputable def bS (m : ℝ) (N : ℕ) (t : ℝ) : ℝ := ∑ i ∈ range N, bA m i * t ^ i

noncomputable def bS' (m : ℝ) (N : ℕ) (t : ℝ) : ℝ := ∑ i ∈ range N, bA m i * (i * t ^ (i - 1))

theorem bS_hasDerivAt (m : ℝ) (N : ℕ) (t : ℝ) : HasDerivAt (bS m N) (bS' m N t) t := by
  unfold bS bS'
  exact HasDerivAt.fun_sum fun i _ => (hasDerivAt_pow i t).const_mul _

theorem bS_ode (m : ℝ) (N : ℕ) (t : ℝ) :
    (1 - t) * bS' m (N + 1) t + m * bS m (N + 1) t = -(bA m (N + 1) * (N + 1) * t ^ N) := by
  induction N with
  | zero =>
    have := bA_succ m 0
    simp only [bS, bS', pow_zero]
    simp only [Nat.cast_zero, zero_add] at this ⊢
    rw [this]
    simp [bA]
  | succ N ih =>
    have h := bA_succ m (N + 1)
    have e1 : bS m (N + 1 + 1) t = bS m (N + 1) t + bA m (N + 1) * t ^ (N + 1) := sum_range_succ _ _
    have e2 : bS' m (N + 1 + 1) t = bS' m (N + 1) t + bA m (N + 1) * (((N + 1 : ℕ) : ℝ) * t ^ (N + 1 - 1)) := sum_range_succ _ _
    rw [e1, e2, h, Nat.add_sub_cancel]
    push_cast
    rw [pow_succ]
    linear_combination ih

theorem bS_remainder {m t : ℝ} (hm : -1 ≤ m) (ht0 : 0 ≤ t) (ht1 : t < 1) (N : ℕ) :
    |(1 - t) ^ m - bS m N t| ≤ |bA m N| * t ^ N / (1 - t) := by
  rcases N with _ | N
  · simp only [bS, range_zero, sum_empty, sub_zero, pow_zero, mul_one, bA, prod_empty]
    have h1 : 0 < 1 - t := by linarith
    rw [abs_of_pos (Real.rpow_pos_of_pos h1 m), abs_one]
    rw [le_div_iff₀ h1, ← Real.rpow_add_one h1.ne']
    exact Real.rpow_le_one h1.le (by linarith) (by linarith)
  · set A := |bA m (N + 1)| with hA
    have hd : ∀ s ∈ Set.Icc 0 t, HasDerivAt (fun s => 1 - bS m (N + 1) s * (1 - s) ^ (-m))
        (bA m (N + 1) * (N + 1) * s ^ N * (1 - s) ^ (-m - 1)) s := by
      intro s hs
      have h1 : 0 < 1 - s := by linarith [hs.2]
      have h2 := ((bS_hasDerivAt m (N + 1) s).mul
        (((hasDerivAt_id s).const_sub 1).rpow_const (p := -m) (Or.inl h1.ne'))).const_sub 1
      refine h2.congr_deriv ?_
      have ho := bS_ode m N s
      simp only [id]
      have e : (1 - s) ^ (-m) = (1 - s) ^ (-m - 1) * (1 - s) := by
        rw [← Real.rpow_add_one h1.ne', sub_add_cancel]
      rw [e]
      linear_combination (-(1 - s) ^ (-m - 1)) * ho
    have hB : ∀ s ∈ Set.Icc 0 t, HasDerivAt (fun s => A * (s ^ (N + 1) * (1 - s) ^ (-m - 1)))
        (A * ((N + 1) * s ^ N * (1 - s) ^ (-m - 1) + s ^ (N + 1) * ((m + 1) * (1 - s) ^ (-m - 2)))) s := by
      intro s hs
      have h1 : 0 < 1 - s := by linarith [hs.2]
      have h2 := ((hasDerivAt_pow (N + 1) s).mul
        (((hasDerivAt_id s).const_sub 1).rpow_const (p := -m - 1) (Or.inl h1.ne'))).const_mul A
      refine h2.congr_deriv ?_
      simp only [id, Nat.add_sub_cancel]
      rw [show -m - 1 - 1 = -m - 2 by ring]
      push_cast
      ring
    have hsign : ∀ e : ℝ, |e| = 1 → 0 ≤ A * (t ^ (N + 1) * (1 - t) ^ (-m - 1)) - e * (1 - bS m (N + 1) t * (1 - t) ^ (-m)) := by
      intro e he
      have hmono : MonotoneOn (fun s => A * (s ^ (N + 1) * (1 - s) ^ (-m - 1)) - e * (1 - bS m (N + 1) s * (1 - s) ^ (-m))) (Set.Icc 0 t) := by
        refine monotoneOn_of_deriv_nonneg (convex_Icc 0 t)
          (fun s hs => ((hB s hs).sub ((hd s hs).const_mul e)).continuousAt.continuousWithinAt) ?_ ?_
        · intro s hs
          rw [interior_Icc] at hs
          exact ((hB s ⟨hs.1.le, hs.2.le⟩).sub ((hd s ⟨hs.1.le, hs.2.le⟩).const_mul e)).differentiableAt.differentiableWithinAt
        · intro s hs
          rw [interior_Icc] at hs
          rw [((hB s ⟨hs.1.le, hs.2.le⟩).fun_sub ((hd s ⟨hs.1.le, hs.2.le⟩).const_mul e)).deriv]
          have h1 : 0 < 1 - s := by linarith [hs.2]
          have p1 := Real.rpow_pos_of_pos h1 (-m - 1)
          have p2 := Real.rpow_pos_of_pos h1 (-m - 2)
          have hs0 := hs.1
          have h3 : e * bA m (N + 1) ≤ A := by
            calc e * bA m (N + 1) ≤ |e * bA m (N + 1)| := le_abs_self _
              _ = A := by rw [abs_mul, he, one_mul]
          have h4 : 0 ≤ A * (s ^ (N + 1) * ((m + 1) * (1 - s) ^ (-m - 2))) := by
            have : 0 ≤ m + 1 := by linarith
            positivity
          have h5 : 0 ≤ (A - e * bA m (N + 1)) * ((N + 1) * s ^ N * (1 - s) ^ (-m - 1)) :=
            mul_nonneg (by linarith) (by positivity)
          nlinarith [h4, h5]
      have h0 := hmono ⟨le_rfl, ht0⟩ ⟨ht0, le_rfl⟩ ht0
      have hS0 : bS m (N + 1) 0 = 1 := by
        rw [bS, sum_range_succ']
        simp [bA]
      simp only [hS0] at h0
      simpa using h0
    have h1 : 0 < 1 - t := by linarith
    have p0 := Real.rpow_pos_of_pos h1 m
    have ha := hsign 1 (by simp)
    have hb := hsign (-1) (by simp)
    have e1 : (1 - t) ^ m * (1 - t) ^ (-m) = 1 := by rw [← Real.rpow_add h1, add_neg_cancel, Real.rpow_zero]
    have e2 : (1 - t) ^ m * (1 - t) ^ (-m - 1) = 1 / (1 - t) := by
      rw [← Real.rpow_add h1, show m + (-m - 1) = -1 by ring, Real.rpow_neg_one, one_div]
    have ha' := mul_nonneg p0.le ha
    have hb' := mul_nonneg p0.le hb
    have e3 : ∀ e : ℝ, (1 - t) ^ m * (A * (t ^ (N + 1) * (1 - t) ^ (-m - 1)) - e * (1 - bS m (N + 1) t * (1 - t) ^ (-m)))
        = A * t ^ (N + 1) / (1 - t) - e * ((1 - t) ^ m - bS m (N + 1) t) := by
      intro e
      have : A * t ^ (N + 1) / (1 - t) = A * t ^ (N + 1) * (1 / (1 - t)) := by ring
      rw [this]
      linear_combination (A * t ^ (N + 1)) * e2 + (e * bS m (N + 1) t) * e1
    rw [e3] at ha' hb'
    rw [abs_le]
    constructor <;> linarith

/-- If the error of every partial sum is at most four times the first omitted term, the loop is accurate. -/
theorem f21Norm_close {a b c z F : ℝ} (hc : ∀ i : ℕ, c + i ≠ 0) (hz : |z| < 1) (hF : 0 < F)
    (h : ∀ N : ℕ, 1 ≤ N → |F - f21Sum a b c z N| ≤ 4 * |f21Term a b c z N|) :
    ∃ N v, (∀ fuel, N ≤ fuel → f21Norm fuel a b c z = some v) ∧ Rel 2e-15 v F := by
  have hlim : ∑' j, f21Term a b c z j = F := by
    refine tendsto_nhds_unique (f21Sum_tendsto hc hz) ?_
    have h1 := ((f21Term_tendsto (a := a) (b := b) hc hz).1.abs.const_mul 4)
    simp only [abs_zero, mul_zero] at h1
    rw [tendsto_iff_norm_sub_tendsto_zero]
    refine squeeze_zero' (Filter.Eventually.of_forall fun _ => norm_nonneg _) ?_ h1
    filter_upwards [Filter.eventually_ge_atTop 1] with N hN
    rw [Real.norm_eq_abs, abs_sub_comm]
    exact h N hN
  obtain ⟨N, v, hv⟩ := f21Norm_terminates hc hz (by rw [hlim]; exact hF.ne')
  refine ⟨N, v, hv, ?_⟩
  obtain ⟨n, hn, ht⟩ := f21Norm_sound hc (hv N le_rfl)
  refine Rel.of_abs hF.ne' ?_
  have h1 := h (n + 1) (by omega)
  rw [hn, f21Sum_succ, abs_of_pos hF]
  set S := f21Sum a b c z (n + 1)
  set T := f21Term a b c z (n + 1)
  have h2 : |F - S| ≤ 8e-16 * |S| := by norm_num at ht ⊢; linarith
  have hS : |S| ≤ F + |F - S| := by
    calc |S| = |F - (F - S)| := by ring_nf
      _ ≤ |F| + |F - S| := abs_sub _ _
      _ = F + |F - S| := by rw [abs_of_pos hF]
  have h3 : |S + T - F| ≤ |F - S| + |T| := by
    calc |S + T - F| = |T - (F - S)| := by ring_nf
      _ ≤ |T| + |F - S| := abs_sub _ _
      _ = _ := add_comm _ _
  norm_num at ht h2 ⊢
  linarith

/-! ## The series for small arguments -/

theorem f21Term_half (m y : ℝ) (j : ℕ) : f21Term 0.5 (-m) 1.5 y j = bA m j * y ^ j / (2 * j + 1) := by
  induction j with
  | zero => simp [f21Term, bA]
  | succ j ih =>
    have h := bA_succ m j
    have h1 : (j : ℝ) + 1 ≠ 0 := by positivity
    have h2 : (2 * (j : ℝ) + 1) ≠ 0 := by positivity
    have h3 : (2 * ((j : ℝ) + 1) + 1) ≠ 0 := by positivity
    have h4 : (1.5 + (j : ℝ)) = (2 * ((j : ℝ) + 1) + 1) / 2 := by norm_num; ring
    have h5 : (0.5 + (j : ℝ)) = (2 * (j : ℝ) + 1) / 2 := by norm_num; ring
    have h6 : bA m (j + 1) = bA m j * (j - m) / (j + 1) := by rw [eq_div_iff h1, h]
    rw [f21Term_succ, ih, h4, h5, h6]
    push_cast
    field_simp
    ring

theorem f21Sum_half (m y : ℝ) (N : ℕ) : f21Sum 0.5 (-m) 1.5 y N = ∫ u in (0 : ℝ)..1, bS m N (y * u ^ 2) := by
  unfold bS f21Sum
  rw [intervalIntegral.integral_finsetSum]
  · refine sum_congr rfl fun j _ => ?_
    rw [f21Term_half]
    have e : (fun u : ℝ => bA m j * (y * u ^ 2) ^ j) = fun u : ℝ => bA m j * y ^ j * u ^ (2 * j) := by
      funext u
      rw [mul_pow, ← pow_mul]
      ring
    rw [e, intervalIntegral.integral_const_mul, integral_pow]
    simp
    ring
  · intro j _
    apply Continuous.intervalIntegrable
    fun_prop

theorem half_continuous {m y : ℝ} (hy0 : 0 ≤ y) (hy1 : y < 1) :
    ContinuousOn (fun u : ℝ => (1 - y * u ^ 2) ^ m) (Set.Icc 0 1) := by
  refine ContinuousOn.rpow_const (by fun_prop) fun u hu => Or.inl ?_
  have h1 : u ^ 2 ≤ 1 := pow_le_one₀ hu.1 hu.2
  nlinarith

theorem half_integrable {m y : ℝ} (hy0 : 0 ≤ y) (hy1 : y < 1) :
    IntervalIntegrable (fun u : ℝ => (1 - y * u ^ 2) ^ m) MeasureTheory.volume 0 1 :=
  ContinuousOn.intervalIntegrable (by rw [Set.uIcc_of_le zero_le_one]; exact half_continuous hy0 hy1)

theorem half_remainder {m y : ℝ} (hm : -1 ≤ m) (hy0 : 0 ≤ y) (hy1 : y ≤ 1 / 2) (N : ℕ) :
    |(∫ u in (0 : ℝ)..1, (1 - y * u ^ 2) ^ m) - f21Sum 0.5 (-m) 1.5 y N| ≤ 4 * |f21Term 0.5 (-m) 1.5 y N| := by
  have hS : IntervalIntegrable (fun u : ℝ => bS m N (y * u ^ 2)) MeasureTheory.volume 0 1 := by
    apply Continuous.intervalIntegrable
    unfold bS
    fun_prop
  rw [f21Sum_half, ← intervalIntegral.integral_sub (half_integrable hy0 (by linarith)) hS]
  have hb : ∀ u ∈ Set.Icc (0 : ℝ) 1, |(1 - y * u ^ 2) ^ m - bS m N (y * u ^ 2)| ≤ 2 * |bA m N| * y ^ N * u ^ (2 * N) := by
    intro u hu
    have h1 : u ^ 2 ≤ 1 := pow_le_one₀ hu.1 hu.2
    have h2 : y * u ^ 2 ≤ 1 / 2 := by nlinarith
    have h3 : 0 ≤ y * u ^ 2 := by positivity
    refine (bS_remainder hm h3 (by linarith) N).trans ?_
    rw [div_le_iff₀ (by linarith), mul_pow, ← pow_mul]
    have h4 : 0 ≤ |bA m N| * (y ^ N * u ^ (2 * N)) := by have := hu.1; positivity
    nlinarith
  have hP : IntervalIntegrable (fun u : ℝ => 2 * |bA m N| * y ^ N * u ^ (2 * N)) MeasureTheory.volume 0 1 := by
    apply Continuous.intervalIntegrable
    fun_prop
  have h5 := intervalIntegral.norm_integral_le_of_norm_le (f := fun u : ℝ => (1 - y * u ^ 2) ^ m - bS m N (y * u ^ 2))
    zero_le_one (Filter.Eventually.of_forall fun u hu => hb u ⟨hu.1.le, hu.2⟩) hP
  rw [Real.norm_eq_abs] at h5
  refine h5.trans ?_
  rw [intervalIntegral.integral_const_mul, integral_pow, f21Term_half, abs_div, abs_mul, abs_of_nonneg (pow_nonneg hy0 N),
    abs_of_pos (by positivity : (0 : ℝ) < 2 * N + 1)]
  simp only [one_pow, zero_pow (Nat.succ_ne_zero _), sub_zero]
  push_cast
  have h6 : 0 ≤ |bA m N| * y ^ N / (2 * N + 1) := by positivity
  have h7 : 2 * |bA m N| * y ^ N * (1 / (2 * (N : ℝ) + 1)) = 2 * (|bA m N| * y ^ N / (2 * N + 1)) := by ring
  rw [h7]
  linarith

end Special

namespace Stat
open Special MeasureTheory Set

theorem t_central {n x : ℝ} (hn : 0 < n) :
    ∫ u in (0 : ℝ)..x, (1 + u ^ 2 / n) ^ (-((n + 1) / 2))
      = x * (1 + x ^ 2 / n) ^ (-(1 / 2 : ℝ)) * ∫ v in (0 : ℝ)..1, (1 - x ^ 2 / (n + x ^ 2) * v ^ 2) ^ (n / 2 - 1) := by
  set m := n / 2 - 1 with hm
  have hlt : ∀ u : ℝ, |u / √(n + u ^ 2)| < 1 := by
    intro u
    have h1 : 0 < n + u ^ 2 := by positivity
    have h2 : 0 < √(n + u ^ 2) := Real.sqrt_pos.2 h1
    rw [abs_div, abs_of_pos h2, div_lt_one h2]
    exact Real.lt_sqrt_of_sq_lt (by rw [sq_abs]; linarith)
  have hcont : ContinuousOn (fun v : ℝ => (1 - v ^ 2) ^ m) (Ioo (-1) 1) := by
    refine ContinuousOn.rpow_const (by fun_prop) fun u hu => Or.inl ?_
    nlinarith [hu.1, hu.2]
  have hderiv : ∀ u : ℝ, HasDerivAt (fun u => √n * ∫ v in (0 : ℝ)..(u / √(n + u ^ 2)), (1 - v ^ 2) ^ m)
      ((1 + u ^ 2 / n) ^ (-((n + 1) / 2))) u := by
    intro u
    have h1 : 0 < n + u ^ 2 := by positivity
    have h2 : 0 < √(n + u ^ 2) := Real.sqrt_pos.2 h1
    obtain ⟨hl, hr⟩ := abs_lt.1 (hlt u)
    have hw : u / √(n + u ^ 2) ∈ Ioo (-1 : ℝ) 1 := ⟨hl, hr⟩
    have hsub : uIcc 0 (u / √(n + u ^ 2)) ⊆ Ioo (-1 : ℝ) 1 := (ordConnected_Ioo).uIcc_subset (by constructor <;> norm_num) hw
    have d1 : HasDerivAt (fun w => ∫ v in (0 : ℝ)..w, (1 - v ^ 2) ^ m) ((1 - (u / √(n + u ^ 2)) ^ 2) ^ m) (u / √(n + u ^ 2)) :=
      intervalIntegral.integral_hasDerivAt_right ((hcont.mono hsub).intervalIntegrable)
        (hcont.stronglyMeasurableAtFilter isOpen_Ioo _ hw) (hcont.continuousAt (isOpen_Ioo.mem_nhds hw))
    have d2 : HasDerivAt (fun u => u / √(n + u ^ 2)) (n / ((n + u ^ 2) * √(n + u ^ 2))) u := by
      have d3 : HasDerivAt (fun u => √(n + u ^ 2)) (u / √(n + u ^ 2)) u := by
        have := (((hasDerivAt_pow 2 u).const_add n)).sqrt h1.ne'
        refine this.congr_deriv ?_
        push_cast
        field_simp
      refine ((hasDerivAt_id u).div d3 h2.ne').congr_deriv ?_
      simp only [id]
      rw [Real.sq_sqrt h1.le]
      have h3 := Real.mul_self_sqrt h1.le
      field_simp
      nlinarith [h3]
    have d4 := (d1.comp u d2).const_mul √n
    refine d4.congr_deriv ?_
    have e1 : 1 - (u / √(n + u ^ 2)) ^ 2 = n / (n + u ^ 2) := by
      rw [div_pow, Real.sq_sqrt h1.le]
      field_simp
      ring
    have e2 : 1 + u ^ 2 / n = (n / (n + u ^ 2))⁻¹ := by
      rw [inv_div]
      field_simp
    have hq : 0 < n / (n + u ^ 2) := by positivity
    rw [e1, e2, Real.inv_rpow hq.le, Real.rpow_neg hq.le, inv_inv, show (n + 1) / 2 = m + (1 + 1 / 2) by rw [hm]; ring,
      Real.rpow_add hq, Real.rpow_add hq, Real.rpow_one, ← Real.sqrt_eq_rpow, Real.sqrt_div hn.le]
    field_simp
  have hci : ∀ a b : ℝ, IntervalIntegrable (fun u : ℝ => (1 + u ^ 2 / n) ^ (-((n + 1) / 2))) volume a b := by
    intro a b
    apply Continuous.intervalIntegrable
    refine Continuous.rpow_const (by fun_prop) fun u => Or.inl ?_
    positivity
  rw [intervalIntegral.integral_eq_sub_of_hasDerivAt (fun u _ => hderiv u) (hci 0 x)]
  have h1 : 0 < n + x ^ 2 := by positivity
  have h2 : 0 < √(n + x ^ 2) := Real.sqrt_pos.2 h1
  simp only [zero_div, intervalIntegral.integral_same, mul_zero, sub_zero]
  set w := x / √(n + x ^ 2) with hw
  have e3 : x ^ 2 / (n + x ^ 2) = w ^ 2 := by rw [hw, div_pow, Real.sq_sqrt h1.le]
  have e4 : x * (1 + x ^ 2 / n) ^ (-(1 / 2 : ℝ)) = √n * w := by
    rw [show 1 + x ^ 2 / n = (n + x ^ 2) / n by field_simp, Real.rpow_neg (by positivity), ← Real.sqrt_eq_rpow,
      Real.sqrt_div h1.le, hw]
    have : 0 < √n := Real.sqrt_pos.2 hn
    field_simp
  rw [e3, e4, mul_assoc]
  congr 1
  have h3 := intervalIntegral.mul_integral_comp_mul_left (f := fun v : ℝ => (1 - v ^ 2) ^ m) (a := 0) (b := 1) w
  simp only [mul_zero, mul_one] at h3
  rw [← h3]
  congr 2
  funext v
  rw [mul_pow]

/-! ## The series for large arguments -/

theorem kap_pos {n : ℝ} (hn : 0 < n) (u q : ℝ) : 0 < (1 + u ^ 2 / n) ^ (-q) := Real.rpow_pos_of_pos (by positivity) _

theorem kap_integrable {n q : ℝ} (hn : 0 < n) (hq : 1 / 2 < q) : Integrable fun u : ℝ => (1 + u ^ 2 / n) ^ (-q) := by
  have h := (tl_integral (n := n) (r := 0) (s := q) hn (by norm_num) (by linarith)).1
  exact integrable_of_parity (e := 1) (fun x => by simp) (by simpa using h)

theorem kap_hasDerivAt {n : ℝ} (hn : 0 < n) (p u : ℝ) :
    HasDerivAt (fun u => u / 2 * (1 + u ^ 2 / n) ^ (-(p + 1 / 2)))
      ((p + 1 / 2) * (1 + u ^ 2 / n) ^ (-(p + 3 / 2)) - p * (1 + u ^ 2 / n) ^ (-(p + 1 / 2))) u := by
  have hp : 0 < 1 + u ^ 2 / n := by positivity
  have h1 : HasDerivAt (fun u : ℝ => 1 + u ^ 2 / n) (2 * u / n) u := by
    simpa using (((hasDerivAt_pow 2 u).div_const n).const_add 1)
  have h2 := ((hasDerivAt_id u).div_const 2).mul (h1.rpow_const (p := -(p + 1 / 2)) (Or.inl hp.ne'))
  refine h2.congr_deriv ?_
  simp only [id]
  rw [show -(p + 1 / 2) - 1 = -(p + 3 / 2) by ring]
  have e : (1 + u ^ 2 / n) ^ (-(p + 1 / 2)) = (1 + u ^ 2 / n) ^ (-(p + 3 / 2)) * (1 + u ^ 2 / n) := by
    rw [← Real.rpow_add_one hp.ne']
    congr 1
    ring
  rw [e]
  field_simp
  ring

theorem kap_tendsto {n p : ℝ} (hn : 0 < n) (hp : 0 < p) :
    Filter.Tendsto (fun u : ℝ => u / 2 * (1 + u ^ 2 / n) ^ (-(p + 1 / 2))) Filter.atTop (nhds 0) := by
  have h1 : Filter.Tendsto (fun u : ℝ => n ^ (p + 1 / 2) / 2 * u ^ (-(2 * p))) Filter.atTop (nhds (n ^ (p + 1 / 2) / 2 * 0)) :=
    (tendsto_rpow_neg_atTop (by linarith)).const_mul _
  rw [mul_zero] at h1
  refine squeeze_zero' ?_ ?_ h1
  · filter_upwards [Filter.eventually_gt_atTop 0] with u hu
    have := kap_pos hn u (p + 1 / 2)
    positivity
  · filter_upwards [Filter.eventually_gt_atTop 0] with u hu
    have h2 : (1 + u ^ 2 / n) ^ (-(p + 1 / 2)) ≤ (u ^ 2 / n) ^ (-(p + 1 / 2)) :=
      Real.rpow_le_rpow_of_nonpos (by positivity) (by linarith) (by linarith)
    have h3 : (u ^ 2 / n) ^ (-(p + 1 / 2)) = n ^ (p + 1 / 2) * u ^ (-(2 * p + 1)) := by
      rw [Real.div_rpow (by positivity) hn.le, Real.rpow_neg hn.le, ← Real.rpow_two, ← Real.rpow_mul hu.le, div_inv_eq_mul,
        mul_comm]
      congr 2
      ring
    have h4 : u * u ^ (-(2 * p + 1)) = u ^ (-(2 * p)) := by
      rw [mul_comm, ← Real.rpow_add_one hu.ne']
      congr 1
      ring
    calc u / 2 * (1 + u ^ 2 / n) ^ (-(p + 1 / 2)) ≤ u / 2 * (n ^ (p + 1 / 2) * u ^ (-(2 * p + 1))) := by
          rw [← h3]
          exact mul_le_mul_of_nonneg_left h2 (by positivity)
      _ = n ^ (p + 1 / 2) / 2 * (u * u ^ (-(2 * p + 1))) := by ring
      _ = _ := by rw [h4]

/-- Integration by parts. -/
theorem kap_rec {n p : ℝ} (hn : 0 < n) (hp : 0 < p) (x : ℝ) :
    p * ∫ u in Ioi x, (1 + u ^ 2 / n) ^ (-(p + 1 / 2))
      = x / 2 * (1 + x ^ 2 / n) ^ (-(p + 1 / 2)) + (p + 1 / 2) * ∫ u in Ioi x, (1 + u ^ 2 / n) ^ (-(p + 3 / 2)) := by
  have i1 := (kap_integrable hn (by linarith : 1 / 2 < p + 1 / 2)).integrableOn (s := Ioi x)
  have i2 := (kap_integrable hn (by linarith : 1 / 2 < p + 3 / 2)).integrableOn (s := Ioi x)
  have i3 : IntegrableOn (fun u : ℝ => (p + 1 / 2) * (1 + u ^ 2 / n) ^ (-(p + 3 / 2)) - p * (1 + u ^ 2 / n) ^ (-(p + 1 / 2))) (Ioi x) :=
    (i2.const_mul _).sub (i1.const_mul _)
  have h := integral_Ioi_of_hasDerivAt_of_tendsto' (fun u _ => kap_hasDerivAt hn p u) i3 (kap_tendsto hn hp)
  rw [MeasureTheory.integral_sub (i2.const_mul _) (i1.const_mul _), MeasureTheory.integral_const_mul,
    MeasureTheory.integral_const_mul] at h
  linarith

theorem kap_tail_bound {n q x : ℝ} (hn : 0 < n) (hq : 1 ≤ q) (hx : n ≤ x ^ 2) (hx0 : 0 < x) :
    0 ≤ ∫ u in Ioi x, (1 + u ^ 2 / n) ^ (-(q + 1 / 2)) ∧
    q * ∫ u in Ioi x, (1 + u ^ 2 / n) ^ (-(q + 1 / 2)) ≤ 4 * (x / 2 * (1 + x ^ 2 / n) ^ (-(q + 1 / 2))) := by
  have i1 := (kap_integrable hn (by linarith : 1 / 2 < q + 1 / 2)).integrableOn (s := Ioi x)
  have i2 := (kap_integrable hn (by linarith : 1 / 2 < q + 3 / 2)).integrableOn (s := Ioi x)
  have h0 : 0 ≤ ∫ u in Ioi x, (1 + u ^ 2 / n) ^ (-(q + 1 / 2)) :=
    integral_nonneg fun u => (kap_pos hn u _).le
  refine ⟨h0, ?_⟩
  have hmono : ∫ u in Ioi x, (1 + u ^ 2 / n) ^ (-(q + 3 / 2)) ≤ ∫ u in Ioi x, 1 / 2 * (1 + u ^ 2 / n) ^ (-(q + 1 / 2)) := by
    refine setIntegral_mono_on i2 (i1.const_mul _) measurableSet_Ioi fun u hu => ?_
    have hux : x < u := hu
    have h1 : 2 ≤ 1 + u ^ 2 / n := by
      have : 1 ≤ u ^ 2 / n := by rw [le_div_iff₀ hn]; nlinarith
      linarith
    have e : (1 + u ^ 2 / n) ^ (-(q + 1 / 2)) = (1 + u ^ 2 / n) ^ (-(q + 3 / 2)) * (1 + u ^ 2 / n) := by
      rw [← Real.rpow_add_one (by positivity)]
      congr 1
      ring
    rw [e]
    have := kap_pos hn u (q + 3 / 2)
    nlinarith
  rw [MeasureTheory.integral_const_mul] at hmono
  have hr := kap_rec hn (by linarith : 0 < q) x
  nlinarith

/-- The terms of the second series. -/
theorem f21Term_tail {p : ℝ} (hp : 0 < p) (y : ℝ) (j : ℕ) :
    f21Term (p + 1 / 2) 1 (p + 1) y j = ∏ i ∈ Finset.range j, ((p + 1 / 2 + i) / (p + 1 + i) * y) := by
  unfold f21Term
  refine Finset.prod_congr rfl fun i _ => ?_
  have h1 : p + 1 + (i : ℝ) ≠ 0 := by positivity
  have h2 : 1 + (i : ℝ) ≠ 0 := by positivity
  rw [add_comm (i : ℝ) 1]
  field_simp

/-- The tail is a multiple of the partial sum, up to a tail with a larger exponent. -/
theorem kap_expand {n p x : ℝ} (hn : 0 < n) (hp : 0 < p) (N : ℕ) :
    p * ∫ u in Ioi x, (1 + u ^ 2 / n) ^ (-(p + 1 / 2))
      = x / 2 * (1 + x ^ 2 / n) ^ (-(p + 1 / 2)) * f21Sum (p + 1 / 2) 1 (p + 1) (1 / (1 + x ^ 2 / n)) N
        + f21Term (p + 1 / 2) 1 (p + 1) 1 N * (p + N) * ∫ u in Ioi x, (1 + u ^ 2 / n) ^ (-(p + N + 1 / 2)) := by
  have hb : 0 < 1 + x ^ 2 / n := by positivity
  induction N with
  | zero => simp [f21Sum, f21Term]
  | succ N ih =>
    rw [ih, f21Sum_succ, f21Term_succ]
    have hr := kap_rec hn (by positivity : 0 < p + N) x
    have e1 : f21Term (p + 1 / 2) 1 (p + 1) (1 / (1 + x ^ 2 / n)) N
        = f21Term (p + 1 / 2) 1 (p + 1) 1 N * (1 / (1 + x ^ 2 / n)) ^ N := by
      rw [f21Term_tail hp, f21Term_tail hp, Finset.prod_mul_distrib, Finset.prod_const, Finset.card_range]
      simp
    have e2 : (1 + x ^ 2 / n) ^ (-(p + N + 1 / 2)) = (1 + x ^ 2 / n) ^ (-(p + 1 / 2)) * (1 / (1 + x ^ 2 / n)) ^ N := by
      rw [show -(p + N + 1 / 2) = -(p + 1 / 2) + -(N : ℝ) by ring, Real.rpow_add hb, Real.rpow_neg hb.le (N : ℝ),
        Real.rpow_natCast, one_div_pow, one_div ((1 + x ^ 2 / n) ^ N)]
    have e3 : ∫ u in Ioi x, (1 + u ^ 2 / n) ^ (-(p + ((N + 1 : ℕ) : ℝ) + 1 / 2)) = ∫ u in Ioi x, (1 + u ^ 2 / n) ^ (-(p + N + 3 / 2)) := by
      congr 2
      funext u
      congr 1
      push_cast
      ring
    rw [e3, mul_assoc (f21Term (p + 1 / 2) 1 (p + 1) 1 N), hr, e2, e1]
    have h1 : p + 1 + (N : ℝ) ≠ 0 := by positivity
    have h2 : 1 + (N : ℝ) ≠ 0 := by positivity
    have h3 : (N : ℝ) + 1 ≠ 0 := by positivity
    push_cast
    field_simp
    ring

theorem tail_remainder {n p x : ℝ} (hn : 0 < n) (hp : 0 < p) (hx : n ≤ x ^ 2) (hx0 : 0 < x) (N : ℕ) (hN : 1 ≤ N) :
    |(p * ∫ u in Ioi x, (1 + u ^ 2 / n) ^ (-(p + 1 / 2))) / (x / 2 * (1 + x ^ 2 / n) ^ (-(p + 1 / 2)))
        - f21Sum (p + 1 / 2) 1 (p + 1) (1 / (1 + x ^ 2 / n)) N|
      ≤ 4 * |f21Term (p + 1 / 2) 1 (p + 1) (1 / (1 + x ^ 2 / n)) N| := by
  have hb : 0 < 1 + x ^ 2 / n := by positivity
  have hk := kap_pos hn x (p + 1 / 2)
  have hW : 0 < x / 2 * (1 + x ^ 2 / n) ^ (-(p + 1 / 2)) := by positivity
  have hN' : (1 : ℝ) ≤ N := by exact_mod_cast hN
  obtain ⟨t0, t1⟩ := kap_tail_bound (q := p + N) hn (by linarith) hx hx0
  have hT : 0 < f21Term (p + 1 / 2) 1 (p + 1) 1 N := by
    rw [f21Term_tail hp]
    exact Finset.prod_pos fun i _ => by positivity
  have e1 : f21Term (p + 1 / 2) 1 (p + 1) (1 / (1 + x ^ 2 / n)) N
      = f21Term (p + 1 / 2) 1 (p + 1) 1 N * (1 / (1 + x ^ 2 / n)) ^ N := by
    rw [f21Term_tail hp, f21Term_tail hp, Finset.prod_mul_distrib, Finset.prod_const, Finset.card_range]
    simp
  have e2 : (1 + x ^ 2 / n) ^ (-(p + N + 1 / 2)) = (1 + x ^ 2 / n) ^ (-(p + 1 / 2)) * (1 / (1 + x ^ 2 / n)) ^ N := by
    rw [show -(p + N + 1 / 2) = -(p + 1 / 2) + -(N : ℝ) by ring, Real.rpow_add hb, Real.rpow_neg hb.le (N : ℝ),
      Real.rpow_natCast, one_div_pow, one_div ((1 + x ^ 2 / n) ^ N)]
  have hy : 0 < (1 / (1 + x ^ 2 / n)) ^ N := by positivity
  rw [kap_expand hn hp N, add_div, mul_div_cancel_left₀ _ hW.ne', add_sub_cancel_left, e1, abs_of_nonneg (by positivity),
    abs_of_pos (by positivity), div_le_iff₀ hW, mul_assoc]
  rw [e2] at t1
  calc f21Term (p + 1 / 2) 1 (p + 1) 1 N * ((p + N) * ∫ u in Ioi x, (1 + u ^ 2 / n) ^ (-(p + N + 1 / 2)))
      ≤ f21Term (p + 1 / 2) 1 (p + 1) 1 N * (4 * (x / 2 * ((1 + x ^ 2 / n) ^ (-(p + 1 / 2)) * (1 / (1 + x ^ 2 / n)) ^ N))) :=
        mul_le_mul_of_nonneg_left t1 hT.le
    _ = _ := by ring

/-! ## The distribution function -/

theorem gamma_rel {z : ℝ} (hz : ∀ k : ℕ, z ≠ -k) :
    ∃ g, gamma z = some g ∧ Rel 4e-12 g (Real.Gamma z) ∧ g ≠ 0 := by
  obtain ⟨g, hg, h⟩ := C48_gamma_accuracy z hz
  have hG := Real.Gamma_ne_zero hz
  have hR := Rel.of_abs hG h
  refine ⟨g, hg, hR, ?_⟩
  obtain ⟨d, hd, rfl⟩ := hR
  have := (abs_le.1 hd).1
  norm_num at this
  exact mul_ne_zero hG (by linarith)

theorem gamma_rel_pos {z : ℝ} (hz : 0 < z) : ∃ g, gamma z = some g ∧ Rel 4e-12 g (Real.Gamma z) ∧ g ≠ 0 :=
  gamma_rel fun k hk => by
    have : (0 : ℝ) ≤ k := Nat.cast_nonneg k
    linarith

theorem tDens_integrable {n : ℝ} (hn : 0 < n) : Integrable (tDens n) := by
  simpa using t_integrable hn 0 (by simpa using hn)

theorem t_Iic {n : ℝ} (hn : 0 < n) (x : ℝ) : ∫ u in Iic x, tDens n u = 1 / 2 + ∫ u in (0 : ℝ)..x, tDens n u := by
  have hI := tDens_integrable hn
  have h := intervalIntegral.integral_Iic_sub_Iic (hI.integrableOn (s := Iic 0)) (hI.integrableOn (s := Iic x))
  have h2 := (C74_moments hn (tDens n) (fun _ => rfl)).2.2.2.2.2.2.2
  rw [tMedian] at h2
  rw [← h, h2]
  ring

theorem t_Iic_bounds {n : ℝ} (hn : 0 < n) (x : ℝ) : 0 ≤ ∫ u in Iic x, tDens n u ∧ ∫ u in Iic x, tDens n u ≤ 1 := by
  have hI := tDens_integrable hn
  refine ⟨integral_nonneg fun u => (tDens_pos hn u).le, ?_⟩
  rw [← (C74_pdf hn (tDens n) (fun _ => rfl)).2.2.2]
  exact setIntegral_le_integral hI (Filter.Eventually.of_forall fun u => (tDens_pos hn u).le)

theorem t_Iic_add_Ioi {n : ℝ} (hn : 0 < n) (x : ℝ) : (∫ u in Iic x, tDens n u) + ∫ u in Ioi x, tDens n u = 1 := by
  have hI := tDens_integrable hn
  rw [← (C74_pdf hn (tDens n) (fun _ => rfl)).2.2.2,
    ← setIntegral_union (Iic_disjoint_Ioi le_rfl) measurableSet_Ioi hI.integrableOn hI.integrableOn, Iic_union_Ioi,
    setIntegral_univ]

theorem tCdf_small {n : ℝ} (hn : 0 < n) (x : ℝ) (hx0 : x ≠ 0) (hx : x ^ 2 ≤ n) :
    ∃ N v, (∀ fuel, N ≤ fuel → tCdf fuel n x = some v) ∧ |v - ∫ u in Iic x, tDens n u| ≤ 3e-11 := by
  have hx2 : 0 < x ^ 2 := by positivity
  have hy0 : 0 ≤ x ^ 2 / (n + x ^ 2) := by positivity
  have hy1 : x ^ 2 / (n + x ^ 2) ≤ 1 / 2 := by
    rw [div_le_div_iff₀ (by positivity) (by norm_num)]
    linarith
  have hb : 0 < 1 + x ^ 2 / n := by positivity
  set y := x ^ 2 / (n + x ^ 2) with hy
  set m := n / 2 - 1 with hm
  set F := ∫ u in (0 : ℝ)..1, (1 - y * u ^ 2) ^ m with hF
  have hFpos : 0 < F := by
    refine intervalIntegral.intervalIntegral_pos_of_pos_on (half_integrable hy0 (by linarith)) (fun u hu => ?_) one_pos
    refine Real.rpow_pos_of_pos ?_ _
    have : u ^ 2 ≤ 1 := pow_le_one₀ hu.1.le hu.2.le
    nlinarith
  obtain ⟨N, f1, hf1, hfR⟩ := f21Norm_close (a := 0.5) (b := -m) (c := 1.5) (z := y) (F := F)
    (fun i => by positivity) (by rw [abs_of_nonneg hy0]; linarith) hFpos
    (fun N _ => half_remainder (by rw [hm]; linarith) hy0 hy1 N)
  obtain ⟨g1, hg1, h1, -⟩ := gamma_rel_pos (by linarith : 0 < (n + 1) / 2)
  obtain ⟨g2, hg2, h2, h2n⟩ := gamma_rel_pos (by linarith : 0 < n / 2)
  have hsq : 0 < √(n * Real.pi) := Real.sqrt_pos.2 (mul_pos hn Real.pi_pos)
  have hden : √(n * Real.pi) * g2 ≠ 0 := mul_ne_zero hsq.ne' h2n
  refine ⟨N, 0.5 + x * g1 * (f1 * (1 + x ^ 2 / n) ^ (-(0.5 : ℝ))) / (√(n * Real.pi) * g2), fun fuel hfuel => ?_, ?_⟩
  · have z0 : ¬ (-x ^ 2 / n > 1) := by
      rw [not_lt, neg_div]
      have : 0 < x ^ 2 / n := by positivity
      linarith
    have z1 : ¬ (-x ^ 2 / n = 1) := by
      rw [neg_div]
      have : 0 < x ^ 2 / n := by positivity
      intro h; linarith
    have z2 : ¬ (-x ^ 2 / n < -1) := by
      rw [not_lt, neg_div, neg_le_neg_iff, div_le_one hn]
      exact hx
    have z3 : -1 ≤ -x ^ 2 / n ∧ -x ^ 2 / n < 0 := by
      refine ⟨not_lt.1 z2, ?_⟩
      rw [neg_div]
      have : 0 < x ^ 2 / n := by positivity
      linarith
    have z4 : -x ^ 2 / n - 1 ≠ 0 := by linarith [z3.2]
    have z5 : 1 - -x ^ 2 / n = 1 + x ^ 2 / n := by ring
    have z6 : -x ^ 2 / n / (-x ^ 2 / n - 1) = y := by
      have : -x ^ 2 / n - 1 = -((n + x ^ 2) / n) := by field_simp; ring
      rw [this, hy]
      field_simp
    have z7 : (1.5 : ℝ) - (n + 1) / 2 = -m := by rw [hm]; norm_num; ring
    have zk : ¬ ((0.5 : ℝ) ≤ 0 ∨ (n + 1) / 2 ≤ 0 ∨ (1.5 : ℝ) ≤ 0 ∨ -x ^ 2 / n > 1) := by
      rintro (h | h | h | h)
      · norm_num at h
      · linarith
      · norm_num at h
      · exact z0 h
    have hf : f21 fuel 0.5 ((n + 1) / 2) 1.5 (-x ^ 2 / n) = some (f1 * (1 + x ^ 2 / n) ^ (-(0.5 : ℝ))) := by
      rw [f21, if_neg zk, if_neg z1, if_neg z2, if_pos z3]
      simp only [R.div, z4, if_false, Option.bind_eq_bind, Option.bind_some, z6, z7, hf1 fuel hfuel, z5, powf_pos hb]
    simp only [tCdf, R.div, hn.ne', if_false, Option.bind_eq_bind, Option.bind_some, hf, hg1, hg2, hden]
  · have hR : Rel 9e-12 (x * g1 * (f1 * (1 + x ^ 2 / n) ^ (-(0.5 : ℝ))) / (√(n * Real.pi) * g2))
        (x * Real.Gamma ((n + 1) / 2) * (F * (1 + x ^ 2 / n) ^ (-(0.5 : ℝ))) / (√(n * Real.pi) * Real.Gamma (n / 2))) := by
      refine Rel.div (e := 4.1e-12) (f := 4e-12) ?_ ?_ (by norm_num) (by norm_num)
      · exact Rel.mul (((Rel.refl x).mul h1 (by norm_num) : Rel 4e-12 _ _))
          ((hfR.mul (Rel.refl _) (by norm_num) : Rel 2e-15 _ _)) (by norm_num)
      · exact (Rel.refl _).mul h2 (by norm_num)
    have hQ : x * Real.Gamma ((n + 1) / 2) * (F * (1 + x ^ 2 / n) ^ (-(0.5 : ℝ))) / (√(n * Real.pi) * Real.Gamma (n / 2))
        = ∫ u in (0 : ℝ)..x, tDens n u := by
      unfold tDens
      rw [intervalIntegral.integral_const_mul, t_central hn, show (-(0.5 : ℝ)) = -(1 / 2) by norm_num]
      ring
    rw [hQ] at hR
    have hA := hR.abs
    obtain ⟨b0, b1⟩ := t_Iic_bounds hn x
    rw [t_Iic hn] at b0 b1 ⊢
    have hQ2 : |∫ u in (0 : ℝ)..x, tDens n u| ≤ 1 / 2 := by rw [abs_le]; constructor <;> linarith
    have e : ∀ a b : ℝ, 0.5 + a - (1 / 2 + b) = a - b := fun a b => by norm_num
    rw [e]
    refine hA.trans ?_
    norm_num at hQ2 ⊢
    linarith

theorem tCdf_large {n : ℝ} (hn : 0 < n) (x : ℝ) (hx : n < x ^ 2) (he : ∀ k : ℕ, n ≠ 2 * (k + 1)) :
    ∃ N v, (∀ fuel, N ≤ fuel → tCdf fuel n x = some v) ∧ |v - ∫ u in Iic x, tDens n u| ≤ 3e-11 := by
  have hx0 : x ≠ 0 := by rintro rfl; norm_num at hx; linarith
  have hX : 0 < |x| := abs_pos.2 hx0
  have hX2 : |x| ^ 2 = x ^ 2 := sq_abs x
  have hb : 0 < 1 + x ^ 2 / n := by positivity
  have hr : 1 < x ^ 2 / n := by rwa [one_lt_div hn]
  set y := 1 / (1 + x ^ 2 / n) with hy
  have hy0 : 0 < y := by positivity
  have hy1 : y ≤ 1 / 2 := by
    rw [hy, div_le_div_iff₀ hb (by norm_num)]
    linarith
  have hpole : ∀ k : ℕ, -(n / 2) ≠ -(k : ℝ) := by
    intro k hk
    rcases k with _ | k
    · norm_num at hk; linarith
    · refine he k ?_
      push_cast at hk
      linarith
  have hpole' : ∀ k : ℕ, 1 - n / 2 ≠ -(k : ℝ) := by
    intro k hk
    exact he k (by linarith)
  -- first series
  set F1 := (1 - y) ^ (-(1 / 2) : ℝ) with hF1
  have hF1p : 0 < F1 := Real.rpow_pos_of_pos (by linarith) _
  have hT1 : ∀ j : ℕ, f21Term 0.5 (1 - n / 2) (1 - n / 2) y j = bA (-(1 / 2)) j * y ^ j := by
    intro j
    induction j with
    | zero => simp [f21Term, bA]
    | succ j ih =>
      have h := bA_succ (-(1 / 2)) j
      have h1 : (j : ℝ) + 1 ≠ 0 := by positivity
      have h2 : 1 - n / 2 + (j : ℝ) ≠ 0 := fun h => hpole' j (by linarith)
      have h6 : bA (-(1 / 2)) (j + 1) = bA (-(1 / 2)) j * (j - -(1 / 2)) / (j + 1) := by rw [eq_div_iff h1, h]
      have h5 : (0.5 + (j : ℝ)) = (j - -(1 / 2)) := by norm_num; ring
      rw [f21Term_succ, ih, h6, h5, mul_comm (1 - n / 2 + (j : ℝ)) ((j : ℝ) + 1), mul_div_mul_right _ _ h2]
      ring
  have hS1 : ∀ N, f21Sum 0.5 (1 - n / 2) (1 - n / 2) y N = bS (-(1 / 2)) N y := by
    intro N
    rw [f21Sum, bS]
    exact Finset.sum_congr rfl fun j _ => hT1 j
  obtain ⟨N1, f1, hf1, hfR1⟩ := f21Norm_close (a := 0.5) (b := 1 - n / 2) (c := 1 - n / 2) (z := y) (F := F1)
    (fun i h => hpole' i (by linarith)) (by rw [abs_of_pos hy0]; linarith) hF1p
    (fun N _ => by
      rw [hS1, hT1, abs_mul, abs_of_nonneg (by positivity : 0 ≤ y ^ N)]
      refine (bS_remainder (by norm_num) hy0.le (by linarith) N).trans ?_
      rw [div_le_iff₀ (by linarith)]
      have : 0 ≤ |bA (-(1 / 2)) N| * y ^ N := by positivity
      nlinarith)
  -- second series
  set W := |x| / 2 * (1 + x ^ 2 / n) ^ (-(n / 2 + 1 / 2)) with hW
  have hkp := kap_pos hn x (n / 2 + 1 / 2)
  have hWp : 0 < W := by positivity
  set tau := ∫ u in Ioi |x|, (1 + u ^ 2 / n) ^ (-(n / 2 + 1 / 2)) with htau
  set F2 := (n / 2 * tau) / W with hF2
  have htp : 0 < tau := by
    have h := kap_rec hn (by linarith : 0 < n / 2) |x|
    have h0 : 0 ≤ ∫ u in Ioi |x|, (1 + u ^ 2 / n) ^ (-(n / 2 + 3 / 2)) := integral_nonneg fun u => (kap_pos hn u _).le
    rw [hX2, ← hW, ← htau] at h
    have : 0 < n / 2 * tau := by
      rw [h]
      have := mul_nonneg (by linarith : 0 ≤ n / 2 + 1 / 2) h0
      linarith
    exact (pos_iff_pos_of_mul_pos this).1 (by linarith)
  have hF2p : 0 < F2 := by positivity
  obtain ⟨N2, f2, hf2, hfR2⟩ := f21Norm_close (a := n / 2 + 1 / 2) (b := 1) (c := n / 2 + 1) (z := y) (F := F2)
    (fun i => by positivity) (by rw [abs_of_pos hy0]; linarith) hF2p
    (fun N hN => by
      have h := tail_remainder hn (by linarith : 0 < n / 2) (x := |x|) (by rw [hX2]; exact hx.le) hX N hN
      rw [hX2, ← hW, ← htau] at h
      exact h)
  -- gammas
  obtain ⟨g1, hg1, h1, h1n⟩ := gamma_rel_pos (by linarith : 0 < (n + 1) / 2)
  obtain ⟨g2, hg2, h2, h2n⟩ := gamma_rel_pos (by linarith : 0 < n / 2)
  obtain ⟨g3, hg3, h3, h3n⟩ := gamma_rel_pos (by norm_num : (0 : ℝ) < 1.5)
  obtain ⟨g4, hg4, h4, h4n⟩ := gamma_rel_pos (by norm_num : (0 : ℝ) < 1.5 - 0.5)
  obtain ⟨g5, hg5, h5, h5n⟩ := gamma_rel_pos (by norm_num : (0 : ℝ) < 0.5)
  obtain ⟨g6, hg6, h6, h6n⟩ := gamma_rel hpole
  obtain ⟨g7, hg7, h7, h7n⟩ := gamma_rel hpole'
  have hsq : 0 < √(n * Real.pi) := Real.sqrt_pos.2 (mul_pos hn Real.pi_pos)
  have hden : √(n * Real.pi) * g2 ≠ 0 := mul_ne_zero hsq.ne' h2n
  set w1 := (1 + x ^ 2 / n) ^ (-(0.5 : ℝ)) with hw1
  set w2 := (1 + x ^ 2 / n) ^ (-((n + 1) / 2)) with hw2
  refine ⟨max N1 N2, 0.5 + x * g1 * (w1 * g3 * g2 / (g1 * g4) * f1 + w2 * g3 * g6 / (g5 * g7) * f2) / (√(n * Real.pi) * g2),
    fun fuel hfuel => ?_, ?_⟩
  · have z2 : -x ^ 2 / n < -1 := by
      rw [neg_div, neg_lt_neg_iff]
      exact hr
    have z1 : ¬ (-x ^ 2 / n = 1) := by intro h; linarith
    have z5 : 1 - -x ^ 2 / n = 1 + x ^ 2 / n := by ring
    have zk : ¬ ((0.5 : ℝ) ≤ 0 ∨ (n + 1) / 2 ≤ 0 ∨ (1.5 : ℝ) ≤ 0 ∨ -x ^ 2 / n > 1) := by
      rintro (h | h | h | h)
      · norm_num at h
      · linarith
      · norm_num at h
      · linarith
    have e1 : (n + 1) / 2 - 0.5 = n / 2 := by norm_num; ring
    have e2 : 0.5 - (n + 1) / 2 = -(n / 2) := by norm_num; ring
    have e3 : (1.5 : ℝ) - (n + 1) / 2 = 1 - n / 2 := by norm_num; ring
    have e4 : -(n / 2) + 1 = 1 - n / 2 := by ring
    have e5 : (1.5 : ℝ) - 0.5 = 1 := by norm_num
    have e6 : (n + 1) / 2 = n / 2 + 1 / 2 := by ring
    have hf1' := hf1 fuel ((le_max_left _ _).trans hfuel)
    have hf2' := hf2 fuel ((le_max_right _ _).trans hfuel)
    have d1 : g1 * g4 ≠ 0 := mul_ne_zero h1n h4n
    have d2 : g5 * g7 ≠ 0 := mul_ne_zero h5n h7n
    rw [e5] at hg4
    rw [← e6] at hf2'
    have hf : f21 fuel 0.5 ((n + 1) / 2) 1.5 (-x ^ 2 / n)
        = some (w1 * g3 * g2 / (g1 * g4) * f1 + w2 * g3 * g6 / (g5 * g7) * f2) := by
      rw [f21, if_neg zk, if_neg z1, if_pos z2]
      simp only [R.div, hb.ne', if_false, Option.bind_eq_bind, Option.bind_some, z5, powf_pos hb, e1, e2, e3, e4, e5, hg1, hg2,
        hg3, hg4, hg5, hg6, hg7, d1, d2, ← hy, hf1', hf2', ← hw1, ← hw2]
    simp only [tCdf, R.div, hn.ne', if_false, Option.bind_eq_bind, Option.bind_some, hf, hg1, hg2, hden]
  · have hG1 := Real.Gamma_pos_of_pos (by linarith : 0 < (n + 1) / 2)
    have hG2 := Real.Gamma_pos_of_pos (by linarith : 0 < n / 2)
    have hA : Rel 9e-12 (x * g1 / (√(n * Real.pi) * g2)) (x * Real.Gamma ((n + 1) / 2) / (√(n * Real.pi) * Real.Gamma (n / 2))) :=
      Rel.div ((Rel.refl x).mul h1 (by norm_num) : Rel 4e-12 _ _) ((Rel.refl _).mul h2 (by norm_num) : Rel 4e-12 _ _)
        (by norm_num) (by norm_num)
    have hL1 : Rel 1.7e-11 (w1 * g3 * g2 / (g1 * g4) * f1)
        (w1 * Real.Gamma 1.5 * Real.Gamma (n / 2) / (Real.Gamma ((n + 1) / 2) * Real.Gamma (1.5 - 0.5)) * F1) :=
      Rel.mul (Rel.div (((Rel.refl w1).mul h3 (by norm_num) : Rel 4e-12 _ _).mul h2 (by norm_num) : Rel 8.1e-12 _ _)
        (h1.mul h4 (by norm_num) : Rel 8.1e-12 _ _) (by norm_num) (by norm_num) : Rel 1.65e-11 _ _) hfR1 (by norm_num)
    have hL2 : Rel 1.7e-11 (w2 * g3 * g6 / (g5 * g7) * f2)
        (w2 * Real.Gamma 1.5 * Real.Gamma (-(n / 2)) / (Real.Gamma 0.5 * Real.Gamma (1 - n / 2)) * F2) :=
      Rel.mul (Rel.div (((Rel.refl w2).mul h3 (by norm_num) : Rel 4e-12 _ _).mul h6 (by norm_num) : Rel 8.1e-12 _ _)
        (h5.mul h7 (by norm_num) : Rel 8.1e-12 _ _) (by norm_num) (by norm_num) : Rel 1.65e-11 _ _) hfR2 (by norm_num)
    have hM1 := (hA.mul hL1 (by norm_num : _ ≤ (2.7e-11 : ℝ))).abs
    have hM2 := (hA.mul hL2 (by norm_num : _ ≤ (2.7e-11 : ℝ))).abs
    have hG15 : Real.Gamma 1.5 = √Real.pi / 2 := by
      rw [show (1.5 : ℝ) = 1 / 2 + 1 by norm_num, Real.Gamma_add_one (by norm_num), Real.Gamma_one_half_eq]
      ring
    have hG10 : Real.Gamma (1.5 - 0.5) = 1 := by rw [show (1.5 - 0.5 : ℝ) = 1 by norm_num, Real.Gamma_one]
    have hG05 : Real.Gamma 0.5 = √Real.pi := by rw [show (0.5 : ℝ) = 1 / 2 by norm_num, Real.Gamma_one_half_eq]
    have hG7 : Real.Gamma (1 - n / 2) = -(n / 2) * Real.Gamma (-(n / 2)) := by
      rw [show 1 - n / 2 = -(n / 2) + 1 by ring, Real.Gamma_add_one (by linarith)]
    have hG6 := Real.Gamma_ne_zero hpole
    have hpi : 0 < √Real.pi := Real.sqrt_pos.2 Real.pi_pos
    have hsn : 0 < √n := Real.sqrt_pos.2 hn
    have hwF : w1 * F1 = √n / |x| := by
      have h1y : 0 < 1 - y := by linarith
      rw [hw1, hF1, show (-(0.5 : ℝ)) = -(1 / 2) by norm_num, ← Real.mul_rpow hb.le h1y.le,
        show (1 + x ^ 2 / n) * (1 - y) = x ^ 2 / n by rw [hy]; field_simp; ring,
        Real.rpow_neg (by positivity), ← Real.sqrt_eq_rpow, Real.sqrt_div (by positivity), Real.sqrt_sq_eq_abs, inv_div]
    have T1 : x * Real.Gamma ((n + 1) / 2) / (√(n * Real.pi) * Real.Gamma (n / 2)) *
        (w1 * Real.Gamma 1.5 * Real.Gamma (n / 2) / (Real.Gamma ((n + 1) / 2) * Real.Gamma (1.5 - 0.5)) * F1) = x / |x| / 2 := by
      rw [hG15, hG10, Real.sqrt_mul hn.le]
      have : x * Real.Gamma ((n + 1) / 2) / (√n * √Real.pi * Real.Gamma (n / 2)) *
        (w1 * (√Real.pi / 2) * Real.Gamma (n / 2) / (Real.Gamma ((n + 1) / 2) * 1) * F1) = x / √n / 2 * (w1 * F1) := by
        field_simp
      rw [this, hwF]
      field_simp
    have hw2p : 0 < w2 := Real.rpow_pos_of_pos hb _
    have hWw : W = |x| / 2 * w2 := by rw [hW, hw2, show (n + 1) / 2 = n / 2 + 1 / 2 by ring]
    have htail : ∫ u in Ioi |x|, tDens n u = Real.Gamma ((n + 1) / 2) / (√(n * Real.pi) * Real.Gamma (n / 2)) * tau := by
      unfold tDens
      rw [MeasureTheory.integral_const_mul, htau, show (n + 1) / 2 = n / 2 + 1 / 2 by ring]
    have T2 : x * Real.Gamma ((n + 1) / 2) / (√(n * Real.pi) * Real.Gamma (n / 2)) *
        (w2 * Real.Gamma 1.5 * Real.Gamma (-(n / 2)) / (Real.Gamma 0.5 * Real.Gamma (1 - n / 2)) * F2)
        = -(x / |x|) * ∫ u in Ioi |x|, tDens n u := by
      rw [hG15, hG05, hG7, hF2, hWw, htail]
      field_simp
    have hsgn : abs (x / |x|) = 1 := by rw [abs_div, abs_abs, div_self hX.ne']
    have hadd := t_Iic_add_Ioi hn |x|
    have hhalf : 1 / 2 ≤ ∫ u in Iic |x|, tDens n u := by
      rw [t_Iic hn]
      have : 0 ≤ ∫ u in (0 : ℝ)..|x|, tDens n u := intervalIntegral.integral_nonneg hX.le fun u _ => (tDens_pos hn u).le
      linarith
    have ht0 : 0 ≤ ∫ u in Ioi |x|, tDens n u := integral_nonneg fun u => (tDens_pos hn u).le
    rw [T1] at hM1
    rw [T2] at hM2
    rw [show x / |x| / 2 = (x / |x|) * (1 / 2) by ring, abs_mul (x / |x|), hsgn] at hM1
    rw [abs_mul (-(x / |x|)), abs_neg, hsgn, abs_of_nonneg ht0] at hM2
    have hsplit : x * g1 * (w1 * g3 * g2 / (g1 * g4) * f1 + w2 * g3 * g6 / (g5 * g7) * f2) / (√(n * Real.pi) * g2)
        = x * g1 / (√(n * Real.pi) * g2) * (w1 * g3 * g2 / (g1 * g4) * f1)
          + x * g1 / (√(n * Real.pi) * g2) * (w2 * g3 * g6 / (g5 * g7) * f2) := by ring
    rw [hsplit]
    set M1 := x * g1 / (√(n * Real.pi) * g2) * (w1 * g3 * g2 / (g1 * g4) * f1)
    set M2 := x * g1 / (√(n * Real.pi) * g2) * (w2 * g3 * g6 / (g5 * g7) * f2)
    have htrue : ∫ u in Iic x, tDens n u = 1 / 2 + (x / |x|) * (1 / 2) + -(x / |x|) * ∫ u in Ioi |x|, tDens n u := by
      rcases lt_or_gt_of_ne hx0 with hneg | hpos
      · have e : x / |x| = -1 := by rw [abs_of_neg hneg, div_neg, div_self hx0]
        rw [e, abs_of_neg hneg]
        have h := integral_comp_neg_Iic x (tDens n)
        simp only [tDens_neg] at h
        rw [h]
        ring
      · have e : x / |x| = 1 := by rw [abs_of_pos hpos, div_self hx0]
        rw [abs_of_pos hpos] at hadd ⊢
        rw [div_self hx0]
        linarith
    rw [htrue]
    have e : ∀ s t : ℝ, 0.5 + (M1 + M2) - (1 / 2 + s + t) = (M1 - s) + (M2 - t) := fun s t => by norm_num; ring
    rw [e]
    refine (abs_add_le _ _).trans ?_
    norm_num at hM1 hM2 ⊢
    linarith

/-- **C74**, distribution function: for `n > 0` and every `x`, unless `n` is an even number and `x² > n`, `cdf` terminates
and returns the integral of the density up to `x`, with an absolute error of at most `3e-11`. -/
theorem C74_cdf {n : ℝ} (hn : 0 < n) (f : ℝ → ℝ)
    (hf : ∀ x, f x = Real.Gamma ((n + 1) / 2) / (√(n * Real.pi) * Real.Gamma (n / 2)) * (1 + x ^ 2 / n) ^ (-((n + 1) / 2)))
    (x : ℝ) (hx : x ^ 2 ≤ n ∨ ∀ k : ℕ, n ≠ 2 * (k + 1)) :
    ∃ N v, (∀ fuel, N ≤ fuel → tCdf fuel n x = some v) ∧ |v - ∫ u in Iic x, f u| ≤ 3e-11 := by
  obtain rfl : f = tDens n := funext hf
  by_cases hxn : x ^ 2 ≤ n
  · by_cases hx0 : x = 0
    · subst hx0
      obtain ⟨v, hv⟩ := f21Norm_complete (a := 0.5) (b := (n + 1) / 2) (c := 1.5) (z := 0) (fun i => by positivity) 0
        (by simp [f21Term]; positivity)
      obtain ⟨g1, hg1, h1, -⟩ := gamma_rel_pos (by linarith : 0 < (n + 1) / 2)
      obtain ⟨g2, hg2, h2, h2n⟩ := gamma_rel_pos (by linarith : 0 < n / 2)
      have hsq : 0 < √(n * Real.pi) := Real.sqrt_pos.2 (mul_pos hn Real.pi_pos)
      have hden : √(n * Real.pi) * g2 ≠ 0 := mul_ne_zero hsq.ne' h2n
      refine ⟨2, 0.5, fun fuel hfuel => ?_, ?_⟩
      · have zk : ¬ ((0.5 : ℝ) ≤ 0 ∨ (n + 1) / 2 ≤ 0 ∨ (1.5 : ℝ) ≤ 0 ∨ (0 : ℝ) > 1) := by
          rintro (h | h | h | h)
          · norm_num at h
          · linarith
          · norm_num at h
          · norm_num at h
        have hf : f21 fuel 0.5 ((n + 1) / 2) 1.5 0 = some v := by
          rw [f21, if_neg zk, if_neg (by norm_num), if_neg (by norm_num), if_neg (by norm_num), if_pos (by norm_num)]
          exact hv fuel hfuel
        have hz : -((0 : ℝ) ^ 2) / n = 0 := by simp
        simp only [tCdf, R.div, hn.ne', if_false, Option.bind_eq_bind, Option.bind_some, hz, hf, hg1, hg2, hden]
        simp
      · rw [t_Iic hn, intervalIntegral.integral_same]
        norm_num
    · exact tCdf_small hn x hx0 hxn
  · exact tCdf_large hn x (not_le.1 hxn) (hx.resolve_left hxn)

/-- For an even number `n` of degrees of freedom and `x² > n` the code evaluates the gamma function at the poles `-n/2` and
`1 - n/2`, and divides zero by zero in the series: `cdf` has no value, although the probability is a positive number.  For
`n = 2` the Rust code panics in `gamma(0)` for every `x² > 2`. -/
theorem C74_cdf_violated (k : ℕ) (x : ℝ) (hx : 2 * ((k : ℝ) + 1) < x ^ 2) (fuel : ℕ) :
    tCdf fuel (2 * ((k : ℝ) + 1)) x = none ∧ 0 < ∫ u in Iic x, tDens (2 * ((k : ℝ) + 1)) u := by
  set n := 2 * ((k : ℝ) + 1) with hnk
  have hn : 0 < n := by positivity
  constructor
  · have hr : 1 < x ^ 2 / n := by rwa [one_lt_div hn]
    have hb : 0 < 1 + x ^ 2 / n := by positivity
    have z2 : -x ^ 2 / n < -1 := by
      rw [neg_div, neg_lt_neg_iff]
      exact hr
    have z1 : ¬ (-x ^ 2 / n = 1) := by intro h; linarith
    have z5 : 1 - -x ^ 2 / n = 1 + x ^ 2 / n := by ring
    have zk : ¬ ((0.5 : ℝ) ≤ 0 ∨ (n + 1) / 2 ≤ 0 ∨ (1.5 : ℝ) ≤ 0 ∨ -x ^ 2 / n > 1) := by
      rintro (h | h | h | h)
      · norm_num at h
      · linarith
      · norm_num at h
      · linarith
    have e2 : 0.5 - (n + 1) / 2 = -((k + 1 : ℕ) : ℝ) := by rw [hnk]; push_cast; norm_num; ring
    have hp : gamma (0.5 - (n + 1) / 2) = none := by rw [e2]; exact (C48_gamma_domain _).2 ⟨k + 1, rfl⟩
    have hf : f21 fuel 0.5 ((n + 1) / 2) 1.5 (-x ^ 2 / n) = none := by
      rw [f21, if_neg zk, if_neg z1, if_pos z2, hp]
      simp only [Option.bind_eq_bind, Option.bind_none, z5, powf_pos hb, Option.bind_fun_none]
    simp only [tCdf, R.div, hn.ne', if_false, Option.bind_eq_bind, Option.bind_some, hf, Option.bind_none]
  · rw [setIntegral_pos_iff_support_of_nonneg_ae (Filter.Eventually.of_forall fun u => (tDens_pos hn u).le)
      (tDens_integrable hn).integrableOn]
    have : Function.support (tDens n) = univ := by
      ext u
      simp [(tDens_pos hn u).ne']
    rw [this, univ_inter, Real.volume_Iic]
    exact ENNReal.zero_lt_top

/-- Two degrees of freedom, `x = 2`: no value. -/
example (fuel : ℕ) : tCdf fuel 2 2 = none := by
  have := (C74_cdf_violated 0 2 (by norm_num) fuel).1
  norm_num at this
  exact this

/-- One degree of freedom: a quarter of the mass is above `1`. -/
example : ∃ N v, (∀ fuel, N ≤ fuel → tCdf fuel 1 1 = some v) ∧ |v - 3 / 4| ≤ 3e-11 := by
  obtain ⟨N, v, hv, hb⟩ := C74_cdf (n := 1) one_pos (tDens 1) (fun _ => rfl) 1 (Or.inl (by norm_num))
  refine ⟨N, v, hv, ?_⟩
  have e : ∫ u in Iic (1 : ℝ), tDens 1 u = 3 / 4 := by
    have : (fun u => tDens 1 u) = fun u : ℝ => 1 / Real.pi * (1 + u ^ 2)⁻¹ := by
      funext u
      rw [tDens_one]
      field_simp
    rw [this, MeasureTheory.integral_const_mul, integral_Iic_inv_one_add_sq, Real.arctan_one]
    field_simp
    ring
  rwa [e] at hb

/-- One degree of freedom, the other series: `x = -√3` has a sixth of the mass below it. -/
example : ∃ N v, (∀ fuel, N ≤ fuel → tCdf fuel 1 (-√3) = some v) ∧ |v - 1 / 6| ≤ 3e-11 := by
  obtain ⟨N, v, hv, hb⟩ := C74_cdf (n := 1) one_pos (tDens 1) (fun _ => rfl) (-√3) (Or.inr fun k h => by
    have : (0 : ℝ) ≤ k := Nat.cast_nonneg k
    linarith)
  refine ⟨N, v, hv, ?_⟩
  have e : ∫ u in Iic (-√3), tDens 1 u = 1 / 6 := by
    have : (fun u => tDens 1 u) = fun u : ℝ => 1 / Real.pi * (1 + u ^ 2)⁻¹ := by
      funext u
      rw [tDens_one]
      field_simp
    have h3 : Real.arctan (√3) = Real.pi / 3 := by
      rw [← Real.tan_pi_div_three, Real.arctan_tan (by linarith [Real.pi_pos]) (by linarith [Real.pi_pos])]
    rw [this, MeasureTheory.integral_const_mul, integral_Iic_inv_one_add_sq, Real.arctan_neg, h3]
    field_simp
    ring
  rwa [e] at hb

end Stat
end Verif
