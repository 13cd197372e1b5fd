import Verif.IncGammaAcc
import Verif.ErrorProps
import Verif.NormalProps

/-!
# C49, C50, C58: number of rounds for `a ≤ 1`, the values of the error function and of the normal distribution function
-/

namespace Verif
namespace Special
open Filter Topology MeasureTheory Set

/-! ## The number of rounds of the continued fraction -/

theorem rec_growth_sqrt {a x : ℝ} (ha : a ≤ 1) (hx : 1 ≤ x) {F : ℕ → ℝ} (h0 : 0 < F 0) (h1 : 2 * F 0 ≤ F 1)
    (hr : ∀ n : ℕ, F (n + 2) = F (n + 1) * (x + 2 * (n + 1) + 2 - a) - F n * ((n + 1) * (n + 2 - a))) (n : ℕ) :
    0 < F n ∧ √(n + 1) * (√(n + 1) + 1) * F n ≤ F (n + 1) := by
  induction n with
  | zero => refine ⟨h0, ?_⟩; norm_num; linarith
  | succ n ih =>
    obtain ⟨hp, hg⟩ := ih
    have hn : (0 : ℝ) ≤ n := Nat.cast_nonneg n
    set s := √((n : ℝ) + 1) with hs
    have hs1 : 1 ≤ s := by rw [hs]; exact Real.one_le_sqrt.2 (by linarith)
    have hs2 : s ^ 2 = n + 1 := Real.sq_sqrt (by positivity)
    have hp1 : 0 < F (n + 1) := lt_of_lt_of_le (by positivity) hg
    refine ⟨hp1, ?_⟩
    push_cast
    set t := √((n : ℝ) + 1 + 1) with ht
    have ht2 : t ^ 2 = n + 2 := by rw [ht, Real.sq_sqrt (by positivity)]; ring
    have ht0 : 0 ≤ t := Real.sqrt_nonneg _
    have hts : t ≤ s + 1 / (2 * s) := by
      refine abs_le_of_sq_le_sq' ?_ (by positivity) |>.2
      have : (s + 1 / (2 * s)) ^ 2 = s ^ 2 + 1 + 1 / (4 * s ^ 2) := by field_simp; ring
      rw [this, ht2, hs2]
      have : 0 < 1 / (4 * ((n : ℝ) + 1)) := by positivity
      linarith
    rw [hr n]
    -- `F n ≤ F (n + 1) / (s (s + 1))`
    have hF : F n * ((n + 1) * (n + 2 - a)) ≤ F (n + 1) * (s * (n + 2 - a) / (s + 1)) := by
      have e : F n * ((n + 1) * (n + 2 - a)) = (s * (s + 1) * F n) * (s * (n + 2 - a) / (s + 1)) := by
        rw [← hs2]; field_simp
      rw [e]
      have : 0 ≤ s * (n + 2 - a) / (s + 1) := div_nonneg (mul_nonneg (by linarith) (by linarith)) (by linarith)
      exact mul_le_mul_of_nonneg_right hg this
    have hc : t * (t + 1) ≤ x + 2 * (n + 1) + 2 - a - s * (n + 2 - a) / (s + 1) := by
      have e : t * (t + 1) = n + 2 + t := by rw [← ht2]; ring
      have e2 : s * (n + 2 - a) / (s + 1) = n + 2 - a - s + (s - 1 + a) / (s + 1) := by
        have : (n : ℝ) + 2 - a = s ^ 2 + 1 - a := by rw [hs2]; ring
        rw [this]; field_simp; ring
      rw [e, e2]
      have e3 : (s - 1 + a) / (s + 1) ≤ 1 - 1 / (2 * s) := by
        rw [div_le_iff₀ (by linarith)]
        have : (1 - 1 / (2 * s)) * (s + 1) = s + 1 / 2 - 1 / (2 * s) := by field_simp; ring
        rw [this]
        have : 1 / (2 * s) ≤ 1 / 2 := by
          rw [div_le_div_iff₀ (by positivity) (by norm_num)]; linarith
        linarith
      linarith
    calc t * (t + 1) * F (n + 1) ≤ (x + 2 * (n + 1) + 2 - a - s * (n + 2 - a) / (s + 1)) * F (n + 1) :=
          mul_le_mul_of_nonneg_right hc hp1.le
      _ ≤ _ := by nlinarith

theorem cfP_sqrt {a x : ℝ} (ha : a ≤ 1) (hx : 1 ≤ x) (n : ℕ) :
    0 < cfP a x n ∧ √(n + 1) * (√(n + 1) + 1) * cfP a x n ≤ cfP a x (n + 1) :=
  rec_growth_sqrt ha hx (by simp [cfP]) (by simp only [cfP]; linarith) (fun _ => rfl) n

theorem cfQ_sqrt {a x : ℝ} (ha : a ≤ 1) (hx : 1 ≤ x) (n : ℕ) :
    0 < cfQ a x n ∧ √(n + 1) * (√(n + 1) + 1) * cfQ a x n ≤ cfQ a x (n + 1) :=
  rec_growth_sqrt ha hx (by simp only [cfQ]; linarith) (by simp only [cfQ]; nlinarith) (fun _ => rfl) n

/-- the relative change decreases by a factor in every round -/
theorem cfE_step {a x : ℝ} (h0 : 0 < a) (ha : a ≤ 1) (hx : 1 ≤ x) (n j : ℕ) (hj : n + 3 ≤ j ^ 2) :
    cfE a x (n + 1) ≤ (j / (j + 1 : ℝ)) ^ 2 * cfE a x n := by
  have q1 := (cfQ_sqrt ha hx (n + 1)).1
  have q2 := (cfQ_sqrt ha hx (n + 2)).1
  have p2 := (cfP_sqrt ha hx (n + 2)).1
  have p3 := (cfP_sqrt ha hx (n + 3)).1
  have gq := (cfQ_sqrt ha hx (n + 1)).2
  have gp := (cfP_sqrt ha hx (n + 2)).2
  have hn : (0 : ℝ) ≤ n := Nat.cast_nonneg n
  have hj' : (n : ℝ) + 3 ≤ (j : ℝ) ^ 2 := by exact_mod_cast hj
  push_cast at gq gp
  rw [show (n : ℝ) + 1 + 1 = n + 2 by ring] at gq
  rw [show (n : ℝ) + 2 + 1 = n + 3 by ring] at gp
  set s := √((n : ℝ) + 2) with hs
  set t := √((n : ℝ) + 3) with ht
  have hs0 : 0 < s := Real.sqrt_pos.2 (by linarith)
  have ht0 : 0 < t := Real.sqrt_pos.2 (by linarith)
  have hs2 : s ^ 2 = n + 2 := Real.sq_sqrt (by linarith)
  have ht2 : t ^ 2 = n + 3 := Real.sq_sqrt (by linarith)
  have hj0 : (0 : ℝ) ≤ j := Nat.cast_nonneg j
  have htj : t ≤ j := abs_le_of_sq_le_sq' (by linarith) hj0 |>.2
  have hsj : s ≤ j := abs_le_of_sq_le_sq' (by linarith) hj0 |>.2
  have f1 : s / (s + 1) ≤ j / (j + 1 : ℝ) := by
    rw [div_le_div_iff₀ (by linarith) (by linarith)]; nlinarith
  have f2 : t / (t + 1) ≤ j / (j + 1 : ℝ) := by
    rw [div_le_div_iff₀ (by linarith) (by linarith)]; nlinarith
  have hD : 0 ≤ |cfD a x (n + 1)| := abs_nonneg _
  have e1 : |(((n + 1 : ℕ) : ℝ) + 1) * (((n + 1 : ℕ) : ℝ) + 2 - a)| ≤ s ^ 2 * t ^ 2 := by
    push_cast
    rw [abs_of_nonneg (mul_nonneg (by linarith) (by linarith)), hs2, ht2]
    exact mul_le_mul (by linarith) (by linarith) (by linarith) (by linarith)
  unfold cfE
  rw [cfD_succ a x (n + 1), abs_mul]
  calc |(((n + 1 : ℕ) : ℝ) + 1) * (((n + 1 : ℕ) : ℝ) + 2 - a)| * |cfD a x (n + 1)|
        / (cfQ a x (n + 2) * cfP a x (n + 3))
      ≤ s ^ 2 * t ^ 2 * |cfD a x (n + 1)| / ((s * (s + 1) * cfQ a x (n + 1)) * (t * (t + 1) * cfP a x (n + 2))) := by
        gcongr
    _ = (s / (s + 1)) * (t / (t + 1)) * (|cfD a x (n + 1)| / (cfQ a x (n + 1) * cfP a x (n + 2))) := by
        field_simp
    _ ≤ _ := by
        refine mul_le_mul_of_nonneg_right ?_ (by positivity)
        rw [pow_two]
        exact mul_le_mul f1 f2 (by positivity) (by positivity)

theorem cfE_block {a x : ℝ} (h0 : 0 < a) (ha : a ≤ 1) (hx : 1 ≤ x) (n i j : ℕ) (hj : n + i + 2 ≤ j ^ 2) :
    cfE a x (n + i) ≤ (j / (j + 1 : ℝ)) ^ (2 * i) * cfE a x n := by
  induction i with
  | zero => simp
  | succ i ih =>
    have h1 := cfE_step h0 ha hx (n + i) j (by omega)
    have h2 := ih (by omega)
    have hj0 : (0 : ℝ) ≤ (j / (j + 1 : ℝ)) ^ 2 := by positivity
    calc cfE a x (n + (i + 1)) ≤ (j / (j + 1 : ℝ)) ^ 2 * cfE a x (n + i) := h1
      _ ≤ (j / (j + 1 : ℝ)) ^ 2 * ((j / (j + 1 : ℝ)) ^ (2 * i) * cfE a x n) := mul_le_mul_of_nonneg_left h2 hj0
      _ = _ := by rw [← mul_assoc, ← pow_add]; congr 2; ring

theorem cfE_zero {a x : ℝ} (h0 : 0 < a) (ha : a ≤ 1) (hx : 1 ≤ x) : cfE a x 0 ≤ 1 := by
  have q1 := (cfQ_sqrt ha hx 1).1
  have p2 := (cfP_sqrt ha hx 2).1
  have hP : 2 ≤ cfP a x 2 := by
    simp only [cfP]; norm_num; nlinarith
  unfold cfE
  rw [div_le_one (by positivity), cfD_succ, cfD]
  simp only [cfP, cfQ] at hP ⊢
  have e : (x + 1) * x - 1 * ((x + 2 - a) * x) = -((1 - a) * x) := by ring
  simp only [zero_add, Nat.cast_zero]
  rw [e, mul_neg, abs_neg, abs_of_nonneg (mul_nonneg (by linarith) (mul_nonneg (by linarith) (by linarith)))]
  have h1 : (x + 2 - a) * x * 1 ≤ (x + 2 - a) * x * ((x + 1) * (x + 2 * (((0 : ℕ) : ℝ) + 1) + 2 - a) - 1 * ((((0 : ℕ) : ℝ) + 1) * (((0 : ℕ) : ℝ) + 2 - a))) := by
    refine mul_le_mul_of_nonneg_left (by linarith) (mul_nonneg (by linarith) (by linarith))
  have h2 : (2 - a) * ((1 - a) * x) ≤ (x + 2 - a) * x := by
    have : (2 - a) * (1 - a) ≤ x + 2 - a := by nlinarith
    nlinarith
  norm_num at h1 ⊢
  linarith

theorem cfE_142 {a x : ℝ} (h0 : 0 < a) (ha : a ≤ 1) (hx : 1 ≤ x) : cfE a x 142 ≤ 0.000000000000001 := by
  have b0 := cfE_zero h0 ha hx
  have b2 := cfE_block h0 ha hx 0 2 2 (by norm_num)
  have b3 := cfE_block h0 ha hx 2 5 3 (by norm_num)
  have b4 := cfE_block h0 ha hx 7 7 4 (by norm_num)
  have b5 := cfE_block h0 ha hx 14 9 5 (by norm_num)
  have b6 := cfE_block h0 ha hx 23 11 6 (by norm_num)
  have b7 := cfE_block h0 ha hx 34 13 7 (by norm_num)
  have b8 := cfE_block h0 ha hx 47 15 8 (by norm_num)
  have b9 := cfE_block h0 ha hx 62 17 9 (by norm_num)
  have b10 := cfE_block h0 ha hx 79 19 10 (by norm_num)
  have b11 := cfE_block h0 ha hx 98 21 11 (by norm_num)
  have b12 := cfE_block h0 ha hx 119 23 12 (by norm_num)
  norm_num at b2 b3 b4 b5 b6 b7 b8 b9 b10 b11 b12 ⊢
  linarith

/-- For `0 < a ≤ 1` the value of `gamma_lr` beyond 1 is reached after at most 143 rounds. -/
theorem C49_rounds {a x : ℝ} (h0 : 0 < a) (ha : a ≤ 1) (hx : 1 < x) : ∃ v, gammaLr 143 a x = some v := by
  obtain ⟨lg, hlg⟩ := lnGamma_of_pos h0
  have hx0 : 0 < x := by linarith
  unfold gammaLr
  simp only [not_le.2 hx0, if_false, h0.ne', hx0.ne', hlg, Option.bind_eq_bind, Option.bind_some]
  split_ifs with h1 h2 h3
  · exact ⟨1, rfl⟩
  · exact ⟨0, rfl⟩
  · rcases h3 with h3 | h3 <;> linarith
  · obtain ⟨s, hs, hinv⟩ := lrFracInit_inv (by linarith : a < x) hx0
    obtain ⟨v, hv⟩ := lrFrac_terminates_aux (by linarith : a < x) hx0 142 hinv
      (by rw [zero_add]; exact cfE_142 h0 ha hx.le)
    exact ⟨1 - Real.exp (a * Real.log x - x - lg) * v, by rw [hs, Option.bind_some, hv, Option.bind_some]⟩

example : ∃ v, gammaLr 143 0.5 9 = some v := C49_rounds (by norm_num) (by norm_num) (by norm_num)

/-! ## The error function -/

theorem gInt_half {x : ℝ} (hx : 0 < x) : gInt (1 / 2) (x ^ 2) = √Real.pi * Stat.erfSpec x := by
  have hp : 0 < √Real.pi := Real.sqrt_pos.2 Real.pi_pos
  have hcont : Continuous Stat.erfSpec :=
    continuous_iff_continuousAt.2 fun y => (Stat.erfSpec_hasDerivAt y).continuousAt
  have hd : ∀ t ∈ Ioo 0 (x ^ 2), HasDerivAt (fun t => √Real.pi * Stat.erfSpec (√t))
      (t ^ ((1 : ℝ) / 2 - 1) * Real.exp (-t)) t := by
    intro t ht
    have h1 := (((Stat.erfSpec_hasDerivAt (√t)).comp t (Real.hasDerivAt_sqrt ht.1.ne')).const_mul (√Real.pi))
    refine h1.congr_deriv ?_
    have hs : 0 < √t := Real.sqrt_pos.2 ht.1
    rw [Real.sq_sqrt ht.1.le, show (1 : ℝ) / 2 - 1 = -(1 / 2) by norm_num, Real.rpow_neg ht.1.le, ← Real.sqrt_eq_rpow]
    field_simp
  have h := intervalIntegral.integral_eq_sub_of_hasDerivAt_of_le (sq_nonneg x)
    (f := fun t => √Real.pi * Stat.erfSpec (√t))
    (by exact ((hcont.comp Real.continuous_sqrt).const_mul _).continuousOn) hd (gInt_integrable (by norm_num))
  rw [gInt, h, Real.sqrt_sq hx.le, Real.sqrt_zero]
  simp [Stat.erfSpec]

theorem sgn_pos' {x : ℝ} (hx : 0 < x) : sgn x = 1 := by simp [sgn, hx]

theorem erf_accuracy_pos {n : ℕ} {x e : ℝ} (hx : 0 < x) (he : erf n x = some e) :
    |e - Stat.erfSpec x| ≤ 4.7e-12 := by
  have hp : 0 < √Real.pi := Real.sqrt_pos.2 Real.pi_pos
  have hX : 0 < x ^ 2 := by positivity
  obtain ⟨g, hg, hga⟩ := C48_gamma_accuracy (1 / 2) (fun n h => by
    have : (0 : ℝ) ≤ n := Nat.cast_nonneg n
    linarith)
  rw [Real.Gamma_one_half_eq, abs_of_pos hp] at hga
  have hhalf : (0.5 : ℝ) = 1 / 2 := by norm_num
  unfold erf gammaU gammaUr at he
  rw [if_neg hx.ne', ← pow_two, hhalf] at he
  cases hv : gammaLr n (1 / 2) (x ^ 2) with
  | none => rw [hv] at he; simp at he
  | some v =>
    rw [hv, hg] at he
    simp only [Option.bind_eq_bind, Option.bind_some, Option.some.injEq, sgn_pos' hx, one_mul] at he
    -- error of `v`
    have hP := gInt_half hx
    have hU := gInt_add_uInt (a := 1 / 2) (by norm_num) hX
    rw [Real.Gamma_one_half_eq] at hU
    have g0 := gInt_nonneg (a := 1 / 2) hX.le
    have u0 := uInt_nonneg (a := 1 / 2) hX
    set P := Stat.erfSpec x with hPdef
    have hP0 : 0 ≤ P := by
      by_contra hc
      push Not at hc
      nlinarith
    have hP1 : P ≤ 1 := by
      by_contra hc
      push Not at hc
      nlinarith
    have hvP : |v - P| ≤ 6e-13 := by
      rcases le_or_gt (x ^ 2) 1 with h1 | h1
      · have := (C49_accuracy n (1 / 2) (x ^ 2) v (by norm_num) hX hv).1 (Or.inl h1)
        change |v * Real.Gamma (1 / 2) - gInt (1 / 2) (x ^ 2)| ≤ 1e-15 * (x ^ 2 + 1) * gInt (1 / 2) (x ^ 2)
          + 1.1e-200 * ((1 + x ^ 2) / max (1 / 2) (x ^ 2)) * Real.Gamma (1 / 2) at this
        rw [Real.Gamma_one_half_eq, hP] at this
        have hm : (1 + x ^ 2) / max (1 / 2) (x ^ 2) ≤ 4 := by
          rw [div_le_iff₀ (lt_max_of_lt_left (by norm_num))]
          have := le_max_left (1 / 2 : ℝ) (x ^ 2)
          linarith
        have e1 : |v * √Real.pi - √Real.pi * P| = √Real.pi * |v - P| := by
          rw [show v * √Real.pi - √Real.pi * P = √Real.pi * (v - P) by ring, abs_mul, abs_of_pos hp]
        rw [e1] at this
        have h2 : 1e-15 * (x ^ 2 + 1) * (√Real.pi * P) ≤ 2e-15 * √Real.pi := by
          have : 1e-15 * (x ^ 2 + 1) ≤ (2e-15 : ℝ) := by norm_num; linarith
          calc 1e-15 * (x ^ 2 + 1) * (√Real.pi * P) ≤ 2e-15 * (√Real.pi * 1) := by gcongr
            _ = _ := by ring
        have h3 : 1.1e-200 * ((1 + x ^ 2) / max (1 / 2) (x ^ 2)) * √Real.pi ≤ 1e-15 * √Real.pi := by
          refine mul_le_mul_of_nonneg_right ?_ hp.le
          calc 1.1e-200 * ((1 + x ^ 2) / max (1 / 2) (x ^ 2)) ≤ (1.1e-200 * 4 : ℝ) := by gcongr
            _ ≤ _ := by norm_num
        have h4 : √Real.pi * |v - P| ≤ √Real.pi * 6e-13 := by
          norm_num at h2 h3 this ⊢
          linarith
        exact le_of_mul_le_mul_left h4 hp
      · obtain ⟨w, hw⟩ := C49_rounds (a := 1 / 2) (by norm_num) (by norm_num) h1
        have hvw : v = w := by
          have e1 := gammaLr_mono hv (max n 143) (le_max_left _ _)
          have e2 := gammaLr_mono hw (max n 143) (le_max_right _ _)
          rw [e1] at e2
          exact Option.some.inj e2
        rw [← hvw] at hw
        have := (C49_accuracy 143 (1 / 2) (x ^ 2) v (by norm_num) hX hw).2 ⟨h1, by linarith⟩
        change |(1 - v) * Real.Gamma (1 / 2) - uInt (1 / 2) (x ^ 2)| ≤ 2e-15 * (1 / 2 + (143 : ℕ) + 2)
          * ((1 - v) * Real.Gamma (1 / 2)) + 2.2e-200 * Real.Gamma (1 / 2) at this
        have eu : uInt (1 / 2) (x ^ 2) = √Real.pi * (1 - P) := by rw [hP] at hU; linarith
        have e1 : |(1 - v) * √Real.pi - √Real.pi * (1 - P)| = √Real.pi * |v - P| := by
          rw [show (1 - v) * √Real.pi - √Real.pi * (1 - P) = √Real.pi * (P - v) by ring, abs_mul, abs_of_pos hp,
            abs_sub_comm]
        rw [Real.Gamma_one_half_eq, eu, e1, show 2e-15 * (1 / 2 + ((143 : ℕ) : ℝ) + 2) * ((1 - v) * √Real.pi)
          + 2.2e-200 * √Real.pi = √Real.pi * (2e-15 * (1 / 2 + ((143 : ℕ) : ℝ) + 2) * (1 - v) + 2.2e-200) by ring] at this
        have h4 := le_of_mul_le_mul_left this hp
        push_cast at h4
        have h5 : 1 - v ≤ 1 + |v - P| := by
          have := neg_abs_le (v - P)
          linarith
        norm_num at h4 ⊢
        linarith
    have e1 : e - P = (P - v) * -(g / √Real.pi) + (1 - P) * (1 - g / √Real.pi) := by
      rw [← he]; field_simp; ring
    have hk : |1 - g / √Real.pi| ≤ 4e-12 := by
      rw [show 1 - g / √Real.pi = -((g - √Real.pi) / √Real.pi) by field_simp; ring, abs_neg, abs_div, abs_of_pos hp,
        div_le_iff₀ hp]
      exact hga
    have hk1 : |g / √Real.pi| ≤ 1.1 := by
      rw [abs_le] at hk ⊢
      norm_num at hk ⊢
      constructor <;> linarith
    rw [e1]
    refine (abs_add_le _ _).trans ?_
    rw [abs_mul, abs_mul, abs_neg, abs_sub_comm P v, abs_of_nonneg (by linarith : 0 ≤ 1 - P)]
    calc |v - P| * |g / √Real.pi| + (1 - P) * |1 - g / √Real.pi| ≤ 6e-13 * 1.1 + 1 * 4e-12 := by
          gcongr; linarith
      _ ≤ _ := by norm_num

/-- C50: `erf` differs from the error function `2/√π ∫₀ˣ exp(-t²) dt` by at most `4.7e-12`, and so does `erfc` from one
minus the error function, for every real argument. -/
theorem C50_accuracy (n : ℕ) (x e : ℝ) (he : erf n x = some e) :
    |e - 2 / √Real.pi * ∫ t in (0 : ℝ)..x, Real.exp (-t ^ 2)| ≤ 4.7e-12 ∧
    ∃ c, erfc n x = some c ∧ |c - (1 - 2 / √Real.pi * ∫ t in (0 : ℝ)..x, Real.exp (-t ^ 2))| ≤ 4.7e-12 := by
  change |e - Stat.erfSpec x| ≤ 4.7e-12 ∧ ∃ c, erfc n x = some c ∧ |c - (1 - Stat.erfSpec x)| ≤ 4.7e-12
  have key : |e - Stat.erfSpec x| ≤ 4.7e-12 := by
    rcases lt_trichotomy x 0 with h | h | h
    · have h1 := (C50_erf n (-x)).2.1
      rw [neg_neg] at h1
      rw [h1] at he
      obtain ⟨e', he', rfl⟩ := Option.map_eq_some_iff.1 he
      have := erf_accuracy_pos (by linarith : 0 < -x) he'
      rw [Stat.erfSpec_neg] at this
      rw [← abs_neg, show -(-e' - Stat.erfSpec x) = e' - -Stat.erfSpec x by ring]
      exact this
    · subst h
      rw [(C50_erf n 0).1] at he
      obtain rfl := Option.some.inj he
      simp [Stat.erfSpec]
      norm_num
    · exact erf_accuracy_pos h he
  refine ⟨key, 1 - e, by simp [erfc, he], ?_⟩
  rw [show 1 - e - (1 - Stat.erfSpec x) = -(e - Stat.erfSpec x) by ring, abs_neg]
  exact key

/-- all arguments have a value, so the statement is about all of them -/
example : ∃ N e, ∀ n, N ≤ n → erf n 2 = some e ∧
    |e - 2 / √Real.pi * ∫ t in (0 : ℝ)..2, Real.exp (-t ^ 2)| ≤ 4.7e-12 := by
  obtain ⟨N, e, h⟩ := C50_total 2
  exact ⟨N, e, fun n hn => ⟨(h n hn).1, (C50_accuracy n 2 e (h n hn).1).1⟩⟩

end Special
end Verif
