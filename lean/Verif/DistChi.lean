import Verif.DistGamma
import Verif.ContProps

/-!
# C55 (distribution function of the Poisson distribution) and C72 (chi-square distribution)
-/

namespace Verif
namespace Stat
open Special MeasureTheory Set Filter Topology

/-! ## The incomplete gamma function at integers and half integers -/

/-- `Γ(n+1, x) = n! e⁻ˣ Σ_{k ≤ n} xᵏ/k!` -/
theorem gInt_nat {x : ℝ} (hx : 0 ≤ x) (n : ℕ) :
    gInt (n + 1) x = (n.factorial : ℝ) * (1 - Real.exp (-x) * ∑ k ∈ Finset.range (n + 1), x ^ k / (k.factorial : ℝ)) := by
  induction n with
  | zero =>
    have : ∫ t in (0 : ℝ)..x, Real.exp (-t) = 1 - Real.exp (-x) := by
      rw [intervalIntegral.integral_comp_neg (fun t => Real.exp t), integral_exp]
      simp
    simpa [gInt] using this
  | succ n ih =>
    have h := gInt_rec (a := (n : ℝ) + 1) (by positivity) hx
    rw [ih] at h
    push_cast
    rw [Finset.sum_range_succ]
    have hf : (((n + 1).factorial : ℕ) : ℝ) = (n + 1) * n.factorial := by push_cast [Nat.factorial_succ]; ring
    have h1 : x ^ ((n : ℝ) + 1) = x ^ (n + 1) := by
      rw [show (n : ℝ) + 1 = ((n + 1 : ℕ) : ℝ) by push_cast; ring, Real.rpow_natCast]
    rw [h1] at h
    have hn : (n.factorial : ℝ) ≠ 0 := by positivity
    have h2 : ((n : ℝ) + 1) ≠ 0 := by positivity
    rw [hf]
    have : gInt ((n : ℝ) + 1 + 1) x = ((n : ℝ) + 1) * (n.factorial * (1 - Real.exp (-x)
        * ∑ k ∈ Finset.range (n + 1), x ^ k / (k.factorial : ℝ))) - x ^ (n + 1) * Real.exp (-x) := by linarith
    rw [this]
    field_simp
    ring

/-- `γ(n+1/2, x) / Γ(n+1/2) = erf √x - e⁻ˣ Σ_{i<n} x^(i+1/2) / Γ(i+3/2)` -/
theorem gInt_half_nat {x : ℝ} (hx : 0 < x) (n : ℕ) :
    gInt (n + 1 / 2) x = Real.Gamma (n + 1 / 2) *
      (erfSpec √x - Real.exp (-x) * ∑ i ∈ Finset.range n, x ^ ((i : ℝ) + 1 / 2) / Real.Gamma (i + 3 / 2)) := by
  induction n with
  | zero =>
    have := gInt_half (x := √x) (Real.sqrt_pos.2 hx)
    rw [Real.sq_sqrt hx.le] at this
    simp only [Nat.cast_zero, zero_add, Finset.range_zero, Finset.sum_empty, mul_zero, sub_zero]
    rw [this, Real.Gamma_one_half_eq]
  | succ n ih =>
    have hp : (0 : ℝ) < n + 1 / 2 := by positivity
    have h := gInt_rec (a := (n : ℝ) + 1 / 2) hp hx.le
    rw [ih] at h
    have hG := (Real.Gamma_pos_of_pos hp).ne'
    have hg1 : Real.Gamma (((n + 1 : ℕ) : ℝ) + 1 / 2) = (n + 1 / 2) * Real.Gamma (n + 1 / 2) := by
      rw [← Real.Gamma_add_one hp.ne']; congr 1; push_cast; ring
    have hg2 : Real.Gamma ((n : ℝ) + 3 / 2) = (n + 1 / 2) * Real.Gamma (n + 1 / 2) := by
      rw [← Real.Gamma_add_one hp.ne']; congr 1; ring
    rw [Finset.sum_range_succ, hg1, hg2, show (((n + 1 : ℕ) : ℝ) + 1 / 2) = (n : ℝ) + 1 / 2 + 1 by push_cast; ring]
    have : gInt ((n : ℝ) + 1 / 2 + 1) x = (n + 1 / 2) * (Real.Gamma (n + 1 / 2) *
      (erfSpec √x - Real.exp (-x) * ∑ i ∈ Finset.range n, x ^ ((i : ℝ) + 1 / 2) / Real.Gamma (i + 3 / 2)))
        - x ^ ((n : ℝ) + 1 / 2) * Real.exp (-x) := by linarith
    rw [this]
    field_simp
    ring

theorem erfSpec_le_one (x : ℝ) : erfSpec x ≤ 1 := by
  have hmono : Monotone erfSpec := monotone_of_deriv_nonneg (fun y => (erfSpec_hasDerivAt y).differentiableAt)
    (fun y => by rw [(erfSpec_hasDerivAt y).deriv]; positivity)
  exact hmono.ge_of_tendsto erfSpec_atTop x

theorem gInt_half_nat' {x : ℝ} (hx : 0 ≤ x) (n : ℕ) :
    gInt (n + 1 / 2) x = Real.Gamma (n + 1 / 2) *
      (erfSpec √x - Real.exp (-x) * ∑ i ∈ Finset.range n, x ^ ((i : ℝ) + 1 / 2) / Real.Gamma (i + 3 / 2)) := by
  rcases hx.eq_or_lt with h | h
  · subst h
    have h0 : ∀ i : ℕ, (0 : ℝ) ^ ((i : ℝ) + 1 / 2) = 0 := fun i => Real.zero_rpow (by positivity)
    simp only [h0]
    simp [gInt, erfSpec]
  · exact gInt_half_nat h n

/-! ## C55, distribution function -/

/-- **C55**, distribution function: `cdf x` with the library's regularised upper incomplete gamma function is the sum
of the probabilities `γᵏ e^(-γ) / k!` for `k ≤ x`, up to `1.3e-12 + 7e-15 x`. -/
theorem C55_cdf {g g' : ℝ} (h : poissonNew g = some g') (x n : ℕ) (hx : x + 1 ≤ 10 ^ 9) (v : ℝ)
    (hv : poissonCdf (gammaUr n) g' x = some v) :
    |v - ∑ k ∈ Finset.range (x + 1), g ^ k * Real.exp (-g) / (k.factorial : ℝ)| ≤ 1.3e-12 + 7e-15 * x := by
  unfold poissonNew at h
  split_ifs at h with hg
  cases h
  push Not at hg
  unfold poissonCdf at hv
  rw [if_pos (by omega)] at hv
  unfold gammaUr at hv
  cases hl : gammaLr n (((x + 1 : ℕ) : ℝ)) g with
  | none => rw [hl] at hv; simp at hv
  | some w =>
    rw [hl] at hv
    simp only [Option.bind_eq_bind, Option.bind_some, Option.some.injEq] at hv
    have h9 : ((x + 1 : ℕ) : ℝ) ≤ 10 ^ 9 := by exact_mod_cast hx
    have hacc := C49_accuracy_abs n _ g w (by positivity) h9 hg hl
    change |w - gInt (((x + 1 : ℕ) : ℝ)) g / Real.Gamma ((x + 1 : ℕ) : ℝ)| ≤ _ at hacc
    push_cast at hacc
    have hf : (x.factorial : ℝ) ≠ 0 := by positivity
    rw [gInt_nat hg.le x, Real.Gamma_nat_eq_factorial, mul_div_cancel_left₀ _ hf] at hacc
    have e : v - ∑ k ∈ Finset.range (x + 1), g ^ k * Real.exp (-g) / (k.factorial : ℝ)
        = -(w - (1 - Real.exp (-g) * ∑ k ∈ Finset.range (x + 1), g ^ k / (k.factorial : ℝ))) := by
      rw [← hv, Finset.mul_sum]
      have : ∑ k ∈ Finset.range (x + 1), g ^ k * Real.exp (-g) / (k.factorial : ℝ)
          = ∑ k ∈ Finset.range (x + 1), Real.exp (-g) * (g ^ k / (k.factorial : ℝ)) :=
        Finset.sum_congr rfl fun k _ => by ring
      rw [this]; ring
    rw [e, abs_neg]
    refine hacc.trans ?_
    have hx0 : (0 : ℝ) ≤ x := Nat.cast_nonneg x
    have hm : 1.2e-200 / max ((x : ℝ) + 1) g ≤ 1.2e-200 := by
      refine div_le_self (by norm_num) (le_max_of_le_left (by linarith))
    have : (1.2e-12 : ℝ) + 7e-15 * (x + 1) + 1.2e-200 ≤ 1.3e-12 + 7e-15 * x := by norm_num; linarith
    linarith

/-- `P(X ≤ 1) = 3 e⁻²` for the Poisson distribution with parameter 2 -/
example (n : ℕ) (v : ℝ) (hv : poissonCdf (gammaUr n) 2 1 = some v) : |v - 3 * Real.exp (-2)| ≤ 1.4e-12 := by
  have h := C55_cdf (g := 2) (g' := 2) (by norm_num [poissonNew]) 1 n (by norm_num) v hv
  simp only [Finset.sum_range_succ, Finset.range_zero, Finset.sum_empty, Nat.factorial] at h
  norm_num at h ⊢
  rw [show Real.exp (-2) + 2 * Real.exp (-2) = 3 * Real.exp (-2) by ring] at h
  linarith

/-! ## C72 -/

/-- **C72**, construction: `new` panics exactly for zero degrees of freedom. -/
theorem C72_new (df : ℕ) : chiNew df = none ↔ df = 0 := by
  unfold chiNew; split_ifs with h <;> simp <;> omega

theorem chiNew_some {df k : ℕ} (h : chiNew df = some k) : k = df ∧ 0 < df := by
  unfold chiNew at h
  split_ifs at h with h1
  exact ⟨(Option.some.inj h).symm, by omega⟩

theorem chi_dens {k : ℕ} (x : ℝ) :
    1 / (2 ^ ((k : ℝ) / 2) * Real.Gamma (k / 2)) * (x ^ ((k : ℝ) / 2 - 1) * Real.exp (-x / 2))
      = gammaDens (k / 2) (1 / 2) x := by
  rw [gammaDens, one_div, one_div (2 : ℝ), Real.inv_rpow (by norm_num), show -x / 2 = -2⁻¹ * x by ring, mul_inv]
  ring

/-- **C72**, density: 0 for negative `x`; for positive `x` the value is `x^(k/2-1) e^(-x/2) / (2^(k/2) Γ(k/2))` up to a
relative error of `5e-12`. -/
theorem C72_pdf {df k : ℕ} (h : chiNew df = some k) (x : ℝ) :
    (x < 0 → chiPdf k x = some 0) ∧
    (0 < x → ∃ v, chiPdf k x = some v ∧
      |v - 1 / (2 ^ ((df : ℝ) / 2) * Real.Gamma (df / 2)) * (x ^ ((df : ℝ) / 2 - 1) * Real.exp (-x / 2))|
        ≤ 5e-12 * (1 / (2 ^ ((df : ℝ) / 2) * Real.Gamma (df / 2)) * (x ^ ((df : ℝ) / 2 - 1) * Real.exp (-x / 2)))) := by
  obtain ⟨rfl, hk⟩ := chiNew_some h
  refine ⟨fun hx => by simp [chiPdf, hx], fun hx => ?_⟩
  have ha : (0 : ℝ) < (k : ℝ) / 2 := by positivity
  obtain ⟨g, hg, hg0, hgG⟩ := gamma_close ha
  have hG := Real.Gamma_pos_of_pos ha
  have hw : (0 : ℝ) < 2 ^ ((k : ℝ) / 2) := Real.rpow_pos_of_pos (by norm_num) _
  have hp : 0 < x ^ ((k : ℝ) / 2 - 1) * Real.exp (-x / 2) := by
    have := Real.rpow_pos_of_pos hx ((k : ℝ) / 2 - 1)
    positivity
  refine ⟨1 / (2 ^ ((k : ℝ) / 2) * g) * (x ^ ((k : ℝ) / 2 - 1) * Real.exp (-x / 2)), ?_, ?_⟩
  · have hne : (2 : ℝ) ^ ((k : ℝ) / 2) * g ≠ 0 := by positivity
    simp only [chiPdf, not_lt.2 hx.le, if_false, powf_pos (by norm_num : (0 : ℝ) < 2), powf_pos hx, hg, R.div, hne,
      Option.bind_eq_bind, Option.bind_some]
  · have h1 := div_close (w := 1 / 2 ^ ((k : ℝ) / 2)) (by positivity) hG hg0 hgG
    rw [div_div, div_div] at h1
    rw [← sub_mul, abs_mul, abs_of_pos hp]
    refine (mul_le_mul_of_nonneg_right h1 hp.le).trans (le_of_eq ?_)
    ring

/-- **C72**, moments: the density integrates to one, and `mean`, `variance` and `skewness` are the mean, the variance
and the third standardised moment. -/
theorem C72_moments {df k : ℕ} (h : chiNew df = some k) (f : ℝ → ℝ)
    (hf : ∀ x, f x = 1 / (2 ^ ((df : ℝ) / 2) * Real.Gamma (df / 2)) * (x ^ ((df : ℝ) / 2 - 1) * Real.exp (-x / 2))) :
    IntegrableOn f (Ioi 0) ∧ ∫ x in Ioi (0 : ℝ), f x = 1 ∧ ∫ x in Ioi (0 : ℝ), x * f x = chiMean k ∧
    ∫ x in Ioi (0 : ℝ), (x - chiMean k) ^ 2 * f x = chiVariance k ∧
    ∫ x in Ioi (0 : ℝ), ((x - chiMean k) / √(chiVariance k)) ^ 3 * f x = chiSkewness k := by
  obtain ⟨rfl, hk⟩ := chiNew_some h
  have hk0 : (0 : ℝ) < k := by exact_mod_cast hk
  have hd : gammaNew ((k : ℝ) / 2) (1 / 2) = some ((k : ℝ) / 2, 1 / 2) := by
    have : ¬ ((k : ℝ) / 2 ≤ 0) := by push Not; positivity
    simp [gammaNew, this]
  have hm := C71_moments hd f (fun x => by rw [hf, chi_dens, gammaDens])
  have e1 : gammaMean ((k : ℝ) / 2, 1 / 2) = chiMean k := by simp [gammaMean, chiMean]
  have e2 : gammaVariance ((k : ℝ) / 2, 1 / 2) = chiVariance k := by
    simp only [gammaVariance, chiVariance]; ring
  have e3 : gammaSkewness ((k : ℝ) / 2, 1 / 2) = chiSkewness k := by
    simp only [gammaSkewness, chiSkewness]
    rw [show (8 : ℝ) / k = 2 ^ 2 / (k / 2) by field_simp; norm_num, Real.sqrt_div (sq_nonneg 2) ((k : ℝ) / 2),
      Real.sqrt_sq (by norm_num)]
  rwa [e1, e2, e3] at hm

theorem powf_nonneg' {x y : ℝ} (hx : 0 ≤ x) (hy : 0 ≤ y) : R.powf x y = some (x ^ y) := by
  rcases hx.eq_or_lt with h | h
  · subst h
    rcases hy.eq_or_lt with h2 | h2
    · subst h2; simp [R.powf]
    · simp [R.powf, h2, h2.ne', Real.zero_rpow h2.ne']
  · exact powf_pos h y

/-- adding a term with an approximate denominator -/
theorem sum_close {s S w g G : ℝ} (hw : 0 ≤ w) (hG : 0 < G) (hg : 0 < g) (h : |g - G| ≤ 4e-12 * G)
    (hs : |s - S| ≤ 5e-12 * S) : |s + w / g - (S + w / G)| ≤ 5e-12 * (S + w / G) := by
  have := div_close hw hG hg h
  calc |s + w / g - (S + w / G)| = |(s - S) + (w / g - w / G)| := by ring_nf
    _ ≤ |s - S| + |w / g - w / G| := abs_add_le _ _
    _ ≤ _ := by linarith

theorem chiSumEven_close {x : ℝ} (hx : 0 ≤ x) (n : ℕ) :
    ∃ s, chiSumEven x n = some s ∧ |s - ∑ i ∈ Finset.range n, (x / 2) ^ i / (i.factorial : ℝ)|
      ≤ 5e-12 * ∑ i ∈ Finset.range n, (x / 2) ^ i / (i.factorial : ℝ) := by
  induction n with
  | zero => exact ⟨0, rfl, by simp⟩
  | succ n ih =>
    obtain ⟨s, hs, hc⟩ := ih
    obtain ⟨g, hg, hg0, hgG⟩ := gamma_close (z := ((n + 1 : ℕ) : ℝ)) (by positivity)
    have hf : Real.Gamma ((n + 1 : ℕ) : ℝ) = n.factorial := by push_cast; exact Real.Gamma_nat_eq_factorial n
    rw [hf] at hgG
    refine ⟨s + (x / 2) ^ n / g, ?_, ?_⟩
    · simp only [chiSumEven, hs, powf_nonneg' (by positivity : 0 ≤ x / 2) (Nat.cast_nonneg n), hg, R.div, hg0.ne', if_false,
        Option.bind_eq_bind, Option.bind_some, Real.rpow_natCast]
    · rw [Finset.sum_range_succ]
      exact sum_close (by positivity) (by positivity) hg0 hgG hc

theorem chiSumOdd_close {x : ℝ} (hx : 0 ≤ x) (n : ℕ) :
    ∃ s, chiSumOdd x n = some s ∧
      |s - ∑ i ∈ Finset.range n, (x / 2) ^ ((i : ℝ) + 1 / 2) / Real.Gamma (i + 3 / 2)|
      ≤ 5e-12 * ∑ i ∈ Finset.range n, (x / 2) ^ ((i : ℝ) + 1 / 2) / Real.Gamma (i + 3 / 2) := by
  induction n with
  | zero => exact ⟨0, rfl, by simp⟩
  | succ n ih =>
    obtain ⟨s, hs, hc⟩ := ih
    obtain ⟨g, hg, hg0, hgG⟩ := gamma_close (z := (n : ℝ) + 3 / 2) (by positivity)
    have e1 : (n : ℝ) + 0.5 = n + 1 / 2 := by norm_num
    have e2 : (n : ℝ) + 1.5 = n + 3 / 2 := by norm_num
    refine ⟨s + (x / 2) ^ ((n : ℝ) + 1 / 2) / g, ?_, ?_⟩
    · simp only [chiSumOdd, hs, e1, e2, powf_nonneg' (by positivity : 0 ≤ x / 2) (by positivity : (0 : ℝ) ≤ n + 1 / 2), hg,
        R.div, hg0.ne', if_false, Option.bind_eq_bind, Option.bind_some]
    · rw [Finset.sum_range_succ]
      exact sum_close (Real.rpow_nonneg (by positivity) _) (Real.Gamma_pos_of_pos (by positivity)) hg0 hgG hc

/-- **C72**, distribution function: for `x ≥ 0` `cdf` returns a value (for odd degrees of freedom after finitely many
rounds of the error function), and every value returned is the integral of the density from 0 to `x` up to `1e-11`. -/
theorem C72_cdf {df k : ℕ} (h : chiNew df = some k) (x : ℝ) (hx : 0 ≤ x) :
    (∃ N v, ∀ n, N ≤ n → chiCdf n k x = some v) ∧
    ∀ n v, chiCdf n k x = some v →
      |v - ∫ t in (0 : ℝ)..x, 1 / (2 ^ ((df : ℝ) / 2) * Real.Gamma (df / 2)) * (t ^ ((df : ℝ) / 2 - 1) * Real.exp (-t / 2))|
        ≤ 1e-11 := by
  obtain ⟨rfl, hk⟩ := chiNew_some h
  have hy : 0 ≤ x / 2 := by positivity
  have hint : ∫ t in (0 : ℝ)..x, 1 / (2 ^ ((k : ℝ) / 2) * Real.Gamma (k / 2)) * (t ^ ((k : ℝ) / 2 - 1) * Real.exp (-t / 2))
      = gInt ((k : ℝ) / 2) (x / 2) / Real.Gamma (k / 2) := by
    simp_rw [chi_dens]
    rw [gamma_cdf_int (by norm_num) hx, show 1 / 2 * x = x / 2 by ring]
  rw [hint]
  have hex : Real.exp (-x / 2) = Real.exp (-(x / 2)) := by congr 1; ring
  rcases Nat.even_or_odd' k with ⟨m, rfl | rfl⟩
  · obtain ⟨j, rfl⟩ : ∃ j, m = j + 1 := ⟨m - 1, by omega⟩
    obtain ⟨s, hs, hc⟩ := chiSumEven_close hx (j + 1)
    have e1 : 2 * (j + 1) % 2 = 0 := by omega
    have e2 : 2 * (j + 1) / 2 = j + 1 := by omega
    have key : ∀ n, chiCdf n (2 * (j + 1)) x = some (1 - Real.exp (-x / 2) * s) := by
      intro n
      simp only [chiCdf, e1, e2, hs, if_true, Option.bind_eq_bind, Option.bind_some]
    refine ⟨⟨0, _, fun n _ => key n⟩, fun n v hv => ?_⟩
    rw [key n] at hv
    obtain rfl := Option.some.inj hv
    have hf : (0 : ℝ) < j.factorial := by positivity
    have e3 : ((2 * (j + 1) : ℕ) : ℝ) / 2 = j + 1 := by push_cast; ring
    have hgi := gInt_nat hy j
    have hg0 := gInt_nonneg (a := (j : ℝ) + 1) hy
    rw [e3, Real.Gamma_nat_eq_factorial, hgi, mul_div_cancel_left₀ _ hf.ne', hex]
    set S := ∑ i ∈ Finset.range (j + 1), (x / 2) ^ i / (i.factorial : ℝ) with hS
    have hS1 : Real.exp (-(x / 2)) * S ≤ 1 := by
      rw [hgi] at hg0
      have := nonneg_of_mul_nonneg_right hg0 hf
      linarith
    have hE := Real.exp_pos (-(x / 2))
    rw [show 1 - Real.exp (-(x / 2)) * s - (1 - Real.exp (-(x / 2)) * S) = -(Real.exp (-(x / 2)) * (s - S)) by ring, abs_neg,
      abs_mul, abs_of_pos hE]
    calc Real.exp (-(x / 2)) * |s - S| ≤ Real.exp (-(x / 2)) * (5e-12 * S) := mul_le_mul_of_nonneg_left hc hE.le
      _ = 5e-12 * (Real.exp (-(x / 2)) * S) := by ring
      _ ≤ 5e-12 * 1 := by gcongr
      _ ≤ 1e-11 := by norm_num
  · obtain ⟨s, hs, hc⟩ := chiSumOdd_close hx m
    obtain ⟨N, e, he⟩ := C50_total √(x / 2)
    have e1 : ¬ (2 * m + 1) % 2 = 0 := by omega
    have e2 : (2 * m + 1) / 2 = m := by omega
    have key : ∀ n, chiCdf n (2 * m + 1) x = (erf n √(x / 2)).bind fun e => some (e - Real.exp (-x / 2) * s) := by
      intro n
      simp only [chiCdf, e1, e2, hs, if_false, not_lt.2 hy, Option.bind_eq_bind, Option.bind_some]
    refine ⟨⟨N, e - Real.exp (-x / 2) * s, fun n hn => by rw [key n, (he n hn).1]; rfl⟩, fun n v hv => ?_⟩
    rw [key n] at hv
    cases her : erf n √(x / 2) with
    | none => rw [her] at hv; simp at hv
    | some e =>
      rw [her] at hv
      obtain rfl := Option.some.inj hv
      have hp : (0 : ℝ) < m + 1 / 2 := by positivity
      have hG := Real.Gamma_pos_of_pos hp
      have e3 : ((2 * m + 1 : ℕ) : ℝ) / 2 = m + 1 / 2 := by push_cast; ring
      have hgi := gInt_half_nat' hy m
      have hg0 := gInt_nonneg (a := (m : ℝ) + 1 / 2) hy
      rw [e3, hgi, mul_div_cancel_left₀ _ hG.ne', hex]
      have hacc : |e - erfSpec √(x / 2)| ≤ 4.7e-12 := (C50_accuracy n _ e her).1
      set S := ∑ i ∈ Finset.range m, (x / 2) ^ ((i : ℝ) + 1 / 2) / Real.Gamma (i + 3 / 2) with hS
      have hS1 : Real.exp (-(x / 2)) * S ≤ 1 := by
        rw [hgi] at hg0
        have := nonneg_of_mul_nonneg_right hg0 hG
        have h1 := erfSpec_le_one √(x / 2)
        linarith
      have hE := Real.exp_pos (-(x / 2))
      have h2 : |Real.exp (-(x / 2)) * (s - S)| ≤ 5e-12 := by
        rw [abs_mul, abs_of_pos hE]
        calc Real.exp (-(x / 2)) * |s - S| ≤ Real.exp (-(x / 2)) * (5e-12 * S) := mul_le_mul_of_nonneg_left hc hE.le
          _ = 5e-12 * (Real.exp (-(x / 2)) * S) := by ring
          _ ≤ 5e-12 * 1 := by gcongr
          _ = 5e-12 := by ring
      rw [show e - Real.exp (-(x / 2)) * s - (erfSpec √(x / 2) - Real.exp (-(x / 2)) * S)
        = (e - erfSpec √(x / 2)) + -(Real.exp (-(x / 2)) * (s - S)) by ring]
      refine (abs_add_le _ _).trans ?_
      rw [abs_neg]
      norm_num at hacc h2 ⊢
      linarith

/-- one degree of freedom: the distribution function at 2 is `erf 1` -/
example (n : ℕ) (v : ℝ) (hv : chiCdf n 1 2 = some v) :
    |v - ∫ t in (0 : ℝ)..2, 1 / (2 ^ (((1 : ℕ) : ℝ) / 2) * Real.Gamma ((1 : ℕ) / 2))
      * (t ^ (((1 : ℕ) : ℝ) / 2 - 1) * Real.exp (-t / 2))| ≤ 1e-11 :=
  (C72_cdf (df := 1) (k := 1) rfl 2 (by norm_num)).2 n v hv

/-- **C72**, quantile with two degrees of freedom: `quantile p = -2 ln (1 - p)`, the exact inverse of the distribution
function `1 - e^(-x/2)`.  Missing: other degrees of freedom (the iteration of `gamma_ur_inv`). -/
theorem C72_quantile_partial (n : ℕ) (x : ℝ) :
    chiQuantile n 2 (1 - Real.exp (-x / 2)) = some x := by
  have e : (((2 : ℕ) : ℝ) / 2) = 1 := by norm_num
  have h := C49_ur_inv_one n (x / 2)
  simp only [chiQuantile, e, sub_sub_cancel, show -x / 2 = -(x / 2) by ring, h, Option.bind_eq_bind, Option.bind_some]
  congr 1; ring

example (n : ℕ) : chiQuantile n 2 (1 - Real.exp (-3)) = some 6 := by
  have := C72_quantile_partial n 6
  norm_num at this ⊢
  exact this

/-- C72 is violated for negative arguments: the distribution function is 0 there, but for two degrees of freedom
`cdf(-2)` is below -1, and for odd degrees of freedom the result is not a number. -/
theorem C72_cdf_violated (n : ℕ) :
    (∃ v, chiCdf n 2 (-2) = some v ∧ v < -1) ∧ ∀ m x, x < 0 → chiCdf n (2 * m + 1) x = none := by
  constructor
  · obtain ⟨g, hg, hg0, hgG⟩ := gamma_close (z := 1) one_pos
    rw [Real.Gamma_one] at hgG
    have hp : R.powf (-1) 0 = some 1 := by norm_num [R.powf]
    refine ⟨1 - Real.exp 1 * (1 / g), ?_, ?_⟩
    · simp [chiCdf, chiSumEven, hp, hg, R.div, hg0.ne']
    · rw [abs_le] at hgG
      have h1 := Real.exp_one_gt_d9
      have h2 : g ≤ 1.1 := by linarith [hgG.2]
      have h3 : (1 : ℝ) / 1.1 ≤ 1 / g := one_div_le_one_div_of_le hg0 h2
      norm_num at h3 ⊢
      nlinarith
  · intro m x hx
    have e1 : ¬ (2 * m + 1) % 2 = 0 := by omega
    have h2 : x / 2 < 0 := by linarith
    simp only [chiCdf, e1, if_false, h2, if_true, Option.bind_eq_bind]
    cases chiSumOdd x ((2 * m + 1) / 2) <;> rfl

/-- C72 is violated by `median`: for two degrees of freedom the value returned has more than 50.4 % of the probability
below it (the formula is only an approximation). -/
theorem C72_median_violated :
    0.504 < ∫ t in (0 : ℝ)..(chiMedian 2), 1 / (2 ^ (((2 : ℕ) : ℝ) / 2) * Real.Gamma ((2 : ℕ) / 2))
      * (t ^ (((2 : ℕ) : ℝ) / 2 - 1) * Real.exp (-t / 2)) := by
  have hm : chiMedian 2 / 2 = 512 / 729 := by norm_num [chiMedian]
  have hm0 : 0 ≤ chiMedian 2 := by norm_num [chiMedian]
  have := gInt_nat (x := 512 / 729) (by norm_num) 0
  simp_rw [chi_dens]
  rw [gamma_cdf_int (by norm_num) hm0, show 1 / 2 * chiMedian 2 = chiMedian 2 / 2 by ring, hm,
    show (((2 : ℕ) : ℝ) / 2) = ((0 : ℕ) : ℝ) + 1 by norm_num, this, Real.Gamma_nat_eq_factorial]
  simp only [Nat.factorial_zero, Nat.cast_one, zero_add, Finset.range_one, Finset.sum_singleton, pow_zero, div_one, mul_one,
    one_mul]
  have h2 : Real.exp (-(512 / 729)) ≤ 1 / 2 * (1 / 1.009) := by
    have e1 : Real.exp (-(512 / 729)) = Real.exp (-Real.log 2) * (Real.exp (512 / 729 - Real.log 2))⁻¹ := by
      rw [← Real.exp_neg, ← Real.exp_add]; congr 1; ring
    rw [e1, Real.exp_neg, Real.exp_log (by norm_num), ← one_div, ← one_div]
    refine mul_le_mul_of_nonneg_left ?_ (by norm_num)
    refine one_div_le_one_div_of_le (by norm_num) ?_
    have h3 := Real.add_one_le_exp (512 / 729 - Real.log 2)
    have h4 := Real.log_two_lt_d9
    norm_num at h4 ⊢
    linarith
  norm_num at h2 ⊢
  linarith

/-- C72 is violated by `entropy`, which uses `2/k` in place of `k/2`: for four degrees of freedom it is below the
differential entropy of the density by more than 0.4. -/
theorem C72_entropy_violated (n : ℕ) (v : ℝ) (hv : chiEntropy n 4 = some v) :
    v + 0.4 < -∫ x in Ioi (0 : ℝ), 1 / (2 ^ (((4 : ℕ) : ℝ) / 2) * Real.Gamma ((4 : ℕ) / 2))
      * (x ^ (((4 : ℕ) : ℝ) / 2 - 1) * Real.exp (-x / 2))
      * Real.log (1 / (2 ^ (((4 : ℕ) : ℝ) / 2) * Real.Gamma ((4 : ℕ) / 2))
      * (x ^ (((4 : ℕ) : ℝ) / 2 - 1) * Real.exp (-x / 2))) := by
  simp_rw [chi_dens]
  rw [gamma_neg_log (by norm_num) (by norm_num)]
  have e2 : (((4 : ℕ) : ℝ) / 2) = 2 := by norm_num
  have eG : Real.Gamma 2 = 1 := by
    rw [show (2 : ℝ) = ((1 : ℕ) : ℝ) + 1 by norm_num, Real.Gamma_nat_eq_factorial]; simp
  rw [e2, eG, Real.log_one]
  have p2 := (psi_bounds (x := 2) (by norm_num)).2
  have p1 := (psi_bounds (x := 1 / 2) (by norm_num)).2
  have l2 : Real.log (1 / 2) = -Real.log 2 := by rw [one_div, Real.log_inv]
  rw [l2] at p1 ⊢
  obtain ⟨g, hg, hg0, hgG⟩ := gamma_close (z := 1 / 2) (by norm_num)
  rw [Real.Gamma_one_half_eq] at hgG
  have ed : (2 : ℝ) / ((4 : ℕ) : ℝ) = 1 / 2 := by norm_num
  have hg2 : ¬ 2 * g ≤ 0 := by push Not; positivity
  cases hp : digamma n (1 / 2) with
  | none => simp only [chiEntropy, ed, hg, hp, R.ln, hg2, if_false, Option.bind_eq_bind, Option.bind_some, Option.bind_none,
      reduceCtorEq] at hv
  | some p =>
    simp only [chiEntropy, ed, hg, hp, R.ln, hg2, if_false, Option.bind_eq_bind, Option.bind_some, Option.some.injEq] at hv
    have hpsi := (C52_accuracy n (1 / 2) p (by norm_num) hp).1
    have hgb : g ≤ 2 := by
      have h1 : √Real.pi ≤ 1.8 := by
        rw [Real.sqrt_le_left (by norm_num)]
        have := Real.pi_lt_d2
        norm_num at this ⊢
        linarith
      rw [abs_le] at hgG
      have := hgG.2
      norm_num at this h1 ⊢
      linarith
    have h4 : Real.log (2 * g) ≤ 2 * Real.log 2 := by
      rw [← Real.log_rpow (by norm_num)]
      refine Real.log_le_log (by positivity) ?_
      norm_num
      linarith
    have h5 := Real.log_two_lt_d9
    have h6 := Real.log_two_gt_d9
    rw [← hv]
    norm_num at h5 h6 ⊢
    linarith

end Stat
end Verif
