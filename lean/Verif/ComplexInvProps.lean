import Verif.ComplexProps

/-!
# C37: the complex inverse functions

A right inverse: the value `w` of the inverse function is one at which the function, as the crate computes it, is
the argument again.
-/

namespace Verif
namespace Cx

theorem half_sq {z : ℂ} (h : z ≠ 0) : z ^ (1 / 2 : ℂ) * z ^ (1 / 2 : ℂ) = z := by
  rw [← Complex.cpow_add _ _ h]
  norm_num

theorem sin_of_exp {w u v : ℂ} (hu : Complex.exp (w * Complex.I) = u) (huv : u * v = 1) :
    Complex.sin w = (v - u) * Complex.I / 2 ∧ Complex.cos w = (u + v) / 2 := by
  have hv : Complex.exp (-w * Complex.I) = v := by
    have : Complex.exp (-w * Complex.I) = u⁻¹ := by rw [neg_mul, Complex.exp_neg, hu]
    rw [this]; exact inv_eq_of_mul_eq_one_right huv
  rw [Complex.sin, Complex.cos, hu, hv]
  exact ⟨rfl, rfl⟩

theorem sinh_of_exp {w u v : ℂ} (hu : Complex.exp w = u) (huv : u * v = 1) :
    Complex.sinh w = (u - v) / 2 ∧ Complex.cosh w = (u + v) / 2 := by
  have hv : Complex.exp (-w) = v := by
    rw [Complex.exp_neg, hu]; exact inv_eq_of_mul_eq_one_right huv
  rw [Complex.sinh, Complex.cosh, hu, hv]
  exact ⟨rfl, rfl⟩

theorem arcsin_some {z : Cx ℝ} (h : 1 - z.toC * z.toC ≠ 0) :
    ∃ w, z.arcsin = some w ∧ Complex.sin w.toC = z.toC := by
  have e1 : (one.sub (z.mul z)).toC = 1 - z.toC * z.toC := by rw [toC_sub, toC_mul, toC_one]
  set r : ℂ := (1 - z.toC * z.toC) ^ (1 / 2 : ℂ) with hr
  have hrr : r * r = 1 - z.toC * z.toC := half_sq h
  have hp : (one.sub (z.mul z)).pow ⟨1 / (1 + 1), 0⟩ = some (ofC r) := by
    rw [pow_some (by rw [e1]; exact h), e1, half_eq]
  set u : ℂ := z.toC * Complex.I + r with hu
  have huv : u * (r - z.toC * Complex.I) = 1 := by
    linear_combination hrr - z.toC * z.toC * Complex.I_sq
  have hu0 : u ≠ 0 := left_ne_zero_of_mul_eq_one huv
  have e2 : (Cx.add ⟨-z.im, z.re⟩ (ofC r)).toC = u := by rw [toC_add, mulI_eq, toC_ofC]
  refine ⟨(mul ⟨0, -1⟩ (ofC (Complex.log u))), ?_, ?_⟩
  · unfold arcsin
    simp only [Option.bind_eq_bind]
    rw [hp]
    simp only [Option.bind_some]
    rw [ln_some (by rw [e2]; exact hu0), e2]
    rfl
  · have hw : (mul ⟨0, -1⟩ (ofC (Complex.log u))).toC = -Complex.I * Complex.log u := by
      rw [toC_mul, negI_eq, toC_ofC]
    rw [hw]
    have hexp : Complex.exp (-Complex.I * Complex.log u * Complex.I) = u := by
      rw [show -Complex.I * Complex.log u * Complex.I = Complex.log u by
        linear_combination -Complex.log u * Complex.I_sq]
      exact Complex.exp_log hu0
    rw [(sin_of_exp hexp huv).1, hu]
    linear_combination -z.toC * Complex.I_sq

theorem arcsin_none {z : Cx ℝ} (h : 1 - z.toC * z.toC = 0) : z.arcsin = none := by
  unfold arcsin
  rw [pow_none (by rw [toC_sub, toC_mul, toC_one]; exact h)]
  rfl

theorem arccos_some {z : Cx ℝ} (h : 1 - z.toC * z.toC ≠ 0) :
    ∃ w, z.arccos = some w ∧ Complex.cos w.toC = z.toC := by
  obtain ⟨w, h1, h2⟩ := arcsin_some h
  refine ⟨_, by unfold arccos; rw [h1]; rfl, ?_⟩
  rw [toC_sub]
  have : toC ⟨Real.pi / (1 + 1), 0⟩ = (Real.pi : ℂ) / 2 := by
    apply Complex.ext
    · simp [toC]; norm_num
    · simp [toC]
  rw [this, Complex.cos_pi_div_two_sub, h2]

theorem arsinh_some {z : Cx ℝ} (h : z.toC * z.toC + 1 ≠ 0) :
    ∃ w, z.arsinh = some w ∧ Complex.sinh w.toC = z.toC := by
  have e1 : ((z.mul z).add one).toC = z.toC * z.toC + 1 := by rw [toC_add, toC_mul, toC_one]
  set r : ℂ := (z.toC * z.toC + 1) ^ (1 / 2 : ℂ) with hr
  have hrr : r * r = z.toC * z.toC + 1 := half_sq h
  have hp : ((z.mul z).add one).pow ⟨1 / (1 + 1), 0⟩ = some (ofC r) := by
    rw [pow_some (by rw [e1]; exact h), e1, half_eq]
  have huv : (z.toC + r) * (r - z.toC) = 1 := by linear_combination hrr
  have hu0 : z.toC + r ≠ 0 := left_ne_zero_of_mul_eq_one huv
  have e2 : (z.add (ofC r)).toC = z.toC + r := by rw [toC_add, toC_ofC]
  refine ⟨ofC (Complex.log (z.toC + r)), ?_, ?_⟩
  · unfold arsinh
    simp only [Option.bind_eq_bind]
    rw [hp]
    simp only [Option.bind_some]
    rw [ln_some (by rw [e2]; exact hu0), e2]
  · rw [toC_ofC, (sinh_of_exp (Complex.exp_log hu0) huv).1]
    ring

theorem arsinh_none {z : Cx ℝ} (h : z.toC * z.toC + 1 = 0) : z.arsinh = none := by
  unfold arsinh
  rw [pow_none (by rw [toC_add, toC_mul, toC_one]; exact h)]
  rfl

theorem arcosh_some {z : Cx ℝ} (h : z.toC * z.toC - 1 ≠ 0) :
    ∃ w, z.arcosh = some w ∧ Complex.cosh w.toC = z.toC := by
  have e1 : ((z.mul z).sub one).toC = z.toC * z.toC - 1 := by rw [toC_sub, toC_mul, toC_one]
  set r : ℂ := (z.toC * z.toC - 1) ^ (1 / 2 : ℂ) with hr
  have hrr : r * r = z.toC * z.toC - 1 := half_sq h
  have hp : ((z.mul z).sub one).pow ⟨1 / (1 + 1), 0⟩ = some (ofC r) := by
    rw [pow_some (by rw [e1]; exact h), e1, half_eq]
  have huv : (z.toC + r) * (z.toC - r) = 1 := by linear_combination -hrr
  have hu0 : z.toC + r ≠ 0 := left_ne_zero_of_mul_eq_one huv
  have e2 : (z.add (ofC r)).toC = z.toC + r := by rw [toC_add, toC_ofC]
  refine ⟨ofC (Complex.log (z.toC + r)), ?_, ?_⟩
  · unfold arcosh
    simp only [Option.bind_eq_bind]
    rw [hp]
    simp only [Option.bind_some]
    rw [ln_some (by rw [e2]; exact hu0), e2]
  · rw [toC_ofC, (sinh_of_exp (Complex.exp_log hu0) huv).2]
    ring

theorem arcosh_none {z : Cx ℝ} (h : z.toC * z.toC - 1 = 0) : z.arcosh = none := by
  unfold arcosh
  rw [pow_none (by rw [toC_sub, toC_mul, toC_one]; exact h)]
  rfl

/-- hyperbolic sine and cosine of half a logarithm -/
theorem half_log {q w : ℂ} (hq : q ≠ 0) (hw : w = Complex.log q * (1 / 2)) :
    2 * Complex.exp w * Complex.cosh w = q + 1 ∧ 2 * Complex.exp w * Complex.sinh w = q - 1 := by
  have h1 : Complex.exp w * Complex.exp w = q := by
    rw [← Complex.exp_add, hw, show Complex.log q * (1 / 2) + Complex.log q * (1 / 2) = Complex.log q by ring]
    exact Complex.exp_log hq
  have h2 : Complex.exp w * Complex.exp (-w) = 1 := by rw [← Complex.exp_add]; simp
  rw [Complex.cosh, Complex.sinh]
  constructor
  · linear_combination h1 + h2
  · linear_combination h1 - h2

theorem artanh_some {z : Cx ℝ} (h1 : 1 - z.toC ≠ 0) (h2 : 1 + z.toC ≠ 0) :
    ∃ w, z.artanh = some w ∧ Complex.cosh w.toC ≠ 0 ∧ Complex.sinh w.toC = z.toC * Complex.cosh w.toC := by
  set q : ℂ := (1 + z.toC) / (1 - z.toC) with hq
  have hq0 : q ≠ 0 := div_ne_zero h2 h1
  have e1 : (one.add z).div (one.sub z) = some (ofC q) := by
    rw [div_some (by rw [toC_sub, toC_one]; exact h1), toC_sub, toC_add, toC_one]
  have hw : ((ofC (Complex.log q)).mul ⟨1 / (1 + 1), 0⟩).toC = Complex.log q * (1 / 2) := by
    rw [toC_mul, toC_ofC, half_eq]
  refine ⟨(ofC (Complex.log q)).mul ⟨1 / (1 + 1), 0⟩, ?_, ?_⟩
  · unfold artanh
    simp only [Option.bind_eq_bind]
    rw [e1]
    simp only [Option.bind_some]
    rw [ln_some (by rw [toC_ofC]; exact hq0), toC_ofC]
    rfl
  · obtain ⟨c1, c2⟩ := half_log hq0 hw
    generalize ((ofC (Complex.log q)).mul ⟨1 / (1 + 1), 0⟩).toC = w at *
    have hqm : q * (1 - z.toC) = 1 + z.toC := div_mul_cancel₀ _ h1
    have hE := Complex.exp_ne_zero w
    have key : (q + 1) * (1 - z.toC) = 2 := by linear_combination hqm
    constructor
    · intro h0
      rw [h0, mul_zero] at c1
      rw [← c1, zero_mul] at key
      norm_num at key
    · have : 2 * Complex.exp w * (Complex.sinh w - z.toC * Complex.cosh w) * (1 - z.toC) = 0 := by
        linear_combination (1 - z.toC) * c2 - z.toC * (1 - z.toC) * c1 + (1 - z.toC) * hqm
      rcases mul_eq_zero.mp this with h | h
      · rcases mul_eq_zero.mp h with h | h
        · exact absurd h (mul_ne_zero two_ne_zero hE)
        · exact sub_eq_zero.mp h
      · exact absurd h h1

theorem arcoth_some {z : Cx ℝ} (h1 : z.toC - 1 ≠ 0) (h2 : z.toC + 1 ≠ 0) :
    ∃ w, z.arcoth = some w ∧ Complex.sinh w.toC ≠ 0 ∧ Complex.cosh w.toC = z.toC * Complex.sinh w.toC := by
  set q : ℂ := (z.toC + 1) / (z.toC - 1) with hq
  have hq0 : q ≠ 0 := div_ne_zero h2 h1
  have e1 : (z.add one).div (z.sub one) = some (ofC q) := by
    rw [div_some (by rw [toC_sub, toC_one]; exact h1), toC_sub, toC_add, toC_one]
  have hw : ((ofC (Complex.log q)).mul ⟨1 / (1 + 1), 0⟩).toC = Complex.log q * (1 / 2) := by
    rw [toC_mul, toC_ofC, half_eq]
  refine ⟨(ofC (Complex.log q)).mul ⟨1 / (1 + 1), 0⟩, ?_, ?_⟩
  · unfold arcoth
    simp only [Option.bind_eq_bind]
    rw [e1]
    simp only [Option.bind_some]
    rw [ln_some (by rw [toC_ofC]; exact hq0), toC_ofC]
    rfl
  · obtain ⟨c1, c2⟩ := half_log hq0 hw
    generalize ((ofC (Complex.log q)).mul ⟨1 / (1 + 1), 0⟩).toC = w at *
    have hqm : q * (z.toC - 1) = z.toC + 1 := div_mul_cancel₀ _ h1
    have hE := Complex.exp_ne_zero w
    have key : (q - 1) * (z.toC - 1) = 2 := by linear_combination hqm
    constructor
    · intro h0
      rw [h0, mul_zero] at c2
      rw [← c2, zero_mul] at key
      norm_num at key
    · have : 2 * Complex.exp w * (Complex.cosh w - z.toC * Complex.sinh w) * (z.toC - 1) = 0 := by
        linear_combination (z.toC - 1) * c1 - z.toC * (z.toC - 1) * c2 - (z.toC - 1) * hqm
      rcases mul_eq_zero.mp this with h | h
      · rcases mul_eq_zero.mp h with h | h
        · exact absurd h (mul_ne_zero two_ne_zero hE)
        · exact sub_eq_zero.mp h
      · exact absurd h h1

/-! the inverse tangent -/

theorem sqrt_one_add_sq {p x : ℝ} (hx : x ≠ 0) :
    Real.sqrt (1 + (p / (2 * x)) ^ 2) * (2 * |x|) = Real.sqrt (p ^ 2 + (2 * x) ^ 2) := by
  have h2 : (2 * |x|) = Real.sqrt ((2 * x) ^ 2) := by
    rw [Real.sqrt_sq_eq_abs, abs_mul, abs_of_pos (by norm_num : (0 : ℝ) < 2)]
  rw [h2, ← Real.sqrt_mul (by positivity)]
  congr 1
  field_simp
  ring

/-- the direction of `(1 + iz)/(1 - iz)` -/
theorem arctanRe_dir (z : Cx ℝ) (hz : ¬ (z.re = 0 ∧ (z.im = 1 ∨ z.im = -1))) :
    let Q := Real.sqrt ((z.re * z.re + z.im * z.im - 1) ^ 2 + (2 * z.re) ^ 2)
    Real.cos (2 * z.arctanRe) * Q = 1 - (z.re * z.re + z.im * z.im) ∧
    Real.sin (2 * z.arctanRe) * Q = 2 * z.re := by
  intro Q
  unfold arctanRe
  by_cases hx : z.re = 0
  · rw [if_pos hx]
    have hQ : Q = |z.im * z.im - 1| := by
      rw [← Real.sqrt_sq_eq_abs]
      simp only [Q, hx]
      congr 1
      ring
    rw [hQ, hx]
    by_cases h1 : |z.im| ≤ 1
    · rw [if_pos h1]
      have : z.im * z.im - 1 ≤ 0 := by
        have := abs_le.mp h1
        nlinarith
      rw [abs_of_nonpos this]
      constructor <;> simp
    · rw [if_neg h1]
      have : 0 ≤ z.im * z.im - 1 := by
        have h3 : 1 < |z.im| := not_le.mp h1
        have h4 : |z.im| * |z.im| = z.im * z.im := abs_mul_abs_self _
        nlinarith
      rw [abs_of_nonneg this]
      by_cases h2 : z.im > 0
      · rw [if_pos h2, mul_div_cancel₀ _ (two_ne_zero), Real.cos_pi, Real.sin_pi]
        constructor <;> ring
      · rw [if_neg h2, mul_div_cancel₀ _ (two_ne_zero), Real.cos_neg, Real.cos_pi, Real.sin_neg, Real.sin_pi]
        constructor <;> ring
  · rw [if_neg hx]
    have hQ := sqrt_one_add_sq (p := z.re * z.re + z.im * z.im - 1) hx
    have hs : 0 < Real.sqrt (1 + ((z.re * z.re + z.im * z.im - 1) / (2 * z.re)) ^ 2) :=
      Real.sqrt_pos.mpr (by positivity)
    change _ = Q at hQ
    rw [← hQ]
    by_cases h1 : z.re > 0
    · rw [if_pos h1, mul_div_cancel₀ _ (two_ne_zero), Real.cos_add_pi_div_two, Real.sin_add_pi_div_two, R.arctan,
        Real.sin_arctan, Real.cos_arctan, abs_of_pos h1]
      constructor
      · field_simp; ring
      · field_simp
    · have h2 : z.re < 0 := lt_of_le_of_ne (not_lt.mp h1) hx
      rw [if_neg h1, mul_div_cancel₀ _ (two_ne_zero), Real.cos_sub_pi_div_two, Real.sin_sub_pi_div_two, R.arctan,
        Real.sin_arctan, Real.cos_arctan, abs_of_neg h2]
      constructor
      · field_simp; ring
      · field_simp

theorem arctan_some {z : Cx ℝ} (hz : ¬ (z.re = 0 ∧ (z.im = 1 ∨ z.im = -1))) :
    ∃ w, z.arctan = some w ∧ Complex.cos w.toC ≠ 0 ∧ Complex.sin w.toC = z.toC * Complex.cos w.toC := by
  set S : ℝ := z.re * z.re + z.im * z.im with hS
  have hS0 : 0 ≤ S := add_nonneg (mul_self_nonneg _) (mul_self_nonneg _)
  set N : ℝ := z.re * z.re + (1 - z.im) * (1 - z.im) with hN
  set D : ℝ := z.re * z.re + (1 + z.im) * (1 + z.im) with hD
  have hNpos : 0 < N := by
    rcases eq_or_ne z.re 0 with h | h
    · have : 1 - z.im ≠ 0 := fun e => hz ⟨h, Or.inl (by linarith)⟩
      have := mul_self_pos.mpr this
      have := mul_self_nonneg z.re
      simp only [hN]; linarith
    · have := mul_self_pos.mpr h
      have := mul_self_nonneg (1 - z.im)
      simp only [hN]; linarith
  have hDpos : 0 < D := by
    rcases eq_or_ne z.re 0 with h | h
    · have : 1 + z.im ≠ 0 := fun e => hz ⟨h, Or.inr (by linarith)⟩
      have := mul_self_pos.mpr this
      have := mul_self_nonneg z.re
      simp only [hD]; linarith
    · have := mul_self_pos.mpr h
      have := mul_self_nonneg (1 + z.im)
      simp only [hD]; linarith
  have hS1 : 0 < S + 1 := by linarith
  set t : ℝ := 2 * z.im / (S + 1) with ht
  have htm : 1 - t = N / (S + 1) := by rw [ht]; field_simp; simp only [hN, hS]; ring
  have htp : 1 + t = D / (S + 1) := by rw [ht]; field_simp; simp only [hD, hS]; ring
  have ht1 : t < 1 := by
    have : 0 < 1 - t := by rw [htm]; positivity
    linarith
  have ht2 : -1 < t := by
    have : 0 < 1 + t := by rw [htp]; positivity
    linarith
  have hart : R.artanh t = some (Real.artanh t) := by
    unfold R.artanh
    rw [if_neg]
    rintro (h | h) <;> linarith
  refine ⟨⟨z.arctanRe, Real.artanh t / 2⟩, ?_, ?_⟩
  · unfold arctan
    rw [show R.artanh (2 * z.im / (z.re * z.re + z.im * z.im + 1)) = some (Real.artanh t) from hart]
    rfl
  set w : ℂ := toC ⟨z.arctanRe, Real.artanh t / 2⟩ with hw
  -- e^{2iw}
  obtain ⟨d1, d2⟩ := arctanRe_dir z hz
  have hexp : Real.exp (-Real.artanh t) = Real.sqrt (N / D) := by
    rw [Real.exp_neg, Real.exp_artanh ⟨ht2, ht1⟩, ← Real.sqrt_inv, inv_div, htm, htp]
    congr 1
    field_simp
  have hQ : Real.sqrt ((S - 1) ^ 2 + (2 * z.re) ^ 2) * Real.sqrt (N / D) = N := by
    rw [← Real.sqrt_mul (by positivity)]
    have : ((S - 1) ^ 2 + (2 * z.re) ^ 2) * (N / D) = N ^ 2 := by
      field_simp
      simp only [hS, hN, hD]
      ring
    rw [this, Real.sqrt_sq hNpos.le]
  have hQpos : 0 < Real.sqrt ((S - 1) ^ 2 + (2 * z.re) ^ 2) := by
    by_contra hc
    have h0 : Real.sqrt ((S - 1) ^ 2 + (2 * z.re) ^ 2) = 0 := le_antisymm (not_lt.mp hc) (Real.sqrt_nonneg _)
    rw [h0, zero_mul] at hQ
    exact hNpos.ne hQ
  have hND : N / Real.sqrt ((S - 1) ^ 2 + (2 * z.re) ^ 2) = Real.sqrt (N / D) := by
    rw [div_eq_iff hQpos.ne', mul_comm]; exact hQ.symm
  have hQQ : Real.sqrt ((S - 1) ^ 2 + (2 * z.re) ^ 2) * Real.sqrt ((S - 1) ^ 2 + (2 * z.re) ^ 2) = N * D := by
    rw [Real.mul_self_sqrt (by positivity)]
    simp only [hS, hN, hD]; ring
  set Q := Real.sqrt ((S - 1) ^ 2 + (2 * z.re) ^ 2) with hQdef
  have c1 : Real.cos (2 * z.arctanRe) * Real.sqrt (N / D) * D = 1 - S := by
    rw [← hND]
    field_simp
    have : Real.cos (2 * z.arctanRe) * N * D = (1 - S) * Q := by
      have : Real.cos (2 * z.arctanRe) * (N * D) = Real.cos (2 * z.arctanRe) * Q * Q := by rw [← hQQ]; ring
      rw [mul_assoc, this, d1]
    linear_combination this
  have c2 : Real.sin (2 * z.arctanRe) * Real.sqrt (N / D) * D = 2 * z.re := by
    rw [← hND]
    field_simp
    have : Real.sin (2 * z.arctanRe) * N * D = 2 * z.re * Q := by
      have : Real.sin (2 * z.arctanRe) * (N * D) = Real.sin (2 * z.arctanRe) * Q * Q := by rw [← hQQ]; ring
      rw [mul_assoc, this, d2]
    linear_combination this
  have hE : Complex.exp (w * Complex.I) * Complex.exp (w * Complex.I) * (1 - z.toC * Complex.I) =
      1 + z.toC * Complex.I := by
    rw [← Complex.exp_add]
    have hre : (w * Complex.I + w * Complex.I).re = -Real.artanh t := by
      simp [hw, toC]; ring
    have him : (w * Complex.I + w * Complex.I).im = 2 * z.arctanRe := by
      simp [hw, toC]; ring
    have hD0 := hDpos.ne'
    have r1 : (Complex.exp (w * Complex.I + w * Complex.I)).re * D = 1 - S := by
      rw [Complex.exp_re, hre, him, hexp, mul_comm (Real.sqrt _), c1]
    have r2 : (Complex.exp (w * Complex.I + w * Complex.I)).im * D = 2 * z.re := by
      rw [Complex.exp_im, hre, him, hexp, mul_comm (Real.sqrt _), c2]
    generalize Complex.exp (w * Complex.I + w * Complex.I) = E at *
    apply Complex.ext
    · have : D * (E.re * (1 + z.im) + E.im * z.re) = D * (1 - z.im) := by
        simp only [hD, hS] at *
        linear_combination (1 + z.im) * r1 + z.re * r2
      have := mul_left_cancel₀ hD0 this
      simp [toC]
      linear_combination this
    · have : D * (E.im * (1 + z.im) - E.re * z.re) = D * z.re := by
        simp only [hD, hS] at *
        linear_combination (1 + z.im) * r2 - z.re * r1
      have := mul_left_cancel₀ hD0 this
      simp [toC]
      linear_combination this
  have hinv : Complex.exp (w * Complex.I) * Complex.exp (-w * Complex.I) = 1 := by
    rw [← Complex.exp_add]; simp
  obtain ⟨s1, s2⟩ := sin_of_exp rfl hinv
  have hEne := Complex.exp_ne_zero (w * Complex.I)
  have hden : 1 - z.toC * Complex.I ≠ 0 := by
    intro h0
    have hr := congrArg Complex.re h0
    have hi := congrArg Complex.im h0
    simp [toC] at hr hi
    exact hz ⟨hi, Or.inr (by linarith)⟩
  rw [s1, s2]
  generalize Complex.exp (w * Complex.I) = e at *
  generalize Complex.exp (-w * Complex.I) = f at *
  have key : e * (e + f) * (1 - z.toC * Complex.I) = 2 := by
    linear_combination hE + (1 - z.toC * Complex.I) * hinv
  constructor
  · intro h0
    have h1 : e + f = 0 := by linear_combination 2 * h0
    rw [h1] at key
    norm_num at key
  · have : e * ((f - e) * Complex.I / 2 - z.toC * ((e + f) / 2)) = 0 := by
      have hI := Complex.I_sq
      linear_combination (Complex.I / 2) * hinv - (z.toC / 2) * hinv - (Complex.I / 2) * hE +
        (-z.toC * (1 + e * e) / 2 ) * hI
    rcases mul_eq_zero.mp this with h | h
    · exact absurd h hEne
    · exact sub_eq_zero.mp h

theorem arctan_none {z : Cx ℝ} (hz : z.re = 0 ∧ (z.im = 1 ∨ z.im = -1)) : z.arctan = none := by
  unfold arctan R.artanh
  rcases hz with ⟨h, h1 | h1⟩ <;> rw [h, h1] <;> norm_num

theorem toC_mk (a b : ℝ) : toC ⟨a, b⟩ = ⟨a, b⟩ := rfl

theorem toC_ne_of {z w : Cx ℝ} (h : z ≠ w) : z.toC ≠ w.toC := fun e => h (toC_inj e)

theorem sub_sq_ne {z : Cx ℝ} (h1 : z ≠ ⟨1, 0⟩) (h2 : z ≠ ⟨-1, 0⟩) : 1 - z.toC * z.toC ≠ 0 := by
  have a1 : 1 - z.toC ≠ 0 := fun e => h1 (toC_inj (by rw [← sub_eq_zero.mp e]; rfl))
  have a2 : 1 + z.toC ≠ 0 := fun e => h2 (toC_inj (by
    rw [eq_neg_of_add_eq_zero_right e]; apply Complex.ext <;> simp [toC]))
  intro e
  have : (1 - z.toC) * (1 + z.toC) = 0 := by linear_combination e
  exact (mul_ne_zero a1 a2) this

theorem add_sq_ne {z : Cx ℝ} (h1 : z ≠ ⟨0, 1⟩) (h2 : z ≠ ⟨0, -1⟩) : z.toC * z.toC + 1 ≠ 0 := by
  have a1 : z.toC - Complex.I ≠ 0 := fun e => h1 (toC_inj (by rw [sub_eq_zero.mp e]; rfl))
  have a2 : z.toC + Complex.I ≠ 0 := fun e => h2 (toC_inj (by
    rw [eq_neg_of_add_eq_zero_left e]; apply Complex.ext <;> simp [toC]))
  intro e
  have : (z.toC - Complex.I) * (z.toC + Complex.I) = 0 := by linear_combination e - Complex.I_sq
  exact (mul_ne_zero a1 a2) this

theorem pm_i {z : Cx ℝ} (h1 : z ≠ ⟨0, 1⟩) (h2 : z ≠ ⟨0, -1⟩) : ¬ (z.re = 0 ∧ (z.im = 1 ∨ z.im = -1)) := by
  cases z
  rintro ⟨h, h' | h'⟩
  · exact h1 (by simp_all)
  · exact h2 (by simp_all)

/-- the reciprocal as the crate computes it -/
theorem one_div_some {z : Cx ℝ} (hz : z.toC ≠ 0) : one.div z = some (ofC (1 / z.toC)) := by
  rw [div_some hz, toC_one]

theorem tan_some {w : Cx ℝ} (h : Complex.cos w.toC ≠ 0) :
    w.tan = some (ofC (Complex.sin w.toC / Complex.cos w.toC)) := by
  unfold tan
  rw [sin_some, cos_some]
  exact div_some h

end Cx

open Cx

/-- `sin (arcsin z) = z` and `cos (arccos z) = z` for every `z` but `±1`. Missing from C37: `z = ±1`, see
    `C37_arcsin_violated`. -/
theorem C37_arcsin_arccos_partial (z : Cx ℝ) (h1 : z ≠ ⟨1, 0⟩) (h2 : z ≠ ⟨-1, 0⟩) :
    (∃ w, z.arcsin = some w ∧ w.sin = some z) ∧ (∃ w, z.arccos = some w ∧ w.cos = some z) := by
  obtain ⟨w, a1, a2⟩ := arcsin_some (sub_sq_ne h1 h2)
  obtain ⟨v, b1, b2⟩ := arccos_some (sub_sq_ne h1 h2)
  exact ⟨⟨w, a1, by rw [sin_some, a2]; rfl⟩, ⟨v, b1, by rw [cos_some, b2]; rfl⟩⟩

example : ∃ w, (⟨2, 0⟩ : Cx ℝ).arcsin = some w ∧ w.sin = some ⟨2, 0⟩ :=
  (C37_arcsin_arccos_partial _ (by simp) (by simp only [ne_eq, mk.injEq, and_true]; norm_num)).1

/-- at `±1` the code computes a NaN for `arcsin` and `arccos`, although `sin (π/2) = 1` and `cos 0 = 1` -/
theorem C37_arcsin_violated :
    (⟨1, 0⟩ : Cx ℝ).arcsin = none ∧ (⟨-1, 0⟩ : Cx ℝ).arcsin = none ∧
    (⟨1, 0⟩ : Cx ℝ).arccos = none ∧ (⟨-1, 0⟩ : Cx ℝ).arccos = none ∧
    (∃ w : Cx ℝ, w.sin = some ⟨1, 0⟩) ∧ (∃ w : Cx ℝ, w.cos = some ⟨1, 0⟩) := by
  have e1 : (⟨1, 0⟩ : Cx ℝ).arcsin = none := arcsin_none (by
    rw [show toC ⟨1, 0⟩ = 1 from rfl]; ring)
  have e2 : (⟨-1, 0⟩ : Cx ℝ).arcsin = none := arcsin_none (by
    rw [show toC ⟨-1, 0⟩ = -1 by apply Complex.ext <;> simp [toC]]; ring)
  refine ⟨e1, e2, by unfold arccos; rw [e1]; rfl, by unfold arccos; rw [e2]; rfl,
    ⟨⟨Real.pi / 2, 0⟩, ?_⟩, ⟨⟨0, 0⟩, ?_⟩⟩
  · rw [(C35_real _).1]; simp
  · rw [(C35_real _).2]; simp

/-- `tan (arctan z) = z` for every `z ≠ ±i`; `arctan (±i)` panics -/
theorem C37_arctan (z : Cx ℝ) :
    (z ≠ ⟨0, 1⟩ → z ≠ ⟨0, -1⟩ → ∃ w, z.arctan = some w ∧ w.tan = some z) ∧
    (z = ⟨0, 1⟩ ∨ z = ⟨0, -1⟩ → z.arctan = none) := by
  constructor
  · intro h1 h2
    obtain ⟨w, a1, a2, a3⟩ := arctan_some (pm_i h1 h2)
    refine ⟨w, a1, ?_⟩
    rw [tan_some a2, a3, mul_div_assoc, div_self a2, mul_one]
    rfl
  · rintro (rfl | rfl)
    · exact arctan_none ⟨rfl, Or.inl rfl⟩
    · exact arctan_none ⟨rfl, Or.inr rfl⟩

example : ∃ w, (⟨0, 2⟩ : Cx ℝ).arctan = some w ∧ w.tan = some ⟨0, 2⟩ :=
  (C37_arctan _).1 (by simp) (by simp only [ne_eq, mk.injEq, true_and]; norm_num)

/-- the real part of `arctan` is in the principal strip -/
theorem C37_arctan_range (z w : Cx ℝ) (h : z.arctan = some w) :
    -(Real.pi / 2) ≤ w.re ∧ w.re ≤ Real.pi / 2 := by
  have hw : w.re = z.arctanRe := by
    unfold arctan at h
    cases ht : R.artanh (2 * z.im / (z.re * z.re + z.im * z.im + 1)) with
    | none => rw [ht] at h; cases h
    | some t => rw [ht] at h; cases h; rfl
  rw [hw]
  have hp := Real.pi_pos
  unfold arctanRe R.arctan
  have a1 := Real.arctan_lt_pi_div_two ((z.re * z.re + z.im * z.im - 1) / (2 * z.re))
  have a2 := Real.neg_pi_div_two_lt_arctan ((z.re * z.re + z.im * z.im - 1) / (2 * z.re))
  split_ifs <;> constructor <;> linarith

/-- `sinh (arsinh z) = z` for every `z` but `±i`, `cosh (arcosh z) = z` for every `z` but `±1`. Missing from C37:
    these points, see `C37_arsinh_violated`. -/
theorem C37_arsinh_arcosh_partial (z : Cx ℝ) :
    (z ≠ ⟨0, 1⟩ → z ≠ ⟨0, -1⟩ → ∃ w, z.arsinh = some w ∧ w.sinh = some z) ∧
    (z ≠ ⟨1, 0⟩ → z ≠ ⟨-1, 0⟩ → ∃ w, z.arcosh = some w ∧ w.cosh = some z) := by
  constructor
  · intro h1 h2
    obtain ⟨w, a1, a2⟩ := arsinh_some (add_sq_ne h1 h2)
    exact ⟨w, a1, by rw [sinh_some, a2]; rfl⟩
  · intro h1 h2
    obtain ⟨w, a1, a2⟩ := arcosh_some (z := z) (by
      have := sub_sq_ne h1 h2
      intro e
      exact this (by linear_combination -e))
    exact ⟨w, a1, by rw [cosh_some, a2]; rfl⟩

example : ∃ w, (⟨0, 3⟩ : Cx ℝ).arsinh = some w ∧ w.sinh = some ⟨0, 3⟩ :=
  (C37_arsinh_arcosh_partial _).1 (by simp) (by simp only [ne_eq, mk.injEq, true_and]; norm_num)

/-- at `±i` the code computes a NaN for `arsinh`, at `±1` for `arcosh`, although `sinh (iπ/2) = i`, `cosh 0 = 1` -/
theorem C37_arsinh_violated :
    (⟨0, 1⟩ : Cx ℝ).arsinh = none ∧ (⟨0, -1⟩ : Cx ℝ).arsinh = none ∧
    (⟨1, 0⟩ : Cx ℝ).arcosh = none ∧ (⟨-1, 0⟩ : Cx ℝ).arcosh = none ∧
    (∃ w : Cx ℝ, w.sinh = some ⟨0, 1⟩) ∧ (∃ w : Cx ℝ, w.cosh = some ⟨1, 0⟩) := by
  refine ⟨arsinh_none ?_, arsinh_none ?_, arcosh_none ?_, arcosh_none ?_,
    ⟨⟨0, Real.pi / 2⟩, ?_⟩, ⟨⟨0, 0⟩, ?_⟩⟩
  · rw [show toC ⟨0, 1⟩ = Complex.I from rfl, Complex.I_mul_I]; ring
  · rw [negI_eq, neg_mul_neg, Complex.I_mul_I]; ring
  · rw [show toC ⟨1, 0⟩ = 1 from rfl]; ring
  · rw [show toC ⟨-1, 0⟩ = -1 by apply Complex.ext <;> simp [toC]]; ring
  · rw [sinh_some, show toC ⟨0, Real.pi / 2⟩ = ((Real.pi / 2 : ℝ) : ℂ) * Complex.I by
      apply Complex.ext <;> simp [toC], Complex.sinh_mul_I, ← Complex.ofReal_sin, Real.sin_pi_div_two]
    simp [ofC]
  · rw [cosh_some, show toC ⟨0, 0⟩ = 0 from rfl, Complex.cosh_zero]; rfl

/-- `tanh (artanh z) = z` and `coth (arcoth z) = z` for every `z ≠ ±1`; both panic at `±1` -/
theorem C37_artanh_arcoth (z : Cx ℝ) :
    (z ≠ ⟨1, 0⟩ → z ≠ ⟨-1, 0⟩ → (∃ w, z.artanh = some w ∧ w.tanh = some z) ∧
      ∃ w, z.arcoth = some w ∧ w.coth = some z) ∧
    (z = ⟨1, 0⟩ ∨ z = ⟨-1, 0⟩ → z.artanh = none ∧ z.arcoth = none) := by
  constructor
  · intro h1 h2
    have hm : 1 - z.toC * z.toC ≠ 0 := sub_sq_ne h1 h2
    have a1 : 1 - z.toC ≠ 0 := fun e => hm (by linear_combination (1 + z.toC) * e)
    have a2 : 1 + z.toC ≠ 0 := fun e => hm (by linear_combination (1 - z.toC) * e)
    constructor
    · obtain ⟨w, b1, b2, b3⟩ := artanh_some a1 a2
      obtain ⟨t, c1, c2⟩ := (C36_tanh_coth_sech w).1 b2
      refine ⟨w, b1, ?_⟩
      rw [c1]
      congr 1
      apply toC_inj
      rw [c2, b3, mul_div_assoc, div_self b2, mul_one]
    · obtain ⟨w, b1, b2, b3⟩ := arcoth_some (z := z) (fun e => a1 (by linear_combination -e))
        (fun e => a2 (by linear_combination e))
      obtain ⟨t, c1, c2⟩ := (C36_tanh_coth_sech w).2.2.1 b2
      refine ⟨w, b1, ?_⟩
      rw [c1]
      congr 1
      apply toC_inj
      rw [c2, b3, mul_div_assoc, div_self b2, mul_one]
  · have e1 : toC ⟨1, 0⟩ = 1 := rfl
    have e2 : toC ⟨-1, 0⟩ = -1 := by apply Complex.ext <;> simp [toC]
    rintro (rfl | rfl)
    · constructor
      · unfold artanh; rw [div_none (by rw [toC_sub, toC_one, e1, sub_self])]; rfl
      · unfold arcoth; rw [div_none (by rw [toC_sub, toC_one, e1, sub_self])]; rfl
    · constructor
      · unfold artanh
        rw [div_some (by rw [toC_sub, toC_one, e2]; norm_num)]
        simp only [Option.bind_eq_bind, Option.bind_some]
        rw [ln_none (by rw [toC_ofC, toC_add, toC_one, e2]; simp)]
        rfl
      · unfold arcoth
        rw [div_some (by rw [toC_sub, toC_one, e2]; norm_num)]
        simp only [Option.bind_eq_bind, Option.bind_some]
        rw [ln_none (by rw [toC_ofC, toC_add, toC_one, e2]; simp)]
        rfl

example : ∃ w, (⟨0, 1⟩ : Cx ℝ).artanh = some w ∧ w.tanh = some ⟨0, 1⟩ :=
  ((C37_artanh_arcoth _).1 (by simp) (by simp)).1

theorem Cx.ofC_one_div_ne {z a b : Cx ℝ} (hz : z.toC ≠ 0) (hab : a.toC * b.toC = 1) (h : z ≠ b) :
    ofC (1 / z.toC) ≠ a := by
  intro e
  have h1 : 1 / z.toC = a.toC := by rw [← e, toC_ofC]
  apply h
  apply toC_inj
  have ha : a.toC ≠ 0 := left_ne_zero_of_mul_eq_one hab
  have h2 : a.toC * z.toC = 1 := by rw [← h1]; field_simp
  exact mul_left_cancel₀ ha (h2.trans hab.symm)

/-- the inverse cotangent, secant and cosecant: right inverses wherever the argument is none of `0`, `±1`, `±i` -/
theorem C37_arccot_arcsec_arccsc_partial (z : Cx ℝ) (h0 : z ≠ ⟨0, 0⟩) :
    (z ≠ ⟨0, 1⟩ → z ≠ ⟨0, -1⟩ → ∃ w, z.arccot = some w ∧ w.cot = some z) ∧
    (z ≠ ⟨1, 0⟩ → z ≠ ⟨-1, 0⟩ → (∃ w, z.arcsec = some w ∧ w.sec = some z) ∧
      ∃ w, z.arccsc = some w ∧ w.csc = some z) := by
  have hz : z.toC ≠ 0 := fun e => h0 (toC_inj (by rw [e]; rfl))
  have hq : (ofC (1 / z.toC)).toC ≠ 0 := by rw [toC_ofC]; exact one_div_ne_zero hz
  have hqq : one.div (ofC (1 / z.toC)) = some z := by
    rw [one_div_some hq, toC_ofC, one_div_one_div]; rfl
  constructor
  · intro h1 h2
    have n1 : ofC (1 / z.toC) ≠ ⟨0, 1⟩ := ofC_one_div_ne (b := ⟨0, -1⟩) hz (by
      rw [negI_eq, show toC ⟨0, 1⟩ = Complex.I from rfl]; simp) h2
    have n2 : ofC (1 / z.toC) ≠ ⟨0, -1⟩ := ofC_one_div_ne (b := ⟨0, 1⟩) hz (by
      rw [negI_eq, show toC ⟨0, 1⟩ = Complex.I from rfl]; simp) h1
    obtain ⟨w, a1, a2⟩ := (C37_arctan (ofC (1 / z.toC))).1 n1 n2
    refine ⟨w, ?_, ?_⟩
    · unfold arccot
      rw [if_neg (pm_i h1 h2), one_div_some hz]
      exact a1
    · unfold cot
      rw [a2]
      exact hqq
  · intro h1 h2
    have e1 : toC ⟨1, 0⟩ = 1 := rfl
    have e2 : toC ⟨-1, 0⟩ = -1 := by apply Complex.ext <;> simp [toC]
    have n1 : ofC (1 / z.toC) ≠ ⟨1, 0⟩ := ofC_one_div_ne (b := ⟨1, 0⟩) hz (by rw [e1, one_mul]) h1
    have n2 : ofC (1 / z.toC) ≠ ⟨-1, 0⟩ := ofC_one_div_ne (b := ⟨-1, 0⟩) hz (by rw [e2]; ring) h2
    obtain ⟨⟨w, a1, a2⟩, ⟨v, b1, b2⟩⟩ := C37_arcsin_arccos_partial (ofC (1 / z.toC)) n1 n2
    constructor
    · refine ⟨v, ?_, ?_⟩
      · unfold arcsec
        rw [if_neg, one_div_some hz]
        · exact b1
        · cases z
          rintro ⟨g, g' | g' | g'⟩
          · exact h2 (by simp_all)
          · exact h0 (by simp_all)
          · exact h1 (by simp_all)
      · unfold sec
        rw [b2]
        exact hqq
    · refine ⟨w, ?_, ?_⟩
      · unfold arccsc
        rw [one_div_some hz]
        exact a1
      · unfold csc
        rw [a2]
        exact hqq

/-- the documented domain of the inverse cotangent is everything but `±i`, but `arccot 0` has no value -/
theorem C37_arccot_violated : (⟨0, 0⟩ : Cx ℝ).arccot = none := by
  unfold arccot
  rw [if_neg (by simp), div_none rfl]
  rfl

/-- `sech (arsech z) = z` and `sinh (arcsch z) = 1/z`, wherever the argument is none of `0`, `±1` or `±i` -/
theorem C37_arsech_arcsch_partial (z : Cx ℝ) (h0 : z ≠ ⟨0, 0⟩) :
    (z ≠ ⟨1, 0⟩ → z ≠ ⟨-1, 0⟩ → ∃ w, z.arsech = some w ∧ w.sech = some z) ∧
    (z ≠ ⟨0, 1⟩ → z ≠ ⟨0, -1⟩ → ∃ w s, z.arcsch = some w ∧ w.sinh = some s ∧ one.div s = some z) := by
  have hz : z.toC ≠ 0 := fun e => h0 (toC_inj (by rw [e]; rfl))
  have hq : (ofC (1 / z.toC)).toC ≠ 0 := by rw [toC_ofC]; exact one_div_ne_zero hz
  have hqq : one.div (ofC (1 / z.toC)) = some z := by
    rw [one_div_some hq, toC_ofC, one_div_one_div]; rfl
  have e1 : toC ⟨1, 0⟩ = 1 := rfl
  have e2 : toC ⟨-1, 0⟩ = -1 := by apply Complex.ext <;> simp [toC]
  constructor
  · intro h1 h2
    have n1 : ofC (1 / z.toC) ≠ ⟨1, 0⟩ := ofC_one_div_ne (b := ⟨1, 0⟩) hz (by rw [e1, one_mul]) h1
    have n2 : ofC (1 / z.toC) ≠ ⟨-1, 0⟩ := ofC_one_div_ne (b := ⟨-1, 0⟩) hz (by rw [e2]; ring) h2
    obtain ⟨w, a1, a2⟩ := (C37_arsinh_arcosh_partial (ofC (1 / z.toC))).2 n1 n2
    refine ⟨w, by unfold arsech; rw [one_div_some hz]; exact a1, ?_⟩
    unfold sech sec
    unfold cosh at a2
    rw [a2]
    exact hqq
  · intro h1 h2
    have n1 : ofC (1 / z.toC) ≠ ⟨0, 1⟩ := ofC_one_div_ne (b := ⟨0, -1⟩) hz (by
      rw [negI_eq, show toC ⟨0, 1⟩ = Complex.I from rfl]; simp) h2
    have n2 : ofC (1 / z.toC) ≠ ⟨0, -1⟩ := ofC_one_div_ne (b := ⟨0, 1⟩) hz (by
      rw [negI_eq, show toC ⟨0, 1⟩ = Complex.I from rfl]; simp) h1
    obtain ⟨w, a1, a2⟩ := (C37_arsinh_arcosh_partial (ofC (1 / z.toC))).1 n1 n2
    exact ⟨w, _, by unfold arcsch; rw [one_div_some hz]; exact a1, a2, hqq⟩

end Verif
