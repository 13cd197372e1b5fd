import Verif.ComplexLemmas

/-!
# C33-C37: complex numbers
-/

namespace Verif
open Cx

/-! ### C33 -/

/-- the operations are those of `ℂ` -/
theorem C33_arith (a b : Cx ℝ) :
    (a.add b).toC = a.toC + b.toC ∧ (a.sub b).toC = a.toC - b.toC ∧ (a.mul b).toC = a.toC * b.toC ∧
    (a.operate b).toC = a.toC * b.toC ∧ a.neg.toC = -a.toC ∧ (zero : Cx ℝ).toC = 0 ∧ (one : Cx ℝ).toC = 1 :=
  ⟨rfl, rfl, toC_mul a b, toC_operate a b, rfl, rfl, rfl⟩

example : (⟨1, 2⟩ : Cx ℚ).mul ⟨3, -1⟩ = ⟨5, 5⟩ := by decide +kernel

/-- the field laws, over any field in which a sum of two squares vanishes only trivially -/
theorem C33_field {K : Type} [Field K] [DecidableEq K] (hK : ∀ x y : K, x * x + y * y = 0 → x = 0 ∧ y = 0)
    (a b c : Cx K) :
    a.add b = b.add a ∧ (a.add b).add c = a.add (b.add c) ∧ a.add zero = a ∧ a.add a.neg = zero ∧
    a.sub b = a.add b.neg ∧
    a.mul b = b.mul a ∧ (a.mul b).mul c = a.mul (b.mul c) ∧ a.mul one = a ∧
    a.mul (b.add c) = (a.mul b).add (a.mul c) ∧
    (b ≠ zero → ∃ q, a.div b = some q ∧ q.mul b = a) ∧ (b = zero → a.div b = none) := by
  refine ⟨?_, ?_, ?_, ?_, ?_, ?_, ?_, ?_, ?_, ?_, ?_⟩
  · simp only [add, mk.injEq]; constructor <;> ring
  · simp only [add, mk.injEq]; constructor <;> ring
  · simp [add, zero]
  · simp [add, neg, zero]
  · simp only [add, sub, neg, mk.injEq]; constructor <;> ring
  · simp only [mul, mk.injEq]; constructor <;> ring
  · simp only [mul, mk.injEq]; constructor <;> ring
  · simp [mul, one]
  · simp only [mul, add, mk.injEq]; constructor <;> ring
  · intro hb
    have hd : b.re * b.re + b.im * b.im ≠ 0 := by
      intro h
      obtain ⟨h1, h2⟩ := hK _ _ h
      apply hb
      cases b
      simp_all [zero]
    refine ⟨_, by unfold div; rw [if_neg hd], ?_⟩
    cases a
    simp only [mul, mk.injEq]
    constructor
    · rw [div_mul_eq_mul_div, div_mul_eq_mul_div, ← sub_div, div_eq_iff hd]; ring
    · rw [div_mul_eq_mul_div, div_mul_eq_mul_div, ← add_div, div_eq_iff hd]; ring
  · rintro rfl
    simp [div, zero]

example : (⟨1, 2⟩ : Cx ℚ).div ⟨3, -1⟩ = some ⟨1/10, 7/10⟩ := by decide +kernel
example : (⟨1, 2⟩ : Cx ℚ).div ⟨0, 0⟩ = none := by decide +kernel

/-- division is division in `ℂ` -/
theorem C33_div (a b : Cx ℝ) :
    (b.toC ≠ 0 → ∃ q, a.div b = some q ∧ q.toC = a.toC / b.toC) ∧ (b.toC = 0 → a.div b = none) :=
  ⟨fun h => ⟨_, div_some h, toC_ofC _⟩, div_none⟩

/-- conjugation and modulus -/
theorem C33_conj_abs (a b : Cx ℝ) :
    a.conj.toC = (starRingEnd ℂ) a.toC ∧ (a.mul b).conj = a.conj.mul b.conj ∧ a.conj.conj = a ∧
    a.abs.im = 0 ∧ a.abs.re = ‖a.toC‖ ∧ a.abs.mul a.abs = a.mul a.conj ∧
    (a.mul b).abs = a.abs.mul b.abs ∧ (a.add b).abs.re ≤ a.abs.re + b.abs.re := by
  refine ⟨toC_conj a, ?_, ?_, rfl, abs_re a, ?_, ?_, ?_⟩
  · simp only [conj, mul, mk.injEq]; constructor <;> ring
  · simp [conj]
  · have h := Real.mul_self_sqrt (add_nonneg (mul_self_nonneg a.re) (mul_self_nonneg a.im))
    simp only [Cx.abs, mul, conj, mk.injEq]
    refine ⟨by linear_combination h, by ring⟩
  · have h : (a.mul b).abs.re = a.abs.re * b.abs.re := by rw [abs_re, abs_re, abs_re, toC_mul, norm_mul]
    simp only [Cx.abs, mul] at h ⊢
    simp only [mk.injEq]
    exact ⟨by rw [h]; ring, by ring⟩
  · rw [abs_re, abs_re, abs_re, toC_add]; exact norm_add_le _ _

example : (⟨3, -4⟩ : Cx ℝ).abs = ⟨5, 0⟩ := by
  simp only [Cx.abs, mk.injEq, and_true]
  rw [show (3 * 3 + -4 * -4 : ℝ) = 5 ^ 2 by norm_num, Real.sqrt_sq (by norm_num)]

/-! ### C34 -/

/-- `exp` is the complex exponential -/
theorem C34_exp (a b : Cx ℝ) :
    a.exp.toC = Complex.exp a.toC ∧ (a.add b).exp = a.exp.mul b.exp ∧ (zero : Cx ℝ).exp = one := by
  refine ⟨toC_exp a, toC_inj ?_, toC_inj ?_⟩
  · rw [toC_exp, toC_add, Complex.exp_add, toC_mul, toC_exp, toC_exp]
  · rw [toC_exp, toC_zero, Complex.exp_zero, toC_one]

example : (⟨0, Real.pi⟩ : Cx ℝ).exp = ⟨-1, 0⟩ := by simp [exp]

/-- `arg` is the principal argument -/
theorem C34_arg (a : Cx ℝ) :
    a.arg.im = 0 ∧ a.arg.re = a.toC.arg ∧ -Real.pi < a.arg.re ∧ a.arg.re ≤ Real.pi := by
  refine ⟨rfl, arg_re a, ?_, ?_⟩ <;> rw [arg_re]
  · exact Complex.neg_pi_lt_arg _
  · exact Complex.arg_le_pi _

/-- `ln` is the principal logarithm, and the exponential inverts it; it has no value at zero -/
theorem C34_ln (a : Cx ℝ) :
    (a.toC ≠ 0 → ∃ l, a.ln = some l ∧ l.toC = Complex.log a.toC ∧ l.exp = a ∧
      -Real.pi < l.im ∧ l.im ≤ Real.pi) ∧ (a.toC = 0 → a.ln = none) := by
  refine ⟨fun h => ⟨_, ln_some h, toC_ofC _, toC_inj ?_, ?_, ?_⟩, ln_none⟩
  · rw [toC_exp, toC_ofC, Complex.exp_log h]
  · exact Complex.neg_pi_lt_log_im _
  · exact Complex.log_im_le_pi _

example : (⟨-1, 0⟩ : Cx ℝ).ln = some ⟨0, Real.pi⟩ := by
  have : toC ⟨-1, 0⟩ = -1 := by apply Complex.ext <;> simp [toC]
  rw [ln_some (by rw [this]; simp), this, Complex.log_neg_one]
  simp [ofC]

/-- `pow(z, w) = exp(w ln z)` for every nonzero base. Missing from C34: the base zero, see `C34_pow_violated`. -/
theorem C34_pow_partial (a e : Cx ℝ) (h : a.toC ≠ 0) :
    ∃ p l, a.pow e = some p ∧ a.ln = some l ∧ p = (e.mul l).exp ∧ p.toC = a.toC ^ e.toC := by
  refine ⟨_, _, pow_some h, ln_some h, toC_inj ?_, toC_ofC _⟩
  rw [toC_ofC, toC_exp, toC_mul, toC_ofC, Complex.cpow_def_of_ne_zero h, mul_comm]

example : (⟨0, 1⟩ : Cx ℝ).pow ⟨2, 0⟩ = some ⟨-1, 0⟩ := by
  have h : toC ⟨0, 1⟩ = Complex.I := by apply Complex.ext <;> simp [toC]
  have h2 : toC ⟨2, 0⟩ = ((2 : ℕ) : ℂ) := by apply Complex.ext <;> simp [toC]
  rw [pow_some (by rw [h]; exact Complex.I_ne_zero), h, h2, Complex.cpow_natCast, Complex.I_sq]
  simp [ofC]

/-- every power of zero is a NaN in the code, also `0 ^ 1` -/
theorem C34_pow_violated : (zero : Cx ℝ).pow one = none ∧ (zero : Cx ℝ).toC ^ (one : Cx ℝ).toC = 0 :=
  ⟨pow_none rfl, by rw [toC_zero, toC_one]; simp⟩

/-! ### C35 -/

/-- `sin` and `cos` always have a value, that of the complex functions -/
theorem C35_sin_cos (z : Cx ℝ) :
    ∃ s c, z.sin = some s ∧ z.cos = some c ∧ s.toC = Complex.sin z.toC ∧ c.toC = Complex.cos z.toC ∧
      (s.mul s).add (c.mul c) = one := by
  refine ⟨_, _, sin_some z, cos_some z, toC_ofC _, toC_ofC _, toC_inj ?_⟩
  rw [toC_add, toC_mul, toC_mul, toC_ofC, toC_ofC, toC_one]
  linear_combination Complex.sin_sq_add_cos_sq z.toC

/-- on real arguments they are the real functions -/
theorem C35_real (x : ℝ) :
    (⟨x, 0⟩ : Cx ℝ).sin = some ⟨Real.sin x, 0⟩ ∧ (⟨x, 0⟩ : Cx ℝ).cos = some ⟨Real.cos x, 0⟩ := by
  have h : toC ⟨x, 0⟩ = (x : ℂ) := rfl
  rw [sin_some, cos_some, h, ← Complex.ofReal_sin, ← Complex.ofReal_cos]
  exact ⟨rfl, rfl⟩

example : (⟨Real.pi, 0⟩ : Cx ℝ).cos = some ⟨-1, 0⟩ := by rw [(C35_real _).2]; simp

/-- `tan = sin / cos`, panicking exactly at the zeros of the cosine -/
theorem C35_tan (z : Cx ℝ) :
    (Complex.cos z.toC ≠ 0 → ∃ t, z.tan = some t ∧ t.toC = Complex.tan z.toC) ∧
    (Complex.cos z.toC = 0 → z.tan = none) := by
  unfold tan
  rw [sin_some, cos_some]
  simp only [Option.bind_eq_bind, Option.bind_some]
  refine ⟨fun h => ⟨_, div_some h, rfl⟩, fun h => div_none h⟩

/-- `sec = 1 / cos` -/
theorem C35_sec (z : Cx ℝ) :
    (Complex.cos z.toC ≠ 0 → ∃ t, z.sec = some t ∧ t.toC = 1 / Complex.cos z.toC) ∧
    (Complex.cos z.toC = 0 → z.sec = none) := by
  unfold sec
  rw [cos_some]
  simp only [Option.bind_eq_bind, Option.bind_some]
  refine ⟨fun h => ⟨_, div_some h, rfl⟩, fun h => div_none h⟩

/-- `csc = 1 / sin` -/
theorem C35_csc (z : Cx ℝ) :
    (Complex.sin z.toC ≠ 0 → ∃ t, z.csc = some t ∧ t.toC = 1 / Complex.sin z.toC) ∧
    (Complex.sin z.toC = 0 → z.csc = none) := by
  unfold csc
  rw [sin_some]
  simp only [Option.bind_eq_bind, Option.bind_some]
  refine ⟨fun h => ⟨_, div_some h, rfl⟩, fun h => div_none h⟩

/-- `cot = cos / sin`; it panics at the zeros of the sine, and (as documented) at those of the cosine -/
theorem C35_cot (z : Cx ℝ) :
    (Complex.sin z.toC ≠ 0 → Complex.cos z.toC ≠ 0 →
      ∃ t, z.cot = some t ∧ t.toC = Complex.cos z.toC / Complex.sin z.toC) ∧
    (Complex.sin z.toC = 0 ∨ Complex.cos z.toC = 0 → z.cot = none) := by
  constructor
  · intro hs hc
    obtain ⟨t, h1, h2⟩ := (C35_tan z).1 hc
    have ht : t.toC ≠ 0 := by rw [h2, Complex.tan]; exact div_ne_zero hs hc
    refine ⟨_, by unfold cot; rw [h1]; exact div_some ht, ?_⟩
    rw [toC_ofC, h2, toC_one, Complex.tan]
    field_simp
  · rintro h
    by_cases hc : Complex.cos z.toC = 0
    · unfold cot; rw [(C35_tan z).2 hc]; rfl
    · have hs : Complex.sin z.toC = 0 := h.resolve_right hc
      obtain ⟨t, h1, h2⟩ := (C35_tan z).1 hc
      unfold cot; rw [h1]
      exact div_none (by rw [h2, Complex.tan, hs, zero_div])

example : (⟨0, 0⟩ : Cx ℝ).csc = none := (C35_csc _).2 (by
  rw [show toC ⟨0, 0⟩ = 0 from rfl, Complex.sin_zero])

/-! ### C36 -/

/-- `sinh` and `cosh` -/
theorem C36_sinh_cosh (z : Cx ℝ) :
    ∃ s c, z.sinh = some s ∧ z.cosh = some c ∧ s.toC = Complex.sinh z.toC ∧ c.toC = Complex.cosh z.toC ∧
      (c.mul c).sub (s.mul s) = one := by
  refine ⟨_, _, sinh_some z, cosh_some z, toC_ofC _, toC_ofC _, toC_inj ?_⟩
  rw [toC_sub, toC_mul, toC_mul, toC_ofC, toC_ofC, toC_one]
  linear_combination Complex.cosh_sq_sub_sinh_sq z.toC

/-- `tanh`, `coth` and `sech` -/
theorem C36_tanh_coth_sech (z : Cx ℝ) :
    (Complex.cosh z.toC ≠ 0 → ∃ t, z.tanh = some t ∧ t.toC = Complex.sinh z.toC / Complex.cosh z.toC) ∧
    (Complex.cosh z.toC = 0 → z.tanh = none) ∧
    (Complex.sinh z.toC ≠ 0 → ∃ t, z.coth = some t ∧ t.toC = Complex.cosh z.toC / Complex.sinh z.toC) ∧
    (Complex.sinh z.toC = 0 → z.coth = none) ∧
    (Complex.cosh z.toC ≠ 0 → ∃ t, z.sech = some t ∧ t.toC = 1 / Complex.cosh z.toC) ∧
    (Complex.cosh z.toC = 0 → z.sech = none) := by
  have e1 : z.tanh = (ofC (Complex.sinh z.toC)).div (ofC (Complex.cosh z.toC)) := by
    unfold tanh; rw [sinh_some, cosh_some]; rfl
  have e2 : z.coth = (ofC (Complex.cosh z.toC)).div (ofC (Complex.sinh z.toC)) := by
    unfold coth; rw [sinh_some, cosh_some]; rfl
  have e3 := C35_sec ⟨-z.im, z.re⟩
  rw [mulI_eq, Complex.cos_mul_I] at e3
  rw [e1, e2]
  exact ⟨fun h => ⟨_, div_some h, rfl⟩, fun h => div_none h, fun h => ⟨_, div_some h, rfl⟩, fun h => div_none h,
    e3.1, e3.2⟩

/-- `csch` has the wrong sign at every point of its domain -/
theorem C36_csch_violated (z : Cx ℝ) (h : Complex.sinh z.toC ≠ 0) :
    ∃ t, z.csch = some t ∧ t.toC = -(1 / Complex.sinh z.toC) ∧ t.toC ≠ 1 / Complex.sinh z.toC := by
  have hs : Complex.sin (toC ⟨-z.im, z.re⟩) = Complex.sinh z.toC * Complex.I := by
    rw [mulI_eq, Complex.sin_mul_I]
  obtain ⟨c, h1, h2⟩ := (C35_csc ⟨-z.im, z.re⟩).1 (by rw [hs]; exact mul_ne_zero h Complex.I_ne_zero)
  have hv : (mul ⟨0, -1⟩ c).toC = -(1 / Complex.sinh z.toC) := by
    rw [toC_mul, h2, hs, negI_eq]
    have := Complex.I_ne_zero
    field_simp
  refine ⟨_, by unfold csch; rw [h1]; rfl, hv, ?_⟩
  rw [hv]
  intro h3
  have h4 : 1 / Complex.sinh z.toC ≠ 0 := one_div_ne_zero h
  have h5 : (2 : ℂ) * (1 / Complex.sinh z.toC) = 0 := by linear_combination -h3
  rcases mul_eq_zero.mp h5 with h6 | h6
  · norm_num at h6
  · exact h4 h6

example : ∃ t, (⟨1, 0⟩ : Cx ℝ).csch = some t ∧ t.toC = -(1 / Complex.sinh (1 : ℝ)) := by
  have h : Complex.sinh (toC ⟨1, 0⟩) ≠ 0 := by
    rw [show toC ⟨1, 0⟩ = ((1 : ℝ) : ℂ) from rfl, ← Complex.ofReal_sinh]
    exact Complex.ofReal_ne_zero.mpr (Real.sinh_pos_iff.mpr one_pos).ne'
  obtain ⟨t, h1, h2, _⟩ := C36_csch_violated _ h
  exact ⟨t, h1, h2⟩

end Verif
