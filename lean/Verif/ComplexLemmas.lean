import Verif.ComplexModel
import Mathlib.Analysis.SpecialFunctions.Complex.Log
import Mathlib.Analysis.SpecialFunctions.Pow.Complex
import Mathlib.Analysis.SpecialFunctions.Trigonometric.Complex
import Mathlib.Analysis.SpecialFunctions.Complex.LogDeriv
import Mathlib.Tactic.Ring
import Mathlib.Tactic.LinearCombination
import Mathlib.Tactic.FieldSimp
import Mathlib.Tactic.Linarith

/-!
# The complex model and Mathlib's `ℂ`
-/

namespace Verif
namespace Cx

/-- the complex number represented -/
def toC (a : Cx ℝ) : ℂ := ⟨a.re, a.im⟩

theorem toC_inj {a b : Cx ℝ} (h : a.toC = b.toC) : a = b := by
  cases a; cases b
  simp only [toC, Complex.mk.injEq] at h
  simp [h.1, h.2]

/-- the model value of a complex number -/
def ofC (z : ℂ) : Cx ℝ := ⟨z.re, z.im⟩

@[simp] theorem toC_ofC (z : ℂ) : (ofC z).toC = z := rfl

theorem toC_zero : (zero : Cx ℝ).toC = 0 := rfl
theorem toC_one : (one : Cx ℝ).toC = 1 := rfl
theorem toC_neg (a : Cx ℝ) : a.neg.toC = -a.toC := rfl
theorem toC_conj (a : Cx ℝ) : a.conj.toC = (starRingEnd ℂ) a.toC := by
  apply Complex.ext <;> simp [toC, conj]
theorem toC_add (a b : Cx ℝ) : (a.add b).toC = a.toC + b.toC := rfl
theorem toC_sub (a b : Cx ℝ) : (a.sub b).toC = a.toC - b.toC := rfl
theorem toC_mul (a b : Cx ℝ) : (a.mul b).toC = a.toC * b.toC := by
  apply Complex.ext <;> simp [toC, mul] <;> ring
theorem toC_operate (a b : Cx ℝ) : (a.operate b).toC = a.toC * b.toC := by
  apply Complex.ext <;> simp [toC, operate]

theorem divisor_eq (b : Cx ℝ) : b.re * b.re + b.im * b.im = Complex.normSq b.toC := by
  simp [toC, Complex.normSq_apply]

theorem toC_eq_zero {b : Cx ℝ} : b.toC = 0 ↔ b.re * b.re + b.im * b.im = 0 := by
  rw [divisor_eq, Complex.normSq_eq_zero]

theorem div_some {a b : Cx ℝ} (h : b.toC ≠ 0) : a.div b = some (ofC (a.toC / b.toC)) := by
  have h' : ¬ b.re * b.re + b.im * b.im = 0 := fun e => h (toC_eq_zero.mpr e)
  unfold div
  simp only [if_neg h', Option.some.injEq]
  apply toC_inj
  rw [toC_ofC]
  apply Complex.ext
  · simp only [toC, mul, Complex.div_re, Complex.normSq_apply]
    field_simp; ring
  · simp only [toC, mul, Complex.div_im, Complex.normSq_apply]
    field_simp; ring

theorem div_none {a b : Cx ℝ} (h : b.toC = 0) : a.div b = none := by
  unfold div
  simp only [toC_eq_zero.mp h, if_true]

theorem abs_re (a : Cx ℝ) : a.abs.re = ‖a.toC‖ := by
  simp only [abs]
  rw [divisor_eq, ← Complex.norm_def]

theorem arctan2_eq_arg (z : ℂ) : R.arctan2 z.im z.re = z.arg := by
  have hn : ‖z‖ = Real.sqrt (z.re ^ 2 + z.im ^ 2) := by
    rw [Complex.norm_def, Complex.normSq_apply]; congr 1; ring
  have key : z.re ≠ 0 → Real.arctan (z.im / z.re) = Real.arcsin (z.im / z.re / (‖z‖ / |z.re|)) := by
    intro h
    rw [Real.arctan_eq_arcsin]
    congr 2
    rw [hn, ← Real.sqrt_sq_eq_abs, ← Real.sqrt_div (by positivity)]
    congr 1
    field_simp
    
  unfold R.arctan2
  by_cases h1 : z.re > 0
  · rw [if_pos h1, key h1.ne', Complex.arg_of_re_nonneg h1.le]
    congr 1
    rw [abs_of_pos h1]
    field_simp
  · rw [if_neg h1]
    by_cases h2 : z.re < 0
    · have e : Real.arcsin (z.im / z.re / (‖z‖ / |z.re|)) = Real.arcsin ((-z).im / ‖z‖) := by
        congr 1
        rw [abs_of_neg h2]
        have : z.re ≠ 0 := h2.ne
        simp
        field_simp
      rw [if_pos h2]
      by_cases h3 : z.im ≥ 0
      · rw [if_pos h3, key h2.ne, e, Complex.arg_of_re_neg_of_im_nonneg h2 h3]
      · rw [if_neg h3, key h2.ne, e, Complex.arg_of_re_neg_of_im_neg h2 (not_le.mp h3)]
    · have h0 : z.re = 0 := le_antisymm (not_lt.mp h1) (not_lt.mp h2)
      rw [if_neg h2, Complex.arg_of_re_nonneg h0.ge]
      have hn' : ‖z‖ = |z.im| := by
        rw [hn, h0, ← Real.sqrt_sq_eq_abs]; congr 1; ring
      rw [hn']
      by_cases h3 : z.im > 0
      · rw [if_pos h3, abs_of_pos h3, div_self h3.ne', Real.arcsin_one]
      · rw [if_neg h3]
        by_cases h4 : z.im < 0
        · rw [if_pos h4, abs_of_neg h4, div_neg, div_self h4.ne, Real.arcsin_neg_one]
        · rw [if_neg h4]
          have : z.im = 0 := le_antisymm (not_lt.mp h3) (not_lt.mp h4)
          rw [this]; simp

theorem arg_re (a : Cx ℝ) : a.arg.re = a.toC.arg := arctan2_eq_arg a.toC

theorem toC_exp (a : Cx ℝ) : a.exp.toC = Complex.exp a.toC := by
  apply Complex.ext
  · simp [toC, exp, Complex.exp_re]
  · simp [toC, exp, Complex.exp_im]

theorem ln_some {a : Cx ℝ} (h : a.toC ≠ 0) : a.ln = some (ofC (Complex.log a.toC)) := by
  unfold ln R.ln
  rw [abs_re, arg_re, if_neg (not_le.mpr (norm_pos_iff.mpr h))]
  simp [ofC, Complex.log_re, Complex.log_im]

theorem ln_none {a : Cx ℝ} (h : a.toC = 0) : a.ln = none := by
  unfold ln R.ln
  rw [abs_re, h]
  simp

theorem pow_some {a e : Cx ℝ} (h : a.toC ≠ 0) : a.pow e = some (ofC (a.toC ^ e.toC)) := by
  have hr : 0 < ‖a.toC‖ := norm_pos_iff.mpr h
  unfold pow R.ln
  rw [abs_re, arg_re]
  simp only [if_neg (not_le.mpr hr), Option.bind_eq_bind, Option.bind_some, Option.some.injEq]
  apply toC_inj
  rw [toC_ofC, Complex.cpow_def_of_ne_zero h]
  have hre : (Complex.log a.toC * e.toC).re = Real.log ‖a.toC‖ * e.re - a.toC.arg * e.im := by
    rw [Complex.mul_re, Complex.log_re, Complex.log_im]; rfl
  have him : (Complex.log a.toC * e.toC).im = Real.log ‖a.toC‖ * e.im + e.re * a.toC.arg := by
    rw [Complex.mul_im, Complex.log_re, Complex.log_im]; simp only [toC]; ring
  have hk : ‖a.toC‖ ^ e.re * Real.exp (-e.im * a.toC.arg) = Real.exp (Complex.log a.toC * e.toC).re := by
    rw [Real.rpow_def_of_pos hr, ← Real.exp_add, hre]; congr 1; ring
  apply Complex.ext
  · rw [Complex.exp_re, ← hk, him]; rfl
  · rw [Complex.exp_im, ← hk, him]; rfl

theorem pow_none {a e : Cx ℝ} (h : a.toC = 0) : a.pow e = none := by
  unfold pow R.ln
  rw [abs_re, h]
  simp

theorem mulI_eq (z : Cx ℝ) : toC ⟨-z.im, z.re⟩ = z.toC * Complex.I := by
  apply Complex.ext <;> simp [toC]
theorem mulNegI_eq (z : Cx ℝ) : toC ⟨z.im, -z.re⟩ = -z.toC * Complex.I := by
  apply Complex.ext <;> simp [toC]
theorem negI_eq : toC ⟨0, -1⟩ = -Complex.I := by
  apply Complex.ext <;> simp [toC]
theorem half_eq : toC ⟨1 / (1 + 1), 0⟩ = 1 / 2 := by
  apply Complex.ext <;> simp [toC] <;> norm_num

theorem sin_some (z : Cx ℝ) : z.sin = some (ofC (Complex.sin z.toC)) := by
  unfold sin
  have e : toC ⟨0, 1 + 1⟩ = 2 * Complex.I := by
    apply Complex.ext <;> simp [toC]; norm_num
  rw [div_some (by rw [e]; simp), e]
  congr 2
  rw [toC_sub, toC_exp, toC_exp, mulI_eq, mulNegI_eq, Complex.sin]
  field_simp
  rw [Complex.I_sq]
  ring

theorem cos_some (z : Cx ℝ) : z.cos = some (ofC (Complex.cos z.toC)) := by
  unfold cos
  have e : toC ⟨1 + 1, 0⟩ = 2 := by
    apply Complex.ext <;> simp [toC]; norm_num
  rw [div_some (by rw [e]; simp), e]
  congr 2
  rw [toC_add, toC_exp, toC_exp, mulI_eq, mulNegI_eq, Complex.cos]

theorem sinh_some (z : Cx ℝ) : z.sinh = some (ofC (Complex.sinh z.toC)) := by
  unfold sinh
  rw [sin_some]
  simp only [Option.bind_eq_bind, Option.bind_some, Option.some.injEq]
  apply toC_inj
  rw [toC_mul, toC_ofC, toC_ofC, negI_eq, mulI_eq, Complex.sin_mul_I]
  linear_combination -Complex.sinh z.toC * Complex.I_sq

theorem cosh_some (z : Cx ℝ) : z.cosh = some (ofC (Complex.cosh z.toC)) := by
  unfold cosh
  rw [cos_some, mulI_eq, Complex.cos_mul_I]

end Cx
end Verif
