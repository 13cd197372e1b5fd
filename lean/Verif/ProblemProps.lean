import Verif.ProblemModel
import Verif.ColLemmas
import Mathlib.Analysis.Calculus.FDeriv.Pi
import Mathlib.Analysis.Calculus.FDeriv.Mul
import Mathlib.Analysis.Calculus.Deriv.Mul
import Mathlib.Analysis.Calculus.Deriv.Pow
import Mathlib.Analysis.Calculus.Deriv.Add

/-!
# C84: the example problems
-/

namespace Verif
namespace Ode
open Mat

theorem col_vget {n : ℕ} (x : Fin n → ℝ) (i : ℕ) (hi : i < n) : (col x).vget i = some (x ⟨i, hi⟩) := by
  rw [(col_is x).vget_col hi, extV_lt x hi]

/-- the vector field of the rigid body with an external force -/
noncomputable def eulerField (e : Euler) (t : ℝ) (y : Fin 3 → ℝ) : Fin 3 → ℝ :=
  ![(e.i2 - e.i3) / e.i1 * (y 1 * y 2), (e.i3 - e.i1) / e.i2 * (y 2 * y 0), (e.i1 - e.i2) / e.i3 * (y 0 * y 1) + eulerForce t]

theorem col3 (a b c : ℝ) : (⟨3, 1, [a, b, c]⟩ : Mat ℝ) = col ![a, b, c] := by
  simp [col, Fin.val_zero, List.ofFn_succ]

theorem col2 (a b : ℝ) : (⟨2, 1, [a, b]⟩ : Mat ℝ) = col ![a, b] := by
  simp [col, List.ofFn_succ]

/-- Both forms of the problem are the documented system. -/
theorem C84_euler_func (e : Euler) (h1 : e.i1 ≠ 0) (h2 : e.i2 ≠ 0) (h3 : e.i3 ≠ 0) (t : ℝ) (y : Fin 3 → ℝ) :
    e.func t (col y) = some (col (eulerField e t y)) ∧ e.funcI t (col y) = some (col (eulerField e t y)) := by
  have g0 := col_vget y 0 (by omega)
  have g1 := col_vget y 1 (by omega)
  have g2 := col_vget y 2 (by omega)
  constructor
  · simp only [Euler.func, R.div, h1, h2, h3, if_false, g0, g1, g2, Option.bind_eq_bind, Option.bind_some, col3]
    rfl
  · simp only [Euler.funcI, R.div, h1, h2, h3, if_false, g0, g1, g2, Option.bind_eq_bind, Option.bind_some, col3]
    rfl

/-- The Jacobian is the derivative of the right-hand side: entry `(i, j)` is the partial derivative of component `i` in the
direction of `y j`. -/
theorem C84_euler_jacobian (e : Euler) (h1 : e.i1 ≠ 0) (h2 : e.i2 ≠ 0) (h3 : e.i3 ≠ 0) (t : ℝ) (y : Fin 3 → ℝ) :
    ∃ J, e.jacobian t (col y) = some J ∧ ∃ M : Matrix (Fin 3) (Fin 3) ℝ, Repr J M ∧
      ∀ i j, HasDerivAt (fun s => eulerField e t (Function.update y j s) i) (M i j) (y j) := by
  have g0 := col_vget y 0 (by omega)
  have g1 := col_vget y 1 (by omega)
  have g2 := col_vget y 2 (by omega)
  have hJ : e.jacobian t (col y) = some ⟨3, 3, [0, (e.i3 - e.i1) / e.i2 * y 2, (e.i1 - e.i2) / e.i3 * y 1,
      (e.i2 - e.i3) / e.i1 * y 2, 0, (e.i1 - e.i2) / e.i3 * y 0, (e.i2 - e.i3) / e.i1 * y 1, (e.i3 - e.i1) / e.i2 * y 0, 0]⟩ := by
    simp only [Euler.jacobian, R.div, h1, h2, h3, if_false, g0, g1, g2, Option.bind_eq_bind, Option.bind_some]
    rfl
  refine ⟨_, hJ,
    !![0, (e.i2 - e.i3) / e.i1 * y 2, (e.i2 - e.i3) / e.i1 * y 1; (e.i3 - e.i1) / e.i2 * y 2, 0, (e.i3 - e.i1) / e.i2 * y 0;
      (e.i1 - e.i2) / e.i3 * y 1, (e.i1 - e.i2) / e.i3 * y 0, 0], ⟨rfl, rfl, rfl, ?_⟩, ?_⟩
  · intro i j
    fin_cases i <;> fin_cases j <;> rfl
  · intro i j
    have hid : ∀ a : ℝ, HasDerivAt (fun s : ℝ => s) 1 a := fun a => hasDerivAt_id _
    fin_cases i <;> fin_cases j <;> simp [eulerField, Function.update, hasDerivAt_const]
    · simpa using ((hid (y 1)).mul_const (y 2)).const_mul ((e.i2 - e.i3) / e.i1)
    · simpa using ((hid (y 2)).const_mul (y 1)).const_mul ((e.i2 - e.i3) / e.i1)
    · simpa using ((hid (y 0)).const_mul (y 2)).const_mul ((e.i3 - e.i1) / e.i2)
    · simpa using ((hid (y 2)).mul_const (y 0)).const_mul ((e.i3 - e.i1) / e.i2)
    · simpa using ((hid (y 0)).mul_const (y 1)).const_mul ((e.i1 - e.i2) / e.i3)
    · simpa using ((hid (y 1)).const_mul (y 0)).const_mul ((e.i1 - e.i2) / e.i3)

/-- Without the force the field keeps the energy `Σ Iᵢ yᵢ²` and the angular momentum `Σ Iᵢ² yᵢ²`: their derivatives along the
field vanish; with the force only the third component contributes. -/
theorem C84_euler_conserved (e : Euler) (h1 : e.i1 ≠ 0) (h2 : e.i2 ≠ 0) (h3 : e.i3 ≠ 0) (t : ℝ) (y : Fin 3 → ℝ) :
    e.i1 * y 0 * eulerField e t y 0 + e.i2 * y 1 * eulerField e t y 1 + e.i3 * y 2 * eulerField e t y 2 =
      e.i3 * y 2 * eulerForce t ∧
    e.i1 ^ 2 * y 0 * eulerField e t y 0 + e.i2 ^ 2 * y 1 * eulerField e t y 1 + e.i3 ^ 2 * y 2 * eulerField e t y 2 =
      e.i3 ^ 2 * y 2 * eulerForce t := by
  simp only [eulerField, Matrix.cons_val_zero, Matrix.cons_val_one, Matrix.cons_val]
  constructor <;> field_simp <;> ring

/-- The force is `sin² t / 4` on `[3π, 4π]` and continuous there: it vanishes at both ends and outside. -/
theorem C84_force : Continuous eulerForce ∧ (∀ t, 3 * Real.pi ≤ t → t ≤ 4 * Real.pi → eulerForce t = Real.sin t ^ 2 / 4) ∧
    ∀ t, (t < 3 * Real.pi ∨ 4 * Real.pi < t) → eulerForce t = 0 := by
  have hin : ∀ t, 3 * Real.pi ≤ t → t ≤ 4 * Real.pi → eulerForce t = Real.sin t ^ 2 / 4 := by
    intro t a b
    unfold eulerForce
    norm_num
    rw [if_pos ⟨a, b⟩]
    ring
  have hout : ∀ t, (t < 3 * Real.pi ∨ 4 * Real.pi < t) → eulerForce t = 0 := by
    intro t h
    unfold eulerForce
    norm_num
    intro a b
    rcases h with h | h <;> linarith
  refine ⟨?_, hin, hout⟩
  have e : eulerForce = fun t => Real.sin (max (3 * Real.pi) (min (4 * Real.pi) t)) ^ 2 / 4 := by
    have hp := Real.pi_pos
    have s3 : Real.sin (3 * Real.pi) = 0 := by
      have := Real.sin_nat_mul_pi 3
      exact_mod_cast this
    have s4 : Real.sin (4 * Real.pi) = 0 := by
      have := Real.sin_nat_mul_pi 4
      exact_mod_cast this
    funext t
    rcases lt_or_ge t (3 * Real.pi) with h | h
    · rw [hout t (Or.inl h), min_eq_right (by linarith), max_eq_left h.le, s3]; simp
    rcases lt_or_ge (4 * Real.pi) t with h' | h'
    · rw [hout t (Or.inr h'), min_eq_left h'.le, max_eq_right (by linarith), s4]; simp
    · rw [hin t h h', min_eq_right h', max_eq_right h]
  rw [e]
  fun_prop

/-- the Van der Pol oscillator `x'' = ε (1 - x²) x' - x` as a first-order system -/
noncomputable def vdpField (eps : ℝ) (x : Fin 2 → ℝ) : Fin 2 → ℝ := ![x 1, eps * (1 - x 0 ^ 2) * x 1 - x 0]

/-- `func` is the Van der Pol oscillator and `jacobian` its derivative. -/
theorem C84_vdp (eps t : ℝ) (x : Fin 2 → ℝ) : vdpFunc eps t (col x) = some (col (vdpField eps x)) ∧
    ∃ J, vdpJacobian eps t (col x) = some J ∧ ∃ M : Matrix (Fin 2) (Fin 2) ℝ, Repr J M ∧
      ∀ i j, HasDerivAt (fun s => vdpField eps (Function.update x j s) i) (M i j) (x j) := by
  have g0 := col_vget x 0 (by omega)
  have g1 := col_vget x 1 (by omega)
  constructor
  · simp only [vdpFunc, g0, g1, Option.bind_eq_bind, Option.bind_some, col2]
    congr 2
    funext i
    fin_cases i
    · rfl
    · simp [vdpField, sq]
  have hJ : vdpJacobian eps t (col x) = some ⟨2, 2, [0, -2.0 * eps * x 0 * x 1 - 1, 1, (1 - x 0 * x 0) * eps]⟩ := by
    simp only [vdpJacobian, g0, g1, Option.bind_eq_bind, Option.bind_some]
    rfl
  refine ⟨_, hJ, !![0, 1; -2.0 * eps * x 0 * x 1 - 1, (1 - x 0 * x 0) * eps], ⟨rfl, rfl, rfl, ?_⟩, ?_⟩
  · intro i j
    fin_cases i <;> fin_cases j <;> rfl
  · intro i j
    have hid : ∀ a : ℝ, HasDerivAt (fun s : ℝ => s) 1 a := fun a => hasDerivAt_id _
    fin_cases i <;> fin_cases j <;> simp [vdpField, Function.update, hasDerivAt_const]
    · exact hid _
    · have h := (((((hid (x 0)).pow 2).const_sub 1).const_mul eps).mul_const (x 1)).sub (hid (x 0))
      refine h.congr_deriv ?_
      simp only [Nat.cast_ofNat, Nat.add_one_sub_one, pow_one]
      norm_num1
      ring
    · have h := (hid (x 1)).const_mul (eps * (1 - x 0 ^ 2))
      refine h.congr_deriv ?_
      ring

/-- The documentation of the oscillator has `x₂' = ε((1 - x₁²) x₂ - x₁)`, a different system: at its own initial condition
`(1, 0)` with `ε = 1/10` that is `-1/10`, the code has `-1`. -/
theorem C84_vdp_doc_violated : vdpFunc (1/10) 0 (col ![1, 0]) = some (col ![0, -1]) ∧
    (1/10 : ℝ) * ((1 - 1 ^ 2) * 0 - 1) = -1/10 := by
  refine ⟨?_, by norm_num⟩
  rw [(C84_vdp _ _ _).1]
  congr 2
  funext i
  fin_cases i <;> simp [vdpField]

example : Euler.default.func 0 Euler.initCond = some ⟨3, 1, [0, (2.5 / 2) * (0.9 * 1), 0]⟩ := by
  have h := (C84_euler_func Euler.default (by norm_num [Euler.default]) (by norm_num [Euler.default])
    (by norm_num [Euler.default]) 0 ![1, 0, 0.9]).1
  rw [← col3, col3] at h
  have e : Euler.initCond = col ![1, 0, 0.9] := by rw [← col3]; norm_num [Euler.initCond]
  rw [e, h, col3]
  have f0 : eulerForce 0 = 0 := C84_force.2.2 0 (Or.inl (by positivity))
  congr 2
  funext i
  fin_cases i <;> simp [eulerField, Euler.default, f0] <;> norm_num

end Ode
end Verif
