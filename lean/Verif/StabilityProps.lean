import Verif.ConvProps
import Verif.ImplicitConv
import Mathlib.Tactic.Module

/-!
# C105: stability of the solvers on linear and dissipative equations
-/

namespace Verif
namespace Ode
open Finset RK

/-! ### Linear equations -/

section Linear
variable {n : ℕ} (L : (Fin n → ℝ) →ₗ[ℝ] (Fin n → ℝ)) (A : ℕ → ℕ → ℝ) (b c : ℕ → ℝ) (t : ℝ) (x : Fin n → ℝ) (h : ℝ)

theorem stage0 : rkStage A c (fun _ x => L x) t x h 0 = L x := by
  rw [rkStage_eq]; simp

theorem stage1 : rkStage A c (fun _ x => L x) t x h 1 = L x + (h * A 1 0) • L (L x) := by
  rw [rkStage_eq]
  simp only [sum_range_succ, sum_range_zero, zero_add, stage0, map_add, map_smul, smul_smul]

theorem stage2 : rkStage A c (fun _ x => L x) t x h 2 =
    L x + (h * (A 2 0 + A 2 1)) • L (L x) + (h ^ 2 * (A 2 1 * A 1 0)) • L (L (L x)) := by
  rw [rkStage_eq]
  simp only [sum_range_succ, sum_range_zero, zero_add, stage0, stage1, map_add, map_smul]
  module

theorem stage3 : rkStage A c (fun _ x => L x) t x h 3 =
    L x + (h * (A 3 0 + A 3 1 + A 3 2)) • L (L x) + (h ^ 2 * (A 3 1 * A 1 0 + A 3 2 * (A 2 0 + A 2 1))) • L (L (L x)) +
      (h ^ 3 * (A 3 2 * A 2 1 * A 1 0)) • L (L (L (L x))) := by
  rw [rkStage_eq]
  simp only [sum_range_succ, sum_range_zero, zero_add, stage0, stage1, stage2, map_add, map_smul]
  module

theorem step1 : rkStep 1 A b c (fun _ x => L x) t x h = x + (h * b 0) • L x := by
  simp only [rkStep, sum_range_succ, sum_range_zero, zero_add, stage0, smul_smul]

theorem step2 : rkStep 2 A b c (fun _ x => L x) t x h =
    x + (h * (b 0 + b 1)) • L x + (h ^ 2 * (b 1 * A 1 0)) • L (L x) := by
  simp only [rkStep, sum_range_succ, sum_range_zero, zero_add, stage0, stage1]
  module

theorem step3 : rkStep 3 A b c (fun _ x => L x) t x h =
    x + (h * (b 0 + b 1 + b 2)) • L x + (h ^ 2 * (b 1 * A 1 0 + b 2 * (A 2 0 + A 2 1))) • L (L x) +
      (h ^ 3 * (b 2 * (A 2 1 * A 1 0))) • L (L (L x)) := by
  simp only [rkStep, sum_range_succ, sum_range_zero, zero_add, stage0, stage1, stage2]
  module

theorem step4 : rkStep 4 A b c (fun _ x => L x) t x h =
    x + (h * (b 0 + b 1 + b 2 + b 3)) • L x +
      (h ^ 2 * (b 1 * A 1 0 + b 2 * (A 2 0 + A 2 1) + b 3 * (A 3 0 + A 3 1 + A 3 2))) • L (L x) +
      (h ^ 3 * (b 2 * (A 2 1 * A 1 0) + b 3 * (A 3 1 * A 1 0 + A 3 2 * (A 2 0 + A 2 1)))) • L (L (L x)) +
      (h ^ 4 * (b 3 * (A 3 2 * A 2 1 * A 1 0))) • L (L (L (L x))) := by
  simp only [rkStep, sum_range_succ, sum_range_zero, zero_add, stage0, stage1, stage2, stage3]
  module

end Linear


theorem fixed_shape (M : FixedMethod) (s : ℝ) : Shape (M.tableau s).a (M.tableau s).b (M.tableau s).c := by
  cases M <;> simp [Shape, FixedMethod.tableau, explicitEuler, heun2, heun3, kutta3, kutta38, midpoint, ralston2, ralston3,
    ralston4, rungeKutta4, ssprk3]

theorem linear_rk (M : FixedMethod) (hM : M ≠ .ralston4) {n : ℕ} (L : (Fin n → ℝ) →ₗ[ℝ] (Fin n → ℝ)) (s t h : ℝ)
    (x : Fin n → ℝ) :
    rkStep (M.tableau s).b.length (rowsOf (M.tableau s).a) (weightsOf (M.tableau s).b) (nodesOf (M.tableau s).c)
      (fun _ x => L x) t x h = ∑ j ∈ range (M.order + 1), (h ^ j / (j.factorial : ℝ)) • (L^[j]) x := by
  cases M
  case ralston4 => exact absurd rfl hM
  all_goals
    simp only [FixedMethod.tableau, FixedMethod.order, explicitEuler, heun2, heun3, kutta3, kutta38, midpoint, ralston2,
      ralston3, rungeKutta4, ssprk3, List.length_cons, List.length_nil, zero_add, Nat.reduceAdd, step1, step2, step3, step4,
      sum_range_succ, sum_range_zero, Function.iterate_succ, Function.comp, Function.iterate_zero, id]
    congr 1
    all_goals try congr 1
    all_goals try congr 1
    all_goals try congr 1
    all_goals try congr 1
    all_goals try congr 1
    all_goals norm_num [rowsOf, weightsOf, Nat.factorial]
    all_goals try ring

/-- `Ralston4` on a linear equation: the wrong weight disturbs the first three coefficients. -/
theorem ralston4_rk {n : ℕ} (L : (Fin n → ℝ) →ₗ[ℝ] (Fin n → ℝ)) {s : ℝ} (hs : s ^ 2 = 5) (t h : ℝ) (x : Fin n → ℝ) :
    rkStep (FixedMethod.ralston4.tableau s).b.length (rowsOf (FixedMethod.ralston4.tableau s).a)
      (weightsOf (FixedMethod.ralston4.tableau s).b) (nodesOf (FixedMethod.ralston4.tableau s).c)
      (fun _ x => L x) t x h =
      x + (h * (1 + 10240 / 5924787)) • L x + (h ^ 2 * (1 / 2 + 10240 / 5924787 * ((14 - 3 * s) / 16))) • L (L x) +
        (h ^ 3 * (1 / 6 + 10240 / 5924787 * ((757 - 324 * s) / 512))) • L (L (L x)) + (h ^ 4 / 24) • L (L (L (L x))) := by
  have h3 : s ^ 3 = 5 * s := by rw [pow_succ, hs]
  have h4 : s ^ 4 = 25 := by rw [show s ^ 4 = (s ^ 2) ^ 2 by ring, hs]; norm_num
  rw [show (FixedMethod.ralston4.tableau s).b.length = 4 from rfl, step4]
  congr 1
  · congr 1
    · congr 1
      · congr 2
        simp only [weightsOf, FixedMethod.tableau, ralston4, List.getD_cons_zero, List.getD_cons_succ]
        ring
      · congr 2
        simp [rowsOf, weightsOf, FixedMethod.tableau, ralston4]
        ring_nf
        simp only [hs]
        ring
    · congr 2
      simp [rowsOf, weightsOf, FixedMethod.tableau, ralston4]
      ring_nf
      simp only [hs, h3]
      ring
  · congr 1
    rw [div_eq_mul_inv]
    congr 1
    simp [rowsOf, weightsOf, FixedMethod.tableau, ralston4]
    ring_nf
    simp only [hs, h3, h4]
    ring

/-- **C105**: on a linear equation `x' = L x` one step multiplies the state by the Taylor polynomial of the exponential of
`h L`, of the degree given by the order of the method.  Missing: `Ralston4`, see `ralston4_rk`. -/
theorem C105_linear_partial (M : FixedMethod) (hM : M ≠ .ralston4) {n : ℕ} {f : Rhs ℝ}
    (L : (Fin n → ℝ) →ₗ[ℝ] (Fin n → ℝ)) (hf : RhsRepr f (fun _ x => L x)) (s t h : ℝ) (x : Fin n → ℝ) :
    doStep (M.tableau s) f t (col x) h =
      some (col (∑ j ∈ range (M.order + 1), (h ^ j / (j.factorial : ℝ)) • (L^[j]) x)) := by
  rw [doStep_col hf _ (fixed_shape M s), linear_rk M hM]

/-! ### Decay -/

/-- the factor of one step for `x' = -μ x`, as a function of `w = h μ` -/
noncomputable def decay (M : FixedMethod) (w : ℝ) : ℝ :=
  match M with
  | .explicitEuler => 1 - w
  | .heun2 | .midpoint | .ralston2 => 1 - w + w ^ 2 / 2
  | .heun3 | .kutta3 | .ralston3 | .ssprk3 => 1 - w + w ^ 2 / 2 - w ^ 3 / 6
  | .kutta38 | .rungeKutta4 => 1 - w + w ^ 2 / 2 - w ^ 3 / 6 + w ^ 4 / 24
  | .ralston4 => 1 - w + w ^ 2 / 2 - w ^ 3 / 6 + w ^ 4 / 24 -
      10240 / 5924787 * (w * (1 - (14 - 3 * Real.sqrt 5) / 16 * w + (757 - 324 * Real.sqrt 5) / 512 * w ^ 2))

theorem decay_rk (M : FixedMethod) {n : ℕ} (μ t h : ℝ) (x : Fin n → ℝ) :
    rkStep (M.tableau (Real.sqrt 5)).b.length (rowsOf (M.tableau (Real.sqrt 5)).a) (weightsOf (M.tableau (Real.sqrt 5)).b)
      (nodesOf (M.tableau (Real.sqrt 5)).c) (fun _ x => (-μ) • x) t x h = decay M (h * μ) • x := by
  have key : ∀ y : Fin n → ℝ, ((-μ) • LinearMap.id : (Fin n → ℝ) →ₗ[ℝ] (Fin n → ℝ)) y = (-μ) • y := fun y => rfl
  by_cases hM : M = .ralston4
  · subst hM
    have e := ralston4_rk ((-μ) • LinearMap.id : (Fin n → ℝ) →ₗ[ℝ] (Fin n → ℝ)) (s := Real.sqrt 5) (Real.sq_sqrt (by norm_num)) t h x
    simp only [key] at e
    rw [e]
    simp only [decay]
    clear e
    generalize Real.sqrt 5 = s
    module
  · have e := linear_rk M hM ((-μ) • LinearMap.id : (Fin n → ℝ) →ₗ[ℝ] (Fin n → ℝ)) (Real.sqrt 5) t h x
    simp only [key] at e
    rw [e]
    clear e
    cases M
    case ralston4 => exact absurd rfl hM
    all_goals
      simp only [FixedMethod.order, sum_range_succ, sum_range_zero, zero_add, Function.iterate_succ, Function.comp,
        Function.iterate_zero, id, key, decay, Nat.factorial, Nat.cast_one, Nat.reduceMul, Nat.reduceAdd]
      push_cast
      module

theorem sqrt5_bounds : 2.236 ≤ Real.sqrt 5 ∧ Real.sqrt 5 ≤ 2.2361 :=
  ⟨Real.le_sqrt_of_sq_le (by norm_num), Real.sqrt_le_iff.2 ⟨by norm_num, by norm_num⟩⟩

theorem decay4_le {w : ℝ} (h0 : 0 ≤ w) (h2 : w ≤ 2) :
    -(9 / 10) ≤ 1 - w + w ^ 2 / 2 - w ^ 3 / 6 + w ^ 4 / 24 ∧ 1 - w + w ^ 2 / 2 - w ^ 3 / 6 + w ^ 4 / 24 ≤ 1 := by
  have a1 : 0 ≤ w * (2 - w) := mul_nonneg h0 (by linarith)
  have a2 : 0 ≤ w ^ 3 * (4 - w) := by have : 0 ≤ 4 - w := by linarith
                                      positivity
  have a3 : w ^ 3 * (4 - w) ≤ 16 + 16 := by
    have : w ^ 3 ≤ 2 ^ 3 := pow_le_pow_left₀ h0 h2 3
    nlinarith [pow_nonneg h0 3]
  constructor
  · nlinarith [sq_nonneg (w - 1)]
  · nlinarith

/-- with steps of length at most `2 / μ` no method increases the solution -/
theorem decay_le (M : FixedMethod) {w : ℝ} (h0 : 0 ≤ w) (h2 : w ≤ 2) : |decay M w| ≤ 1 := by
  obtain ⟨d1, d2⟩ := decay4_le h0 h2
  have a1 : 0 ≤ w * (2 - w) := mul_nonneg h0 (by linarith)
  rw [abs_le]
  cases M <;> simp only [decay]
  case explicitEuler => constructor <;> linarith
  case heun2 | midpoint | ralston2 => constructor <;> nlinarith
  case heun3 | kutta3 | ralston3 | ssprk3 =>
    have : w ^ 3 ≤ 2 * w ^ 2 := by nlinarith [sq_nonneg w]
    have : 0 ≤ w ^ 3 := pow_nonneg h0 3
    constructor <;> nlinarith
  case kutta38 | rungeKutta4 => constructor <;> linarith
  case ralston4 =>
    obtain ⟨s1, s2⟩ := sqrt5_bounds
    set s := Real.sqrt 5
    have b1 : 0 ≤ w * (1 - (14 - 3 * s) / 16 * w + (757 - 324 * s) / 512 * w ^ 2) := by
      refine mul_nonneg h0 ?_
      have : (757 - 324 * s) / 512 * w ^ 2 ≥ 0 := mul_nonneg (by linarith) (sq_nonneg w)
      nlinarith
    have b2 : w * (1 - (14 - 3 * s) / 16 * w + (757 - 324 * s) / 512 * w ^ 2) ≤ 4 := by
      have c1 : (757 - 324 * s) / 512 * w ^ 2 ≤ 1 / 4 * 4 := by
        have : w ^ 2 ≤ 4 := by nlinarith
        exact mul_le_mul (by linarith) this (sq_nonneg w) (by norm_num)
      have c2 : 0 ≤ (14 - 3 * s) / 16 * w := mul_nonneg (by linarith) h0
      nlinarith
    constructor <;> linarith

/-- with steps longer than `3 / μ` every method increases the solution -/
theorem decay_ge (M : FixedMethod) {w : ℝ} (h3 : 3 ≤ w) : 4 / 3 ≤ |decay M w| := by
  obtain ⟨v, rfl⟩ : ∃ v, w = 3 + v := ⟨w - 3, by ring⟩
  have hv : 0 ≤ v := by linarith
  have p2 := pow_nonneg hv 2
  have p3 := pow_nonneg hv 3
  have p4 := pow_nonneg hv 4
  rw [le_abs]
  cases M <;> simp only [decay]
  case explicitEuler => right; linarith
  case heun2 | midpoint | ralston2 => left; nlinarith
  case heun3 | kutta3 | ralston3 | ssprk3 => right; nlinarith
  case kutta38 | rungeKutta4 => left; nlinarith
  case ralston4 =>
    left
    obtain ⟨s1, s2⟩ := sqrt5_bounds
    set s := Real.sqrt 5
    have b2 : (3 + v) * (1 - (14 - 3 * s) / 16 * (3 + v) + (757 - 324 * s) / 512 * (3 + v) ^ 2) ≤
        (3 + v) * (1 + 1 / 10 * (3 + v) ^ 2) := by
      refine mul_le_mul_of_nonneg_left ?_ (by linarith)
      have c1 : (757 - 324 * s) / 512 * (3 + v) ^ 2 ≤ 1 / 10 * (3 + v) ^ 2 :=
        mul_le_mul_of_nonneg_right (by linarith) (sq_nonneg _)
      have c2 : 0 ≤ (14 - 3 * s) / 16 * (3 + v) := mul_nonneg (by linarith) (by linarith)
      linarith
    nlinarith


/-- **C105**, explicit methods: for `x' = -μ x` in any dimension and steps of length `h ≤ 2 / μ`, `solve` returns states that do
not grow, as those of the equation.  Missing: longer steps, see `C105_explicit_violated`. -/
theorem C105_explicit_partial (M : FixedMethod) {n : ℕ} {f : Rhs ℝ} {μ : ℝ} (hf : RhsRepr f (fun _ (x : Fin n → ℝ) => (-μ) • x))
    (hμ : 0 ≤ μ) {h t₀ t₁ : ℝ} (hh : 0 < h) (ht : t₀ ≤ t₁) (hw : h * μ ≤ 2) (x₀ : Fin n → ℝ) :
    ∃ (ts : List ℝ) (x : ℕ → Fin n → ℝ), fixedSolve (doStep (M.tableau (Real.sqrt 5)) f) h t₀ t₁ (col x₀) =
      some (ts, (List.range ts.length).map fun k => col (x k)) ∧ x 0 = x₀ ∧
        ∀ k, k + 1 < ts.length → ‖x (k + 1)‖ ≤ ‖x k‖ := by
  obtain ⟨x, hx0, hx, hs⟩ := fixedSolve_col hf (M.tableau (Real.sqrt 5)) (fixed_shape M _) hh ht x₀
  obtain ⟨g0, g1, g2, g3, hin⟩ := C40_grid hh ht
  refine ⟨_, x, by rw [hs, List.length_map, List.length_range], hx0, fun k hk => ?_⟩
  rw [List.length_map, List.length_range] at hk
  have hd := grid_diff (t₀ := t₀) (t₁ := t₁) hh k
  rw [hx k (by omega), decay_rk, norm_smul, Real.norm_eq_abs]
  have hd0 : 0 ≤ grid h t₀ t₁ (k + 1) - grid h t₀ t₁ k := (sub_pos.2 (g2 k (by omega))).le
  have hdh : grid h t₀ t₁ (k + 1) - grid h t₀ t₁ k ≤ h := by rw [← hd]; exact min_le_left _ _
  exact mul_le_of_le_one_left (norm_nonneg _)
    (decay_le M (mul_nonneg hd0 hμ) ((mul_le_mul_of_nonneg_right hdh hμ).trans hw))

/-- **C105** is violated by every explicit method: with steps of length `h ≥ 3 / μ` the states grow by a factor of at least
`4/3` in every step, although the solutions of `x' = -μ x` decay. -/
theorem C105_explicit_violated (M : FixedMethod) {n : ℕ} {f : Rhs ℝ} {μ : ℝ} (hf : RhsRepr f (fun _ (x : Fin n → ℝ) => (-μ) • x))
    {h t₀ t₁ : ℝ} (hh : 0 < h) (ht : t₀ ≤ t₁) (hw : 3 ≤ h * μ) (x₀ : Fin n → ℝ) :
    ∃ (ts : List ℝ) (x : ℕ → Fin n → ℝ), fixedSolve (doStep (M.tableau (Real.sqrt 5)) f) h t₀ t₁ (col x₀) =
      some (ts, (List.range ts.length).map fun k => col (x k)) ∧ ts.length = ⌈(t₁ - t₀) / h⌉₊ + 1 ∧
        ∀ k < ⌈(t₁ - t₀) / h⌉₊, (4 / 3) ^ k * ‖x₀‖ ≤ ‖x k‖ := by
  obtain ⟨x, hx0, hx, hs⟩ := fixedSolve_col hf (M.tableau (Real.sqrt 5)) (fixed_shape M _) hh ht x₀
  obtain ⟨g0, g1, g2, g3, hin⟩ := C40_grid hh ht
  refine ⟨_, x, by rw [hs, List.length_map, List.length_range], by simp, fun k => ?_⟩
  induction k with
  | zero => intro _; rw [hx0]; simp
  | succ k ih =>
    intro hk
    rw [hx k (by omega), decay_rk, norm_smul, Real.norm_eq_abs, g3 k hk, pow_succ, mul_comm ((4 / 3 : ℝ) ^ k), mul_assoc]
    exact mul_le_mul (decay_ge M hw) (ih (by omega)) (by positivity) (abs_nonneg _)

/-! ### Implicit Euler -/

/-- **C105**, implicit Euler: for the scalar equation `x' = -μ x` and steps of any length `solve` returns states that do not grow;
a state is divided by `1 + h μ` unless that changes it by less than the tolerance `10⁻⁸`. -/
theorem C105_implicit {f jac : Rhs ℝ} {μ : ℝ} (hf : RhsRepr f (fun _ (x : Fin 1 → ℝ) => (-μ) • x))
    (hJ : ∀ t (x : Fin 1 → ℝ), ∃ A, jac t (col x) = some A ∧ Repr A (Matrix.of fun (_ _ : Fin 1) => -μ)) (hμ : 0 ≤ μ) {h t₀ t₁ : ℝ} (hh : 0 < h)
    (ht : t₀ ≤ t₁) (x₀ : ℝ) :
    ∃ (ts : List ℝ) (x : ℕ → ℝ), fixedSolve (ieStep Real.sqrt f jac) h t₀ t₁ (col ![x₀]) =
      some (ts, (List.range ts.length).map fun k => col ![x k]) ∧ x 0 = x₀ ∧ ts.length = ⌈(t₁ - t₀) / h⌉₊ + 1 ∧
        (∀ k, k + 1 < ts.length → |x (k + 1)| ≤ |x k|) ∧
        ∀ k < ⌈(t₁ - t₀) / h⌉₊, |x k| ≤ max (|x₀| / (1 + h * μ) ^ k) (1 / 10 ^ 8 * (1 + 1 / (h * μ))) ∨ μ = 0 := by
  obtain ⟨g0, g1, g2, g3, hin⟩ := C40_grid hh ht
  -- one step
  have step : ∀ t d x : ℝ, 0 ≤ d → ∃ z : ℝ, ieStep Real.sqrt f jac t (col ![x]) d = some (col ![z]) ∧
      (z = x / (1 + d * μ) ∨ z = x ∧ |x| * (d * μ) / (1 + d * μ) < 1 / 10 ^ 8) := by
    intro t d x hd
    have hp : 0 < 1 + d * μ := by positivity
    obtain ⟨z, h1, h2⟩ := C46_linear (sqrt := Real.sqrt) Real.sqrt_zero (n := 1) (f := f) (jac := jac)
      (Matrix.of fun (_ _ : Fin 1) => -μ) (fun _ _ => 0)
      (by
        intro t x
        rw [hf]
        congr 2
        funext i
        fin_cases i
        simp [Matrix.mulVec, dotProduct]) hJ t d (regular_one (by
          simp only [Matrix.sub_apply, Matrix.smul_apply, Matrix.one_apply_eq, smul_eq_mul, Matrix.of_apply]
          nlinarith)) ![x]
    have ez : z = ![z 0] := by funext i; fin_cases i; rfl
    refine ⟨z 0, by rw [h1, ← ez], ?_⟩
    rcases h2 with h2 | ⟨h2, δ, h3, h4⟩
    · left
      have e : z 0 = x + d * (-μ * z 0) := by simpa [Matrix.mulVec, dotProduct] using congrFun h2 0
      rw [eq_div_iff hp.ne']
      linear_combination e
    · right
      refine ⟨by rw [h2]; rfl, ?_⟩
      have e : x - δ 0 = x + d * (-μ * (x - δ 0)) := by
        have := congrFun h3 0
        simp [Matrix.vecHead] at this ⊢
        linarith
      rw [Fin.sum_univ_one, ← pow_two, Real.sqrt_sq_eq_abs] at h4
      have e2 : δ 0 = x * (d * μ) / (1 + d * μ) := by rw [eq_div_iff hp.ne']; linear_combination -e
      rw [e2, abs_div, abs_mul, abs_of_pos hp, abs_of_nonneg (mul_nonneg hd hμ)] at h4
      exact h4
  have hd0 : ∀ k, 0 ≤ grid h t₀ t₁ (k + 1) - grid h t₀ t₁ k := fun k => by
    rw [← grid_diff (t₀ := t₀) (t₁ := t₁) hh k]; exact le_min hh.le (by linarith [(hin k).2])
  obtain ⟨X, hX0, hXP, hs⟩ := fixedSolve_of_steps (ieStep Real.sqrt f jac) (fun _ X => ∃ x : ℝ, X = col ![x]) hh ht
    (init := col ![x₀]) ⟨x₀, rfl⟩ (by
      rintro k - _ ⟨x, rfl⟩
      obtain ⟨z, h1, -⟩ := step (grid h t₀ t₁ k) _ x (hd0 k)
      exact ⟨_, h1, fun _ => ⟨z, rfl⟩⟩)
  obtain ⟨Y, hY0, -, hYX, hY⟩ := C40_fixed_solve (ieStep Real.sqrt f jac) hh ht (col ![x₀]) hs
  have hXY : ∀ k ≤ ⌈(t₁ - t₀) / h⌉₊, X k = Y k := by
    intro k hk
    have := congrArg (fun l => l[k]?) hYX
    simpa [List.getElem?_range (show k < ⌈(t₁ - t₀) / h⌉₊ + 1 by omega)] using this
  choose! x hx using hXP
  have hx0 : x 0 = x₀ := by
    have h1 := (hx 0 (Nat.zero_le _)).symm.trans hX0
    simpa using congrFun (col_injective h1) 0
  -- the steps
  have hxs : ∀ k < ⌈(t₁ - t₀) / h⌉₊, x (k + 1) = x k / (1 + (grid h t₀ t₁ (k + 1) - grid h t₀ t₁ k) * μ) ∨
      x (k + 1) = x k ∧ |x k| * ((grid h t₀ t₁ (k + 1) - grid h t₀ t₁ k) * μ) /
        (1 + (grid h t₀ t₁ (k + 1) - grid h t₀ t₁ k) * μ) < 1 / 10 ^ 8 := by
    intro k hk
    obtain ⟨z, h1, h2⟩ := step (grid h t₀ t₁ k) _ (x k) (hd0 k)
    have h3 := hY k hk
    rw [← hXY k hk.le, ← hXY (k + 1) hk, hx k hk.le, hx (k + 1) hk, h1] at h3
    have h4 : z = x (k + 1) := by
      simpa using congrFun (col_injective (Option.some.inj h3)) 0
    rw [← h4]
    exact h2
  refine ⟨(List.range (⌈(t₁ - t₀) / h⌉₊ + 1)).map (grid h t₀ t₁), x, ?_, hx0, by simp, ?_, ?_⟩
  · rw [hs]
    congr 2
    rw [List.length_map, List.length_range]
    refine List.map_congr_left fun k hk => hx k ?_
    have := List.mem_range.1 hk
    omega
  · intro k hk
    rw [List.length_map, List.length_range] at hk
    rcases hxs k (by omega) with h1 | ⟨h1, -⟩
    · have hp : 1 ≤ 1 + (grid h t₀ t₁ (k + 1) - grid h t₀ t₁ k) * μ := by
        have := mul_nonneg (hd0 k) hμ
        linarith
      rw [h1, abs_div, abs_of_pos (a := 1 + _) (by linarith)]
      exact div_le_self (abs_nonneg _) hp
    · rw [h1]
  · intro k hk
    rcases hμ.eq_or_lt with h0 | h0
    · exact Or.inr h0.symm
    left
    have hw : 0 < h * μ := mul_pos hh h0
    induction k with
    | zero => rw [hx0]; simp
    | succ k ih =>
      have ih := ih (by omega)
      have h1 := hxs k (by omega)
      rw [g3 k hk] at h1
      rcases h1 with h1 | ⟨h1, h2⟩
      · rw [h1, abs_div, abs_of_pos (by linarith : 0 < 1 + h * μ)]
        rcases le_max_iff.1 ih with h3 | h3
        · refine le_max_of_le_left ?_
          rw [pow_succ, ← div_div]
          exact div_le_div_of_nonneg_right h3 (by linarith)
        · refine le_max_of_le_right ((div_le_self (abs_nonneg _) (by linarith)).trans h3)
      · rw [h1]
        refine le_max_of_le_right ?_
        rw [div_lt_iff₀ (by linarith), ← lt_div_iff₀ hw] at h2
        refine h2.le.trans (le_of_eq ?_)
        field_simp
        ring


/-- the Euclidean norm of a vector -/
theorem euclid_norm {n : ℕ} (v : Fin n → ℝ) : Real.sqrt (∑ i, v i * v i) = ‖WithLp.toLp 2 v‖ := by
  rw [EuclideanSpace.norm_eq]
  congr 1
  refine sum_congr rfl fun i _ => ?_
  rw [Real.norm_eq_abs, sq_abs, pow_two]

/-- **C105**, implicit Euler: for a dissipative right-hand side (two solutions never move apart) in any dimension, two steps of any length
from different states do not increase their distance, up to the tolerance of the root finder. -/
theorem C105_contractive {n : ℕ} {f jac : Rhs ℝ} {g : ℝ → (Fin n → ℝ) → (Fin n → ℝ)} (hf : RhsRepr f g)
    {J : ℝ → (Fin n → ℝ) → Matrix (Fin n) (Fin n) ℝ} (hJ : ∀ t x, ∃ A, jac t (col x) = some A ∧ Repr A (J t x))
    (hg : ∀ t x y, ∑ i, (x i - y i) * (g t x i - g t y i) ≤ 0) {B : ℝ}
    (hB : ∀ t x v, Real.sqrt (∑ i, (J t x).mulVec v i * (J t x).mulVec v i) ≤ B * Real.sqrt (∑ i, v i * v i))
    {t h : ℝ} (hh : 0 ≤ h) (hB0 : 0 ≤ B) {x x' : Fin n → ℝ} {v v' : Mat ℝ} (hv : ieStep Real.sqrt f jac t (col x) h = some v)
    (hv' : ieStep Real.sqrt f jac t (col x') h = some v') :
    ∃ z z' : Fin n → ℝ, v = col z ∧ v' = col z' ∧ Real.sqrt (∑ i, (z i - z' i) * (z i - z' i)) ≤
      Real.sqrt (∑ i, (x i - x' i) * (x i - x' i)) + 2 / 10 ^ 8 * (1 + h * B) := by
  have hs1 : ∀ a : ℝ, 1 ≤ a → 1 ≤ Real.sqrt a := fun a ha => Real.one_le_sqrt.mpr ha
  obtain ⟨z, d, rfl, h1, h2⟩ := C46_step hs1 hf hJ t h x v hv
  obtain ⟨z', d', rfl, h1', h2'⟩ := C46_step hs1 hf hJ t h x' v' hv'
  refine ⟨z, z', rfl, rfl, ?_⟩
  have e : ∀ a b : Fin n → ℝ, Real.sqrt (∑ i, (a i - b i) * (a i - b i)) = ‖WithLp.toLp 2 (a - b)‖ := fun a b =>
    euclid_norm (a - b)
  rw [e, e]
  simp only [euclid_norm] at h2 h2' hB
  have res : ∀ z d : Fin n → ℝ, ‖WithLp.toLp 2 d‖ < 1 / 10 ^ 8 →
      ‖WithLp.toLp 2 ((h • J (t + h) z - 1).mulVec d)‖ ≤ 1 / 10 ^ 8 * (1 + h * B) := by
    intro z d hd
    rw [Matrix.sub_mulVec, Matrix.smul_mulVec, Matrix.one_mulVec, WithLp.toLp_sub, WithLp.toLp_smul]
    refine (norm_sub_le _ _).trans ?_
    rw [norm_smul, Real.norm_of_nonneg hh]
    have := mul_le_mul_of_nonneg_left (hB (t + h) z d) hh
    have h3 : 0 ≤ h * B := mul_nonneg hh hB0
    nlinarith [norm_nonneg (WithLp.toLp 2 d)]
  have r1 := res z d h2
  have r2 := res z' d' h2'
  rw [h1] at r1
  rw [h1'] at r2
  set r := x + h • g (t + h) z - z with hr
  set r' := x' + h • g (t + h) z' - z' with hr'
  have hu : z - z' = (x - x') + h • (g (t + h) z - g (t + h) z') - (r - r') := by
    rw [hr, hr', smul_sub]; abel
  have inn : ∀ a b : Fin n → ℝ, inner ℝ (WithLp.toLp 2 a) (WithLp.toLp 2 b) = ∑ i, a i * b i := by
    intro a b
    rw [PiLp.inner_apply]
    refine sum_congr rfl fun i _ => ?_
    simp [mul_comm]
  have k1 : ‖WithLp.toLp 2 (z - z')‖ ^ 2 ≤ ‖WithLp.toLp 2 (z - z')‖ * (‖WithLp.toLp 2 (x - x')‖ + ‖WithLp.toLp 2 (r - r')‖) := by
    rw [← real_inner_self_eq_norm_sq]
    have : inner ℝ (WithLp.toLp 2 (z - z')) (WithLp.toLp 2 (z - z')) = inner ℝ (WithLp.toLp 2 (z - z')) (WithLp.toLp 2 (x - x')) +
        h * inner ℝ (WithLp.toLp 2 (z - z')) (WithLp.toLp 2 (g (t + h) z - g (t + h) z')) -
        inner ℝ (WithLp.toLp 2 (z - z')) (WithLp.toLp 2 (r - r')) := by
      have hU : WithLp.toLp 2 (z - z') = WithLp.toLp 2 (x - x') + h • WithLp.toLp 2 (g (t + h) z - g (t + h) z') -
          WithLp.toLp 2 (r - r') := congrArg (WithLp.toLp 2) hu
      generalize WithLp.toLp 2 (z - z') = U at hU ⊢
      nth_rewrite 2 [hU]
      rw [inner_sub_right, inner_add_right, inner_smul_right]
    rw [this]
    have a1 := real_inner_le_norm (WithLp.toLp 2 (z - z')) (WithLp.toLp 2 (x - x'))
    have a2 := abs_le.1 (abs_real_inner_le_norm (WithLp.toLp 2 (z - z')) (WithLp.toLp 2 (r - r')))
    have a3 : inner ℝ (WithLp.toLp 2 (z - z')) (WithLp.toLp 2 (g (t + h) z - g (t + h) z')) ≤ 0 := by
      rw [inn]
      exact hg (t + h) z z'
    nlinarith
  have k2 : ‖WithLp.toLp 2 (r - r')‖ ≤ 1 / 10 ^ 8 * (1 + h * B) + 1 / 10 ^ 8 * (1 + h * B) := by
    rw [WithLp.toLp_sub]
    exact (norm_sub_le _ _).trans (add_le_add r1 r2)
  rcases (norm_nonneg (WithLp.toLp 2 (z - z'))).eq_or_lt with h0 | h0
  · rw [← h0]
    have := mul_nonneg hh hB0
    positivity
  · rw [pow_two] at k1
    have := le_of_mul_le_mul_left k1 h0
    linarith

/-! ### Oscillations -/

/-- **C105**, oscillations: for `x' = ω y`, `y' = -ω x` one step multiplies the energy `x² + y²`, which is constant for the
equation, by a factor that depends on the order only.  Missing: `Ralston4`. -/
theorem C105_oscillator_partial (M : FixedMethod) (hM : M ≠ .ralston4) {f : Rhs ℝ} {ω : ℝ}
    (hf : RhsRepr f (fun _ (x : Fin 2 → ℝ) => ![ω * x 1, -(ω * x 0)])) (s t h : ℝ) (x : Fin 2 → ℝ) :
    ∃ z : Fin 2 → ℝ, doStep (M.tableau s) f t (col x) h = some (col z) ∧
      (M.order = 1 → z 0 ^ 2 + z 1 ^ 2 = (1 + (h * ω) ^ 2) * (x 0 ^ 2 + x 1 ^ 2)) ∧
      (M.order = 2 → z 0 ^ 2 + z 1 ^ 2 = (1 + (h * ω) ^ 4 / 4) * (x 0 ^ 2 + x 1 ^ 2)) ∧
      (M.order = 3 → z 0 ^ 2 + z 1 ^ 2 = (1 - (h * ω) ^ 4 / 12 + (h * ω) ^ 6 / 36) * (x 0 ^ 2 + x 1 ^ 2)) ∧
      (M.order = 4 → z 0 ^ 2 + z 1 ^ 2 = (1 - (h * ω) ^ 6 / 72 + (h * ω) ^ 8 / 576) * (x 0 ^ 2 + x 1 ^ 2)) := by
  have key : ∀ y : Fin 2 → ℝ, Matrix.toLin' !![0, ω; -ω, 0] y = ![ω * y 1, -(ω * y 0)] := by
    intro y
    funext i
    fin_cases i <;> simp [Matrix.mulVec, dotProduct, Fin.sum_univ_two]
  refine ⟨_, C105_linear_partial M hM (Matrix.toLin' !![0, ω; -ω, 0]) (by intro t x; simp only [hf t x, key]) s t h x, ?_⟩
  refine ⟨fun ho => ?_, fun ho => ?_, fun ho => ?_, fun ho => ?_⟩ <;>
  · rw [ho]
    simp only [sum_range_succ, sum_range_zero, zero_add, Function.iterate_succ, Function.comp, Function.iterate_zero, id, key,
      Nat.factorial, Pi.add_apply, Pi.smul_apply, smul_eq_mul, Matrix.cons_val_zero, Matrix.cons_val_one, Nat.reduceMul,
      Nat.reduceAdd]
    push_cast
    ring

/-- **C105** is violated by the methods of order one and two on oscillations: the energy grows in every step, however short. -/
theorem C105_oscillator_violated (M : FixedMethod) (hM : M.order ≤ 2) {f : Rhs ℝ} {ω : ℝ} (hω : ω ≠ 0)
    (hf : RhsRepr f (fun _ (x : Fin 2 → ℝ) => ![ω * x 1, -(ω * x 0)])) (s t : ℝ) {h : ℝ} (hh : 0 < h) {x : Fin 2 → ℝ} (hx : x ≠ 0) :
    ∃ z : Fin 2 → ℝ, doStep (M.tableau s) f t (col x) h = some (col z) ∧ x 0 ^ 2 + x 1 ^ 2 < z 0 ^ 2 + z 1 ^ 2 := by
  have hM4 : M ≠ .ralston4 := by rintro rfl; simp [FixedMethod.order] at hM
  obtain ⟨z, h1, h2, h3, -, -⟩ := C105_oscillator_partial M hM4 hf s t h x
  refine ⟨z, h1, ?_⟩
  have hw : h * ω ≠ 0 := mul_ne_zero hh.ne' hω
  have hE : 0 < x 0 ^ 2 + x 1 ^ 2 := by
    by_contra hc
    apply hx
    have e0 : x 0 = 0 := by nlinarith [sq_nonneg (x 0), sq_nonneg (x 1)]
    have e1 : x 1 = 0 := by nlinarith [sq_nonneg (x 0), sq_nonneg (x 1)]
    funext i
    fin_cases i <;> simpa
  have ho : M.order = 1 ∨ M.order = 2 := by
    cases M <;> simp [FixedMethod.order] at hM ⊢
  rcases ho with ho | ho
  · rw [h2 ho]
    have : 0 < (h * ω) ^ 2 := by positivity
    nlinarith
  · rw [h3 ho]
    have : 0 < (h * ω) ^ 4 := by positivity
    nlinarith

/-- **C105**, oscillations: for the methods of order three and four the energy does not grow if and only if `(h ω)² ≤ 3` or
`(h ω)² ≤ 8`, respectively. -/
theorem C105_oscillator_iff (M : FixedMethod) (hM : M ≠ .ralston4) {f : Rhs ℝ} {ω : ℝ} (hω : ω ≠ 0)
    (hf : RhsRepr f (fun _ (x : Fin 2 → ℝ) => ![ω * x 1, -(ω * x 0)])) (s t : ℝ) {h : ℝ} (hh : 0 < h) {x : Fin 2 → ℝ}
    (hx : 0 < x 0 ^ 2 + x 1 ^ 2) :
    ∃ z : Fin 2 → ℝ, doStep (M.tableau s) f t (col x) h = some (col z) ∧
      (M.order = 3 → (z 0 ^ 2 + z 1 ^ 2 ≤ x 0 ^ 2 + x 1 ^ 2 ↔ (h * ω) ^ 2 ≤ 3)) ∧
      (M.order = 4 → (z 0 ^ 2 + z 1 ^ 2 ≤ x 0 ^ 2 + x 1 ^ 2 ↔ (h * ω) ^ 2 ≤ 8)) := by
  obtain ⟨z, h1, -, -, h3, h4⟩ := C105_oscillator_partial M hM hf s t h x
  have hw : 0 < (h * ω) ^ 2 := by
    have := mul_ne_zero hh.ne' hω
    positivity
  have key : ∀ q E : ℝ, 0 < E → ((1 + q) * E ≤ E ↔ q ≤ 0) := by
    intro q E hE
    constructor
    · intro k; by_contra hc; nlinarith
    · intro k; nlinarith
  refine ⟨z, h1, fun ho => ?_, fun ho => ?_⟩
  · rw [h3 ho, show 1 - (h * ω) ^ 4 / 12 + (h * ω) ^ 6 / 36 = 1 + ((h * ω) ^ 2) ^ 2 / 36 * ((h * ω) ^ 2 - 3) by ring, key _ _ hx]
    generalize (h * ω) ^ 2 = w at *
    have : 0 < w ^ 2 / 36 := by positivity
    rw [mul_nonpos_iff_pos_imp_nonpos]
    constructor
    · intro k; linarith [k.1 this]
    · intro k; exact ⟨fun _ => by linarith, fun hn => by linarith⟩
  · rw [h4 ho, show 1 - (h * ω) ^ 6 / 72 + (h * ω) ^ 8 / 576 = 1 + ((h * ω) ^ 2) ^ 3 / 576 * ((h * ω) ^ 2 - 8) by ring, key _ _ hx]
    generalize (h * ω) ^ 2 = w at *
    have : 0 < w ^ 3 / 576 := by positivity
    rw [mul_nonpos_iff_pos_imp_nonpos]
    constructor
    · intro k; linarith [k.1 this]
    · intro k; exact ⟨fun _ => by linarith, fun hn => by linarith⟩

/-! ### Examples -/

/-- classical Runge-Kutta method, `x' = -4 x` with steps of length one: the state is multiplied by 5 -/
example : fixedSolve (doStep (K := ℚ) rungeKutta4 (fun _ v => some (v.mulScalar (-4)))) 1 0 3 (col ![1]) =
    some ([0, 1, 2, 3], [col ![1], col ![5], col ![25], col ![125]]) := by decide +kernel

/-- implicit Euler, `x' = -4 x` with steps of length one: the state is divided by 5 -/
example : fixedSolve (ieStep Rat.sqrt (fun _ v => some (v.mulScalar (-4))) fun _ _ => some ⟨1, 1, [-4]⟩) 1 0 3 (col ![(1 : ℚ)]) =
    some ([0, 1, 2, 3], [col ![1], col ![1/5], col ![1/25], col ![1/125]]) := by decide +kernel

/-- explicit Euler on an oscillation: the energy is doubled by a step of length one -/
example : doStep (K := ℚ) explicitEuler (fun _ v => do
      let x ← v.get 0 0
      let y ← v.get 1 0
      some (col ![y, -x])) 0 (col ![3, 4]) 1 = some (col ![7, 1]) := by decide +kernel

end Ode
end Verif
