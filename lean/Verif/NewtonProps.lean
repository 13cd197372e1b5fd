import Verif.NewtonModel
import Verif.OdeLemmas
import Verif.LUProps
import Verif.HouseholderProps
import Mathlib.Analysis.Calculus.FDeriv.Add
import Mathlib.Analysis.Calculus.FDeriv.Mul
import Mathlib.Analysis.Calculus.FDeriv.Pi
import Mathlib.LinearAlgebra.Matrix.ToLin
import Mathlib.Topology.Algebra.Module.FiniteDimension

/-! # Newton-Raphson and implicit Euler: C46 and C47 -/

namespace Verif
open Finset Matrix
variable {K : Type} [Field K] [LinearOrder K] [IsStrictOrderedRing K]

/-- Specification: on column vectors `φ` computes `g` -/
def FunRepr {n m : ℕ} (φ : Mat K → Option (Mat K)) (g : (Fin n → K) → (Fin m → K)) : Prop :=
  ∀ x, φ (col x) = some (col (g x))

/-- Specification: on column vectors `φ` computes the matrix-valued function `J` -/
def MatFunRepr {n m q : ℕ} (φ : Mat K → Option (Mat K)) (J : (Fin n → K) → Matrix (Fin m) (Fin q) K) : Prop :=
  ∀ x, ∃ A, φ (col x) = some A ∧ Repr A (J x)

/-- the LU decomposition of the matrix meets no zero pivot -/
def Regular {n : ℕ} (M : Matrix (Fin n) (Fin n) K) : Prop :=
  ∀ A l u p, Repr A M → A.decLU = some (l, u, p) → ∀ i < n, u.get i i ≠ some 0

theorem solveV_regular {n : ℕ} {A : Mat K} {M : Matrix (Fin n) (Fin n) K} (hA : Repr A M) (hM : Regular M)
    (y : Fin n → K) : ∃ x, A.solveV (col y) = some (col x) ∧ M *ᵥ x = y := by
  obtain ⟨l, u, p, _, _, _, h, _⟩ := C11_lu_exact hA
  obtain ⟨v, x, h1, h2, h3⟩ := C12_solve_vector_partial hA (b := col y) rfl h (hM A l u p hA h)
  exact ⟨x, by rw [h1, colRepr_iff.mp h2], h3⟩

theorem regular_injective {n : ℕ} {M : Matrix (Fin n) (Fin n) K} (hM : Regular M) (x : Fin n → K) (hx : M *ᵥ x = 0) :
    x = 0 := by
  obtain ⟨A, hA⟩ := exists_repr M
  have hs : Function.Surjective M.mulVecLin := fun y => by
    obtain ⟨x, _, h⟩ := solveV_regular hA hM y
    exact ⟨x, h⟩
  have hi := LinearMap.injective_iff_surjective.mpr hs
  exact hi (by simpa using hx)

/-- the result of `solve`: the solution if no pivot is zero; otherwise one of its components is exactly `1` -/
theorem solveV_cases {n : ℕ} {A : Mat K} {M : Matrix (Fin n) (Fin n) K} (hA : Repr A M) (y : Fin n → K) :
    ∃ x, A.solveV (col y) = some (col x) ∧ (Regular M → M *ᵥ x = y) ∧ (¬ Regular M → ∃ i, x i = 1) := by
  by_cases hM : Regular M
  · obtain ⟨x, h1, h2⟩ := solveV_regular hA hM y
    exact ⟨x, h1, fun _ => h2, fun h => absurd hM h⟩
  · obtain ⟨l, u, p, L, U, σ, e1, e2, e3, e4, e5, e6, e7, e8⟩ := C11_lu_exact hA
    obtain ⟨w, w1, w2⟩ := repr_perm_mulVec e4 (colRepr_iff.mpr rfl : ColRepr (col y) y)
    obtain ⟨z, zx, z1, z2, z3⟩ := C14_forward_vector e2 w2 e6 (fun i => by rw [e5]; exact one_ne_zero)
    obtain ⟨v, x, v1, v2, v3⟩ := C14_backward_vector_zero_diag e3 z2
    refine ⟨x, ?_, fun h => absurd h hM, fun _ => ?_⟩
    · simp only [Mat.solveV, Mat.luSolveV, e1, w1, z1, v1, Option.bind_eq_bind, Option.bind_some, colRepr_iff.mp v2]
    · unfold Regular at hM
      push Not at hM
      obtain ⟨A', l', u', p', f1, f2, i, hi, f3⟩ := hM
      obtain rfl : A' = A := f1.is.ext hA.is (fun _ _ _ _ => rfl)
      rw [e1] at f2
      cases f2
      rw [e3.is.get hi hi, extM_lt U hi hi] at f3
      exact ⟨⟨i, hi⟩, v3 _ (Option.some.inj f3)⟩

/-- one step of Newton's method on column vectors, for any Jacobian -/
theorem newtonStep_cases {n : ℕ} {eval jac : Mat K → Option (Mat K)} {g : (Fin n → K) → (Fin n → K)}
    {J : (Fin n → K) → Matrix (Fin n) (Fin n) K} (hg : FunRepr eval g) (hJ : MatFunRepr jac J) (x : Fin n → K) :
    ∃ d, newtonStep eval jac (col x) = some (col (x - d)) ∧ (Regular (J x) → J x *ᵥ d = g x) ∧
      (¬ Regular (J x) → ∃ i, d i = 1) := by
  obtain ⟨A, hA, hR⟩ := hJ x
  obtain ⟨d, h1, h2, h3⟩ := solveV_cases hR (g x)
  refine ⟨d, ?_, h2, h3⟩
  simp only [newtonStep, hg x, hA, h1, Option.bind_eq_bind, Option.bind_some, col_sub]

theorem one_le_sum_sq {n : ℕ} {d : Fin n → K} (h : ∃ i, d i = 1) : 1 ≤ ∑ i, d i * d i := by
  obtain ⟨i, hi⟩ := h
  calc (1 : K) = d i * d i := by rw [hi, one_mul]
    _ ≤ _ := Finset.single_le_sum (f := fun i => d i * d i) (fun j _ => mul_self_nonneg (d j)) (Finset.mem_univ i)

theorem newtonStep_col {n : ℕ} {eval jac : Mat K → Option (Mat K)} {g : (Fin n → K) → (Fin n → K)}
    {J : (Fin n → K) → Matrix (Fin n) (Fin n) K} (hg : FunRepr eval g) (hJ : MatFunRepr jac J) (x : Fin n → K)
    (hr : Regular (J x)) :
    ∃ d, newtonStep eval jac (col x) = some (col (x - d)) ∧ J x *ᵥ d = g x := by
  obtain ⟨A, hA, hR⟩ := hJ x
  obtain ⟨d, h1, h2⟩ := solveV_regular hR hr (g x)
  refine ⟨d, ?_, h2⟩
  simp only [newtonStep, hg x, hA, h1, Option.bind_eq_bind, Option.bind_some, col_sub]

theorem norm2_col (sqrt : K → K) {n : ℕ} (x : Fin n → K) : (col x).norm2 sqrt = some (sqrt (∑ i, x i * x i)) := by
  rw [norm2_is (col_is x), ← Fin.sum_univ_eq_sum_range (fun i => extV x i * extV x i)]
  simp only [extV_apply]

/-- C47: `Ok(x)` is returned exactly when, within `iters` iterations, a Newton iterate `x` is reached whose next increment
    has norm below the tolerance (all the earlier ones being larger). The result is that iterate, not the next one. -/
theorem C47_ok_iff (sqrt : K → K) (tol : K) (eval jac : Mat K → Option (Mat K)) (iters : ℕ) (x₀ x : Mat K) :
    findRoot sqrt tol eval jac iters x₀ = some (some x) ↔
      ∃ (k : ℕ) (X : ℕ → Mat K), k < iters ∧ X 0 = x₀ ∧ X k = x ∧
        (∀ j < k + 1, newtonStep eval jac (X j) = some (X (j + 1))) ∧
        (∀ j < k, ∃ d e, (X j).sub (X (j + 1)) = some d ∧ d.norm2 sqrt = some e ∧ ¬ e < tol) ∧
        ∃ d e, (X k).sub (X (k + 1)) = some d ∧ d.norm2 sqrt = some e ∧ e < tol := by
  induction iters generalizing x₀ with
  | zero => simp [findRoot]
  | succ iters ih =>
    simp only [findRoot, Option.bind_eq_bind, Option.bind_eq_some_iff]
    constructor
    · rintro ⟨xc, h1, d, h2, e, h3, h4⟩
      by_cases he : e < tol
      · rw [if_pos he] at h4
        have h4 := Option.some.inj (Option.some.inj h4)
        subst h4
        refine ⟨0, fun j => if j = 0 then x₀ else xc, by omega, by simp, by simp, ?_, by simp, d, e, by simpa using h2,
          h3, he⟩
        intro j hj
        obtain rfl : j = 0 := by omega
        simpa using h1
      · rw [if_neg he] at h4
        obtain ⟨k, X, a1, a2, a3, a4, a5, a6⟩ := (ih xc).mp h4
        refine ⟨k + 1, fun j => match j with
          | 0 => x₀
          | j + 1 => X j, by omega, rfl, a3, ?_, ?_, a6⟩
        · intro j hj
          cases j with
          | zero => simpa [a2] using h1
          | succ j => exact a4 j (by omega)
        · intro j hj
          cases j with
          | zero => exact ⟨d, e, by simpa [a2] using h2, h3, he⟩
          | succ j => exact a5 j (by omega)
    · rintro ⟨k, X, a1, a2, a3, a4, a5, d, e, a6, a7, a8⟩
      cases k with
      | zero =>
        refine ⟨X 1, by rw [← a2]; exact a4 0 (by omega), d, by rw [← a2]; exact a6, e, a7, ?_⟩
        rw [if_pos a8, ← a2, a3]
      | succ k =>
        obtain ⟨d', e', b1, b2, b3⟩ := a5 0 (by omega)
        refine ⟨X 1, by rw [← a2]; exact a4 0 (by omega), d', by rw [← a2]; exact b1, e', b2, ?_⟩
        rw [if_neg b3]
        exact (ih (X 1)).mpr ⟨k, fun j => X (j + 1), by omega, rfl, a3, fun j hj => a4 (j + 1) (by omega),
          fun j hj => a5 (j + 1) (by omega), d, e, a6, a7, a8⟩

/-- C47: `Err` is returned exactly when `iters` iterations were made and all increments were too large. -/
theorem C47_err_iff (sqrt : K → K) (tol : K) (eval jac : Mat K → Option (Mat K)) (iters : ℕ) (x₀ : Mat K) :
    findRoot sqrt tol eval jac iters x₀ = some none ↔
      ∃ X : ℕ → Mat K, X 0 = x₀ ∧ ∀ j < iters, newtonStep eval jac (X j) = some (X (j + 1)) ∧
        ∃ d e, (X j).sub (X (j + 1)) = some d ∧ d.norm2 sqrt = some e ∧ ¬ e < tol := by
  induction iters generalizing x₀ with
  | zero => simp only [findRoot, true_iff]; exact ⟨fun _ => x₀, rfl, by simp⟩
  | succ iters ih =>
    simp only [findRoot, Option.bind_eq_bind, Option.bind_eq_some_iff]
    constructor
    · rintro ⟨xc, h1, d, h2, e, h3, h4⟩
      by_cases he : e < tol
      · simp [he] at h4
      · rw [if_neg he] at h4
        obtain ⟨X, a1, a2⟩ := (ih xc).mp h4
        refine ⟨fun j => match j with
          | 0 => x₀
          | j + 1 => X j, rfl, ?_⟩
        intro j hj
        cases j with
        | zero => exact ⟨by simpa [a1] using h1, d, e, by simpa [a1] using h2, h3, he⟩
        | succ j => exact a2 j (by omega)
    · rintro ⟨X, a1, a2⟩
      obtain ⟨b1, d, e, b2, b3, b4⟩ := a2 0 (by omega)
      refine ⟨X 1, by rw [← a1]; exact b1, d, by rw [← a1]; exact b2, e, b3, ?_⟩
      rw [if_neg b4]
      exact (ih (X 1)).mpr ⟨fun j => X (j + 1), rfl, fun j hj => a2 (j + 1) (by omega)⟩

/-- C47: at a returned point the Newton increment `d`, the solution of `J(x) d = f(x)`, has norm below the tolerance.
    For tolerances up to `1` nothing has to be assumed about the Jacobian: where the linear solver meets a zero pivot it
    answers with a component `1`, and the iteration does not stop there. -/
theorem C47_residual {sqrt : K → K} (hs1 : ∀ a, 1 ≤ a → 1 ≤ sqrt a) {tol : K} (htol : tol ≤ 1) {n : ℕ}
    {eval jac : Mat K → Option (Mat K)} {g : (Fin n → K) → (Fin n → K)}
    {J : (Fin n → K) → Matrix (Fin n) (Fin n) K} (hg : FunRepr eval g) (hJ : MatFunRepr jac J)
    (iters : ℕ) (x₀ : Fin n → K) (v : Mat K) (h : findRoot sqrt tol eval jac iters (col x₀) = some (some v)) :
    ∃ (x d : Fin n → K), v = col x ∧ J x *ᵥ d = g x ∧ sqrt (∑ i, d i * d i) < tol ∧ Regular (J x) := by
  obtain ⟨k, X, _, a2, a3, a4, _, d, e, a6, a7, a8⟩ := (C47_ok_iff _ _ _ _ _ _ _).mp h
  have hcol : ∀ j ≤ k, ∃ x : Fin n → K, X j = col x := by
    intro j
    induction j with
    | zero => intro _; exact ⟨x₀, a2⟩
    | succ j ih =>
      intro hj
      obtain ⟨x, hx⟩ := ih (by omega)
      have h1 := a4 j (by omega)
      rw [hx] at h1
      obtain ⟨d, h2, _⟩ := newtonStep_cases hg hJ x
      exact ⟨_, Option.some.inj (h1.symm.trans h2)⟩
  obtain ⟨x, hx⟩ := hcol k le_rfl
  obtain ⟨d', h2, h3, h5⟩ := newtonStep_cases hg hJ x
  have h4 := a4 k (by omega)
  rw [hx, h2] at h4
  have h4 := Option.some.inj h4
  rw [hx, ← h4, col_sub, sub_sub_cancel] at a6
  have a6 := Option.some.inj a6
  rw [← a6, norm2_col] at a7
  have hlt : sqrt (∑ i, d' i * d' i) < tol := by rw [Option.some.inj a7]; exact a8
  have hreg : Regular (J x) := by
    by_contra hc
    exact absurd (hlt.trans_le htol) (not_lt.mpr (hs1 _ (one_le_sum_sq (h5 hc))))
  exact ⟨x, d', by rw [← a3, hx], h3 hreg, hlt, hreg⟩

/-- C47: where every Jacobian gives a zero pivot the answer is `Err`, whatever the function and the start. -/
theorem C47_singular {sqrt : K → K} (hs1 : ∀ a, 1 ≤ a → 1 ≤ sqrt a) {tol : K} (htol : tol ≤ 1) {n : ℕ}
    {eval jac : Mat K → Option (Mat K)} {g : (Fin n → K) → (Fin n → K)}
    {J : (Fin n → K) → Matrix (Fin n) (Fin n) K} (hg : FunRepr eval g) (hJ : MatFunRepr jac J)
    (hr : ∀ x, ¬ Regular (J x)) (iters : ℕ) (x₀ : Fin n → K) :
    findRoot sqrt tol eval jac iters (col x₀) = some none := by
  induction iters generalizing x₀ with
  | zero => rfl
  | succ iters ih =>
    obtain ⟨d, h1, _, h3⟩ := newtonStep_cases hg hJ x₀
    have h4 := hs1 _ (one_le_sum_sq (h3 (hr x₀)))
    simp only [findRoot, h1, col_sub, sub_sub_cancel, norm2_col, Option.bind_eq_bind, Option.bind_some,
      if_neg (not_lt.mpr (htol.trans h4))]
    exact ih _

/-- C47: for an affine function `f(x) = M x - b` two iterations suffice: the result is the exact root, or it is the
    start point when the first increment is already below the tolerance. Missing: in the second case the exact root is
    computed and thrown away (`C47_affine_violated`). -/
theorem C47_affine_partial {sqrt : K → K} (hs0 : sqrt 0 = 0) {tol : K} (htol : 0 < tol) {n : ℕ}
    {eval jac : Mat K → Option (Mat K)} (M : Matrix (Fin n) (Fin n) K) (b : Fin n → K)
    (hg : FunRepr eval (fun x => M *ᵥ x - b)) (hJ : MatFunRepr (n := n) jac (fun _ => M)) (hr : Regular M)
    (iters : ℕ) (hi : 2 ≤ iters) (x₀ : Fin n → K) :
    ∃ x, findRoot sqrt tol eval jac iters (col x₀) = some (some (col x)) ∧
      (M *ᵥ x = b ∨ x = x₀ ∧ ∃ d, M *ᵥ (x₀ - d) = b ∧ sqrt (∑ i, d i * d i) < tol) := by
  obtain ⟨k, rfl⟩ : ∃ k, iters = k + 2 := ⟨iters - 2, by omega⟩
  obtain ⟨d, h1, h2⟩ := newtonStep_col hg hJ x₀ hr
  obtain ⟨d2, h3, h4⟩ := newtonStep_col hg hJ (x₀ - d) hr
  have hroot : M *ᵥ (x₀ - d) = b := by rw [Matrix.mulVec_sub, h2]; simp
  have hd2 : d2 = 0 := regular_injective hr d2 (by rw [h4, hroot, sub_self])
  by_cases hc : sqrt (∑ i, d i * d i) < tol
  · refine ⟨x₀, ?_, Or.inr ⟨rfl, d, hroot, hc⟩⟩
    rw [findRoot]
    simp only [h1, col_sub, sub_sub_cancel, norm2_col, Option.bind_eq_bind, Option.bind_some, if_pos hc]
  · refine ⟨x₀ - d, ?_, Or.inl hroot⟩
    rw [findRoot]
    simp only [h1, col_sub, sub_sub_cancel, norm2_col, Option.bind_eq_bind, Option.bind_some, if_neg hc]
    rw [findRoot]
    simp only [h3, col_sub, sub_sub_cancel, norm2_col, Option.bind_eq_bind, Option.bind_some]
    rw [hd2]
    simp only [Pi.zero_apply, mul_zero, sum_const_zero, hs0, if_pos htol]

/-- C47 is violated: for the affine function `f(x) = x - 1/10⁹` from `0` the root finder (with the default tolerance) returns
    the start point although it has computed the exact root. -/
theorem C47_affine_violated :
    findRoot Rat.sqrt (1 / 10 ^ 6) (fun v => v.sub (col ![(1 : ℚ) / 10 ^ 9])) (fun _ => some ⟨1, 1, [1]⟩) 1000 (col ![0]) =
      some (some (col ![0])) ∧
    newtonStep (fun v => v.sub (col ![(1 : ℚ) / 10 ^ 9])) (fun _ => some ⟨1, 1, [1]⟩) (col ![0]) =
      some (col ![1 / 10 ^ 9]) := by decide +kernel

/-- `f(x, y) = (x + 2 y - 5, 3 x + 4 y - 11)` -/
example : findRoot Rat.sqrt (1 / 10 ^ 6) (fun v => do
    let w ← (⟨2, 2, [1, 3, 2, 4]⟩ : Mat ℚ).mulVec v
    w.sub (col ![(5 : ℚ), 11])) (fun _ => some ⟨2, 2, [1, 3, 2, 4]⟩) 1000 (col ![0, 0]) =
      some (some (col ![1, 2])) := by decide +kernel

namespace Ode

omit [LinearOrder K] [IsStrictOrderedRing K] in
theorem ieEval_col {n : ℕ} {f : Rhs K} {g : K → (Fin n → K) → (Fin n → K)} (hf : RhsRepr f g) (t : K) (x : Fin n → K)
    (h : K) (z : Fin n → K) : ieEval f t (col x) h (col z) = some (col (x + h • g t z - z)) := by
  simp only [ieEval, hf t z, Option.bind_eq_bind, Option.bind_some, col_mulScalar, col_add, col_sub]

omit [LinearOrder K] [IsStrictOrderedRing K] in
/-- C46: the helper vanishes at `z` exactly when `z` solves the equation of the backward Euler method -/
theorem C46_root_iff {n : ℕ} {f : Rhs K} {g : K → (Fin n → K) → (Fin n → K)} (hf : RhsRepr f g) (t : K) (x : Fin n → K)
    (h : K) (z : Fin n → K) : ieEval f (t + h) (col x) h (col z) = some (col (0 : Fin n → K)) ↔ z = x + h • g (t + h) z := by
  rw [ieEval_col hf]
  constructor
  · intro e
    have := col_injective (Option.some.inj e)
    exact (sub_eq_zero.mp this).symm
  · intro e
    rw [← e, sub_self]

omit [LinearOrder K] [IsStrictOrderedRing K] in
theorem ieJac_repr {n : ℕ} {jac : Rhs K} {J : K → (Fin n → K) → Matrix (Fin n) (Fin n) K}
    (hJ : ∀ t x, ∃ A, jac t (col x) = some A ∧ Repr A (J t x)) (t h : K) :
    MatFunRepr (ieJac jac t h) (fun z => h • J t z - 1) := by
  intro z
  obtain ⟨A, hA, hR⟩ := hJ t z
  obtain ⟨B, hB, hB2⟩ := repr_sub (repr_mulScalar hR h) (repr_one n)
  refine ⟨B, ?_, hB2⟩
  simp only [ieJac, hA, Option.bind_eq_bind, Option.bind_some, col_m, hB]

/-- C46: when the given Jacobian is the derivative of the right-hand side, the Jacobian of the helper is the derivative of
    its residual. -/
theorem C46_jacobian {n : ℕ} {f jac : Rhs ℝ} {g : ℝ → (Fin n → ℝ) → (Fin n → ℝ)} (hf : RhsRepr f g)
    {J : ℝ → (Fin n → ℝ) → Matrix (Fin n) (Fin n) ℝ}
    (hJ : ∀ t x, ∃ A, jac t (col x) = some A ∧ Repr A (J t x)) (t h : ℝ) (x z : Fin n → ℝ)
    (hd : HasFDerivAt (g t) (LinearMap.toContinuousLinearMap (Matrix.toLin' (J t z))) z) :
    ∃ (r : (Fin n → ℝ) → (Fin n → ℝ)) (D : Matrix (Fin n) (Fin n) ℝ) (A : Mat ℝ),
      FunRepr (ieEval f t (col x) h) r ∧ ieJac jac t h (col z) = some A ∧ Repr A D ∧
      HasFDerivAt r (LinearMap.toContinuousLinearMap (Matrix.toLin' D)) z := by
  obtain ⟨A, hA, hR⟩ := ieJac_repr hJ t h z
  refine ⟨fun z => x + h • g t z - z, _, A, fun z => ieEval_col hf t x h z, hA, hR, ?_⟩
  have h1 := ((hd.const_smul h).const_add x).sub (hasFDerivAt_id z)
  refine h1.congr_fderiv ?_
  ext v i
  simp [Matrix.sub_mulVec, Matrix.smul_mulVec]

/-- C46: a returned step satisfies the equation up to the tolerance of the root finder: the Newton increment `d` of the
    residual `x + h f(t + h, z) - z` has norm below `10⁻⁸` (where the linear solver meets no zero pivot). -/
theorem C46_step {sqrt : K → K} (hs1 : ∀ a, 1 ≤ a → 1 ≤ sqrt a) {n : ℕ} {f jac : Rhs K}
    {g : K → (Fin n → K) → (Fin n → K)} (hf : RhsRepr f g)
    {J : K → (Fin n → K) → Matrix (Fin n) (Fin n) K}
    (hJ : ∀ t x, ∃ A, jac t (col x) = some A ∧ Repr A (J t x)) (t h : K) (x : Fin n → K) (v : Mat K)
    (hs : ieStep sqrt f jac t (col x) h = some v) :
    ∃ z d, v = col z ∧ (h • J (t + h) z - 1) *ᵥ d = x + h • g (t + h) z - z ∧
      sqrt (∑ i, d i * d i) < 1 / 10 ^ 8 := by
  simp only [ieStep, Option.bind_eq_bind, Option.bind_eq_some_iff] at hs
  obtain ⟨r, hr1, rfl⟩ := hs
  obtain ⟨z, d, e1, e2, e3, _⟩ := C47_residual hs1 (tol := 1 / 10 ^ 8)
    (by rw [div_le_one (by positivity)]; exact one_le_pow₀ (by norm_num))
    (fun z => ieEval_col hf (t + h) x h z) (ieJac_repr hJ (t + h) h) 100 x v hr1
  exact ⟨z, d, e1, e2, e3⟩

/-- C46: for a linear right-hand side `M x + c` the step does not fail, and it solves the equation exactly unless the
    state changes by less than the tolerance. -/
theorem C46_linear {sqrt : K → K} (hs0 : sqrt 0 = 0) {n : ℕ} {f jac : Rhs K} (M : Matrix (Fin n) (Fin n) K)
    (c : K → Fin n → K) (hf : RhsRepr f (fun t x => M *ᵥ x + c t))
    (hJ : ∀ t (x : Fin n → K), ∃ A, jac t (col x) = some A ∧ Repr A M) (t h : K) (hr : Regular (h • M - 1))
    (x : Fin n → K) :
    ∃ z, ieStep sqrt f jac t (col x) h = some (col z) ∧ (z = x + h • (M *ᵥ z + c (t + h)) ∨
      z = x ∧ ∃ d, x - d = x + h • (M *ᵥ (x - d) + c (t + h)) ∧ sqrt (∑ i, d i * d i) < 1 / 10 ^ 8) := by
  have key : ∀ z : Fin n → K, (h • M - 1) *ᵥ z = -(x + h • c (t + h)) ↔ z = x + h • (M *ᵥ z + c (t + h)) := by
    intro z
    rw [Matrix.sub_mulVec, Matrix.smul_mulVec, Matrix.one_mulVec, smul_add]
    generalize h • M *ᵥ z = a
    generalize h • c (t + h) = b
    rw [sub_eq_iff_eq_add, eq_comm (a := z)]
    constructor
    · intro e; rw [e]; abel
    · intro e; rw [← e]; abel
  obtain ⟨z, h1, h2⟩ := C47_affine_partial hs0 (tol := (1 : K) / 10 ^ 8) (by positivity)
    (eval := ieEval f (t + h) (col x) h) (jac := ieJac jac (t + h) h) (h • M - 1) (-(x + h • c (t + h)))
    (by
      intro z
      rw [ieEval_col hf]
      congr 2
      simp only
      rw [Matrix.sub_mulVec, Matrix.smul_mulVec, Matrix.one_mulVec, smul_add]
      abel)
    (ieJac_repr (J := fun _ _ => M) hJ (t + h) h) hr 100 (by norm_num) x
  refine ⟨z, ?_, ?_⟩
  · simp only [ieStep, h1, Option.bind_eq_bind, Option.bind_some]
  · rcases h2 with h2 | ⟨h2, d, h3, h4⟩
    · exact Or.inl ((key z).mp h2)
    · exact Or.inr ⟨h2, d, (key _).mp h3, h4⟩

/-- `x' = -4 x + 8`, `h = 1/4`: from `x = 1` to `x = 3/2` -/
example : ieStep Rat.sqrt (fun _ v => (v.mulScalar (-4)).add (col ![8])) (fun _ _ => some ⟨1, 1, [-4]⟩) 0 (col ![1]) (1/4) =
    some (col ![(3/2 : ℚ)]) := by decide +kernel

end Ode
end Verif
