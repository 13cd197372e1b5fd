import Verif.NewtonConv
import Verif.FloatSolve
import Verif.FloatHess

/-!
# Property C119: Newton's method with rounding

`findRoot` runs on `Fl R`; function and Jacobian are computed with errors of at most `εf` and `εJ`.
-/

namespace Verif
open Finset Matrix Rounding

variable {R : Rounding ℝ} {n : ℕ}

/-- the numbers of a vector of floating-point numbers -/
def fv (x : Fin n → Fl R) : Fin n → ℝ := fun i => (x i).val

/-- one step of Newton's method with a perturbed matrix and a perturbed right-hand side -/
theorem newton_perturbed {g : (Fin n → ℝ) → (Fin n → ℝ)} {J : (Fin n → ℝ) → Matrix (Fin n) (Fin n) ℝ}
    {z : Fin n → ℝ} {r L β : ℝ} (hroot : g z = 0) (hβ0 : 0 ≤ β)
    (hd : ∀ x, ‖x - z‖ ≤ r → HasFDerivAt g (LinearMap.toContinuousLinearMap (Matrix.toLin' (J x))) x)
    (hL : ∀ x y, ‖x - z‖ ≤ r → ‖y - z‖ ≤ r → ∀ v, ‖(J x - J y) *ᵥ v‖ ≤ L * ‖x - y‖ * ‖v‖)
    (hβ : ∀ x, ‖x - z‖ ≤ r → ∀ v, ‖v‖ ≤ β * ‖J x *ᵥ v‖) {x d : Fin n → ℝ} (hx : ‖x - z‖ ≤ r)
    {B : Matrix (Fin n) (Fin n) ℝ} {ε εf : ℝ} (hε : 0 ≤ ε) (hB : ∀ v, ‖(B - J x) *ᵥ v‖ ≤ ε * ‖v‖) (h : ‖B *ᵥ d - g x‖ ≤ εf) :
    (1 - β * ε) * ‖x - d - z‖ ≤ β * L / 2 * ‖x - z‖ ^ 2 + β * ε * ‖x - z‖ + β * εf := by
  have hin : ∀ s ∈ Set.Icc (0 : ℝ) 1, ‖x + s • (z - x) - z‖ ≤ r := fun s hs => by
    have e : x + s • (z - x) - z = (1 - s) • (x - z) := by
      rw [sub_smul, one_smul, smul_sub, smul_sub]; abel
    rw [e, norm_smul, Real.norm_eq_abs, abs_of_nonneg (by linarith [hs.2])]
    nlinarith [norm_nonneg (x - z), hs.1, hs.2]
  have h1 := taylor_quadratic (g := g) (g' := fun x => LinearMap.toContinuousLinearMap (Matrix.toLin' (J x)))
    (x := x) (y := z) (L := L) (fun s hs => hd _ (hin s hs)) (fun s hs => by
      have := hL _ x (hin s hs) hx (z - x)
      simpa [Matrix.sub_mulVec] using this)
  have h1' : ‖g z - g x - J x *ᵥ (z - x)‖ ≤ L / 2 * ‖x - z‖ ^ 2 := by
    rw [norm_sub_rev x z]
    simpa using h1
  have h2 : J x *ᵥ (x - d - z) = (g z - g x - J x *ᵥ (z - x)) + (B - J x) *ᵥ d - (B *ᵥ d - g x) := by
    rw [hroot, Matrix.sub_mulVec, show x - d - z = -(z - x) - d by abel, Matrix.mulVec_sub, Matrix.mulVec_neg]
    abel
  have h3 : ‖d‖ ≤ ‖x - z‖ + ‖x - d - z‖ := by
    have := norm_sub_le (x - z) (x - d - z)
    rwa [show x - z - (x - d - z) = d by abel] at this
  have h4 : ‖J x *ᵥ (x - d - z)‖ ≤ L / 2 * ‖x - z‖ ^ 2 + ε * (‖x - z‖ + ‖x - d - z‖) + εf := by
    rw [h2]
    refine (norm_sub_le _ _).trans (add_le_add ((norm_add_le _ _).trans (add_le_add ?_ ?_)) h)
    · exact h1'
    · exact (hB d).trans (mul_le_mul_of_nonneg_left h3 hε)
  have h5 := (hβ x hx (x - d - z)).trans (mul_le_mul_of_nonneg_left h4 hβ0)
  nlinarith

theorem col_sub_fl (x y : Fin n → Fl R) : (col x).sub (col y) = some (col (fun i => x i - y i)) := by
  obtain ⟨u, hu, hi⟩ := Mat.sub_is (col_is x) (col_is y)
  rw [hu]
  exact congrArg some (hi.colRepr_of (fun i => by simp [extV_apply]))

/-- a matrix with bounded row sums -/
theorem mulVec_norm_le {E : Matrix (Fin n) (Fin n) ℝ} {ρ : ℝ} (hρ : 0 ≤ ρ) (h : ∀ i, ∑ j, |E i j| ≤ ρ) (v : Fin n → ℝ) :
    ‖E *ᵥ v‖ ≤ ρ * ‖v‖ := by
  rw [pi_norm_le_iff_of_nonneg (mul_nonneg hρ (norm_nonneg _))]
  intro i
  rw [Real.norm_eq_abs, Matrix.mulVec, dotProduct]
  calc |∑ j, E i j * v j| ≤ ∑ j, |E i j| * ‖v‖ := by
        refine (abs_sum_le_sum_abs _ _).trans (sum_le_sum fun j _ => ?_)
        rw [abs_mul]
        exact mul_le_mul_of_nonneg_left (norm_le_pi_norm v j) (abs_nonneg _)
    _ = (∑ j, |E i j|) * ‖v‖ := by rw [sum_mul]
    _ ≤ _ := mul_le_mul_of_nonneg_right (h i) (norm_nonneg _)

/-- The data of the theorem: `g` has the root `z`, the derivative `J`, Lipschitz with the constant `L` and with an inverse bounded by
`β` in the ball of radius `r`; the computed function is off by at most `εf`, the computed Jacobian by `εJ`, its decomposition meets no
zero pivot and the product of the absolute values of the computed factors has row sums of at most `ρ`. -/
structure NewtonFl (eval jac : Mat (Fl R) → Option (Mat (Fl R))) (g : (Fin n → ℝ) → (Fin n → ℝ))
    (J : (Fin n → ℝ) → Matrix (Fin n) (Fin n) ℝ) (z : Fin n → ℝ) (r L β εf εJ ρ : ℝ) : Prop where
  root : g z = 0
  β_nonneg : 0 ≤ β
  L_nonneg : 0 ≤ L
  εf_nonneg : 0 ≤ εf
  εJ_nonneg : 0 ≤ εJ
  ρ_nonneg : 0 ≤ ρ
  deriv : ∀ x, ‖x - z‖ ≤ r → HasFDerivAt g (LinearMap.toContinuousLinearMap (Matrix.toLin' (J x))) x
  lip : ∀ x y, ‖x - z‖ ≤ r → ‖y - z‖ ≤ r → ∀ v, ‖(J x - J y) *ᵥ v‖ ≤ L * ‖x - y‖ * ‖v‖
  inv : ∀ x, ‖x - z‖ ≤ r → ∀ v, ‖v‖ ≤ β * ‖J x *ᵥ v‖
  eval : ∀ x : Fin n → Fl R, ‖fv x - z‖ ≤ r → ∃ y : Fin n → Fl R, eval (col x) = some (col y) ∧
    (∀ i, R.rnd (y i).val = (y i).val) ∧ ‖fv y - g (fv x)‖ ≤ εf
  jac : ∀ x : Fin n → Fl R, ‖fv x - z‖ ≤ r → ∃ (A : Mat (Fl R)) (M : Matrix (Fin n) (Fin n) (Fl R)), jac (col x) = some A ∧ Repr A M ∧
    (∀ i, ∑ j, |(M i j).val - J (fv x) i j| ≤ εJ) ∧
    ∀ l u p (Lm U : Matrix (Fin n) (Fin n) (Fl R)), A.decLU = some (l, u, p) → Repr l Lm → Repr u U →
      (∀ i, U i i ≠ 0) ∧ ∀ i, ∑ j, ∑ k, |(Lm i k).val| * |(U k j).val| ≤ ρ

variable {eval jac : Mat (Fl R) → Option (Mat (Fl R))} {g : (Fin n → ℝ) → (Fin n → ℝ)}
  {J : (Fin n → ℝ) → Matrix (Fin n) (Fin n) ℝ} {z : Fin n → ℝ} {r L β εf εJ ρ : ℝ}

/-- **C119, one step**: the error is squared, up to the relative error of the linear solver and an error that cannot be avoided. -/
theorem C119_step (h : NewtonFl eval jac g J z r L β εf εJ ρ) (hu : R.u ≤ 1 / 8)
    (hε : β * (εJ + ((1 + R.u) ^ (3 * n) - 1) * ρ) ≤ 1 / 8) (x : Fin n → Fl R) (hx : ‖fv x - z‖ ≤ r) :
    ∃ x' : Fin n → Fl R, newtonStep eval jac (col x) = some (col x') ∧
      ‖fv x' - z‖ ≤ 2 / 3 * (β * L) * ‖fv x - z‖ ^ 2 + 4 / 3 * (β * (εJ + ((1 + R.u) ^ (3 * n) - 1) * ρ)) * ‖fv x - z‖ +
        (2 * β * εf + R.u * ‖z‖) := by
  have u0 := R.u_nonneg
  obtain ⟨y, y1, y2, y3⟩ := h.eval x hx
  obtain ⟨A, M, a1, a2, a3, a4⟩ := h.jac x hx
  obtain ⟨l, u, p, Lm, U, -, -, l1, l2, l3, -⟩ := C90_lu a2
  obtain ⟨hd, hρ⟩ := a4 l u p Lm U l1 l2 l3
  obtain ⟨w, d, s1, s2, σ, -, E, s4, s5⟩ := C90_solve_vector a2 (b := col y) (y := y) rfl l1 l2 l3 hd y2
  rw [colRepr_iff.mp s2] at s1
  set γ := (1 + R.u) ^ (3 * n) - 1 with hγ
  have γ0 : 0 ≤ γ := by
    have : (1 : ℝ) ≤ (1 + R.u) ^ (3 * n) := one_le_pow₀ (by linarith)
    linarith
  set ε := εJ + γ * ρ with hεd
  have ε0 : 0 ≤ ε := add_nonneg h.εJ_nonneg (mul_nonneg γ0 h.ρ_nonneg)
  let B : Matrix (Fin n) (Fin n) ℝ := fun i j => (M i j).val + E i j
  have hB : ∀ v, ‖(B - J (fv x)) *ᵥ v‖ ≤ ε * ‖v‖ := by
    refine mulVec_norm_le ε0 fun i => ?_
    calc ∑ j, |(B - J (fv x)) i j| ≤ ∑ j, (|(M i j).val - J (fv x) i j| + γ * ∑ k, |(Lm (σ.symm i) k).val| * |(U k j).val|) := by
          refine sum_le_sum fun j _ => ?_
          have e : (B - J (fv x)) i j = ((M i j).val - J (fv x) i j) + E i j := by
            change (M i j).val + E i j - J (fv x) i j = _
            ring
          rw [e]
          exact (abs_add_le _ _).trans (add_le_add le_rfl (s4 i j))
      _ ≤ ε := by
          rw [sum_add_distrib, ← mul_sum]
          exact add_le_add (a3 i) (mul_le_mul_of_nonneg_left (hρ _) γ0)
  have hres : ‖B *ᵥ fv d - g (fv x)‖ ≤ εf := by
    have : B *ᵥ fv d = fv y := by
      funext i
      exact s5 i
    rw [this]
    exact y3
  have key := newton_perturbed h.root h.β_nonneg h.deriv h.lip h.inv hx ε0 hB hres
  refine ⟨fun i => x i - d i, ?_, ?_⟩
  · simp only [newtonStep, y1, a1, s1, Option.bind_eq_bind, Option.bind_some, col_sub_fl]
  · set e := ‖fv x - z‖ with he
    set f := ‖fv x - fv d - z‖ with hf
    have e0 : 0 ≤ e := norm_nonneg _
    have f0 : 0 ≤ f := norm_nonneg _
    have hrnd : ‖fv (fun i => x i - d i) - (fv x - fv d)‖ ≤ R.u * (‖z‖ + f) := by
      rw [pi_norm_le_iff_of_nonneg (by positivity)]
      intro i
      have k1 := R.err ((x i).val - (d i).val)
      have k2 : |(x i).val - (d i).val| ≤ ‖z‖ + f := by
        have := (norm_le_pi_norm (fv x - fv d) i).trans (show ‖fv x - fv d‖ ≤ ‖z‖ + f by
          have := norm_add_le z (fv x - fv d - z)
          rwa [add_sub_cancel] at this)
        exact this
      exact k1.trans (mul_le_mul_of_nonneg_left k2 u0)
    have htri : ‖fv (fun i => x i - d i) - z‖ ≤ R.u * (‖z‖ + f) + f := by
      have := norm_add_le (fv (fun i => x i - d i) - (fv x - fv d)) (fv x - fv d - z)
      rw [sub_add_sub_cancel] at this
      linarith
    have h1 : 7 / 8 * f ≤ (1 - β * ε) * f := mul_le_mul_of_nonneg_right (by linarith) f0
    have h2 : f * R.u ≤ f * (1 / 8) := mul_le_mul_of_nonneg_left hu f0
    have p1 : 0 ≤ β * L * e ^ 2 := mul_nonneg (mul_nonneg h.β_nonneg h.L_nonneg) (sq_nonneg _)
    have p2 : 0 ≤ β * ε * e := mul_nonneg (mul_nonneg h.β_nonneg ε0) e0
    have p3 : 0 ≤ β * εf := mul_nonneg h.β_nonneg h.εf_nonneg
    nlinarith

/-- the norm of the increment that is compared with the tolerance -/
theorem increment_fl {sqrt : Fl R → Fl R} (hs : FlSqrt sqrt) (hu : R.u < 1) (x y : Fin n → Fl R) :
    ∃ d s, (col x).sub (col y) = some d ∧ d.norm2 sqrt = some s ∧ ‖fv x - fv y‖ ≤ (1 + R.u) ^ (n + 3) * s.val ∧
      s.val ≤ (1 + R.u) ^ (n + 3) * (Real.sqrt n * ‖fv x - fv y‖) := by
  have u0 := R.u_nonneg
  have hu1 : (0 : ℝ) < 1 + R.u := by linarith
  let d : Fin n → Fl R := fun i => x i - y i
  have e2 := norm2_accum (sqrt := sqrt) (col_is d)
  refine ⟨_, _, col_sub_fl x y, e2, ?_⟩
  set s := sqrt (Mat.accum (fun i => extV d i * extV d i) n) with hsd
  have h1 : R.Near (n + 2) s.val √(∑ i ∈ range n, (extV d i).val * (extV d i).val) :=
    (near_squares hu (fun i => extV d i) n).flsqrt hs hu
  have h2 : ∑ i ∈ range n, (extV d i).val * (extV d i).val = ∑ i, fv d i * fv d i := by
    rw [← Fin.sum_univ_eq_sum_range (fun i => (extV d i).val * (extV d i).val)]
    simp only [extV_apply, fv]
  rw [h2] at h1
  have hd1 : ‖fv x - fv y‖ ≤ (1 + R.u) * ‖fv d‖ := by
    rw [pi_norm_le_iff_of_nonneg (by positivity)]
    intro i
    have k1 := R.err' ((x i).val - (y i).val)
    have k2 : |R.rnd ((x i).val - (y i).val)| ≤ ‖fv d‖ := norm_le_pi_norm (fv d) i
    have k3 := abs_sub_abs_le_abs_sub ((x i).val - (y i).val) (R.rnd ((x i).val - (y i).val))
    rw [abs_sub_comm ((x i).val - (y i).val)] at k3
    change |(x i).val - (y i).val| ≤ _
    nlinarith
  have hd2 : ‖fv d‖ ≤ (1 + R.u) * ‖fv x - fv y‖ := by
    rw [pi_norm_le_iff_of_nonneg (by positivity)]
    intro i
    have k1 := R.err ((x i).val - (y i).val)
    have k2 : |(x i).val - (y i).val| ≤ ‖fv x - fv y‖ := norm_le_pi_norm (fv x - fv y) i
    have k3 := abs_sub_abs_le_abs_sub (R.rnd ((x i).val - (y i).val)) ((x i).val - (y i).val)
    change |R.rnd ((x i).val - (y i).val)| ≤ _
    nlinarith
  obtain ⟨-, h3, h4⟩ := h1
  constructor
  · calc ‖fv x - fv y‖ ≤ (1 + R.u) * ‖fv d‖ := hd1
      _ ≤ (1 + R.u) * ((1 + R.u) ^ (n + 2) * s.val) :=
          mul_le_mul_of_nonneg_left ((norm_le_norm2 (fv d)).trans h4) hu1.le
      _ = _ := by ring
  · calc s.val ≤ (1 + R.u) ^ (n + 2) * √(∑ i, fv d i * fv d i) := h3
      _ ≤ (1 + R.u) ^ (n + 2) * (√n * ((1 + R.u) * ‖fv x - fv y‖)) :=
          mul_le_mul_of_nonneg_left ((norm2_le _).trans (mul_le_mul_of_nonneg_left hd2 (Real.sqrt_nonneg _))) (by positivity)
      _ = _ := by ring

/-- the error is halved, up to the error that cannot be avoided -/
theorem newton_half (h : NewtonFl eval jac g J z r L β εf εJ ρ) (hu : R.u ≤ 1 / 8)
    (hε : β * (εJ + ((1 + R.u) ^ (3 * n) - 1) * ρ) ≤ 1 / 8) (hr : β * L * r ≤ 1 / 2) (x : Fin n → Fl R) (hx : ‖fv x - z‖ ≤ r) :
    ∃ x' : Fin n → Fl R, newtonStep eval jac (col x) = some (col x') ∧ ‖fv x' - z‖ ≤ 1 / 2 * ‖fv x - z‖ + (2 * β * εf + R.u * ‖z‖) := by
  obtain ⟨x', h1, h2⟩ := C119_step h hu hε x hx
  refine ⟨x', h1, h2.trans ?_⟩
  have e0 := norm_nonneg (fv x - z)
  have p1 : β * L * ‖fv x - z‖ ^ 2 ≤ 1 / 2 * ‖fv x - z‖ := by
    have : β * L * ‖fv x - z‖ ≤ β * L * r := mul_le_mul_of_nonneg_left hx (mul_nonneg h.β_nonneg h.L_nonneg)
    have := mul_le_mul_of_nonneg_right (this.trans hr) e0
    linarith
  have p2 := mul_le_mul_of_nonneg_right hε e0
  linarith

/-- **C119, accuracy**: whenever `find_root` returns `Ok(x)`, then `x` is as accurate as the tolerance and the errors of the function
allow; and it never panics when started in the ball. -/
theorem C119_accuracy {sqrt : Fl R → Fl R} (hs : FlSqrt sqrt) (h : NewtonFl eval jac g J z r L β εf εJ ρ) (hu : R.u ≤ 1 / 8)
    (hε : β * (εJ + ((1 + R.u) ^ (3 * n) - 1) * ρ) ≤ 1 / 8) (hr : β * L * r ≤ 1 / 2) (hτ : 2 * (2 * β * εf + R.u * ‖z‖) ≤ r)
    (tol : Fl R) (iters : ℕ) (x₀ : Fin n → Fl R) (hx₀ : ‖fv x₀ - z‖ ≤ r) :
    ∃ o, findRoot sqrt tol eval jac iters (col x₀) = some o ∧ ∀ y, o = some y → ∃ x : Fin n → Fl R, y = col x ∧
      ‖fv x - z‖ ≤ 2 * (1 + R.u) ^ (n + 3) * tol.val + 2 * (2 * β * εf + R.u * ‖z‖) := by
  induction iters generalizing x₀ with
  | zero => exact ⟨none, rfl, by simp⟩
  | succ k ih =>
    obtain ⟨x', h1, h2⟩ := newton_half h hu hε hr x₀ hx₀
    obtain ⟨d, s, h3, h4, h5, -⟩ := increment_fl hs (by linarith) x₀ x'
    by_cases hlt : s < tol
    · refine ⟨some (col x₀), ?_, ?_⟩
      · simp only [findRoot, h1, h3, h4, Option.bind_eq_bind, Option.bind_some, if_pos hlt]
      · rintro y ⟨⟩
        refine ⟨x₀, rfl, ?_⟩
        have hlt' : s.val ≤ tol.val := (Fl.le_iff _ _).1 hlt.le
        have k1 := norm_add_le (fv x₀ - fv x') (fv x' - z)
        rw [sub_add_sub_cancel] at k1
        have k2 := mul_le_mul_of_nonneg_left hlt' (by have := R.u_nonneg; positivity : 0 ≤ (1 + R.u) ^ (n + 3))
        linarith
    · obtain ⟨o, o1, o2⟩ := ih x' (by linarith)
      exact ⟨o, by simp only [findRoot, h1, h3, h4, Option.bind_eq_bind, Option.bind_some, if_neg hlt]; exact o1, o2⟩

/-- **C119, success**: if the tolerance is not below the error that cannot be avoided, `Ok` is returned after
`log₂ (√n r / tol)` iterations. -/
theorem C119_returns {sqrt : Fl R → Fl R} (hs : FlSqrt sqrt) (h : NewtonFl eval jac g J z r L β εf εJ ρ) (hu : R.u ≤ 1 / 8)
    (hε : β * (εJ + ((1 + R.u) ^ (3 * n) - 1) * ρ) ≤ 1 / 8) (hr : β * L * r ≤ 1 / 2) (hτ : 2 * (2 * β * εf + R.u * ‖z‖) ≤ r)
    (tol : Fl R) (iters : ℕ) (x₀ : Fin n → Fl R) (hx₀ : ‖fv x₀ - z‖ ≤ r)
    (hit : ∃ k < iters, (1 + R.u) ^ (n + 3) * (Real.sqrt n * (3 / 2 * (1 / 2) ^ k * r + 4 * (2 * β * εf + R.u * ‖z‖))) < tol.val) :
    ∃ x : Fin n → Fl R, findRoot sqrt tol eval jac iters (col x₀) = some (some (col x)) ∧
      ‖fv x - z‖ ≤ 2 * (1 + R.u) ^ (n + 3) * tol.val + 2 * (2 * β * εf + R.u * ‖z‖) := by
  set τ := 2 * β * εf + R.u * ‖z‖ with hτd
  suffices hok : ∀ k iters (x₀ : Fin n → Fl R) (q : ℝ), k < iters → ‖fv x₀ - z‖ ≤ q + 2 * τ → q + 2 * τ ≤ r ∨ ‖fv x₀ - z‖ ≤ r →
      (1 + R.u) ^ (n + 3) * (Real.sqrt n * (3 / 2 * ((1 / 2) ^ k * q) + 4 * τ)) < tol.val →
      ∃ y, findRoot sqrt tol eval jac iters (col x₀) = some (some y) by
    obtain ⟨k, hk, hlt⟩ := hit
    have τ0 : 0 ≤ τ := by
      have := R.u_nonneg
      have := mul_nonneg h.β_nonneg h.εf_nonneg
      have : 0 ≤ R.u * ‖z‖ := by positivity
      rw [hτd]; linarith
    obtain ⟨y, hy⟩ := hok k iters x₀ r hk (by linarith) (Or.inr hx₀) (by rw [show 3 / 2 * ((1 / 2) ^ k * r) = 3 / 2 * (1 / 2) ^ k * r by ring]; exact hlt)
    obtain ⟨o, o1, o2⟩ := C119_accuracy hs h hu hε hr hτ tol iters x₀ hx₀
    rw [hy] at o1
    obtain ⟨x, rfl, h2⟩ := o2 y (Option.some.inj o1).symm
    exact ⟨x, hy, h2⟩
  intro k
  induction k with
  | zero =>
    rintro iters x₀ q hk hq hb hlt
    obtain ⟨i, rfl⟩ : ∃ i, iters = i + 1 := ⟨iters - 1, by omega⟩
    have hx : ‖fv x₀ - z‖ ≤ r := hb.elim (fun h => hq.trans h) id
    obtain ⟨x', h1, h2⟩ := newton_half h hu hε hr x₀ hx
    obtain ⟨d, s, h3, h4, -, h6⟩ := increment_fl hs (by linarith) x₀ x'
    have hs' : s < tol := by
      rw [← not_le, Fl.le_iff, not_le]
      refine lt_of_le_of_lt h6 (lt_of_le_of_lt (mul_le_mul_of_nonneg_left (mul_le_mul_of_nonneg_left ?_ (Real.sqrt_nonneg _))
        (by have := R.u_nonneg; positivity)) hlt)
      have k1 := norm_sub_le (fv x₀ - z) (fv x' - z)
      rw [sub_sub_sub_cancel_right] at k1
      norm_num
      linarith
    exact ⟨col x₀, by simp only [findRoot, h1, h3, h4, Option.bind_eq_bind, Option.bind_some, if_pos hs']⟩
  | succ k ih =>
    rintro iters x₀ q hk hq hb hlt
    obtain ⟨i, rfl⟩ : ∃ i, iters = i + 1 := ⟨iters - 1, by omega⟩
    have hx : ‖fv x₀ - z‖ ≤ r := hb.elim (fun h => hq.trans h) id
    obtain ⟨x', h1, h2⟩ := newton_half h hu hε hr x₀ hx
    obtain ⟨d, s, h3, h4, -, h6⟩ := increment_fl hs (by linarith) x₀ x'
    by_cases hlt' : s < tol
    · exact ⟨col x₀, by simp only [findRoot, h1, h3, h4, Option.bind_eq_bind, Option.bind_some, if_pos hlt']⟩
    · obtain ⟨y, hy⟩ := ih i x' (q / 2) (by omega) (by linarith) (Or.inr (by linarith)) (by
        rw [pow_succ] at hlt
        rwa [show (1 / 2 : ℝ) ^ k * (q / 2) = (1 / 2) ^ k * (1 / 2) * q by ring])
      exact ⟨y, by simp only [findRoot, h1, h3, h4, Option.bind_eq_bind, Option.bind_some, if_neg hlt']; exact hy⟩

/-! ### The square root of two -/

/-- `x² - 2` as a user would write it -/
def sqEval {K : Type} [Mul K] [Sub K] (c : K) (v : Mat K) : Option (Mat K) := do
  let x ← v.vget 0
  some ⟨1, 1, [x * x - c]⟩

/-- its Jacobian -/
def sqJac {K : Type} [Add K] (v : Mat K) : Option (Mat K) := do
  let x ← v.vget 0
  some ⟨1, 1, [x + x]⟩

theorem decLU_one (a : Fl R) : (⟨1, 1, [a]⟩ : Mat (Fl R)).decLU = some (Mat.one 1, ⟨1, 1, [a]⟩, Mat.one 1) := by
  simp [Mat.decLU, forRange, Mat.luStep, Mat.one, Mat.pivotLoop, Mat.pivotSwap, Mat.get, Mat.set, Mat.put]

/-- the assumptions hold for `x² - 2` around its root with `εf = 9 u`, `εJ = 4 u` -/
theorem sq_newton (hu : R.u ≤ 1 / 1000) : NewtonFl (R := R) (n := 1) (sqEval ⟨2⟩) sqJac (fun x => ![x 0 * x 0 - 2]) (fun x => !![2 * x 0])
    ![√2] (1 / 4) 2 (1 / 2) (9 * R.u) (4 * R.u) 5 := by
  have u0 := R.u_nonneg
  have s1 : (1.4 : ℝ) < √2 := Real.lt_sqrt_of_sq_lt (by norm_num)
  have s2 : √2 < (1.42 : ℝ) := by rw [Real.sqrt_lt' (by norm_num)]; norm_num
  have hv : ∀ x : Fin 1 → Fl R, (col x).vget 0 = some (x 0) := fun x => by simp [col, Mat.vget, Mat.get]
  have n1 : ∀ v : Fin 1 → ℝ, ‖v‖ = |v 0| := fun v => by
    rw [Pi.norm_def]; simp
  have hb : ∀ x : Fin 1 → ℝ, ‖x - ![√2]‖ ≤ 1 / 4 → 1 ≤ x 0 ∧ x 0 ≤ 7 / 4 := fun x hx => by
    rw [n1] at hx
    simp only [Pi.sub_apply, Matrix.cons_val_zero, abs_le] at hx
    constructor <;> linarith [hx.1, hx.2]
  refine ⟨?_, by norm_num, by norm_num, by linarith, by linarith, by norm_num, ?_, ?_, ?_, ?_, ?_⟩
  · funext i; fin_cases i
    change √2 * √2 - 2 = (0 : ℝ)
    rw [Real.mul_self_sqrt (by norm_num)]; norm_num
  · intro x _
    rw [hasFDerivAt_pi']
    intro i
    fin_cases i
    have h0 : HasFDerivAt (fun x : Fin 1 → ℝ => x 0) (ContinuousLinearMap.proj (R := ℝ) (φ := fun _ : Fin 1 => ℝ) 0) x :=
      (ContinuousLinearMap.proj (R := ℝ) (φ := fun _ : Fin 1 => ℝ) 0).hasFDerivAt
    have := (h0.mul h0).sub_const 2
    refine this.congr_fderiv ?_
    ext v
    simp [dotProduct]
    ring
  · intro x y _ _ v
    rw [n1, n1, n1]
    simp only [Matrix.mulVec, dotProduct, Fin.sum_univ_one, Matrix.sub_apply, Pi.sub_apply]
    change |(2 * x 0 - 2 * y 0) * v 0| ≤ _
    rw [abs_mul, ← mul_sub, abs_mul, abs_of_pos (by norm_num : (0 : ℝ) < 2)]
  · intro x hx v
    obtain ⟨h1, -⟩ := hb x hx
    rw [n1, n1]
    simp only [Matrix.mulVec, dotProduct, Fin.sum_univ_one]
    change |v 0| ≤ 1 / 2 * |2 * x 0 * v 0|
    rw [abs_mul, abs_of_nonneg (by linarith : 0 ≤ 2 * x 0)]
    nlinarith [abs_nonneg (v 0)]
  · intro x hx
    obtain ⟨h1, h2⟩ := hb (fv x) hx
    change 1 ≤ (x 0).val at h1
    change (x 0).val ≤ 7 / 4 at h2
    refine ⟨fun _ => x 0 * x 0 - ⟨2⟩, ?_, fun i => R.idem _, ?_⟩
    · simp only [sqEval, hv, Option.bind_eq_bind, Option.bind_some]
      rfl
    · rw [n1]
      change |R.rnd (R.rnd ((x 0).val * (x 0).val) - 2) - ((x 0).val * (x 0).val - 2)| ≤ _
      set t := (x 0).val * (x 0).val with ht
      have t1 : 1 ≤ t := by nlinarith
      have t2 : t ≤ 4 := by nlinarith
      have k1 := R.err t
      rw [abs_of_pos (show 0 < t by linarith)] at k1
      have k2 := R.err (R.rnd t - 2)
      have k3 := abs_le.1 k1
      have k4 : |R.rnd t - 2| ≤ 3 := by
        rw [abs_le]
        constructor <;> nlinarith
      have k5 := abs_sub_le (R.rnd (R.rnd t - 2)) (R.rnd t - 2) (t - 2)
      rw [sub_sub_sub_cancel_right] at k5
      nlinarith
  · intro x hx
    obtain ⟨h1, h2⟩ := hb (fv x) hx
    change 1 ≤ (x 0).val at h1
    change (x 0).val ≤ 7 / 4 at h2
    have k1 := R.err ((x 0).val + (x 0).val)
    rw [abs_of_pos (show 0 < (x 0).val + (x 0).val by linarith)] at k1
    have k2 := abs_le.1 k1
    refine ⟨⟨1, 1, [x 0 + x 0]⟩, !![x 0 + x 0], ?_, ?_, ?_, ?_⟩
    · simp only [sqJac, hv, Option.bind_eq_bind, Option.bind_some]
    · refine ⟨rfl, rfl, rfl, fun i j => ?_⟩
      fin_cases i; fin_cases j; rfl
    · intro i
      fin_cases i
      simp only [Fin.sum_univ_one]
      change |R.rnd ((x 0).val + (x 0).val) - 2 * (x 0).val| ≤ _
      rw [show 2 * (x 0).val = (x 0).val + (x 0).val by ring]
      nlinarith
    · intro l u p Lm U hd hl hU
      rw [decLU_one] at hd
      cases hd
      have e1 : Lm 0 0 = 1 := by
        have := hl.is.get (i := 0) (j := 0) one_pos one_pos
        rw [extM_lt Lm one_pos one_pos] at this
        exact (Option.some.inj this).symm
      have e2 : U 0 0 = x 0 + x 0 := by
        have := hU.is.get (i := 0) (j := 0) one_pos one_pos
        rw [extM_lt U one_pos one_pos] at this
        exact (Option.some.inj this).symm
      have e3 : (x 0 + x 0).val = R.rnd ((x 0).val + (x 0).val) := rfl
      constructor
      · intro i
        fin_cases i
        change U 0 0 ≠ 0
        rw [e2, Ne, Fl.eq_zero_iff, e3]
        nlinarith
      · intro i
        fin_cases i
        simp only [Fin.sum_univ_one]
        change |(Lm 0 0).val| * |(U 0 0).val| ≤ 5
        rw [e1, e2, e3, Fl.one_val, abs_one, one_mul, abs_le]
        constructor <;> nlinarith

/-- `find_root` for `x² - 2` with `f64` (any rounding with `u ≤ 2⁻⁵³`), the tolerance `10⁻⁸` and any start between `1.2` and `1.6`:
the result is `√2` up to `3 · 10⁻⁸` -/
example {sqrt : Fl R → Fl R} (hs : FlSqrt sqrt) (hu : R.u ≤ 1 / 2 ^ 53) (x₀ : Fl R) (h1 : 1.2 ≤ x₀.val) (h2 : x₀.val ≤ 1.6) :
    ∃ x : Fl R, findRoot sqrt ⟨1 / 10 ^ 8⟩ (sqEval ⟨2⟩) sqJac 100 ⟨1, 1, [x₀]⟩ = some (some ⟨1, 1, [x]⟩) ∧ |x.val - √2| ≤ 3 / 10 ^ 8 := by
  have u0 := R.u_nonneg
  have hu' : R.u ≤ 1 / 10 ^ 15 := hu.trans (by norm_num)
  have s1 : (1.4 : ℝ) < √2 := Real.lt_sqrt_of_sq_lt (by norm_num)
  have s2 : √2 < (1.42 : ℝ) := by rw [Real.sqrt_lt' (by norm_num)]; norm_num
  have n1 : ∀ v : Fin 1 → ℝ, ‖v‖ = |v 0| := fun v => by
    rw [Pi.norm_def]; simp
  have hz : ‖(![√2] : Fin 1 → ℝ)‖ = √2 := by
    rw [n1]; exact abs_of_pos (show (0 : ℝ) < √2 by linarith)
  have p3 : (1 + R.u) ^ (3 * 1) - 1 ≤ 4 * R.u := by
    rw [show (1 + R.u) ^ (3 * 1) - 1 = R.u * (3 + 3 * R.u + R.u * R.u) by ring, mul_comm]
    refine mul_le_mul_of_nonneg_right ?_ u0
    nlinarith
  have p3' : 0 ≤ (1 + R.u) ^ (3 * 1) - 1 := by
    have : (1 : ℝ) ≤ (1 + R.u) ^ (3 * 1) := one_le_pow₀ (by linarith)
    linarith
  have p4 : (1 + R.u) ^ (1 + 3) ≤ 1.01 := by
    have : (1 + R.u) ^ (1 + 3) ≤ (1 + 1 / 10 ^ 15) ^ (1 + 3) := pow_le_pow_left₀ (by linarith) (by linarith) _
    exact this.trans (by norm_num)
  have p4' : 0 ≤ (1 + R.u) ^ (1 + 3) := by positivity
  set P := (1 + R.u) ^ (1 + 3)
  have t1 : R.u * √2 ≤ 2 * R.u := by nlinarith
  have t2 : 0 ≤ R.u * √2 := by positivity
  have hG : 1 / 2 * (4 * R.u + ((1 + R.u) ^ (3 * 1) - 1) * 5) ≤ 1 / 8 := by
    set G := (1 + R.u) ^ (3 * 1) - 1
    linarith
  obtain ⟨x, e1, e2⟩ := C119_returns (n := 1) hs (sq_newton (R := R) (by linarith)) (by linarith) hG (by norm_num)
    (by rw [hz]; linarith) ⟨1 / 10 ^ 8⟩ 100 (fun _ => x₀) (by
      rw [n1]
      change |x₀.val - √2| ≤ _
      rw [abs_le]
      constructor <;> linarith) ⟨30, by norm_num, by
      rw [hz, Nat.cast_one, Real.sqrt_one, one_mul]
      change P * _ < (1 / 10 ^ 8 : ℝ)
      have : 3 / 2 * (1 / 2) ^ 30 * (1 / 4) + 4 * (2 * (1 / 2) * (9 * R.u) + R.u * √2) ≤ 5 / 10 ^ 10 := by
        have e : (3 / 2 * (1 / 2) ^ 30 * (1 / 4) : ℝ) ≤ 4 / 10 ^ 10 := by norm_num
        linarith
      have := mul_le_mul p4 this (by positivity) (by norm_num)
      linarith⟩
  refine ⟨x 0, e1, ?_⟩
  rw [n1, hz] at e2
  change |(x 0).val - √2| ≤ 2 * P * (1 / 10 ^ 8) + _ at e2
  linarith

/-- **C119** is violated when the tolerance is below the spacing of the numbers: for `x² - 2` in `f64` the iterates alternate between
the two neighbours of the root, and `find_root` returns `Err` for every number of iterations, although no better approximation
exists. (Of the square root only the value at `2⁻¹⁰⁴` is used.) -/
theorem C119_tolerance_violated {sqrt : Fl f64 → Fl f64} (hs : sqrt ⟨1 / 2 ^ 104⟩ = ⟨1 / 2 ^ 52⟩) (tol : Fl f64) (ht : tol.val ≤ 1 / 2 ^ 52)
    (iters : ℕ) :
    findRoot sqrt tol (sqEval ⟨2⟩) sqJac iters ⟨1, 1, [⟨6369051672525772 / 2 ^ 52⟩]⟩ = some none ∧
      (6369051672525772 / 2 ^ 52 : ℚ) ^ 2 < 2 ∧ 2 < (6369051672525773 / 2 ^ 52 : ℚ) ^ 2 := by
  refine ⟨?_, by norm_num, by norm_num⟩
  have hg : ∀ d : Mat (Fl f64), Mat.norm2 sqrt d = (Mat.norm2 id d).map sqrt := by
    intro d
    unfold Mat.norm2
    cases forRange 0 (d.m * d.n) (fun sum i => do
      let b ← d.vget i
      some (sum + b * b)) (0 : Fl f64) <;> rfl
  have a1 : newtonStep (sqEval ⟨2⟩) sqJac (⟨1, 1, [⟨6369051672525772 / 2 ^ 52⟩]⟩ : Mat (Fl f64)) =
    some ⟨1, 1, [⟨6369051672525773 / 2 ^ 52⟩]⟩ := by decide +kernel
  have a2 : newtonStep (sqEval ⟨2⟩) sqJac (⟨1, 1, [⟨6369051672525773 / 2 ^ 52⟩]⟩ : Mat (Fl f64)) =
    some ⟨1, 1, [⟨6369051672525772 / 2 ^ 52⟩]⟩ := by decide +kernel
  have b1 : (⟨1, 1, [⟨6369051672525772 / 2 ^ 52⟩]⟩ : Mat (Fl f64)).sub ⟨1, 1, [⟨6369051672525773 / 2 ^ 52⟩]⟩ =
    some ⟨1, 1, [⟨-1 / 2 ^ 52⟩]⟩ := by decide +kernel
  have b2 : (⟨1, 1, [⟨6369051672525773 / 2 ^ 52⟩]⟩ : Mat (Fl f64)).sub ⟨1, 1, [⟨6369051672525772 / 2 ^ 52⟩]⟩ =
    some ⟨1, 1, [⟨1 / 2 ^ 52⟩]⟩ := by decide +kernel
  have c1 : Mat.norm2 sqrt ⟨1, 1, [⟨-1 / 2 ^ 52⟩]⟩ = some ⟨1 / 2 ^ 52⟩ := by
    rw [hg, show Mat.norm2 id (⟨1, 1, [⟨-1 / 2 ^ 52⟩]⟩ : Mat (Fl f64)) = some ⟨1 / 2 ^ 104⟩ by decide +kernel, Option.map_some, hs]
  have c2 : Mat.norm2 sqrt ⟨1, 1, [⟨1 / 2 ^ 52⟩]⟩ = some ⟨1 / 2 ^ 52⟩ := by
    rw [hg, show Mat.norm2 id (⟨1, 1, [⟨1 / 2 ^ 52⟩]⟩ : Mat (Fl f64)) = some ⟨1 / 2 ^ 104⟩ by decide +kernel, Option.map_some, hs]
  have hn : ¬ (⟨1 / 2 ^ 52⟩ : Fl f64) < tol := not_lt.2 ((Fl.le_iff _ _).2 ht)
  have both : ∀ iters, findRoot sqrt tol (sqEval ⟨2⟩) sqJac iters ⟨1, 1, [⟨6369051672525772 / 2 ^ 52⟩]⟩ = some none ∧
      findRoot sqrt tol (sqEval ⟨2⟩) sqJac iters ⟨1, 1, [⟨6369051672525773 / 2 ^ 52⟩]⟩ = some none := by
    intro iters
    induction iters with
    | zero => exact ⟨rfl, rfl⟩
    | succ k ih =>
      constructor
      · rw [findRoot, a1, Option.bind_eq_bind, Option.bind_some, b1]
        simp only [Option.bind_eq_bind, Option.bind_some, c1, if_neg hn]
        exact ih.2
      · rw [findRoot, a2, Option.bind_eq_bind, Option.bind_some, b2]
        simp only [Option.bind_eq_bind, Option.bind_some, c2, if_neg hn]
        exact ih.1
  exact (both iters).1

end Verif
