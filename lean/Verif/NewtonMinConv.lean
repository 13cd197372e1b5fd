import Verif.OptimConv
import Mathlib.Analysis.Calculus.Deriv.Prod

/-! # Convergence of Newton's method for minimisation (C100) -/

namespace Verif
namespace Opt
open Finset Matrix

/-- Euclidean norm -/
noncomputable def nrm {n : ℕ} (v : Fin n → ℝ) : ℝ := Real.sqrt (v ⬝ᵥ v)

section nrm
variable {n : ℕ}

theorem nrm_nonneg (v : Fin n → ℝ) : 0 ≤ nrm v := Real.sqrt_nonneg _

theorem nrm_sq (v : Fin n → ℝ) : nrm v ^ 2 = v ⬝ᵥ v := Real.sq_sqrt (dot_self_nonneg v)

theorem nrm_zero : nrm (0 : Fin n → ℝ) = 0 := by simp [nrm]

theorem abs_dot_le (u v : Fin n → ℝ) : |u ⬝ᵥ v| ≤ nrm u * nrm v := by
  refine abs_le_of_sq_le_sq ?_ (mul_nonneg (nrm_nonneg u) (nrm_nonneg v))
  rw [mul_pow, nrm_sq, nrm_sq]
  exact dot_sq_le u v

theorem nrm_add_le (u v : Fin n → ℝ) : nrm (u + v) ≤ nrm u + nrm v := by
  refine le_of_sq_le_sq ?_ (add_nonneg (nrm_nonneg u) (nrm_nonneg v))
  rw [nrm_sq, add_sq, nrm_sq, nrm_sq, add_dotProduct, dotProduct_add, dotProduct_add, dotProduct_comm v u]
  have := (abs_le.mp (abs_dot_le u v)).2
  linarith

theorem nrm_smul (a : ℝ) (v : Fin n → ℝ) : nrm (a • v) = |a| * nrm v := by
  rw [nrm, nrm, smul_dotProduct, dotProduct_smul, smul_eq_mul, smul_eq_mul, ← mul_assoc,
    Real.sqrt_mul (mul_self_nonneg a), Real.sqrt_mul_self_eq_abs]

theorem nrm_neg (v : Fin n → ℝ) : nrm (-v) = nrm v := by
  rw [nrm, neg_dotProduct_neg, nrm]

theorem nrm_segment_le {u w : Fin n → ℝ} {r s : ℝ} (hu : nrm u ≤ r) (hw : nrm w ≤ r) (h0 : 0 ≤ s) (h1 : s ≤ 1) :
    nrm (u + s • (w - u)) ≤ r := by
  have e : u + s • (w - u) = (1 - s) • u + s • w := by
    rw [smul_sub, sub_smul, one_smul]; abel
  rw [e]
  refine (nrm_add_le _ _).trans ?_
  rw [nrm_smul, nrm_smul, abs_of_nonneg h0, abs_of_nonneg (by linarith)]
  nlinarith [mul_le_mul_of_nonneg_left hu (by linarith : 0 ≤ 1 - s), mul_le_mul_of_nonneg_left hw h0]
end nrm

/-- quadratic approximation of a curve whose second derivative is Lipschitz at the start -/
theorem curve_taylor_two {ψ ψ' ψ'' : ℝ → ℝ} {c : ℝ} (h1 : ∀ s ∈ Set.Icc (0 : ℝ) 1, HasDerivAt ψ (ψ' s) s)
    (h2 : ∀ s ∈ Set.Icc (0 : ℝ) 1, HasDerivAt ψ' (ψ'' s) s)
    (hc : ∀ s ∈ Set.Icc (0 : ℝ) 1, |ψ'' s - ψ'' 0| ≤ c * s) : |ψ 1 - ψ 0 - ψ' 0 - ψ'' 0 / 2| ≤ c / 6 := by
  have d2 : ∀ s ∈ Set.Icc (0 : ℝ) 1, HasDerivAt (fun s => ψ' s - ψ' 0 - s * ψ'' 0) (ψ'' s - ψ'' 0) s := fun s hs => by
    have := ((h2 s hs).sub_const (ψ' 0)).sub ((hasDerivAt_id s).mul_const (ψ'' 0))
    rw [one_mul] at this
    exact this
  have b2 : ∀ s ∈ Set.Icc (0 : ℝ) 1, ‖ψ' s - ψ' 0 - s * ψ'' 0‖ ≤ c * s ^ 2 / 2 := fun s hs =>
    image_norm_le_of_norm_deriv_right_le_deriv_boundary (f := fun s => ψ' s - ψ' 0 - s * ψ'' 0)
      (f' := fun s => ψ'' s - ψ'' 0) (a := 0) (b := 1) (fun s hs => (d2 s hs).continuousAt.continuousWithinAt)
      (fun s hs => (d2 s (Set.Ico_subset_Icc_self hs)).hasDerivWithinAt) (B := fun s => c * s ^ 2 / 2)
      (B' := fun s => c * s) (by simp) (fun s => by
        refine ((((hasDerivAt_id s).pow 2).const_mul c).div_const 2).congr_deriv ?_
        simp
        ring) (fun s hs => hc s (Set.Ico_subset_Icc_self hs)) hs
  have d1 : ∀ s ∈ Set.Icc (0 : ℝ) 1,
      HasDerivAt (fun s => ψ s - ψ 0 - s * ψ' 0 - s ^ 2 * (ψ'' 0 / 2)) (ψ' s - ψ' 0 - s * ψ'' 0) s := fun s hs => by
    have := (((h1 s hs).sub_const (ψ 0)).sub ((hasDerivAt_id s).mul_const (ψ' 0))).sub
      (((hasDerivAt_id s).pow 2).mul_const (ψ'' 0 / 2))
    refine this.congr_deriv ?_
    simp
    ring
  have := image_norm_le_of_norm_deriv_right_le_deriv_boundary
    (f := fun s => ψ s - ψ 0 - s * ψ' 0 - s ^ 2 * (ψ'' 0 / 2)) (f' := fun s => ψ' s - ψ' 0 - s * ψ'' 0)
    (a := 0) (b := 1) (fun s hs => (d1 s hs).continuousAt.continuousWithinAt)
    (fun s hs => (d1 s (Set.Ico_subset_Icc_self hs)).hasDerivWithinAt) (B := fun s => c * s ^ 3 / 6)
    (B' := fun s => c * s ^ 2 / 2) (by simp) (fun s => by
      refine ((((hasDerivAt_id s).pow 3).const_mul c).div_const 6).congr_deriv ?_
      simp
      ring) (fun s hs => b2 s (Set.Ico_subset_Icc_self hs)) (x := 1) (by simp)
  simpa using this

/-! ## C100 local quadratic convergence -/

variable {n : ℕ} {eval jac hess : Mat ℝ → Option (Mat ℝ)} {φ : (Fin n → ℝ) → ℝ} {g : (Fin n → ℝ) → (Fin n → ℝ)}
  {H : (Fin n → ℝ) → Matrix (Fin n) (Fin n) ℝ} {σ ρ L M μ r : ℝ} {z : Fin n → ℝ}

/-- `H` is the derivative of `g` -/
def IsHess (g : (Fin n → ℝ) → (Fin n → ℝ)) (H : (Fin n → ℝ) → Matrix (Fin n) (Fin n) ℝ) : Prop :=
  ∀ x, ∃ D : (Fin n → ℝ) →L[ℝ] (Fin n → ℝ), HasFDerivAt g D x ∧ ∀ v, D v = H x *ᵥ v

theorem IsHess.along (h : IsHess g H) (x v w : Fin n → ℝ) (s : ℝ) :
    HasDerivAt (fun s : ℝ => g (x + s • v) ⬝ᵥ w) (H (x + s • v) *ᵥ v ⬝ᵥ w) s := by
  obtain ⟨D, h1, h2⟩ := h (x + s • v)
  have hc : HasDerivAt (fun s : ℝ => x + s • v) v s := by
    have := ((hasDerivAt_id s).smul_const v).const_add x
    rw [one_smul] at this
    exact this
  have h3 := h1.comp_hasDerivAt s hc
  rw [h2] at h3
  have h4 := hasDerivAt_pi.mp h3
  simp only [dotProduct]
  exact HasDerivAt.fun_sum (fun i _ => (h4 i).mul_const (w i))

/-- What is assumed of the objective on the ball of radius `r` around the minimum `z`. -/
structure Near (φ : (Fin n → ℝ) → ℝ) (g : (Fin n → ℝ) → (Fin n → ℝ)) (H : (Fin n → ℝ) → Matrix (Fin n) (Fin n) ℝ)
    (z : Fin n → ℝ) (r μ L M : ℝ) : Prop where
  /-- `g` is the gradient -/
  grad : IsGrad φ g
  /-- `H` is the Hessian -/
  hess : IsHess g H
  /-- the minimum -/
  root : g z = 0
  /-- the Hessian is at least `μ` -/
  lower : ∀ x, nrm (x - z) ≤ r → ∀ v, μ * nrm v ^ 2 ≤ v ⬝ᵥ H x *ᵥ v
  /-- the Hessian is at most `L` -/
  upper : ∀ x, nrm (x - z) ≤ r → ∀ v, nrm (H x *ᵥ v) ≤ L * nrm v
  /-- the Hessian is Lipschitz continuous with constant `M` -/
  lip : ∀ x y, nrm (x - z) ≤ r → nrm (y - z) ≤ r → ∀ v, nrm (H x *ᵥ v - H y *ᵥ v) ≤ M * nrm (x - y) * nrm v
  /-- the solver meets no zero pivot -/
  regular : ∀ x, nrm (x - z) ≤ r → Regular (H x)

/-- One full Newton step squares the error. -/
theorem Near.step (N : Near φ g H z r μ L M) (hμ : 0 < μ) {x s : Fin n → ℝ} (hx : nrm (x - z) ≤ r)
    (hs : H x *ᵥ s = -g x) : nrm (x + s - z) ≤ M / (2 * μ) * nrm (x - z) ^ 2 := by
  set e := x - z with he
  set w := x + s - z with hw
  have hws : w = e + s := by rw [hw, he]; abel
  have hr : 0 ≤ r := (nrm_nonneg _).trans hx
  have hz0 : nrm (z - z) ≤ r := by rw [sub_self, nrm_zero]; exact hr
  have hT := curve_taylor (φ := fun s : ℝ => g (x + s • (z - x)) ⬝ᵥ w) (φ' := fun s => H (x + s • (z - x)) *ᵥ (z - x) ⬝ᵥ w)
    (c := M * nrm e ^ 2 * nrm w) (fun s _ => N.hess.along x (z - x) w s) (fun s hs => by
      simp only [zero_smul, add_zero, Real.norm_eq_abs]
      rw [← sub_dotProduct]
      refine (abs_dot_le _ _).trans ?_
      have hb : nrm (x + s • (z - x) - z) ≤ r := by
        have := nrm_segment_le (u := x - z) (w := z - z) hx hz0 hs.1 hs.2
        rwa [show x - z + s • (z - z - (x - z)) = x + s • (z - x) - z by
          rw [sub_sub_sub_cancel_right]; abel] at this
      have := N.lip _ _ hb hx (z - x)
      rw [add_sub_cancel_left, nrm_smul, abs_of_nonneg hs.1, ← neg_sub x z, nrm_neg] at this
      rw [neg_sub] at this
      refine (mul_le_mul_of_nonneg_right this (nrm_nonneg w)).trans (le_of_eq ?_)
      rw [he]
      ring)
  simp only [one_smul, zero_smul, add_zero, add_sub_cancel, Real.norm_eq_abs, N.root, zero_dotProduct] at hT
  have e1 : 0 - g x ⬝ᵥ w - H x *ᵥ (z - x) ⬝ᵥ w = w ⬝ᵥ H x *ᵥ w := by
    have : H x *ᵥ w = -g x - H x *ᵥ (z - x) := by
      rw [hws, mulVec_add, hs, he, ← neg_sub z x, mulVec_neg]
      abel
    rw [dotProduct_comm w, this, sub_dotProduct, neg_dotProduct]
    ring
  rw [e1] at hT
  have h1 := (N.lower x hx w).trans ((le_abs_self _).trans hT)
  rcases (nrm_nonneg w).eq_or_lt with h0 | h0
  · rw [← h0]
    by_contra hc
    rw [not_le] at hc
    have hM : M < 0 := by
      by_contra hM
      have : 0 ≤ M / (2 * μ) * nrm e ^ 2 := by
        rw [not_lt] at hM
        positivity
      linarith
    have hz := N.lip x z hx hz0 e
    have hp := nrm_nonneg (H x *ᵥ e - H z *ᵥ e)
    rw [← he] at hz
    have : 0 < nrm e := by
      refine lt_of_le_of_ne (nrm_nonneg e) (fun h => ?_)
      rw [← h] at hc
      simp at hc
    nlinarith [mul_pos this this]
  · rw [div_mul_eq_mul_div, le_div_iff₀ (by positivity)]
    nlinarith

/-- Near the minimum the full Newton step passes both tests. -/
theorem Near.accepted (N : Near φ g H z r μ L M) (hn : 0 < n) (hφ : ObjRepr eval φ) (hg : GradRepr jac g)
    (hH : MatFunRepr hess H) (hμ : 0 < μ) (hρ : 0 ≤ ρ) (hρL : ρ * L ^ 2 ≤ μ)
    (hr1 : M * r ≤ μ) (hM : 0 ≤ M) (hr2 : M * r ≤ 2 * (1 - 2 * σ) * μ)
    {fuel : ℕ} (hf : 0 < fuel) {x : Fin n → ℝ} (hx : nrm (x - z) ≤ r) :
    ∃ y, newtonMinStep eval jac hess σ ρ fuel (col x) = some (col y) ∧
      nrm (y - z) ≤ M / (2 * μ) * nrm (x - z) ^ 2 ∧ nrm (y - z) ≤ nrm (x - z) / 2 := by
  obtain ⟨s, d, e1, e2, e3⟩ := newtonMinStep_iff hn hφ hg hH σ ρ fuel x
  have e1 := e1 (N.regular x hx)
  have hgs : g x = -(H x *ᵥ s) := by rw [e1, neg_neg]
  have hlow := N.lower x hx s
  have hup := N.upper x hx s
  have hss := nrm_nonneg s
  rw [if_pos (by
    rw [hgs, neg_dotProduct_neg, neg_dotProduct, dotProduct_comm, ← nrm_sq (H x *ᵥ s)]
    have h1 : nrm (H x *ᵥ s) ^ 2 ≤ L ^ 2 * nrm s ^ 2 := by
      rw [← mul_pow]
      exact pow_le_pow_left₀ (nrm_nonneg _) hup 2
    have h2 := mul_le_mul_of_nonneg_left h1 hρ
    have h3 := mul_le_mul_of_nonneg_right hρL (sq_nonneg (nrm s))
    linarith)] at e2
  subst e2
  have hq := N.step hμ hx e1
  have hh : nrm (x + d - z) ≤ nrm (x - z) / 2 := by
    refine hq.trans ?_
    rw [div_mul_eq_mul_div, div_le_div_iff₀ (by positivity) two_pos]
    have : M * nrm (x - z) ≤ μ := (mul_le_mul_of_nonneg_left hx hM).trans hr1
    nlinarith [mul_le_mul_of_nonneg_right this (nrm_nonneg (x - z))]
  have hd : nrm d ≤ 3 / 2 * r := by
    have := nrm_add_le (x + d - z) (-(x - z))
    rw [nrm_neg, show x + d - z + -(x - z) = d by abel] at this
    linarith
  refine ⟨x + d, (e3 _).mpr ⟨0, hf, by simp, ?_, fun i hi => absurd hi (by omega)⟩, hq, hh⟩
  simp only [pow_zero, div_one, one_smul, mul_one]
  have hxd : nrm (x + d - z) ≤ r := by linarith [nrm_nonneg (x - z)]
  have hT := curve_taylor_two (ψ := fun s : ℝ => φ (x + s • d)) (ψ' := fun s => g (x + s • d) ⬝ᵥ d)
    (ψ'' := fun s => H (x + s • d) *ᵥ d ⬝ᵥ d) (c := M * nrm d ^ 3) (fun s _ => N.grad.along x d s)
    (fun s _ => N.hess.along x d d s) (fun s hs => by
      simp only [zero_smul, add_zero]
      rw [← sub_dotProduct]
      refine (abs_dot_le _ _).trans ?_
      have hb : nrm (x + s • d - z) ≤ r := by
        have := nrm_segment_le (u := x - z) (w := x + d - z) hx hxd hs.1 hs.2
        rwa [show x - z + s • (x + d - z - (x - z)) = x + s • d - z by
          rw [sub_sub_sub_cancel_right, add_sub_cancel_left]; abel] at this
      have := N.lip _ _ hb hx d
      rw [add_sub_cancel_left, nrm_smul, abs_of_nonneg hs.1] at this
      refine (mul_le_mul_of_nonneg_right this (nrm_nonneg d)).trans (le_of_eq ?_)
      ring)
  simp only [one_smul, zero_smul, add_zero] at hT
  have hT := (abs_le.mp hT).2
  have e4 : g x ⬝ᵥ d = -(d ⬝ᵥ H x *ᵥ d) := by rw [hgs, neg_dotProduct, dotProduct_comm]
  rw [dotProduct_comm (H x *ᵥ d), e4] at hT
  rw [e4]
  have h5 : M * nrm d ≤ 3 * (1 - 2 * σ) * μ := by nlinarith [mul_le_mul_of_nonneg_left hd hM]
  have h6 : M * nrm d ^ 3 ≤ 3 * (1 - 2 * σ) * μ * nrm d ^ 2 := by
    nlinarith [mul_le_mul_of_nonneg_right h5 (sq_nonneg (nrm d))]
  have h7 : 0 ≤ 1 - 2 * σ := by
    have : 0 ≤ M * r := mul_nonneg hM ((nrm_nonneg _).trans hx)
    by_contra hc
    nlinarith
  nlinarith [mul_le_mul_of_nonneg_left hlow h7]

/-- C100: Newton's method for minimisation converges quadratically: on a ball of radius `r` around the minimum `z` let
    the Hessian lie between `μ` and `L`, be Lipschitz continuous with constant `M` and lead to no zero pivot.  If
    `M r ≤ μ`, `M r ≤ 2 (1 - 2 σ) μ` and `ρ L² ≤ μ`, the first trial of the line search is accepted in every iteration and
    the error after `k` iterations is at most `r / 2^(2^k - 1)`.
    Missing: positive definite Hessians with a zero pivot, see `C100_spd_violated`. -/
theorem C100_quadratic_partial (N : Near φ g H z r μ L M) (hn : 0 < n) (hφ : ObjRepr eval φ) (hg : GradRepr jac g)
    (hH : MatFunRepr hess H) (hμ : 0 < μ) (hρ : 0 ≤ ρ) (hρL : ρ * L ^ 2 ≤ μ)
    (hM : 0 ≤ M) (hr1 : M * r ≤ μ) (hr2 : M * r ≤ 2 * (1 - 2 * σ) * μ)
    {fuel : ℕ} (hf : 0 < fuel) (iters : ℕ) {x₀ : Fin n → ℝ} (hx : nrm (x₀ - z) ≤ r) :
    ∃ x, newtonMinimize eval jac hess σ ρ iters fuel (col x₀) = some (col x) ∧
      nrm (x - z) ≤ r * (1 / 2) ^ (2 ^ iters - 1) := by
  have hr : 0 ≤ r := (nrm_nonneg _).trans hx
  have main : ∃ t, forRange 0 iters (fun x _ => newtonMinStep eval jac hess σ ρ fuel x) (col x₀) = some t ∧
      ∃ x, t = col x ∧ nrm (x - z) ≤ r ∧ nrm (x - z) ≤ r * (1 / 2) ^ (2 ^ iters - 1) :=
    forRange_inv (fun k t => ∃ x, t = col x ∧ nrm (x - z) ≤ r ∧ nrm (x - z) ≤ r * (1 / 2) ^ (2 ^ k - 1))
      (Nat.zero_le _) ⟨x₀, rfl, hx, by simpa using hx⟩ (fun i t _ _ ⟨x, hx, hi, hk⟩ => by
        obtain ⟨y, h1, h2, h3⟩ := N.accepted hn hφ hg hH hμ hρ hρL hr1 hM hr2 hf hi
        refine ⟨_, by rw [hx]; exact h1, y, rfl, by linarith [nrm_nonneg (x - z)], h2.trans ?_⟩
        have h4 : nrm (x - z) ^ 2 ≤ (r * (1 / 2) ^ (2 ^ i - 1)) ^ 2 := pow_le_pow_left₀ (nrm_nonneg _) hk 2
        have h5 : M / (2 * μ) * r ≤ 1 / 2 := by
          rw [div_mul_eq_mul_div, div_le_div_iff₀ (by positivity) two_pos]
          linarith
        have e : 2 ^ (i + 1) - 1 = (2 ^ i - 1) * 2 + 1 := by
          have := Nat.one_le_two_pow (n := i)
          rw [pow_succ]
          omega
        rw [e, pow_add, pow_mul, pow_one]
        calc M / (2 * μ) * nrm (x - z) ^ 2 ≤ M / (2 * μ) * (r * (1 / 2) ^ (2 ^ i - 1)) ^ 2 :=
              mul_le_mul_of_nonneg_left h4 (by positivity)
          _ = (M / (2 * μ) * r) * (r * ((1 / 2) ^ (2 ^ i - 1)) ^ 2) := by ring
          _ ≤ 1 / 2 * (r * ((1 / 2) ^ (2 ^ i - 1)) ^ 2) := mul_le_mul_of_nonneg_right h5 (by positivity)
          _ = _ := by ring)
  obtain ⟨t, h1, x, rfl, -, h2⟩ := main
  exact ⟨x, h1, h2⟩

/-- `φ(x) = x²/2 + x⁴/24` around `0` with `r = 1`: `φ'' = 1 + x²/2` is between `1` and `3/2`, with Lipschitz constant `1` -/
example (k : ℕ) : ∃ x : Fin 1 → ℝ, newtonMinimize (fun v => do
      let x ← v.vget 0
      some (col ![x ^ 2 / 2 + x ^ 4 / 24])) (fun v => do
      let x ← v.vget 0
      some ⟨1, 1, [x + x ^ 3 / 6]⟩) (fun v => do
      let x ← v.vget 0
      some ⟨1, 1, [1 + x ^ 2 / 2]⟩) (1 / 4) (4 / 9) k 1 (col ![1]) = some (col x) ∧ |x 0| ≤ (1 / 2) ^ (2 ^ k - 1) := by
  have hn1 : ∀ v : Fin 1 → ℝ, nrm v = |v 0| := fun v => by
    simp [nrm, dotProduct, Real.sqrt_mul_self_eq_abs]
  have N : Near (n := 1) (fun x => x 0 ^ 2 / 2 + x 0 ^ 4 / 24) (fun x => ![x 0 + x 0 ^ 3 / 6])
      (fun x => !![1 + x 0 ^ 2 / 2]) 0 1 1 (3 / 2) 1 := by
    have d0 : ∀ x, HasFDerivAt (fun x : Fin 1 → ℝ => x 0) (ContinuousLinearMap.proj (R := ℝ) (φ := fun _ : Fin 1 => ℝ) 0) x :=
      fun x => (ContinuousLinearMap.proj (R := ℝ) (φ := fun _ : Fin 1 => ℝ) 0).hasFDerivAt
    have hsq : ∀ x : Fin 1 → ℝ, nrm (x - 0) ≤ 1 → x 0 ^ 2 ≤ 1 := fun x hx => by
      rw [hn1, sub_zero] at hx
      rw [← sq_abs]
      exact pow_le_one₀ (abs_nonneg _) hx
    refine ⟨fun x => ⟨(x 0 + x 0 ^ 3 / 6) • ContinuousLinearMap.proj 0, ?_, fun v => ?_⟩,
      fun x => ⟨ContinuousLinearMap.pi fun _ => (1 + x 0 ^ 2 / 2) • ContinuousLinearMap.proj 0, ?_, fun v => ?_⟩, ?_, ?_, ?_, ?_, ?_⟩
    · have h1 : HasDerivAt (fun t : ℝ => t ^ 2 / 2 + t ^ 4 / 24) (x 0 + x 0 ^ 3 / 6) (x 0) := by
        refine ((((hasDerivAt_id (x 0)).pow 2).div_const 2).add (((hasDerivAt_id (x 0)).pow 4).div_const 24)).congr_deriv ?_
        simp
        ring
      exact h1.comp_hasFDerivAt x (d0 x)
    · simp [dotProduct]
    · rw [hasFDerivAt_pi]
      intro i
      have h1 : HasDerivAt (fun t : ℝ => t + t ^ 3 / 6) (1 + x 0 ^ 2 / 2) (x 0) := by
        refine ((hasDerivAt_id (x 0)).add (((hasDerivAt_id (x 0)).pow 3).div_const 6)).congr_deriv ?_
        simp
        ring
      have := h1.comp_hasFDerivAt x (d0 x)
      fin_cases i
      exact this
    · funext i
      fin_cases i
      simp [mulVec, dotProduct]
    · funext i
      simp
    · intro x _ v
      rw [hn1, sq_abs]
      simp [mulVec, dotProduct]
      nlinarith [mul_self_nonneg (x 0 * v 0)]
    · intro x hx v
      rw [hn1, hn1]
      simp only [mulVec, dotProduct, Fin.sum_univ_one, Matrix.of_apply, Matrix.cons_val', Matrix.cons_val_fin_one,
        Matrix.cons_val_zero]
      rw [abs_mul]
      refine mul_le_mul_of_nonneg_right ?_ (abs_nonneg _)
      rw [abs_of_nonneg (by positivity)]
      linarith [hsq x hx]
    · intro x y hx hy v
      rw [hn1, hn1, hn1]
      have e : (!![1 + x 0 ^ 2 / 2] *ᵥ v - !![1 + y 0 ^ 2 / 2] *ᵥ v) 0 = ((x 0 + y 0) / 2) * (x 0 - y 0) * v 0 := by
        simp [mulVec, dotProduct]
        ring
      rw [e, abs_mul, abs_mul, Pi.sub_apply]
      refine mul_le_mul_of_nonneg_right (mul_le_mul_of_nonneg_right ?_ (abs_nonneg _)) (abs_nonneg _)
      rw [hn1, sub_zero] at hx hy
      rw [abs_le] at *
      constructor <;> linarith [hx.1, hx.2, hy.1, hy.2]
    · intro x _
      exact regular_one (by
        simp
        positivity)
  obtain ⟨x, h1, h2⟩ := C100_quadratic_partial (σ := 1 / 4) (ρ := 4 / 9) N one_pos (eval := fun v => do
      let x ← v.vget 0
      some (col ![x ^ 2 / 2 + x ^ 4 / 24])) (jac := fun v => do
      let x ← v.vget 0
      some ⟨1, 1, [x + x ^ 3 / 6]⟩) (hess := fun v => do
      let x ← v.vget 0
      some ⟨1, 1, [1 + x ^ 2 / 2]⟩)
    (fun x => ⟨_, rfl, rfl⟩)
    (fun x => ⟨_, 0, !![x 0 + x 0 ^ 3 / 6], rfl, by constructor <;> simp [Mat.get], by
      funext i; fin_cases i; rfl⟩)
    (fun x => ⟨_, rfl, by constructor <;> simp [Mat.get]⟩)
    one_pos (by norm_num) (by norm_num) (by norm_num) (by norm_num) (by norm_num) one_pos k (x₀ := ![1])
    (by rw [hn1]; simp)
  refine ⟨x, h1, ?_⟩
  rw [hn1, sub_zero, one_mul] at h2
  exact h2

/-! ## C100 global linear convergence -/

/-- The search direction is not too long and a descent direction. -/
theorem newton_direction (hμ : 0 < μ) {x s d : Fin n → ℝ} (hlow : ∀ v, μ * nrm v ^ 2 ≤ v ⬝ᵥ H x *ᵥ v)
    (hs : H x *ᵥ s = -g x) (hd : d = if g x ⬝ᵥ s ≤ -ρ * (g x ⬝ᵥ g x) then s else -g x) :
    g x ⬝ᵥ d ≤ -(min ρ 1 * (g x ⬝ᵥ g x)) ∧ nrm d ≤ max 1 (1 / μ) * nrm (g x) := by
  have hG := dot_self_nonneg (g x)
  split_ifs at hd with hc <;> subst hd
  · refine ⟨hc.trans ?_, (?_ : nrm d ≤ 1 / μ * nrm (g x)).trans
      (mul_le_mul_of_nonneg_right (le_max_right _ _) (nrm_nonneg _))⟩
    · have := mul_le_mul_of_nonneg_right (min_le_left ρ 1) hG
      linarith
    · have h1 := hlow d
      rw [hs, dotProduct_neg] at h1
      have h2 := (abs_le.mp (abs_dot_le d (g x))).1
      rcases (nrm_nonneg d).eq_or_lt with h0 | h0
      · rw [← h0]
        exact mul_nonneg (by positivity) (nrm_nonneg _)
      · rw [div_mul_eq_mul_div, one_mul, le_div_iff₀ hμ]
        have : nrm d * (nrm d * μ) ≤ nrm d * nrm (g x) := by linarith [h1, h2, sq (nrm d)]
        exact le_of_mul_le_mul_left this h0
  · refine ⟨?_, ?_⟩
    · rw [dotProduct_neg]
      have := mul_le_mul_of_nonneg_right (min_le_right ρ 1) hG
      linarith
    · rw [nrm_neg]
      have := mul_le_mul_of_nonneg_right (le_max_left 1 (1 / μ)) (nrm_nonneg (g x))
      linarith

/-- Small steps along a descent direction are accepted. -/
theorem newton_armijo (h : IsGrad φ g) (hL : 0 < L)
    (hlip : ∀ x y, (g x - g y) ⬝ᵥ (g x - g y) ≤ L ^ 2 * ((x - y) ⬝ᵥ (x - y))) (hσ : σ < 1) {m q α : ℝ} (hq : 0 < q)
    {x d : Fin n → ℝ} (h1 : g x ⬝ᵥ d ≤ -(m * (g x ⬝ᵥ g x))) (h2 : nrm d ≤ q * nrm (g x)) (hα : 0 ≤ α)
    (hα' : α ≤ 2 * ((1 - σ) * m / (L * q ^ 2))) :
    φ (x + α • d) ≤ φ x + g x ⬝ᵥ d * (σ * α) := by
  have hT := (abs_le.mp (descent_lemma h hL.le hlip x (α • d))).2
  rw [dotProduct_smul, smul_dotProduct, dotProduct_smul, ← nrm_sq d] at hT
  simp only [smul_eq_mul] at hT
  have h3 : nrm d ^ 2 ≤ q ^ 2 * (g x ⬝ᵥ g x) := by
    rw [← nrm_sq (g x), ← mul_pow]
    exact pow_le_pow_left₀ (nrm_nonneg _) h2 2
  rw [← mul_div_assoc, le_div_iff₀ (by positivity)] at hα'
  have h4 : L / 2 * α * nrm d ^ 2 ≤ (1 - σ) * (m * (g x ⬝ᵥ g x)) := by
    have h5 := mul_le_mul_of_nonneg_left h3 (mul_nonneg (by linarith : 0 ≤ L / 2) hα)
    have h6 := mul_le_mul_of_nonneg_right hα' (dot_self_nonneg (g x))
    nlinarith
  have h5 := mul_le_mul_of_nonneg_left h1 (show 0 ≤ 1 - σ by linarith)
  have h6 : L / 2 * α * nrm d ^ 2 ≤ -((1 - σ) * (g x ⬝ᵥ d)) := by linarith
  have h7 := mul_le_mul_of_nonneg_left h6 hα
  nlinarith

/-- C100: Newton's method with the fallback to the gradient converges from every start point for a `μ`-strongly convex
    objective whose gradient has the Lipschitz constant `L`: with `m = min(ρ, 1)`, `q = max(1, 1/μ)` the distance from the
    minimum is multiplied in each iteration by at most `1 - 2 μ σ m min(1, (1 - σ) m / (L q²))`.
    Missing: positive definite Hessians with a zero pivot, see `C100_spd_violated`. -/
theorem C100_linear_partial (hn : 0 < n) (hφ : ObjRepr eval φ) (hg : GradRepr jac g) (hH : MatFunRepr hess H)
    (hreg : ∀ x, Regular (H x)) (h : IsGrad φ g) (hL : 0 < L) (hμ : 0 < μ)
    (hlip : ∀ x y, (g x - g y) ⬝ᵥ (g x - g y) ≤ L ^ 2 * ((x - y) ⬝ᵥ (x - y)))
    (hsc : ∀ x y, φ x + g x ⬝ᵥ (y - x) + μ / 2 * ((y - x) ⬝ᵥ (y - x)) ≤ φ y)
    (hlow : ∀ x v, μ * nrm v ^ 2 ≤ v ⬝ᵥ H x *ᵥ v) (hσ : 0 < σ) (hσ' : σ < 1) (hρ : 0 < ρ) {m q β : ℝ}
    (hm : m = min ρ 1) (hq : q = max 1 (1 / μ)) (hβ : β = min 1 ((1 - σ) * m / (L * q ^ 2)))
    {fuel j : ℕ} (hj : j < fuel) (hfuel : 1 / 2 ^ j ≤ 2 * ((1 - σ) * m / (L * q ^ 2))) (iters : ℕ) (x₀ : Fin n → ℝ) :
    1 / 2 ≤ 1 - 2 * μ * σ * m * β ∧ 1 - 2 * μ * σ * m * β < 1 ∧
    ∃ x, newtonMinimize eval jac hess σ ρ iters fuel (col x₀) = some (col x) ∧
      ∀ y, φ x - φ y ≤ (1 - 2 * μ * σ * m * β) ^ iters * (φ x₀ - φ y) := by
  have hm0 : 0 < m := by rw [hm]; exact lt_min hρ one_pos
  have hm1 : m ≤ 1 := by rw [hm]; exact min_le_right _ _
  have hq1 : 1 ≤ q := by rw [hq]; exact le_max_left _ _
  have hβ0 : 0 < β := by
    rw [hβ]
    refine lt_min one_pos (div_pos (mul_pos (by linarith) hm0) (by positivity))
  have hc0 : 0 < 2 * μ * σ * m * β := by positivity
  have hc1 : 2 * μ * σ * m * β ≤ 1 / 2 := by
    have h1 : β * (L * q ^ 2) ≤ (1 - σ) * m := by
      rw [← le_div_iff₀ (by positivity), hβ]
      exact min_le_right _ _
    have h2 := mu_le_L hn hL.le hlip hsc
    have h3 : β * μ ≤ β * (L * q ^ 2) := by
      refine mul_le_mul_of_nonneg_left (h2.trans ?_) hβ0.le
      have := mul_le_mul_of_nonneg_left (one_le_pow₀ hq1 : 1 ≤ q ^ 2) hL.le
      linarith
    have h4 : (1 - σ) * m ≤ 1 - σ := by nlinarith
    have h5 : m * (β * μ) ≤ 1 - σ := by nlinarith [mul_pos hβ0 hμ]
    nlinarith [sq_nonneg (2 * σ - 1)]
  refine ⟨by linarith, by linarith, ?_⟩
  have step : ∀ x, ∃ x', newtonMinStep eval jac hess σ ρ fuel (col x) = some (col x') ∧
      φ x' ≤ φ x - σ * β * m * (g x ⬝ᵥ g x) := by
    intro x
    obtain ⟨s, d, e1, e2, e3⟩ := newtonMinStep_iff hn hφ hg hH σ ρ fuel x
    obtain ⟨d1, d2⟩ := newton_direction hμ (hlow x) (e1 (hreg x)) e2
    rw [← hm] at d1
    rw [← hq] at d2
    have acc : ∀ j : ℕ, 1 / 2 ^ j ≤ 2 * ((1 - σ) * m / (L * q ^ 2)) →
        φ (x + (1 / 2 ^ j : ℝ) • d) ≤ φ x + g x ⬝ᵥ d * (σ * (1 / 2 ^ j)) := fun j hj =>
      newton_armijo h hL hlip hσ' (by linarith) d1 d2 (by positivity) hj
    classical
    have hex : ∃ j : ℕ, φ (x + (1 / 2 ^ j : ℝ) • d) ≤ φ x + g x ⬝ᵥ d * (σ * (1 / 2 ^ j)) := ⟨j, acc j hfuel⟩
    have hle : Nat.find hex ≤ j := Nat.find_min' hex (acc j hfuel)
    have hα : β ≤ 1 / 2 ^ Nat.find hex := by
      rw [hβ]
      rcases Nat.eq_zero_or_pos (Nat.find hex) with h0 | h0
      · rw [h0]
        simp
      · refine (min_le_right _ _).trans ?_
        by_contra hc
        refine Nat.find_min hex (m := Nat.find hex - 1) (by omega) (acc _ ?_)
        have e : (2 : ℝ) ^ Nat.find hex = 2 ^ (Nat.find hex - 1) * 2 := by
          rw [← pow_succ, Nat.sub_add_cancel h0]
        rw [e, not_le, ← div_div, div_lt_iff₀ two_pos] at hc
        linarith
    refine ⟨_, (e3 _).mpr ⟨Nat.find hex, by omega, rfl, Nat.find_spec hex, fun i hi => not_le.mp (Nat.find_min hex hi)⟩,
      (Nat.find_spec hex).trans ?_⟩
    set α : ℝ := 1 / 2 ^ Nat.find hex
    have hG := dot_self_nonneg (g x)
    have h1 := mul_le_mul_of_nonneg_right d1 (mul_nonneg hσ.le (hβ0.le.trans hα))
    have h2 := mul_le_mul_of_nonneg_left hα (mul_nonneg hσ.le (mul_nonneg hm0.le hG))
    linarith
  have main : ∃ t, forRange 0 iters (fun x _ => newtonMinStep eval jac hess σ ρ fuel x) (col x₀) = some t ∧
      ∃ x, t = col x ∧ ∀ y, φ x - φ y ≤ (1 - 2 * μ * σ * m * β) ^ iters * (φ x₀ - φ y) :=
    forRange_inv (fun k t => ∃ x, t = col x ∧ ∀ y, φ x - φ y ≤ (1 - 2 * μ * σ * m * β) ^ k * (φ x₀ - φ y))
      (Nat.zero_le _) ⟨x₀, rfl, fun y => by simp⟩ (fun i t _ _ ⟨x, hx, hi⟩ => by
        obtain ⟨x', h1, h2⟩ := step x
        refine ⟨_, by rw [hx]; exact h1, _, rfl, fun y => ?_⟩
        have h3 := polyak_lojasiewicz hμ hsc x y
        have h4 := mul_le_mul_of_nonneg_left h3 (mul_pos (mul_pos hσ hβ0) hm0).le
        have h5 := mul_le_mul_of_nonneg_left (hi y) (show 0 ≤ 1 - 2 * μ * σ * m * β by linarith)
        rw [pow_succ]
        linarith)
  obtain ⟨t, h1, x, rfl, h2⟩ := main
  exact ⟨x, h1, h2⟩

/-- `φ(x) = 2 x²` with `ρ = 1`, for which the Newton direction is refused and the gradient is used: the distance from the
    minimum is at least halved in each iteration -/
example (k : ℕ) : ∃ x : Fin 1 → ℝ, newtonMinimize (fun v => do
      let x ← v.vget 0
      some (col ![2 * x ^ 2])) (fun v => do
      let x ← v.vget 0
      some ⟨1, 1, [4 * x]⟩) (fun _ => some ⟨1, 1, [4]⟩) (1 / 2) 1 k 3 (col ![5]) = some (col x) ∧
      2 * x 0 ^ 2 ≤ (1 / 2) ^ k * 50 := by
  obtain ⟨-, -, x, h1, h2⟩ := C100_linear_partial (n := 1) (φ := fun x => 2 * x 0 ^ 2) (g := fun x => ![4 * x 0])
    (H := fun _ => !![4]) (σ := 1 / 2) (ρ := 1) (L := 4) (μ := 4) (m := 1) (q := 1) (β := 1 / 8) (fuel := 3) (j := 2)
    (eval := fun v => do
      let x ← v.vget 0
      some (col ![2 * x ^ 2])) (jac := fun v => do
      let x ← v.vget 0
      some ⟨1, 1, [4 * x]⟩) (hess := fun _ => some ⟨1, 1, [4]⟩) one_pos
    (fun x => ⟨_, rfl, rfl⟩)
    (fun x => ⟨_, 0, !![4 * x 0], rfl, by constructor <;> simp [Mat.get], by funext i; fin_cases i; rfl⟩)
    (fun x => ⟨_, rfl, by constructor <;> simp [Mat.get]⟩)
    (fun _ => regular_one (by simp))
    (fun x => ⟨(4 * x 0) • ContinuousLinearMap.proj 0, by
      have h1 : HasDerivAt (fun t : ℝ => 2 * t ^ 2) (4 * x 0) (x 0) := by
        refine (((hasDerivAt_id (x 0)).pow 2).const_mul 2).congr_deriv ?_
        simp
        ring
      have := h1.comp_hasFDerivAt x (ContinuousLinearMap.proj (R := ℝ) (φ := fun _ : Fin 1 => ℝ) 0).hasFDerivAt
      exact this,
      fun v => by simp [dotProduct]⟩)
    (by norm_num) (by norm_num)
    (fun x y => by
      simp [dotProduct]
      nlinarith [sq_nonneg (x 0 - y 0)])
    (fun x y => by
      simp [dotProduct]
      nlinarith [sq_nonneg (x 0 - y 0)])
    (fun x v => by
      rw [nrm_sq]
      simp [dotProduct, mulVec]
      nlinarith)
    (by norm_num) (by norm_num) (by norm_num) (by norm_num) (by norm_num) (by norm_num) (by norm_num) (by norm_num) k ![5]
  refine ⟨x, h1, ?_⟩
  have := h2 0
  norm_num at this
  norm_num
  exact this

/-! ## A positive definite matrix that the solver cannot handle -/

/-- A symmetric, positive definite matrix with determinant `1` -/
def spd : Matrix (Fin 3) (Fin 3) ℚ := !![1, 2, 0; 2, 5, 0; 0, 0, 1]

theorem spd_spec : spd.transpose = spd ∧ spd.det = 1 ∧ ∀ v, v ≠ 0 → 0 < v ⬝ᵥ spd *ᵥ v := by
  refine ⟨by decide +kernel, by simp [spd, Matrix.det_fin_three]; norm_num, fun v hv => ?_⟩
  have e : v ⬝ᵥ spd *ᵥ v = (v 0 + 2 * v 1) ^ 2 + v 1 ^ 2 + v 2 ^ 2 := by
    simp [spd, mulVec, dotProduct, Fin.sum_univ_three]
    ring
  rw [e]
  by_contra hc
  have h2 : v 2 = 0 := by nlinarith [sq_nonneg (v 0 + 2 * v 1), sq_nonneg (v 1), sq_nonneg (v 2)]
  have h1 : v 1 = 0 := by nlinarith [sq_nonneg (v 0 + 2 * v 1), sq_nonneg (v 1), sq_nonneg (v 2)]
  have h0 : v 0 + 2 * v 1 = 0 := by nlinarith [sq_nonneg (v 0 + 2 * v 1), sq_nonneg (v 1), sq_nonneg (v 2)]
  refine hv (funext fun i => ?_)
  fin_cases i
  · simpa [h1] using h0
  · exact h1
  · exact h2

/-- Newton's method does not return when it is started at the minimum of the strictly convex quadratic function
    `½ xᵀ A x` with the positive definite matrix `A = [[1,2,0],[2,5,0],[0,0,1]]`: the elimination meets the column
    `(-1/2, 0)`, takes `0` as the largest entry, and `solve` returns a direction other than `0`, along which the function
    increases; the line search halves its step for ever. -/
theorem C100_spd_violated {eval jac hess : Mat ℚ → Option (Mat ℚ)}
    (hφ : ObjRepr (n := 3) eval (fun x => (x ⬝ᵥ spd *ᵥ x) / 2)) (hg : GradRepr (n := 3) jac (fun x => spd *ᵥ x))
    (hh : hess (col ![0, 0, 0]) = some ⟨3, 3, [1, 2, 0, 2, 5, 0, 0, 0, 1]⟩) (σ ρ : ℚ) (iters fuel : ℕ) (hi : 0 < iters) :
    newtonMinimize eval jac hess σ ρ iters fuel (col ![0, 0, 0]) = none := by
  have hz0 : (![0, 0, 0] : Fin 3 → ℚ) = 0 := by decide +kernel
  have hs : (⟨3, 3, [1, 2, 0, 2, 5, 0, 0, 0, 1]⟩ : Mat ℚ).solveV (col ![0, 0, 0]) = some (col ![-5 / 2, 1, 0]) := by
    decide +kernel
  have hstep : newtonMinStep eval jac hess σ ρ fuel (col ![0, 0, 0]) = none := by
    have e1 : -(spd *ᵥ ![0, 0, 0]) = ![0, 0, 0] := by decide +kernel
    have e2 : spd *ᵥ ![0, 0, 0] = 0 := by decide +kernel
    simp only [newtonMinStep, hh, gradAt_col hg, neg_col, e1, hs, newtonDir_col (show 0 < 3 by omega), obj_col hφ,
      dotp_col (show 0 < 3 by omega), newtonSearch_eq hφ, Option.bind_eq_bind, Option.bind_some]
    rw [e2]
    simp only [zero_dotProduct, dotProduct_zero, mul_zero, le_refl, if_true, zero_mul, zero_div, add_zero]
    rw [hz0]
    have : bt (fun a : ℚ => decide (((0 + a • ![-5 / 2, 1, 0] : Fin 3 → ℚ)) ⬝ᵥ
        spd *ᵥ (0 + a • ![-5 / 2, 1, 0] : Fin 3 → ℚ) / 2 ≤ 0)) fuel 1 = none := by
      rw [Option.eq_none_iff_forall_ne_some]
      intro v hv
      obtain ⟨j, -, h2, h3, -⟩ := (bt_iff _ _ _ _).mp hv
      have hv : (0 : ℚ) < v := by rw [h2]; positivity
      have := spd_spec.2.2 (0 + v • ![-5 / 2, 1, 0]) (fun h => by
        have := congrFun h 1
        simp at this
        exact hv.ne' this)
      simp only [decide_eq_true_eq] at h3
      linarith
    rw [this]
    rfl
  obtain ⟨k, rfl⟩ : ∃ k, iters = k + 1 := ⟨iters - 1, by omega⟩
  unfold newtonMinimize
  by_contra hne
  obtain ⟨t, ht⟩ := Option.ne_none_iff_exists'.mp hne
  obtain ⟨xs, h0, -, hk⟩ := (forRange_traj _ _ _ _).mp ht
  have := hk 0 (by omega)
  rw [h0, hstep] at this
  cases this

/-- A start from which `minimize` returns; the result after 10 iterations is still far from the minimum `0`. -/
example : newtonMinimize (fun v => do
      let w ← (⟨3, 3, [1, 2, 0, 2, 5, 0, 0, 0, 1]⟩ : Mat ℚ).mulVec v
      let d ← v.dotp w
      some ⟨1, 1, [d / 2]⟩) (fun v => do
      let w ← (⟨3, 3, [1, 2, 0, 2, 5, 0, 0, 0, 1]⟩ : Mat ℚ).mulVec v
      w.transpose) (fun _ => some ⟨3, 3, [1, 2, 0, 2, 5, 0, 0, 0, 1]⟩) (1 / 10) (1 / 100) 10 50 ⟨3, 1, [1, 1, 1]⟩ =
    some ⟨3, 1, [-2401 / 1024, 2401 / 2048, 0]⟩ := by decide +kernel

end Opt
open Matrix

/-- The determinant of a symmetric, positive definite matrix with determinant `1` is computed as `0`. -/
theorem C10_det_violated_spd : ∃ (A : Mat ℚ) (M : Matrix (Fin 3) (Fin 3) ℚ), Repr A M ∧ M.transpose = M ∧
    (∀ v, v ≠ 0 → 0 < v ⬝ᵥ M *ᵥ v) ∧ M.det = 1 ∧ A.det = some 0 :=
  ⟨⟨3, 3, [1, 2, 0, 2, 5, 0, 0, 0, 1]⟩, Opt.spd, by constructor <;> decide +kernel, Opt.spd_spec.1, Opt.spd_spec.2.2,
    Opt.spd_spec.2.1, by decide +kernel⟩

/-- `solve` returns a wrong vector for a symmetric, positive definite matrix. -/
theorem C12_solve_violated_spd : ∃ (A b v w : Mat ℚ) (M : Matrix (Fin 3) (Fin 3) ℚ), Repr A M ∧ M.transpose = M ∧
    (∀ v, v ≠ 0 → 0 < v ⬝ᵥ M *ᵥ v) ∧ A.solveV b = some v ∧ A.mulVec v = some w ∧ w ≠ b :=
  ⟨⟨3, 3, [1, 2, 0, 2, 5, 0, 0, 0, 1]⟩, ⟨3, 1, [1, 0, 0]⟩, ⟨3, 1, [-5 / 2, 1, 2]⟩, ⟨3, 1, [-1 / 2, 0, 2]⟩, Opt.spd,
    by constructor <;> decide +kernel, Opt.spd_spec.1, Opt.spd_spec.2.2, by decide +kernel⟩

/-- `inv` does not invert a symmetric, positive definite matrix (a pivot is zero, so infinite or NaN entries appear). -/
theorem C13_inv_violated_spd : ∃ (A : Mat ℚ) (M : Matrix (Fin 3) (Fin 3) ℚ), Repr A M ∧ M.transpose = M ∧
    (∀ v, v ≠ 0 → 0 < v ⬝ᵥ M *ᵥ v) ∧ A.inv = none :=
  ⟨⟨3, 3, [1, 2, 0, 2, 5, 0, 0, 0, 1]⟩, Opt.spd, by constructor <;> decide +kernel, Opt.spd_spec.1, Opt.spd_spec.2.2,
    by decide +kernel⟩

end Verif
