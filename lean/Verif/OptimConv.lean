import Verif.OptimProps
import Verif.NewtonConv
import Mathlib.Tactic.FieldSimp

/-! # Rates of convergence of gradient descent (C99) -/

namespace Verif
namespace Opt
open Finset Matrix

/-! ## Scalar estimates -/

theorem dot_sq_le {n : ℕ} (u v : Fin n → ℝ) : (u ⬝ᵥ v) ^ 2 ≤ (u ⬝ᵥ u) * (v ⬝ᵥ v) := by
  have := Finset.sum_mul_sq_le_sq_mul_sq univ u v
  simp only [dotProduct, ← sq]
  exact this

/-- Cauchy-Schwarz with a bound on the first factor -/
theorem dot_le_of_sq {n : ℕ} {u v : Fin n → ℝ} {a : ℝ} (ha : 0 ≤ a) (h : u ⬝ᵥ u ≤ a ^ 2 * (v ⬝ᵥ v)) :
    |u ⬝ᵥ v| ≤ a * (v ⬝ᵥ v) := by
  refine abs_le_of_sq_le_sq ?_ (mul_nonneg ha (dot_self_nonneg v))
  calc (u ⬝ᵥ v) ^ 2 ≤ (u ⬝ᵥ u) * (v ⬝ᵥ v) := dot_sq_le u v
    _ ≤ a ^ 2 * (v ⬝ᵥ v) * (v ⬝ᵥ v) := mul_le_mul_of_nonneg_right h (dot_self_nonneg v)
    _ = _ := by ring

/-- `g` is the gradient of `φ` -/
def IsGrad {n : ℕ} (φ : (Fin n → ℝ) → ℝ) (g : (Fin n → ℝ) → (Fin n → ℝ)) : Prop :=
  ∀ x, ∃ L : (Fin n → ℝ) →L[ℝ] ℝ, HasFDerivAt φ L x ∧ ∀ v, L v = g x ⬝ᵥ v

theorem IsGrad.along {n : ℕ} {φ : (Fin n → ℝ) → ℝ} {g : (Fin n → ℝ) → (Fin n → ℝ)} (h : IsGrad φ g)
    (x v : Fin n → ℝ) (s : ℝ) : HasDerivAt (fun s : ℝ => φ (x + s • v)) (g (x + s • v) ⬝ᵥ v) s := by
  obtain ⟨L, h1, h2⟩ := h (x + s • v)
  have hc : HasDerivAt (fun s : ℝ => x + s • v) v s := by
    have := ((hasDerivAt_id s).smul_const v).const_add x
    rw [one_smul] at this
    exact this
  rw [← h2]
  exact h1.comp_hasDerivAt s hc

/-- A Lipschitz gradient (in the Euclidean norm) bounds the objective by a parabola. -/
theorem descent_lemma {n : ℕ} {φ : (Fin n → ℝ) → ℝ} {g : (Fin n → ℝ) → (Fin n → ℝ)} (h : IsGrad φ g) {L : ℝ} (hL : 0 ≤ L)
    (hlip : ∀ x y, (g x - g y) ⬝ᵥ (g x - g y) ≤ L ^ 2 * ((x - y) ⬝ᵥ (x - y))) (x v : Fin n → ℝ) :
    |φ (x + v) - φ x - g x ⬝ᵥ v| ≤ L / 2 * (v ⬝ᵥ v) := by
  have := curve_taylor (φ := fun s : ℝ => φ (x + s • v)) (φ' := fun s => g (x + s • v) ⬝ᵥ v) (c := L * (v ⬝ᵥ v))
    (fun s _ => h.along x v s) (fun s hs => by
      simp only [zero_smul, add_zero, Real.norm_eq_abs]
      rw [← sub_dotProduct]
      have hq : (g (x + s • v) - g x) ⬝ᵥ (g (x + s • v) - g x) ≤ (L * s) ^ 2 * (v ⬝ᵥ v) := by
        refine (hlip _ _).trans (le_of_eq ?_)
        rw [add_sub_cancel_left, smul_dotProduct, dotProduct_smul]
        simp only [smul_eq_mul]
        ring
      refine (dot_le_of_sq (mul_nonneg hL hs.1) hq).trans (le_of_eq ?_)
      ring)
  simp only [one_smul, zero_smul, add_zero, Real.norm_eq_abs] at this
  refine this.trans (le_of_eq ?_)
  ring

/-! ## C99 gradient descent -/

variable {n : ℕ} {eval jac : Mat ℝ → Option (Mat ℝ)} {φ : (Fin n → ℝ) → ℝ} {g : (Fin n → ℝ) → (Fin n → ℝ)} {σ L μ : ℝ}

/-- With a gradient of Lipschitz constant `L` every step length `α ≤ 2 (1 - σ) / L` is accepted by the line search. -/
theorem armijo_of_small (h : IsGrad φ g) (hL : 0 < L)
    (hlip : ∀ x y, (g x - g y) ⬝ᵥ (g x - g y) ≤ L ^ 2 * ((x - y) ⬝ᵥ (x - y))) {α : ℝ} (hα : 0 ≤ α)
    (hα' : α ≤ 2 * (1 - σ) / L) (x : Fin n → ℝ) :
    φ (x - α • g x) ≤ φ x - σ * (α * (g x ⬝ᵥ g x)) := by
  have := (abs_le.mp (descent_lemma h hL.le hlip x (-(α • g x)))).2
  rw [← sub_eq_add_neg, dotProduct_neg, neg_dotProduct_neg, dotProduct_smul, smul_dotProduct, dotProduct_smul] at this
  simp only [smul_eq_mul] at this
  have hG := dot_self_nonneg (g x)
  rw [le_div_iff₀ hL] at hα'
  nlinarith [mul_nonneg hα hG]

theorem gradientStep_decrease (hn : 0 < n) (hφ : ObjRepr eval φ) (hg : GradRepr jac g) (h : IsGrad φ g) (hL : 0 < L)
    (hlip : ∀ x y, (g x - g y) ⬝ᵥ (g x - g y) ≤ L ^ 2 * ((x - y) ⬝ᵥ (x - y)))
    {fuel j : ℕ} (hj : j < fuel) (hfuel : 1 / 2 ^ j ≤ 2 * (1 - σ) / L) (x : Fin n → ℝ) :
    ∃ α : ℝ, min 1 ((1 - σ) / L) ≤ α ∧ α ≤ 1 ∧ gradientStep eval jac σ fuel (col x) = some (col (x - α • g x)) ∧
      φ (x - α • g x) ≤ φ x - σ * (α * (g x ⬝ᵥ g x)) := by
  classical
  have hex : ∃ j : ℕ, φ (x - (1 / 2 ^ j : ℝ) • g x) ≤ φ x - σ * (1 / 2 ^ j * (g x ⬝ᵥ g x)) :=
    ⟨j, armijo_of_small h hL hlip (by positivity) hfuel x⟩
  have hle : Nat.find hex ≤ j := Nat.find_min' hex (armijo_of_small h hL hlip (by positivity) hfuel x)
  have hα : min 1 ((1 - σ) / L) ≤ 1 / 2 ^ Nat.find hex := by
    rcases Nat.eq_zero_or_pos (Nat.find hex) with h0 | h0
    · rw [h0]
      simp
    · refine (min_le_right _ _).trans ?_
      by_contra hc
      refine Nat.find_min hex (m := Nat.find hex - 1) (by omega) (armijo_of_small h hL hlip (by positivity) ?_ x)
      have e : (2 : ℝ) ^ Nat.find hex = 2 ^ (Nat.find hex - 1) * 2 := by
        rw [← pow_succ, Nat.sub_add_cancel h0]
      rw [e, not_le, ← div_div, div_lt_iff₀ two_pos] at hc
      refine hc.le.trans (le_of_eq ?_)
      ring
  refine ⟨1 / 2 ^ Nat.find hex, hα, ?_, (gradientStep_iff hn hφ hg σ fuel x _).mpr
    ⟨Nat.find hex, by omega, rfl, Nat.find_spec hex, fun i hi => not_le.mp (Nat.find_min hex hi)⟩, Nat.find_spec hex⟩
  rw [div_le_one (by positivity)]
  exact one_le_pow₀ (by norm_num)

/-- Strong convexity and a Lipschitz gradient: `μ ≤ L`. -/
theorem mu_le_L (hn : 0 < n) (hL : 0 ≤ L)
    (hlip : ∀ x y, (g x - g y) ⬝ᵥ (g x - g y) ≤ L ^ 2 * ((x - y) ⬝ᵥ (x - y)))
    (hsc : ∀ x y, φ x + g x ⬝ᵥ (y - x) + μ / 2 * ((y - x) ⬝ᵥ (y - x)) ≤ φ y) : μ ≤ L := by
  set e : Fin n → ℝ := Pi.single ⟨0, hn⟩ 1
  have he : e ⬝ᵥ e = 1 := by simp [e]
  have h1 := hsc 0 e
  have h2 := hsc e 0
  have h3 := (abs_le.mp (dot_le_of_sq hL (hlip e 0 |>.trans (by rw [sub_zero])) : |(g e - g 0) ⬝ᵥ e| ≤ _)).2
  simp only [sub_zero, zero_sub, dotProduct_neg, neg_dotProduct, neg_neg, he] at h1 h2
  rw [sub_dotProduct, he] at h3
  linarith

/-- Strong convexity bounds the distance of the values by the gradient. -/
theorem polyak_lojasiewicz (hμ : 0 < μ)
    (hsc : ∀ x y, φ x + g x ⬝ᵥ (y - x) + μ / 2 * ((y - x) ⬝ᵥ (y - x)) ≤ φ y) (x y : Fin n → ℝ) :
    2 * μ * (φ x - φ y) ≤ g x ⬝ᵥ g x := by
  have h1 := hsc x y
  have h2 := dot_self_nonneg (g x + μ • (y - x))
  simp only [add_dotProduct, dotProduct_add, smul_dotProduct, dotProduct_smul, smul_eq_mul] at h2
  rw [dotProduct_comm (y - x) (g x)] at h2
  nlinarith

/-- C99: gradient descent on a `μ`-strongly convex objective whose gradient has the Lipschitz constant `L` (Euclidean
    norm) terminates as soon as the line search may halve the step length until it is at most `2 (1 - σ) / L`, and the
    distance of the objective from any value of the objective (in particular from the minimum) decreases in every
    iteration by the factor `1 - 2 μ σ min(1, (1 - σ)/L) ∈ [1/2, 1)`. -/
theorem C99_linear_rate (hn : 0 < n) (hφ : ObjRepr eval φ) (hg : GradRepr jac g) (h : IsGrad φ g) (hL : 0 < L) (hμ : 0 < μ)
    (hlip : ∀ x y, (g x - g y) ⬝ᵥ (g x - g y) ≤ L ^ 2 * ((x - y) ⬝ᵥ (x - y)))
    (hsc : ∀ x y, φ x + g x ⬝ᵥ (y - x) + μ / 2 * ((y - x) ⬝ᵥ (y - x)) ≤ φ y) (hσ : 0 < σ) (hσ' : σ < 1)
    {fuel j : ℕ} (hj : j < fuel) (hfuel : 1 / 2 ^ j ≤ 2 * (1 - σ) / L) (iters : ℕ) (x₀ : Fin n → ℝ) :
    1 / 2 ≤ 1 - 2 * μ * σ * min 1 ((1 - σ) / L) ∧ 1 - 2 * μ * σ * min 1 ((1 - σ) / L) < 1 ∧
    ∃ x, gradientMinimize eval jac σ iters fuel (col x₀) = some (col x) ∧
      (∀ y, φ x - φ y ≤ (1 - 2 * μ * σ * min 1 ((1 - σ) / L)) ^ iters * (φ x₀ - φ y)) ∧
      ∀ z, g z = 0 → (x - z) ⬝ᵥ (x - z) ≤
        2 / μ * ((1 - 2 * μ * σ * min 1 ((1 - σ) / L)) ^ iters * (φ x₀ - φ z)) := by
  set a := min 1 ((1 - σ) / L) with ha
  have ha0 : 0 < a := lt_min one_pos (div_pos (by linarith) hL)
  have hc0 : 0 < 2 * μ * σ * a := by positivity
  have hc1 : 2 * μ * σ * a ≤ 1 / 2 := by
    have h1 : a * L ≤ 1 - σ := by
      rw [← le_div_iff₀ hL]
      exact min_le_right _ _
    have h2 := mu_le_L hn hL.le hlip hsc
    have h3 : a * μ ≤ 1 - σ := (mul_le_mul_of_nonneg_left h2 ha0.le).trans h1
    nlinarith [sq_nonneg (2 * σ - 1)]
  refine ⟨by linarith, by linarith, ?_⟩
  have main : ∃ t, forRange 0 iters (fun x _ => gradientStep eval jac σ fuel x) (col x₀) = some t ∧
      ∃ x, t = col x ∧ ∀ y, φ x - φ y ≤ (1 - 2 * μ * σ * a) ^ iters * (φ x₀ - φ y) :=
    forRange_inv (fun k t => ∃ x, t = col x ∧ ∀ y, φ x - φ y ≤ (1 - 2 * μ * σ * a) ^ k * (φ x₀ - φ y))
      (Nat.zero_le _) ⟨x₀, rfl, fun y => by simp⟩ (fun i t _ _ ⟨x, hx, hi⟩ => by
        obtain ⟨α, h0, -, h1, h2⟩ := gradientStep_decrease hn hφ hg h hL hlip hj hfuel x
        refine ⟨_, by rw [hx]; exact h1, _, rfl, fun y => ?_⟩
        have h3 := polyak_lojasiewicz hμ hsc x y
        have h4 := mul_le_mul_of_nonneg_left h3 (mul_pos hσ ha0).le
        have h6 := mul_le_mul_of_nonneg_left (mul_le_mul_of_nonneg_right h0 (dot_self_nonneg (g x))) hσ.le
        have h5 := mul_le_mul_of_nonneg_left (hi y) (show 0 ≤ 1 - 2 * μ * σ * a by linarith)
        rw [pow_succ]
        linarith)
  obtain ⟨t, h1, x, rfl, h2⟩ := main
  refine ⟨x, h1, h2, fun z hz => ?_⟩
  have h3 := hsc z x
  rw [hz, zero_dotProduct] at h3
  have h4 := h2 z
  rw [div_mul_eq_mul_div, le_div_iff₀ hμ]
  linarith

/-- C99: for a convex objective (not necessarily strongly convex) with a Lipschitz gradient and a minimum at `z`, the
    objective is after `k` iterations within `(|x₀ - z|² + (φ(x₀) - φ(z))/σ) / (2 min(1, (1 - σ)/L) k)` of the minimum. -/
theorem C99_sublinear_rate (hn : 0 < n) (hφ : ObjRepr eval φ) (hg : GradRepr jac g) (h : IsGrad φ g) (hL : 0 < L)
    (hlip : ∀ x y, (g x - g y) ⬝ᵥ (g x - g y) ≤ L ^ 2 * ((x - y) ⬝ᵥ (x - y)))
    (hconv : ∀ x y, φ x + g x ⬝ᵥ (y - x) ≤ φ y) (hσ : 0 < σ) (hσ' : σ < 1)
    {fuel j : ℕ} (hj : j < fuel) (hfuel : 1 / 2 ^ j ≤ 2 * (1 - σ) / L) (iters : ℕ) (x₀ z : Fin n → ℝ) (hz : ∀ y, φ z ≤ φ y) :
    ∃ x, gradientMinimize eval jac σ iters fuel (col x₀) = some (col x) ∧
      iters * (2 * min 1 ((1 - σ) / L) * (φ x - φ z)) ≤ (x₀ - z) ⬝ᵥ (x₀ - z) + (φ x₀ - φ z) / σ := by
  set a := min 1 ((1 - σ) / L) with ha
  have ha0 : 0 < a := lt_min one_pos (div_pos (by linarith) hL)
  have main : ∃ t, forRange 0 iters (fun x _ => gradientStep eval jac σ fuel x) (col x₀) = some t ∧
      ∃ x, t = col x ∧ iters * (2 * a * (φ x - φ z)) + (x - z) ⬝ᵥ (x - z) + (φ x - φ z) / σ ≤
        (x₀ - z) ⬝ᵥ (x₀ - z) + (φ x₀ - φ z) / σ :=
    forRange_inv (fun k t => ∃ x, t = col x ∧ k * (2 * a * (φ x - φ z)) + (x - z) ⬝ᵥ (x - z) + (φ x - φ z) / σ ≤
        (x₀ - z) ⬝ᵥ (x₀ - z) + (φ x₀ - φ z) / σ)
      (Nat.zero_le _) ⟨x₀, rfl, by simp⟩ (fun i t _ _ ⟨x, hx, hi⟩ => by
        obtain ⟨α, h0, h1, h2, h3⟩ := gradientStep_decrease hn hφ hg h hL hlip hj hfuel x
        refine ⟨_, by rw [hx]; exact h2, _, rfl, ?_⟩
        set x' := x - α • g x with hx'
        have hG := dot_self_nonneg (g x)
        have hα : 0 < α := lt_of_lt_of_le ha0 h0
        have e1 : (x' - z) ⬝ᵥ (x' - z) = (x - z) ⬝ᵥ (x - z) - 2 * α * (g x ⬝ᵥ (x - z)) + α ^ 2 * (g x ⬝ᵥ g x) := by
          rw [hx', show x - α • g x - z = (x - z) - α • g x by abel]
          generalize x - z = e
          simp only [sub_dotProduct, dotProduct_sub, smul_dotProduct, dotProduct_smul, smul_eq_mul]
          rw [dotProduct_comm e (g x)]
          ring
        have e2 : φ x - φ z ≤ g x ⬝ᵥ (x - z) := by
          have := hconv x z
          rw [← neg_sub x z, dotProduct_neg] at this
          linarith
        have e3 : α * (g x ⬝ᵥ g x) ≤ (φ x - φ x') / σ := by
          rw [le_div_iff₀ hσ]
          linarith
        have e4 : α ^ 2 * (g x ⬝ᵥ g x) ≤ α * (g x ⬝ᵥ g x) := by nlinarith [mul_nonneg hα.le hG]
        have e5 : φ x' ≤ φ x := by nlinarith [mul_nonneg hσ.le (mul_nonneg hα.le hG)]
        have e6 : a * (φ x - φ z) ≤ α * (g x ⬝ᵥ (x - z)) :=
          mul_le_mul h0 e2 (by linarith [hz x]) hα.le
        have e7 : (φ x - φ x') / σ = (φ x - φ z) / σ - (φ x' - φ z) / σ := by ring
        have e8 : ((i : ℝ) + 1) * (2 * a * (φ x' - φ z)) ≤ ((i : ℝ) + 1) * (2 * a * (φ x - φ z)) := by gcongr
        push_cast
        linarith)
  obtain ⟨t, h1, x, rfl, h2⟩ := main
  refine ⟨x, h1, ?_⟩
  have h3 := dot_self_nonneg (x - z)
  have h4 : 0 ≤ (φ x - φ z) / σ := div_nonneg (by linarith [hz x]) hσ.le
  linarith

/-- `φ(x, y) = (x² + 3 y²)/2`: `μ = 1`, `L = 3`; with `σ = 1/2` the value decreases at least by the factor `5/6` -/
example (k : ℕ) : ∃ x : Fin 2 → ℝ, gradientMinimize (fun v => do
      let x ← v.vget 0
      let y ← v.vget 1
      some (col ![(x * x + 3 * (y * y)) / 2])) (fun v => do
      let x ← v.vget 0
      let y ← v.vget 1
      some ⟨1, 2, [x, 3 * y]⟩) (1 / 2) k 3 (col ![4, 1]) = some (col x) ∧ (x 0 ^ 2 + 3 * x 1 ^ 2) / 2 ≤ (5 / 6) ^ k * (19 / 2) := by
  obtain ⟨-, -, x, h1, h2, -⟩ := C99_linear_rate (n := 2) (φ := fun x => (x 0 * x 0 + 3 * (x 1 * x 1)) / 2)
    (g := fun x => ![x 0, 3 * x 1]) (σ := 1 / 2) (L := 3) (μ := 1) (fuel := 3) (j := 2) (eval := fun v => do
      let x ← v.vget 0
      let y ← v.vget 1
      some (col ![(x * x + 3 * (y * y)) / 2])) (jac := fun v => do
      let x ← v.vget 0
      let y ← v.vget 1
      some ⟨1, 2, [x, 3 * y]⟩) two_pos
    (fun x => ⟨_, rfl, rfl⟩)
    (fun x => ⟨_, 0, !![x 0, 3 * x 1], rfl, by constructor <;> simp [Mat.get, Fin.forall_fin_two], by
      funext i; fin_cases i <;> rfl⟩)
    (fun x => ⟨x 0 • ContinuousLinearMap.proj 0 + (3 * x 1) • ContinuousLinearMap.proj 1, by
      have d0 : HasFDerivAt (fun x : Fin 2 → ℝ => x 0) (ContinuousLinearMap.proj (R := ℝ) (φ := fun _ : Fin 2 => ℝ) 0) x :=
        (ContinuousLinearMap.proj (R := ℝ) (φ := fun _ : Fin 2 => ℝ) 0).hasFDerivAt
      have d1 : HasFDerivAt (fun x : Fin 2 → ℝ => x 1) (ContinuousLinearMap.proj (R := ℝ) (φ := fun _ : Fin 2 => ℝ) 1) x :=
        (ContinuousLinearMap.proj (R := ℝ) (φ := fun _ : Fin 2 => ℝ) 1).hasFDerivAt
      have := ((d0.mul d0).add ((d1.mul d1).const_mul 3)).mul_const (1 / 2 : ℝ)
      refine (this.congr_fderiv ?_).congr_of_eventuallyEq (Filter.Eventually.of_forall fun y => ?_)
      · ext v
        simp
        ring
      · simp
        ring, fun v => by simp [dotProduct, Fin.sum_univ_two]⟩)
    (by norm_num) (by norm_num)
    (fun x y => by
      simp [dotProduct, Fin.sum_univ_two]
      nlinarith [sq_nonneg (x 0 - y 0), sq_nonneg (x 1 - y 1)])
    (fun x y => by
      simp [dotProduct, Fin.sum_univ_two]
      nlinarith [sq_nonneg (x 0 - y 0), sq_nonneg (x 1 - y 1)])
    (by norm_num) (by norm_num) (by norm_num) (by norm_num) k ![4, 1]
  refine ⟨x, h1, ?_⟩
  have := h2 0
  norm_num at this
  refine le_trans (le_of_eq ?_) this
  ring

end Opt
end Verif
