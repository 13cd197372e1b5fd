import Verif.RKConv
import Mathlib.Analysis.Calculus.ContDiff.Deriv

/-!
# The error of explicit multistep methods that start with fewer steps

Nothing here mentions the crate.
-/

namespace Verif
namespace RK
open Finset Asymptotics Filter Topology
variable {E : Type} [NormedAddCommGroup E] [NormedSpace ℝ E]

/-- Errors add up to at most their sum times an exponential factor: `E j` bounds the perturbation of step `j`. -/
theorem multistep_stable {g : ℝ → E → E} {y : ℝ → E} {t₀ t₁ L δ A : ℝ} (hL : 0 ≤ L) (hA : 0 ≤ A)
    (hg : ∀ t ∈ Set.Icc t₀ t₁, ∀ x, ‖x - y t‖ ≤ δ → ‖g t x - g t (y t)‖ ≤ L * ‖x - y t‖)
    {N : ℕ} {τ : ℕ → ℝ} {x : ℕ → E} (κ : ℕ → ℕ) (W : ℕ → ℕ → ℝ) (hκ : ∀ j < N, κ j ≤ j + 1)
    (hW : ∀ j < N, ∑ i ∈ range (κ j), |W j i| ≤ A)
    (hτ : ∀ k < N, τ k ≤ τ (k + 1)) (hin : ∀ k ≤ N, τ k ∈ Set.Icc t₀ t₁) (hτ0 : τ 0 = t₀) (E' : ℕ → ℝ)
    (hE : ∀ j < N, 0 ≤ E' j)
    (hx : ∀ j < N, (∀ i ≤ j, ‖x i - y (τ i)‖ ≤ δ) →
      ‖x (j + 1) - (x j + (τ (j + 1) - τ j) • ∑ i ∈ range (κ j), W j i • g (τ (j - i)) (x (j - i)))‖ ≤ E' j)
    (B : ℕ → ℝ) (hB0 : ‖x 0 - y t₀‖ ≤ B 0)
    (hB : ∀ j < N, ‖y (τ (j + 1)) - y (τ j) - (τ (j + 1) - τ j) • ∑ i ∈ range (κ j), W j i • g (τ (j - i)) (y (τ (j - i)))‖ ≤
      B (j + 1) - B j - E' j)
    (hδ : Real.exp (A * L * (t₁ - t₀)) * B N ≤ δ) :
    ∀ j ≤ N, ‖x j - y (τ j)‖ ≤ Real.exp (A * L * (t₁ - t₀)) * B N := by
  have hAL : 0 ≤ A * L := mul_nonneg hA hL
  have hBm : ∀ j < N, B j ≤ B (j + 1) := fun j hj => by linarith [hB j hj, hE j hj, norm_nonneg (y (τ (j + 1)) - y (τ j) -
    (τ (j + 1) - τ j) • ∑ i ∈ range (κ j), W j i • g (τ (j - i)) (y (τ (j - i))))]
  have hBm' : ∀ i j, i ≤ j → j ≤ N → B i ≤ B j := by
    intro i j hij
    induction j, hij using Nat.le_induction with
    | base => intro _; exact le_rfl
    | succ j _ ih => intro hj; exact (ih (by omega)).trans (hBm j (by omega))
  have hBnn : ∀ j ≤ N, 0 ≤ B j := fun j hj => ((norm_nonneg _).trans hB0).trans (hBm' 0 j (Nat.zero_le _) hj)
  have hfin : ∀ j ≤ N, Real.exp (A * L * (τ j - t₀)) * B j ≤ Real.exp (A * L * (t₁ - t₀)) * B N := by
    intro j hj
    have h1 := hBm' j N hj le_rfl
    have h2 := hBnn j hj
    have h3 : τ j - t₀ ≤ t₁ - t₀ := by linarith [(hin j hj).2]
    gcongr
  have main : ∀ j ≤ N, ∀ i ≤ j, ‖x i - y (τ i)‖ ≤ Real.exp (A * L * (τ j - t₀)) * B j := by
    intro j
    induction j with
    | zero =>
      intro _ i hi
      obtain rfl : i = 0 := by omega
      rw [hτ0]
      simpa using hB0
    | succ j ih =>
      intro hj i hi
      have ih := ih (by omega)
      have hτj := hτ j (by omega)
      have hBj := hBm j (by omega)
      have hBj0 := hBnn j (by omega)
      have hk0 : 0 ≤ τ j - t₀ := by linarith [(hin j (by omega)).1]
      rcases Nat.lt_or_ge i (j + 1) with hlt | hge
      · refine (ih i (by omega)).trans ?_
        gcongr
      · obtain rfl : i = j + 1 := by omega
        set d := τ (j + 1) - τ j with hd
        have hd0 : 0 ≤ d := by linarith
        set M := Real.exp (A * L * (τ j - t₀)) * B j with hM
        have hM0 : 0 ≤ M := by positivity
        have hMδ : M ≤ δ := (hfin j (by omega)).trans hδ
        set ρ := y (τ (j + 1)) - y (τ j) - d • ∑ i ∈ range (κ j), W j i • g (τ (j - i)) (y (τ (j - i))) with hρ
        have hρB : ‖ρ‖ ≤ B (j + 1) - B j - E' j := hB j (by omega)
        have hxE := hx j (by omega) fun i hi => (ih i hi).trans hMδ
        set η := x (j + 1) - (x j + d • ∑ i ∈ range (κ j), W j i • g (τ (j - i)) (x (j - i))) with hη
        have e4 : x (j + 1) - y (τ (j + 1)) = (x j - y (τ j)) +
            d • (∑ i ∈ range (κ j), W j i • (g (τ (j - i)) (x (j - i)) - g (τ (j - i)) (y (τ (j - i))))) - (ρ - η) := by
          rw [hη, hρ]
          simp only [smul_sub, sum_sub_distrib]
          abel
        have e5 : ‖∑ i ∈ range (κ j), W j i • (g (τ (j - i)) (x (j - i)) - g (τ (j - i)) (y (τ (j - i))))‖ ≤ A * (L * M) := by
          refine (norm_sum_le _ _).trans ?_
          refine le_trans (sum_le_sum fun i hi => ?_) (le_trans (le_of_eq (sum_mul _ _ _).symm)
            (mul_le_mul_of_nonneg_right (hW j (by omega)) (by positivity)))
          rw [norm_smul, Real.norm_eq_abs]
          have h1 := ih (j - i) (by omega)
          have h2 := hg (τ (j - i)) (hin _ (by omega)) _ (h1.trans hMδ)
          exact mul_le_mul_of_nonneg_left (h2.trans (mul_le_mul_of_nonneg_left h1 hL)) (abs_nonneg _)
        have e6 : 1 + A * L * d ≤ Real.exp (A * L * d) := by linarith [Real.add_one_le_exp (A * L * d)]
        have e7 : 1 ≤ Real.exp (A * L * ((τ j - t₀) + d)) := Real.one_le_exp (by positivity)
        have e8 : τ (j + 1) - t₀ = (τ j - t₀) + d := by rw [hd]; ring
        rw [e4, e8]
        calc _ ≤ ‖x j - y (τ j)‖ + ‖d • (∑ i ∈ range (κ j), W j i •
                (g (τ (j - i)) (x (j - i)) - g (τ (j - i)) (y (τ (j - i)))))‖ + ‖ρ - η‖ :=
              (norm_sub_le _ _).trans (by gcongr; exact norm_add_le _ _)
          _ ≤ M + d * (A * (L * M)) + (B (j + 1) - B j) := by
              rw [norm_smul, Real.norm_eq_abs, abs_of_nonneg hd0]
              have := ih j le_rfl
              have h9 : ‖ρ - η‖ ≤ B (j + 1) - B j := (norm_sub_le _ _).trans (by linarith)
              gcongr
          _ = (1 + A * L * d) * M + (B (j + 1) - B j) * 1 := by ring
          _ ≤ Real.exp (A * L * d) * M + (B (j + 1) - B j) * Real.exp (A * L * ((τ j - t₀) + d)) := by
              have : 0 ≤ B (j + 1) - B j := by linarith
              gcongr
          _ = Real.exp (A * L * ((τ j - t₀) + d)) * B (j + 1) := by
              rw [hM, mul_add (A * L), Real.exp_add]; ring
  intro j hj
  exact (main j hj j le_rfl).trans (hfin j hj)

/-- linear approximation of a function with a Lipschitz derivative -/
theorem taylor_one {φ φ' : ℝ → E} {t₀ t₁ M : ℝ} (hφ : ∀ u ∈ Set.Icc t₀ t₁, HasDerivAt φ (φ' u) u)
    (hM : ∀ u ∈ Set.Icc t₀ t₁, ∀ v ∈ Set.Icc t₀ t₁, ‖φ' v - φ' u‖ ≤ M * |v - u|) (hM0 : 0 ≤ M)
    {u v : ℝ} (hu : u ∈ Set.Icc t₀ t₁) (hv : v ∈ Set.Icc t₀ t₁) :
    ‖φ v - φ u - (v - u) • φ' u‖ ≤ M * |v - u| ^ 2 := by
  have hsub : Set.uIcc u v ⊆ Set.Icc t₀ t₁ := Set.uIcc_subset_Icc hu hv
  have key := (convex_uIcc u v).norm_image_sub_le_of_norm_hasDerivWithin_le (f := fun s => φ s - (s - u) • φ' u)
    (f' := fun s => φ' s - φ' u) (C := M * |v - u|) (x := u) (y := v)
    (fun s hs => by
      have h1 := (((hasDerivAt_id s).sub_const u).smul_const (φ' u))
      have := (hφ s (hsub hs)).sub h1
      rw [one_smul] at this
      exact this.hasDerivWithinAt)
    (fun s hs => (hM u hu s (hsub hs)).trans (mul_le_mul_of_nonneg_left (Set.abs_sub_left_of_mem_uIcc hs) hM0))
    Set.left_mem_uIcc Set.right_mem_uIcc
  simp only [sub_self, zero_smul, sub_zero] at key
  rw [Real.norm_eq_abs] at key
  rw [pow_two, ← mul_assoc]
  convert key using 2
  abel

/-- quadratic approximation -/
theorem taylor_two {y v a : ℝ → E} {t₀ t₁ M : ℝ} (hy : ∀ u ∈ Set.Icc t₀ t₁, HasDerivAt y (v u) u)
    (hv : ∀ u ∈ Set.Icc t₀ t₁, HasDerivAt v (a u) u)
    (hM : ∀ u ∈ Set.Icc t₀ t₁, ∀ w ∈ Set.Icc t₀ t₁, ‖a w - a u‖ ≤ M * |w - u|) (hM0 : 0 ≤ M)
    {u w : ℝ} (hu : u ∈ Set.Icc t₀ t₁) (hw : w ∈ Set.Icc t₀ t₁) :
    ‖y w - y u - (w - u) • v u - ((w - u) ^ 2 / 2) • a u‖ ≤ M * |w - u| ^ 3 := by
  have hsub : Set.uIcc u w ⊆ Set.Icc t₀ t₁ := Set.uIcc_subset_Icc hu hw
  have key := (convex_uIcc u w).norm_image_sub_le_of_norm_hasDerivWithin_le
    (f := fun s => y s - (s - u) • v u - ((s - u) ^ 2 / 2) • a u)
    (f' := fun s => v s - v u - (s - u) • a u) (C := M * |w - u| ^ 2) (x := u) (y := w)
    (fun s hs => by
      have h0 := (hasDerivAt_id s).sub_const u
      have h1 := h0.smul_const (v u)
      have h2 := ((h0.pow 2).div_const 2).smul_const (a u)
      have := ((hy s (hsub hs)).sub h1).sub h2
      refine HasDerivAt.hasDerivWithinAt ?_
      rw [one_smul, show (((2 : ℕ) : ℝ) * (id s - u) ^ (2 - 1) * 1 / 2) = s - u by simp] at this
      exact this)
    (fun s hs => (taylor_one hv hM hM0 hu (hsub hs)).trans (mul_le_mul_of_nonneg_left
      (pow_le_pow_left₀ (abs_nonneg _) (Set.abs_sub_left_of_mem_uIcc hs) 2) hM0))
    Set.left_mem_uIcc Set.right_mem_uIcc
  simp only [sub_self, zero_smul, sub_zero, ne_eq, OfNat.ofNat_ne_zero, not_false_eq_true, zero_pow, zero_div] at key
  rw [Real.norm_eq_abs] at key
  refine le_trans (le_of_eq ?_) (key.trans (le_of_eq (by ring)))
  congr 1
  abel

/-- a function that is continuously differentiable at every point of a compact interval is Lipschitz there -/
theorem lipschitz_of_contDiffAt {φ : ℝ → E} {t₀ t₁ : ℝ} (hφ : ∀ u ∈ Set.Icc t₀ t₁, ContDiffAt ℝ 1 φ u) :
    ∃ M ≥ 0, ∀ u ∈ Set.Icc t₀ t₁, ∀ v ∈ Set.Icc t₀ t₁, ‖φ v - φ u‖ ≤ M * |v - u| := by
  have hc : ContinuousOn (deriv φ) (Set.Icc t₀ t₁) := by
    intro u hu
    have : ContDiffAt ℝ 0 (deriv φ) u := by
      have h1 : ContDiffAt ℝ 0 (fderiv ℝ φ) u := ContDiffAt.fderiv_right (m := 0) (hφ u hu) (by norm_num)
      have h2 : deriv φ = fun w => fderiv ℝ φ w 1 := by funext w; exact fderiv_apply_one_eq_deriv.symm
      rw [h2]
      exact h1.clm_apply contDiffAt_const
    exact this.continuousAt.continuousWithinAt
  obtain ⟨M, hM⟩ := isCompact_Icc.exists_bound_of_continuousOn hc
  refine ⟨max M 0, le_max_right _ _, fun u hu v hv => ?_⟩
  have := (convex_Icc t₀ t₁).norm_image_sub_le_of_norm_hasDerivWithin_le (f := φ) (f' := deriv φ) (C := max M 0)
    (fun s hs => ((hφ s hs).differentiableAt (by norm_num)).hasDerivAt.hasDerivWithinAt)
    (fun s hs => (hM s hs).trans (le_max_left _ _)) hu hv
  simpa using this

end RK
end Verif
