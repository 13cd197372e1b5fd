import Verif.MsConv
import Verif.MultistepProps
import Mathlib.Analysis.SpecialFunctions.ExpDeriv

/-! # Convergence of the Adams-Bashforth solver: C87 -/

namespace Verif
namespace Ode
open Finset Asymptotics Filter Topology RK

theorem grid_step {h t₀ t₁ : ℝ} (hh : 0 < h) (ht : t₀ ≤ t₁) (j : ℕ) :
    0 ≤ grid h t₀ t₁ (j + 1) - grid h t₀ t₁ j ∧ grid h t₀ t₁ (j + 1) - grid h t₀ t₁ j ≤ h := by
  rw [← grid_diff hh j]
  exact ⟨le_min hh.le (by simp [grid]), min_le_left _ _⟩

theorem grid_back {h t₀ t₁ : ℝ} (hh : 0 < h) {i j : ℕ} (hij : i ≤ j) : |grid h t₀ t₁ (j - i) - grid h t₀ t₁ j| ≤ i * h := by
  refine (abs_min_sub_min_le_max _ _ _ _).trans ?_
  rw [sub_self, abs_zero, Nat.cast_sub hij, show t₀ + ((j : ℝ) - i) * h - (t₀ + j * h) = -(i * h) by ring, abs_neg,
    abs_of_nonneg (by positivity)]
  exact max_le le_rfl (by positivity)

/-- a step of full length: its predecessors are equidistant -/
theorem grid_full {h t₀ t₁ : ℝ} (hh : 0 < h) {j : ℕ} (hd : grid h t₀ t₁ (j + 1) - grid h t₀ t₁ j = h) {i : ℕ} (hij : i ≤ j) :
    grid h t₀ t₁ (j - i) - grid h t₀ t₁ j = -(i * h) := by
  have h1 : t₀ + j * h ≤ t₁ := by
    by_contra hlt
    rw [← grid_diff hh j] at hd
    simp only [grid] at hd
    rw [min_eq_right (by linarith : t₁ ≤ t₀ + j * h), sub_self, min_eq_right hh.le] at hd
    linarith
  have h2 : ((j - i : ℕ) : ℝ) = j - i := Nat.cast_sub hij
  have h3 : 0 ≤ (i : ℝ) * h := by positivity
  simp only [grid]
  rw [min_eq_left h1, h2, min_eq_left (by linarith)]
  ring

/-- a shorter step ends at `t₁` -/
theorem grid_short {h t₀ t₁ : ℝ} (hh : 0 < h) {j : ℕ} (hd : grid h t₀ t₁ (j + 1) - grid h t₀ t₁ j ≠ h) :
    grid h t₀ t₁ (j + 1) = t₁ := by
  rcases le_total h (t₁ - grid h t₀ t₁ j) with h1 | h1
  · rw [← grid_diff hh j, min_eq_left h1] at hd
    exact absurd rfl hd
  · rw [← grid_succ hh j, min_eq_right h1]
    ring

section
variable {n : ℕ} {g : ℝ → (Fin n → ℝ) → (Fin n → ℝ)} {y : ℝ → (Fin n → ℝ)} {t₀ t₁ : ℝ}

/-- an explicit multistep method on the grid, whose step `j` uses `min (j + 1) k` values and is perturbed by at most `E j` -/
theorem ms_converges_pert (ht : t₀ ≤ t₁) {k q : ℕ} (hk : 1 ≤ k) (hq : q = min k 2) (W : ℕ → ℕ → ℝ)
    (hW0 : ∀ κ, 1 ≤ κ → κ ≤ k → ∑ i ∈ range κ, W κ i = 1)
    (hW1 : ∀ κ, 2 ≤ κ → κ ≤ k → ∑ i ∈ range κ, W κ i * i = -1 / 2)
    (hg : ∀ t ∈ Set.Icc t₀ t₁, ContDiffAt ℝ q (fun z : ℝ × (Fin n → ℝ) => g z.1 z.2) (t, y t))
    (hy : ∀ t ∈ Set.Icc t₀ t₁, ∀ᶠ u in 𝓝 t, HasDerivAt y (g u (y u)) u) {δ₁ : ℝ} (hδ₁ : 0 < δ₁) :
    ∃ h₀ > 0, ∃ ρ₀ > 0, ∃ C ≥ 0, ∀ h, 0 < h → h ≤ h₀ → ∀ (N : ℕ) (x : ℕ → Fin n → ℝ) (E : ℕ → ℝ) (e₀ : ℝ),
      (∀ j < N, 0 ≤ E j) → ‖x 0 - y t₀‖ ≤ e₀ → e₀ + ∑ j ∈ range N, E j ≤ ρ₀ →
      (∀ j < N, (∀ i ≤ j, ‖x i - y (grid h t₀ t₁ i)‖ ≤ δ₁) →
        ‖x (j + 1) - (x j + (grid h t₀ t₁ (j + 1) - grid h t₀ t₁ j) • ∑ i ∈ range (min (j + 1) k),
          W (min (j + 1) k) i • g (grid h t₀ t₁ (j - i)) (x (j - i)))‖ ≤ E j) →
      ∀ j ≤ N, ‖x j - y (grid h t₀ t₁ j)‖ ≤ C * (h ^ q + (e₀ + ∑ j ∈ range N, E j)) := by
  have hq1 : 1 ≤ q := by omega
  have hg1 : ∀ t ∈ Set.Icc t₀ t₁, ContDiffAt ℝ 1 (fun z : ℝ × (Fin n → ℝ) => g z.1 z.2) (t, y t) :=
    fun t ht => (hg t ht).of_le (by exact_mod_cast hq1)
  have hg1' : ∀ t ∈ Set.Icc t₀ t₁, ContDiffAt ℝ ((1 : ℕ) : WithTop ℕ∞) (fun z : ℝ × (Fin n → ℝ) => g z.1 z.2) (t, y t) := by
    simpa using hg1
  have hyd : ∀ t ∈ Set.Icc t₀ t₁, HasDerivAt y (g t (y t)) t := fun t ht => (hy t ht).self_of_nhds
  -- the derivative of the solution
  have hv : ∀ t ∈ Set.Icc t₀ t₁, ContDiffAt ℝ q (fun u => g u (y u)) t := by
    intro t ht
    have h1 : ContDiffAt ℝ q y t :=
      (solution_contDiffAt (hg t ht) (hy t ht) q le_rfl).of_le (by norm_cast; omega)
    exact (hg t ht).comp t (contDiffAt_id.prodMk h1)
  obtain ⟨M₁, hM₁, hL₁⟩ := lipschitz_of_contDiffAt fun t ht => (hv t ht).of_le (by exact_mod_cast hq1)
  -- a Lipschitz constant of the right-hand side near the solution
  obtain ⟨δ, hδ, h₁, hh₁, L, hL, _, _, H⟩ := tube (E := Fin n → ℝ) (y := y) (p := 1) one_pos (K := fun t x _ => g t x)
    (fun t ht => ContDiffAt.comp (t, y t, 0) (f := fun z : ℝ × (Fin n → ℝ) × ℝ => (z.1, z.2.1)) (hg1' t ht)
      (contDiffAt_fst.prodMk contDiffAt_snd.fst))
    (fun t ht => solution_contDiffAt (hg1' t ht) (hy t ht) 1 le_rfl)
    (fun t ht => by
      have hcont : ContinuousAt (fun u => (u, y u)) t := continuousAt_id.prodMk (hyd t ht).continuousAt
      have h1 := hcont.eventually ((hg1' t ht).eventually (by simp))
      filter_upwards [h1, (hy t ht).eventually_nhds] with u hu1 hu2
      have := rkStep_order (s := 1) (A := fun _ _ => 0) (b := fun _ => 1) (c := fun _ => 0) (p := 1) one_pos
        (by
          intro F hF
          cases F with
          | nil => simp [weight, Forest.size, Forest.dens]
          | cons t r => simp only [Forest.size] at hF; omega)
        (by intro i hi; simp) g u y hu1 hu2
      refine this.congr_left fun h => ?_
      rw [rkStep, sum_range_one, rkStage_eq]
      simp)
  have HL : ∀ t ∈ Set.Icc t₀ t₁, ∀ x, ‖x - y t‖ ≤ δ → ‖g t x - g t (y t)‖ ≤ L * ‖x - y t‖ :=
    fun t ht => (H t ht 0 (by simpa using hh₁.le)).1
  set A := ∑ κ ∈ range (k + 1), ∑ i ∈ range κ, |W κ i| with hA
  have hA0 : 0 ≤ A := sum_nonneg fun κ _ => sum_nonneg fun i _ => abs_nonneg _
  have hAW : ∀ κ ≤ k, ∑ i ∈ range κ, |W κ i| ≤ A := fun κ hκ =>
    single_le_sum (f := fun κ => ∑ i ∈ range κ, |W κ i|) (fun κ _ => sum_nonneg fun i _ => abs_nonneg _)
      (mem_range.mpr (by omega))
  have hkk : (0 : ℝ) ≤ k := by positivity
  -- the local errors
  have loc1 : ∀ h, 0 < h → ∀ j, ‖y (grid h t₀ t₁ (j + 1)) - y (grid h t₀ t₁ j) - (grid h t₀ t₁ (j + 1) - grid h t₀ t₁ j) •
      ∑ i ∈ range (min (j + 1) k), W (min (j + 1) k) i • g (grid h t₀ t₁ (j - i)) (y (grid h t₀ t₁ (j - i)))‖ ≤
      M₁ * (1 + A * k) * (grid h t₀ t₁ (j + 1) - grid h t₀ t₁ j) * h := by
    intro h hh j
    have hin := (C40_grid hh ht).2.2.2.2
    obtain ⟨hd0, hd1⟩ := grid_step hh ht j
    set d := grid h t₀ t₁ (j + 1) - grid h t₀ t₁ j with hd
    set κ := min (j + 1) k
    have e1 := taylor_one hyd hL₁ hM₁ (hin j) (hin (j + 1))
    rw [← hd, abs_of_nonneg hd0] at e1
    have e2 : ‖∑ i ∈ range κ, W κ i • (g (grid h t₀ t₁ (j - i)) (y (grid h t₀ t₁ (j - i))) -
        g (grid h t₀ t₁ j) (y (grid h t₀ t₁ j)))‖ ≤ A * (M₁ * (k * h)) := by
      refine (norm_sum_le _ _).trans ?_
      refine le_trans (sum_le_sum fun i hi => ?_) (le_trans (le_of_eq (sum_mul _ _ _).symm)
        (mul_le_mul_of_nonneg_right (hAW κ (min_le_right _ _)) (by positivity)))
      rw [norm_smul, Real.norm_eq_abs]
      have hi := mem_range.mp hi
      have hik : (i : ℝ) ≤ k := by exact_mod_cast (by omega : i ≤ k)
      refine mul_le_mul_of_nonneg_left ((hL₁ _ (hin j) _ (hin (j - i))).trans ?_) (abs_nonneg _)
      refine mul_le_mul_of_nonneg_left ((grid_back hh (by omega)).trans ?_) hM₁
      gcongr
    have e3 : y (grid h t₀ t₁ (j + 1)) - y (grid h t₀ t₁ j) - d • ∑ i ∈ range κ, W κ i • g (grid h t₀ t₁ (j - i))
        (y (grid h t₀ t₁ (j - i))) = (y (grid h t₀ t₁ (j + 1)) - y (grid h t₀ t₁ j) - d • g (grid h t₀ t₁ j) (y (grid h t₀ t₁ j))) -
        d • ∑ i ∈ range κ, W κ i • (g (grid h t₀ t₁ (j - i)) (y (grid h t₀ t₁ (j - i))) -
          g (grid h t₀ t₁ j) (y (grid h t₀ t₁ j))) := by
      simp only [smul_sub, sum_sub_distrib, ← sum_smul]
      rw [hW0 κ (by omega) (min_le_right _ _), one_smul]
      abel
    rw [e3]
    refine (norm_sub_le _ _).trans ?_
    rw [norm_smul, Real.norm_eq_abs, abs_of_nonneg hd0]
    calc _ ≤ M₁ * d ^ 2 + d * (A * (M₁ * (k * h))) := by gcongr
      _ ≤ M₁ * (d * h) + d * (A * (M₁ * (k * h))) := by rw [pow_two]; gcongr
      _ = _ := by ring
  -- from local errors to the result
  have fin : ∀ (C₁ : ℝ), 0 ≤ C₁ → (∀ h, 0 < h → ∃ B : ℕ → ℝ, 0 ≤ B 0 ∧ (∀ j, B j ≤ C₁ * h ^ q) ∧
      ∀ j, ‖y (grid h t₀ t₁ (j + 1)) - y (grid h t₀ t₁ j) - (grid h t₀ t₁ (j + 1) - grid h t₀ t₁ j) •
      ∑ i ∈ range (min (j + 1) k), W (min (j + 1) k) i • g (grid h t₀ t₁ (j - i)) (y (grid h t₀ t₁ (j - i)))‖ ≤ B (j + 1) - B j) →
      ∃ h₀ > 0, ∃ ρ₀ > 0, ∃ C ≥ 0, ∀ h, 0 < h → h ≤ h₀ → ∀ (N : ℕ) (x : ℕ → Fin n → ℝ) (E : ℕ → ℝ) (e₀ : ℝ),
      (∀ j < N, 0 ≤ E j) → ‖x 0 - y t₀‖ ≤ e₀ → e₀ + ∑ j ∈ range N, E j ≤ ρ₀ →
      (∀ j < N, (∀ i ≤ j, ‖x i - y (grid h t₀ t₁ i)‖ ≤ δ₁) →
        ‖x (j + 1) - (x j + (grid h t₀ t₁ (j + 1) - grid h t₀ t₁ j) • ∑ i ∈ range (min (j + 1) k),
          W (min (j + 1) k) i • g (grid h t₀ t₁ (j - i)) (x (j - i)))‖ ≤ E j) →
      ∀ j ≤ N, ‖x j - y (grid h t₀ t₁ j)‖ ≤ C * (h ^ q + (e₀ + ∑ j ∈ range N, E j)) := by
    intro C₁ hC₁ hB
    set X := Real.exp (A * L * (t₁ - t₀)) with hX
    have X0 : 0 < X := Real.exp_pos _
    set D := X * C₁ with hD
    have hD0 : 0 ≤ D := by positivity
    set δ' := min δ δ₁ with hδ'
    have δ0 : 0 < δ' := lt_min hδ hδ₁
    refine ⟨min 1 (δ' / 2 / (D + 1)), by positivity, δ' / 2 / X, by positivity, X * (C₁ + 1), by positivity, ?_⟩
    intro h hh hle N x E e₀ hE hx0 hρ hx
    have e2 : h ≤ 1 := hle.trans (min_le_left _ _)
    have e3 : D * h ^ q ≤ δ' / 2 := by
      have h1 : h ^ q ≤ h := by
        obtain ⟨r, rfl⟩ : ∃ r, q = r + 1 := ⟨q - 1, by omega⟩
        rw [pow_succ]
        exact mul_le_of_le_one_left hh.le (pow_le_one₀ hh.le e2)
      have h2 : h ≤ δ' / 2 / (D + 1) := hle.trans (min_le_right _ _)
      rw [le_div_iff₀ (by positivity)] at h2
      nlinarith
    have e4 : X * (e₀ + ∑ j ∈ range N, E j) ≤ δ' / 2 := by
      rw [le_div_iff₀ X0] at hρ
      linarith
    obtain ⟨B, hB0, hB1, hB2⟩ := hB h hh
    have e5 : X * B N ≤ D * h ^ q := by
      rw [hD, mul_assoc X]
      exact mul_le_mul_of_nonneg_left (hB1 N) X0.le
    have e6 : 0 ≤ X * (e₀ + ∑ j ∈ range N, E j) := by
      have : 0 ≤ ∑ j ∈ range N, E j := sum_nonneg fun j hj => hE j (mem_range.1 hj)
      have : 0 ≤ e₀ := (norm_nonneg _).trans hx0
      positivity
    have hle' : X * (B N + (e₀ + ∑ j ∈ range N, E j)) ≤ X * (C₁ + 1) * (h ^ q + (e₀ + ∑ j ∈ range N, E j)) := by
      have : 0 ≤ X * h ^ q := by positivity
      have : 0 ≤ C₁ * (X * (e₀ + ∑ j ∈ range N, E j)) := mul_nonneg hC₁ e6
      rw [hD] at e5
      linarith
    intro j hj
    exact (multistep_stable (δ := δ') hL hA0 (fun t ht x hx => HL t ht x (hx.trans (min_le_left _ _)))
      (fun j => min (j + 1) k) (fun j i => W (min (j + 1) k) i) (fun j _ => min_le_left _ _)
      (fun j _ => hAW _ (min_le_right _ _)) (fun j _ => by linarith [(grid_step hh ht j).1])
      (fun j _ => (C40_grid hh ht).2.2.2.2 j) (grid_zero ht) E hE
      (fun j hj hd => hx j hj fun i hi => (hd i hi).trans (min_le_right _ _))
      (fun j => B j + (e₀ + ∑ i ∈ range j, E i)) (by simpa using hx0.trans (by linarith))
      (fun j _ => by
        refine (hB2 j).trans (le_of_eq ?_)
        simp only [sum_range_succ]
        ring) (by rw [← hX]; linarith) j hj).trans hle'
  have hT : 0 ≤ t₁ - t₀ := by linarith
  by_cases hk2 : k = 1
  · have hq' : q = 1 := by omega
    refine fin (M₁ * (1 + A * k) * (t₁ - t₀)) (by positivity) fun h hh => ?_
    refine ⟨fun j => M₁ * (1 + A * k) * (grid h t₀ t₁ j - t₀) * h, by simp [grid_zero ht], ?_, ?_⟩
    · intro j
      have := ((C40_grid hh ht).2.2.2.2 j).2
      rw [hq', pow_one]
      beta_reduce
      gcongr
    · intro j
      refine (loc1 h hh j).trans (le_of_eq ?_)
      ring
  · have hq' : q = 2 := by omega
    have hvc : ∀ t ∈ Set.Icc t₀ t₁, ContDiffAt ℝ 1 (deriv fun u => g u (y u)) t := by
      intro t ht
      have h0 : ContDiffAt ℝ (1 + 1) (fun u => g u (y u)) t := by
        have := hv t ht
        rw [hq'] at this
        exact this.of_le (by norm_num)
      have h1 : ContDiffAt ℝ 1 (fderiv ℝ fun u => g u (y u)) t := ContDiffAt.fderiv_right (m := 1) h0 le_rfl
      have h2 : deriv (fun u => g u (y u)) = fun w => fderiv ℝ (fun u => g u (y u)) w 1 := by
        funext w; exact fderiv_apply_one_eq_deriv.symm
      rw [h2]
      exact h1.clm_apply contDiffAt_const
    have hvd : ∀ t ∈ Set.Icc t₀ t₁, HasDerivAt (fun u => g u (y u)) (deriv (fun u => g u (y u)) t) t := fun t ht =>
      ((hv t ht).differentiableAt (by norm_cast; omega)).hasDerivAt
    obtain ⟨M₂, hM₂, hL₂⟩ := lipschitz_of_contDiffAt hvc
    set a := deriv fun u => g u (y u) with ha
    have loc2 : ∀ h, 0 < h → ∀ j, 1 ≤ j → grid h t₀ t₁ (j + 1) - grid h t₀ t₁ j = h →
        ‖y (grid h t₀ t₁ (j + 1)) - y (grid h t₀ t₁ j) - (grid h t₀ t₁ (j + 1) - grid h t₀ t₁ j) •
        ∑ i ∈ range (min (j + 1) k), W (min (j + 1) k) i • g (grid h t₀ t₁ (j - i)) (y (grid h t₀ t₁ (j - i)))‖ ≤
        M₂ * (1 + A * k ^ 2) * h * h ^ 2 := by
      intro h hh j hj hd
      have hin := (C40_grid hh ht).2.2.2.2
      have e1 := taylor_two hyd hvd hL₂ hM₂ (hin j) (hin (j + 1))
      rw [hd, abs_of_pos hh] at e1
      rw [hd]
      set κ := min (j + 1) k
      have e2 : ‖∑ i ∈ range κ, W κ i • (g (grid h t₀ t₁ (j - i)) (y (grid h t₀ t₁ (j - i))) -
          g (grid h t₀ t₁ j) (y (grid h t₀ t₁ j)) - (grid h t₀ t₁ (j - i) - grid h t₀ t₁ j) • a (grid h t₀ t₁ j))‖ ≤
          A * (M₂ * (k * h) ^ 2) := by
        refine (norm_sum_le _ _).trans ?_
        refine le_trans (sum_le_sum fun i hi => ?_) (le_trans (le_of_eq (sum_mul _ _ _).symm)
          (mul_le_mul_of_nonneg_right (hAW κ (min_le_right _ _)) (by positivity)))
        rw [norm_smul, Real.norm_eq_abs]
        have hi := mem_range.mp hi
        have hik : (i : ℝ) ≤ k := by exact_mod_cast (by omega : i ≤ k)
        refine mul_le_mul_of_nonneg_left ((taylor_one hvd hL₂ hM₂ (hin j) (hin (j - i))).trans ?_) (abs_nonneg _)
        refine mul_le_mul_of_nonneg_left (pow_le_pow_left₀ (abs_nonneg _) ((grid_back hh (by omega)).trans ?_) 2) hM₂
        gcongr
      have e3 : ∑ i ∈ range κ, W κ i • (g (grid h t₀ t₁ (j - i)) (y (grid h t₀ t₁ (j - i))) -
          g (grid h t₀ t₁ j) (y (grid h t₀ t₁ j)) - (grid h t₀ t₁ (j - i) - grid h t₀ t₁ j) • a (grid h t₀ t₁ j)) =
          ∑ i ∈ range κ, W κ i • g (grid h t₀ t₁ (j - i)) (y (grid h t₀ t₁ (j - i))) - g (grid h t₀ t₁ j) (y (grid h t₀ t₁ j)) -
            (h / 2) • a (grid h t₀ t₁ j) := by
        have s1 : ∑ i ∈ range κ, W κ i • (grid h t₀ t₁ (j - i) - grid h t₀ t₁ j) • a (grid h t₀ t₁ j) =
            (h / 2) • a (grid h t₀ t₁ j) := by
          have s2 : ∀ i ∈ range κ, W κ i • (grid h t₀ t₁ (j - i) - grid h t₀ t₁ j) • a (grid h t₀ t₁ j) =
              (W κ i * i * (-h)) • a (grid h t₀ t₁ j) := by
            intro i hi
            have hi := mem_range.mp hi
            rw [grid_full hh hd (by omega), smul_smul]
            congr 1
            ring
          rw [sum_congr rfl s2, ← sum_smul, ← sum_mul, hW1 κ (by omega) (min_le_right _ _)]
          congr 1
          ring
        simp only [smul_sub, sum_sub_distrib, s1, ← sum_smul]
        rw [hW0 κ (by omega) (min_le_right _ _), one_smul]
      rw [e3] at e2
      have e4 : y (grid h t₀ t₁ (j + 1)) - y (grid h t₀ t₁ j) - h • ∑ i ∈ range κ, W κ i • g (grid h t₀ t₁ (j - i))
          (y (grid h t₀ t₁ (j - i))) = (y (grid h t₀ t₁ (j + 1)) - y (grid h t₀ t₁ j) - h • g (grid h t₀ t₁ j) (y (grid h t₀ t₁ j)) -
            (h ^ 2 / 2) • a (grid h t₀ t₁ j)) -
          h • (∑ i ∈ range κ, W κ i • g (grid h t₀ t₁ (j - i)) (y (grid h t₀ t₁ (j - i))) - g (grid h t₀ t₁ j) (y (grid h t₀ t₁ j)) -
            (h / 2) • a (grid h t₀ t₁ j)) := by
        simp only [smul_sub, smul_smul]
        rw [show h * (h / 2) = h ^ 2 / 2 by ring]
        abel
      rw [e4]
      refine (norm_sub_le _ _).trans ?_
      rw [norm_smul, Real.norm_eq_abs, abs_of_pos hh]
      calc _ ≤ M₂ * h ^ 3 + h * (A * (M₂ * (k * h) ^ 2)) := by gcongr
        _ = _ := by ring
    set C₁ := M₁ * (1 + A * k) with hC₁
    set C₂ := M₂ * (1 + A * k ^ 2) with hC₂
    have hC₁0 : 0 ≤ C₁ := by positivity
    have hC₂0 : 0 ≤ C₂ := by positivity
    refine fin (C₂ * (t₁ - t₀) + C₁ + C₁) (by positivity) fun h hh => ?_
    have hin := (C40_grid hh ht).2.2.2.2
    refine ⟨fun j => C₂ * (grid h t₀ t₁ j - t₀) * h ^ 2 + (if 1 ≤ j then C₁ else 0) * h ^ 2 +
      (if grid h t₀ t₁ j = t₁ then C₁ else 0) * h ^ 2, ?_, ?_, ?_⟩
    · beta_reduce
      rw [grid_zero ht, sub_self]
      have : 0 ≤ (if t₀ = t₁ then C₁ else 0) := by split <;> positivity
      simp only [mul_zero, zero_mul, zero_add, Nat.not_ofNat_le_one, nonpos_iff_eq_zero, one_ne_zero, if_false]
      positivity
    · intro j
      rw [hq']
      have h1 := (hin j).2
      have h2 : (if 1 ≤ j then C₁ else 0) ≤ C₁ := by split <;> linarith
      have h3 : (if grid h t₀ t₁ j = t₁ then C₁ else 0) ≤ C₁ := by split <;> linarith
      have h4 : C₂ * (grid h t₀ t₁ j - t₀) ≤ C₂ * (t₁ - t₀) := mul_le_mul_of_nonneg_left (by linarith) hC₂0
      have h5 : 0 ≤ h ^ 2 := by positivity
      beta_reduce
      rw [← add_mul, ← add_mul]
      exact mul_le_mul_of_nonneg_right (by linarith) h5
    · intro j
      beta_reduce
      obtain ⟨hd0, hd1⟩ := grid_step hh ht j
      have l1 := loc1 h hh j
      have hmono : (if grid h t₀ t₁ j = t₁ then C₁ else 0) ≤ (if grid h t₀ t₁ (j + 1) = t₁ then C₁ else 0) := by
        by_cases hc : grid h t₀ t₁ j = t₁
        · have : grid h t₀ t₁ (j + 1) = t₁ := le_antisymm (hin (j + 1)).2 (by linarith)
          rw [if_pos hc, if_pos this]
        · rw [if_neg hc]
          split <;> positivity
      have h5 : 0 ≤ h ^ 2 := by positivity
      have hm1 : 0 ≤ C₂ * ((grid h t₀ t₁ (j + 1) - t₀) - (grid h t₀ t₁ j - t₀)) * h ^ 2 := by
        have : 0 ≤ (grid h t₀ t₁ (j + 1) - t₀) - (grid h t₀ t₁ j - t₀) := by linarith
        positivity
      have hm2 := mul_le_mul_of_nonneg_right hmono h5
      have l1' : C₁ * (grid h t₀ t₁ (j + 1) - grid h t₀ t₁ j) * h ≤ C₁ * h ^ 2 := by
        rw [mul_assoc, pow_two]
        exact mul_le_mul_of_nonneg_left (mul_le_mul_of_nonneg_right hd1 hh.le) hC₁0
      by_cases hj0 : j = 0
      · subst hj0
        refine l1.trans ?_
        simp only [le_refl, if_true, Nat.not_ofNat_le_one, nonpos_iff_eq_zero, one_ne_zero, if_false, Nat.zero_add] at *
        linarith
      · rw [if_pos (by omega : 1 ≤ j + 1), if_pos (by omega : 1 ≤ j)]
        by_cases hfull : grid h t₀ t₁ (j + 1) - grid h t₀ t₁ j = h
        · refine (loc2 h hh j (by omega) hfull).trans ?_
          have : C₂ * h * h ^ 2 = C₂ * ((grid h t₀ t₁ (j + 1) - t₀) - (grid h t₀ t₁ j - t₀)) * h ^ 2 := by
            rw [show (grid h t₀ t₁ (j + 1) - t₀) - (grid h t₀ t₁ j - t₀) = h by linarith]
          linarith
        · have hend := grid_short hh hfull
          by_cases hc : grid h t₀ t₁ j = t₁
          · have hz : grid h t₀ t₁ (j + 1) - grid h t₀ t₁ j = 0 := by rw [hend, hc, sub_self]
            rw [hz] at l1
            refine (by simpa [hz] using l1 : _ ≤ (0 : ℝ)).trans ?_
            linarith
          · refine l1.trans ?_
            rw [if_pos hend, if_neg hc]
            linarith

/-- an explicit multistep method on the grid, whose step `j` uses `min (j + 1) k` values -/
theorem ms_converges (ht : t₀ ≤ t₁) {k q : ℕ} (hk : 1 ≤ k) (hq : q = min k 2) (W : ℕ → ℕ → ℝ)
    (hW0 : ∀ κ, 1 ≤ κ → κ ≤ k → ∑ i ∈ range κ, W κ i = 1)
    (hW1 : ∀ κ, 2 ≤ κ → κ ≤ k → ∑ i ∈ range κ, W κ i * i = -1 / 2)
    (hg : ∀ t ∈ Set.Icc t₀ t₁, ContDiffAt ℝ q (fun z : ℝ × (Fin n → ℝ) => g z.1 z.2) (t, y t))
    (hy : ∀ t ∈ Set.Icc t₀ t₁, ∀ᶠ u in 𝓝 t, HasDerivAt y (g u (y u)) u) :
    ∃ h₀ > 0, ∃ C, ∀ h, 0 < h → h ≤ h₀ → ∀ (N : ℕ) (x : ℕ → Fin n → ℝ), x 0 = y t₀ →
      (∀ j < N, x (j + 1) = x j + (grid h t₀ t₁ (j + 1) - grid h t₀ t₁ j) • ∑ i ∈ range (min (j + 1) k),
        W (min (j + 1) k) i • g (grid h t₀ t₁ (j - i)) (x (j - i))) →
      ∀ j ≤ N, ‖x j - y (grid h t₀ t₁ j)‖ ≤ C * h ^ q := by
  obtain ⟨h₀, hh₀, ρ₀, hρ₀, C, _, H⟩ := ms_converges_pert ht hk hq W hW0 hW1 hg hy one_pos
  refine ⟨h₀, hh₀, C, fun h hh hle N x hx0 hx j hj => ?_⟩
  simpa using H h hh hle N x (fun _ => 0) 0 (fun _ _ => le_rfl) (by simp [hx0]) (by simpa using hρ₀.le)
    (fun j hj _ => by rw [hx j hj]; simp) j hj

end

/-- the weights of the steps add up to `1`, and their first moment is `-1/2` -/
theorem abWeights_sums {k : ℕ} (hk : k ≤ 5) :
    (∀ κ, 1 ≤ κ → κ ≤ k → ∑ i ∈ range κ, weightsOf (abWeights κ : List ℝ) i = 1) ∧
    ∀ κ, 2 ≤ κ → κ ≤ k → ∑ i ∈ range κ, weightsOf (abWeights κ : List ℝ) i * i = -1 / 2 := by
  constructor
  · intro κ h1 h2
    have := abWeights_moment (K := ℝ) κ h1 (by omega) 0 (by omega)
    simpa using this
  · intro κ h1 h2
    have := abWeights_moment (K := ℝ) κ (by omega) (by omega) 1 (by omega)
    simp only [pow_one, mul_neg, sum_neg_distrib, Nat.cast_one] at this
    linarith

/-- the states that `solve` returns, for step functions that are multistep formulas with the weights `w` -/
theorem msSolve_col {n : ℕ} {g : ℝ → (Fin n → ℝ) → (Fin n → ℝ)} (st : ℕ → List ℝ → List (Mat ℝ) → ℝ → Option (Mat ℝ))
    (w : ℕ → ℕ → ℝ) {k : ℕ} (hk1 : 1 ≤ k)
    (hst : ∀ (τ : ℕ → ℝ) (X : ℕ → Fin n → ℝ) (j N : ℕ), 1 ≤ j → j ≤ k → j ≤ N + 1 → ∀ h : ℝ,
      st j (hist τ N) (hist (fun i => col (X i)) N) h =
        some (col (X N + h • ∑ i ∈ range j, w j i • g (τ (N - i)) (X (N - i)))))
    {h t₀ t₁ : ℝ} (hh : 0 < h) (ht : t₀ ≤ t₁) (x₀ : Fin n → ℝ) {fuel : ℕ} (hfuel : ⌈(t₁ - t₀) / h⌉₊ < fuel) :
    ∃ (N : ℕ) (x : ℕ → Fin n → ℝ), x 0 = x₀ ∧ |grid h t₀ t₁ N - t₁| ≤ 1 / 10 ^ 10 ∧
      (∀ j < N, x (j + 1) = x j + (grid h t₀ t₁ (j + 1) - grid h t₀ t₁ j) • ∑ i ∈ range (min (j + 1) k),
        w (min (j + 1) k) i • g (grid h t₀ t₁ (j - i)) (x (j - i))) ∧
      msSolve st fuel k h t₀ t₁ (col x₀) =
        some ((List.range (N + 1)).map (grid h t₀ t₁), (List.range (N + 1)).map fun j => col (x j)) := by
  obtain ⟨⟨ts, xs⟩, hs⟩ := msSolve_total (n := n) st k hk1 (fun j N h1 h2 h3 τ X h => ⟨_, hst τ X j N h1 h2 h3 h⟩) hh ht x₀
    fuel hfuel
  obtain ⟨_, X, N, _, hX0, rfl, rfl, hlast, _, hX⟩ := msSolve_spec st fuel k hk1 hh (col x₀) hs
  have hcol : ∀ j ≤ N, ∃ x : ℕ → Fin n → ℝ, ∀ i ≤ j, X i = col (x i) := by
    intro j
    induction j with
    | zero =>
      intro _
      refine ⟨fun _ => x₀, fun i hi => ?_⟩
      obtain rfl : i = 0 := by omega
      exact hX0
    | succ j ih =>
      intro hj
      obtain ⟨x, hx⟩ := ih (by omega)
      have h1 := hX j (by omega)
      rw [hist, hist, List.map_congr_left (g := fun i => col (x i)) (fun i hi => hx i (by have := List.mem_range.mp hi; omega))] at h1
      have h2 := hst (grid h t₀ t₁) x (min (j + 1) k) j (by omega) (by omega) (by omega)
        (grid h t₀ t₁ (j + 1) - grid h t₀ t₁ j)
      rw [hist, hist, h1] at h2
      obtain ⟨z, hz⟩ : ∃ z, X (j + 1) = col z := ⟨_, Option.some.inj h2⟩
      refine ⟨Function.update x (j + 1) z, fun i hi => ?_⟩
      · rcases Nat.lt_or_ge i (j + 1) with hlt | hge
        · rw [Function.update_of_ne (by omega)]
          exact hx i (by omega)
        · obtain rfl : i = j + 1 := by omega
          rw [Function.update_self]
          exact hz
  obtain ⟨x, hx⟩ := hcol N le_rfl
  refine ⟨N, x, col_injective (by rw [← hx 0 (Nat.zero_le _), hX0]), hlast, ?_, ?_⟩
  · intro j hj
    have h1 := hX j hj
    rw [hist, hist, List.map_congr_left (g := fun i => col (x i)) (fun i hi => hx i (by have := List.mem_range.mp hi; omega)),
      hx (j + 1) hj] at h1
    have h2 := hst (grid h t₀ t₁) x (min (j + 1) k) j (by omega) (by omega) (by omega)
      (grid h t₀ t₁ (j + 1) - grid h t₀ t₁ j)
    rw [hist, hist, h1] at h2
    exact col_injective (Option.some.inj h2)
  · rw [hs, hist, hist]
    congr 2
    apply List.map_congr_left
    intro i hi
    exact hx i (by have := List.mem_range.mp hi; omega)

/-- from the error bound of the formulas to that of the lists -/
theorem msSolve_converges {n : ℕ} {g : ℝ → (Fin n → ℝ) → (Fin n → ℝ)} (st : ℕ → List ℝ → List (Mat ℝ) → ℝ → Option (Mat ℝ))
    (w : ℕ → ℕ → ℝ) {k : ℕ} (hk1 : 1 ≤ k)
    (hst : ∀ (τ : ℕ → ℝ) (X : ℕ → Fin n → ℝ) (j N : ℕ), 1 ≤ j → j ≤ k → j ≤ N + 1 → ∀ h : ℝ,
      st j (hist τ N) (hist (fun i => col (X i)) N) h =
        some (col (X N + h • ∑ i ∈ range j, w j i • g (τ (N - i)) (X (N - i)))))
    (hW0 : ∀ κ, 1 ≤ κ → κ ≤ k → ∑ i ∈ range κ, w κ i = 1)
    (hW1 : ∀ κ, 2 ≤ κ → κ ≤ k → ∑ i ∈ range κ, w κ i * i = -1 / 2)
    {y : ℝ → (Fin n → ℝ)} {t₀ t₁ : ℝ} (ht : t₀ ≤ t₁)
    (hg : ∀ t ∈ Set.Icc t₀ t₁, ContDiffAt ℝ ((min k 2 : ℕ) : WithTop ℕ∞) (fun z : ℝ × (Fin n → ℝ) => g z.1 z.2) (t, y t))
    (hy : ∀ t ∈ Set.Icc t₀ t₁, ∀ᶠ u in 𝓝 t, HasDerivAt y (g u (y u)) u) :
    ∃ h₀ > 0, ∃ C, ∀ h, 0 < h → h ≤ h₀ → ∀ fuel, ⌈(t₁ - t₀) / h⌉₊ < fuel →
      ∃ ts xs, msSolve st fuel k h t₀ t₁ (col (y t₀)) = some (ts, xs) ∧
        ts.length = xs.length ∧ ts.head? = some t₀ ∧ (∀ t, ts.getLast? = some t → |t - t₁| ≤ 1 / 10 ^ 10) ∧
        ∀ (j : ℕ) t X, ts[j]? = some t → xs[j]? = some X → ∃ x : Fin n → ℝ, X = col x ∧ ‖x - y t‖ ≤ C * h ^ min k 2 := by
  obtain ⟨h₀, hh₀, C, H⟩ := ms_converges ht hk1 rfl w hW0 hW1 hg hy
  refine ⟨h₀, hh₀, C, fun h hh hle fuel hfuel => ?_⟩
  obtain ⟨N, x, hx0, hlast, hx, hs⟩ := msSolve_col st w hk1 hst hh ht (y t₀) hfuel
  refine ⟨_, _, hs, by simp, ?_, ?_, ?_⟩
  · rw [List.head?_map, List.head?_range]
    simp [grid_zero ht]
  · rw [List.range_succ, List.map_append]
    simpa using hlast
  · intro j t X hjt hjX
    rw [List.getElem?_map, Option.map_eq_some_iff] at hjt hjX
    obtain ⟨i, hi, rfl⟩ := hjt
    obtain ⟨i', hi', rfl⟩ := hjX
    rw [List.getElem?_eq_some_iff] at hi hi'
    obtain ⟨hi1, rfl⟩ := hi
    obtain ⟨_, rfl⟩ := hi'
    rw [List.length_range] at hi1
    simp only [List.getElem_range]
    exact ⟨x j, rfl, H h hh hle N x hx0 hx j (by omega)⟩

/-- C87: let `y` solve `y' = g(t, y)` around `[t₀, t₁]`, and let `g` be `min k 2` times continuously differentiable along the
solution. Then `solve` of `AdamsBashforth(k)`, started at `y t₀`, terminates for every small step size and returns times from
`t₀` to `t₁` (up to `10⁻¹⁰`) and states which are off by at most `C h ^ min k 2`. Missing: the order `k` for `k ≥ 3`, see
`C87_order_violated`. -/
theorem C87_converges_partial {k : ℕ} (hk1 : 1 ≤ k) (hk5 : k ≤ 5) {n : ℕ} {f : Rhs ℝ} {g : ℝ → (Fin n → ℝ) → (Fin n → ℝ)}
    (hf : RhsRepr f g) {y : ℝ → (Fin n → ℝ)} {t₀ t₁ : ℝ} (ht : t₀ ≤ t₁)
    (hg : ∀ t ∈ Set.Icc t₀ t₁, ContDiffAt ℝ ((min k 2 : ℕ) : WithTop ℕ∞) (fun z : ℝ × (Fin n → ℝ) => g z.1 z.2) (t, y t))
    (hy : ∀ t ∈ Set.Icc t₀ t₁, ∀ᶠ u in 𝓝 t, HasDerivAt y (g u (y u)) u) :
    ∃ h₀ > 0, ∃ C, ∀ h, 0 < h → h ≤ h₀ → ∀ fuel, ⌈(t₁ - t₀) / h⌉₊ < fuel →
      ∃ ts xs, msSolve (fun j => abStep j f) fuel k h t₀ t₁ (col (y t₀)) = some (ts, xs) ∧
        ts.length = xs.length ∧ ts.head? = some t₀ ∧ (∀ t, ts.getLast? = some t → |t - t₁| ≤ 1 / 10 ^ 10) ∧
        ∀ (j : ℕ) t X, ts[j]? = some t → xs[j]? = some X → ∃ x : Fin n → ℝ, X = col x ∧ ‖x - y t‖ ≤ C * h ^ min k 2 :=
  msSolve_converges _ (fun κ => weightsOf (abWeights κ : List ℝ)) hk1
    (fun τ X j N h1 h2 h3 h => C44_formula hf τ X j N h1 (by omega) h3 h) (abWeights_sums hk5).1 (abWeights_sums hk5).2 ht hg hy

/-- C45: although its steps are no backward differentiation formulas, the solver `BDF(k)` converges, with the order `min k 2`.
Missing: the order `k` for `k ≥ 3`. -/
theorem C45_converges_partial {k : ℕ} (hk1 : 1 ≤ k) (hk6 : k ≤ 6) {n : ℕ} {f : Rhs ℝ} {g : ℝ → (Fin n → ℝ) → (Fin n → ℝ)}
    (hf : RhsRepr f g) {y : ℝ → (Fin n → ℝ)} {t₀ t₁ : ℝ} (ht : t₀ ≤ t₁)
    (hg : ∀ t ∈ Set.Icc t₀ t₁, ContDiffAt ℝ ((min k 2 : ℕ) : WithTop ℕ∞) (fun z : ℝ × (Fin n → ℝ) => g z.1 z.2) (t, y t))
    (hy : ∀ t ∈ Set.Icc t₀ t₁, ∀ᶠ u in 𝓝 t, HasDerivAt y (g u (y u)) u) :
    ∃ h₀ > 0, ∃ C, ∀ h, 0 < h → h ≤ h₀ → ∀ fuel, ⌈(t₁ - t₀) / h⌉₊ < fuel →
      ∃ ts xs, msSolve (fun j => bdfStep j f) fuel k h t₀ t₁ (col (y t₀)) = some (ts, xs) ∧
        ts.length = xs.length ∧ ts.head? = some t₀ ∧ (∀ t, ts.getLast? = some t → |t - t₁| ≤ 1 / 10 ^ 10) ∧
        ∀ (j : ℕ) t X, ts[j]? = some t → xs[j]? = some X → ∃ x : Fin n → ℝ, X = col x ∧ ‖x - y t‖ ≤ C * h ^ min k 2 := by
  have h56 : ∀ i, 5 ≤ i → weightsOf (abWeights (min i 5) : List ℝ) i = 0 := by
    intro i hi
    rw [min_eq_right hi]
    simp only [weightsOf, abWeights]
    rw [List.getD_eq_getElem?_getD, List.getElem?_eq_none (by simpa using hi), Option.getD_none]
  refine msSolve_converges _ (fun κ => weightsOf (abWeights (min κ 5) : List ℝ)) hk1 ?_ ?_ ?_ ht hg hy
  · intro τ X j N h1 h2 h3 h
    rcases Nat.lt_or_ge j 6 with h6 | h6
    · have e : (bdfStep j : Rhs ℝ → _) = abStep j := by
        have : j = 1 ∨ j = 2 ∨ j = 3 ∨ j = 4 ∨ j = 5 := by omega
        rcases this with rfl | rfl | rfl | rfl | rfl <;> rfl
      rw [e, C44_formula hf τ X j N h1 (by omega) h3 h, min_eq_left (by omega)]
    · obtain rfl : j = 6 := by omega
      have e : (bdfStep 6 : Rhs ℝ → _) = abStep 5 := rfl
      rw [e, C44_formula hf τ X 5 N (by omega) (by omega) (by omega) h, sum_range_succ _ 5]
      have := h56 5 le_rfl
      simp only [min_self] at this
      simp [this]
  · intro κ h1 h2
    rcases Nat.lt_or_ge κ 6 with h6 | h6
    · rw [min_eq_left (by omega)]
      exact (abWeights_sums (k := 5) le_rfl).1 κ h1 (by omega)
    · obtain rfl : κ = 6 := by omega
      rw [sum_range_succ _ 5]
      have := h56 5 le_rfl
      simp only [min_self] at this
      simpa [this] using (abWeights_sums (k := 5) le_rfl).1 5 (by omega) le_rfl
  · intro κ h1 h2
    rcases Nat.lt_or_ge κ 6 with h6 | h6
    · rw [min_eq_left (by omega)]
      exact (abWeights_sums (k := 5) le_rfl).2 κ h1 (by omega)
    · obtain rfl : κ = 6 := by omega
      rw [sum_range_succ _ 5]
      have := h56 5 le_rfl
      simp only [min_self] at this
      simpa [this] using (abWeights_sums (k := 5) le_rfl).2 5 (by omega) le_rfl

/-- two steps for `x' = x`, `x 0 = 1` on `[0, 1]`: an error of at most `C h ^ 2` -/
example : ∃ h₀ > 0, ∃ C, ∀ h, 0 < h → h ≤ h₀ → ∀ fuel, ⌈(1 - 0) / h⌉₊ < fuel →
    ∃ ts xs, msSolve (fun j => abStep j fun _ x => some x) fuel 2 h 0 1 (col ![(1 : ℝ)]) = some (ts, xs) ∧
      ts.length = xs.length ∧ ts.head? = some 0 ∧ (∀ t, ts.getLast? = some t → |t - 1| ≤ 1 / 10 ^ 10) ∧
      ∀ (j : ℕ) t X, ts[j]? = some t → xs[j]? = some X →
        ∃ x : Fin 1 → ℝ, X = col x ∧ ‖x - ![Real.exp t]‖ ≤ C * h ^ 2 := by
  have h := C87_converges_partial (k := 2) (by norm_num) (by norm_num) (n := 1) (f := fun _ x => some x) (g := fun _ x => x)
    (fun _ _ => rfl) (y := fun t => ![Real.exp t]) (t₀ := 0) (t₁ := 1) zero_le_one
    (fun t _ => contDiffAt_snd)
    (fun t _ => Eventually.of_forall fun u => by
      rw [hasDerivAt_pi]
      intro i
      fin_cases i
      simpa using Real.hasDerivAt_exp u)
  simpa using h

/-- The first step is an Euler step, which limits the order to `2`: for `x' = 2 t`, `x 0 = 0` on `[0, 1]` with the solution
`t²` every state after the first is off by exactly `h²`, for all `k ≥ 2` and all step sizes `h = 1 / m`. -/
theorem C87_order_violated {k : ℕ} (hk2 : 2 ≤ k) (hk5 : k ≤ 5) (m : ℕ) (hm : 1 ≤ m) {fuel : ℕ} (hfuel : m < fuel) :
    ∃ (ts : List ℝ) (xs : List (Mat ℝ)),
      msSolve (fun j => abStep j fun t _ => some (col ![2 * t])) fuel k (1 / (m : ℝ)) 0 1 (col ![0]) = some (ts, xs) ∧
      ts.length = xs.length ∧ 1 < ts.length ∧
      ∀ (j : ℕ) t X, 1 ≤ j → ts[j]? = some t → xs[j]? = some X → X = col ![t ^ 2 - (1 / (m : ℝ)) ^ 2] := by
  have hm0 : (0 : ℝ) < m := by exact_mod_cast hm
  have hh : (0 : ℝ) < 1 / m := by positivity
  have hceil : ⌈((1 : ℝ) - 0) / (1 / m)⌉₊ = m := by
    rw [sub_zero, one_div_one_div, Nat.ceil_natCast]
  have hf : RhsRepr (n := 1) (fun t _ => some (col ![2 * t])) (fun (t : ℝ) _ => ![2 * t]) := fun _ _ => rfl
  obtain ⟨N, x, hx0, hlast, hx, hs⟩ := msSolve_col (n := 1) (g := fun (t : ℝ) _ => ![2 * t])
    (fun j => abStep j fun t _ => some (col ![2 * t])) (fun κ => weightsOf (abWeights κ : List ℝ)) (k := k) (by omega)
    (fun τ X j N h1 h2 h3 h => C44_formula hf τ X j N h1 (by omega) h3 h) hh zero_le_one ![0] (fuel := fuel)
    (by rw [hceil]; exact hfuel)
  set h : ℝ := 1 / m with hhd
  have hgrid : ∀ j ≤ m, grid h 0 1 j = j * h := by
    intro j hj
    have : (j : ℝ) ≤ m := by exact_mod_cast hj
    rw [grid, zero_add, min_eq_left]
    rw [hhd, mul_one_div, div_le_one hm0]
    exact this
  have hgrid1 : ∀ j, m ≤ j → grid h 0 1 j = 1 := by
    intro j hj
    have : (m : ℝ) ≤ j := by exact_mod_cast hj
    rw [grid, zero_add, min_eq_right]
    rw [hhd, mul_one_div, one_le_div hm0]
    exact this
  have key : ∀ j, 1 ≤ j → j ≤ N → x j 0 = grid h 0 1 j ^ 2 - h ^ 2 := by
    intro j hj1
    induction j, hj1 using Nat.le_induction with
    | base =>
      intro hN
      have := congrFun (hx 0 (by omega)) 0
      rw [show min (0 + 1) k = 1 by omega, hx0] at this
      simp only [Nat.zero_add, sum_range_one, Pi.add_apply, Pi.smul_apply, smul_eq_mul, Nat.sub_zero, grid_zero zero_le_one,
        Matrix.cons_val_fin_one, mul_zero, add_zero] at this
      rw [this, hgrid 1 hm]
      simp
    | succ j hj ih =>
      intro hN
      have h0 := congrFun (hx j (by omega)) 0
      rw [Pi.add_apply, ih (by omega), Pi.smul_apply, smul_eq_mul, Finset.sum_apply] at h0
      rcases Nat.lt_or_ge j m with hlt | hge
      · have hs0 := (abWeights_sums hk5).1 (min (j + 1) k) (by omega) (by omega)
        have hs1 := (abWeights_sums hk5).2 (min (j + 1) k) (by omega) (by omega)
        have hs2 : ∑ i ∈ range (min (j + 1) k), (weightsOf (abWeights (min (j + 1) k) : List ℝ) i •
            (![2 * grid h 0 1 (j - i)] : Fin 1 → ℝ)) 0 = 2 * (j * h) * 1 - 2 * h * (-1 / 2) := by
          have hs3 : ∑ i ∈ range (min (j + 1) k), (2 * (j * h) * weightsOf (abWeights (min (j + 1) k) : List ℝ) i -
              2 * h * (weightsOf (abWeights (min (j + 1) k) : List ℝ) i * i)) = 2 * (j * h) * 1 - 2 * h * (-1 / 2) := by
            rw [sum_sub_distrib, ← mul_sum, ← mul_sum, hs0, hs1]
          rw [← hs3]
          apply sum_congr rfl
          intro i hi
          have hi := mem_range.mp hi
          rw [hgrid _ (by omega), Nat.cast_sub (by omega)]
          simp
          ring
        rw [h0, hs2, hgrid j hlt.le, hgrid (j + 1) hlt]
        push_cast
        ring
      · rw [h0, hgrid1 j hge, hgrid1 (j + 1) (by omega), sub_self, zero_mul, add_zero]
  have hN : 1 ≤ N := by
    by_contra hN
    obtain rfl : N = 0 := by omega
    rw [grid_zero zero_le_one] at hlast
    norm_num at hlast
  refine ⟨_, _, hs, by simp, by simp; omega, ?_⟩
  intro j t X hj1 hjt hjX
  rw [List.getElem?_map, Option.map_eq_some_iff] at hjt hjX
  obtain ⟨i, hi, rfl⟩ := hjt
  obtain ⟨i', hi', rfl⟩ := hjX
  rw [List.getElem?_eq_some_iff] at hi hi'
  obtain ⟨hi1, rfl⟩ := hi
  obtain ⟨_, rfl⟩ := hi'
  rw [List.length_range] at hi1
  simp only [List.getElem_range]
  congr 1
  funext i
  fin_cases i
  simpa using key j hj1 (by omega)

end Ode
end Verif
