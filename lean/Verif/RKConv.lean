import Verif.RKOrder
import Mathlib.Analysis.SpecialFunctions.Exp
import Mathlib.Analysis.Calculus.ContDiff.Operations

/-!
# From the local to the global error of a one-step method

A one-step method `x + h • K t x h` whose increment `K` is continuously differentiable and whose local error is
`O(h ^ (p + 1))` at every time converges with order `p` on a compact time interval. Nothing here mentions the crate.
-/

namespace Verif
namespace RK
open Finset Asymptotics Filter Topology
variable {E : Type} [NormedAddCommGroup E] [NormedSpace ℝ E]

/-- Taylor's formula in the second variable, uniformly in the first -/
theorem taylor_uniform (q : ℕ) : ∀ {F : ℝ × ℝ → E} {τ : ℝ}, ContDiffAt ℝ q F (τ, 0) →
    ∃ c : ℕ → ℝ → E, (fun z : ℝ × ℝ => F z - ∑ j ∈ range q, z.2 ^ j • c j z.1) =O[𝓝 (τ, 0)] (fun z => z.2 ^ q) := by
  induction q with
  | zero =>
    intro F τ hF
    refine ⟨fun _ _ => 0, ?_⟩
    simpa using hF.continuousAt.isBigO_one ℝ
  | succ q ih =>
    intro F τ hF
    have hF' : ContDiffAt ℝ q (fun z => fderiv ℝ F z (0, 1)) (τ, 0) := by
      have h1 : ContDiffAt ℝ q (fderiv ℝ F) (τ, 0) := ContDiffAt.fderiv_right hF (by norm_cast)
      exact h1.clm_apply contDiffAt_const
    obtain ⟨c, hc⟩ := ih hF'
    refine ⟨fun j t => match j with
      | 0 => F (t, 0)
      | j + 1 => (1 / (j + 1 : ℝ)) • c j t, ?_⟩
    obtain ⟨C, hC0, hC⟩ := hc.exists_pos
    rw [IsBigOWith] at hC
    have hdiff : ∀ᶠ z in 𝓝 ((τ, 0) : ℝ × ℝ), DifferentiableAt ℝ F z := by
      have := hF.eventually (by norm_cast; simp)
      filter_upwards [this] with z hz
      exact hz.differentiableAt (by norm_cast)
    obtain ⟨ε, hε, hball⟩ := Metric.eventually_nhds_iff_ball.mp (hC.and hdiff)
    refine IsBigO.of_bound C ?_
    filter_upwards [Metric.ball_mem_nhds ((τ, 0) : ℝ × ℝ) hε] with z hz
    obtain ⟨t, h⟩ := z
    rw [Metric.mem_ball, Prod.dist_eq, max_lt_iff] at hz
    simp only [Real.dist_eq, sub_zero] at hz
    have hsub : ∀ u ∈ Metric.closedBall (0 : ℝ) |h|, (t, u) ∈ Metric.ball ((τ, 0) : ℝ × ℝ) ε := by
      intro u hu
      rw [Metric.mem_closedBall, Real.dist_eq, sub_zero] at hu
      rw [Metric.mem_ball, Prod.dist_eq, max_lt_iff]
      simp only [Real.dist_eq, sub_zero]
      exact ⟨hz.1, hu.trans_lt hz.2⟩
    have key := (convex_closedBall (0 : ℝ) |h|).norm_image_sub_le_of_norm_hasDerivWithin_le
      (f := fun u => F (t, u) - ∑ j ∈ range q, u ^ (j + 1) • (1 / (j + 1 : ℝ)) • c j t)
      (f' := fun u => fderiv ℝ F (t, u) (0, 1) - ∑ j ∈ range q, u ^ j • c j t)
      (C := C * |h| ^ q) (x := 0) (y := h)
      (fun u hu => by
        have h1 : HasDerivAt (fun u : ℝ => (t, u)) ((0, 1) : ℝ × ℝ) u := (hasDerivAt_const u t).prodMk (hasDerivAt_id u)
        have h2 := ((hball _ (hsub u hu)).2.hasFDerivAt).comp_hasDerivAt u h1
        refine (h2.sub (HasDerivAt.fun_sum fun j _ => ?_)).hasDerivWithinAt
        have h3 := ((hasDerivAt_pow (j + 1) u).smul_const ((1 / (j + 1 : ℝ)) • c j t))
        convert h3 using 1
        rw [smul_smul]
        congr 1
        push_cast
        field_simp)
      (fun u hu => by
        refine ((hball _ (hsub u hu)).1).trans ?_
        rw [norm_pow]
        refine mul_le_mul_of_nonneg_left (pow_le_pow_left₀ (norm_nonneg _) ?_ _) hC0.le
        simpa [Real.dist_eq] using hu)
      (by simp) (by simp)
    simp only [sub_zero] at key
    rw [sum_range_succ']
    refine le_trans (le_of_eq ?_) (key.trans (le_of_eq ?_))
    · congr 1
      simp
      abel
    · rw [norm_pow, Real.norm_eq_abs, pow_succ]
      ring

/-- a polynomial that is smaller than its degree allows vanishes -/
theorem coeff_zero (q : ℕ) : ∀ {c : ℕ → E}, (fun h : ℝ => ∑ j ∈ range q, h ^ j • c j) =O[𝓝[≠] 0] (fun h : ℝ => h ^ q) →
    ∀ j < q, c j = 0 := by
  induction q with
  | zero => intro c _ j hj; omega
  | succ q ih =>
    intro c hc
    have h0 : c 0 = 0 := by
      have h1 : Tendsto (fun h : ℝ => ∑ j ∈ range (q + 1), h ^ j • c j) (𝓝[≠] 0) (𝓝 (c 0)) := by
        have : ContinuousAt (fun h : ℝ => ∑ j ∈ range (q + 1), h ^ j • c j) 0 := by fun_prop
        have h2 := this.tendsto.mono_left (nhdsWithin_le_nhds (s := {0}ᶜ))
        simpa [sum_range_succ'] using h2
      have h2 : Tendsto (fun h : ℝ => h ^ (q + 1)) (𝓝[≠] 0) (𝓝 0) := by
        have : ContinuousAt (fun h : ℝ => h ^ (q + 1)) 0 := by fun_prop
        simpa using this.tendsto.mono_left (nhdsWithin_le_nhds (s := {0}ᶜ))
      exact tendsto_nhds_unique h1 (hc.trans_tendsto h2)
    have h1 := ih (c := fun j => c (j + 1)) (by
      have h2 := ((isBigO_refl (fun h : ℝ => h⁻¹) (𝓝[≠] 0)).smul hc)
      refine h2.congr' ?_ ?_
      · filter_upwards [self_mem_nhdsWithin] with h hh
        rw [sum_range_succ', h0, smul_zero, add_zero, smul_sum]
        apply sum_congr rfl
        intro j _
        rw [smul_smul, pow_succ]
        congr 1
        have : h ≠ 0 := hh
        field_simp
      · filter_upwards [self_mem_nhdsWithin] with h hh
        have : h ≠ 0 := hh
        rw [smul_eq_mul, pow_succ]
        field_simp)
    intro j hj
    cases j with
    | zero => exact h0
    | succ j => exact h1 j (by omega)

/-- a solution of an ordinary differential equation is once more differentiable than the right-hand side -/
theorem solution_contDiffAt {g : ℝ → E → E} {y : ℝ → E} {t : ℝ} {p : ℕ}
    (hg : ContDiffAt ℝ p (fun z : ℝ × E => g z.1 z.2) (t, y t))
    (hy : ∀ᶠ u in 𝓝 t, HasDerivAt y (g u (y u)) u) : ∀ k ≤ p, ContDiffAt ℝ ((k + 1 : ℕ) : WithTop ℕ∞) y t := by
  have step : ∀ k ≤ p, ContDiffAt ℝ k y t → ContDiffAt ℝ ((k + 1 : ℕ) : WithTop ℕ∞) y t := by
    intro k hk hyk
    have h1 : ContDiffAt ℝ k (fun u => g u (y u)) t := by
      have h2 : ContDiffAt ℝ k (fun z : ℝ × E => g z.1 z.2) (t, y t) := hg.of_le (by exact_mod_cast hk)
      exact h2.comp t (contDiffAt_id.prodMk hyk)
    push_cast
    refine contDiffAt_succ_iff_hasFDerivAt.2 ⟨fun u => ContinuousLinearMap.toSpanSingleton ℝ (g u (y u)), ?_, ?_⟩
    · obtain ⟨s, hs, h⟩ := hy.exists_mem
      exact ⟨s, hs, fun u hu => (h u hu).hasFDerivAt⟩
    · exact (ContinuousLinearMap.toSpanSingletonCLE (𝕜 := ℝ) (E := E)).toContinuousLinearMap.contDiff.contDiffAt.comp t h1
  intro k
  induction k with
  | zero =>
    intro hk
    refine step 0 hk ?_
    have := hy.self_of_nhds.continuousAt
    rw [Nat.cast_zero, contDiffAt_zero]
    refine ⟨{u | HasDerivAt y (g u (y u)) u}, hy, fun u hu => ?_⟩
    exact HasDerivAt.continuousAt hu |>.continuousWithinAt
  | succ k ih =>
    intro hk
    exact step (k + 1) hk (ih (by omega))

/-- the local error of a method is `O(h ^ (p + 1))` uniformly in the time -/
theorem local_uniform {K : ℝ → E → ℝ → E} {y : ℝ → E} {t : ℝ} {p : ℕ}
    (hK : ContDiffAt ℝ p (fun z : ℝ × E × ℝ => K z.1 z.2.1 z.2.2) (t, y t, 0))
    (hy : ContDiffAt ℝ ((p + 1 : ℕ) : WithTop ℕ∞) y t)
    (hl : ∀ᶠ u in 𝓝 t, (fun h => (y u + h • K u (y u) h) - y (u + h)) =O[𝓝 0] (fun h : ℝ => h ^ (p + 1))) :
    (fun z : ℝ × ℝ => (y z.1 + z.2 • K z.1 (y z.1) z.2) - y (z.1 + z.2)) =O[𝓝 (t, 0)] (fun z => z.2 ^ (p + 1)) := by
  have h1 : ContDiffAt ℝ ((p + 1 : ℕ) : WithTop ℕ∞) (fun z : ℝ × ℝ => y (z.1 + z.2)) (t, 0) := by
    have : ContDiffAt ℝ ((p + 1 : ℕ) : WithTop ℕ∞) y ((fun z : ℝ × ℝ => z.1 + z.2) (t, 0)) := by simpa using hy
    exact ContDiffAt.comp (t, 0) this (contDiff_add (𝕜 := ℝ) (F := ℝ)).contDiffAt
  have h2 : ContDiffAt ℝ p (fun z : ℝ × ℝ => K z.1 (y z.1) z.2) (t, 0) := by
    have h3 : ContDiffAt ℝ p (fun z : ℝ × ℝ => (z.1, y z.1, z.2)) (t, 0) := by
      have h4 : ContDiffAt ℝ p (fun z : ℝ × ℝ => y z.1) (t, 0) := by
        have : ContDiffAt ℝ p y t := hy.of_le (by norm_cast; omega)
        exact ContDiffAt.comp (t, 0) (f := fun z : ℝ × ℝ => z.1) this contDiffAt_fst
      exact contDiffAt_fst.prodMk (h4.prodMk contDiffAt_snd)
    exact ContDiffAt.comp (t, 0) (g := fun z : ℝ × E × ℝ => K z.1 z.2.1 z.2.2) hK h3
  obtain ⟨c, hc⟩ := taylor_uniform (p + 1) h1
  obtain ⟨d, hd⟩ := taylor_uniform p h2
  have hd' : (fun z : ℝ × ℝ => z.2 • (K z.1 (y z.1) z.2 - ∑ j ∈ range p, z.2 ^ j • d j z.1)) =O[𝓝 (t, 0)]
      (fun z => z.2 ^ (p + 1)) := by
    have := (isBigO_refl (fun z : ℝ × ℝ => z.2) (𝓝 (t, 0))).smul hd
    refine this.congr_right fun z => ?_
    rw [smul_eq_mul, pow_succ']
  let a : ℕ → ℝ → E := fun j u => match j with
    | 0 => y u - c 0 u
    | j + 1 => d j u - c (j + 1) u
  have hsum : (fun z : ℝ × ℝ => ((y z.1 + z.2 • K z.1 (y z.1) z.2) - y (z.1 + z.2)) -
      ∑ j ∈ range (p + 1), z.2 ^ j • a j z.1) =O[𝓝 (t, 0)] (fun z => z.2 ^ (p + 1)) := by
    refine (hd'.sub hc).congr_left fun z => ?_
    have e : ∑ j ∈ range (p + 1), z.2 ^ j • a j z.1 =
        (y z.1 + z.2 • ∑ j ∈ range p, z.2 ^ j • d j z.1) - ∑ j ∈ range (p + 1), z.2 ^ j • c j z.1 := by
      rw [sum_range_succ', sum_range_succ' (fun j => z.2 ^ j • c j z.1)]
      simp only [a, smul_sub, sum_sub_distrib, smul_sum, smul_smul, pow_succ', pow_zero, one_smul]
      abel
    rw [e, smul_sub]
    abel
  have hz : ∀ᶠ u in 𝓝 t, ∀ j < p + 1, a j u = 0 := by
    obtain ⟨C, hC⟩ := hsum.bound
    rw [nhds_prod_eq] at hC
    filter_upwards [hl, hC.curry] with u hu hu'
    refine coeff_zero (p + 1) ?_
    have h3 : (fun h : ℝ => ((y u + h • K u (y u) h) - y (u + h)) - ∑ j ∈ range (p + 1), h ^ j • a j u) =O[𝓝 0]
        (fun h => h ^ (p + 1)) := IsBigO.of_bound C hu'
    refine ((hu.sub h3).mono nhdsWithin_le_nhds).congr_left fun h => ?_
    abel
  refine hsum.congr' ?_ EventuallyEq.rfl
  rw [nhds_prod_eq]
  filter_upwards [hz.prod_inl (𝓝 0)] with z hz
  rw [sum_eq_zero fun j hj => by rw [hz j (mem_range.mp hj), smul_zero], sub_zero]

/-- Near a solution the increment is Lipschitz and the local error is small, with the same constants at all times of a compact
interval. -/
theorem tube {K : ℝ → E → ℝ → E} {y : ℝ → E} {t₀ t₁ : ℝ} {p : ℕ} (hp : 0 < p)
    (hK : ∀ t ∈ Set.Icc t₀ t₁, ContDiffAt ℝ p (fun z : ℝ × E × ℝ => K z.1 z.2.1 z.2.2) (t, y t, 0))
    (hy : ∀ t ∈ Set.Icc t₀ t₁, ContDiffAt ℝ ((p + 1 : ℕ) : WithTop ℕ∞) y t)
    (hl : ∀ t ∈ Set.Icc t₀ t₁, ∀ᶠ u in 𝓝 t,
      (fun h => (y u + h • K u (y u) h) - y (u + h)) =O[𝓝 0] (fun h : ℝ => h ^ (p + 1))) :
    ∃ δ > 0, ∃ h₀ > 0, ∃ L ≥ 0, ∃ C ≥ 0, ∀ t ∈ Set.Icc t₀ t₁, ∀ h : ℝ, |h| ≤ h₀ →
      (∀ x, ‖x - y t‖ ≤ δ → ‖K t x h - K t (y t) h‖ ≤ L * ‖x - y t‖) ∧
      ‖(y t + h • K t (y t) h) - y (t + h)‖ ≤ C * |h| ^ (p + 1) := by
  refine (isCompact_Icc (a := t₀) (b := t₁)).induction_on
    (p := fun S => ∃ δ > 0, ∃ h₀ > 0, ∃ L ≥ 0, ∃ C ≥ 0, ∀ t ∈ S, ∀ h : ℝ, |h| ≤ h₀ →
      (∀ x, ‖x - y t‖ ≤ δ → ‖K t x h - K t (y t) h‖ ≤ L * ‖x - y t‖) ∧
      ‖(y t + h • K t (y t) h) - y (t + h)‖ ≤ C * |h| ^ (p + 1)) ?_ ?_ ?_ ?_
  · exact ⟨1, one_pos, 1, one_pos, 0, le_rfl, 0, le_rfl, by simp⟩
  · rintro S T hST ⟨δ, hδ, h₀, hh, L, hL, C, hC, H⟩
    exact ⟨δ, hδ, h₀, hh, L, hL, C, hC, fun t ht => H t (hST ht)⟩
  · rintro S T ⟨δ, hδ, h₀, hh, L, hL, C, hC, H⟩ ⟨δ', hδ', h₀', hh', L', hL', C', hC', H'⟩
    refine ⟨min δ δ', lt_min hδ hδ', min h₀ h₀', lt_min hh hh', max L L', le_max_of_le_left hL, max C C',
      le_max_of_le_left hC, ?_⟩
    rintro t (ht | ht) h hle
    · obtain ⟨h1, h2⟩ := H t ht h (hle.trans (min_le_left _ _))
      exact ⟨fun x hx => (h1 x (hx.trans (min_le_left _ _))).trans
        (mul_le_mul_of_nonneg_right (le_max_left _ _) (norm_nonneg _)),
        h2.trans (mul_le_mul_of_nonneg_right (le_max_left _ _) (by positivity))⟩
    · obtain ⟨h1, h2⟩ := H' t ht h (hle.trans (min_le_right _ _))
      exact ⟨fun x hx => (h1 x (hx.trans (min_le_right _ _))).trans
        (mul_le_mul_of_nonneg_right (le_max_right _ _) (norm_nonneg _)),
        h2.trans (mul_le_mul_of_nonneg_right (le_max_right _ _) (by positivity))⟩
  · intro t ht
    obtain ⟨L, s, hs, hLip⟩ := ((hK t ht).of_le (by exact_mod_cast hp : (1 : WithTop ℕ∞) ≤ p)).exists_lipschitzOnWith
    have hloc := local_uniform (hK t ht) (hy t ht) (hl t ht)
    obtain ⟨C, hC0, hC⟩ := hloc.exists_pos
    rw [IsBigOWith, nhds_prod_eq] at hC
    obtain ⟨ε, hε, hball⟩ := Metric.mem_nhds_iff.mp hs
    obtain ⟨A, hA, B, hB, hAB⟩ := Filter.eventually_prod_iff.mp hC
    obtain ⟨h1, hh1, hB'⟩ := Metric.eventually_nhds_iff_ball.mp hB
    have hcont := (hy t ht).continuousAt
    have hnear : ∀ᶠ u in 𝓝 t, dist u t < ε ∧ dist (y u) (y t) < ε / 2 :=
      Filter.Eventually.and (Metric.ball_mem_nhds t hε) (hcont (Metric.ball_mem_nhds (y t) (half_pos hε)))
    refine ⟨{u | A u ∧ dist u t < ε ∧ dist (y u) (y t) < ε / 2},
      mem_nhdsWithin_of_mem_nhds (hA.and hnear), ε / 3, by positivity, min (h1 / 2) (ε / 2), by positivity, L, L.2, C, hC0.le, ?_⟩
    rintro u ⟨hu1, hu2, hu3⟩ h hh
    have hh1' : |h| < h1 := by linarith [min_le_left (h1 / 2) (ε / 2)]
    have hh2 : |h| < ε := by linarith [min_le_right (h1 / 2) (ε / 2)]
    constructor
    · intro x hx
      have m1 : (u, x, h) ∈ s := hball (by
        rw [Metric.mem_ball, Prod.dist_eq, Prod.dist_eq, max_lt_iff, max_lt_iff]
        refine ⟨hu2, ?_, by simpa [Real.dist_eq] using hh2⟩
        calc dist x (y t) ≤ dist x (y u) + dist (y u) (y t) := dist_triangle _ _ _
          _ < ε := by rw [dist_eq_norm x]; linarith)
      have m2 : (u, y u, h) ∈ s := hball (by
        rw [Metric.mem_ball, Prod.dist_eq, Prod.dist_eq, max_lt_iff, max_lt_iff]
        exact ⟨hu2, by simp only; linarith, by simpa [Real.dist_eq] using hh2⟩)
      have := hLip.dist_le_mul _ m1 _ m2
      rw [Prod.dist_eq, Prod.dist_eq] at this
      simp only [dist_self] at this
      rw [dist_eq_norm, dist_eq_norm, max_eq_left (norm_nonneg _), max_eq_right (norm_nonneg _)] at this
      exact this
    · have := hAB hu1 (hB' h (by simpa [Real.dist_eq] using hh1'))
      simpa using this

/-- The global error of a one-step method on a grid with steps at most `h`. -/
theorem global_error {K : ℝ → E → ℝ → E} {y : ℝ → E} {t₀ t₁ : ℝ} {p : ℕ} (hp : 0 < p) (ht : t₀ ≤ t₁)
    (hK : ∀ t ∈ Set.Icc t₀ t₁, ContDiffAt ℝ p (fun z : ℝ × E × ℝ => K z.1 z.2.1 z.2.2) (t, y t, 0))
    (hy : ∀ t ∈ Set.Icc t₀ t₁, ContDiffAt ℝ ((p + 1 : ℕ) : WithTop ℕ∞) y t)
    (hl : ∀ t ∈ Set.Icc t₀ t₁, ∀ᶠ u in 𝓝 t,
      (fun h => (y u + h • K u (y u) h) - y (u + h)) =O[𝓝 0] (fun h : ℝ => h ^ (p + 1))) :
    ∃ h₀ > 0, ∃ C, ∀ h, 0 < h → h ≤ h₀ → ∀ (N : ℕ) (τ : ℕ → ℝ) (x : ℕ → E), τ 0 = t₀ → x 0 = y t₀ →
      (∀ k < N, τ k ≤ τ (k + 1) ∧ τ (k + 1) - τ k ≤ h) → τ N ≤ t₁ →
      (∀ k < N, x (k + 1) = x k + (τ (k + 1) - τ k) • K (τ k) (x k) (τ (k + 1) - τ k)) →
      ∀ k ≤ N, ‖x k - y (τ k)‖ ≤ C * h ^ p := by
  obtain ⟨δ, hδ, h₀, hh₀, L, hL, C, hC, H⟩ := tube hp hK hy hl
  set D := C * (t₁ - t₀) * Real.exp (L * (t₁ - t₀)) with hD
  have hD0 : 0 ≤ D := by have : 0 ≤ t₁ - t₀ := by linarith
                         positivity
  refine ⟨min (min h₀ 1) (δ / (D + 1)), by positivity, D, ?_⟩
  intro h hpos hle N τ x hτ0 hx0 hτ hτN hx
  have e1 : h ≤ h₀ := hle.trans ((min_le_left _ _).trans (min_le_left _ _))
  have e2 : h ≤ 1 := hle.trans ((min_le_left _ _).trans (min_le_right _ _))
  have e3 : D * h ^ p ≤ δ := by
    have h1 : h ^ p ≤ h := by
      obtain ⟨q, rfl⟩ : ∃ q, p = q + 1 := ⟨p - 1, by omega⟩
      rw [pow_succ]
      exact mul_le_of_le_one_left hpos.le (pow_le_one₀ hpos.le e2)
    have h2 : h ≤ δ / (D + 1) := hle.trans (min_le_right _ _)
    rw [le_div_iff₀ (by positivity)] at h2
    nlinarith
  have mono : ∀ k ≤ N, t₀ ≤ τ k := by
    intro k
    induction k with
    | zero => intro _; rw [hτ0]
    | succ k ih => intro hk; exact (ih (by omega)).trans (hτ k (by omega)).1
  have mono2 : ∀ k ≤ N, τ (N - k) ≤ t₁ := by
    intro k
    induction k with
    | zero => intro _; simpa using hτN
    | succ k ih =>
      intro hk
      have h1 := (hτ (N - (k + 1)) (by omega)).1
      rw [show N - (k + 1) + 1 = N - k by omega] at h1
      exact h1.trans (ih (by omega))
  have hin : ∀ k ≤ N, τ k ∈ Set.Icc t₀ t₁ := by
    intro k hk
    have := mono2 (N - k) (by omega)
    rw [show N - (N - k) = k by omega] at this
    exact ⟨mono k hk, this⟩
  have main : ∀ k ≤ N, ‖x k - y (τ k)‖ ≤ C * (τ k - t₀) * Real.exp (L * (τ k - t₀)) * h ^ p := by
    intro k
    induction k with
    | zero => intro _; rw [hx0, hτ0]; simp
    | succ k ih =>
      intro hk
      have ih := ih (by omega)
      obtain ⟨hk1, hk2⟩ := hτ k (by omega)
      have hin1 := hin k (by omega)
      set d := τ (k + 1) - τ k with hd
      have hd0 : 0 ≤ d := by linarith
      have hk0 : 0 ≤ τ k - t₀ := by linarith [hin1.1]
      have hbound : ‖x k - y (τ k)‖ ≤ δ := by
        refine ih.trans (le_trans ?_ e3)
        have h3 : τ k - t₀ ≤ t₁ - t₀ := by linarith [hin1.2]
        rw [hD]
        gcongr
      obtain ⟨H1, H2⟩ := H (τ k) hin1 d (by rw [abs_of_nonneg hd0]; linarith)
      have H1 := H1 _ hbound
      rw [abs_of_nonneg hd0] at H2
      have e4 : x (k + 1) - y (τ (k + 1)) = (x k - y (τ k)) + d • (K (τ k) (x k) d - K (τ k) (y (τ k)) d) +
          ((y (τ k) + d • K (τ k) (y (τ k)) d) - y (τ k + d)) := by
        rw [hx k (by omega), ← hd, show τ k + d = τ (k + 1) by rw [hd]; ring, smul_sub]
        abel
      rw [e4]
      refine (norm_add₃_le).trans ?_
      rw [norm_smul, Real.norm_eq_abs, abs_of_nonneg hd0]
      have e5 : τ (k + 1) - t₀ = (τ k - t₀) + d := by rw [hd]; ring
      rw [e5]
      have e6 : d ^ (p + 1) ≤ d * h ^ p := by
        rw [pow_succ, mul_comm]
        exact mul_le_mul_of_nonneg_left (pow_le_pow_left₀ hd0 hk2 _) hd0
      have e7 : 1 + L * d ≤ Real.exp (L * d) := by linarith [Real.add_one_le_exp (L * d)]
      have e8 : 1 ≤ Real.exp (L * ((τ k - t₀) + d)) := Real.one_le_exp (by positivity)
      calc ‖x k - y (τ k)‖ + d * ‖K (τ k) (x k) d - K (τ k) (y (τ k)) d‖ +
            ‖(y (τ k) + d • K (τ k) (y (τ k)) d) - y (τ k + d)‖
          ≤ ‖x k - y (τ k)‖ + d * (L * ‖x k - y (τ k)‖) + C * d ^ (p + 1) := by gcongr
        _ = (1 + L * d) * ‖x k - y (τ k)‖ + C * d ^ (p + 1) := by ring
        _ ≤ Real.exp (L * d) * (C * (τ k - t₀) * Real.exp (L * (τ k - t₀)) * h ^ p) + C * (d * h ^ p) := by gcongr
        _ = C * (τ k - t₀) * Real.exp (L * ((τ k - t₀) + d)) * h ^ p + C * d * 1 * h ^ p := by
            rw [mul_add L, Real.exp_add]; ring
        _ ≤ C * (τ k - t₀) * Real.exp (L * ((τ k - t₀) + d)) * h ^ p +
            C * d * Real.exp (L * ((τ k - t₀) + d)) * h ^ p := by gcongr
        _ = C * ((τ k - t₀) + d) * Real.exp (L * ((τ k - t₀) + d)) * h ^ p := by ring
  intro k hk
  refine (main k hk).trans ?_
  have h3 : τ k - t₀ ≤ t₁ - t₀ := by linarith [(hin k hk).2]
  have h4 : 0 ≤ τ k - t₀ := by linarith [(hin k hk).1]
  rw [hD]
  gcongr

end RK
end Verif
