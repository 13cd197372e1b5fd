import Verif.RKConv

/-!
# From the local to the global error, with perturbations

As in `RKConv`, but every step and every time may be perturbed a little. Nothing here mentions the crate.
-/

namespace Verif
namespace RK
open Finset Asymptotics Filter Topology
variable {E : Type} [NormedAddCommGroup E] [NormedSpace ℝ E]

/-- a differentiable curve is Lipschitz near a compact interval -/
theorem curve_lipschitz {y : ℝ → E} {a b : ℝ} {p : ℕ}
    (hy : ∀ t ∈ Set.Icc a b, ContDiffAt ℝ ((p + 1 : ℕ) : WithTop ℕ∞) y t) :
    ∃ r > 0, ∃ Y ≥ 0, ∀ t ∈ Set.Icc a b, ∀ s s' : ℝ, |s - t| ≤ r → |s' - t| ≤ r → ‖y s - y s'‖ ≤ Y * |s - s'| := by
  refine (isCompact_Icc (a := a) (b := b)).induction_on
    (p := fun S => ∃ r > 0, ∃ Y ≥ 0, ∀ t ∈ S, ∀ s s' : ℝ, |s - t| ≤ r → |s' - t| ≤ r → ‖y s - y s'‖ ≤ Y * |s - s'|)
    ?_ ?_ ?_ ?_
  · exact ⟨1, one_pos, 0, le_rfl, by simp⟩
  · rintro S T hST ⟨r, hr, Y, hY, H⟩
    exact ⟨r, hr, Y, hY, fun t ht => H t (hST ht)⟩
  · rintro S T ⟨r, hr, Y, hY, H⟩ ⟨r', hr', Y', hY', H'⟩
    refine ⟨min r r', lt_min hr hr', max Y Y', le_max_of_le_left hY, ?_⟩
    rintro t (ht | ht) s s' h1 h2
    · exact (H t ht s s' (h1.trans (min_le_left _ _)) (h2.trans (min_le_left _ _))).trans
        (mul_le_mul_of_nonneg_right (le_max_left _ _) (abs_nonneg _))
    · exact (H' t ht s s' (h1.trans (min_le_right _ _)) (h2.trans (min_le_right _ _))).trans
        (mul_le_mul_of_nonneg_right (le_max_right _ _) (abs_nonneg _))
  · intro t ht
    obtain ⟨L, s, hs, hLip⟩ := ((hy t ht).of_le (by norm_cast; omega : (1 : WithTop ℕ∞) ≤ ((p + 1 : ℕ) : WithTop ℕ∞))).exists_lipschitzOnWith
    obtain ⟨ε, hε, hball⟩ := Metric.mem_nhds_iff.mp hs
    refine ⟨Metric.ball t (ε / 2), mem_nhdsWithin_of_mem_nhds (Metric.ball_mem_nhds t (half_pos hε)), ε / 3, by positivity,
      L, L.2, ?_⟩
    intro u hu v v' h1 h2
    rw [Metric.mem_ball, Real.dist_eq] at hu
    have m : ∀ w : ℝ, |w - u| ≤ ε / 3 → w ∈ s := by
      intro w hw
      refine hball ?_
      rw [Metric.mem_ball, Real.dist_eq]
      have := abs_sub_le w u t
      linarith
    have := hLip.dist_le_mul _ (m v h1) _ (m v' h2)
    rwa [dist_eq_norm, Real.dist_eq] at this

/-- The global error of a one-step method whose steps are perturbed by `ρ` and whose times are perturbed by `ρ`, for at most
`S / h` steps. -/
theorem global_error_pert {K : ℝ → E → ℝ → E} {y : ℝ → E} {a b : ℝ} {p : ℕ} (hp : 0 < p)
    (hK : ∀ t ∈ Set.Icc a b, ContDiffAt ℝ p (fun z : ℝ × E × ℝ => K z.1 z.2.1 z.2.2) (t, y t, 0))
    (hy : ∀ t ∈ Set.Icc a b, ContDiffAt ℝ ((p + 1 : ℕ) : WithTop ℕ∞) y t)
    (hl : ∀ t ∈ Set.Icc a b, ∀ᶠ u in 𝓝 t,
      (fun h => (y u + h • K u (y u) h) - y (u + h)) =O[𝓝 0] (fun h : ℝ => h ^ (p + 1)))
    {S : ℝ} (hS : 0 ≤ S) {δ₁ : ℝ} (hδ₁ : 0 < δ₁) :
    ∃ h₀ > 0, ∃ ρ₀ > 0, ∃ C ≥ 0, ∀ h, 0 < h → h ≤ h₀ → ∀ ρ ≥ 0, ρ ≤ ρ₀ * h → ∀ e ≥ 0, e ≤ ρ₀ →
      ∀ (N : ℕ) (τ d : ℕ → ℝ) (x : ℕ → E), N * h ≤ S → ‖x 0 - y (τ 0)‖ ≤ e →
      (∀ k ≤ N, τ k ∈ Set.Icc a b) → (∀ k < N, |d k| ≤ h ∧ |τ (k + 1) - (τ k + d k)| ≤ ρ) →
      (∀ k < N, ‖x k - y (τ k)‖ ≤ δ₁ → ‖x (k + 1) - (x k + d k • K (τ k) (x k) (d k))‖ ≤ ρ) →
      ∀ k ≤ N, ‖x k - y (τ k)‖ ≤ δ₁ ∧ ‖x k - y (τ k)‖ ≤ C * (e + h ^ p + ρ / h) := by
  obtain ⟨δ, hδ, h₀, hh₀, L, hL, C, hC, H⟩ := tube hp hK hy hl
  obtain ⟨r, hr, Y, hY, HY⟩ := curve_lipschitz hy
  set D := Real.exp (L * S) * (1 + S * C + S * (1 + Y)) with hD
  have hD0 : 0 < D := by positivity
  set m := min δ δ₁ with hm
  have hm0 : 0 < m := lt_min hδ hδ₁
  refine ⟨min (min h₀ 1) (m / (3 * D)), by positivity, min r (m / (3 * D)), by positivity, D, hD0.le, ?_⟩
  intro h hpos hle ρ hρ hρh e he0 he N τ d x hN hx0 hτ hd hx
  have e1 : h ≤ h₀ := hle.trans ((min_le_left _ _).trans (min_le_left _ _))
  have e2 : h ≤ 1 := hle.trans ((min_le_left _ _).trans (min_le_right _ _))
  have hpow : h ^ p ≤ m / (3 * D) := by
    have h1 : h ^ p ≤ h := by
      obtain ⟨q, rfl⟩ : ∃ q, p = q + 1 := ⟨p - 1, by omega⟩
      rw [pow_succ]
      exact mul_le_of_le_one_left hpos.le (pow_le_one₀ hpos.le e2)
    exact h1.trans (hle.trans (min_le_right _ _))
  have hρ1 : ρ / h ≤ m / (3 * D) := by
    rw [div_le_iff₀ hpos]
    exact hρh.trans (mul_le_mul_of_nonneg_right (min_le_right _ _) hpos.le)
  have hρr : ρ ≤ r := by
    refine hρh.trans ?_
    calc min r (m / (3 * D)) * h ≤ r * 1 := mul_le_mul (min_le_left _ _) e2 hpos.le hr.le
      _ = r := mul_one r
  have total : D * (e + h ^ p + ρ / h) ≤ m := by
    have : e + h ^ p + ρ / h ≤ m / D := by
      have h3 : m / D = m / (3 * D) + m / (3 * D) + m / (3 * D) := by field_simp; ring
      rw [h3]
      have := he.trans (min_le_right _ _)
      linarith
    calc D * (e + h ^ p + ρ / h) ≤ D * (m / D) := by gcongr
      _ = m := by field_simp
  set q := C * h ^ (p + 1) + (1 + Y) * ρ with hq
  have q0 : 0 ≤ q := by positivity
  -- the accumulated error
  have acc : ∀ k : ℕ, k ≤ N → Real.exp (L * (k * h)) * (e + k * q) ≤ D * (e + h ^ p + ρ / h) := by
    intro k hk
    have hkh : (k : ℝ) * h ≤ S := by
      have : (k : ℝ) ≤ N := by exact_mod_cast hk
      exact (mul_le_mul_of_nonneg_right this hpos.le).trans hN
    have hkq : (k : ℝ) * q ≤ S * C * h ^ p + S * (1 + Y) * (ρ / h) := by
      have : (k : ℝ) * q = (k * h) * (C * h ^ p + (1 + Y) * (ρ / h)) := by
        rw [hq, pow_succ]; field_simp
      rw [this]
      refine (mul_le_mul_of_nonneg_right hkh (by positivity)).trans (le_of_eq (by ring))
    have hexp : Real.exp (L * (k * h)) ≤ Real.exp (L * S) := by gcongr
    calc Real.exp (L * (k * h)) * (e + k * q)
        ≤ Real.exp (L * S) * (e + (S * C * h ^ p + S * (1 + Y) * (ρ / h))) := by gcongr
      _ ≤ Real.exp (L * S) * ((1 + S * C + S * (1 + Y)) * (e + h ^ p + ρ / h)) := by
          have p1 : 0 ≤ h ^ p := by positivity
          have p2 : 0 ≤ ρ / h := by positivity
          have p3 : 0 ≤ S * C := by positivity
          have p4 : 0 ≤ S * (1 + Y) := by positivity
          gcongr
          nlinarith [mul_nonneg p3 he0, mul_nonneg p4 he0, mul_nonneg p3 p2, mul_nonneg p4 p1]
      _ = D * (e + h ^ p + ρ / h) := by rw [hD]; ring
  have main : ∀ k ≤ N, ‖x k - y (τ k)‖ ≤ Real.exp (L * (k * h)) * (e + k * q) := by
    intro k
    induction k with
    | zero => intro _; simpa using hx0
    | succ k ih =>
      intro hk
      have ih := ih (by omega)
      have hb := (ih.trans (acc k (by omega))).trans total
      obtain ⟨hd1, hd2⟩ := hd k (by omega)
      have hin := hτ k (by omega)
      have hin' := hτ (k + 1) hk
      have hs := hx k (by omega) (hb.trans (min_le_right _ _))
      obtain ⟨H1, H2⟩ := H (τ k) hin (d k) (hd1.trans e1)
      have H1 := H1 _ (hb.trans (min_le_left _ _))
      have H3 : ‖y (τ k + d k) - y (τ (k + 1))‖ ≤ Y * ρ := by
        refine (HY _ hin' _ _ ?_ (by simpa using hr.le)).trans ?_
        · rw [abs_sub_comm]; exact hd2.trans hρr
        · rw [abs_sub_comm]; exact mul_le_mul_of_nonneg_left hd2 hY
      have e4 : x (k + 1) - y (τ (k + 1)) = (x (k + 1) - (x k + d k • K (τ k) (x k) (d k))) +
          ((x k - y (τ k)) + d k • (K (τ k) (x k) (d k) - K (τ k) (y (τ k)) (d k)) +
          ((y (τ k) + d k • K (τ k) (y (τ k)) (d k)) - y (τ k + d k))) + (y (τ k + d k) - y (τ (k + 1))) := by
        rw [smul_sub]
        abel
      rw [e4]
      refine (norm_add₃_le).trans ?_
      have e5 := norm_add₃_le (a := x k - y (τ k)) (b := d k • (K (τ k) (x k) (d k) - K (τ k) (y (τ k)) (d k)))
        (c := (y (τ k) + d k • K (τ k) (y (τ k)) (d k)) - y (τ k + d k))
      rw [norm_smul, Real.norm_eq_abs] at e5
      have e6 : |d k| * ‖K (τ k) (x k) (d k) - K (τ k) (y (τ k)) (d k)‖ ≤ h * (L * ‖x k - y (τ k)‖) := by gcongr
      have e7 : C * |d k| ^ (p + 1) ≤ C * h ^ (p + 1) := by gcongr
      have e8 : 1 + L * h ≤ Real.exp (L * h) := by linarith [Real.add_one_le_exp (L * h)]
      have e9 : 1 ≤ Real.exp (L * ((k + 1 : ℕ) * h)) := Real.one_le_exp (by positivity)
      have e10 : Real.exp (L * ((k + 1 : ℕ) * h)) = Real.exp (L * h) * Real.exp (L * (k * h)) := by
        rw [← Real.exp_add]; congr 1; push_cast; ring
      calc _ ≤ (1 + L * h) * ‖x k - y (τ k)‖ + q := by rw [hq]; linarith
        _ ≤ Real.exp (L * h) * (Real.exp (L * (k * h)) * (e + k * q)) + 1 * q := by
            have : 0 ≤ L * h := by positivity
            rw [one_mul]
            gcongr
        _ ≤ Real.exp (L * ((k + 1 : ℕ) * h)) * (e + k * q) + Real.exp (L * ((k + 1 : ℕ) * h)) * q := by
            rw [← mul_assoc, ← e10]
            gcongr
        _ = Real.exp (L * ((k + 1 : ℕ) * h)) * (e + (k + 1 : ℕ) * q) := by push_cast; ring
  intro k hk
  have h1 := (main k hk).trans (acc k hk)
  exact ⟨(h1.trans total).trans (min_le_right _ _), h1⟩

end RK
end Verif
