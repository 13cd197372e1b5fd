import Verif.FloatOdeProps
import Verif.ConvProps
import Verif.RKPert

/-!
# The rounding error of one Runge-Kutta step
-/

set_option linter.unusedSectionVars false

namespace Verif
namespace Ode
open Finset Asymptotics Filter Topology RK Mat

theorem gam_le {R : Rounding ℝ} (hu : R.u ≤ 1) (n : ℕ) : R.gam n ≤ 2 ^ n * R.u := by
  have u0 := R.u_nonneg
  have : R.gam n ≤ (2 ^ n - 1) * R.u := by
    induction n with
    | zero => simp [R.gam_zero]
    | succ n ih =>
      rw [R.gam_succ]
      have h1 : R.gam n * R.u ≤ R.gam n * 1 := mul_le_mul_of_nonneg_left hu (R.gam_nonneg n)
      rw [pow_succ]
      linarith
  linarith

/-- a linear combination of stages, scaled and added, with rounding -/
theorem lincomb_fl {R : Rounding ℝ} (hu : R.u ≤ 1) {n s : ℕ} (hn : n ≤ s) (κ v : ℕ → Fl R) (w : ℕ → ℝ)
    (hw : ∀ j < n, |(v j).val - w j| ≤ 2 * R.u * |w j|) {M W X : ℝ} (M0 : 0 ≤ M) (hM : ∀ j < n, |(κ j).val| ≤ M)
    (hW : ∑ j ∈ range n, |w j| ≤ W) (x d : Fl R) (hx : |x.val| ≤ X) (hd : |d.val| ≤ 1) :
    |(x + accum (fun j => κ j * v j) n * d).val - (x.val + d.val * ∑ j ∈ range n, w j * (κ j).val)| ≤
      (X + M * W + 2 * (M * W + 2 * ((3 * 2 ^ s + 2) * (M * W)))) * R.u := by
  have u0 := R.u_nonneg
  have W0 : 0 ≤ W := le_trans (sum_nonneg fun _ _ => abs_nonneg _) hW
  have MW : 0 ≤ M * W := by positivity
  set P := accum (fun j => κ j * v j) n with hP
  set Q := ∑ j ∈ range n, w j * (κ j).val with hQ
  have hv : ∀ j < n, |(v j).val| ≤ 3 * |w j| := by
    intro j hj
    have h1 := hw j hj
    have h2 := abs_sub_abs_le_abs_sub (v j).val (w j)
    have h3 : 2 * R.u * |w j| ≤ 2 * 1 * |w j| := by gcongr
    linarith
  have q1 : |Q| ≤ M * W := by
    refine (abs_sum_le_sum_abs _ _).trans ?_
    calc ∑ j ∈ range n, |w j * (κ j).val| ≤ ∑ j ∈ range n, M * |w j| := by
          refine sum_le_sum fun j hj => ?_
          rw [abs_mul, mul_comm]
          exact mul_le_mul_of_nonneg_right (hM j (mem_range.1 hj)) (abs_nonneg _)
      _ = M * ∑ j ∈ range n, |w j| := by rw [mul_sum]
      _ ≤ M * W := by gcongr
  have p1 : |P.val - Q| ≤ (3 * 2 ^ s + 2) * (M * W) * R.u := by
    have a1 := R.accum_err κ v n
    have a2 : ∑ k ∈ range n, |(κ k).val * (v k).val| ≤ 3 * (M * W) := by
      calc ∑ j ∈ range n, |(κ j).val * (v j).val| ≤ ∑ j ∈ range n, 3 * M * |w j| := by
            refine sum_le_sum fun j hj => ?_
            rw [abs_mul]
            have := mul_le_mul (hM j (mem_range.1 hj)) (hv j (mem_range.1 hj)) (abs_nonneg _) M0
            linarith
        _ = 3 * M * ∑ j ∈ range n, |w j| := by rw [mul_sum]
        _ ≤ 3 * M * W := by gcongr
        _ = _ := by ring
    have a3 : R.gam n ≤ 2 ^ s * R.u := (R.gam_mono hn).trans (gam_le hu s)
    have a4 : |P.val - ∑ k ∈ range n, (κ k).val * (v k).val| ≤ 2 ^ s * R.u * (3 * (M * W)) :=
      a1.trans (mul_le_mul a3 a2 (sum_nonneg fun _ _ => abs_nonneg _) (by positivity))
    have a5 : |∑ k ∈ range n, (κ k).val * (v k).val - Q| ≤ 2 * R.u * (M * W) := by
      rw [hQ, ← sum_sub_distrib]
      refine (abs_sum_le_sum_abs _ _).trans ?_
      calc ∑ j ∈ range n, |(κ j).val * (v j).val - w j * (κ j).val| ≤ ∑ j ∈ range n, 2 * R.u * M * |w j| := by
            refine sum_le_sum fun j hj => ?_
            rw [show (κ j).val * (v j).val - w j * (κ j).val = (κ j).val * ((v j).val - w j) by ring, abs_mul]
            have := mul_le_mul (hM j (mem_range.1 hj)) (hw j (mem_range.1 hj)) (abs_nonneg _) M0
            linarith
        _ = 2 * R.u * M * ∑ j ∈ range n, |w j| := by rw [mul_sum]
        _ ≤ 2 * R.u * M * W := by gcongr
        _ = _ := by ring
    have := abs_sub_le P.val (∑ k ∈ range n, (κ k).val * (v k).val) Q
    linarith
  set B := (3 * 2 ^ s + 2) * (M * W) with hB
  have B0 : 0 ≤ B := by positivity
  have p2 : |P.val| ≤ M * W + B := by
    have := abs_sub_abs_le_abs_sub P.val Q
    have h1 : B * R.u ≤ B * 1 := by gcongr
    linarith
  have p3 : |(P * d).val - d.val * Q| ≤ (M * W + 2 * B) * R.u := by
    have a1 := R.err (P.val * d.val)
    have a2 : |P.val * d.val| ≤ M * W + B := by
      rw [abs_mul]
      exact (mul_le_of_le_one_right (abs_nonneg _) hd).trans p2
    have a3 : |P.val * d.val - d.val * Q| ≤ B * R.u := by
      rw [show P.val * d.val - d.val * Q = d.val * (P.val - Q) by ring, abs_mul]
      exact (mul_le_of_le_one_left (abs_nonneg _) hd).trans p1
    rw [Fl.mul_val]
    have := abs_sub_le (R.rnd (P.val * d.val)) (P.val * d.val) (d.val * Q)
    have a4 : R.u * |P.val * d.val| ≤ R.u * (M * W + B) := by gcongr
    linarith
  set B2 := M * W + 2 * B with hB2
  have B20 : 0 ≤ B2 := by positivity
  have q2 : |d.val * Q| ≤ M * W := by
    rw [abs_mul]
    exact (mul_le_of_le_one_left (abs_nonneg _) hd).trans q1
  have p4 : |x.val + (P * d).val| ≤ X + M * W + B2 := by
    have h1 := abs_sub_abs_le_abs_sub (P * d).val (d.val * Q)
    have h2 := abs_add_le x.val (P * d).val
    have h3 : B2 * R.u ≤ B2 * 1 := by gcongr
    linarith
  have a1 := R.err (x.val + (P * d).val)
  have a2 : R.u * |x.val + (P * d).val| ≤ R.u * (X + M * W + B2) := by gcongr
  rw [Fl.add_val]
  have a3 := abs_sub_le (R.rnd (x.val + (P * d).val)) (x.val + (P * d).val) (x.val + d.val * Q)
  have a4 : |x.val + (P * d).val - (x.val + d.val * Q)| ≤ B2 * R.u := by
    rw [add_sub_add_left_eq_sub]; exact p3
  linarith

/-- the time of a stage with rounding -/
theorem node_fl {R : Rounding ℝ} (hu : R.u ≤ 1) (t v d : Fl R) {c X : ℝ} (hv : |v.val - c| ≤ 2 * R.u * |c|) (ht : |t.val| ≤ X)
    (hd : |d.val| ≤ 1) : |(t + v * d).val - (t.val + c * d.val)| ≤ (X + 11 * |c|) * R.u := by
  have u0 := R.u_nonneg
  have c0 := abs_nonneg c
  have h1 : |v.val| ≤ 3 * |c| := by
    have h2 := abs_sub_abs_le_abs_sub v.val c
    have h3 : 2 * R.u * |c| ≤ 2 * 1 * |c| := by gcongr
    linarith
  have p3 : |(v * d).val - c * d.val| ≤ 5 * |c| * R.u := by
    have a1 := R.err (v.val * d.val)
    have a2 : |v.val * d.val| ≤ 3 * |c| := by
      rw [abs_mul]
      exact (mul_le_of_le_one_right (abs_nonneg _) hd).trans h1
    have a3 : |v.val * d.val - c * d.val| ≤ 2 * R.u * |c| := by
      rw [← sub_mul, abs_mul]
      exact (mul_le_of_le_one_right (abs_nonneg _) hd).trans hv
    rw [Fl.mul_val]
    have := abs_sub_le (R.rnd (v.val * d.val)) (v.val * d.val) (c * d.val)
    have a4 : R.u * |v.val * d.val| ≤ R.u * (3 * |c|) := by gcongr
    linarith
  have q2 : |c * d.val| ≤ |c| := by
    rw [abs_mul]; exact mul_le_of_le_one_right (abs_nonneg _) hd
  have p4 : |t.val + (v * d).val| ≤ X + 6 * |c| := by
    have h1 := abs_sub_abs_le_abs_sub (v * d).val (c * d.val)
    have h2 := abs_add_le t.val (v * d).val
    have h3 : 5 * |c| * R.u ≤ 5 * |c| * 1 := by gcongr
    linarith
  have a1 := R.err (t.val + (v * d).val)
  have a2 : R.u * |t.val + (v * d).val| ≤ R.u * (X + 6 * |c|) := by gcongr
  rw [Fl.add_val]
  have a3 := abs_sub_le (R.rnd (t.val + (v * d).val)) (t.val + (v * d).val) (t.val + c * d.val)
  have a4 : |t.val + (v * d).val - (t.val + c * d.val)| ≤ 5 * |c| * R.u := by
    rw [add_sub_add_left_eq_sub]; exact p3
  linarith

/-- the real vector stored in a vector of floating-point numbers -/
def flv {R : Rounding ℝ} {n : ℕ} (x : Fin n → Fl R) : Fin n → ℝ := fun r => (x r).val

/-- near a curve a differentiable function is bounded and Lipschitz -/
theorem rhs_tube {n p : ℕ} (hp : 0 < p) {g : ℝ → (Fin n → ℝ) → (Fin n → ℝ)} {y : ℝ → (Fin n → ℝ)} {a b : ℝ}
    (hg : ∀ t ∈ Set.Icc a b, ContDiffAt ℝ p (fun z : ℝ × (Fin n → ℝ) => g z.1 z.2) (t, y t))
    (hy : ∀ t ∈ Set.Icc a b, ContinuousAt y t) :
    ∃ r > 0, ∃ G ≥ 0, ∃ Λ ≥ 0, ∀ t ∈ Set.Icc a b, (∀ s x, |s - t| ≤ r → ‖x - y t‖ ≤ r → ‖g s x‖ ≤ G) ∧
      ∀ s x s' x', |s - t| ≤ r → ‖x - y t‖ ≤ r → |s' - t| ≤ r → ‖x' - y t‖ ≤ r →
        ‖g s x - g s' x'‖ ≤ Λ * max |s - s'| ‖x - x'‖ := by
  refine (isCompact_Icc (a := a) (b := b)).induction_on
    (p := fun S => ∃ r > 0, ∃ G ≥ 0, ∃ Λ ≥ 0, ∀ t ∈ S, (∀ s x, |s - t| ≤ r → ‖x - y t‖ ≤ r → ‖g s x‖ ≤ G) ∧
      ∀ s x s' x', |s - t| ≤ r → ‖x - y t‖ ≤ r → |s' - t| ≤ r → ‖x' - y t‖ ≤ r →
        ‖g s x - g s' x'‖ ≤ Λ * max |s - s'| ‖x - x'‖)
    ?_ ?_ ?_ ?_
  · exact ⟨1, one_pos, 0, le_rfl, 0, le_rfl, by simp⟩
  · rintro S T hST ⟨r, hr, G, hG, Λ, hΛ, H⟩
    exact ⟨r, hr, G, hG, Λ, hΛ, fun t ht => H t (hST ht)⟩
  · rintro S T ⟨r, hr, G, hG, Λ, hΛ, H⟩ ⟨r', hr', G', hG', Λ', hΛ', H'⟩
    refine ⟨min r r', lt_min hr hr', max G G', le_max_of_le_left hG, max Λ Λ', le_max_of_le_left hΛ, ?_⟩
    have l := min_le_left r r'
    have l' := min_le_right r r'
    rintro t (ht | ht)
    · refine ⟨fun s x h1 h2 => ((H t ht).1 s x (h1.trans l) (h2.trans l)).trans (le_max_left _ _), ?_⟩
      intro s x s' x' h1 h2 h3 h4
      exact ((H t ht).2 s x s' x' (h1.trans l) (h2.trans l) (h3.trans l) (h4.trans l)).trans
        (mul_le_mul_of_nonneg_right (le_max_left _ _) (le_max_of_le_left (abs_nonneg _)))
    · refine ⟨fun s x h1 h2 => ((H' t ht).1 s x (h1.trans l') (h2.trans l')).trans (le_max_right _ _), ?_⟩
      intro s x s' x' h1 h2 h3 h4
      exact ((H' t ht).2 s x s' x' (h1.trans l') (h2.trans l') (h3.trans l') (h4.trans l')).trans
        (mul_le_mul_of_nonneg_right (le_max_right _ _) (le_max_of_le_left (abs_nonneg _)))
  · intro t ht
    obtain ⟨L, s, hs, hLip⟩ := ((hg t ht).of_le (by exact_mod_cast hp : (1 : WithTop ℕ∞) ≤ p)).exists_lipschitzOnWith
    obtain ⟨ε, hε, hball⟩ := Metric.mem_nhds_iff.mp hs
    have hnear : ∀ᶠ u in 𝓝 t, dist u t < ε / 2 ∧ dist (y u) (y t) < ε / 2 :=
      Filter.Eventually.and (Metric.ball_mem_nhds t (half_pos hε)) ((hy t ht) (Metric.ball_mem_nhds (y t) (half_pos hε)))
    have m : ∀ u, dist u t < ε / 2 ∧ dist (y u) (y t) < ε / 2 → ∀ v x, |v - u| ≤ ε / 3 → ‖x - y u‖ ≤ ε / 3 → (v, x) ∈ s := by
      intro u hu v x h1 h2
      refine hball ?_
      rw [Metric.mem_ball, Prod.dist_eq, max_lt_iff]
      constructor
      · have := dist_triangle v u t
        rw [Real.dist_eq v u] at this
        simp only
        linarith [hu.1]
      · have := dist_triangle x (y u) (y t)
        rw [dist_eq_norm x (y u)] at this
        simp only
        linarith [hu.2]
    refine ⟨{u | dist u t < ε / 2 ∧ dist (y u) (y t) < ε / 2}, mem_nhdsWithin_of_mem_nhds hnear, ε / 3, by positivity,
      ‖g t (y t)‖ + L * (2 * ε), by positivity, L, L.2, ?_⟩
    intro u hu
    have key : ∀ v x v' x', (v, x) ∈ s → (v', x') ∈ s → ‖g v x - g v' x'‖ ≤ L * max |v - v'| ‖x - x'‖ := by
      intro v x v' x' h1 h2
      have := hLip.dist_le_mul _ h1 _ h2
      rw [dist_eq_norm, Prod.dist_eq, Real.dist_eq, dist_eq_norm] at this
      exact this
    refine ⟨?_, fun v x v' x' h1 h2 h3 h4 => key _ _ _ _ (m u hu v x h1 h2) (m u hu v' x' h3 h4)⟩
    intro v x h1 h2
    have h3 := key v x t (y t) (m u hu v x h1 h2) (hball (Metric.mem_ball_self hε))
    have h4 : max |v - t| ‖x - y t‖ ≤ 2 * ε := by
      have d1 := dist_triangle v u t
      have d2 := dist_triangle x (y u) (y t)
      rw [Real.dist_eq v u, Real.dist_eq v t] at d1
      rw [dist_eq_norm x (y u), dist_eq_norm x (y t)] at d2
      exact max_le (by linarith [hu.1]) (by linarith [hu.2])
    have h5 : L * max |v - t| ‖x - y t‖ ≤ L * (2 * ε) := mul_le_mul_of_nonneg_left h4 L.2
    have h6 := norm_sub_norm_le (g v x) (g t (y t))
    linarith

/-- the constant of `lincomb_fl` -/
def lcConst (s : ℕ) (X M W : ℝ) : ℝ := X + M * W + 2 * (M * W + 2 * ((3 * 2 ^ s + 2) * (M * W)))

theorem lincomb_vec {R : Rounding ℝ} (hu : R.u ≤ 1) {m n s : ℕ} (hn : n ≤ s) (κ : ℕ → Fin m → Fl R) (v : ℕ → Fl R) (w : ℕ → ℝ)
    (hw : ∀ j < n, |(v j).val - w j| ≤ 2 * R.u * |w j|) {M W X : ℝ} (M0 : 0 ≤ M) (hM : ∀ j < n, ‖flv (κ j)‖ ≤ M)
    (hW : ∑ j ∈ range n, |w j| ≤ W) (x : Fin m → Fl R) (d : Fl R) (hx : ‖flv x‖ ≤ X) (hd : |d.val| ≤ 1) :
    ‖flv (fun q => x q + accum (fun j => κ j q * v j) n * d) - (flv x + d.val • ∑ j ∈ range n, w j • flv (κ j))‖ ≤
      lcConst s X M W * R.u := by
  have u0 := R.u_nonneg
  have W0 : 0 ≤ W := le_trans (sum_nonneg fun _ _ => abs_nonneg _) hW
  have X0 : 0 ≤ X := (norm_nonneg _).trans hx
  rw [pi_norm_le_iff_of_nonneg (by unfold lcConst; positivity)]
  intro q
  have h1 := lincomb_fl hu hn (fun j => κ j q) v w hw M0 (fun j hj => (norm_le_pi_norm (flv (κ j)) q).trans (hM j hj)) hW
    (x q) d ((norm_le_pi_norm (flv x) q).trans hx) hd
  simpa [flv, lcConst, Finset.sum_apply, smul_eq_mul] using h1

/-- near the curve `y` on `[a, b]`, the right-hand side computed with rounding is off by at most `ε` -/
def RhsClose {R : Rounding ℝ} {n : ℕ} (gf : Fl R → (Fin n → Fl R) → (Fin n → Fl R)) (g : ℝ → (Fin n → ℝ) → (Fin n → ℝ))
    (y : ℝ → (Fin n → ℝ)) (a b r ε : ℝ) : Prop :=
  ∀ s ∈ Set.Icc a b, ∀ (t : Fl R) (x : Fin n → Fl R), |t.val - s| ≤ r → ‖flv x - y s‖ ≤ r →
    ‖flv (gf t x) - g t.val (flv x)‖ ≤ ε

/-- the error constants of the stages -/
def kap (Λ B W : ℝ) : ℕ → ℝ
  | 0 => 0
  | i + 1 => kap Λ B W i + 1 + Λ * (B + W * kap Λ B W i)

theorem kap_nonneg {Λ B W : ℝ} (hΛ : 0 ≤ Λ) (hB : 0 ≤ B) (hW : 0 ≤ W) (i : ℕ) : 0 ≤ kap Λ B W i := by
  induction i with
  | zero => exact le_rfl
  | succ i ih => rw [kap]; positivity

theorem kap_mono {Λ B W : ℝ} (hΛ : 0 ≤ Λ) (hB : 0 ≤ B) (hW : 0 ≤ W) {i j : ℕ} (h : i ≤ j) : kap Λ B W i ≤ kap Λ B W j := by
  refine monotone_nat_of_le_succ (f := kap Λ B W) (fun i => ?_) h
  have := kap_nonneg hΛ hB hW i
  rw [kap]
  have : 0 ≤ Λ * (B + W * kap Λ B W i) := by positivity
  linarith

/-- the stages with rounding -/
theorem stage_fl {R : Rounding ℝ} {n s : ℕ} {A : ℕ → ℕ → ℝ} {c : ℕ → ℝ} {Af : ℕ → ℕ → Fl R} {cf : ℕ → Fl R}
    {g : ℝ → (Fin n → ℝ) → (Fin n → ℝ)} {gf : Fl R → (Fin n → Fl R) → (Fin n → Fl R)} {y : ℝ → (Fin n → ℝ)}
    {a b r G Λ W X B ε : ℝ} (hG : 0 ≤ G) (hΛ : 0 ≤ Λ) (hW0 : 0 ≤ W) (hε : 0 ≤ ε) (hε1 : ε ≤ 1) (hr : 0 < r)
    (htube : ∀ t ∈ Set.Icc a b, (∀ s x, |s - t| ≤ r → ‖x - y t‖ ≤ r → ‖g s x‖ ≤ G) ∧
      ∀ s x s' x', |s - t| ≤ r → ‖x - y t‖ ≤ r → |s' - t| ≤ r → ‖x' - y t‖ ≤ r →
        ‖g s x - g s' x'‖ ≤ Λ * max |s - s'| ‖x - x'‖)
    (hu : R.u ≤ 1) (hAf : ∀ i j, |(Af i j).val - A i j| ≤ 2 * R.u * |A i j|) (hcf : ∀ i, |(cf i).val - c i| ≤ 2 * R.u * |c i|)
    (hc0 : c 0 = 0) (hA : ∀ i < s, ∑ j ∈ range i, |A i j| ≤ W) (hc : ∀ i < s, |c i| ≤ W)
    (hgf : RhsClose gf g y a b r ε) (hB1 : lcConst s X (G + 1) W ≤ B) (hB2 : X + 11 * W ≤ B) (hBu : B * R.u ≤ r / 3)
    {t d : Fl R} {x : Fin n → Fl R} (ht : t.val ∈ Set.Icc a b) (htX : |t.val| ≤ X) (hxX : ‖flv x‖ ≤ X)
    (hx : ‖flv x - y t.val‖ ≤ r / 3) (hd : |d.val| ≤ 1) (hdW : |d.val| * (W * (G + 1)) ≤ r / 3) :
    ∀ i < s, ‖flv (opStage Af cf gf t x d i) - rkStage A c g t.val (flv x) d.val i‖ ≤ kap Λ B W (i + 1) * (R.u + ε) ∧
      ‖flv (opStage Af cf gf t x d i)‖ ≤ G + 1 ∧ ‖rkStage A c g t.val (flv x) d.val i‖ ≤ G := by
  have u0 := R.u_nonneg
  have X0 : 0 ≤ X := (abs_nonneg _).trans htX
  have B0 : 0 ≤ B := le_trans (by positivity) hB2
  obtain ⟨T1, T2⟩ := htube _ ht
  have dW : |d.val| * W ≤ r / 3 := by
    refine le_trans ?_ hdW
    have : W ≤ W * (G + 1) := by nlinarith
    exact mul_le_mul_of_nonneg_left this (abs_nonneg _)
  intro i
  induction i using Nat.strong_induction_on with
  | _ i ih =>
    intro hi
    -- the exact arguments
    have S1 : ∀ (f : ℕ → Fin n → ℝ) (M : ℝ), 0 ≤ M → (∀ j < i, ‖f j‖ ≤ M) → ‖∑ j ∈ range i, A i j • f j‖ ≤ W * M := by
      intro f M hM hf
      refine (norm_sum_le _ _).trans ?_
      calc ∑ j ∈ range i, ‖A i j • f j‖ ≤ ∑ j ∈ range i, |A i j| * M := by
            refine sum_le_sum fun j hj => ?_
            rw [norm_smul, Real.norm_eq_abs]
            exact mul_le_mul_of_nonneg_left (hf j (mem_range.1 hj)) (abs_nonneg _)
        _ = (∑ j ∈ range i, |A i j|) * M := by rw [sum_mul]
        _ ≤ W * M := by gcongr; exact hA i hi
    set k := fun j => rkStage A c g t.val (flv x) d.val j with hk
    set kf := fun j => opStage Af cf gf t x d j with hkf
    have hkb : ∀ j < i, ‖k j‖ ≤ G := fun j hj => (ih j hj (by omega)).2.2
    have hkfb : ∀ j < i, ‖flv (kf j)‖ ≤ G + 1 := fun j hj => (ih j hj (by omega)).2.1
    have hkk : ∀ j < i, ‖flv (kf j) - k j‖ ≤ kap Λ B W i * (R.u + ε) := fun j hj =>
      ((ih j hj (by omega)).1).trans (mul_le_mul_of_nonneg_right (kap_mono hΛ B0 hW0 (by omega)) (by positivity))
    have eT : |t.val + c i * d.val - t.val| ≤ r / 3 := by
      rw [add_sub_cancel_left, abs_mul, mul_comm]
      exact (mul_le_mul_of_nonneg_left (hc i hi) (abs_nonneg _)).trans dW
    have eX : ‖flv x + d.val • ∑ j ∈ range i, A i j • k j - y t.val‖ ≤ 2 * r / 3 := by
      have h1 : ‖d.val • ∑ j ∈ range i, A i j • k j‖ ≤ r / 3 := by
        rw [norm_smul, Real.norm_eq_abs]
        refine le_trans (mul_le_mul_of_nonneg_left (S1 k (G + 1) (by linarith) fun j hj => (hkb j hj).trans (by linarith))
          (abs_nonneg _)) hdW
      rw [show flv x + d.val • ∑ j ∈ range i, A i j • k j - y t.val =
        (flv x - y t.val) + d.val • ∑ j ∈ range i, A i j • k j by abel]
      refine (norm_add_le _ _).trans ?_
      linarith
    have ek : k i = g (t.val + c i * d.val) (flv x + d.val • ∑ j ∈ range i, A i j • k j) := by
      rw [hk]; simp only; rw [rkStage_eq]
    -- the arguments with rounding
    obtain ⟨tf, xf, ekf, dT, dX⟩ : ∃ (tf : Fl R) (xf : Fin n → Fl R), kf i = gf tf xf ∧
        |tf.val - (t.val + c i * d.val)| ≤ B * R.u ∧
        ‖flv xf - (flv x + d.val • ∑ j ∈ range i, A i j • flv (kf j))‖ ≤ B * R.u := by
      by_cases h0 : i = 0
      · subst h0
        refine ⟨t, x, by rw [hkf]; simp only; rw [opStage_zero], ?_, ?_⟩
        · rw [hc0]; simp; positivity
        · simp; positivity
      · refine ⟨_, _, by rw [hkf]; simp only; rw [opStage_pos _ _ _ _ _ _ (by omega)], ?_, ?_⟩
        · refine (node_fl hu t (cf i) d (hcf i) htX hd).trans ?_
          have := hc i hi
          refine mul_le_mul_of_nonneg_right ?_ u0
          linarith
        · refine (lincomb_vec hu (s := s) (by omega) kf (Af i) (A i) (fun j _ => hAf i j) (by linarith) hkfb (hA i hi) x d hxX
            hd).trans ?_
          exact mul_le_mul_of_nonneg_right hB1 u0
    have fT : |tf.val - t.val| ≤ r := by
      have := abs_sub_le tf.val (t.val + c i * d.val) t.val
      linarith
    have fX : ‖flv xf - y t.val‖ ≤ r := by
      have h1 : ‖d.val • ∑ j ∈ range i, A i j • flv (kf j)‖ ≤ r / 3 := by
        rw [norm_smul, Real.norm_eq_abs]
        exact le_trans (mul_le_mul_of_nonneg_left (S1 (fun j => flv (kf j)) (G + 1) (by linarith) hkfb) (abs_nonneg _)) hdW
      rw [show flv xf - y t.val = (flv xf - (flv x + d.val • ∑ j ∈ range i, A i j • flv (kf j))) + (flv x - y t.val) +
        d.val • ∑ j ∈ range i, A i j • flv (kf j) by abel]
      refine (norm_add₃_le).trans ?_
      linarith
    have hclose := hgf _ ht tf xf fT fX
    rw [← ekf] at hclose
    refine ⟨?_, ?_, ?_⟩
    · show ‖flv (kf i) - k i‖ ≤ _
      have h1 := T2 _ _ _ _ fT fX (eT.trans (by linarith)) (eX.trans (by linarith))
      rw [← ek] at h1
      have h2 : ‖flv xf - (flv x + d.val • ∑ j ∈ range i, A i j • k j)‖ ≤ B * R.u + W * (kap Λ B W i * (R.u + ε)) := by
        have h3 : ‖d.val • ∑ j ∈ range i, A i j • (flv (kf j) - k j)‖ ≤ W * (kap Λ B W i * (R.u + ε)) := by
          rw [norm_smul, Real.norm_eq_abs]
          refine (mul_le_of_le_one_left (norm_nonneg _) hd).trans ?_
          exact S1 (fun j => flv (kf j) - k j) _ (mul_nonneg (kap_nonneg hΛ B0 hW0 i) (by positivity)) hkk
        have h4 : flv xf - (flv x + d.val • ∑ j ∈ range i, A i j • k j) =
            (flv xf - (flv x + d.val • ∑ j ∈ range i, A i j • flv (kf j))) +
              d.val • ∑ j ∈ range i, A i j • (flv (kf j) - k j) := by
          simp only [smul_sub, sum_sub_distrib]
          abel
        rw [h4]
        exact (norm_add_le _ _).trans (add_le_add dX h3)
      have h5 : max |tf.val - (t.val + c i * d.val)| ‖flv xf - (flv x + d.val • ∑ j ∈ range i, A i j • k j)‖ ≤
          B * R.u + W * (kap Λ B W i * (R.u + ε)) := by
        refine max_le (dT.trans ?_) h2
        have := mul_nonneg hW0 (mul_nonneg (kap_nonneg hΛ B0 hW0 i) (by positivity : 0 ≤ R.u + ε))
        linarith
      have h6 : ‖flv (kf i) - k i‖ ≤ ε + Λ * (B * R.u + W * (kap Λ B W i * (R.u + ε))) := by
        rw [show flv (kf i) - k i = (flv (kf i) - g tf.val (flv xf)) + (g tf.val (flv xf) - k i) by abel]
        refine (norm_add_le _ _).trans (add_le_add hclose (h1.trans ?_))
        exact mul_le_mul_of_nonneg_left h5 hΛ
      refine h6.trans ?_
      rw [kap]
      have k0 := kap_nonneg hΛ B0 hW0 i
      have p1 : 0 ≤ kap Λ B W i * (R.u + ε) := by positivity
      have p2 : 0 ≤ Λ * (B * ε) := by positivity
      have e : (kap Λ B W i + 1 + Λ * (B + W * kap Λ B W i)) * (R.u + ε) =
          kap Λ B W i * (R.u + ε) + R.u + ε + Λ * (B * R.u + W * (kap Λ B W i * (R.u + ε))) + Λ * (B * ε) := by ring
      rw [e]
      linarith
    · show ‖flv (kf i)‖ ≤ _
      have h1 := T1 _ _ fT fX
      have h2 := norm_sub_norm_le (flv (kf i)) (g tf.val (flv xf))
      linarith
    · show ‖k i‖ ≤ G
      rw [ek]
      exact T1 _ _ (eT.trans (by linarith)) (eX.trans (by linarith))

end Ode
end Verif
