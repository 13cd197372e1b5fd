import Verif.NewtonConv
import Verif.FixedProps
import Mathlib.Topology.MetricSpace.Contracting
import Mathlib.Analysis.SpecialFunctions.ExpDeriv
import Mathlib.Analysis.Calculus.Deriv.Prod

/-! # The implicit Euler solver: C98 -/

namespace Verif
namespace Ode
open Finset Matrix Topology

/-- One step of the implicit Euler method near a solution `y`. -/
theorem ieStep_error {n : ℕ} {f jac : Rhs ℝ} {g : ℝ → (Fin n → ℝ) → (Fin n → ℝ)} (hf : RhsRepr f g)
    {J : ℝ → (Fin n → ℝ) → Matrix (Fin n) (Fin n) ℝ}
    (hJ : ∀ t x, ∃ A, jac t (col x) = some A ∧ Repr A (J t x)) {y : ℝ → (Fin n → ℝ)} {t h ρ L M G Q : ℝ}
    (hd : ∀ z, ‖z - y (t + h)‖ ≤ ρ → HasFDerivAt (g (t + h)) (LinearMap.toContinuousLinearMap (Matrix.toLin' (J (t + h) z))) z)
    (hJb : ∀ z, ‖z - y (t + h)‖ ≤ ρ → ∀ v, ‖J (t + h) z *ᵥ v‖ ≤ L * ‖v‖)
    (hJl : ∀ z w, ‖z - y (t + h)‖ ≤ ρ → ‖w - y (t + h)‖ ≤ ρ → ∀ v, ‖(J (t + h) z - J (t + h) w) *ᵥ v‖ ≤ M * ‖z - w‖ * ‖v‖)
    (hG : ∀ z, ‖z - y (t + h)‖ ≤ ρ → ‖g (t + h) z‖ ≤ G)
    (hreg : ∀ z, ‖z - y (t + h)‖ ≤ ρ → Regular (h • J (t + h) z - 1))
    (hQ : ‖y t + h • g (t + h) (y (t + h)) - y (t + h)‖ ≤ Q * h ^ 2)
    (hh : 0 ≤ h) (hL0 : 0 ≤ L) (hL : h * L ≤ 1 / 2) (hM : 2 * (h * M) * (h * G) ≤ 1) (hn : Real.sqrt n * (2 * (h * G)) ≤ 1)
    (hGρ : h * G ≤ ρ / 2) {x : Fin n → ℝ} (hx : ‖x - y t‖ + Q * h ^ 2 ≤ ρ / 4) :
    ∃ z, ieStep Real.sqrt f jac t (col x) h = some (col z) ∧
      ‖z - y (t + h)‖ ≤ (1 + 2 * (h * L)) * (‖x - y t‖ + Q * h ^ 2) + 2 / 10 ^ 8 := by
  set T := t + h with hT
  set S : Set (Fin n → ℝ) := Metric.closedBall (y T) (ρ / 2) with hS
  have hQ0 : 0 ≤ Q * h ^ 2 := (norm_nonneg _).trans hQ
  have hρ : 0 ≤ ρ := by linarith [norm_nonneg (x - y t)]
  have hmem : ∀ z, z ∈ S ↔ ‖z - y T‖ ≤ ρ / 2 := fun z => by rw [hS, Metric.mem_closedBall, dist_eq_norm]
  have htube : ∀ z ∈ S, ‖z - y T‖ ≤ ρ := fun z hz => by linarith [(hmem z).mp hz]
  have hlip : ∀ z ∈ S, ∀ w ∈ S, ‖g T z - g T w‖ ≤ L * ‖z - w‖ := fun z hz w hw =>
    Convex.norm_image_sub_le_of_norm_hasFDerivWithin_le (s := S) (fun u hu => (hd u (htube u hu)).hasFDerivWithinAt)
      (fun u hu => ContinuousLinearMap.opNorm_le_bound _ hL0 fun v => by simpa using hJb u (htube u hu) v)
      (convex_closedBall _ _) hw hz
  have hyS : y T ∈ S := by rw [hmem, sub_self, norm_zero]; linarith
  -- the implicit equation has a solution
  have hΦ : ∀ z ∈ S, ‖x + h • g T z - y T‖ ≤ ‖x - y t‖ + Q * h ^ 2 + h * L * ‖z - y T‖ := fun z hz => by
    have e : x + h • g T z - y T = (x - y t) + (y t + h • g T (y T) - y T) + h • (g T z - g T (y T)) := by
      rw [smul_sub]; abel
    rw [e]
    refine (norm_add_le _ _).trans (add_le_add ((norm_add_le _ _).trans (add_le_add le_rfl hQ)) ?_)
    rw [norm_smul, Real.norm_eq_abs, abs_of_nonneg hh, mul_assoc]
    exact mul_le_mul_of_nonneg_left (hlip z hz _ hyS) hh
  have hmaps : Set.MapsTo (fun z => x + h • g T z) S S := fun z hz => by
    rw [hmem]
    have h1 := hΦ z hz
    have h2 : h * L * ‖z - y T‖ ≤ 1 / 2 * (ρ / 2) := mul_le_mul hL ((hmem z).mp hz) (norm_nonneg _) (by norm_num)
    linarith
  obtain ⟨zs, hzS, hfix, -, -⟩ := ContractingWith.exists_fixedPoint' (K := 1 / 2) (f := fun z => x + h • g T z)
    (s := S) Metric.isClosed_closedBall.isComplete hmaps
    ⟨by rw [← NNReal.coe_lt_coe]; norm_num, LipschitzWith.of_dist_le_mul fun z w => by
      rw [Subtype.dist_eq, Subtype.dist_eq, dist_eq_norm, dist_eq_norm]
      simp only [Set.MapsTo.val_restrict_apply]
      rw [add_sub_add_left_eq_sub, ← smul_sub, norm_smul, Real.norm_eq_abs, abs_of_nonneg hh]
      have h1 := mul_le_mul_of_nonneg_left (hlip z z.2 w w.2) hh
      have h2 : h * L * ‖(z : Fin n → ℝ) - w‖ ≤ 1 / 2 * ‖(z : Fin n → ℝ) - w‖ := by gcongr
      push_cast
      linarith⟩ hyS (edist_ne_top _ _)
  have hfix : x + h • g T zs = zs := hfix
  have hzs := (hmem zs).mp hzS
  have hclose : ‖zs - y T‖ ≤ (1 + 2 * (h * L)) * (‖x - y t‖ + Q * h ^ 2) := by
    have h1 := hΦ zs hzS
    rw [hfix] at h1
    set a := h * L with ha
    have ha0 : 0 ≤ a := mul_nonneg hh hL0
    set e := ‖x - y t‖ + Q * h ^ 2
    have he : 0 ≤ e := by positivity
    have h2 : (1 - a) * ‖zs - y T‖ ≤ e := by linarith
    have h3 : 1 ≤ (1 + 2 * a) * (1 - a) := by nlinarith
    calc ‖zs - y T‖ = 1 * ‖zs - y T‖ := (one_mul _).symm
      _ ≤ (1 + 2 * a) * (1 - a) * ‖zs - y T‖ := by gcongr
      _ = (1 + 2 * a) * ((1 - a) * ‖zs - y T‖) := by ring
      _ ≤ (1 + 2 * a) * e := by gcongr
  -- Newton's method finds it
  have hball : ∀ z, ‖z - zs‖ ≤ h * G → ‖z - y T‖ ≤ ρ := fun z hz => by
    have : z - y T = (z - zs) + (zs - y T) := by abel
    rw [this]
    exact (norm_add_le _ _).trans (by linarith)
  obtain ⟨X, k, _, _, h1, h2, _⟩ := C97_converges_partial (fun z => ieEval_col hf T x h z) (ieJac_repr hJ T h)
    (z := zs) (r := h * G) (L := h * M) (β := 2) (by rw [hfix, sub_self]) (by norm_num)
    (fun z hz => by
      have h1 := (((hd z (hball z hz)).const_smul h).const_add x).sub (hasFDerivAt_id z)
      refine h1.congr_fderiv ?_
      ext v i
      simp [Matrix.sub_mulVec, Matrix.smul_mulVec])
    (fun z w hz hw v => by
      rw [sub_sub_sub_cancel_right, ← smul_sub, Matrix.smul_mulVec, norm_smul, Real.norm_eq_abs, abs_of_nonneg hh]
      have := mul_le_mul_of_nonneg_left (hJl z w (hball z hz) (hball w hw) v) hh
      linarith)
    (fun z hz v => by
      rw [Matrix.sub_mulVec, Matrix.smul_mulVec, Matrix.one_mulVec]
      have h1 := norm_sub_norm_le v (h • J T z *ᵥ v)
      rw [norm_sub_rev, norm_smul, Real.norm_eq_abs, abs_of_nonneg hh] at h1
      have h2 := mul_le_mul_of_nonneg_left (hJb z (hball z hz) v) hh
      have h3 : h * L * ‖v‖ ≤ 1 / 2 * ‖v‖ := by gcongr
      linarith)
    (fun z hz => hreg z (hball z hz)) (by linarith) (x₀ := x)
    (by
      have : x - zs = -(h • g T zs) := by
        rw [eq_neg_iff_add_eq_zero, sub_add_eq_add_sub, hfix, sub_self]
      rw [this, norm_neg, norm_smul, Real.norm_eq_abs, abs_of_nonneg hh]
      exact mul_le_mul_of_nonneg_left (hG zs (htube zs hzS)) hh)
    (tol := 1 / 10 ^ 8) (iters := 100) ⟨5, by norm_num, by
      rw [← mul_assoc]
      refine lt_of_le_of_lt (mul_le_mul_of_nonneg_right hn (by positivity)) (by norm_num)⟩
  refine ⟨X k, ?_, ?_⟩
  · simp only [ieStep, ← hT, h1, Option.bind_eq_bind, Option.bind_some]
  · have : X k - y T = (X k - zs) + (zs - y T) := by abel
    rw [this]
    refine (norm_add_le _ _).trans ?_
    linarith

/-- The solver along a property of the states that depends on the step. -/
theorem fixedSolve_of_steps (step : ℝ → Mat ℝ → ℝ → Option (Mat ℝ)) (P : ℕ → Mat ℝ → Prop) {h t₀ t₁ : ℝ} (hh : 0 < h)
    (ht : t₀ ≤ t₁) {init : Mat ℝ} (h0 : P 0 init)
    (hP : ∀ k ≤ ⌈(t₁ - t₀) / h⌉₊, ∀ x, P k x →
      ∃ x', step (grid h t₀ t₁ k) x (grid h t₀ t₁ (k + 1) - grid h t₀ t₁ k) = some x' ∧ (k < ⌈(t₁ - t₀) / h⌉₊ → P (k + 1) x')) :
    ∃ X : ℕ → Mat ℝ, X 0 = init ∧ (∀ k ≤ ⌈(t₁ - t₀) / h⌉₊, P k (X k)) ∧
      fixedSolve step h t₀ t₁ init = some ((List.range (⌈(t₁ - t₀) / h⌉₊ + 1)).map (grid h t₀ t₁),
        (List.range (⌈(t₁ - t₀) / h⌉₊ + 1)).map X) := by
  obtain ⟨ts, xs, hs⟩ : ∃ ts xs, fixedSolve step h t₀ t₁ init = some (ts, xs) := by
    unfold fixedSolve
    rw [if_neg (by simpa using ht), ceilZ_eq, steps_eq hh ht]
    obtain ⟨r, hr, _⟩ := forRange_inv' (a := 0) (b := ⌈(t₁ - t₀) / h⌉₊ + 1)
      (f := fun s _ => fixedIter step h t₁ s) (s := ((t₀, init, [], []) : ℝ × Mat ℝ × List ℝ × List (Mat ℝ)))
      (fun i s => i ≤ ⌈(t₁ - t₀) / h⌉₊ → s.1 = grid h t₀ t₁ i ∧ P i s.2.1) (fun _ => ⟨by simp [grid, ht], h0⟩)
      (by
        intro i s _ hi hs
        obtain ⟨g1, g2⟩ := hs (by omega)
        obtain ⟨x', hx', hp⟩ := hP i (by omega) s.2.1 g2
        rw [← grid_diff hh, ← g1] at hx'
        refine ⟨(s.1 + min h (t₁ - s.1), x', s.2.2.1 ++ [s.1], s.2.2.2 ++ [s.2.1]), ?_, fun hi' => ⟨?_, hp (by omega)⟩⟩
        · simp [fixedIter, hx']
        · simp only [g1, grid_succ hh])
    refine ⟨r.2.2.1, r.2.2.2, ?_⟩
    simp only [Option.bind_eq_bind]
    rw [hr]; rfl
  obtain ⟨X, hX0, rfl, rfl, hX⟩ := C40_fixed_solve step hh ht init hs
  refine ⟨X, hX0, fun k => ?_, hs⟩
  induction k with
  | zero => intro _; rw [hX0]; exact h0
  | succ k ih =>
    intro hk
    obtain ⟨x', h1, h2⟩ := hP k (by omega) _ (ih (by omega))
    rw [hX k (by omega)] at h1
    rw [Option.some.inj h1]
    exact h2 (by omega)

/-- The error bound of C98 goes from one step to the next. -/
theorem ie_recurrence {L Q h τ a d e : ℝ} {k : ℕ} (hL : 0 ≤ L) (hQ : 0 ≤ Q) (hτ : 0 ≤ τ) (ha : 0 ≤ a) (hd : 0 ≤ d)
    (hdh : d ≤ h) (he : e ≤ Real.exp (2 * L * a) * (Q * h * a + τ * k)) :
    (1 + 2 * (d * L)) * (e + Q * d ^ 2) + τ ≤ Real.exp (2 * L * (a + d)) * (Q * h * (a + d) + τ * (k + 1 : ℕ)) := by
  have hh : 0 ≤ h := hd.trans hdh
  have e1 : 1 + 2 * (d * L) ≤ Real.exp (2 * L * d) := by
    have := Real.add_one_le_exp (2 * L * d); linarith
  have e2 : Real.exp (2 * L * d) ≤ Real.exp (2 * L * (a + d)) := Real.exp_le_exp.mpr (by nlinarith [mul_nonneg hL ha])
  have e3 : 1 ≤ Real.exp (2 * L * (a + d)) := Real.one_le_exp (by positivity)
  have e4 : Real.exp (2 * L * (a + d)) = Real.exp (2 * L * d) * Real.exp (2 * L * a) := by rw [← Real.exp_add]; congr 1; ring
  have hq : Q * d ^ 2 ≤ Q * h * d := by nlinarith [mul_nonneg hQ hd]
  have p1 : 0 ≤ 1 + 2 * (d * L) := by positivity
  have p2 : 0 ≤ Q * h * d := by positivity
  calc (1 + 2 * (d * L)) * (e + Q * d ^ 2) + τ
      ≤ (1 + 2 * (d * L)) * (Real.exp (2 * L * a) * (Q * h * a + τ * k) + Q * h * d) + τ := by gcongr
    _ = (1 + 2 * (d * L)) * (Real.exp (2 * L * a) * (Q * h * a + τ * k)) + (1 + 2 * (d * L)) * (Q * h * d) + τ * 1 := by ring
    _ ≤ Real.exp (2 * L * d) * (Real.exp (2 * L * a) * (Q * h * a + τ * k)) + Real.exp (2 * L * (a + d)) * (Q * h * d) +
          τ * Real.exp (2 * L * (a + d)) := by
        have : 0 ≤ Real.exp (2 * L * a) * (Q * h * a + τ * k) := by positivity
        have := e1.trans e2
        gcongr
    _ = _ := by rw [e4]; push_cast; ring

variable {n : ℕ} {f jac : Rhs ℝ} {g : ℝ → (Fin n → ℝ) → (Fin n → ℝ)} {J : ℝ → (Fin n → ℝ) → Matrix (Fin n) (Fin n) ℝ}
  {y : ℝ → (Fin n → ℝ)} {t₀ t₁ ρ L M G Q h : ℝ}

/-- the assumptions of C98 about the differential equation around a solution `y`: in the tube of radius `ρ` the right-hand side
is bounded by `G`, and its derivative is `J`, bounded by `L` and Lipschitz with the constant `M`; the derivative of the
solution is Lipschitz with the constant `Q` -/
structure Tube (g : ℝ → (Fin n → ℝ) → (Fin n → ℝ)) (J : ℝ → (Fin n → ℝ) → Matrix (Fin n) (Fin n) ℝ)
    (y : ℝ → (Fin n → ℝ)) (t₀ t₁ ρ L M G Q : ℝ) : Prop where
  deriv : ∀ t ∈ Set.Icc t₀ t₁, HasDerivAt y (g t (y t)) t
  curv : ∀ t ∈ Set.Icc t₀ t₁, ∀ u ∈ Set.Icc t₀ t₁, ‖g t (y t) - g u (y u)‖ ≤ Q * |t - u|
  jac : ∀ t ∈ Set.Icc t₀ t₁, ∀ z, ‖z - y t‖ ≤ ρ → HasFDerivAt (g t) (LinearMap.toContinuousLinearMap (Matrix.toLin' (J t z))) z
  jacb : ∀ t ∈ Set.Icc t₀ t₁, ∀ z, ‖z - y t‖ ≤ ρ → ∀ v, ‖J t z *ᵥ v‖ ≤ L * ‖v‖
  jacl : ∀ t ∈ Set.Icc t₀ t₁, ∀ z w, ‖z - y t‖ ≤ ρ → ‖w - y t‖ ≤ ρ → ∀ v, ‖(J t z - J t w) *ᵥ v‖ ≤ M * ‖z - w‖ * ‖v‖
  bound : ∀ t ∈ Set.Icc t₀ t₁, ∀ z, ‖z - y t‖ ≤ ρ → ‖g t z‖ ≤ G

/-- the local error of the implicit Euler method -/
theorem Tube.local_error (H : Tube g J y t₀ t₁ ρ L M G Q) (hQ : 0 ≤ Q) {t d : ℝ} (hd : 0 ≤ d) (ht : t ∈ Set.Icc t₀ t₁)
    (ht' : t + d ∈ Set.Icc t₀ t₁) : ‖y t + d • g (t + d) (y (t + d)) - y (t + d)‖ ≤ Q * d ^ 2 := by
  have hin : ∀ s ∈ Set.Icc (0 : ℝ) 1, t + d - s * d ∈ Set.Icc t₀ t₁ := fun s hs => by
    have : 0 ≤ s * d := mul_nonneg hs.1 hd
    have : s * d ≤ 1 * d := mul_le_mul_of_nonneg_right hs.2 hd
    exact ⟨by linarith [ht.1], by linarith [ht'.2]⟩
  have := curve_taylor (φ := fun s => y (t + d - s * d)) (φ' := fun s => (-d) • g (t + d - s * d) (y (t + d - s * d)))
    (c := Q * d ^ 2) (fun s hs => by
      have h1 : HasDerivAt (fun s : ℝ => t + d - s * d) (-d) s := by
        simpa using ((hasDerivAt_id s).mul_const d).const_sub (t + d)
      exact (H.deriv _ (hin s hs)).scomp s h1)
    (fun s hs => by
      rw [← smul_sub, norm_smul, norm_neg, Real.norm_eq_abs, abs_of_nonneg hd]
      have := H.curv _ (hin s hs) (t + d - 0 * d) (hin 0 (by simp))
      have e : |t + d - s * d - (t + d - 0 * d)| = s * d := by
        rw [show t + d - s * d - (t + d - 0 * d) = -(s * d) by ring, abs_neg, abs_of_nonneg (mul_nonneg hs.1 hd)]
      rw [e] at this
      calc d * _ ≤ d * (Q * (s * d)) := mul_le_mul_of_nonneg_left this hd
        _ = Q * d ^ 2 * s := by ring)
  simp only [one_mul, zero_mul, sub_zero, add_sub_cancel_right, neg_smul, sub_neg_eq_add] at this
  rw [sub_add_eq_add_sub] at this
  exact this.trans (by nlinarith [mul_nonneg hQ (sq_nonneg d)])

/-- one step along the grid -/
theorem Tube.step (H : Tube g J y t₀ t₁ ρ L M G Q) (hf : RhsRepr f g)
    (hJ : ∀ t x, ∃ A, jac t (col x) = some A ∧ Repr A (J t x)) (hL0 : 0 ≤ L) (hM0 : 0 ≤ M) (hG0 : 0 ≤ G) (hQ0 : 0 ≤ Q)
    (hh : 0 < h) (ht : t₀ ≤ t₁) (hL : h * L ≤ 1 / 2) (hM : 2 * (h * M) * (h * G) ≤ 1) (hn : Real.sqrt n * (2 * (h * G)) ≤ 1)
    (hGρ : h * G ≤ ρ / 2)
    (hE : Real.exp (2 * L * (t₁ - t₀)) * (Q * h * (t₁ - t₀) + 2 / 10 ^ 8 * ⌈(t₁ - t₀) / h⌉₊) + Q * h ^ 2 ≤ ρ / 4)
    {k : ℕ} (hk : k ≤ ⌈(t₁ - t₀) / h⌉₊)
    (hreg : ∀ z, ‖z - y (grid h t₀ t₁ (k + 1))‖ ≤ ρ →
      Regular ((grid h t₀ t₁ (k + 1) - grid h t₀ t₁ k) • J (grid h t₀ t₁ (k + 1)) z - 1)) {x : Fin n → ℝ}
    (hx : ‖x - y (grid h t₀ t₁ k)‖ ≤
      Real.exp (2 * L * (grid h t₀ t₁ k - t₀)) * (Q * h * (grid h t₀ t₁ k - t₀) + 2 / 10 ^ 8 * k)) :
    ∃ z, ieStep Real.sqrt f jac (grid h t₀ t₁ k) (col x) (grid h t₀ t₁ (k + 1) - grid h t₀ t₁ k) = some (col z) ∧
      ‖z - y (grid h t₀ t₁ (k + 1))‖ ≤
        Real.exp (2 * L * (grid h t₀ t₁ (k + 1) - t₀)) * (Q * h * (grid h t₀ t₁ (k + 1) - t₀) + 2 / 10 ^ 8 * (k + 1 : ℕ)) := by
  obtain ⟨-, -, -, -, hin⟩ := C40_grid hh ht
  have hdiff := grid_diff (t₀ := t₀) (t₁ := t₁) hh k
  set a := grid h t₀ t₁ k with ha
  set b := grid h t₀ t₁ (k + 1) with hb
  obtain ⟨d, hd⟩ : ∃ d, d = b - a := ⟨_, rfl⟩
  have hba : b = a + d := by rw [hd]; ring
  have hmin := hdiff
  rw [← hd] at hdiff ⊢
  have hdh : d ≤ h := by rw [← hdiff]; exact min_le_left _ _
  have hd0 : 0 ≤ d := by rw [← hdiff]; exact le_min hh.le (by linarith [(hin k).2])
  have ha' : a ∈ Set.Icc t₀ t₁ := hin k
  have hb' : a + d ∈ Set.Icc t₀ t₁ := by rw [← hba]; exact hin (k + 1)
  have hdsq : Q * d ^ 2 ≤ Q * h ^ 2 := by gcongr
  have hB : Real.exp (2 * L * (a - t₀)) * (Q * h * (a - t₀) + 2 / 10 ^ 8 * k) ≤
      Real.exp (2 * L * (t₁ - t₀)) * (Q * h * (t₁ - t₀) + 2 / 10 ^ 8 * ⌈(t₁ - t₀) / h⌉₊) := by
    have h1 : a - t₀ ≤ t₁ - t₀ := by linarith [ha'.2]
    have h2 : 0 ≤ a - t₀ := by linarith [ha'.1]
    have h3 : (k : ℝ) ≤ ⌈(t₁ - t₀) / h⌉₊ := by exact_mod_cast hk
    gcongr
  rw [← hd, hba] at hreg
  obtain ⟨z, h1, h2⟩ := ieStep_error hf hJ (y := y) (t := a) (h := d) (fun z hz => H.jac _ hb' z hz) (fun z hz => H.jacb _ hb' z hz)
    (fun z w hz hw => H.jacl _ hb' z w hz hw) (fun z hz => H.bound _ hb' z hz) hreg
    (H.local_error hQ0 hd0 ha' hb') hd0 hL0 (le_trans (by gcongr) hL) (le_trans (by gcongr) hM) (le_trans (by gcongr) hn)
    (le_trans (by gcongr) hGρ) (x := x) (by linarith)
  refine ⟨z, h1, ?_⟩
  rw [hba, show a + d - t₀ = (a - t₀) + d by ring]
  exact h2.trans (ie_recurrence hL0 hQ0 (by positivity) (by linarith [ha'.1]) hd0 hdh hx)

/-- C98: around a solution `y` (see `Tube`), with a small step size and as long as the linear solver meets no zero pivot, all
steps of the implicit Euler method up to the end of the time span succeed. The states are off by at most
`exp(2 L (t₁ - t₀)) (Q (t₁ - t₀) h + 2 / 10⁸ N)` where `N` is the number of steps: order one, plus twice the tolerance of the
root finder per step. Missing: this is not what `solve` does in two or more dimensions, see `C98_dimension_violated`. -/
theorem C98_steps_partial (H : Tube g J y t₀ t₁ ρ L M G Q) (hf : RhsRepr f g)
    (hJ : ∀ t x, ∃ A, jac t (col x) = some A ∧ Repr A (J t x)) (hL0 : 0 ≤ L) (hM0 : 0 ≤ M) (hG0 : 0 ≤ G) (hQ0 : 0 ≤ Q)
    (hh : 0 < h) (ht : t₀ ≤ t₁) (hL : h * L ≤ 1 / 2) (hM : 2 * (h * M) * (h * G) ≤ 1) (hn : Real.sqrt n * (2 * (h * G)) ≤ 1)
    (hGρ : h * G ≤ ρ / 2)
    (hE : Real.exp (2 * L * (t₁ - t₀)) * (Q * h * (t₁ - t₀) + 2 / 10 ^ 8 * ⌈(t₁ - t₀) / h⌉₊) + Q * h ^ 2 ≤ ρ / 4)
    (hreg : ∀ t ∈ Set.Icc t₀ t₁, ∀ d, 0 < d → d ≤ h → ∀ z, ‖z - y t‖ ≤ ρ → Regular (d • J t z - 1)) :
    ∃ x : ℕ → (Fin n → ℝ), x 0 = y t₀ ∧
      (∀ k < ⌈(t₁ - t₀) / h⌉₊, ieStep Real.sqrt f jac (grid h t₀ t₁ k) (col (x k)) (grid h t₀ t₁ (k + 1) - grid h t₀ t₁ k) =
        some (col (x (k + 1)))) ∧
      ∀ k ≤ ⌈(t₁ - t₀) / h⌉₊, ‖x k - y (grid h t₀ t₁ k)‖ ≤
        Real.exp (2 * L * (t₁ - t₀)) * (Q * h * (t₁ - t₀) + 2 / 10 ^ 8 * ⌈(t₁ - t₀) / h⌉₊) := by
  obtain ⟨g0, g1, g2, g3, hin⟩ := C40_grid hh ht
  set N := ⌈(t₁ - t₀) / h⌉₊ with hN
  set B : ℕ → ℝ := fun k => Real.exp (2 * L * (grid h t₀ t₁ k - t₀)) * (Q * h * (grid h t₀ t₁ k - t₀) + 2 / 10 ^ 8 * k) with hB
  have hstep : ∀ k (x : Fin n → ℝ), ∃ z, k < N → ‖x - y (grid h t₀ t₁ k)‖ ≤ B k →
      ieStep Real.sqrt f jac (grid h t₀ t₁ k) (col x) (grid h t₀ t₁ (k + 1) - grid h t₀ t₁ k) = some (col z) ∧
        ‖z - y (grid h t₀ t₁ (k + 1))‖ ≤ B (k + 1) := fun k x => by
    by_cases hc : k < N ∧ ‖x - y (grid h t₀ t₁ k)‖ ≤ B k
    · have hdiff := grid_diff (t₀ := t₀) (t₁ := t₁) hh k
      obtain ⟨z, hz⟩ := H.step hf hJ hL0 hM0 hG0 hQ0 hh ht hL hM hn hGρ hE (k := k) hc.1.le
        (fun z hz => hreg _ (hin (k + 1)) _ (by linarith [g2 k hc.1]) (by rw [← hdiff]; exact min_le_left _ _) z hz) hc.2
      exact ⟨z, fun _ _ => hz⟩
    · exact ⟨x, fun h1 h2 => absurd ⟨h1, h2⟩ hc⟩
  choose Z hZ using hstep
  let x : ℕ → (Fin n → ℝ) := fun k => Nat.rec (y t₀) (fun k x => Z k x) k
  have hxB : ∀ k ≤ N, ‖x k - y (grid h t₀ t₁ k)‖ ≤ B k := by
    intro k
    induction k with
    | zero =>
      intro _
      change ‖y t₀ - y (grid h t₀ t₁ 0)‖ ≤ B 0
      rw [g0, sub_self, norm_zero]
      simp [hB, g0]
    | succ k ih => intro hk; exact (hZ k (x k) (by omega) (ih (by omega))).2
  refine ⟨x, rfl, fun k hk => (hZ k (x k) hk (hxB k hk.le)).1, fun k hk => (hxB k hk).trans ?_⟩
  simp only [hB]
  have h1 : grid h t₀ t₁ k - t₀ ≤ t₁ - t₀ := by linarith [(hin k).2]
  have h2 : 0 ≤ grid h t₀ t₁ k - t₀ := by linarith [(hin k).1]
  have h3 : (k : ℝ) ≤ N := by exact_mod_cast hk
  gcongr

/-- C98: in one dimension `solve` itself returns times from `t₀` to `t₁` and states with that error. Missing: two or more
dimensions, see `C98_dimension_violated`; convergence for step sizes near the tolerance `10⁻⁸`, see `C98_stalls_violated`. -/
theorem C98_solve_partial {g : ℝ → (Fin 1 → ℝ) → (Fin 1 → ℝ)} {J : ℝ → (Fin 1 → ℝ) → Matrix (Fin 1) (Fin 1) ℝ}
    {y : ℝ → (Fin 1 → ℝ)} (H : Tube g J y t₀ t₁ ρ L M G Q) (hf : RhsRepr f g)
    (hJ : ∀ t x, ∃ A, jac t (col x) = some A ∧ Repr A (J t x)) (hL0 : 0 ≤ L) (hM0 : 0 ≤ M) (hG0 : 0 ≤ G) (hQ0 : 0 ≤ Q)
    (hh : 0 < h) (ht : t₀ ≤ t₁) (hL : h * L ≤ 1 / 2) (hM : 2 * (h * M) * (h * G) ≤ 1) (hn : 2 * (h * G) ≤ 1)
    (hGρ : h * G ≤ ρ / 2)
    (hE : Real.exp (2 * L * (t₁ - t₀)) * (Q * h * (t₁ - t₀) + 2 / 10 ^ 8 * ⌈(t₁ - t₀) / h⌉₊) + Q * h ^ 2 ≤ ρ / 4) :
    ∃ ts xs, fixedSolve (ieStep Real.sqrt f jac) h t₀ t₁ (col (y t₀)) = some (ts, xs) ∧ ts.length = xs.length ∧
      ts.head? = some t₀ ∧ ts.getLast? = some t₁ ∧
      ∀ (k : ℕ) t X, ts[k]? = some t → xs[k]? = some X → ∃ x : Fin 1 → ℝ, X = col x ∧ ‖x - y t‖ ≤
        Real.exp (2 * L * (t₁ - t₀)) * (Q * h * (t₁ - t₀) + 2 / 10 ^ 8 * ⌈(t₁ - t₀) / h⌉₊) := by
  obtain ⟨g0, g1, g2, g3, hin⟩ := C40_grid hh ht
  set N := ⌈(t₁ - t₀) / h⌉₊ with hN
  set B : ℕ → ℝ := fun k => Real.exp (2 * L * (grid h t₀ t₁ k - t₀)) * (Q * h * (grid h t₀ t₁ k - t₀) + 2 / 10 ^ 8 * k) with hB
  have n1 : ∀ v : Fin 1 → ℝ, ‖v‖ = |v 0| := fun v => by rw [Pi.norm_def]; simp
  obtain ⟨X, hX0, hXP, hs⟩ := fixedSolve_of_steps (ieStep Real.sqrt f jac)
    (fun k X => ∃ x : Fin 1 → ℝ, X = col x ∧ ‖x - y (grid h t₀ t₁ k)‖ ≤ B k) hh ht (init := col (y t₀))
    ⟨y t₀, rfl, by rw [g0, sub_self, norm_zero]; simp [hB, g0]⟩
    (by
      rintro k hk _ ⟨x, rfl, hx⟩
      have hdiff := grid_diff (t₀ := t₀) (t₁ := t₁) hh k
      obtain ⟨z, h1, h2⟩ := H.step hf hJ hL0 hM0 hG0 hQ0 hh ht hL hM (by simpa using hn) hGρ hE (k := k) hk
        (fun z hz => by
          have hd0 : 0 ≤ grid h t₀ t₁ (k + 1) - grid h t₀ t₁ k := by
            rw [← hdiff]; exact le_min hh.le (by linarith [(hin k).2])
          have hdh : grid h t₀ t₁ (k + 1) - grid h t₀ t₁ k ≤ h := by rw [← hdiff]; exact min_le_left _ _
          apply regular_one
          have h1 := H.jacb _ (hin (k + 1)) z hz ![1]
          rw [n1, n1] at h1
          simp only [Matrix.mulVec, dotProduct, univ_unique, Fin.default_eq_zero, sum_singleton, Matrix.cons_val_zero,
            mul_one, abs_one] at h1
          have h2 := (le_abs_self _).trans h1
          have h3 := mul_le_mul_of_nonneg_left h2 hd0
          have h4 := mul_le_mul_of_nonneg_right hdh hL0
          simp only [Matrix.sub_apply, Matrix.smul_apply, Matrix.one_apply_eq, smul_eq_mul]
          intro h5
          linarith) hx
      exact ⟨col z, h1, fun _ => ⟨z, rfl, h2⟩⟩)
  refine ⟨_, _, hs, by simp, ?_, ?_, ?_⟩
  · simp [List.head?_range, g0]
  · simp [List.getLast?_range, ← hN, g1]
  · intro k t X' h1 h2
    rw [List.getElem?_map] at h1 h2
    obtain ⟨i, hi, rfl⟩ := Option.map_eq_some_iff.mp h1
    obtain ⟨i', hi', rfl⟩ := Option.map_eq_some_iff.mp h2
    obtain rfl : i' = i := Option.some.inj (hi'.symm.trans hi)
    have hk : i' ≤ N := by
      have := List.mem_of_getElem? hi
      rw [List.mem_range] at this
      omega
    obtain ⟨x, hx1, hx2⟩ := hXP i' hk
    refine ⟨x, hx1, hx2.trans ?_⟩
    simp only [hB]
    have h1 : grid h t₀ t₁ i' - t₀ ≤ t₁ - t₀ := by linarith [(hin i').2]
    have h2 : 0 ≤ grid h t₀ t₁ i' - t₀ := by linarith [(hin i').1]
    have h3 : (i' : ℝ) ≤ N := by exact_mod_cast hk
    gcongr

/-- `x' = 2 t` on `[0, 1]` with the solution `t²` and the step size `1/100` -/
example : ∃ ts xs, fixedSolve (ieStep Real.sqrt (fun t _ => some (col ![2 * t])) fun _ _ => some ⟨1, 1, [0]⟩) (1 / 100) 0 1
      (col ![(0 : ℝ)]) = some (ts, xs) ∧ ts.length = xs.length ∧ ts.head? = some 0 ∧ ts.getLast? = some 1 ∧
      ∀ (k : ℕ) t X, ts[k]? = some t → xs[k]? = some X → ∃ x : Fin 1 → ℝ, X = col x ∧ ‖x - ![t ^ 2]‖ ≤ 21 / 1000 := by
  have n1 : ∀ v : Fin 1 → ℝ, ‖v‖ = |v 0| := fun v => by rw [Pi.norm_def]; simp
  have hceil : ⌈((1 : ℝ) - 0) / (1 / 100)⌉₊ = 100 := by
    rw [show ((1 : ℝ) - 0) / (1 / 100) = ((100 : ℕ) : ℝ) by norm_num, Nat.ceil_natCast]
  have H : Tube (n := 1) (fun t _ => ![2 * t]) (fun _ _ => 0) (fun t => ![t ^ 2]) 0 1 1 0 0 2 2 :=
    { deriv := fun t _ => by
        rw [hasDerivAt_pi]
        intro i
        fin_cases i
        simpa using hasDerivAt_pow 2 t
      curv := fun t _ u _ => by
        rw [n1]
        simp only [Pi.sub_apply, Matrix.cons_val_zero]
        rw [← mul_sub, abs_mul, abs_two]
      jac := fun t _ z _ => by
        refine (hasFDerivAt_const _ _).congr_fderiv ?_
        ext v i
        simp
      jacb := fun t _ z _ v => by simp
      jacl := fun t _ z w _ _ v => by simp
      bound := fun t ht z _ => by
        rw [n1]
        simp only [Matrix.cons_val_zero]
        rw [abs_of_nonneg (by linarith [ht.1])]
        linarith [ht.2] }
  obtain ⟨ts, xs, h1, h2, h3, h4, h5⟩ := C98_solve_partial H (f := fun t _ => some (col ![2 * t]))
    (jac := fun _ _ => some ⟨1, 1, [0]⟩) (h := 1 / 100) (fun _ _ => rfl)
    (fun t x => ⟨_, rfl, by constructor <;> simp [Mat.get]⟩) le_rfl le_rfl (by norm_num) (by norm_num) (by norm_num) zero_le_one
    (by norm_num) (by norm_num) (by norm_num) (by norm_num) (by rw [hceil]; norm_num)
  refine ⟨ts, xs, by simpa using h1, h2, h3, h4, fun k t X ht hX => ?_⟩
  obtain ⟨x, hx1, hx2⟩ := h5 k t X ht hX
  rw [hceil] at hx2
  exact ⟨x, hx1, hx2.trans (by norm_num)⟩

/-- `x' = -4 x + 8`, from `x = 1` with the step size `1/4` on `[0, 1/2]` -/
example : fixedSolve (ieStep Rat.sqrt (fun _ v => (v.mulScalar (-4)).add (col ![8])) fun _ _ => some ⟨1, 1, [-4]⟩) (1/4) 0 (1/2)
    (col ![(1 : ℚ)]) = some ([0, 1/4, 1/2], [col ![1], col ![3/2], col ![7/4]]) := by decide +kernel

/-- In two and more dimensions `solve` always panics, for every right-hand side, time span, start and step size: after the
last time has been recorded the stepper does one more step, of length `0`. The matrix `0 J - 1` of that step makes `dec_lu` meet
a zero pivot, the root finder does not converge, and its `Err` is unwrapped. (With floats the extra
step may have a tiny length instead, when rounding errors have accumulated in the times.) -/
theorem C98_dimension_violated (hn : 2 ≤ n) (hf : RhsRepr f g)
    (hJ : ∀ t (x : Fin n → ℝ), ∃ A, jac t (col x) = some A ∧ Repr A (J t x)) (hh : 0 < h) (ht : t₀ ≤ t₁) (x₀ : Fin n → ℝ) :
    fixedSolve (ieStep Real.sqrt f jac) h t₀ t₁ (col x₀) = none := by
  have hs1 : ∀ a : ℝ, 1 ≤ a → 1 ≤ Real.sqrt a := fun a ha => Real.one_le_sqrt.mpr ha
  obtain ⟨g0, g1, -, -, -⟩ := C40_grid hh ht
  have hlast : ∀ x : Fin n → ℝ, ieStep Real.sqrt f jac t₁ (col x) 0 = none := fun x => by
    have hz : ∀ z, ¬ Regular ((0 : ℝ) • J (t₁ + 0) z - 1) := fun z => by
      rw [zero_smul, zero_sub]; exact not_regular_neg_one hn
    simp only [ieStep, C47_singular hs1 (tol := 1 / 10 ^ 8) (by norm_num) (fun z => ieEval_col hf (t₁ + 0) x 0 z)
      (ieJac_repr hJ (t₁ + 0) 0) hz, Option.bind_eq_bind, Option.bind_some]
  unfold fixedSolve
  rw [if_neg (by simpa using ht), ceilZ_eq, steps_eq hh ht]
  simp only [forRange_succ (Nat.zero_le _)]
  rw [Option.bind_eq_bind, Option.bind_eq_none_iff]
  intro r hr
  rw [Option.bind_eq_some_iff] at hr
  obtain ⟨s, hs, hr⟩ := hr
  have key := forRange_inv_of_some (fun i s => s.1 = grid h t₀ t₁ i ∧ ∃ x : Fin n → ℝ, s.2.1 = col x)
    ⟨g0.symm, x₀, rfl⟩
    (by
      rintro i u u' _ _ ⟨h1, x, h2⟩ hu
      simp only [fixedIter, Option.bind_eq_bind, Option.bind_eq_some_iff] at hu
      obtain ⟨x', hx', hu⟩ := hu
      rw [h2] at hx'
      obtain ⟨z, _, hz, _⟩ := C46_step hs1 hf hJ _ _ _ _ hx'
      rw [← Option.some.inj hu]
      exact ⟨by simp only [h1, grid_succ hh], z, hz⟩) hs
  rw [Nat.zero_max, g1] at key
  obtain ⟨h1, x, h2⟩ := key
  simp only [fixedIter, h1, h2, sub_self, min_eq_right hh.le, hlast, Option.bind_eq_bind, Option.bind_none, reduceCtorEq] at hr

/-- the decoupled equations `x' = -x`, `y' = -y` on `[0, 1]` with the step size `1/4` -/
example : fixedSolve (ieStep Real.sqrt (fun _ v => some (v.mulScalar (-1))) fun _ _ => some ⟨2, 2, [-1, 0, 0, -1]⟩) (1 / 4) 0 1
    (col ![(1 : ℝ), 1]) = none :=
  C98_dimension_violated (n := 2) le_rfl (g := fun _ x => (-1 : ℝ) • x) (J := fun _ _ => -1)
    (fun _ x => by rw [col_mulScalar]) (fun _ _ => ⟨⟨2, 2, [-1, 0, 0, -1]⟩, rfl, rfl, rfl, rfl, fun i j => by
      fin_cases i <;> fin_cases j <;> simp [Mat.get]⟩) (by norm_num) zero_le_one ![1, 1]

/-- Smaller step sizes do not help in the end: for `x' = 1` and step sizes below `10⁻⁸` every increment is below the tolerance of
the root finder, which returns its start, and the computed solution stays at `0` instead of reaching `1`. -/
theorem C98_stalls_violated (hh : 0 < h) (hlt : h < 1 / 10 ^ 8) :
    ∃ (ts : List ℝ) (xs : List (Mat ℝ)),
      fixedSolve (ieStep Real.sqrt (fun _ _ => some (col ![1])) fun _ _ => some ⟨1, 1, [0]⟩) h 0 1 (col ![(0 : ℝ)]) = some (ts, xs) ∧
        ts.getLast? = some 1 ∧ xs.getLast? = some (col ![0]) := by
  obtain ⟨g0, g1, -, -, hin⟩ := C40_grid hh (zero_le_one (α := ℝ))
  have hstep : ∀ t d : ℝ, 0 ≤ d → d ≤ h →
      ieStep Real.sqrt (fun _ _ => some (col ![1])) (fun _ _ => some ⟨1, 1, [0]⟩) t (col ![0]) d = some (col ![(0 : ℝ)]) := by
    intro t d hd0 hdh
    have hf : RhsRepr (n := 1) (fun _ _ => some (col ![1])) (fun (_ : ℝ) _ => ![1]) := fun _ _ => rfl
    have hJ : ∀ (t : ℝ) (x : Fin 1 → ℝ), ∃ A, (fun _ _ => some ⟨1, 1, [0]⟩ : Rhs ℝ) t (col x) = some A ∧
        Repr A ((fun _ _ => 0 : ℝ → (Fin 1 → ℝ) → Matrix (Fin 1) (Fin 1) ℝ) t x) := fun t x =>
      ⟨_, rfl, by constructor <;> simp [Mat.get]⟩
    obtain ⟨δ, h1, h2⟩ := newtonStep_col (fun z => ieEval_col hf (t + d) ![0] d z) (ieJac_repr (jac := fun _ _ => some ⟨1, 1, [0]⟩) (J := fun _ _ => 0) hJ (t + d) d) ![0]
      (regular_one (by simp))
    have h3 : δ = ![-d] := by
      funext i
      fin_cases i
      rw [smul_zero, zero_sub, Matrix.neg_mulVec, Matrix.one_mulVec] at h2
      have := congrFun h2 0
      simp at this
      simp only [Fin.zero_eta, Matrix.cons_val_zero]
      linarith
    have h4 : Real.sqrt (∑ i, δ i * δ i) < 1 / 10 ^ 8 := by
      rw [h3]
      simp only [univ_unique, Fin.default_eq_zero, sum_singleton, Matrix.cons_val_zero, neg_mul_neg]
      rw [Real.sqrt_mul_self hd0]
      linarith
    simp only [ieStep]
    rw [show (100 : ℕ) = 99 + 1 from rfl, findRoot]
    simp only [h1, col_sub, sub_sub_cancel, norm2_col, Option.bind_eq_bind, Option.bind_some, if_pos h4]
  obtain ⟨X, hX0, hXP, hs⟩ := fixedSolve_of_steps
    (ieStep Real.sqrt (fun _ _ => some (col ![1])) fun _ _ => some ⟨1, 1, [0]⟩)
    (fun _ X => X = col ![(0 : ℝ)]) hh (zero_le_one (α := ℝ)) (init := col ![0]) rfl
    (by
      rintro k hk _ rfl
      have hdiff := grid_diff (t₀ := 0) (t₁ := 1) hh k
      exact ⟨_, hstep _ _ (by rw [← hdiff]; exact le_min hh.le (by linarith [(hin k).2]))
        (by rw [← hdiff]; exact min_le_left _ _), fun _ => rfl⟩)
  refine ⟨_, _, hs, ?_, ?_⟩
  · rw [List.range_succ, List.map_append]
    simp only [List.map_cons, List.map_nil, List.getLast?_append_of_ne_nil _ (List.cons_ne_nil _ _), List.getLast?_singleton, g1]
  · rw [List.range_succ, List.map_append]
    simp only [List.map_cons, List.map_nil, List.getLast?_append_of_ne_nil _ (List.cons_ne_nil _ _), List.getLast?_singleton,
      hXP _ le_rfl]

end Ode
end Verif
