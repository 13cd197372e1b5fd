import Verif.ImplicitModel
import Verif.FloatNewton
import Verif.FloatOdeProps
import Mathlib.Analysis.Calculus.MeanValue
import Mathlib.Analysis.SpecialFunctions.ExpDeriv
import Mathlib.Analysis.Complex.ExponentialBounds

/-!
# Property C129: the implicit Euler method with rounding

One equation (in two and more dimensions `solve` panics, see `C98_dimension_violated`).
-/

set_option linter.unusedSectionVars false

namespace Verif
namespace Ode
open Finset Matrix Rounding

variable {R : Rounding ℝ} {g J : ℝ → ℝ → ℝ} {y : ℝ → ℝ} {a b ρ L M G Q ε : ℝ}

/-- the equation around a solution `y`: in the tube of radius `ρ` the right-hand side is bounded by `G`, and its derivative `J` is
bounded by `L` and Lipschitz with the constant `M`; the derivative of the solution is Lipschitz with the constant `Q` -/
structure Tube1 (g J : ℝ → ℝ → ℝ) (y : ℝ → ℝ) (a b ρ L M G Q : ℝ) : Prop where
  deriv : ∀ t ∈ Set.Icc a b, HasDerivAt y (g t (y t)) t
  curv : ∀ t ∈ Set.Icc a b, ∀ u ∈ Set.Icc a b, |g t (y t) - g u (y u)| ≤ Q * |t - u|
  jac : ∀ t ∈ Set.Icc a b, ∀ z, |z - y t| ≤ ρ → HasDerivAt (g t) (J t z) z
  jacb : ∀ t ∈ Set.Icc a b, ∀ z, |z - y t| ≤ ρ → |J t z| ≤ L
  jacl : ∀ t ∈ Set.Icc a b, ∀ z w, |z - y t| ≤ ρ → |w - y t| ≤ ρ → |J t z - J t w| ≤ M * |z - w|
  bound : ∀ t ∈ Set.Icc a b, ∀ z, |z - y t| ≤ ρ → |g t z| ≤ G

/-- right-hand side and derivative of the program: one number, with errors of at most `ε` in the tube -/
structure Rhs1 (f jac : Rhs (Fl R)) (gf Jf : Fl R → Fl R → Fl R) (g J : ℝ → ℝ → ℝ) (y : ℝ → ℝ) (a b ρ ε : ℝ) : Prop where
  f : ∀ t z, f t ⟨1, 1, [z]⟩ = some ⟨1, 1, [gf t z]⟩
  jac : ∀ t z, jac t ⟨1, 1, [z]⟩ = some ⟨1, 1, [Jf t z]⟩
  close : ∀ t z : Fl R, t.val ∈ Set.Icc a b → |z.val - y t.val| ≤ ρ →
    |(gf t z).val - g t.val z.val| ≤ ε ∧ |(Jf t z).val - J t.val z.val| ≤ ε

/-- the local error of the implicit Euler method, forwards and backwards in time -/
theorem Tube1.local_error (H : Tube1 g J y a b ρ L M G Q) (hQ : 0 ≤ Q) {s T : ℝ} (hs : s ∈ Set.Icc a b) (hT : T ∈ Set.Icc a b) :
    |y s + (T - s) * g T (y T) - y T| ≤ Q * (T - s) ^ 2 := by
  have hseg : ∀ v ∈ Set.uIcc s T, v ∈ Set.Icc a b := fun v hv => by
    exact (Set.uIcc_subset_Icc hs hT) hv
  have := Convex.norm_image_sub_le_of_norm_hasDerivWithin_le (f := fun v => y v - v * g T (y T))
    (f' := fun v => g v (y v) - g T (y T)) (s := Set.uIcc s T) (C := Q * |T - s|) (x := T) (y := s)
    (fun v hv => ((H.deriv v (hseg v hv)).sub (by simpa using (hasDerivAt_id v).mul_const (g T (y T)))).hasDerivWithinAt)
    (fun v hv => by
      rw [Real.norm_eq_abs]
      refine (H.curv v (hseg v hv) T hT).trans (mul_le_mul_of_nonneg_left ?_ hQ)
      rw [abs_sub_comm v T]
      exact Set.abs_sub_right_of_mem_uIcc hv)
    (convex_uIcc _ _) Set.right_mem_uIcc Set.left_mem_uIcc
  rw [Real.norm_eq_abs, Real.norm_eq_abs] at this
  rw [show y s + (T - s) * g T (y T) - y T = y s - s * g T (y T) - (y T - T * g T (y T)) by ring]
  refine this.trans (le_of_eq ?_)
  rw [abs_sub_comm s T, mul_assoc, abs_mul_abs_self]; ring

/-- The exact solution of the equation of one step. -/
theorem Tube1.root (H : Tube1 g J y a b ρ L M G Q) (hQ : 0 ≤ Q) (hL : 0 ≤ L) (hρ : 0 < ρ) {s T d δ x e : ℝ}
    (hs : s ∈ Set.Icc a b) (hT : T ∈ Set.Icc a b) (hδ : |T - (s + d)| ≤ δ) (hd : |d| * L ≤ 1 / 2) (hx : |x - y s| ≤ e)
    (he : e + Q * (T - s) ^ 2 + G * δ ≤ ρ / 8) :
    ∃ z, x + d * g T z = z ∧ |z - y T| ≤ ρ / 2 ∧ |z - y T| ≤ (1 + 2 * (|d| * L)) * (e + Q * (T - s) ^ 2 + G * δ) := by
  have hlip : ∀ z, |z - y T| ≤ ρ → |g T z - g T (y T)| ≤ L * |z - y T| := fun z hz => by
    have hseg : ∀ v ∈ Set.uIcc (y T) z, |v - y T| ≤ ρ := fun v hv =>
      (Set.abs_sub_left_of_mem_uIcc hv).trans hz
    exact Convex.norm_image_sub_le_of_norm_hasDerivWithin_le (f := g T) (f' := J T) (s := Set.uIcc (y T) z) (C := L)
      (fun v hv => (H.jac T hT v (hseg v hv)).hasDerivWithinAt) (fun v hv => H.jacb T hT v (hseg v hv)) (convex_uIcc _ _)
      Set.left_mem_uIcc Set.right_mem_uIcc
  set E := e + Q * (T - s) ^ 2 + G * δ with hE
  have hy0 : |y T - y T| ≤ ρ := by rw [sub_self, abs_zero]; exact hρ.le
  have base : |x + d * g T (y T) - y T| ≤ E := by
    have h1 := H.local_error hQ hs hT
    have h2 : |(T - (s + d)) * g T (y T)| ≤ δ * G := by
      rw [abs_mul]
      exact mul_le_mul hδ (H.bound T hT _ hy0) (abs_nonneg _) ((abs_nonneg _).trans hδ)
    rw [show x + d * g T (y T) - y T = (x - y s) + (y s + (T - s) * g T (y T) - y T) - (T - (s + d)) * g T (y T) by ring]
    have := abs_sub ((x - y s) + (y s + (T - s) * g T (y T) - y T)) ((T - (s + d)) * g T (y T))
    have := abs_add_le (x - y s) (y s + (T - s) * g T (y T) - y T)
    rw [hE]; linarith
  have hΦ : ∀ z, |z - y T| ≤ ρ → |x + d * g T z - y T| ≤ E + |d| * L * |z - y T| := fun z hz => by
    have h1 := mul_le_mul_of_nonneg_left (hlip z hz) (abs_nonneg d)
    rw [show x + d * g T z - y T = (x + d * g T (y T) - y T) + d * (g T z - g T (y T)) by ring]
    have := abs_add_le (x + d * g T (y T) - y T) (d * (g T z - g T (y T)))
    rw [abs_mul] at this
    linarith
  have hcont : ContinuousOn (fun z => x + d * g T z - z) (Set.Icc (y T - ρ / 2) (y T + ρ / 2)) := fun z hz => by
    have : |z - y T| ≤ ρ := by rw [abs_le]; constructor <;> linarith [hz.1, hz.2]
    exact ((((H.jac T hT z this).continuousAt).const_mul d).const_add x |>.sub continuousAt_id).continuousWithinAt
  have hedge : ∀ σ : ℝ, |σ| = ρ / 2 → |x + d * g T (y T + σ) - y T| < ρ / 2 := fun σ hσ => by
    have h1 := hΦ (y T + σ) (by rw [add_sub_cancel_left, hσ]; linarith)
    rw [add_sub_cancel_left, hσ] at h1
    have := mul_le_mul_of_nonneg_right hd (by linarith : (0 : ℝ) ≤ ρ / 2)
    linarith
  have l1 := (abs_lt.1 (hedge (-(ρ / 2)) (by rw [abs_neg, abs_of_pos (show 0 < ρ / 2 by linarith)]))).1
  have l2 := (abs_lt.1 (hedge (ρ / 2) (abs_of_pos (by linarith)))).2
  rw [← sub_eq_add_neg] at l1
  obtain ⟨z, hz, hz0⟩ := intermediate_value_Icc' (by linarith : y T - ρ / 2 ≤ y T + ρ / 2) hcont
    (show (0 : ℝ) ∈ Set.Icc _ _ from ⟨by linarith, by linarith⟩)
  have hz' : |z - y T| ≤ ρ / 2 := by rw [abs_le]; constructor <;> linarith [hz.1, hz.2]
  have hfix : x + d * g T z = z := by linarith
  refine ⟨z, hfix, hz', ?_⟩
  have h1 := hΦ z (by linarith)
  rw [hfix] at h1
  have w0 := abs_nonneg (z - y T)
  have a0 : 0 ≤ |d| * L := by positivity
  set w := |z - y T|
  set α := |d| * L
  have E0 : 0 ≤ E := (abs_nonneg _).trans base
  have h2 : (1 - α) * w ≤ E := by linarith
  have h3 : 1 ≤ (1 + 2 * α) * (1 - α) := by nlinarith
  calc w = 1 * w := (one_mul _).symm
    _ ≤ (1 + 2 * α) * (1 - α) * w := by gcongr
    _ = (1 + 2 * α) * ((1 - α) * w) := by ring
    _ ≤ (1 + 2 * α) * E := by gcongr

theorem norm_one (v : Fin 1 → ℝ) : ‖v‖ = |v 0| := by rw [Pi.norm_def]; simp

theorem col_one (z : Fin 1 → Fl R) : col z = ⟨1, 1, [z 0]⟩ := by simp [col]

theorem eval_one {f : Rhs (Fl R)} {t x d z v : Fl R} (hf : f t ⟨1, 1, [z]⟩ = some ⟨1, 1, [v]⟩) :
    ieEvalG f t ⟨1, 1, [x]⟩ d ⟨1, 1, [z]⟩ = some ⟨1, 1, [x + v * d - z]⟩ := by
  simp only [ieEvalG, hf, Option.bind_eq_bind, Option.bind_some]
  rfl

theorem jac_one {jac : Rhs (Fl R)} {t d z v : Fl R} (hf : jac t ⟨1, 1, [z]⟩ = some ⟨1, 1, [v]⟩) :
    ieJacG jac t d ⟨1, 1, [z]⟩ = some ⟨1, 1, [v * d - 1]⟩ := by
  simp only [ieJacG, hf, Option.bind_eq_bind, Option.bind_some]
  rfl

/-- the computed function of one step -/
theorem eval_close (hu : R.u ≤ 1 / 1000) {x v d z : Fl R} {γ X A : ℝ} (hv : |v.val - γ| ≤ ε) (hx : |x.val| ≤ X) (hz : |z.val| ≤ X)
    (hA : |v.val * d.val| ≤ A) : |(x + v * d - z).val - (x.val + d.val * γ - z.val)| ≤ |d.val| * ε + 4 * R.u * (X + A) := by
  have u0 := R.u_nonneg
  have A0 : 0 ≤ A := (abs_nonneg _).trans hA
  have X0 : 0 ≤ X := (abs_nonneg _).trans hx
  rw [Fl.sub_val, Fl.add_val, Fl.mul_val]
  have e1 := R.err (v.val * d.val)
  have e2 := R.err (x.val + R.rnd (v.val * d.val))
  have e3 := R.err (R.rnd (x.val + R.rnd (v.val * d.val)) - z.val)
  set p := R.rnd (v.val * d.val)
  set q := R.rnd (x.val + p)
  set w := R.rnd (q - z.val)
  have uA : R.u * |v.val * d.val| ≤ R.u * A := mul_le_mul_of_nonneg_left hA u0
  have uA' : R.u * A ≤ 1 / 1000 * A := mul_le_mul_of_nonneg_right hu A0
  have uX' : R.u * X ≤ 1 / 1000 * X := mul_le_mul_of_nonneg_right hu X0
  have p1 : |p| ≤ 1.001 * A := by
    have := abs_sub_abs_le_abs_sub p (v.val * d.val)
    linarith
  have q1 : |x.val + p| ≤ X + 1.001 * A := (abs_add_le _ _).trans (add_le_add hx p1)
  have q2 := mul_le_mul_of_nonneg_left q1 u0
  have q3 : |q| ≤ 1.001 * X + 1.1 * A := by
    have := abs_sub_abs_le_abs_sub q (x.val + p)
    nlinarith
  have w1 : |q - z.val| ≤ 2.001 * X + 1.1 * A := by
    have := abs_sub q z.val
    linarith
  have w2 := mul_le_mul_of_nonneg_left w1 u0
  have k1 : |d.val * (v.val - γ)| ≤ |d.val| * ε := by
    rw [abs_mul]; exact mul_le_mul_of_nonneg_left hv (abs_nonneg _)
  rw [show w - (x.val + d.val * γ - z.val) = (w - (q - z.val)) + (q - (x.val + p)) + (p - v.val * d.val) + d.val * (v.val - γ) by ring]
  have a1 := abs_add_le ((w - (q - z.val)) + (q - (x.val + p)) + (p - v.val * d.val)) (d.val * (v.val - γ))
  have a2 := abs_add_le ((w - (q - z.val)) + (q - (x.val + p))) (p - v.val * d.val)
  have a3 := abs_add_le (w - (q - z.val)) (q - (x.val + p))
  have : 0 ≤ R.u * X := by positivity
  have : 0 ≤ R.u * A := by positivity
  linarith

/-- the computed derivative of one step -/
theorem jac_close (hu : R.u ≤ 1 / 1000) {v d : Fl R} {γ : ℝ} (hv : |v.val - γ| ≤ ε) (hA : |v.val * d.val| ≤ 1 / 2) :
    |(v * d - 1).val - (d.val * γ - 1)| ≤ |d.val| * ε + 3 * R.u := by
  have u0 := R.u_nonneg
  rw [Fl.sub_val, Fl.mul_val, Fl.one_val]
  have e1 := R.err (v.val * d.val)
  have e2 := R.err (R.rnd (v.val * d.val) - 1)
  set p := R.rnd (v.val * d.val)
  set w := R.rnd (p - 1)
  have uA : R.u * |v.val * d.val| ≤ R.u * (1 / 2) := mul_le_mul_of_nonneg_left hA u0
  have p1 : |p| ≤ 1 := by
    have := abs_sub_abs_le_abs_sub p (v.val * d.val)
    linarith
  have q1 : |p - 1| ≤ 2 := by
    have := abs_sub p 1
    rw [abs_one] at this
    linarith
  have q2 := mul_le_mul_of_nonneg_left q1 u0
  have k1 : |d.val * (v.val - γ)| ≤ |d.val| * ε := by
    rw [abs_mul]; exact mul_le_mul_of_nonneg_left hv (abs_nonneg _)
  rw [show w - (d.val * γ - 1) = (w - (p - 1)) + (p - v.val * d.val) + d.val * (v.val - γ) by ring]
  have a1 := abs_add_le ((w - (p - 1)) + (p - v.val * d.val)) (d.val * (v.val - γ))
  have a2 := abs_add_le (w - (p - 1)) (p - v.val * d.val)
  linarith

variable {f jac : Rhs (Fl R)} {gf Jf : Fl R → Fl R → Fl R}

/-- the assumptions of C119 for the equation of one step -/
theorem step_newton (H : Tube1 g J y a b ρ L M G Q) (F : Rhs1 f jac gf Jf g J y a b ρ ε) (hu : R.u ≤ 1 / 1000) (hε : 0 ≤ ε) (hM : 0 ≤ M)
    (hG : 0 ≤ G) {T d x : Fl R} (hT : T.val ∈ Set.Icc a b) (hd : |d.val| * (L + ε) ≤ 1 / 2) (hdε : |d.val| * ε ≤ 1 / 32) {X : ℝ} (hx : |x.val| ≤ X)
    (hX : |y T.val| + ρ ≤ X) {z : ℝ} (hz : x.val + d.val * g T.val z = z) (hzy : |z - y T.val| ≤ ρ / 2) (hρ : 0 < ρ) :
    NewtonFl (R := R) (n := 1) (ieEvalG f T ⟨1, 1, [x]⟩ d) (ieJacG jac T d) (fun v => ![x.val + d.val * g T.val (v 0) - v 0])
      (fun v => !![d.val * J T.val (v 0) - 1]) ![z] (ρ / 2) (|d.val| * M) 2 (|d.val| * ε + 4 * R.u * (X + |d.val| * (G + ε)))
      (|d.val| * ε + 3 * R.u) 3 := by
  have u0 := R.u_nonneg
  have d0 := abs_nonneg d.val
  have X0 : 0 ≤ X := (abs_nonneg _).trans hx
  have hin : ∀ v : Fin 1 → ℝ, ‖v - ![z]‖ ≤ ρ / 2 → |v 0 - y T.val| ≤ ρ := fun v hv => by
    rw [norm_one] at hv
    simp only [Pi.sub_apply, Matrix.cons_val_zero] at hv
    have := abs_sub_le (v 0) z (y T.val)
    linarith
  have hdJ : ∀ w, |w - y T.val| ≤ ρ → |d.val * J T.val w| ≤ 1 / 2 := fun w hw => by
    rw [abs_mul]
    have := mul_le_mul_of_nonneg_left (H.jacb _ hT w hw) d0
    have := mul_nonneg d0 hε
    linarith
  refine ⟨?_, by norm_num, by positivity, by positivity, by positivity, by norm_num, ?_, ?_, ?_, ?_, ?_⟩
  · funext i; fin_cases i
    change x.val + d.val * g T.val z - z = 0
    linarith
  · intro v hv
    rw [hasFDerivAt_pi']
    intro i
    fin_cases i
    have h0 : HasFDerivAt (fun x : Fin 1 → ℝ => x 0) (ContinuousLinearMap.proj (R := ℝ) (φ := fun _ : Fin 1 => ℝ) 0) v :=
      (ContinuousLinearMap.proj (R := ℝ) (φ := fun _ : Fin 1 => ℝ) 0).hasFDerivAt
    have h1 := (H.jac _ hT (v 0) (hin v hv)).comp_hasFDerivAt v h0
    have := ((h1.const_mul d.val).const_add x.val).sub h0
    refine this.congr_fderiv ?_
    ext w
    simp [dotProduct]
    ring
  · intro v w hv hw c
    rw [norm_one, norm_one, norm_one]
    simp only [Matrix.mulVec, dotProduct, Fin.sum_univ_one, Matrix.sub_apply, Pi.sub_apply]
    change |(d.val * J T.val (v 0) - 1 - (d.val * J T.val (w 0) - 1)) * c 0| ≤ _
    rw [show d.val * J T.val (v 0) - 1 - (d.val * J T.val (w 0) - 1) = d.val * (J T.val (v 0) - J T.val (w 0)) by ring, abs_mul, abs_mul]
    have := mul_le_mul_of_nonneg_left (H.jacl _ hT _ _ (hin v hv) (hin w hw)) d0
    refine mul_le_mul_of_nonneg_right ?_ (abs_nonneg _)
    linarith
  · intro v hv c
    rw [norm_one, norm_one]
    simp only [Matrix.mulVec, dotProduct, Fin.sum_univ_one]
    change |c 0| ≤ 2 * |(d.val * J T.val (v 0) - 1) * c 0|
    rw [abs_mul]
    have h1 := hdJ _ (hin v hv)
    have h2 : 1 / 2 ≤ |d.val * J T.val (v 0) - 1| := by
      have := (abs_le.1 h1).2
      rw [abs_of_nonpos (by linarith)]; linarith
    have := mul_le_mul_of_nonneg_right h2 (abs_nonneg (c 0))
    linarith
  · intro v hv
    have hv' : |(v 0).val - y T.val| ≤ ρ := hin (fv v) hv
    have c1 := (F.close T (v 0) hT hv').1
    have hg := H.bound _ hT _ hv'
    refine ⟨fun _ => x + gf T (v 0) * d - v 0, ?_, fun i => R.idem _, ?_⟩
    · rw [col_one, eval_one (F.f T (v 0)), col_one]
    · rw [norm_one]
      change |(x + gf T (v 0) * d - v 0).val - (x.val + d.val * g T.val (v 0).val - (v 0).val)| ≤ _
      refine eval_close hu c1 hx ?_ ?_
      · have := abs_sub_abs_le_abs_sub (v 0).val (y T.val)
        linarith
      · rw [abs_mul, mul_comm]
        refine mul_le_mul_of_nonneg_left ?_ d0
        have := abs_sub_abs_le_abs_sub (gf T (v 0)).val (g T.val (v 0).val)
        linarith
  · intro v hv
    have hv' : |(v 0).val - y T.val| ≤ ρ := hin (fv v) hv
    have c1 := (F.close T (v 0) hT hv').2
    have hj := H.jacb _ hT _ hv'
    have k : |((Jf T (v 0)) * d - 1).val - (d.val * J T.val (v 0).val - 1)| ≤ |d.val| * ε + 3 * R.u := by
      refine jac_close hu c1 (le_trans ?_ hd)
      rw [abs_mul, mul_comm]
      refine mul_le_mul_of_nonneg_left ?_ d0
      have := abs_sub_abs_le_abs_sub (Jf T (v 0)).val (J T.val (v 0).val)
      linarith
    refine ⟨⟨1, 1, [Jf T (v 0) * d - 1]⟩, !![Jf T (v 0) * d - 1], ?_, ?_, ?_, ?_⟩
    · rw [col_one, jac_one (F.jac T (v 0))]
    · refine ⟨rfl, rfl, rfl, fun i j => ?_⟩
      fin_cases i; fin_cases j; rfl
    · intro i
      fin_cases i
      simp only [Fin.sum_univ_one]
      exact k
    · intro l u p Lm U hdec hl hU
      rw [decLU_one] at hdec
      cases hdec
      have e1 : Lm 0 0 = 1 := by
        have := hl.is.get (i := 0) (j := 0) one_pos one_pos
        rw [extM_lt Lm one_pos one_pos] at this
        exact (Option.some.inj this).symm
      have e2 : U 0 0 = Jf T (v 0) * d - 1 := by
        have := hU.is.get (i := 0) (j := 0) one_pos one_pos
        rw [extM_lt U one_pos one_pos] at this
        exact (Option.some.inj this).symm
      have k1 := abs_le.1 (hdJ _ hv')
      have k2 := abs_le.1 k
      constructor
      · intro i
        fin_cases i
        change U 0 0 ≠ 0
        rw [e2, Ne, Fl.eq_zero_iff]
        linarith
      · intro i
        fin_cases i
        simp only [Fin.sum_univ_one]
        change |(Lm 0 0).val| * |(U 0 0).val| ≤ 3
        rw [e1, e2, Fl.one_val, abs_one, one_mul, abs_le]
        constructor <;> linarith

/-- **C129, one step**: `do_step` returns, and the result is the solution of the equation of the implicit Euler method up to three times
the tolerance of the root finder. -/
theorem C129_step {sqrt : Fl R → Fl R} (hsq : FlSqrt sqrt) (H : Tube1 g J y a b ρ L M G Q) (F : Rhs1 f jac gf Jf g J y a b ρ ε)
    (hu : R.u ≤ 1 / 1000) (hε : 0 ≤ ε) (hQ : 0 ≤ Q) (hL : 0 ≤ L) (hM : 0 ≤ M) (hG : 0 ≤ G) (hρ : 0 < ρ) (hρ1 : ρ ≤ 1) {t d x tol : Fl R}
    {X e δ : ℝ} (ht : t.val ∈ Set.Icc a b) (hT : (t + d).val ∈ Set.Icc a b) (hδ : |(t + d).val - (t.val + d.val)| ≤ δ)
    (hd : |d.val| * (L + ε) ≤ 1 / 2) (hdε : |d.val| * ε ≤ 1 / 32) (hdM : |d.val| * M ≤ 1 / 2) (hdG : |d.val| * G ≤ ρ / 2)
    (hX : |y (t + d).val| + ρ ≤ X) (hx : |x.val| ≤ X) (hxy : |x.val - y t.val| ≤ e) (he : e + Q * ((t + d).val - t.val) ^ 2 + G * δ ≤ ρ / 8)
    (htol : 1 / 10 ^ 9 ≤ tol.val) (htolρ : tol.val ≤ ρ)
    (hτ : 5 * (4 * (|d.val| * ε + 4 * R.u * (X + |d.val| * (G + ε))) + R.u * X) ≤ tol.val) :
    ∃ z zs, ieStepG sqrt tol f jac t ⟨1, 1, [x]⟩ d = some ⟨1, 1, [z]⟩ ∧ x.val + d.val * g (t + d).val zs = zs ∧ |z.val - zs| ≤ 3 * tol.val ∧
      |z.val - y (t + d).val| ≤ (1 + 2 * (|d.val| * L)) * (e + Q * ((t + d).val - t.val) ^ 2 + G * δ) + 3 * tol.val := by
  have u0 := R.u_nonneg
  have d0 := abs_nonneg d.val
  have hdL : |d.val| * L ≤ 1 / 2 := by
    have := mul_nonneg d0 hε
    linarith
  obtain ⟨zs, z1, z2, z3⟩ := H.root hQ hL hρ ht hT hδ hdL hxy he
  have N := step_newton H F hu hε hM hG hT hd hdε hx hX z1 z2 hρ
  set εf := |d.val| * ε + 4 * R.u * (X + |d.val| * (G + ε)) with hεf
  have εf0 : 0 ≤ εf := N.εf_nonneg
  have zX : |zs| ≤ X := by
    have := abs_sub_abs_le_abs_sub zs (y (t + d).val)
    linarith
  have zn : ‖(![zs] : Fin 1 → ℝ)‖ = |zs| := by rw [norm_one]; rfl
  have uz : R.u * |zs| ≤ R.u * X := mul_le_mul_of_nonneg_left zX u0
  have uz0 : 0 ≤ R.u * |zs| := by positivity
  have p3 : (1 + R.u) ^ (3 * 1) - 1 ≤ 4 * R.u := by
    rw [show (1 + R.u) ^ (3 * 1) - 1 = R.u * (3 + 3 * R.u + R.u * R.u) by ring, mul_comm]
    refine mul_le_mul_of_nonneg_right ?_ u0
    nlinarith
  have p4 : (1 + R.u) ^ (1 + 3) ≤ 1.01 := by
    have : (1 + R.u) ^ (1 + 3) ≤ (1 + 1 / 1000) ^ (1 + 3) := pow_le_pow_left₀ (by linarith) (by linarith) _
    exact this.trans (by norm_num)
  have p4' : 0 ≤ (1 + R.u) ^ (1 + 3) := by positivity
  obtain ⟨x', e1, e2⟩ := C119_returns (n := 1) hsq N (by linarith) (by
      set γ := (1 + R.u) ^ (3 * 1) - 1
      linarith) (by
      have := mul_le_mul_of_nonneg_right hdM hρ.le
      linarith) (by rw [zn]; linarith) tol 100 (fun _ => x) (by
      rw [norm_one]
      change |x.val - zs| ≤ _
      rw [show x.val - zs = -(d.val * g (t + d).val zs) by linarith, abs_neg, abs_mul]
      exact (mul_le_mul_of_nonneg_left (H.bound _ hT zs (by linarith)) d0).trans hdG) ⟨60, by norm_num, by
      rw [zn, Nat.cast_one, Real.sqrt_one, one_mul]
      have h1 : 3 / 2 * (1 / 2) ^ 60 * (ρ / 2) + 4 * (2 * 2 * εf + R.u * |zs|) ≤ 0.81 * tol.val := by
        have : 3 / 2 * (1 / 2) ^ 60 * (ρ / 2) ≤ 1 / 100 * (1 / 10 ^ 9) := by
          have : 3 / 2 * (1 / 2) ^ 60 * (ρ / 2) ≤ 3 / 2 * (1 / 2) ^ 60 * (1 / 2 : ℝ) := by gcongr
          exact this.trans (by norm_num)
        linarith
      have h2 := mul_le_mul p4 h1 (by positivity) (by norm_num)
      linarith⟩
  set P := (1 + R.u) ^ (1 + 3)
  have b1 : |(x' 0).val - zs| ≤ 3 * tol.val := by
    rw [norm_one, zn] at e2
    change |(x' 0).val - zs| ≤ _ at e2
    have := mul_le_mul_of_nonneg_right p4 (by linarith : (0 : ℝ) ≤ tol.val)
    linarith
  refine ⟨x' 0, zs, ?_, z1, b1, ?_⟩
  · rw [← col_one, ← col_one (fun _ => x)]
    simp only [ieStepG]
    rw [col_one (fun _ => x)] at e1 ⊢
    rw [e1]
    rfl
  · have := abs_sub_le (x' 0).val zs (y (t + d).val)
    linarith

/-- the fixed stepper when the steps that are done succeed -/
theorem fixedSolve_iter {n : ℕ} {step : Fl R → Mat (Fl R) → Fl R → Option (Mat (Fl R))} {F : Fl R → (Fin n → Fl R) → Fl R → (Fin n → Fl R)}
    {h t₀ t₁ : Fl R} (ht : t₀ ≤ t₁) (x₀ : Fin n → Fl R)
    (hF : ∀ k < (HasCeil.ceilZ ((t₁ - t₀) / h) + 1).toNat, step (iterSeq F h t₀ t₁ x₀ k).1 (col (iterSeq F h t₀ t₁ x₀ k).2)
      (min h (t₁ - (iterSeq F h t₀ t₁ x₀ k).1)) = some (col (iterSeq F h t₀ t₁ x₀ (k + 1)).2)) :
    fixedSolve step h t₀ t₁ (col x₀) =
      some ((List.range (HasCeil.ceilZ ((t₁ - t₀) / h) + 1).toNat).map (fun k => (iterSeq F h t₀ t₁ x₀ k).1),
        (List.range (HasCeil.ceilZ ((t₁ - t₀) / h) + 1).toNat).map (fun k => col (iterSeq F h t₀ t₁ x₀ k).2)) := by
  unfold fixedSolve
  rw [if_neg (not_lt.2 ht)]
  obtain ⟨r, hr, hP⟩ := forRange_inv (a := 0) (b := (HasCeil.ceilZ ((t₁ - t₀) / h) + 1).toNat)
    (f := fun s _ => fixedIter step h t₁ s) (s := ((t₀, col x₀, [], []) : Fl R × Mat (Fl R) × List (Fl R) × List (Mat (Fl R))))
    (fun k s => s = ((iterSeq F h t₀ t₁ x₀ k).1, col (iterSeq F h t₀ t₁ x₀ k).2,
      (List.range k).map (fun k => (iterSeq F h t₀ t₁ x₀ k).1),
      (List.range k).map (fun k => col (iterSeq F h t₀ t₁ x₀ k).2))) (Nat.zero_le _) (by simp [iterSeq])
    (by
      intro i s _ hi hs
      refine ⟨_, ?_, rfl⟩
      subst hs
      simp only [fixedIter, hF i hi, Option.bind_eq_bind, Option.bind_some, List.range_succ, List.map_append, List.map_cons, List.map_nil]
      rfl)
  simp only [Option.bind_eq_bind]
  rw [hr, hP]
  rfl

/-- the bound of the error goes from one step to the next -/
theorem bound_step {q e c : ℝ} (hq : 1 ≤ q) (hc : 0 ≤ c) (k : ℕ) : q * (q ^ k * (e + k * c) + c) ≤ q ^ (k + 1) * (e + (k + 1 : ℕ) * c) := by
  have : 1 ≤ q ^ k := one_le_pow₀ hq
  have h1 := mul_le_mul_of_nonneg_right this (by positivity : 0 ≤ q * c)
  push_cast
  rw [pow_succ]
  nlinarith

theorem bound_exp {α e c : ℝ} (hα : 0 ≤ α) (he : 0 ≤ e) (hc : 0 ≤ c) {k N : ℕ} (hk : k ≤ N) :
    (1 + α) ^ k * (e + k * c) ≤ Real.exp (α * N) * (e + N * c) := by
  have h1 : (1 + α) ^ k ≤ Real.exp (α * N) := by
    have : (1 + α) ^ k ≤ (1 + α) ^ N := pow_le_pow_right₀ (by linarith) hk
    refine this.trans ?_
    rw [mul_comm, Real.exp_nat_mul]
    refine pow_le_pow_left₀ (by linarith) ?_ _
    have := Real.add_one_le_exp α
    linarith
  have h2 : (k : ℝ) ≤ N := by exact_mod_cast hk
  have : (k : ℝ) * c ≤ N * c := mul_le_mul_of_nonneg_right h2 hc
  exact mul_le_mul h1 (by linarith) (by positivity) (Real.exp_pos _).le

/-- **C129** (`/repo/src/analysis/differential_equation/ordinary/implicit_euler.rs:106-141`, `solve` for one equation with rounding):
around a solution `y` and with a right-hand side evaluated up to `ε`, `solve` returns, the last time is the end of the time span up to
`8 (N+1) u S`, and every state is off by at most `exp(2 L h N) (e₀ + N c)`, where `N` is the number of steps, `S = |t₀| + |t₁|` and
`c = Q (h + 4 u S)² + 4 G u S + 3 tol`: order one, the error of the times and three times the tolerance of the root finder in every step. The
tolerance must not be below the rounding errors of the equation of one step. -/
theorem C129_solve {sqrt : Fl R → Fl R} (hsq : FlSqrt sqrt) (H : Tube1 g J y a b ρ L M G Q) (F : Rhs1 f jac gf Jf g J y a b ρ ε)
    (hu : R.u ≤ 1 / 1000) (hε : 0 ≤ ε) (hQ : 0 ≤ Q) (hL : 0 ≤ L) (hM : 0 ≤ M) (hG : 0 ≤ G) (hρ : 0 < ρ) (hρ1 : ρ ≤ 1)
    {h t₀ t₁ x₀ tol : Fl R} {X e₀ S c : ℝ} {N : ℕ} (hN : N = ⌈((t₁ - t₀) / h).val⌉.toNat) (hNu : 8 * (N + 1) * R.u ≤ 1)
    (hS : S = |t₀.val| + |t₁.val|) (hh : 0 < h.val) (ht : t₀.val ≤ t₁.val) (ha : a ≤ t₀.val - (N + 1) * (8 * R.u * S))
    (hb : t₁.val + 8 * R.u * S ≤ b) (huh : 16 * (R.u * S) ≤ h.val)
    (hhL : h.val * (L + ε) ≤ 1 / 2) (hhε : h.val * ε ≤ 1 / 32) (hhM : h.val * M ≤ 1 / 2) (hhG : h.val * G ≤ ρ / 2)
    (hX : ∀ t ∈ Set.Icc a b, |y t| + ρ ≤ X) (hx₀ : |x₀.val - y t₀.val| ≤ e₀)
    (hc : c = Q * (h.val + 4 * R.u * S) ^ 2 + G * (4 * R.u * S) + 3 * tol.val)
    (hE : Real.exp (2 * (h.val * L) * N) * (e₀ + N * c) + c ≤ ρ / 8)
    (htol : 1 / 10 ^ 9 ≤ tol.val)
    (hτ : 5 * (4 * (h.val * ε + 4 * R.u * (X + h.val * (G + ε))) + R.u * X) ≤ tol.val) :
    ∃ ts xs, fixedSolve (ieStepG sqrt tol f jac) h t₀ t₁ ⟨1, 1, [x₀]⟩ = some (ts, xs) ∧ ts.length = N + 1 ∧ xs.length = N + 1 ∧
      ts.head? = some t₀ ∧ (∀ t, ts.getLast? = some t → |t.val - t₁.val| ≤ 8 * (N + 1) * R.u * S) ∧
      (∀ (k : ℕ) t Z, ts[k]? = some t → xs[k]? = some Z → ∃ z, Z = ⟨1, 1, [z]⟩ ∧
        |z.val - y t.val| ≤ Real.exp (2 * (h.val * L) * N) * (e₀ + N * c)) ∧
      N * h.val ≤ (1 + R.u) ^ 2 * (t₁.val - t₀.val) + h.val := by
  classical
  have u0 := R.u_nonneg
  have S0 : 0 ≤ S := by rw [hS]; positivity
  have uS0 : 0 ≤ R.u * S := by positivity
  have e00 : 0 ≤ e₀ := (abs_nonneg _).trans hx₀
  have tol0 : 0 < tol.val := lt_of_lt_of_le (by norm_num) htol
  have c0 : 0 ≤ c := by rw [hc]; positivity
  have N0 : (0 : ℝ) ≤ N := Nat.cast_nonneg N
  have tolc : 3 * tol.val ≤ c := by
    rw [hc]
    have : 0 ≤ Q * (h.val + 4 * R.u * S) ^ 2 := by positivity
    have : 0 ≤ G * (4 * R.u * S) := by positivity
    linarith
  have Bc : 0 ≤ Real.exp (2 * (h.val * L) * N) * (e₀ + N * c) := by positivity
  obtain ⟨n1, -, n3⟩ := steps_fl hh ht (by linarith) hN
  -- the step as a total function
  let Φ : Fl R → (Fin 1 → Fl R) → Fl R → (Fin 1 → Fl R) := fun t x d _ =>
    if hz : ∃ z, ieStepG sqrt tol f jac t (col x) d = some ⟨1, 1, [z]⟩ then hz.choose else x 0
  have hΦ : ∀ t x d, (∃ z, ieStepG sqrt tol f jac t (col x) d = some ⟨1, 1, [z]⟩) →
      ieStepG sqrt tol f jac t (col x) d = some (col (Φ t x d)) := fun t x d hz => by
    have : Φ t x d = fun _ => hz.choose := by
      funext i
      simp only [Φ, dif_pos hz]
    rw [this, col_one (fun _ => hz.choose)]
    exact hz.choose_spec
  set x0 : Fin 1 → Fl R := fun _ => x₀ with hx0
  have tm := times_fl Φ hh ht x0 (N := N + 1) (by push_cast; linarith) rfl
  rw [← hS] at tm
  have hin : ∀ k ≤ N + 1, (iterSeq Φ h t₀ t₁ x0 k).1.val ∈ Set.Icc a b := by
    intro k hk
    obtain ⟨⟨i1, i2⟩, -⟩ := tm k hk
    have hkN : (k : ℝ) ≤ N + 1 := by exact_mod_cast hk
    have := mul_le_mul_of_nonneg_right hkN (by positivity : 0 ≤ 8 * R.u * S)
    exact ⟨by linarith, by linarith⟩
  have hsteps : ∀ k ≤ N, |(min h (t₁ - (iterSeq Φ h t₀ t₁ x0 k).1)).val| ≤ h.val ∧
      |((iterSeq Φ h t₀ t₁ x0 k).1 + min h (t₁ - (iterSeq Φ h t₀ t₁ x0 k).1)).val -
        ((iterSeq Φ h t₀ t₁ x0 k).1.val + (min h (t₁ - (iterSeq Φ h t₀ t₁ x0 k).1)).val)| ≤ 4 * R.u * S := by
    intro k hk
    obtain ⟨⟨i1, i2⟩, -⟩ := tm k (by omega)
    set τ := (iterSeq Φ h t₀ t₁ x0 k).1 with hτd
    have hk1 : (k : ℝ) ≤ N := by exact_mod_cast hk
    have k0 : (0 : ℝ) ≤ k := Nat.cast_nonneg k
    have a1 : |t₁.val| ≤ S := by rw [hS]; linarith [abs_nonneg t₀.val]
    have drift : (k : ℝ) * (8 * R.u * S) ≤ S := by
      have : (k : ℝ) * (8 * R.u) ≤ 1 := by
        have := mul_le_mul_of_nonneg_right hk1 (by positivity : 0 ≤ 8 * R.u)
        linarith
      have := mul_le_mul_of_nonneg_right this S0
      linarith
    have ω1 : 8 * R.u * S ≤ S := by
      have := mul_le_mul_of_nonneg_right (by linarith : 8 * R.u ≤ 1) S0
      linarith
    have c1 : |t₁.val - τ.val| ≤ 2 * S := by
      rw [abs_le]
      constructor
      · linarith
      · have : t₁.val - t₀.val ≤ S := by rw [hS]; linarith [neg_abs_le t₀.val, le_abs_self t₁.val]
        linarith
    have c2 : |τ.val| ≤ 2 * S := by
      have b0 : -S ≤ t₀.val := by rw [hS]; linarith [neg_abs_le t₀.val, abs_nonneg t₁.val]
      have b1 := (abs_le.1 a1).2
      rw [abs_le]; constructor <;> linarith
    obtain ⟨s1, s2, s3, s4⟩ := time_step (R := R) hh (by linarith) c1 c2 a1
    rw [Fl.add_val, Fl.min_val, Fl.sub_val]
    refine ⟨?_, s1⟩
    rw [abs_le]
    refine ⟨?_, min_le_left _ _⟩
    rcases le_total τ.val t₁.val with hle | hle
    · linarith [s3 hle]
    · have := s4 hle
      linarith
  -- one step
  set q := 1 + 2 * (h.val * L) with hq
  have q1 : 1 ≤ q := by rw [hq]; have := mul_nonneg hh.le hL; linarith
  have hexp : ∀ k ≤ N, q ^ k * (e₀ + k * c) ≤ Real.exp (2 * (h.val * L) * N) * (e₀ + N * c) := fun k hk =>
    bound_exp (by positivity) e00 c0 hk
  have hstep : ∀ k ≤ N, |((iterSeq Φ h t₀ t₁ x0 k).2 0).val - y (iterSeq Φ h t₀ t₁ x0 k).1.val| ≤ q ^ k * (e₀ + k * c) →
      ∃ z, ieStepG sqrt tol f jac (iterSeq Φ h t₀ t₁ x0 k).1 (col (iterSeq Φ h t₀ t₁ x0 k).2)
          (min h (t₁ - (iterSeq Φ h t₀ t₁ x0 k).1)) = some ⟨1, 1, [z]⟩ ∧
        |z.val - y (iterSeq Φ h t₀ t₁ x0 (k + 1)).1.val| ≤ q ^ (k + 1) * (e₀ + (k + 1 : ℕ) * c) := by
    intro k hk hxk
    obtain ⟨d1, d2⟩ := hsteps k hk
    have T0 := hin k (by omega)
    have T1 : ((iterSeq Φ h t₀ t₁ x0 k).1 + min h (t₁ - (iterSeq Φ h t₀ t₁ x0 k).1)).val ∈ Set.Icc a b := hin (k + 1) (by omega)
    have eT : (iterSeq Φ h t₀ t₁ x0 (k + 1)).1 = (iterSeq Φ h t₀ t₁ x0 k).1 + min h (t₁ - (iterSeq Φ h t₀ t₁ x0 k).1) := rfl
    rw [eT]
    set t := (iterSeq Φ h t₀ t₁ x0 k).1
    set x := (iterSeq Φ h t₀ t₁ x0 k).2
    set d := min h (t₁ - t)
    have hTt : ((t + d).val - t.val) ^ 2 ≤ (h.val + 4 * R.u * S) ^ 2 := by
      rw [sq_le_sq, abs_of_nonneg (by positivity : 0 ≤ h.val + 4 * R.u * S)]
      have := abs_add_le ((t + d).val - (t.val + d.val)) d.val
      rw [show (t + d).val - (t.val + d.val) + d.val = (t + d).val - t.val by ring] at this
      linarith
    have hloc : Q * ((t + d).val - t.val) ^ 2 + G * (4 * R.u * S) + 3 * tol.val ≤ c := by
      have := mul_le_mul_of_nonneg_left hTt hQ
      rw [hc]; linarith
    have B := hexp k hk
    have hm : ∀ w, 0 ≤ w → |d.val| * w ≤ h.val * w := fun w hw => mul_le_mul_of_nonneg_right d1 hw
    have hX1 := hX _ T1
    have hX0 := hX _ T0
    obtain ⟨z, zs, z1, -, -, z2⟩ := C129_step hsq H F hu hε hQ hL hM hG hρ hρ1 (t := t) (d := d) (x := x 0) (tol := tol) (X := X)
      (e := q ^ k * (e₀ + k * c)) (δ := 4 * R.u * S) T0 T1 d2 ((hm _ (by positivity)).trans hhL) ((hm _ hε).trans hhε) ((hm _ hM).trans hhM)
      ((hm _ hG).trans hhG) hX1 (by
        have := abs_sub_abs_le_abs_sub (x 0).val (y t.val)
        linarith) hxk (by linarith) htol (by linarith) (by
        have m1 := hm _ hε
        have m2 := hm (G + ε) (by positivity)
        have m3 := mul_le_mul_of_nonneg_left m2 u0
        linarith)
    refine ⟨z, by rw [col_one]; exact z1, z2.trans ?_⟩
    have m1 := hm _ hL
    set E := q ^ k * (e₀ + k * c) with hEd
    have E0 : 0 ≤ E := by positivity
    have l0 : 0 ≤ Q * ((t + d).val - t.val) ^ 2 + G * (4 * R.u * S) := by positivity
    have h1 : (1 + 2 * (|d.val| * L)) * (E + Q * ((t + d).val - t.val) ^ 2 + G * (4 * R.u * S)) ≤
        q * (E + Q * ((t + d).val - t.val) ^ 2 + G * (4 * R.u * S)) :=
      mul_le_mul_of_nonneg_right (by rw [hq]; linarith) (by linarith)
    have h2 : 3 * tol.val ≤ q * (3 * tol.val) := le_mul_of_one_le_left (by linarith) q1
    have h3 := mul_le_mul_of_nonneg_left (by linarith :
      E + Q * ((t + d).val - t.val) ^ 2 + G * (4 * R.u * S) + 3 * tol.val ≤ E + c) (by linarith : 0 ≤ q)
    have h4 := bound_step (e := e₀) q1 c0 k
    linarith
  have herr : ∀ k ≤ N, |((iterSeq Φ h t₀ t₁ x0 k).2 0).val - y (iterSeq Φ h t₀ t₁ x0 k).1.val| ≤ q ^ k * (e₀ + k * c) := by
    intro k
    induction k with
    | zero => intro _; simpa [iterSeq] using hx₀
    | succ k ih =>
      intro hk
      obtain ⟨z, z1, z2⟩ := hstep k (by omega) (ih (by omega))
      have := hΦ _ _ _ ⟨z, z1⟩
      rw [z1, col_one] at this
      have hz : z = (iterSeq Φ h t₀ t₁ x0 (k + 1)).2 0 := by
        have := congrArg Mat.data (Option.some.inj this)
        simpa [iterSeq] using this
      rw [← hz]; exact z2
  have hs := fixedSolve_iter (step := ieStepG sqrt tol f jac) (F := Φ) (h := h) ((Fl.le_iff _ _).2 ht) x0 (fun k hk => by
    rw [n1] at hk
    obtain ⟨z, z1, -⟩ := hstep k (by omega) (herr k (by omega))
    exact hΦ _ _ _ ⟨z, z1⟩)
  have hs' := fixedSolve_ops (step := fun t X d => some (col (Φ t (fun _ => X.data.headD 0) d))) (F := Φ) (h := h) (t₀ := t₀) (t₁ := t₁)
    (fun t x d => by
      have : (fun _ => (col x).data.headD 0) = x := by
        funext i; fin_cases i; rw [col_one]; rfl
      simp only [this]) ((Fl.le_iff _ _).2 ht) x0
  obtain ⟨ts, xs, r1, r2, r3, r4, -, r6, -⟩ := C91_times (n := 1) (step := fun t X d => some (col (Φ t (fun _ => X.data.headD 0) d)))
    (fun t x d => ⟨_, rfl⟩) hh ht x0 hN hNu
  rw [hs'] at r1
  rw [← hS] at r6
  rw [r1, col_one] at hs
  refine ⟨ts, xs, hs, r2, r3, r4, r6, ?_, n3⟩
  have e1 := (Prod.ext_iff.1 (Option.some.inj r1)).1
  have e2 := (Prod.ext_iff.1 (Option.some.inj r1)).2
  simp only at e1 e2
  intro k t Z hk1 hk2
  rw [← e1, List.getElem?_map] at hk1
  rw [← e2, List.getElem?_map] at hk2
  obtain ⟨i, hi, rfl⟩ := Option.map_eq_some_iff.mp hk1
  obtain ⟨i', hi', rfl⟩ := Option.map_eq_some_iff.mp hk2
  obtain rfl : i' = i := Option.some.inj (hi'.symm.trans hi)
  have hk : i' ≤ N := by
    have := List.mem_of_getElem? hi
    rw [List.mem_range, n1] at this
    omega
  exact ⟨_, col_one _, (herr i' hk).trans (hexp i' hk)⟩

/-! ### Decay -/

/-- `x' = -x` around `exp(-t)` -/
theorem decay_tube : Tube1 (fun _ z => -z) (fun _ _ => -1) (fun t => Real.exp (-t)) (-1 / 100) 2 1 1 0 3 2 := by
  have y2 : ∀ t ∈ Set.Icc (-1 / 100 : ℝ) 2, Real.exp (-t) ≤ 2 := fun t ht => by
    have h1 : Real.exp (-t) ≤ Real.exp (1 / 100) := Real.exp_le_exp.2 (by linarith [ht.1])
    have h2 : Real.exp (1 / 100 : ℝ) ≤ 1 / (1 - 1 / 100) := Real.exp_bound_div_one_sub_of_interval (by norm_num) (by norm_num)
    have : (1 / (1 - 1 / 100) : ℝ) ≤ 2 := by norm_num
    linarith
  refine ⟨?_, ?_, ?_, ?_, ?_, ?_⟩
  · intro t _
    simpa [Function.comp_def] using (Real.hasDerivAt_exp (-t)).comp t (hasDerivAt_neg t)
  · intro t ht u hu
    have := Convex.norm_image_sub_le_of_norm_hasDerivWithin_le (f := fun t : ℝ => -Real.exp (-t)) (f' := fun t => Real.exp (-t))
      (s := Set.Icc (-1 / 100 : ℝ) 2) (C := 2) (x := u) (y := t)
      (fun v _ => by
        have : HasDerivAt (fun t : ℝ => -Real.exp (-t)) (Real.exp (-v)) v := by
          have h1 : HasDerivAt (fun t : ℝ => Real.exp (-t)) (-Real.exp (-v)) v := by
            simpa [Function.comp_def] using (Real.hasDerivAt_exp (-v)).comp v (hasDerivAt_neg v)
          have h2 := h1.neg
          rw [neg_neg] at h2
          exact h2
        exact this.hasDerivWithinAt)
      (fun v hv => by rw [Real.norm_eq_abs, abs_of_pos (Real.exp_pos _)]; exact y2 v hv) (convex_Icc _ _) hu ht
    simpa using this
  · intro t _ z _
    exact hasDerivAt_neg z
  · intro t _ z _
    simp
  · intro t _ z w _ _
    simp
  · intro t ht z hz
    have := y2 t ht
    have h1 := abs_sub_abs_le_abs_sub z (Real.exp (-t))
    rw [abs_of_pos (Real.exp_pos _)] at h1
    rw [abs_neg]
    linarith

/-- `x' = -x`, `x(0) = 1` on `[0, 1]` with the step size `2⁻¹⁰`, with any rounding with `u ≤ 2⁻⁵³` and the tolerance `10⁻⁸`, rounded: every
state is `exp(-t)` up to `1/50` -/
example {sqrt : Fl R → Fl R} (hsq : FlSqrt sqrt) (hu : R.u ≤ 1 / 2 ^ 53) :
    ∃ ts xs, fixedSolve (ieStepG sqrt ⟨R.rnd (1 / 10 ^ 8)⟩ (fun _ z => some ⟨1, 1, z.data.map fun v => -v⟩) fun _ _ => some ⟨1, 1, [-1]⟩)
        ⟨1 / 1024⟩ 0 1 ⟨1, 1, [1]⟩ = some (ts, xs) ∧ ts.head? = some 0 ∧
      (∀ t, ts.getLast? = some t → |t.val - 1| ≤ 1 / 10 ^ 11) ∧
      ∀ (k : ℕ) t Z, ts[k]? = some t → xs[k]? = some Z → ∃ z, Z = ⟨1, 1, [z]⟩ ∧ |z.val - Real.exp (-t.val)| ≤ 1 / 50 := by
  have u0 := R.u_nonneg
  have hu' : R.u ≤ 1 / 10 ^ 15 := hu.trans (by norm_num)
  obtain ⟨N, hN⟩ : ∃ N : ℕ, N = ⌈(((1 : Fl R) - 0) / ⟨1 / 1024⟩).val⌉.toNat := ⟨_, rfl⟩
  obtain ⟨-, -, n3⟩ := steps_fl (R := R) (h := ⟨1 / 1024⟩) (t₀ := 0) (t₁ := 1) (by norm_num) (by rw [Fl.zero_val, Fl.one_val]; norm_num)
    (by linarith) hN
  rw [Fl.zero_val, Fl.one_val] at n3
  have N1 : (N : ℝ) ≤ 1026 := by
    have : (1 + R.u) ^ 2 ≤ 1.0001 := by nlinarith
    change (N : ℝ) * (1 / 1024) ≤ (1 + R.u) ^ 2 * (1 - 0) + 1 / 1024 at n3
    linarith
  have N0 : (0 : ℝ) ≤ N := Nat.cast_nonneg N
  have t1 := abs_le.1 (R.err (1 / 10 ^ 8))
  rw [abs_of_pos (show (0 : ℝ) < 1 / 10 ^ 8 by norm_num)] at t1
  have T1 : R.rnd (1 / 10 ^ 8) ≤ 1.001 / 10 ^ 8 := by linarith [t1.2]
  have T2 : 0.999 / 10 ^ 8 ≤ R.rnd (1 / 10 ^ 8) := by linarith [t1.1]
  set c := 2 * ((1 / 1024 : ℝ) + 4 * R.u * 1) ^ 2 + 3 * (4 * R.u * 1) + 3 * R.rnd (1 / 10 ^ 8) with hc
  have c1 : c ≤ 2 / 10 ^ 6 := by
    have : ((1 / 1024 : ℝ) + 4 * R.u * 1) ^ 2 ≤ (1 / 1024 + 1 / 10 ^ 12) ^ 2 := pow_le_pow_left₀ (by positivity) (by linarith) 2
    have k : ((1 / 1024 : ℝ) + 1 / 10 ^ 12) ^ 2 ≤ 0.954 / 10 ^ 6 := by norm_num
    rw [hc]; linarith
  have c0 : 0 ≤ c := by rw [hc]; nlinarith [sq_nonneg ((1 / 1024 : ℝ) + 4 * R.u * 1)]
  have B : Real.exp (2 * (1 / 1024 * 1) * N) * (0 + N * c) ≤ 1 / 50 := by
    have h1 : Real.exp (2 * (1 / 1024 * 1) * N) ≤ 9 := by
      have : Real.exp (2 * (1 / 1024 * 1) * N) ≤ Real.exp (1 + 1.01) := Real.exp_le_exp.2 (by linarith)
      refine this.trans ?_
      have e1 := Real.exp_one_lt_d9
      have e2 : Real.exp 0.01 ≤ 1 / (1 - 0.01) := Real.exp_bound_div_one_sub_of_interval (by norm_num) (by norm_num)
      rw [show (1 + 1.01 : ℝ) = 1 + (1 + 0.01) by norm_num, Real.exp_add, Real.exp_add]
      have e3 := Real.exp_pos 1
      have e4 := Real.exp_pos (0.01 : ℝ)
      have e5 : Real.exp (0.01 : ℝ) ≤ 1.02 := e2.trans (by norm_num)
      have e6 : Real.exp 1 ≤ 2.72 := by linarith
      have := mul_le_mul e6 (mul_le_mul e6 e5 e4.le (by norm_num)) (by positivity) (by norm_num)
      norm_num at this ⊢
      linarith
    have h2 : 0 + N * c ≤ 1026 * (2 / 10 ^ 6) := by
      rw [zero_add]
      exact mul_le_mul N1 c1 c0 (by norm_num)
    refine (mul_le_mul h1 h2 (by positivity) (by norm_num)).trans (by norm_num)
  obtain ⟨ts, xs, r1, -, -, r2, r3, r4, -⟩ := C129_solve (R := R) hsq decay_tube (ε := 0) (f := fun _ z => some ⟨1, 1, z.data.map fun v => -v⟩)
    (jac := fun _ _ => some ⟨1, 1, [-1]⟩) (gf := fun _ z => -z) (Jf := fun _ _ => -1)
    ⟨fun _ _ => rfl, fun _ _ => rfl, fun t z _ _ => by simp [Fl.neg_val, Fl.one_val]⟩ (by linarith) le_rfl (by norm_num) (by norm_num) le_rfl
    (by norm_num) one_pos le_rfl (h := ⟨1 / 1024⟩) (t₀ := 0) (t₁ := 1) (x₀ := 1) (tol := ⟨R.rnd (1 / 10 ^ 8)⟩) (X := 3) (e₀ := 0) (S := 1) (c := c)
    hN (by
      have := mul_le_mul (by linarith : (N : ℝ) + 1 ≤ 1027) hu' u0 (by norm_num)
      linarith) (by rw [Fl.zero_val, Fl.one_val]; norm_num) (by norm_num) (by rw [Fl.zero_val, Fl.one_val]; norm_num) (by
      rw [Fl.zero_val]
      have := mul_le_mul (by linarith : (N : ℝ) + 1 ≤ 1027) hu' u0 (by norm_num)
      linarith) (by rw [Fl.one_val]; linarith) (by
      change 16 * (R.u * 1) ≤ 1 / 1024
      linarith) (by norm_num) (by norm_num) (by norm_num) (by norm_num) (fun t ht => by
      have h1 : Real.exp (-t) ≤ Real.exp (1 / 100) := Real.exp_le_exp.2 (by linarith [ht.1])
      have h2 : Real.exp (1 / 100 : ℝ) ≤ 1 / (1 - 1 / 100) := Real.exp_bound_div_one_sub_of_interval (by norm_num) (by norm_num)
      have : (1 / (1 - 1 / 100) : ℝ) ≤ 2 := by norm_num
      rw [abs_of_pos (Real.exp_pos _)]
      linarith) (by simp [Fl.zero_val, Fl.one_val]) rfl (by
      change Real.exp (2 * (1 / 1024 * 1) * N) * (0 + N * c) + c ≤ 1 / 8
      linarith) (by
      change 1 / 10 ^ 9 ≤ R.rnd (1 / 10 ^ 8)
      linarith) (by
      change 5 * (4 * (1 / 1024 * 0 + 4 * R.u * (3 + 1 / 1024 * (3 + 0))) + R.u * 3) ≤ R.rnd (1 / 10 ^ 8)
      linarith)
  refine ⟨ts, xs, r1, r2, fun t h1 => (r3 t h1).trans ?_, fun k t Z h1 h2 => ?_⟩
  · have := mul_le_mul (by linarith : (N : ℝ) + 1 ≤ 1027) hu' u0 (by norm_num)
    linarith
  · obtain ⟨z, z1, z2⟩ := r4 k t Z h1 h2
    exact ⟨z, z1, z2.trans B⟩

/-- **C129 is violated** in `f32` (`/repo/src/analysis/differential_equation/ordinary/implicit_euler.rs:106-112`): the tolerance `10⁻⁸` of the
root finder is below the spacing of the numbers. For `x' = -x`, `x(0) = 1` and the step size `1/2` Newton's method alternates between
the two neighbours of the root `2/3`, `find_root` returns `Err`, and `solve` panics in the first step. (Of the square root it is only used
that it is at least `2⁻²⁴` from `2⁻⁴⁸` on.) -/
theorem C129_f32_violated {sqrt : Fl f32 → Fl f32} (hs : ∀ v : Fl f32, 1 / 2 ^ 48 ≤ v.val → 1 / 2 ^ 24 ≤ (sqrt v).val) (tol : Fl f32)
    (ht : tol.val ≤ 1 / 2 ^ 24) :
    fixedSolve (ieStepG sqrt tol (fun _ z => some (z.mulScalar (-1))) fun _ _ => some ⟨1, 1, [-1]⟩) ⟨1 / 2⟩ 0 1 ⟨1, 1, [1]⟩ = none := by
  have hg : ∀ d : Mat (Fl f32), Mat.norm2 sqrt d = (Mat.norm2 id d).map sqrt := by
    intro d
    unfold Mat.norm2
    cases forRange 0 (d.m * d.n) (fun sum i => do
      let b ← d.vget i
      some (sum + b * b)) (0 : Fl f32) <;> rfl
  have hn : ∀ v : Fl f32, 1 / 2 ^ 48 ≤ v.val → ¬ sqrt v < tol := fun v hv => not_lt.2 ((Fl.le_iff _ _).2 (ht.trans (hs v hv)))
  set ev := ieEvalG (fun _ z => some (z.mulScalar (-1)) : Rhs (Fl f32)) ⟨1 / 2⟩ ⟨1, 1, [1]⟩ ⟨1 / 2⟩ with hev
  set jc := ieJacG (fun _ _ => some ⟨1, 1, [-1]⟩ : Rhs (Fl f32)) ⟨1 / 2⟩ ⟨1 / 2⟩ with hjc
  have key : ∀ x xc d : Mat (Fl f32), ∀ w : Fl f32, newtonStep ev jc x = some xc → x.sub xc = some d → Mat.norm2 id d = some w →
      1 / 2 ^ 48 ≤ w.val → ∀ k, findRoot sqrt tol ev jc (k + 1) x = findRoot sqrt tol ev jc k xc := by
    intro x xc d w h1 h2 h3 h4 k
    rw [findRoot, h1, Option.bind_eq_bind, Option.bind_some, h2]
    simp only [Option.bind_eq_bind, Option.bind_some, hg, h3, Option.map_some, if_neg (hn w h4)]
  have s0 := key ⟨1, 1, [1]⟩ ⟨1, 1, [⟨11184810 / 2 ^ 24⟩]⟩ ⟨1, 1, [⟨5592406 / 2 ^ 24⟩]⟩ ((⟨5592406 / 2 ^ 24⟩ : Fl f32) * ⟨5592406 / 2 ^ 24⟩)
    (by decide +kernel) (by decide +kernel) (by decide +kernel) (by decide +kernel)
  have s1 := key ⟨1, 1, [⟨11184810 / 2 ^ 24⟩]⟩ ⟨1, 1, [⟨11184811 / 2 ^ 24⟩]⟩ ⟨1, 1, [⟨-1 / 2 ^ 24⟩]⟩ ⟨1 / 2 ^ 48⟩
    (by decide +kernel) (by decide +kernel) (by decide +kernel) (by decide +kernel)
  have s2 := key ⟨1, 1, [⟨11184811 / 2 ^ 24⟩]⟩ ⟨1, 1, [⟨11184810 / 2 ^ 24⟩]⟩ ⟨1, 1, [⟨1 / 2 ^ 24⟩]⟩ ⟨1 / 2 ^ 48⟩
    (by decide +kernel) (by decide +kernel) (by decide +kernel) (by decide +kernel)
  have both : ∀ k, findRoot sqrt tol ev jc k ⟨1, 1, [⟨11184810 / 2 ^ 24⟩]⟩ = some none ∧
      findRoot sqrt tol ev jc k ⟨1, 1, [⟨11184811 / 2 ^ 24⟩]⟩ = some none := by
    intro k
    induction k with
    | zero => exact ⟨rfl, rfl⟩
    | succ k ih => exact ⟨(s1 k).trans ih.2, (s2 k).trans ih.1⟩
  have hstep : ieStepG sqrt tol (fun _ z => some (z.mulScalar (-1))) (fun _ _ => some ⟨1, 1, [-1]⟩) 0 ⟨1, 1, [1]⟩ ⟨1 / 2⟩ = none := by
    have e : (0 : Fl f32) + ⟨1 / 2⟩ = ⟨1 / 2⟩ := by decide +kernel
    simp only [ieStepG, e]
    rw [← hev, ← hjc, show (100 : ℕ) = 99 + 1 from rfl, s0 99, (both 99).1]
    rfl
  have e1 : (HasCeil.ceilZ (((1 : Fl f32) - 0) / ⟨1 / 2⟩) + 1).toNat = 3 := by decide +kernel
  have e2 : min (⟨1 / 2⟩ : Fl f32) (1 - 0) = ⟨1 / 2⟩ := by decide +kernel
  unfold fixedSolve
  rw [if_neg (by decide +kernel), e1]
  simp only
  rw [forRange_step (by norm_num)]
  simp only [fixedIter, e2, hstep, Option.bind_eq_bind, Option.bind_none]

end Ode
end Verif
