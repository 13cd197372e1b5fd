import Verif.CgModel
import Verif.FloatNewton
import Verif.FloatOdeProps

/-!
# Property C130: the conjugate gradient method with rounding

The method never computes `b - A x`; it updates a vector `r` that equals `b - A x` in exact arithmetic.  How far the two drift apart
with rounding decides how good the result is when the method stops because `r` is small.
-/

set_option linter.unusedSectionVars false

namespace Verif
namespace Opt
open Finset Rounding

section
variable {K : Type} [Field K] [LinearOrder K] [IsStrictOrderedRing K] {R : Rounding K} {n : ℕ}

theorem col_sub_ops (x y : Fin n → Fl R) : (col x).sub (col y) = some (col (fun i => x i - y i)) := by
  obtain ⟨u, hu, hi⟩ := Mat.sub_is (col_is x) (col_is y)
  rw [hu]
  exact congrArg some (hi.colRepr_of (fun i => by simp [extV_apply]))

/-- one iteration: whatever `α` and `β` are -/
theorem cgStepG_some {J : Mat (Fl R)} {jac : Mat (Fl R) → Option (Mat (Fl R))} {A : Matrix (Fin n) (Fin n) (Fl R)}
    {x r d : Fin n → Fl R} (hJ : jac (col x) = some J) (hA : Repr J A) {s : Mat (Fl R) × Mat (Fl R) × Mat (Fl R)}
    (h : cgStepG jac (col x) (col r) (col d) = some s) :
    ∃ (α β : Fl R) (w : Fin n → Fl R),
      (∀ i, |(w i).val - ∑ k, (A i k).val * (d k).val| ≤ R.gam n * ∑ k, |(A i k).val * (d k).val|) ∧
      s = (col fun i => x i + d i * α, col fun i => r i - w i * α, col fun i => (r i - w i * α) + d i * β) := by
  obtain ⟨W, w, hw, hc, he⟩ := C88_mulVec hA (show ColRepr (col d) d from rfl)
  obtain rfl : W = col w := hc
  unfold cgStepG at h
  simp only [hJ, hw, Option.bind_eq_bind, Option.bind_some, Option.bind_eq_some_iff, Ode.col_mulScalar_ops, Ode.col_add_ops, col_sub_ops] at h
  obtain ⟨_, -, _, -, rr, -, _, -, td, -, α, -, rr', -, β, -, h⟩ := h
  refine ⟨α, β, w, he, ?_⟩
  simpa using h.symm

/-- the drift in one iteration -/
theorem drift_step (hu : R.u ≤ 1 / 8) {A : Matrix (Fin n) (Fin n) (Fl R)} {x r d w : Fin n → Fl R} {α : Fl R} {a X ρ : K}
    (ha : ∀ i, ∑ k, |(A i k).val| ≤ a)
    (hw : ∀ i, |(w i).val - ∑ k, (A i k).val * (d k).val| ≤ R.gam n * ∑ k, |(A i k).val * (d k).val|)
    (hx : ∀ i, |(x i).val| ≤ X) (hx' : ∀ i, |(x i + d i * α).val| ≤ X) (hr' : ∀ i, |(r i - w i * α).val| ≤ ρ) (b : K) (i : Fin n) :
    |(b - ∑ k, (A i k).val * (x k + d k * α).val - (r i - w i * α).val) - (b - ∑ k, (A i k).val * (x k).val - (r i).val)| ≤
      6 * R.gam (n + 1) * a * X + R.u * ρ := by
  have u0 := R.u_nonneg
  have hX : 0 ≤ X := (abs_nonneg _).trans (hx i)
  have ha0 : 0 ≤ a := (sum_nonneg fun k _ => abs_nonneg _).trans (ha i)
  have g0 := R.gam_nonneg n
  -- the step
  have hp : ∀ k, |(x k + d k * α).val - (x k).val - (d k).val * α.val| ≤ 7 / 2 * R.u * X ∧ |(d k).val * α.val| ≤ 5 / 2 * X := by
    intro k
    have e1 := R.err' ((x k).val + R.rnd ((d k).val * α.val))
    have e2 := R.err' ((d k).val * α.val)
    have hxk := hx k
    have hxk' := hx' k
    rw [Fl.add_val, Fl.mul_val] at hxk' ⊢
    set q := R.rnd ((d k).val * α.val) with hq
    set s := R.rnd ((x k).val + q) with hs
    have f1 : |s - ((x k).val + q)| ≤ R.u * X := e1.trans (mul_le_mul_of_nonneg_left hxk' u0)
    have f2 : |q| ≤ 17 / 8 * X := by
      have : R.u * X ≤ 1 / 8 * X := mul_le_mul_of_nonneg_right hu hX
      rw [abs_le] at f1 hxk hxk' ⊢
      constructor <;> linarith [f1.1, f1.2, hxk.1, hxk.2, hxk'.1, hxk'.2]
    have f3 : |q - (d k).val * α.val| ≤ R.u * (17 / 8 * X) := e2.trans (mul_le_mul_of_nonneg_left f2 u0)
    have f4 : R.u * X ≤ 1 / 8 * X := mul_le_mul_of_nonneg_right hu hX
    have f5 : 0 ≤ R.u * X := mul_nonneg u0 hX
    constructor
    · rw [abs_le] at f1 f3 ⊢
      constructor <;> linarith [f1.1, f1.2, f3.1, f3.2]
    · rw [abs_le] at f2 f3 ⊢
      constructor <;> linarith [f2.1, f2.2, f3.1, f3.2]
  -- the product
  have hAp : ∑ k, |(A i k).val * (d k).val| * |α.val| ≤ 5 / 2 * (a * X) := by
    calc ∑ k, |(A i k).val * (d k).val| * |α.val| ≤ ∑ k, |(A i k).val| * (5 / 2 * X) := by
          refine sum_le_sum fun k _ => ?_
          rw [abs_mul, mul_assoc, ← abs_mul]
          exact mul_le_mul_of_nonneg_left (hp k).2 (abs_nonneg _)
      _ = (∑ k, |(A i k).val|) * (5 / 2 * X) := (sum_mul _ _ _).symm
      _ ≤ a * (5 / 2 * X) := mul_le_mul_of_nonneg_right (ha i) (by linarith)
      _ = _ := by ring
  have haX : 0 ≤ a * X := mul_nonneg ha0 hX
  set S := ∑ k, (A i k).val * (d k).val with hS
  have h1 : |(w i).val * α.val - S * α.val| ≤ R.gam n * (5 / 2 * (a * X)) := by
    rw [← sub_mul, abs_mul]
    calc _ ≤ (R.gam n * ∑ k, |(A i k).val * (d k).val|) * |α.val| := mul_le_mul_of_nonneg_right (hw i) (abs_nonneg _)
      _ = R.gam n * ∑ k, |(A i k).val * (d k).val| * |α.val| := by rw [mul_assoc, sum_mul]
      _ ≤ _ := mul_le_mul_of_nonneg_left hAp g0
  have h2 : |S * α.val| ≤ 5 / 2 * (a * X) := by
    rw [abs_mul, hS]
    refine le_trans (mul_le_mul_of_nonneg_right (abs_sum_le_sum_abs _ _) (abs_nonneg _)) ?_
    rw [sum_mul]
    exact hAp
  have h3 : |(w i).val * α.val| ≤ (1 + R.gam n) * (5 / 2 * (a * X)) := by
    rw [abs_le] at h1 h2 ⊢
    constructor <;> linarith [h1.1, h1.2, h2.1, h2.2]
  have h4 := (R.err ((w i).val * α.val)).trans (mul_le_mul_of_nonneg_left h3 u0)
  have h5 := R.err' ((r i).val - R.rnd ((w i).val * α.val))
  have hri := hr' i
  rw [Fl.sub_val, Fl.mul_val] at hri ⊢
  have h6 := h5.trans (mul_le_mul_of_nonneg_left hri u0)
  -- the sum
  have h7 : |∑ k, (A i k).val * (x k + d k * α).val - ∑ k, (A i k).val * (x k).val - S * α.val| ≤ 7 / 2 * R.u * (a * X) := by
    have e : ∑ k, (A i k).val * (x k + d k * α).val - ∑ k, (A i k).val * (x k).val - S * α.val =
        ∑ k, (A i k).val * ((x k + d k * α).val - (x k).val - (d k).val * α.val) := by
      rw [hS, sum_mul, ← sum_sub_distrib, ← sum_sub_distrib]
      exact sum_congr rfl fun k _ => by ring
    rw [e]
    calc _ ≤ ∑ k, |(A i k).val| * (7 / 2 * R.u * X) := by
          refine (abs_sum_le_sum_abs _ _).trans (sum_le_sum fun k _ => ?_)
          rw [abs_mul]
          exact mul_le_mul_of_nonneg_left (hp k).1 (abs_nonneg _)
      _ = (∑ k, |(A i k).val|) * (7 / 2 * R.u * X) := (sum_mul _ _ _).symm
      _ ≤ a * (7 / 2 * R.u * X) := mul_le_mul_of_nonneg_right (ha i) (by positivity)
      _ = _ := by ring
  have g1 : R.gam (n + 1) = R.gam n + R.u * (1 + R.gam n) := by rw [Rounding.gam_succ]; ring
  have g2 : R.u * (a * X) ≤ R.gam (n + 1) * (a * X) := by
    refine mul_le_mul_of_nonneg_right ?_ haX
    rw [g1]
    have := mul_nonneg u0 g0
    linarith
  have g3 : R.gam (n + 1) * (a * X) = R.gam n * (a * X) + R.u * ((1 + R.gam n) * (a * X)) := by rw [g1]; ring
  have g4 : R.u * ((1 + R.gam n) * (5 / 2 * (a * X))) = 5 / 2 * (R.u * ((1 + R.gam n) * (a * X))) := by ring
  rw [g4] at h4
  have g5 : 6 * R.gam (n + 1) * a * X = 6 * (R.gam (n + 1) * (a * X)) := by ring
  rw [g5]
  have g6 : 7 / 2 * R.u * (a * X) = 7 / 2 * (R.u * (a * X)) := by ring
  rw [g6] at h7
  have g7 : R.gam n * (5 / 2 * (a * X)) = 5 / 2 * (R.gam n * (a * X)) := by ring
  rw [g7] at h1
  rw [abs_le] at h1 h4 h6 h7 ⊢
  constructor <;> linarith [h1.1, h1.2, h4.1, h4.2, h6.1, h6.2, h7.1, h7.2]

/-- the drift of the loop -/
theorem cgLoopG_drift (hu : R.u ≤ 1 / 8) {jac : Mat (Fl R) → Option (Mat (Fl R))} {A : Matrix (Fin n) (Fin n) (Fl R)}
    (hJ : ∀ x : Fin n → Fl R, ∃ J, jac (col x) = some J ∧ Repr J A) (b : Fin n → K) {a : K} (ha : ∀ i, ∑ k, |(A i k).val| ≤ a)
    (sqrt : Fl R → Fl R) (epsilon : Fl R) (iters : ℕ) (x₀ r₀ d₀ : Fin n → Fl R) {y : Mat (Fl R)}
    (h : cgLoopG sqrt epsilon jac iters (col x₀) (col r₀) (col d₀) = some y) :
    ∃ (j : ℕ) (x r : ℕ → Fin n → Fl R), j ≤ iters ∧ x 0 = x₀ ∧ r 0 = r₀ ∧ y = col (x j) ∧
      (j = iters ∨ ∃ rr, (col (r j)).dotp (col (r j)) = some rr ∧ sqrt rr < epsilon) ∧
      ∀ X ρ, (∀ l ≤ j, ∀ i, |(x l i).val| ≤ X) → (∀ l ≤ j, ∀ i, |(r l i).val| ≤ ρ) → ∀ i,
        |(b i - ∑ k, (A i k).val * (x j k).val - (r j i).val) - (b i - ∑ k, (A i k).val * (x₀ k).val - (r₀ i).val)| ≤
          j * (6 * R.gam (n + 1) * a * X + R.u * ρ) := by
  induction iters generalizing x₀ r₀ d₀ with
  | zero =>
    refine ⟨0, fun _ => x₀, fun _ => r₀, le_rfl, rfl, rfl, ?_, Or.inl rfl, fun X ρ _ _ i => by simp⟩
    simpa [cgLoopG] using h.symm
  | succ m ih =>
    obtain ⟨J, hj, hA⟩ := hJ x₀
    rw [cgLoopG] at h
    simp only [Option.bind_eq_bind, Option.bind_eq_some_iff] at h
    obtain ⟨s, hs, rr, hrr, h⟩ := h
    obtain ⟨α, β, w, hw, rfl⟩ := cgStepG_some hj hA hs
    simp only at hrr h
    split_ifs at h with hstop
    · refine ⟨1, fun l => if l = 0 then x₀ else fun i => x₀ i + d₀ i * α, fun l => if l = 0 then r₀ else fun i => r₀ i - w i * α,
        by omega, rfl, rfl, ?_, Or.inr ⟨rr, hrr, hstop⟩, ?_⟩
      · simpa using h.symm
      · intro X ρ hX hρ i
        have := drift_step hu ha hw (hX 0 (by omega)) (hX 1 le_rfl) (hρ 1 le_rfl) (b i) i
        simpa using this
    · obtain ⟨j, x, r, q1, q2, q3, q4, q5, q6⟩ := ih _ _ _ h
      refine ⟨j + 1, fun l => if l = 0 then x₀ else x (l - 1), fun l => if l = 0 then r₀ else r (l - 1), by omega, rfl, rfl, ?_, ?_, ?_⟩
      · simpa using q4
      · rcases q5 with q5 | q5
        · exact Or.inl (by omega)
        · exact Or.inr (by simpa using q5)
      · intro X ρ hX hρ i
        have f1 := q6 X ρ (fun l hl i => by simpa using hX (l + 1) (by omega) i) (fun l hl i => by simpa using hρ (l + 1) (by omega) i) i
        have f2 := drift_step hu ha hw (fun i => by simpa using hX 0 (by omega) i)
          (fun i => by simpa [q2] using hX 1 (by omega) i) (fun i => by simpa [q3] using hρ 1 (by omega) i) (b i) i
        simp only [Nat.add_eq_zero_iff, one_ne_zero, and_false, if_false, Nat.add_sub_cancel]
        push_cast
        rw [add_mul, one_mul]
        rw [abs_le] at f1 f2 ⊢
        constructor <;> linarith [f1.1, f1.2, f2.1, f2.2]

/-- **C130** the drift of the conjugate gradient method with rounding: when `minimize` returns a vector `x` for the linear system
`A x = b`, then the vector `r` that the method believes to be the residual differs from `b - A x` by at most the error of the first
residual plus `6 ((1 + u)^(n + 1) - 1) ‖A‖ X + u ρ` per iteration, where `X` and `ρ` bound the iterates and the computed residuals.
The rounding errors in `α` and `β` do not matter.  The method stopped since `r` was small or the iterations were used up. -/
theorem C130_drift_partial (hu : R.u ≤ 1 / 8) {eval jac : Mat (Fl R) → Option (Mat (Fl R))} {A : Matrix (Fin n) (Fin n) (Fl R)}
    (hJ : ∀ x : Fin n → Fl R, ∃ J, jac (col x) = some J ∧ Repr J A) {b : Fin n → K} {x₀ r₀ : Fin n → Fl R} {a ε₀ : K}
    (hf : eval (col x₀) = some (col r₀)) (hr : ∀ i, |b i - ∑ k, (A i k).val * (x₀ k).val - (r₀ i).val| ≤ ε₀)
    (ha : ∀ i, ∑ k, |(A i k).val| ≤ a) (sqrt : Fl R → Fl R) (epsilon : Fl R) (iters : ℕ) {y : Mat (Fl R)}
    (h : cgMinimizeG sqrt epsilon eval jac iters (col x₀) = some y) :
    ∃ (j : ℕ) (x r : ℕ → Fin n → Fl R), j ≤ iters ∧ x 0 = x₀ ∧ r 0 = r₀ ∧ y = col (x j) ∧
      (j = iters ∨ ∃ rr, (col (r j)).dotp (col (r j)) = some rr ∧ sqrt rr < epsilon) ∧
      ∀ X ρ, (∀ l ≤ j, ∀ i, |(x l i).val| ≤ X) → (∀ l ≤ j, ∀ i, |(r l i).val| ≤ ρ) → ∀ i,
        |b i - ∑ k, (A i k).val * (x j k).val - (r j i).val| ≤
          ε₀ + j * (6 * ((1 + R.u) ^ (n + 1) - 1) * a * X + R.u * ρ) := by
  simp only [cgMinimizeG, hf, Option.bind_eq_bind, Option.bind_some] at h
  obtain ⟨j, x, r, q1, q2, q3, q4, q5, q6⟩ := cgLoopG_drift hu hJ b ha sqrt epsilon iters x₀ r₀ r₀ h
  refine ⟨j, x, r, q1, q2, q3, q4, q5, fun X ρ hX hρ i => ?_⟩
  have f1 := q6 X ρ hX hρ i
  have f2 := hr i
  rw [Rounding.gam] at f1
  rw [abs_le] at f1 f2 ⊢
  constructor <;> linarith [f1.1, f1.2, f2.1, f2.2]

/-- a computed square sum below the tolerance -/
theorem stop_small (hn : 0 < n) (hu : R.u ≤ 1 / 8) (hg : R.gam n ≤ 1 / 2) {sqrt : Fl R → Fl R} (hs : FlSqrt sqrt) {epsilon rr : Fl R}
    {r : Fin n → Fl R} (h : (col r).dotp (col r) = some rr) (hlt : sqrt rr < epsilon) (i : Fin n) : |(r i).val| ≤ 2 * epsilon.val := by
  obtain ⟨v, hv, he⟩ := C88_dotp (show ColRepr (col r) r from rfl) (show ColRepr (col r) r from rfl) hn
  obtain rfl : rr = v := Option.some.inj (h.symm.trans hv)
  have e : ∑ i, |(r i).val * (r i).val| = ∑ i, (r i).val * (r i).val := sum_congr rfl fun i _ => abs_of_nonneg (mul_self_nonneg _)
  set S := ∑ i, (r i).val * (r i).val with hS
  have hS0 : 0 ≤ S := sum_nonneg fun i _ => mul_self_nonneg _
  have hi : (r i).val * (r i).val ≤ S := single_le_sum (f := fun i => (r i).val * (r i).val) (fun i _ => mul_self_nonneg _) (mem_univ i)
  rw [e] at he
  have h1 : |rr.val - S| ≤ 1 / 2 * S := he.trans (mul_le_mul_of_nonneg_right hg hS0)
  rw [abs_le] at h1
  obtain ⟨q, q0, qq, hq⟩ := hs rr (by linarith [h1.1])
  have h2 : (sqrt rr).val < epsilon.val := by
    rw [← not_le]
    intro hc
    exact absurd hlt (not_lt.mpr ((Fl.le_iff _ _).mpr hc))
  rw [hq] at h2
  have h3 := R.err q
  rw [abs_of_nonneg q0, abs_le] at h3
  have h4 : R.u * q ≤ 1 / 8 * q := mul_le_mul_of_nonneg_right hu q0
  have h5 : q ≤ 8 / 7 * epsilon.val := by linarith [h3.1]
  have h6 : 0 ≤ epsilon.val := by linarith
  refine abs_le_of_sq_le_sq ?_ (by linarith)
  have h7 : q * q ≤ 8 / 7 * epsilon.val * (8 / 7 * epsilon.val) := mul_self_le_mul_self q0 h5
  have h8 := mul_self_nonneg epsilon.val
  nlinarith [h1.1]

/-- **C130** accuracy of the conjugate gradient method with rounding: when `minimize` stops before the last iteration, the true
residual of the result is at most twice the tolerance plus the drift; with `‖v‖ ≤ β ‖A v‖` the result differs from the solution `z`
by at most `β` times that.  Missing: bounds for the iterates and the number of iterations. -/
theorem C130_accuracy_partial (hn : 0 < n) (hu : R.u ≤ 1 / 8) (hg : (1 + R.u) ^ n - 1 ≤ 1 / 2) {sqrt : Fl R → Fl R} (hs : FlSqrt sqrt)
    {eval jac : Mat (Fl R) → Option (Mat (Fl R))} {A : Matrix (Fin n) (Fin n) (Fl R)}
    (hJ : ∀ x : Fin n → Fl R, ∃ J, jac (col x) = some J ∧ Repr J A) {b : Fin n → K} {x₀ r₀ : Fin n → Fl R} {a ε₀ : K}
    (hf : eval (col x₀) = some (col r₀)) (hr : ∀ i, |b i - ∑ k, (A i k).val * (x₀ k).val - (r₀ i).val| ≤ ε₀)
    (ha : ∀ i, ∑ k, |(A i k).val| ≤ a) (epsilon : Fl R) (iters : ℕ) {y : Mat (Fl R)}
    (h : cgMinimizeG sqrt epsilon eval jac iters (col x₀) = some y) {z : Fin n → K} (hz : ∀ i, ∑ k, (A i k).val * z k = b i) {β : K}
    (hβ : ∀ (v : Fin n → K) (t : K), (∀ i, |∑ k, (A i k).val * v k| ≤ t) → ∀ i, |v i| ≤ β * t) :
    ∃ (j : ℕ) (x r : ℕ → Fin n → Fl R), j ≤ iters ∧ x 0 = x₀ ∧ r 0 = r₀ ∧ y = col (x j) ∧
      (j = iters ∨ ∀ X ρ, (∀ l ≤ j, ∀ i, |(x l i).val| ≤ X) → (∀ l ≤ j, ∀ i, |(r l i).val| ≤ ρ) →
        (∀ i, |b i - ∑ k, (A i k).val * (x j k).val| ≤
          2 * epsilon.val + ε₀ + j * (6 * ((1 + R.u) ^ (n + 1) - 1) * a * X + R.u * ρ)) ∧
        ∀ i, |(x j i).val - z i| ≤ β * (2 * epsilon.val + ε₀ + j * (6 * ((1 + R.u) ^ (n + 1) - 1) * a * X + R.u * ρ))) := by
  obtain ⟨j, x, r, q1, q2, q3, q4, q5, q6⟩ := C130_drift_partial hu hJ hf hr ha sqrt epsilon iters h
  refine ⟨j, x, r, q1, q2, q3, q4, ?_⟩
  rcases q5 with q5 | ⟨rr, hrr, hlt⟩
  · exact Or.inl q5
  right
  intro X ρ hX hρ
  have key : ∀ i, |b i - ∑ k, (A i k).val * (x j k).val| ≤
      2 * epsilon.val + ε₀ + j * (6 * ((1 + R.u) ^ (n + 1) - 1) * a * X + R.u * ρ) := by
    intro i
    have f1 := q6 X ρ hX hρ i
    have f2 := stop_small hn hu hg hs hrr hlt i
    rw [abs_le] at f1 f2 ⊢
    constructor <;> linarith [f1.1, f1.2, f2.1, f2.2]
  refine ⟨key, hβ (fun i => (x j i).val - z i) _ fun i => ?_⟩
  have e : ∑ k, (A i k).val * ((x j k).val - z k) = -(b i - ∑ k, (A i k).val * (x j k).val) := by
    rw [← hz i, neg_sub, ← sum_sub_distrib]
    exact sum_congr rfl fun k _ => by ring
  rw [e, abs_neg]
  exact key i

/-- **C130 violated**: started where the computed residual is zero, at the solution, `minimize` divides `0` by `0` in every precision
and whatever the tolerance (`conjugategradient.rs:147`: the test for a small residual comes after the division by `r·r`) -/
theorem C130_start_violated (hn : 0 < n) (sqrt : Fl R → Fl R) (epsilon : Fl R) {eval jac : Mat (Fl R) → Option (Mat (Fl R))}
    {A : Matrix (Fin n) (Fin n) (Fl R)} (hJ : ∀ x : Fin n → Fl R, ∃ J, jac (col x) = some J ∧ Repr J A) {x₀ : Fin n → Fl R}
    (hf : eval (col x₀) = some (col fun _ : Fin n => 0)) {iters : ℕ} (hi : 0 < iters) :
    cgMinimizeG sqrt epsilon eval jac iters (col x₀) = none := by
  obtain ⟨m, rfl⟩ : ∃ m, iters = m + 1 := ⟨iters - 1, by omega⟩
  simp only [cgMinimizeG, hf, Option.bind_eq_bind, Option.bind_some, cgLoopG]
  set o : Fin n → Fl R := fun _ => 0 with ho
  obtain ⟨v, hv, he⟩ := C88_dotp (show ColRepr (col o) o from rfl) (show ColRepr (col o) o from rfl) hn
  have hv0 : v = 0 := by
    refine Fl.ext ?_
    simp only [ho, Fl.zero_val, mul_zero, abs_zero, sum_const_zero, sub_zero] at he
    exact abs_eq_zero.mp (le_antisymm he (abs_nonneg _))
  have hstep : cgStepG jac (col x₀) (col o) (col o) = none := by
    rw [Option.eq_none_iff_forall_ne_some]
    intro s hs
    obtain ⟨J, hj, hA⟩ := hJ x₀
    unfold cgStepG at hs
    simp only [hj, hv, Option.bind_eq_bind, Option.bind_some, Option.bind_eq_some_iff] at hs
    obtain ⟨_, -, _, -, _, -, td, -, α, -, _, -, _, -, _, -, rr', -, β, hβ, -⟩ := hs
    simp [Mat.fdiv, hv0] at hβ
  rw [hstep]
  rfl

end

/-- the system `[4 1; 1 3] x = (1, 2)`, its residual in `f64` -/
def cgEx (v : Mat (Fl f64)) : Option (Mat (Fl f64)) := do
  let w ← (⟨2, 2, [4, 1, 1, 3]⟩ : Mat (Fl f64)).mulVec v
  (⟨2, 1, [1, 2]⟩ : Mat (Fl f64)).sub w

/-- two iterations in `f64` from `(2, 1)`: the solution `(1/11, 7/11)` up to `10⁻¹⁵`; from the solution `(0, 1)` of the system with
the right-hand side `(1, 3)` the method returns NaN -/
example : (∃ a b : Fl f64, cgMinimizeG (fun x => x) ⟨1 / 10 ^ 12⟩ cgEx (fun _ => some ⟨2, 2, [4, 1, 1, 3]⟩) 10 ⟨2, 1, [2, 1]⟩ =
      some ⟨2, 1, [a, b]⟩ ∧ a.val ≠ 1 / 11 ∧ |a.val - 1 / 11| ≤ 1 / 10 ^ 16 ∧ |b.val - 7 / 11| ≤ 1 / 10 ^ 15) ∧
    cgMinimizeG (fun x => x) ⟨1 / 10 ^ 12⟩ (fun v => do
      let w ← (⟨2, 2, [4, 1, 1, 3]⟩ : Mat (Fl f64)).mulVec v
      (⟨2, 1, [1, 3]⟩ : Mat (Fl f64)).sub w) (fun _ => some ⟨2, 2, [4, 1, 1, 3]⟩) 10 ⟨2, 1, [0, 1]⟩ = none := by
  refine ⟨⟨⟨818836295885545 / 9007199254740992⟩, ⟨2865927035599407 / 4503599627370496⟩, ?_, ?_, ?_, ?_⟩, ?_⟩
  · decide +kernel
  · norm_num
  · norm_num [abs_le]
  · norm_num [abs_le]
  · decide +kernel

/-- the drift for that system: after `j` iterations at most `j (6 ((1 + u)³ - 1) 5 X + u ρ)` -/
example (sqrt : Fl f64 → Fl f64) (epsilon : Fl f64) (iters : ℕ) {y : Mat (Fl f64)}
    (h : cgMinimizeG sqrt epsilon cgEx (fun _ => some ⟨2, 2, [4, 1, 1, 3]⟩) iters (col ![2, 1]) = some y) :
    ∃ (j : ℕ) (x r : ℕ → Fin 2 → Fl f64), j ≤ iters ∧ y = col (x j) ∧
      ∀ X ρ, (∀ l ≤ j, ∀ i, |(x l i).val| ≤ X) → (∀ l ≤ j, ∀ i, |(r l i).val| ≤ ρ) →
        |1 - (4 * (x j 0).val + (x j 1).val) - (r j 0).val| ≤ j * (6 * ((1 + f64.u) ^ 3 - 1) * 5 * X + f64.u * ρ) := by
  have v4 : (4 : Fl f64).val = 4 := by decide +kernel
  have v3 : (3 : Fl f64).val = 3 := by decide +kernel
  have v2 : (2 : Fl f64).val = 2 := by decide +kernel
  have v1 : (1 : Fl f64).val = 1 := rfl
  obtain ⟨j, x, r, h1, -, -, h4, -, h6⟩ := C130_drift_partial (n := 2) (by norm_num [f64, binary])
    (A := !![4, 1; 1, 3]) (b := ![1, 2]) (x₀ := ![2, 1]) (r₀ := ![-8, -3]) (a := 5) (ε₀ := 0)
    (fun _ => ⟨⟨2, 2, [4, 1, 1, 3]⟩, rfl, by constructor <;> decide +kernel⟩) (by decide +kernel) (by decide +kernel) (by decide +kernel) sqrt epsilon iters h
  refine ⟨j, x, r, h1, h4, fun X ρ hX hρ => ?_⟩
  have := h6 X ρ hX hρ 0
  simpa [Fin.sum_univ_two, v4, v1] using this

end Opt
end Verif
