import Verif.OptimProps
import Verif.MatProps

/-! # Levenberg-Marquardt method: C68 -/

namespace Verif
namespace Opt
open Finset Matrix
variable {K : Type} [Field K] [LinearOrder K] [IsStrictOrderedRing K]

omit [LinearOrder K] [IsStrictOrderedRing K] in
theorem normal_identity {m n : ℕ} {J : Matrix (Fin m) (Fin n) K} {mu : K} {f : Fin m → K} {d : Fin n → K}
    (h : (J.transpose * J + (mu * mu) • (1 : Matrix (Fin n) (Fin n) K)) *ᵥ d = -(J.transpose *ᵥ f)) :
    f ⬝ᵥ f - (f + J *ᵥ d) ⬝ᵥ (f + J *ᵥ d) = J *ᵥ d ⬝ᵥ J *ᵥ d + 2 * (mu * mu) * (d ⬝ᵥ d) := by
  have h1 := congrArg (fun v => d ⬝ᵥ v) h
  simp only [add_mulVec, smul_mulVec, one_mulVec, dotProduct_add, dotProduct_smul, dotProduct_neg, smul_eq_mul,
    ← mulVec_mulVec] at h1
  have e : ∀ u, d ⬝ᵥ J.transpose *ᵥ u = J *ᵥ d ⬝ᵥ u := fun u => by
    rw [dotProduct_mulVec, vecMul_transpose]
  rw [e, e] at h1
  simp only [dotProduct_add, add_dotProduct]
  rw [dotProduct_comm f (J *ᵥ d)]
  linear_combination (-2) * h1

/-- One accepted step of the method -/
theorem lmSearch_spec {m n : ℕ} (hm : 0 < m) (hn : 0 < n) (hsh : m = n ∨ m = 1 ∨ n = 1)
    {eval jac : Mat K → Option (Mat K)} {f : (Fin n → K) → (Fin m → K)} {J : (Fin n → K) → Matrix (Fin m) (Fin n) K}
    (hf : FunRepr eval f) (hJ : MatFunRepr jac J)
    (hreg : ∀ (x : Fin n → K) (mu : K), 0 < mu → Regular ((J x).transpose * J x + (mu * mu) • (1 : Matrix (Fin n) (Fin n) K)))
    (beta0 beta1 : K) (x : Fin n → K) (fuel : ℕ) (mu : K) (hmu : 0 < mu) (d' : Mat K) (mu' : K)
    (h : lmSearch eval jac beta0 beta1 (col x) fuel mu = some (d', mu')) :
    ∃ (d : Fin n → K) (nu : K), d' = col d ∧ 0 < nu ∧ 0 < mu' ∧ (∃ j : ℕ, nu = mu * 2 ^ j) ∧ (mu' = nu ∨ mu' = nu / 2) ∧
      ((J x).transpose * J x + (nu * nu) • (1 : Matrix (Fin n) (Fin n) K)) *ᵥ d = -((J x).transpose *ᵥ f x) ∧
      beta0 * (f x ⬝ᵥ f x - (f x + J x *ᵥ d) ⬝ᵥ (f x + J x *ᵥ d)) ≤ f x ⬝ᵥ f x - f (x + d) ⬝ᵥ f (x + d) := by
  induction fuel generalizing mu with
  | zero => simp [lmSearch] at h
  | succ fuel ih =>
    obtain ⟨A, a1, a2⟩ := hJ x
    obtain ⟨At, b1, b2⟩ := C05_transpose_partial (fun _ => 0) a2 hsh (by omega)
    obtain ⟨G, c1, c2⟩ := repr_mul b2 a2
    obtain ⟨L, e1, e2⟩ := repr_add c2 (repr_mulScalar (repr_mulScalar (repr_one n) mu) mu)
    have e3 : (J x).transpose * J x + mu • mu • (1 : Matrix (Fin n) (Fin n) K) =
        (J x).transpose * J x + (mu * mu) • (1 : Matrix (Fin n) (Fin n) K) := by rw [smul_smul]
    rw [e3] at e2
    obtain ⟨d, d1, d2⟩ := solveV_regular e2 (hreg x mu hmu) (-((J x).transpose *ᵥ f x))
    have hAn : A.n = n := a2.is.hn
    rw [lmSearch] at h
    unfold Mat.transpose at h
    simp only [a1, b1, hf x, mulVec_col b2, neg_col, c1, hAn, e1, d1, col_add, hf (x + d), dotp_col hm, mulVec_col a2,
      Option.bind_eq_bind, Option.bind_some] at h
    have key := normal_identity d2
    have hJd := dot_self_nonneg (J x *ᵥ d)
    have hdd := dot_self_nonneg d
    have hden : 0 ≤ f x ⬝ᵥ f x - (f x + J x *ᵥ d) ⬝ᵥ (f x + J x *ᵥ d) := by
      rw [key]; positivity
    by_cases h0 : f x ⬝ᵥ f x - (f x + J x *ᵥ d) ⬝ᵥ (f x + J x *ᵥ d) = 0
    · -- the step is zero
      have hd0 : d = 0 := by
        by_contra hne
        have := dot_self_pos hne
        have : 0 < J x *ᵥ d ⬝ᵥ J x *ᵥ d + 2 * (mu * mu) * (d ⬝ᵥ d) := by positivity
        rw [← key, h0] at this
        exact lt_irrefl _ this
      have hnum : f x ⬝ᵥ f x - f (x + d) ⬝ᵥ f (x + d) = 0 := by rw [hd0, add_zero, sub_self]
      simp only [h0, hnum, lt_self_iff_false, decide_false, if_true, Bool.false_eq_true, if_false] at h
      obtain ⟨rfl, rfl⟩ := Prod.mk.inj (Option.some.inj h)
      exact ⟨d, mu, rfl, hmu, hmu, ⟨0, by simp⟩, Or.inl rfl, d2, by rw [h0, hnum, mul_zero]⟩
    · simp only [h0, if_false, decide_eq_true_eq] at h
      by_cases hc : (f x ⬝ᵥ f x - f (x + d) ⬝ᵥ f (x + d)) /
          (f x ⬝ᵥ f x - (f x + J x *ᵥ d) ⬝ᵥ (f x + J x *ᵥ d)) < beta0
      · rw [if_pos hc] at h
        obtain ⟨d, nu, g1, g2, g3, ⟨j, g4⟩, g5⟩ := ih (mu * 2) (by linarith) h
        exact ⟨d, nu, g1, g2, g3, ⟨j + 1, by rw [g4]; ring⟩, g5⟩
      · rw [if_neg hc] at h
        obtain ⟨rfl, hmu'⟩ := Prod.mk.inj (Option.some.inj h)
        have hpos := lt_of_le_of_ne hden (Ne.symm h0)
        refine ⟨d, mu, rfl, hmu, ?_, ⟨0, by simp⟩, ?_, d2, ?_⟩
        · rw [← hmu']; split_ifs <;> linarith
        · rw [← hmu']; split_ifs
          · exact Or.inr rfl
          · exact Or.inl rfl
        · exact (le_div_iff₀ hpos).mp (not_lt.mp hc)

/-- C68: with `rho_minus ≥ 0` the sum of squares never increases; every step solves the damped normal equations and the
    decrease is at least `rho_minus` times the predicted decrease `|J d|² + 2 μ² |d|²`. Missing: Jacobians that are neither
    square nor a row or column, where the transposition is wrong (`C68_violated`), and damped normal equations on which the
    solver meets a zero pivot (`C68_square_violated`). -/
theorem C68_monotone_partial {m n : ℕ} (hm : 0 < m) (hn : 0 < n) (hsh : m = n ∨ m = 1 ∨ n = 1)
    {eval jac : Mat K → Option (Mat K)} {f : (Fin n → K) → (Fin m → K)} {J : (Fin n → K) → Matrix (Fin m) (Fin n) K}
    (hf : FunRepr eval f) (hJ : MatFunRepr jac J)
    (hreg : ∀ (x : Fin n → K) (mu : K), 0 < mu → Regular ((J x).transpose * J x + (mu * mu) • (1 : Matrix (Fin n) (Fin n) K)))
    {beta0 : K} (hb : 0 ≤ beta0) (beta1 : K) (iters fuel : ℕ) (x₀ : Fin n → K) (v : Mat K)
    (h : lmMinimize eval jac beta0 beta1 iters fuel (col x₀) = some v) :
    ∃ x, v = col x ∧ f x ⬝ᵥ f x ≤ f x₀ ⬝ᵥ f x₀ ∧ ∃ (xs : ℕ → (Fin n → K)), xs 0 = x₀ ∧ xs iters = x ∧
      ∀ k < iters, ∃ (d : Fin n → K) (mu : K), 0 < mu ∧ xs (k + 1) = xs k + d ∧
        ((J (xs k)).transpose * J (xs k) + (mu * mu) • (1 : Matrix (Fin n) (Fin n) K)) *ᵥ d =
          -((J (xs k)).transpose *ᵥ f (xs k)) ∧
        f (xs (k + 1)) ⬝ᵥ f (xs (k + 1)) ≤ f (xs k) ⬝ᵥ f (xs k) -
          beta0 * (J (xs k) *ᵥ d ⬝ᵥ J (xs k) *ᵥ d + 2 * (mu * mu) * (d ⬝ᵥ d)) := by
  unfold lmMinimize at h
  rw [Option.bind_eq_bind, Option.bind_eq_some_iff] at h
  obtain ⟨s, hs, hv⟩ := h
  obtain ⟨ys, h1, h2, h3⟩ := (forRange_traj _ _ _ _).mp hs
  have step : ∀ (x : Fin n → K) (mu : K) (s' : Mat K × K), 0 < mu → (do
      let (d, mu) ← lmSearch eval jac beta0 beta1 (col x, mu).1 fuel (col x, mu).2
      let x ← (col x, mu).1.add d
      some (x, mu)) = some s' →
      ∃ y : Fin n → K, s'.1 = col y ∧ 0 < s'.2 ∧ ∃ (d : Fin n → K) (mu : K), 0 < mu ∧ y = x + d ∧
        ((J x).transpose * J x + (mu * mu) • (1 : Matrix (Fin n) (Fin n) K)) *ᵥ d = -((J x).transpose *ᵥ f x) ∧
        f y ⬝ᵥ f y ≤ f x ⬝ᵥ f x - beta0 * (J x *ᵥ d ⬝ᵥ J x *ᵥ d + 2 * (mu * mu) * (d ⬝ᵥ d)) := by
    intro x mu s' hmu hw
    rw [Option.bind_eq_bind, Option.bind_eq_some_iff] at hw
    obtain ⟨⟨d', mu'⟩, w1, w2⟩ := hw
    obtain ⟨d, nu, g1, g2, g3, -, -, g4, g5⟩ := lmSearch_spec hm hn hsh hf hJ hreg beta0 beta1 x fuel mu hmu d' mu' w1
    simp only [g1, col_add, Option.bind_eq_bind, Option.bind_some, Option.some.injEq] at w2
    subst w2
    refine ⟨x + d, rfl, g3, d, nu, g2, rfl, g4, ?_⟩
    rw [normal_identity g4] at g5
    linarith
  have hc : ∀ k, k ≤ iters → ∃ x : Fin n → K, (ys k).1 = col x ∧ 0 < (ys k).2 := by
    intro k
    induction k with
    | zero => exact fun _ => ⟨x₀, by rw [h1], by rw [h1]; norm_num⟩
    | succ k ih =>
      intro hk
      obtain ⟨x, hx, hp⟩ := ih (by omega)
      have h4 := h3 k (by omega)
      obtain ⟨y, hy, hp', -⟩ := step x (ys k).2 _ hp (by rw [← hx]; exact h4)
      exact ⟨y, hy, hp'⟩
  choose! xs hxs using hc
  have h0 : xs 0 = x₀ := col_injective (by rw [← (hxs 0 (by omega)).1, h1])
  have h4 : ∀ k < iters, ∃ (d : Fin n → K) (mu : K), 0 < mu ∧ xs (k + 1) = xs k + d ∧
        ((J (xs k)).transpose * J (xs k) + (mu * mu) • (1 : Matrix (Fin n) (Fin n) K)) *ᵥ d =
          -((J (xs k)).transpose *ᵥ f (xs k)) ∧
        f (xs (k + 1)) ⬝ᵥ f (xs (k + 1)) ≤ f (xs k) ⬝ᵥ f (xs k) -
          beta0 * (J (xs k) *ᵥ d ⬝ᵥ J (xs k) *ᵥ d + 2 * (mu * mu) * (d ⬝ᵥ d)) := by
    intro k hk
    obtain ⟨q1, q2⟩ := hxs k (by omega)
    have h5 := h3 k hk
    obtain ⟨y, hy, -, hrest⟩ := step (xs k) (ys k).2 _ q2 (by rw [← q1]; exact h5)
    rw [(hxs (k + 1) (by omega)).1] at hy
    rw [col_injective hy]
    exact hrest
  refine ⟨xs iters, ?_, ?_, xs, h0, rfl, h4⟩
  · rw [← Option.some.inj hv, ← h2, (hxs iters le_rfl).1]
  · have hdec : ∀ k, k ≤ iters → f (xs k) ⬝ᵥ f (xs k) ≤ f x₀ ⬝ᵥ f x₀ := by
      intro k
      induction k with
      | zero => intro _; rw [h0]
      | succ k ih =>
        intro hk
        obtain ⟨d, mu, a1, -, -, a4⟩ := h4 k (by omega)
        have q1 := dot_self_nonneg (J (xs k) *ᵥ d)
        have q2 := dot_self_nonneg d
        have : 0 ≤ beta0 * (J (xs k) *ᵥ d ⬝ᵥ J (xs k) *ᵥ d + 2 * (mu * mu) * (d ⬝ᵥ d)) := by positivity
        linarith [ih (by omega)]
    exact hdec iters le_rfl

/-- C68 is violated: on the linear least squares problem `f(x, y) = (1 - x, 2 y + 2, x + 2 y - 2)` one iteration from the
    origin (with the parameters of the tests) moves to `(-132/7, 36/7)` and increases the sum of squares from `9` to `657`. -/
theorem C68_violated :
    let eval := fun v => do
      let w ← (⟨3, 2, [-1, 0, 1, 0, 2, 2]⟩ : Mat ℚ).mulVec v
      w.add (col ![(1 : ℚ), 2, -2])
    lmMinimize eval (fun _ => some ⟨3, 2, [-1, 0, 1, 0, 2, 2]⟩) (3 / 10) (19 / 20) 1 10 (col ![0, 0]) =
      some (col ![-132 / 7, 36 / 7]) ∧
    (eval (col ![0, 0])).bind (fun w => w.dotp w) = some 9 ∧
    (eval (col ![-132 / 7, 36 / 7])).bind (fun w => w.dotp w) = some 657 := by decide +kernel

/-- C68 is violated for a square regular Jacobian as well: `f(x, y, z) = (x + 2 y, y, z)` started at its root `0` moves to
    `(-21/8, 1, 0)` and increases the sum of squares from `0` to `89/64`.  The damped normal equations have the positive
    definite matrix `[[5/4, 2, 0], [2, 21/4, 0], [0, 0, 5/4]]`, on which `solve` meets a zero pivot; the wrong step is accepted
    because the predicted and the actual decrease are equal (both are negative). -/
theorem C68_square_violated :
    let eval := fun v => (⟨3, 3, [1, 0, 0, 2, 1, 0, 0, 0, 1]⟩ : Mat ℚ).mulVec v
    lmMinimize eval (fun _ => some ⟨3, 3, [1, 0, 0, 2, 1, 0, 0, 0, 1]⟩) (3 / 10) (19 / 20) 1 10 (col ![0, 0, 0]) =
      some (col ![-21 / 8, 1, 0]) ∧
    (eval (col ![0, 0, 0])).bind (fun w => w.dotp w) = some 0 ∧
    (eval (col ![-21 / 8, 1, 0])).bind (fun w => w.dotp w) = some (89 / 64) := by decide +kernel

/-- `f(x, y) = (x + y - 3, x y - 2)`, one iteration from `(1, 0)` -/
example : (lmMinimize (fun v => do
      let x ← v.vget 0
      let y ← v.vget 1
      some (col ![x + y - 3, x * y - 2])) (fun v => do
      let x ← v.vget 0
      let y ← v.vget 1
      some ⟨2, 2, [1, y, 1, x]⟩) (3 / 10) (19 / 20) 1 10 (col ![(1 : ℚ), 0])) = some (col ![37 / 29, 48 / 29]) := by
  decide +kernel

end Opt
end Verif
