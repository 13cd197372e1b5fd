import Verif.NewtonProps
import Mathlib.Analysis.Calculus.MeanValue
import Mathlib.Analysis.Calculus.Deriv.Pow
import Mathlib.Analysis.Calculus.Deriv.Mul
import Mathlib.Analysis.Calculus.Deriv.Comp
import Mathlib.Analysis.Calculus.FDeriv.Prod
import Mathlib.Analysis.SpecialFunctions.Pow.Real

/-! # Newton's method converges quadratically: C97 -/

namespace Verif
open Finset Matrix Topology

namespace Mat
variable {K : Type} [Field K] [LinearOrder K]

/-- the first pivot is the largest entry (by value) of the first column -/
theorem decLU_first {n : ℕ} (hn : 0 < n) {A l u p : Mat K} {A0 : ℕ → ℕ → K} (hA : A.Is n n A0)
    (h : A.decLU = some (l, u, p)) :
    ∃ r < n, (∀ r' < n, A0 r' 0 ≤ A0 r 0) ∧ u.get 0 0 = some (A0 r 0) := by
  obtain ⟨pm, q1, _, q3, _, q4⟩ := pivotLoop_is hA hn
  obtain ⟨s, e1, e2⟩ := forRange_inv (a := 0) (b := n) (s := (A, one n)) (f := luStep)
    (fun i s => (∃ f, s.1.Is n n f ∧ (0 < i → f 0 0 = A0 pm.2 0)) ∧ (i = 0 → s.1 = A) ∧ ∃ g, s.2.Is n n g) (by omega)
    ⟨⟨A0, hA, by simp⟩, fun _ => rfl, _, one_is n⟩ (by
      rintro i ⟨a, P⟩ _ hi ⟨⟨f, hf, h0⟩, h1, g, hg⟩
      obtain ⟨pm', p1, p2, p3, -, -⟩ := pivotLoop_is hf hi
      have hpm : i = 0 → pm' = pm := fun hi0 => by
        have := h1 hi0
        simp only at this p1
        rw [this, hi0, q1] at p1
        exact (Option.some.inj p1).symm
      obtain ⟨s', s1, f', g', hf', hg', h2⟩ : ∃ s', pivotSwap a P i pm'.2 = some s' ∧
          ∃ f' g', s'.1.Is n n f' ∧ s'.2.Is n n g' ∧ f' 0 0 = A0 pm.2 0 := by
        by_cases e : i = pm'.2
        · refine ⟨(a, P), by simp [pivotSwap, ← e], f, g, hf, hg, ?_⟩
          rcases Nat.eq_zero_or_pos i with hi0 | hi0
          · have ha := h1 hi0
            simp only at ha hf
            rw [ha] at hf
            rw [← hpm hi0, ← e, hi0]
            have := hf.get hn hn
            rw [hA.get hn hn] at this
            exact (Option.some.inj this).symm
          · exact h0 hi0
        · obtain ⟨a', a1, a2⟩ := swapRows_is hf hi p3
          obtain ⟨P', b1, b2⟩ := swapRows_is hg hi p3
          refine ⟨(a', P'), ?_, _, _, a2, b2, ?_⟩
          · simp only at a1 b1
            simp only [pivotSwap, if_pos (show i ≠ pm'.2 from e), a1, b1, Option.bind_eq_bind, Option.bind_some]
          · rcases Nat.eq_zero_or_pos i with hi0 | hi0
            · subst hi0
              have ha := h1 rfl
              simp only at ha hf
              rw [ha] at hf
              rw [if_pos rfl, ← hpm rfl]
              have := hf.get p3 hn
              rw [hA.get p3 hn] at this
              exact (Option.some.inj this).symm
            · rw [if_neg (by omega), if_neg (by omega)]
              exact h0 hi0
      obtain ⟨b, b1, b2⟩ := elimAll_is hf' hi
      refine ⟨(b, s'.2), ?_, ⟨_, b2, fun _ => ?_⟩, by omega, _, hg'⟩
      · simp only at p1 s1
        simp only [luStep, p1, s1, hf'.hn, b1, Option.bind_eq_bind, Option.bind_some]
      · rw [if_neg (by omega), if_neg (by omega)]
        exact h2)
  obtain ⟨⟨f, hf, h0⟩, _, _⟩ := e2
  obtain ⟨L, l1, l2⟩ := regionLoop (m := n) (n := n) (a := 1) (b := n) (fun _ => 0) (fun i => i) f
    (one_is (K := K) n) (le_refl n) (by intro i _ h; exact h.le)
    (fun l i j => do
      let x ← s.1.get i j
      l.set i j x) (by
      intro B i j _ h3 _ h4 _
      rw [hf.get h3 (by omega)]; rfl)
  obtain ⟨U, u1, u2⟩ := regionLoop (m := n) (n := n) (a := 0) (b := n) (fun i => i) (fun _ => n) f
    (one_is (K := K) n) (le_refl n) (by intro i _ _; exact le_refl n)
    (fun l i j => do
      let x ← s.1.get i j
      l.set i j x) (by
      intro B i j _ h3 _ h4 _
      rw [hf.get h3 h4]; rfl)
  have key : A.decLU = some (L, U, s.2) := by
    simp only [decLU, hA.hm, hA.hn, if_true, e1, hf.hn, Option.bind_eq_bind, Option.bind_some] at l1 u1 ⊢
    rw [l1]
    simp only [Option.bind_some]
    rw [u1]
    rfl
  rw [key] at h
  cases h
  refine ⟨pm.2, q3, fun r' hr => q4 r' (Nat.zero_le _) hr, ?_⟩
  rw [u2.get hn hn, if_pos ⟨le_rfl, hn, le_rfl, hn⟩, h0 hn]

end Mat

/-- If the largest entry of the first column is zero, the decomposition meets a zero pivot, even if the matrix is regular. -/
theorem not_regular_of_column {K : Type} [Field K] [LinearOrder K] [IsStrictOrderedRing K] {n : ℕ}
    {M : Matrix (Fin n) (Fin n) K} (c : Fin n) (hc : (c : ℕ) = 0)
    (hle : ∀ i, M i c ≤ 0) (h0 : ∃ i, M i c = 0) : ¬ Regular M := by
  intro hr
  have hn : 0 < n := by have := c.2; omega
  obtain ⟨A, hA⟩ := exists_repr M
  obtain ⟨l, u, p, L, U, σ, h, _⟩ := C11_lu_exact hA
  obtain ⟨r, hr1, hr2, hr3⟩ := Mat.decLU_first hn hA.is h
  have hc' : c = ⟨0, hn⟩ := Fin.ext hc
  obtain ⟨i, hi⟩ := h0
  have h1 := hr2 i i.2
  rw [extM_lt M i.2 hn, extM_lt M hr1 hn] at h1
  rw [extM_lt M hr1 hn] at hr3
  rw [hc'] at hi hle
  have : M ⟨r, hr1⟩ ⟨0, hn⟩ = 0 := le_antisymm (hle _) (by simpa [hi] using h1)
  rw [this] at hr3
  exact hr A l u p hA h 0 hn hr3

theorem regular_one {K : Type} [Field K] [LinearOrder K] [IsStrictOrderedRing K] {M : Matrix (Fin 1) (Fin 1) K}
    (h : M 0 0 ≠ 0) : Regular M := by
  intro A l u p hA hd i hi hu
  obtain ⟨r, hr1, _, hr3⟩ := Mat.decLU_first one_pos hA.is hd
  obtain rfl : i = 0 := by omega
  obtain rfl : r = 0 := by omega
  rw [hu, extM_lt M hr1 one_pos] at hr3
  exact h (Option.some.inj hr3).symm

section Taylor
variable {E F : Type*} [NormedAddCommGroup E] [NormedSpace ℝ E] [NormedAddCommGroup F] [NormedSpace ℝ F]

/-- linear approximation of a curve whose derivative is Lipschitz at the start, with the constant `1/2` -/
theorem curve_taylor {φ φ' : ℝ → F} {c : ℝ} (hφ : ∀ s ∈ Set.Icc (0 : ℝ) 1, HasDerivAt φ (φ' s) s)
    (hc : ∀ s ∈ Set.Icc (0 : ℝ) 1, ‖φ' s - φ' 0‖ ≤ c * s) : ‖φ 1 - φ 0 - φ' 0‖ ≤ c / 2 := by
  have hd : ∀ s ∈ Set.Icc (0 : ℝ) 1, HasDerivAt (fun s => φ s - φ 0 - s • φ' 0) (φ' s - φ' 0) s := fun s hs => by
    have := ((hφ s hs).sub_const (φ 0)).sub ((hasDerivAt_id s).smul_const (φ' 0))
    rw [one_smul] at this
    exact this
  have := image_norm_le_of_norm_deriv_right_le_deriv_boundary (f := fun s => φ s - φ 0 - s • φ' 0) (f' := fun s => φ' s - φ' 0)
    (a := 0) (b := 1) (fun s hs => (hd s hs).continuousAt.continuousWithinAt)
    (fun s hs => (hd s (Set.Ico_subset_Icc_self hs)).hasDerivWithinAt) (B := fun s => c * s ^ 2 / 2) (B' := fun s => c * s)
    (by simp) (fun s => by
      have := (((hasDerivAt_id s).pow 2).const_mul c).div_const 2
      refine this.congr_deriv ?_
      simp
      ring) (fun s hs => hc s (Set.Ico_subset_Icc_self hs)) (x := 1) (by simp)
  simpa using this

/-- linear approximation of a function with a Lipschitz derivative -/
theorem taylor_quadratic {g : E → F} {g' : E → E →L[ℝ] F} {x y : E} {L : ℝ}
    (hg : ∀ s ∈ Set.Icc (0 : ℝ) 1, HasFDerivAt g (g' (x + s • (y - x))) (x + s • (y - x)))
    (hL : ∀ s ∈ Set.Icc (0 : ℝ) 1, ‖(g' (x + s • (y - x)) - g' x) (y - x)‖ ≤ L * ‖s • (y - x)‖ * ‖y - x‖) :
    ‖g y - g x - g' x (y - x)‖ ≤ L / 2 * ‖y - x‖ ^ 2 := by
  have := curve_taylor (φ := fun s => g (x + s • (y - x))) (φ' := fun s => g' (x + s • (y - x)) (y - x))
    (c := L * ‖y - x‖ ^ 2) (fun s hs => by
      have h1 : HasDerivAt (fun s : ℝ => x + s • (y - x)) (y - x) s := by
        simpa using ((hasDerivAt_id s).smul_const (y - x)).const_add x
      exact (hg s hs).comp_hasDerivAt s h1)
    (fun s hs => by
      have := hL s hs
      simp only [zero_smul, add_zero]
      rw [norm_smul, Real.norm_eq_abs, abs_of_nonneg hs.1] at this
      refine this.trans (le_of_eq ?_)
      ring)
  simp only [one_smul, zero_smul, add_zero, add_sub_cancel] at this
  refine this.trans (le_of_eq ?_)
  ring

end Taylor

/-- the 2-norm against the maximum norm -/
theorem norm_le_norm2 {n : ℕ} (d : Fin n → ℝ) : ‖d‖ ≤ Real.sqrt (∑ i, d i * d i) := by
  rw [pi_norm_le_iff_of_nonneg (Real.sqrt_nonneg _)]
  intro i
  rw [Real.norm_eq_abs, ← Real.sqrt_sq_eq_abs, pow_two]
  exact Real.sqrt_le_sqrt (Finset.single_le_sum (f := fun i => d i * d i) (fun j _ => mul_self_nonneg (d j)) (Finset.mem_univ i))

theorem norm2_le {n : ℕ} (d : Fin n → ℝ) : Real.sqrt (∑ i, d i * d i) ≤ Real.sqrt n * ‖d‖ := by
  rw [← Real.sqrt_sq (norm_nonneg d), ← Real.sqrt_mul (Nat.cast_nonneg n)]
  apply Real.sqrt_le_sqrt
  calc ∑ i, d i * d i ≤ ∑ _i : Fin n, ‖d‖ ^ 2 := Finset.sum_le_sum fun i _ => by
        have := norm_le_pi_norm d i
        rw [Real.norm_eq_abs] at this
        rw [← abs_mul_abs_self, pow_two]
        exact mul_le_mul this this (abs_nonneg _) (norm_nonneg _)
    _ = n * ‖d‖ ^ 2 := by simp

/-- one step of Newton's method squares the error -/
theorem newton_error {n : ℕ} {g : (Fin n → ℝ) → (Fin n → ℝ)} {J : (Fin n → ℝ) → Matrix (Fin n) (Fin n) ℝ}
    {z : Fin n → ℝ} {r L β : ℝ} (hroot : g z = 0) (hβ0 : 0 ≤ β)
    (hd : ∀ x, ‖x - z‖ ≤ r → HasFDerivAt g (LinearMap.toContinuousLinearMap (Matrix.toLin' (J x))) x)
    (hL : ∀ x y, ‖x - z‖ ≤ r → ‖y - z‖ ≤ r → ∀ v, ‖(J x - J y) *ᵥ v‖ ≤ L * ‖x - y‖ * ‖v‖)
    (hβ : ∀ x, ‖x - z‖ ≤ r → ∀ v, ‖v‖ ≤ β * ‖J x *ᵥ v‖) {x d : Fin n → ℝ} (hx : ‖x - z‖ ≤ r) (h : J x *ᵥ d = g x) :
    ‖x - d - z‖ ≤ β * L / 2 * ‖x - z‖ ^ 2 := by
  have hin : ∀ s ∈ Set.Icc (0 : ℝ) 1, ‖x + s • (z - x) - z‖ ≤ r := fun s hs => by
    have e : x + s • (z - x) - z = (1 - s) • (x - z) := by
      rw [sub_smul, one_smul, smul_sub, smul_sub]; abel
    rw [e, norm_smul, Real.norm_eq_abs, abs_of_nonneg (by linarith [hs.2])]
    nlinarith [norm_nonneg (x - z), hs.1, hs.2]
  have h1 := taylor_quadratic (g := g) (g' := fun x => LinearMap.toContinuousLinearMap (Matrix.toLin' (J x)))
    (x := x) (y := z) (L := L) (fun s hs => hd _ (hin s hs)) (fun s hs => by
      have := hL _ x (hin s hs) hx (z - x)
      simpa [Matrix.sub_mulVec] using this)
  have h2 : J x *ᵥ (x - d - z) = -(g x - g z) - J x *ᵥ (z - x) := by
    rw [hroot, sub_zero, ← h, ← Matrix.mulVec_neg, ← Matrix.mulVec_sub]
    congr 1
    abel
  have h3 : ‖J x *ᵥ (x - d - z)‖ ≤ L / 2 * ‖z - x‖ ^ 2 := by
    rw [h2, neg_sub]
    simpa using h1
  rw [norm_sub_rev z x] at h3
  calc ‖x - d - z‖ ≤ β * ‖J x *ᵥ (x - d - z)‖ := hβ x hx _
    _ ≤ β * (L / 2 * ‖x - z‖ ^ 2) := mul_le_mul_of_nonneg_left h3 hβ0
    _ = _ := by ring

/-- The root finder on a trajectory of column vectors: it stops at the first increment below the tolerance. -/
theorem findRoot_trajectory {n : ℕ} {eval jac : Mat ℝ → Option (Mat ℝ)} {X : ℕ → (Fin n → ℝ)} {tol : ℝ}
    (hX : ∀ k, newtonStep eval jac (col (X k)) = some (col (X (k + 1)))) {iters : ℕ}
    (h : ∃ k < iters, Real.sqrt (∑ i, (X k - X (k + 1)) i * (X k - X (k + 1)) i) < tol) :
    ∃ k < iters, findRoot Real.sqrt tol eval jac iters (col (X 0)) = some (some (col (X k))) ∧
      Real.sqrt (∑ i, (X k - X (k + 1)) i * (X k - X (k + 1)) i) < tol := by
  classical
  have hP : ∃ k, Real.sqrt (∑ i, (X k - X (k + 1)) i * (X k - X (k + 1)) i) < tol := by
    obtain ⟨k, _, h⟩ := h; exact ⟨k, h⟩
  obtain ⟨k, hk, hlt⟩ := h
  have hfk : Nat.find hP < iters := (Nat.find_min' hP hlt).trans_lt hk
  refine ⟨Nat.find hP, hfk, ?_, Nat.find_spec hP⟩
  rw [C47_ok_iff]
  refine ⟨Nat.find hP, fun k => col (X k), hfk, rfl, rfl, fun j _ => hX j, fun j hj => ?_, ?_⟩
  · exact ⟨_, _, col_sub _ _, norm2_col _ _, Nat.find_min hP hj⟩
  · exact ⟨_, _, col_sub _ _, norm2_col _ _, Nat.find_spec hP⟩

/-- C97: let `z` be a root of `g`; in the ball of radius `r` around it (in the maximum norm) let `J` be the derivative of `g`
and Lipschitz with the constant `L`, let its inverse be bounded by `β`, and let the linear solver meet no zero pivot. If
`β L r ≤ 1`, then `find_root` started in the ball returns `Ok(x)` with `x` off by less than twice the tolerance. The error of
each Newton iterate is at most `β L / 2` times the square of the previous one, so that `k` iterations bring it down to
`r / 2 ^ (2 ^ k - 1)` and about `log₂ log₂ (r / tol)` iterations suffice. Missing: invertible Jacobians with which the linear
solver meets a zero pivot, see `C97_minus_identity_violated`. -/
theorem C97_converges_partial {n : ℕ} {eval jac : Mat ℝ → Option (Mat ℝ)} {g : (Fin n → ℝ) → (Fin n → ℝ)}
    {J : (Fin n → ℝ) → Matrix (Fin n) (Fin n) ℝ} (hg : FunRepr eval g) (hJ : MatFunRepr jac J)
    {z : Fin n → ℝ} {r L β : ℝ} (hroot : g z = 0) (hβ0 : 0 ≤ β)
    (hd : ∀ x, ‖x - z‖ ≤ r → HasFDerivAt g (LinearMap.toContinuousLinearMap (Matrix.toLin' (J x))) x)
    (hL : ∀ x y, ‖x - z‖ ≤ r → ‖y - z‖ ≤ r → ∀ v, ‖(J x - J y) *ᵥ v‖ ≤ L * ‖x - y‖ * ‖v‖)
    (hβ : ∀ x, ‖x - z‖ ≤ r → ∀ v, ‖v‖ ≤ β * ‖J x *ᵥ v‖)
    (hreg : ∀ x, ‖x - z‖ ≤ r → Regular (J x)) (hsmall : β * L * r ≤ 1)
    {x₀ : Fin n → ℝ} (hx₀ : ‖x₀ - z‖ ≤ r) {tol : ℝ} {iters : ℕ}
    (hit : ∃ k < iters, Real.sqrt n * (2 * r * (1 / 2) ^ (2 ^ k - 1)) < tol) :
    ∃ (X : ℕ → (Fin n → ℝ)) (k : ℕ), X 0 = x₀ ∧ k < iters ∧
      findRoot Real.sqrt tol eval jac iters (col x₀) = some (some (col (X k))) ∧ ‖X k - z‖ < 2 * tol ∧
      ∀ j, newtonStep eval jac (col (X j)) = some (col (X (j + 1))) ∧ ‖X (j + 1) - z‖ ≤ β * L / 2 * ‖X j - z‖ ^ 2 ∧
        ‖X j - z‖ ≤ r * (1 / 2) ^ (2 ^ j - 1) := by
  choose D hD1 hD2 _ using fun x => newtonStep_cases hg hJ x
  let X : ℕ → (Fin n → ℝ) := fun k => Nat.rec x₀ (fun _ x => x - D x) k
  have hXs : ∀ k, X (k + 1) = X k - D (X k) := fun _ => rfl
  have hr0 : 0 ≤ r := (norm_nonneg _).trans hx₀
  have hhalf : ∀ j, ‖X j - z‖ ≤ r → ‖X (j + 1) - z‖ ≤ β * L / 2 * ‖X j - z‖ ^ 2 := fun j hj => by
    rw [hXs]
    exact newton_error hroot hβ0 hd hL hβ hj (hD2 _ (hreg _ hj))
  have hq : ∀ j : ℕ, (1 / 2 : ℝ) ^ (2 ^ j - 1) ≤ 1 := fun j => pow_le_one₀ (by norm_num) (by norm_num)
  have hball : ∀ j, ‖X j - z‖ ≤ r * (1 / 2) ^ (2 ^ j - 1) := by
    intro j
    induction j with
    | zero =>
      change ‖x₀ - z‖ ≤ _
      simpa using hx₀
    | succ j ih =>
      have hin : ‖X j - z‖ ≤ r := ih.trans (mul_le_of_le_one_right hr0 (hq j))
      have e : 2 ^ (j + 1) - 1 = (2 ^ j - 1) + (2 ^ j - 1) + 1 := by
        have : 1 ≤ 2 ^ j := Nat.one_le_two_pow
        rw [pow_succ]; omega
      rw [e, pow_add, pow_add, pow_one]
      set q : ℝ := (1 / 2) ^ (2 ^ j - 1)
      have hq0 : 0 ≤ q := by positivity
      rcases le_or_gt (β * L) 0 with hneg | hpos
      · refine (hhalf j hin).trans (le_trans (mul_nonpos_of_nonpos_of_nonneg (by linarith) (sq_nonneg _)) (by positivity))
      · calc _ ≤ β * L / 2 * ‖X j - z‖ ^ 2 := hhalf j hin
          _ ≤ β * L / 2 * (r * q) ^ 2 := by gcongr
          _ = (β * L * r) * (r * (q * q * (1 / 2))) := by ring
          _ ≤ 1 * (r * (q * q * (1 / 2))) := by gcongr
          _ = _ := one_mul _
  have hin : ∀ j, ‖X j - z‖ ≤ r := fun j => (hball j).trans (mul_le_of_le_one_right hr0 (hq j))
  have hstep : ∀ j, ‖X (j + 1) - z‖ ≤ ‖X j - z‖ / 2 := fun j => by
    have h1 := hhalf j (hin j)
    rcases le_or_gt (β * L) 0 with hneg | hpos
    · refine h1.trans (le_trans (mul_nonpos_of_nonpos_of_nonneg (by linarith) (sq_nonneg _)) (by positivity))
    · calc _ ≤ β * L / 2 * ‖X j - z‖ ^ 2 := h1
        _ = β * L * ‖X j - z‖ * (‖X j - z‖ / 2) := by ring
        _ ≤ β * L * r * (‖X j - z‖ / 2) := by have := hin j; gcongr
        _ ≤ 1 * (‖X j - z‖ / 2) := by gcongr
        _ = _ := one_mul _
  have hX : ∀ k, newtonStep eval jac (col (X k)) = some (col (X (k + 1))) := fun k => by rw [hD1, hXs]
  obtain ⟨k, hk, h1, h2⟩ := findRoot_trajectory (tol := tol) hX (iters := iters) (by
    obtain ⟨k, hk, hlt⟩ := hit
    refine ⟨k, hk, lt_of_le_of_lt ((norm2_le _).trans (mul_le_mul_of_nonneg_left ?_ (Real.sqrt_nonneg _))) hlt⟩
    have e : X k - X (k + 1) = (X k - z) - (X (k + 1) - z) := by abel
    rw [e]
    refine (norm_sub_le _ _).trans ?_
    have := hstep k
    have := hball k
    have := norm_nonneg (X k - z)
    linarith)
  refine ⟨X, k, rfl, hk, h1, ?_, fun j => ⟨hX j, hhalf j (hin j), hball j⟩⟩
  have h3 := (norm_le_norm2 (X k - X (k + 1))).trans_lt h2
  have e : X k - z = (X k - X (k + 1)) + (X (k + 1) - z) := by abel
  have h4 := norm_add_le (X k - X (k + 1)) (X (k + 1) - z)
  rw [← e] at h4
  have := hstep k
  linarith

/-- `x² - 4` from `3` with the default parameters: the result is off by less than `2 / 10⁶` -/
example : ∃ x : Fin 1 → ℝ, findRoot Real.sqrt (1 / 10 ^ 6) (fun v => (v.vget 0).map fun x => col ![x * x - 4])
    (fun v => (v.vget 0).map fun x => ⟨1, 1, [2 * x]⟩) 1000 (col ![3]) = some (some (col x)) ∧ ‖x - ![2]‖ < 2 * (1 / 10 ^ 6) := by
  have hv : ∀ x : Fin 1 → ℝ, (col x).vget 0 = some (x 0) := fun x => by simp [col, Mat.vget, Mat.get]
  have hb : ∀ x : Fin 1 → ℝ, ‖x - ![2]‖ ≤ 1 → 1 ≤ x 0 := fun x hx => by
    have := (norm_le_pi_norm (x - ![2]) 0).trans hx
    simp only [Pi.sub_apply, Matrix.cons_val_zero, Real.norm_eq_abs, abs_le] at this
    linarith [this.1]
  have n1 : ∀ v : Fin 1 → ℝ, ‖v‖ = |v 0| := fun v => by
    rw [Pi.norm_def]; simp
  obtain ⟨X, k, _, _, h1, h2, _⟩ := C97_converges_partial (n := 1) (eval := fun v => (v.vget 0).map fun x => col ![x * x - 4])
    (jac := fun v => (v.vget 0).map fun x => ⟨1, 1, [2 * x]⟩) (g := fun x => ![x 0 * x 0 - 4]) (J := fun x => !![2 * x 0])
    (fun x => by simp [hv]) (fun x => ⟨⟨1, 1, [2 * x 0]⟩, by simp [hv], by constructor <;> simp [Mat.get]⟩)
    (z := ![2]) (r := 1) (L := 2) (β := 1 / 2)
    (by funext i; fin_cases i; norm_num) (by norm_num)
    (fun x _ => by
      rw [hasFDerivAt_pi']
      intro i
      fin_cases i
      have h0 : HasFDerivAt (fun x : Fin 1 → ℝ => x 0) (ContinuousLinearMap.proj (R := ℝ) (φ := fun _ : Fin 1 => ℝ) 0) x :=
        (ContinuousLinearMap.proj (R := ℝ) (φ := fun _ : Fin 1 => ℝ) 0).hasFDerivAt
      have := (h0.mul h0).sub_const 4
      refine this.congr_fderiv ?_
      ext v
      simp [dotProduct]
      ring)
    (fun x y _ _ v => by
      rw [n1, n1, n1]
      simp only [Matrix.mulVec, dotProduct, univ_unique, Fin.default_eq_zero, sum_singleton, Matrix.sub_apply, Pi.sub_apply,
        Matrix.of_apply, Matrix.cons_val_zero]
      rw [show 2 * x 0 - 2 * y 0 = 2 * (x 0 - y 0) by ring, abs_mul, abs_mul, abs_two])
    (fun x hx v => by
      rw [n1, n1]
      have h := hb x hx
      simp only [Matrix.mulVec, dotProduct, univ_unique, Fin.default_eq_zero, sum_singleton, Matrix.of_apply,
        Matrix.cons_val', Matrix.cons_val_fin_one]
      rw [abs_mul, abs_of_nonneg (by linarith : (0 : ℝ) ≤ 2 * x 0)]
      nlinarith [abs_nonneg (v 0)])
    (fun x hx => regular_one (by have := hb x hx; simp; linarith)) (by norm_num) (x₀ := ![3])
    (by rw [n1]; norm_num) (tol := 1 / 10 ^ 6) (iters := 1000) ⟨5, by norm_num, by norm_num⟩
  exact ⟨X k, h1, h2⟩

/-- the same in exact arithmetic with a coarser tolerance: `3`, `13/6`, and then the root up to `0.0065` is returned -/
example : findRoot Rat.sqrt (1 / 100) (fun v => (v.vget 0).map fun x => col ![x * x - 4])
    (fun v => (v.vget 0).map fun x => ⟨1, 1, [2 * x]⟩) 1000 (col ![(3 : ℚ)]) = some (some (col ![313 / 156])) := by decide +kernel

/-- in two and more dimensions the decomposition of `-1` meets a zero pivot, since `0` is larger than `-1` -/
theorem not_regular_neg_one {K : Type} [Field K] [LinearOrder K] [IsStrictOrderedRing K] {n : ℕ} (hn : 2 ≤ n) :
    ¬ Regular (-1 : Matrix (Fin n) (Fin n) K) := by
  refine not_regular_of_column ⟨0, by omega⟩ rfl (fun i => ?_) ⟨⟨1, by omega⟩, ?_⟩
  · rw [Matrix.neg_apply, Matrix.one_apply]
    split_ifs <;> simp
  · rw [Matrix.neg_apply, Matrix.one_apply, if_neg (by simp [Fin.ext_iff]), neg_zero]

/-- The function `b - x` in two or more dimensions has the derivative `-1` everywhere, but `find_root` answers `Err` from every
start, from the root `b` itself too, with every number of iterations and every tolerance up to `1`: `dec_lu` looks for the
largest entry instead of the entry of largest absolute value, and meets the pivot `0`. -/
theorem C97_minus_identity_violated {K : Type} [Field K] [LinearOrder K] [IsStrictOrderedRing K] {sqrt : K → K}
    (hs1 : ∀ a, 1 ≤ a → 1 ≤ sqrt a) {tol : K} (htol : tol ≤ 1) {n : ℕ} (hn : 2 ≤ n) {eval jac : Mat K → Option (Mat K)}
    (b : Fin n → K) (hg : FunRepr eval fun x : Fin n → K => b - x)
    (hJ : MatFunRepr (n := n) jac fun _ => (-1 : Matrix (Fin n) (Fin n) K)) (iters : ℕ) (x₀ : Fin n → K) :
    findRoot sqrt tol eval jac iters (col x₀) = some none :=
  C47_singular hs1 htol hg hJ (fun _ => not_regular_neg_one hn) iters x₀

example : findRoot Rat.sqrt (1 / 100) (fun v => (col ![(5 : ℚ), 7]).sub v) (fun _ => some ⟨2, 2, [-1, 0, 0, -1]⟩) 20
    (col ![5, 7]) = some none := by decide +kernel

end Verif
