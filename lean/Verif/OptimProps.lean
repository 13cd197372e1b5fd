import Verif.OptimLemmas
import Mathlib.Analysis.Calculus.Deriv.Basic
import Mathlib.Analysis.Calculus.Deriv.Comp
import Mathlib.Analysis.Calculus.Deriv.Add
import Mathlib.Analysis.Calculus.Deriv.Mul
import Mathlib.Analysis.SpecificLimits.Basic
import Mathlib.Tactic.Linarith

/-! # Gradient descent and Newton's method: C64 and C65 -/

namespace Verif
namespace Opt
open Finset Matrix
variable {K : Type} [Field K] [LinearOrder K]

/-! ## C64 gradient descent -/

/-- C64: `new` panics exactly if `sigma` is outside `(0, 1]` or `iters = 0`. -/
theorem C64_new_panics (sigma : K) (iters : ℕ) :
    gradientNew sigma iters = none ↔ ¬ (0 < sigma ∧ sigma ≤ 1) ∨ iters = 0 := by
  unfold gradientNew
  split_ifs with h
  · simp only [reduceCtorEq, false_iff]
    rintro (h1 | h1)
    · exact h1 ⟨h.2.1, h.1⟩
    · omega
  · simp only [true_iff]
    by_contra hc
    push Not at hc
    exact h ⟨hc.1.2, hc.1.1, by omega⟩

example : gradientNew (3 / 10 : ℚ) 100 = some (3 / 10, 100) ∧ gradientNew (0 : ℚ) 100 = none ∧
    gradientNew (11 / 10 : ℚ) 100 = none ∧ gradientNew (1 / 2 : ℚ) 0 = none := by decide +kernel

theorem gradientStep_iff {n : ℕ} (hn : 0 < n) {eval jac : Mat K → Option (Mat K)} {φ : (Fin n → K) → K}
    {g : (Fin n → K) → (Fin n → K)} (hφ : ObjRepr eval φ) (hg : GradRepr jac g) (sigma : K) (fuel : ℕ)
    (x : Fin n → K) (v : Mat K) :
    gradientStep eval jac sigma fuel (col x) = some v ↔
      ∃ j < fuel, v = col (x - (1 / 2 ^ j : K) • g x) ∧
        φ (x - (1 / 2 ^ j : K) • g x) ≤ φ x - sigma * (1 / 2 ^ j * (g x ⬝ᵥ g x)) ∧
        ∀ i < j, φ x - sigma * (1 / 2 ^ i * (g x ⬝ᵥ g x)) < φ (x - (1 / 2 ^ i : K) • g x) := by
  have e : ∀ a : K, x + a • -g x = x - a • g x := fun a => by rw [smul_neg, sub_eq_add_neg]
  simp only [gradientStep, gradAt_col hg, neg_col, gradientSearch_eq hn hφ, Option.bind_eq_bind, Option.bind_some]
  rw [Option.bind_eq_some_iff]
  constructor
  · rintro ⟨a, h1, h2⟩
    obtain ⟨j, b1, b2, b3, b4⟩ := (bt_iff _ _ _ _).mp h1
    subst b2
    rw [col_mulScalar, col_add, e] at h2
    simp only [decide_eq_true_eq, e, neg_dotProduct_neg, not_le] at b3 b4
    exact ⟨j, b1, (Option.some.inj h2).symm, b3, b4⟩
  · rintro ⟨j, b1, b2, b3, b4⟩
    refine ⟨1 / 2 ^ j, (bt_iff _ _ _ _).mpr ⟨j, b1, rfl, ?_, ?_⟩, ?_⟩
    · simpa only [decide_eq_true_eq, e, neg_dotProduct_neg] using b3
    · simpa only [decide_eq_true_eq, e, neg_dotProduct_neg, not_le] using b4
    · rw [col_mulScalar, col_add, e, b2]

/-- C64: exactly what `minimize` computes (when it terminates): `iters` steps `x ← x - α ∇φ(x)`, where `α` is the first of
    `1, 1/2, 1/4, …` with `φ(x - α ∇φ(x)) ≤ φ(x) - σ α |∇φ(x)|²`. -/
theorem C64_trajectory {n : ℕ} (hn : 0 < n) {eval jac : Mat K → Option (Mat K)} {φ : (Fin n → K) → K}
    {g : (Fin n → K) → (Fin n → K)} (hφ : ObjRepr eval φ) (hg : GradRepr jac g) (sigma : K) (iters fuel : ℕ)
    (x₀ : Fin n → K) (v : Mat K) :
    gradientMinimize eval jac sigma iters fuel (col x₀) = some v ↔
      ∃ xs : ℕ → (Fin n → K), xs 0 = x₀ ∧ v = col (xs iters) ∧ ∀ k < iters, ∃ j < fuel,
        xs (k + 1) = xs k - (1 / 2 ^ j : K) • g (xs k) ∧
        φ (xs (k + 1)) ≤ φ (xs k) - sigma * (1 / 2 ^ j * (g (xs k) ⬝ᵥ g (xs k))) ∧
        ∀ i < j, φ (xs k) - sigma * (1 / 2 ^ i * (g (xs k) ⬝ᵥ g (xs k))) < φ (xs k - (1 / 2 ^ i : K) • g (xs k)) := by
  unfold gradientMinimize
  rw [forRange_traj]
  constructor
  · rintro ⟨ys, h1, h2, h3⟩
    have hc : ∀ k, k ≤ iters → ∃ x : Fin n → K, ys k = col x := by
      intro k
      induction k with
      | zero => exact fun _ => ⟨x₀, h1⟩
      | succ k ih =>
        intro hk
        obtain ⟨x, hx⟩ := ih (by omega)
        have := h3 k (by omega)
        rw [hx] at this
        obtain ⟨j, -, h, -⟩ := (gradientStep_iff hn hφ hg sigma fuel x _).mp this
        exact ⟨_, h⟩
    choose! xs hxs using hc
    refine ⟨xs, col_injective (by rw [← hxs 0 (by omega), h1]), by rw [← h2, hxs iters le_rfl], fun k hk => ?_⟩
    have := h3 k hk
    rw [hxs k (by omega)] at this
    obtain ⟨j, b1, b2, b3, b4⟩ := (gradientStep_iff hn hφ hg sigma fuel _ _).mp this
    rw [hxs (k + 1) (by omega)] at b2
    have b2 := col_injective b2
    exact ⟨j, b1, b2, by rw [b2]; exact b3, b4⟩
  · rintro ⟨xs, h1, h2, h3⟩
    refine ⟨fun k => col (xs k), by simp [h1], h2.symm, fun k hk => ?_⟩
    obtain ⟨j, b1, b2, b3, b4⟩ := h3 k hk
    exact (gradientStep_iff hn hφ hg sigma fuel _ _).mpr ⟨j, b1, by simp only [b2], by rw [← b2]; exact b3, b4⟩

theorem dot_self_nonneg [IsStrictOrderedRing K] {n : ℕ} (x : Fin n → K) : 0 ≤ x ⬝ᵥ x :=
  Finset.sum_nonneg (fun i _ => mul_self_nonneg (x i))

theorem dot_self_pos [IsStrictOrderedRing K] {n : ℕ} {x : Fin n → K} (h : x ≠ 0) : 0 < x ⬝ᵥ x := by
  refine lt_of_le_of_ne (dot_self_nonneg x) (fun h0 => h ?_)
  funext i
  have := (Finset.sum_eq_zero_iff_of_nonneg (fun i _ => mul_self_nonneg (x i))).mp h0.symm i (mem_univ i)
  simpa using this

/-- C64: the result is never worse than the start point; summed over all iterations the objective has dropped by at least
    `σ Σ αₖ |∇φ(xₖ)|²`. -/
theorem C64_monotone [IsStrictOrderedRing K] {n : ℕ} (hn : 0 < n) {eval jac : Mat K → Option (Mat K)}
    {φ : (Fin n → K) → K} {g : (Fin n → K) → (Fin n → K)} (hφ : ObjRepr eval φ) (hg : GradRepr jac g) {sigma : K}
    (hsig : 0 ≤ sigma) (iters fuel : ℕ) (x₀ : Fin n → K) (v : Mat K)
    (h : gradientMinimize eval jac sigma iters fuel (col x₀) = some v) :
    ∃ x, v = col x ∧ φ x ≤ φ x₀ ∧ ∃ (xs : ℕ → (Fin n → K)) (α : ℕ → K), xs 0 = x₀ ∧ xs iters = x ∧
      (∀ k < iters, 0 < α k ∧ α k ≤ 1 ∧ xs (k + 1) = xs k - α k • g (xs k) ∧ φ (xs (k + 1)) ≤ φ (xs k)) ∧
      φ x ≤ φ x₀ - sigma * ∑ k ∈ range iters, α k * (g (xs k) ⬝ᵥ g (xs k)) := by
  obtain ⟨xs, h1, h2, h3⟩ := (C64_trajectory hn hφ hg sigma iters fuel x₀ v).mp h
  choose! j b1 b2 b3 b4 using h3
  have hpos : ∀ k, (0 : K) < 1 / 2 ^ j k := fun k => by positivity
  have key : ∀ N ≤ iters, φ (xs N) ≤ φ (xs 0) - sigma * ∑ k ∈ range N, 1 / 2 ^ j k * (g (xs k) ⬝ᵥ g (xs k)) := by
    intro N
    induction N with
    | zero => simp
    | succ N ih =>
      intro hN
      have := ih (by omega)
      have h4 := b3 N (by omega)
      rw [sum_range_succ, mul_add]
      linarith
  have hnn : ∀ N, 0 ≤ sigma * ∑ k ∈ range N, 1 / 2 ^ j k * (g (xs k) ⬝ᵥ g (xs k)) := fun N =>
    mul_nonneg hsig (sum_nonneg fun k _ => mul_nonneg (hpos k).le (dot_self_nonneg _))
  refine ⟨xs iters, h2, ?_, xs, fun k => 1 / 2 ^ j k, h1, rfl, fun k hk => ⟨hpos k, ?_, b2 k hk, ?_⟩, ?_⟩
  · have := key iters le_rfl
    have := hnn iters
    rw [h1] at *
    linarith
  · rw [div_le_one (by positivity)]
    exact one_le_pow₀ (by norm_num)
  · have := b3 k hk
    have := mul_nonneg hsig (mul_nonneg (hpos k).le (dot_self_nonneg (g (xs k))))
    linarith
  · have := key iters le_rfl
    rwa [h1] at this

/-- C64: if the objective is bounded below by `B`, some iterate satisfies `α |∇φ|² ≤ (φ(x₀) - B) / (σ iters)`. -/
theorem C64_small_gradient [IsStrictOrderedRing K] {n : ℕ} (hn : 0 < n) {eval jac : Mat K → Option (Mat K)}
    {φ : (Fin n → K) → K} {g : (Fin n → K) → (Fin n → K)} (hφ : ObjRepr eval φ) (hg : GradRepr jac g) {sigma B : K}
    (hsig : 0 < sigma) (hB : ∀ x, B ≤ φ x) {iters : ℕ} (hi : 0 < iters) (fuel : ℕ) (x₀ : Fin n → K) (v : Mat K)
    (h : gradientMinimize eval jac sigma iters fuel (col x₀) = some v) :
    ∃ (x : Fin n → K) (α : K), 0 < α ∧ φ x ≤ φ x₀ ∧ α * (g x ⬝ᵥ g x) ≤ (φ x₀ - B) / (sigma * iters) := by
  obtain ⟨x, -, -, xs, α, h1, h2, h3, h4⟩ := C64_monotone hn hφ hg hsig.le iters fuel x₀ v h
  by_contra hc
  push Not at hc
  have hdec : ∀ k, k ≤ iters → φ (xs k) ≤ φ x₀ := by
    intro k
    induction k with
    | zero => intro _; rw [h1]
    | succ k ih => exact fun hk => ((h3 k (by omega)).2.2.2).trans (ih (by omega))
  have hit : (0 : K) < iters := by exact_mod_cast hi
  have : ∑ _k ∈ range iters, (φ x₀ - B) / (sigma * iters) < ∑ k ∈ range iters, α k * (g (xs k) ⬝ᵥ g (xs k)) :=
    sum_lt_sum_of_nonempty ⟨0, mem_range.mpr hi⟩ (fun k hk => by
      have hk := mem_range.mp hk
      exact hc _ _ (h3 k hk).1 (hdec k hk.le))
  rw [sum_const, card_range, nsmul_eq_mul] at this
  have e : sigma * (iters * ((φ x₀ - B) / (sigma * iters))) = φ x₀ - B := by
    field_simp
  have h5 := mul_lt_mul_of_pos_left this hsig
  rw [e] at h5
  have := hB x
  linarith

/-- Backtracking along a descent direction of a differentiable function ends. -/
theorem armijo_exists {n : ℕ} {φ : (Fin n → ℝ) → ℝ} {L : (Fin n → ℝ) →L[ℝ] ℝ} {x : Fin n → ℝ} (hd : HasFDerivAt φ L x)
    {d : Fin n → ℝ} {sigma : ℝ} (hs : sigma < 1) (hm : L d < 0) :
    ∃ j : ℕ, φ (x + (1 / 2 ^ j : ℝ) • d) ≤ φ x + L d * (sigma * (1 / 2 ^ j)) := by
  have hc : HasDerivAt (fun a : ℝ => φ (x + a • d)) (L d) 0 := by
    have h1 : HasDerivAt (fun a : ℝ => x + a • d) d 0 := by
      simpa using ((hasDerivAt_id (0 : ℝ)).smul_const d).const_add x
    have h2 : HasFDerivAt φ L (x + (0 : ℝ) • d) := by simpa using hd
    exact h2.comp_hasDerivAt (0 : ℝ) h1
  have h3 := hasDerivAt_iff_isLittleO_nhds_zero.mp hc
  have h4 := h3.def (c := (1 - sigma) * -(L d)) (mul_pos (by linarith) (by linarith))
  have h5 : Filter.Tendsto (fun j : ℕ => (1 / 2 : ℝ) ^ j) Filter.atTop (nhds 0) :=
    tendsto_pow_atTop_nhds_zero_of_lt_one (by norm_num) (by norm_num)
  obtain ⟨j, hj⟩ := (h5.eventually h4).exists
  refine ⟨j, ?_⟩
  rw [one_div_pow] at hj
  simp only [zero_add, zero_smul, add_zero, Real.norm_eq_abs, smul_eq_mul] at hj
  have hp : (0 : ℝ) < 1 / 2 ^ j := by positivity
  rw [abs_of_pos hp] at hj
  have := (abs_le.mp hj).2
  nlinarith

/-- C64: over the reals, for a differentiable objective with gradient `g` and `σ < 1`, every line search ends, so `minimize`
    terminates. -/
theorem C64_terminates {n : ℕ} (hn : 0 < n) {eval jac : Mat ℝ → Option (Mat ℝ)} {φ : (Fin n → ℝ) → ℝ}
    {g : (Fin n → ℝ) → (Fin n → ℝ)} (hφ : ObjRepr eval φ) (hg : GradRepr jac g)
    (hd : ∀ x, ∃ L : (Fin n → ℝ) →L[ℝ] ℝ, HasFDerivAt φ L x ∧ ∀ v, L v = g x ⬝ᵥ v) {sigma : ℝ} (hs : sigma < 1)
    (iters : ℕ) (x₀ : Fin n → ℝ) :
    ∃ fuel₀, ∀ fuel ≥ fuel₀, ∃ v, gradientMinimize eval jac sigma iters fuel (col x₀) = some v := by
  have step : ∀ x : Fin n → ℝ, ∃ fuel₀, ∃ y : Fin n → ℝ, ∀ fuel ≥ fuel₀, gradientStep eval jac sigma fuel (col x) = some (col y) := by
    intro x
    obtain ⟨L, hL, hLg⟩ := hd x
    have hex : ∃ j : ℕ, φ (x - (1 / 2 ^ j : ℝ) • g x) ≤ φ x - sigma * (1 / 2 ^ j * (g x ⬝ᵥ g x)) := by
      by_cases h0 : g x = 0
      · exact ⟨0, by simp [h0]⟩
      · have hm : L (-g x) < 0 := by
          rw [hLg, dotProduct_neg]
          linarith [dot_self_pos h0]
        obtain ⟨j, hj⟩ := armijo_exists hL hs hm
        refine ⟨j, ?_⟩
        rw [hLg, dotProduct_neg, smul_neg, ← sub_eq_add_neg] at hj
        linarith
    classical
    refine ⟨Nat.find hex + 1, x - (1 / 2 ^ Nat.find hex : ℝ) • g x, fun fuel hf => ?_⟩
    rw [gradientStep_iff hn hφ hg]
    exact ⟨Nat.find hex, by omega, rfl, Nat.find_spec hex, fun i hi => not_le.mp (Nat.find_min hex hi)⟩
  suffices H : ∃ fuel₀, ∃ y : Fin n → ℝ, ∀ fuel ≥ fuel₀, gradientMinimize eval jac sigma iters fuel (col x₀) = some (col y) by
    obtain ⟨f0, y, h⟩ := H
    exact ⟨f0, fun f hf => ⟨_, h f hf⟩⟩
  induction iters with
  | zero => exact ⟨0, x₀, fun f _ => forRange_empty (le_refl 0) _ _⟩
  | succ N ih =>
    obtain ⟨f1, y, h1⟩ := ih
    obtain ⟨f2, z, h2⟩ := step y
    refine ⟨max f1 f2, z, fun f hf => ?_⟩
    have e1 := h1 f (le_trans (le_max_left _ _) hf)
    unfold gradientMinimize at e1 ⊢
    rw [forRange_succ (Nat.zero_le N), e1, Option.bind_some]
    exact h2 f (le_trans (le_max_right _ _) hf)

/-- `new` accepts `σ = 1`, but then the line search of `φ(x) = x²` never ends (in exact arithmetic), whatever the start
    `x ≠ 0` is. -/
theorem C64_sigma_one_diverges [IsStrictOrderedRing K] {eval jac : Mat K → Option (Mat K)}
    (hφ : ObjRepr (n := 1) eval (fun x => x 0 * x 0)) (hg : GradRepr (n := 1) jac (fun x => fun _ => 2 * x 0))
    (iters fuel : ℕ) (hi : 0 < iters) (x₀ : Fin 1 → K) (h0 : x₀ 0 ≠ 0) :
    gradientMinimize eval jac 1 iters fuel (col x₀) = none := by
  rw [Option.eq_none_iff_forall_ne_some]
  intro v hv
  obtain ⟨xs, h1, h2, h3⟩ := (C64_trajectory (by norm_num) hφ hg 1 iters fuel x₀ v).mp hv
  obtain ⟨j, _, b2, b3, _⟩ := h3 0 hi
  rw [b2, h1] at b3
  simp only [Pi.sub_apply, Pi.smul_apply, smul_eq_mul, dotProduct, univ_unique, Fin.default_eq_zero, Fin.isValue,
    sum_const, card_singleton, one_smul] at b3
  generalize hx : x₀ 0 = x at *
  have hp : (0 : K) < 1 / 2 ^ j := by positivity
  generalize (1 : K) / 2 ^ j = a at *
  have : 0 < (a * x) * (a * x) := by
    exact mul_self_pos.mpr (mul_ne_zero hp.ne' h0)
  nlinarith

/-- `φ(x, y) = x² + 3 y²` from `(4, 1)`, one iteration with `σ = 3/10`: the step `1/4` is accepted -/
example : gradientMinimize (fun v => do
      let x ← v.vget 0
      let y ← v.vget 1
      some (col ![x * x + 3 * (y * y)])) (fun v => do
      let x ← v.vget 0
      let y ← v.vget 1
      some ⟨1, 2, [2 * x, 6 * y]⟩) (3 / 10) 1 10 (col ![(4 : ℚ), 1]) = some (col ![2, -1 / 2]) := by decide +kernel

/-! ## C65 Newton's method -/

theorem newtonDir_col [IsStrictOrderedRing K] {n : ℕ} (hn : 0 < n) (rho : K) (g s : Fin n → K) :
    newtonDir rho (col g) (some (col s)) = some (col (if g ⬝ᵥ s ≤ -rho * (g ⬝ᵥ g) then s else -g)) := by
  simp only [newtonDir, dotp_col hn, Option.bind_eq_bind, Option.bind_some]
  split_ifs <;> simp [neg_col]

/-- The direction and step of one iteration.  `d` is the Newton direction `s` or the negative gradient. -/
theorem newtonMinStep_iff [IsStrictOrderedRing K] {n : ℕ} (hn : 0 < n) {eval jac hess : Mat K → Option (Mat K)}
    {φ : (Fin n → K) → K} {g : (Fin n → K) → (Fin n → K)} {H : (Fin n → K) → Matrix (Fin n) (Fin n) K}
    (hφ : ObjRepr eval φ) (hg : GradRepr jac g) (hH : MatFunRepr hess H) (sigma rho : K) (fuel : ℕ) (x : Fin n → K) :
    ∃ s d : Fin n → K, (Regular (H x) → H x *ᵥ s = -g x) ∧ d = (if g x ⬝ᵥ s ≤ -rho * (g x ⬝ᵥ g x) then s else -g x) ∧
      ∀ v, newtonMinStep eval jac hess sigma rho fuel (col x) = some v ↔
        ∃ j < fuel, v = col (x + (1 / 2 ^ j : K) • d) ∧
          φ (x + (1 / 2 ^ j : K) • d) ≤ φ x + g x ⬝ᵥ d * (sigma * (1 / 2 ^ j)) ∧
          ∀ i < j, φ x + g x ⬝ᵥ d * (sigma * (1 / 2 ^ i)) < φ (x + (1 / 2 ^ i : K) • d) := by
  obtain ⟨A, hA, hR⟩ := hH x
  obtain ⟨s, hs, hreg⟩ : ∃ s : Fin n → K, A.solveV (col (-g x)) = some (col s) ∧ (Regular (H x) → H x *ᵥ s = -g x) := by
    by_cases hr : Regular (H x)
    · obtain ⟨s, h1, h2⟩ := solveV_regular hR hr (-g x)
      exact ⟨s, h1, fun _ => h2⟩
    · obtain ⟨s, h1⟩ := solveV_col hR (-g x)
      exact ⟨s, h1, fun h => absurd h hr⟩
  refine ⟨s, _, hreg, rfl, fun v => ?_⟩
  simp only [newtonMinStep, hA, gradAt_col hg, neg_col, hs, newtonDir_col hn, obj_col hφ, dotp_col hn, newtonSearch_eq hφ,
    Option.bind_eq_bind, Option.bind_some]
  generalize (if g x ⬝ᵥ s ≤ -rho * (g x ⬝ᵥ g x) then s else -g x) = d
  rw [Option.bind_eq_some_iff]
  constructor
  · rintro ⟨a, h1, h2⟩
    obtain ⟨j, b1, b2, b3, b4⟩ := (bt_iff _ _ _ _).mp h1
    subst b2
    rw [col_mulScalar, col_add] at h2
    simp only [decide_eq_true_eq, not_le] at b3 b4
    exact ⟨j, b1, (Option.some.inj h2).symm, b3, b4⟩
  · rintro ⟨j, b1, b2, b3, b4⟩
    refine ⟨1 / 2 ^ j, (bt_iff _ _ _ _).mpr ⟨j, b1, rfl, by simpa using b3, by simpa using b4⟩, ?_⟩
    rw [col_mulScalar, col_add, b2]

/-- C65: every search direction is a descent direction: `∇φ · d ≤ -min(ρ, 1) |∇φ|²`. -/
theorem C65_descent_direction [IsStrictOrderedRing K] {n : ℕ} (hn : 0 < n) (rho : K) (g : Fin n → K)
    (res : Option (Fin n → K)) :
    ∃ d, newtonDir rho (col g) (res.map col) = some (col d) ∧ g ⬝ᵥ d ≤ -(min rho 1) * (g ⬝ᵥ g) ∧
      (some d = res ∨ d = -g) := by
  have hg := dot_self_nonneg g
  have h1 : min rho 1 * (g ⬝ᵥ g) ≤ 1 * (g ⬝ᵥ g) := mul_le_mul_of_nonneg_right (min_le_right _ _) hg
  have h2 : min rho 1 * (g ⬝ᵥ g) ≤ rho * (g ⬝ᵥ g) := mul_le_mul_of_nonneg_right (min_le_left _ _) hg
  have h3 : g ⬝ᵥ -g ≤ -(min rho 1) * (g ⬝ᵥ g) := by rw [dotProduct_neg]; linarith
  cases res with
  | none => exact ⟨-g, by simp [newtonDir, neg_col], h3, Or.inr rfl⟩
  | some s =>
    refine ⟨_, newtonDir_col hn rho g s, ?_⟩
    split_ifs with h
    · exact ⟨by linarith, Or.inl rfl⟩
    · exact ⟨h3, Or.inr rfl⟩

/-- C65: with `ρ, σ ≥ 0` the objective never increases, whatever the Hessian is (even one that is not the Hessian of the
    objective, or that the solver fails on). -/
theorem C65_monotone [IsStrictOrderedRing K] {n : ℕ} (hn : 0 < n) {eval jac hess : Mat K → Option (Mat K)}
    {φ : (Fin n → K) → K} {g : (Fin n → K) → (Fin n → K)} {H : (Fin n → K) → Matrix (Fin n) (Fin n) K}
    (hφ : ObjRepr eval φ) (hg : GradRepr jac g) (hH : MatFunRepr hess H) {sigma rho : K} (hs : 0 ≤ sigma) (hr : 0 ≤ rho)
    (iters fuel : ℕ) (x₀ : Fin n → K) (v : Mat K)
    (h : newtonMinimize eval jac hess sigma rho iters fuel (col x₀) = some v) :
    ∃ x, v = col x ∧ φ x ≤ φ x₀ ∧ ∃ (xs : ℕ → (Fin n → K)), xs 0 = x₀ ∧ xs iters = x ∧
      ∀ k < iters, ∃ (d : Fin n → K) (α : K), 0 < α ∧ α ≤ 1 ∧ xs (k + 1) = xs k + α • d ∧
        g (xs k) ⬝ᵥ d ≤ -(min rho 1) * (g (xs k) ⬝ᵥ g (xs k)) ∧
        φ (xs (k + 1)) ≤ φ (xs k) - sigma * α * min rho 1 * (g (xs k) ⬝ᵥ g (xs k)) := by
  obtain ⟨ys, h1, h2, h3⟩ := (forRange_traj _ _ _ _).mp h
  have step : ∀ (x : Fin n → K) (w : Mat K), newtonMinStep eval jac hess sigma rho fuel (col x) = some w →
      ∃ y : Fin n → K, w = col y ∧ ∃ (d : Fin n → K) (α : K), 0 < α ∧ α ≤ 1 ∧ y = x + α • d ∧
        g x ⬝ᵥ d ≤ -(min rho 1) * (g x ⬝ᵥ g x) ∧ φ y ≤ φ x - sigma * α * min rho 1 * (g x ⬝ᵥ g x) := by
    intro x w hw
    obtain ⟨s, d, -, hd, hst⟩ := newtonMinStep_iff hn hφ hg hH sigma rho fuel x
    obtain ⟨j, -, b2, b3, -⟩ := (hst w).mp hw
    obtain ⟨d', e1, e2, -⟩ := C65_descent_direction hn rho (g x) (some s)
    rw [Option.map_some, newtonDir_col hn, ← hd] at e1
    obtain rfl := col_injective (Option.some.inj e1)
    have hp : (0 : K) < 1 / 2 ^ j := by positivity
    refine ⟨_, b2, d, 1 / 2 ^ j, hp, ?_, rfl, e2, ?_⟩
    · rw [div_le_one (by positivity)]
      exact one_le_pow₀ (by norm_num)
    · have := mul_le_mul_of_nonneg_right e2 (mul_nonneg hs hp.le)
      refine b3.trans ?_
      linarith
  have hc : ∀ k, k ≤ iters → ∃ x : Fin n → K, ys k = col x := by
    intro k
    induction k with
    | zero => exact fun _ => ⟨x₀, h1⟩
    | succ k ih =>
      intro hk
      obtain ⟨x, hx⟩ := ih (by omega)
      have := h3 k (by omega)
      rw [hx] at this
      obtain ⟨y, hy, -⟩ := step x _ this
      exact ⟨y, hy⟩
  choose! xs hxs using hc
  have h0 : xs 0 = x₀ := col_injective (by rw [← hxs 0 (by omega), h1])
  have h4 : ∀ k < iters, ∃ (d : Fin n → K) (α : K), 0 < α ∧ α ≤ 1 ∧ xs (k + 1) = xs k + α • d ∧
        g (xs k) ⬝ᵥ d ≤ -(min rho 1) * (g (xs k) ⬝ᵥ g (xs k)) ∧
        φ (xs (k + 1)) ≤ φ (xs k) - sigma * α * min rho 1 * (g (xs k) ⬝ᵥ g (xs k)) := by
    intro k hk
    have := h3 k hk
    rw [hxs k (by omega)] at this
    obtain ⟨y, hy, hrest⟩ := step _ _ this
    rw [hxs (k + 1) (by omega)] at hy
    rw [col_injective hy]
    exact hrest
  refine ⟨xs iters, by rw [← h2, hxs iters le_rfl], ?_, xs, h0, rfl, h4⟩
  have hdec : ∀ k, k ≤ iters → φ (xs k) ≤ φ x₀ := by
    intro k
    induction k with
    | zero => intro _; rw [h0]
    | succ k ih =>
      intro hk
      obtain ⟨d, α, a1, -, -, -, a5⟩ := h4 k (by omega)
      have : 0 ≤ sigma * α * min rho 1 * (g (xs k) ⬝ᵥ g (xs k)) :=
        mul_nonneg (mul_nonneg (mul_nonneg hs a1.le) (le_min hr zero_le_one)) (dot_self_nonneg _)
      linarith [ih (by omega)]
  exact hdec iters le_rfl

/-- C65: over the reals, for a differentiable objective with gradient `g`, `ρ > 0`, `σ < 1` and Hessians on which the solver
    works, `minimize` terminates. -/
theorem C65_terminates {n : ℕ} (hn : 0 < n) {eval jac hess : Mat ℝ → Option (Mat ℝ)}
    {φ : (Fin n → ℝ) → ℝ} {g : (Fin n → ℝ) → (Fin n → ℝ)} {H : (Fin n → ℝ) → Matrix (Fin n) (Fin n) ℝ}
    (hφ : ObjRepr eval φ) (hg : GradRepr jac g) (hH : MatFunRepr hess H) (hreg : ∀ x, Regular (H x))
    (hd : ∀ x, ∃ L : (Fin n → ℝ) →L[ℝ] ℝ, HasFDerivAt φ L x ∧ ∀ v, L v = g x ⬝ᵥ v) {sigma rho : ℝ} (hs : sigma < 1)
    (hr : 0 < rho) (iters : ℕ) (x₀ : Fin n → ℝ) :
    ∃ fuel₀, ∀ fuel ≥ fuel₀, ∃ v, newtonMinimize eval jac hess sigma rho iters fuel (col x₀) = some v := by
  have step : ∀ x : Fin n → ℝ, ∃ fuel₀, ∃ y : Fin n → ℝ, ∀ fuel ≥ fuel₀,
      newtonMinStep eval jac hess sigma rho fuel (col x) = some (col y) := by
    intro x
    obtain ⟨L, hL, hLg⟩ := hd x
    -- the direction does not depend on the fuel
    obtain ⟨A, hA, hR⟩ := hH x
    obtain ⟨s, hs1, hs2⟩ := solveV_regular hR (hreg x) (-g x)
    set d := if g x ⬝ᵥ s ≤ -rho * (g x ⬝ᵥ g x) then s else -g x with hdd
    have hstep : ∀ fuel v, newtonMinStep eval jac hess sigma rho fuel (col x) = some v ↔
        ∃ j < fuel, v = col (x + (1 / 2 ^ j : ℝ) • d) ∧
          φ (x + (1 / 2 ^ j : ℝ) • d) ≤ φ x + g x ⬝ᵥ d * (sigma * (1 / 2 ^ j)) ∧
          ∀ i < j, φ x + g x ⬝ᵥ d * (sigma * (1 / 2 ^ i)) < φ (x + (1 / 2 ^ i : ℝ) • d) := by
      intro fuel v
      obtain ⟨s', d', e1, e2, e3⟩ := newtonMinStep_iff hn hφ hg hH sigma rho fuel x
      have : s' = s := by
        have h0 := regular_injective (hreg x) (s' - s) (by rw [mulVec_sub, e1 (hreg x), hs2, sub_self])
        exact sub_eq_zero.mp h0
      rw [this, ← hdd] at e2
      rw [e3, e2]
    have hex : ∃ j : ℕ, φ (x + (1 / 2 ^ j : ℝ) • d) ≤ φ x + g x ⬝ᵥ d * (sigma * (1 / 2 ^ j)) := by
      by_cases h0 : g x = 0
      · have hs0 : s = 0 := regular_injective (hreg x) s (by rw [hs2, h0, neg_zero])
        have hd0 : d = 0 := by
          rw [hdd]; split_ifs
          · exact hs0
          · rw [h0, neg_zero]
        exact ⟨0, by simp [hd0]⟩
      · obtain ⟨d', e1, e2, -⟩ := C65_descent_direction hn rho (g x) (some s)
        rw [Option.map_some, newtonDir_col hn, ← hdd] at e1
        have e1 := col_injective (Option.some.inj e1)
        rw [← e1] at e2
        have hpos := mul_pos (lt_min hr one_pos) (dot_self_pos h0)
        have hm : L d < 0 := by rw [hLg]; linarith
        obtain ⟨j, hj⟩ := armijo_exists hL hs hm
        exact ⟨j, by rwa [hLg] at hj⟩
    classical
    refine ⟨Nat.find hex + 1, x + (1 / 2 ^ Nat.find hex : ℝ) • d, fun fuel hf => ?_⟩
    rw [hstep]
    exact ⟨Nat.find hex, by omega, rfl, Nat.find_spec hex, fun i hi => not_le.mp (Nat.find_min hex hi)⟩
  suffices H : ∃ fuel₀, ∃ y : Fin n → ℝ, ∀ fuel ≥ fuel₀,
      newtonMinimize eval jac hess sigma rho iters fuel (col x₀) = some (col y) by
    obtain ⟨f0, y, h⟩ := H
    exact ⟨f0, fun f hf => ⟨_, h f hf⟩⟩
  induction iters with
  | zero => exact ⟨0, x₀, fun f _ => forRange_empty (le_refl 0) _ _⟩
  | succ N ih =>
    obtain ⟨f1, y, h1⟩ := ih
    obtain ⟨f2, z, h2⟩ := step y
    refine ⟨max f1 f2, z, fun f hf => ?_⟩
    have e1 := h1 f (le_trans (le_max_left _ _) hf)
    unfold newtonMinimize at e1 ⊢
    rw [forRange_succ (Nat.zero_le N), e1, Option.bind_some]
    exact h2 f (le_trans (le_max_right _ _) hf)

/-- C65: for a quadratic objective `φ(x) = ½ xᵀA x - bᵀx` with symmetric `A` (and `σ ≤ ½`, `ρ |A z|² ≤ zᵀA z`) the exact
    minimiser `A x = b` is found in the first iteration and kept. -/
theorem C65_quadratic [IsStrictOrderedRing K] {n : ℕ} (hn : 0 < n) {eval jac hess : Mat K → Option (Mat K)}
    {A : Matrix (Fin n) (Fin n) K} {b : Fin n → K} (hA : Regular A) (hsym : A.transpose = A)
    (hφ : ObjRepr eval (fun x => (x ⬝ᵥ A *ᵥ x) / 2 - b ⬝ᵥ x)) (hg : GradRepr jac (fun x => A *ᵥ x - b))
    (hH : MatFunRepr (n := n) hess (fun _ => A)) {sigma rho : K} (hs1 : sigma ≤ 1 / 2)
    (hr : 0 ≤ rho) (hrho : ∀ z, rho * (A *ᵥ z ⬝ᵥ A *ᵥ z) ≤ z ⬝ᵥ A *ᵥ z)
    (iters fuel : ℕ) (hi : 0 < iters) (hf : 0 < fuel) (x₀ : Fin n → K) :
    ∃ x, newtonMinimize eval jac hess sigma rho iters fuel (col x₀) = some (col x) ∧ A *ᵥ x = b := by
  have hAs : ∀ u w, A *ᵥ u ⬝ᵥ w = u ⬝ᵥ A *ᵥ w := fun u w => by
    rw [dotProduct_mulVec, ← mulVec_transpose, hsym]
  have step : ∀ x : Fin n → K, ∃ y, newtonMinStep eval jac hess sigma rho fuel (col x) = some (col y) ∧ A *ᵥ y = b := by
    intro x
    obtain ⟨s, d, e1, e2, e3⟩ := newtonMinStep_iff hn hφ hg hH sigma rho fuel x
    have e1 := e1 hA
    have hgs : A *ᵥ x - b = -(A *ᵥ s) := by rw [e1, neg_neg]
    rw [if_pos (by
      rw [hgs, neg_dotProduct_neg, neg_dotProduct, hAs]
      have := hrho s
      linarith)] at e2
    subst e2
    have hb : b = A *ᵥ (x + d) := by
      rw [mulVec_add]
      have : b = A *ᵥ x - (A *ᵥ x - b) := by abel
      rw [this, hgs, sub_neg_eq_add]
    refine ⟨x + d, (e3 _).mpr ⟨0, hf, by simp, ?_, fun i hi => absurd hi (by omega)⟩, hb.symm⟩
    simp only [pow_zero, div_one, one_smul, mul_one]
    rw [hgs, neg_dotProduct, hAs, hb]
    have hc : x ⬝ᵥ A *ᵥ d = d ⬝ᵥ A *ᵥ x := by rw [← hAs, dotProduct_comm]
    simp only [mulVec_add, dotProduct_add, add_dotProduct, hAs, hc]
    have h0 : 0 ≤ d ⬝ᵥ A *ᵥ d := (mul_nonneg hr (dot_self_nonneg _)).trans (hrho d)
    nlinarith
  have : ∃ t, forRange 0 iters (fun x _ => newtonMinStep eval jac hess sigma rho fuel x) (col x₀) = some t ∧
      (∃ x : Fin n → K, t = col x ∧ (0 < iters → A *ᵥ x = b)) :=
    forRange_inv (fun k t => ∃ x : Fin n → K, t = col x ∧ (0 < k → A *ᵥ x = b)) (Nat.zero_le _)
      ⟨x₀, rfl, fun h => absurd h (by omega)⟩ (fun i t _ _ ⟨x, hx, _⟩ => by
        obtain ⟨y, h1, h2⟩ := step x
        exact ⟨_, by rw [hx]; exact h1, y, rfl, fun _ => h2⟩)
  obtain ⟨t, h1, x, rfl, h2⟩ := this
  exact ⟨x, h1, h2 hi⟩

/-- The line search does not end at the minimum of `φ(x) = x⁴` (in exact arithmetic): the Hessian is `0`, for which the
    solver returns the direction `1` instead of reporting a singular matrix. -/
theorem C65_singular_diverges {eval jac hess : Mat ℚ → Option (Mat ℚ)}
    (hφ : ObjRepr (n := 1) eval (fun x => x 0 ^ 4)) (hg : GradRepr (n := 1) jac (fun x => fun _ => 4 * x 0 ^ 3))
    (hh : hess (col ![0]) = some ⟨1, 1, [0]⟩) (sigma rho : ℚ) (fuel : ℕ) :
    newtonMinStep eval jac hess sigma rho fuel (col ![0]) = none := by
  have hz : (-fun _ => 4 * (![0] : Fin 1 → ℚ) 0 ^ 3 : Fin 1 → ℚ) = ![0] := by funext i; simp
  have hs : (⟨1, 1, [0]⟩ : Mat ℚ).solveV (col ![0]) = some (col ![1]) := by decide +kernel
  have hz' : (fun _ => 4 * (![0] : Fin 1 → ℚ) 0 ^ 3 : Fin 1 → ℚ) = 0 := by funext i; simp
  simp only [newtonMinStep, hh, gradAt_col hg, neg_col, hz, hs, newtonDir_col one_pos, obj_col hφ, dotp_col one_pos,
    newtonSearch_eq hφ, Option.bind_eq_bind, Option.bind_some]
  rw [hz']
  simp only [zero_dotProduct, mul_zero, le_refl, if_true, zero_mul]
  have : bt (fun a : ℚ => decide (((![0] + a • ![1] : Fin 1 → ℚ)) 0 ^ 4 ≤ (![0] : Fin 1 → ℚ) 0 ^ 4 + 0)) fuel 1 = none := by
    rw [Option.eq_none_iff_forall_ne_some]
    intro v hv
    obtain ⟨j, -, h2, h3, -⟩ := (bt_iff _ _ _ _).mp hv
    simp only [Pi.add_apply, Pi.smul_apply, smul_eq_mul, Matrix.cons_val_zero, decide_eq_true_eq, mul_one, zero_add,
      add_zero, zero_pow (show 4 ≠ 0 by norm_num)] at h3
    have : (0 : ℚ) < v := by rw [h2]; positivity
    have := pow_pos this 4
    linarith
  rw [this]
  rfl

/-- `φ(x, y) = x² + x y + 2 y² - 3 x - 5 y` from the origin -/
example : newtonMinimize (fun v => do
      let x ← v.vget 0
      let y ← v.vget 1
      some (col ![x * x + x * y + 2 * (y * y) - 3 * x - 5 * y])) (fun v => do
      let x ← v.vget 0
      let y ← v.vget 1
      some ⟨1, 2, [2 * x + y - 3, x + 4 * y - 5]⟩) (fun _ => some ⟨2, 2, [2, 1, 1, 4]⟩) (1 / 10) (1 / 10) 1 10
      (col ![(0 : ℚ), 0]) = some (col ![1, 1]) := by decide +kernel

end Opt
end Verif
