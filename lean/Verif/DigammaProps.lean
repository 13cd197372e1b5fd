import Verif.SpecialLemmas
import Mathlib.Analysis.SpecialFunctions.Gamma.BohrMollerup
import Mathlib.Analysis.SpecialFunctions.Gamma.Deriv
import Mathlib.Analysis.Convex.Deriv
import Mathlib.Analysis.SpecialFunctions.Log.Deriv
import Mathlib.Analysis.Calculus.Deriv.MeanValue

/-!
# C52: `digamma`

The recurrence of the loop is exact below 8.5; the expansion used from 8.5 on differs from the digamma function by less
than `0.45 / x^16`, so the function is correct up to `7 * 10^-16` for all positive arguments.
-/

namespace Verif
namespace Special
open Filter Topology

/-! ## the loop -/

theorem digammaLoop_mono {n : ℕ} {v x : ℝ} {r : ℝ × ℝ} (h : digammaLoop n v x = some r) (m : ℕ) (hm : n ≤ m) :
    digammaLoop m v x = some r := by
  induction n generalizing m v x with
  | zero =>
    simp only [digammaLoop] at h
    split_ifs at h with h1
    cases m with
    | zero => simp [digammaLoop, h1, h]
    | succ m => simp [digammaLoop, h1, h]
  | succ n ih =>
    obtain ⟨m, rfl⟩ : ∃ k, m = k + 1 := ⟨m - 1, by omega⟩
    simp only [digammaLoop, Option.bind_eq_bind] at h ⊢
    split_ifs at h ⊢ with h1
    · cases h2 : R.div 1 x with
      | none => rw [h2] at h; simp at h
      | some q =>
        rw [h2] at h
        simp only [Option.bind_some] at h ⊢
        exact ih h m (by omega)
    · exact h

/-- the start value of the loop is only added -/
theorem digammaLoop_shift (n : ℕ) (v w x : ℝ) :
    digammaLoop n (v + w) x = (digammaLoop n v x).map (fun r => (r.1 + w, r.2)) := by
  induction n generalizing v x with
  | zero => simp only [digammaLoop]; split_ifs <;> simp
  | succ n ih =>
    simp only [digammaLoop, Option.bind_eq_bind]
    split_ifs
    · cases R.div 1 x with
      | none => rfl
      | some q => simp only [Option.bind_some]; rw [show v + w - q = v - q + w by ring, ih]
    · simp

/-- The recurrence holds without error for all `x < 8.5`, `x ≠ 0`: `digamma x = digamma (x + 1) - 1 / x`, also in
where the function has no value. -/
theorem C52_recurrence (n : ℕ) (x : ℝ) (hx : x < 8.5) (h0 : x ≠ 0) :
    digamma (n + 1) x = (digamma n (x + 1)).map (fun v => v - 1 / x) := by
  unfold digamma
  rw [digammaLoop]
  simp only [hx, if_true, div_of_ne h0, Option.bind_eq_bind, Option.bind_some]
  have := digammaLoop_shift n 0 (0 - 1 / x) (x + 1)
  rw [zero_add] at this
  rw [this]
  cases digammaLoop n 0 (x + 1) with
  | none => rfl
  | some r => simp; ring

/-- `digamma` has no value exactly at zero and the negative integers: there the loop divides by zero; everywhere else
the loop ends. -/
theorem digamma_total_aux (k : ℕ) : ∀ x : ℝ, 8.5 - x ≤ k → (∀ m : ℕ, x ≠ -(m : ℝ)) → ∃ v, digamma k x = some v := by
  induction k with
  | zero =>
    intro x hk _
    have : ¬ x < 8.5 := by simp at hk; exact not_lt.2 hk
    simp [digamma, digammaLoop, this]
  | succ k ih =>
    intro x hk hp
    by_cases hx : x < 8.5
    · have h0 : x ≠ 0 := by have := hp 0; simpa using this
      obtain ⟨v, hv⟩ := ih (x + 1) (by push_cast at hk; linarith) (fun m hm => hp (m + 1) (by push_cast; linarith))
      exact ⟨_, by rw [C52_recurrence k x hx h0, hv]; rfl⟩
    · simp [digamma, digammaLoop, hx]

theorem digamma_mono {n : ℕ} {x v : ℝ} (h : digamma n x = some v) (m : ℕ) (hm : n ≤ m) : digamma m x = some v := by
  unfold digamma at h ⊢
  cases h1 : digammaLoop n 0 x with
  | none => rw [h1] at h; simp at h
  | some r => rw [digammaLoop_mono h1 m hm]; rw [h1] at h; exact h

theorem C52_total (x : ℝ) :
    ((∃ m : ℕ, x = -(m : ℝ)) → ∀ n, digamma n x = none) ∧
    ((∀ m : ℕ, x ≠ -(m : ℝ)) → ∃ N v, ∀ n, N ≤ n → digamma n x = some v) := by
  constructor
  · rintro ⟨m, rfl⟩
    have key : ∀ (m : ℕ) (n : ℕ) (v : ℝ), digammaLoop n v (-(m : ℝ)) = none := by
      intro m
      induction m with
      | zero =>
        intro n v
        have : (0 : ℝ) < 8.5 := by norm_num
        cases n <;> simp [digammaLoop, R.div, this]
      | succ m ih =>
        intro n v
        have h1 : -((m + 1 : ℕ) : ℝ) < 8.5 := by
          have : (0 : ℝ) ≤ ((m + 1 : ℕ) : ℝ) := Nat.cast_nonneg _
          norm_num at this ⊢; linarith
        cases n with
        | zero => simp only [digammaLoop, h1, if_true]
        | succ n =>
          have h2 : -((m + 1 : ℕ) : ℝ) ≠ 0 := by
            simp only [ne_eq, neg_eq_zero, Nat.cast_eq_zero]; omega
          rw [digammaLoop]
          simp only [h1, if_true, div_of_ne h2, Option.bind_eq_bind, Option.bind_some]
          rw [show -((m + 1 : ℕ) : ℝ) + 1 = -(m : ℝ) by push_cast; ring]
          exact ih n _
    intro n
    simp [digamma, key]
  · intro hp
    obtain ⟨k, hk⟩ := exists_nat_ge (8.5 - x)
    obtain ⟨v, hv⟩ := digamma_total_aux k x hk hp
    exact ⟨k, v, fun n hn => digamma_mono hv n hn⟩

example : ∃ N v, ∀ n, N ≤ n → digamma n (-0.5) = some v :=
  (C52_total (-0.5)).2 (fun m hm => by
    have h : ((2 * m : ℕ) : ℝ) = 1 := by push_cast; linarith
    have : 2 * m = 1 := by exact_mod_cast h
    omega)

/-! ## the expansion -/

theorem stirling_eq (x : ℝ) : stirling x = Real.log x - 1 / 2 * x⁻¹ - 1 / 12 * x⁻¹ ^ 2 + 1 / 120 * x⁻¹ ^ 4
    - 1 / 252 * x⁻¹ ^ 6 + 1 / 240 * x⁻¹ ^ 8 - 1 / 132 * x⁻¹ ^ 10 + 691 / 32760 * x⁻¹ ^ 12 - 1 / 12 * x⁻¹ ^ 14 := by
  unfold stirling
  simp only [one_div]
  norm_num
  ring

/-- the derivative of the expansion -/
noncomputable def stirling' (x : ℝ) : ℝ := x⁻¹ + 1 / 2 * x⁻¹ ^ 2 + 1 / 6 * x⁻¹ ^ 3 - 1 / 30 * x⁻¹ ^ 5
    + 1 / 42 * x⁻¹ ^ 7 - 1 / 30 * x⁻¹ ^ 9 + 5 / 66 * x⁻¹ ^ 11 - 691 / 2730 * x⁻¹ ^ 13 + 7 / 6 * x⁻¹ ^ 15

theorem hasDerivAt_inv_pow {x : ℝ} (hx : x ≠ 0) (k : ℕ) :
    HasDerivAt (fun y : ℝ => y⁻¹ ^ k) (-(k * x⁻¹ ^ (k + 1))) x := by
  refine ((hasDerivAt_inv hx).fun_pow k).congr_deriv ?_
  cases k with
  | zero => simp
  | succ k =>
    simp only [Nat.add_sub_cancel]
    rw [pow_succ x⁻¹ (k + 1), pow_succ x⁻¹ k]
    field_simp

theorem stirling_hasDerivAt {x : ℝ} (hx : 0 < x) : HasDerivAt stirling (stirling' x) x := by
  have e : stirling = fun x => Real.log x - 1 / 2 * x⁻¹ ^ 1 - 1 / 12 * x⁻¹ ^ 2 + 1 / 120 * x⁻¹ ^ 4
    - 1 / 252 * x⁻¹ ^ 6 + 1 / 240 * x⁻¹ ^ 8 - 1 / 132 * x⁻¹ ^ 10 + 691 / 32760 * x⁻¹ ^ 12
    - 1 / 12 * x⁻¹ ^ 14 := by
    funext y; rw [stirling_eq, pow_one]
  rw [e]
  have h := fun k => hasDerivAt_inv_pow hx.ne' k
  have hd := ((((((((Real.hasDerivAt_log hx.ne').sub ((h 1).const_mul (1 / 2))).sub ((h 2).const_mul (1 / 12))).add
    ((h 4).const_mul (1 / 120))).sub ((h 6).const_mul (1 / 252))).add ((h 8).const_mul (1 / 240))).sub
    ((h 10).const_mul (1 / 132))).add ((h 12).const_mul (691 / 32760))).sub ((h 14).const_mul (1 / 12))
  refine hd.congr_deriv ?_
  unfold stirling'
  push_cast
  ring

/-- the error of the recurrence of the expansion -/
noncomputable def stErr (x : ℝ) : ℝ := stirling (x + 1) - stirling x - x⁻¹

theorem stErr_hasDerivAt {x : ℝ} (hx : 0 < x) :
    HasDerivAt stErr (stirling' (x + 1) - stirling' x + x⁻¹ ^ 2) x := by
  have h1 : HasDerivAt (fun y => stirling (y + 1)) (stirling' (x + 1)) x := by
    exact HasDerivAt.comp_add_const x 1 (stirling_hasDerivAt (x := x + 1) (by positivity))
  refine ((h1.sub (stirling_hasDerivAt hx)).sub (hasDerivAt_inv hx.ne')).congr_deriv ?_
  field_simp
  ring

theorem stErr_deriv_neg {x : ℝ} (hx : 0 < x) : stirling' (x + 1) - stirling' x + x⁻¹ ^ 2 < 0 := by
  have e : stirling' (x + 1) - stirling' x + x⁻¹ ^ 2 =
      -(((7 / 6) * x ^ 2 + (119 / 6) * x ^ 3 + (432469 / 2730) * x ^ 4 + (2154053 / 2730) * x ^ 5 + (27450613 / 10010) * x ^ 6 + (14111105 / 2002) * x ^ 7 + (59401597 / 4290) * x ^ 8 + (1397485 / 66) * x ^ 9 + (58685381 / 2310) * x ^ 10 + (18391943 / 770) * x ^ 11 + (40188433 / 2310) * x ^ 12 + (57409 / 6) * x ^ 13 + (52895 / 14) * x ^ 14 + (14468 / 15) * x ^ 15 + (3617 / 30) * x ^ 16) / (x ^ 17 * (x + 1) ^ 17)) := by
    unfold stirling'
    have h1 : x + 1 ≠ 0 := by positivity
    field_simp
    ring
  rw [e]
  have : 0 < ((7 / 6) * x ^ 2 + (119 / 6) * x ^ 3 + (432469 / 2730) * x ^ 4 + (2154053 / 2730) * x ^ 5 + (27450613 / 10010) * x ^ 6 + (14111105 / 2002) * x ^ 7 + (59401597 / 4290) * x ^ 8 + (1397485 / 66) * x ^ 9 + (58685381 / 2310) * x ^ 10 + (18391943 / 770) * x ^ 11 + (40188433 / 2310) * x ^ 12 + (57409 / 6) * x ^ 13 + (52895 / 14) * x ^ 14 + (14468 / 15) * x ^ 15 + (3617 / 30) * x ^ 16) / (x ^ 17 * (x + 1) ^ 17) := by positivity
  linarith

theorem stErr_deriv_gt {x : ℝ} (hx : 0 < x) :
    0 < stirling' (x + 1) - stirling' x + x⁻¹ ^ 2
      - 3617 / 8160 * (-(16 * x⁻¹ ^ 17) + 16 * (x + 1)⁻¹ ^ 17) := by
  have e : stirling' (x + 1) - stirling' x + x⁻¹ ^ 2
      - 3617 / 8160 * (-(16 * x⁻¹ ^ 17) + 16 * (x + 1)⁻¹ ^ 17) =
      ((3617 / 510) * x ^ 0 + (3617 / 30) * x ^ 1 + (28901 / 30) * x ^ 2 + (28817 / 6) * x ^ 3 + (15216037 / 910) * x ^ 4 + (7843697 / 182) * x ^ 5 + (2553457337 / 30030) * x ^ 6 + (3930319273 / 30030) * x ^ 7 + (680238733 / 4290) * x ^ 8 + (3327199 / 22) * x ^ 9 + (51985783 / 462) * x ^ 10 + (147578723 / 2310) * x ^ 11 + (20396281 / 770) * x ^ 12 + (43867 / 6) * x ^ 13 + (43867 / 42) * x ^ 14) / (x ^ 17 * (x + 1) ^ 17) := by
    unfold stirling'
    have h1 : x + 1 ≠ 0 := by positivity
    field_simp
    ring
  rw [e]
  positivity

/-- a differentiable function with negative derivative and limit zero is positive -/
theorem pos_of_deriv_neg {f f' : ℝ → ℝ} (hd : ∀ x, 0 < x → HasDerivAt f (f' x) x) (hneg : ∀ x, 0 < x → f' x < 0)
    (hl : Tendsto f atTop (𝓝 0)) {x : ℝ} (hx : 0 < x) : 0 < f x := by
  have hanti : StrictAntiOn f (Set.Ioi 0) := by
    apply strictAntiOn_of_deriv_neg (convex_Ioi 0)
    · intro y hy; exact (hd y hy).continuousAt.continuousWithinAt
    · intro y hy
      rw [interior_Ioi] at hy
      rw [(hd y hy).deriv]; exact hneg y hy
  have h1 : f (x + 1) < f x := hanti hx (by simp; linarith) (by linarith)
  have h2 : 0 ≤ f (x + 1) := by
    apply le_of_tendsto hl
    filter_upwards [eventually_gt_atTop (x + 1)] with y hy
    exact (hanti (by simp; linarith) (by simp; linarith) hy).le
  linarith

theorem tendsto_inv_pow (k : ℕ) (hk : k ≠ 0) : Tendsto (fun y : ℝ => y⁻¹ ^ k) atTop (𝓝 0) := by
  have := (tendsto_inv_atTop_zero (𝕜 := ℝ)).pow k
  rwa [zero_pow hk] at this

theorem stirling_sub_log : Tendsto (fun x => stirling x - Real.log x) atTop (𝓝 0) := by
  have e : (fun x => stirling x - Real.log x) = fun x : ℝ => -(1 / 2) * x⁻¹ ^ 1 + -(1 / 12) * x⁻¹ ^ 2
    + 1 / 120 * x⁻¹ ^ 4 + -(1 / 252) * x⁻¹ ^ 6 + 1 / 240 * x⁻¹ ^ 8 + -(1 / 132) * x⁻¹ ^ 10
    + 691 / 32760 * x⁻¹ ^ 12 + -(1 / 12) * x⁻¹ ^ 14 := by
    funext y; rw [stirling_eq]; ring
  rw [e]
  have h := fun (c : ℝ) (k : ℕ) (hk : k ≠ 0) => (tendsto_inv_pow k hk).const_mul c
  have := (((((((h (-(1 / 2)) 1 (by norm_num)).add (h (-(1 / 12)) 2 (by norm_num))).add
    (h (1 / 120) 4 (by norm_num))).add (h (-(1 / 252)) 6 (by norm_num))).add (h (1 / 240) 8 (by norm_num))).add
    (h (-(1 / 132)) 10 (by norm_num))).add (h (691 / 32760) 12 (by norm_num))).add (h (-(1 / 12)) 14 (by norm_num))
  simpa using this

theorem tendsto_add_one : Tendsto (fun x : ℝ => x + 1) atTop atTop := tendsto_atTop_add_const_right _ _ tendsto_id

theorem stErr_tendsto : Tendsto stErr atTop (𝓝 0) := by
  have h1 := stirling_sub_log.comp tendsto_add_one
  have h2 := Real.tendsto_log_comp_add_sub_log 1
  have h3 := (((h1.sub stirling_sub_log).add h2).sub (tendsto_inv_atTop_zero (𝕜 := ℝ)))
  simp only [sub_zero, add_zero] at h3
  refine h3.congr (fun x => ?_)
  simp only [stErr, Function.comp]; ring

/-- The error of the recurrence of the expansion is positive, and smaller than the difference of the next term. -/
theorem stErr_bounds {x : ℝ} (hx : 0 < x) :
    0 < stErr x ∧ stErr x < 3617 / 8160 * (x⁻¹ ^ 16 - (x + 1)⁻¹ ^ 16) := by
  refine ⟨pos_of_deriv_neg (fun y hy => stErr_hasDerivAt hy) (fun y hy => stErr_deriv_neg hy) stErr_tendsto hx, ?_⟩
  have hd : ∀ y, 0 < y → HasDerivAt (fun y => 3617 / 8160 * (y⁻¹ ^ 16 - (y + 1)⁻¹ ^ 16) - stErr y)
      (3617 / 8160 * (-(16 * y⁻¹ ^ 17) + 16 * (y + 1)⁻¹ ^ 17) - (stirling' (y + 1) - stirling' y + y⁻¹ ^ 2)) y := by
    intro y hy
    have h1 := hasDerivAt_inv_pow hy.ne' 16
    have h2 : HasDerivAt (fun y : ℝ => (y + 1)⁻¹ ^ 16) (-(16 * (y + 1)⁻¹ ^ 17)) y := by
      have := HasDerivAt.comp_add_const y 1 (hasDerivAt_inv_pow (x := y + 1) (by positivity) 16)
      exact_mod_cast this
    refine (((h1.sub h2).const_mul (3617 / 8160)).sub (stErr_hasDerivAt hy)).congr_deriv ?_
    push_cast; ring
  have hl : Tendsto (fun y => 3617 / 8160 * (y⁻¹ ^ 16 - (y + 1)⁻¹ ^ 16) - stErr y) atTop (𝓝 0) := by
    have h1 := tendsto_inv_pow 16 (by norm_num)
    have h2 := h1.comp tendsto_add_one
    have := ((h1.sub h2).const_mul (3617 / 8160)).sub stErr_tendsto
    simpa using this
  have := pos_of_deriv_neg hd (fun y hy => by linarith [stErr_deriv_gt hy]) hl hx
  linarith

/-- From 8.5 on there is no loop, and the recurrence fails: `digamma (x + 1) - digamma x - 1 / x` is positive (though
smaller than `8 / x^17`). -/
theorem C52_violated (n : ℕ) (x : ℝ) (hx : 8.5 ≤ x) :
    ∃ u v, digamma n x = some u ∧ digamma n (x + 1) = some v ∧ u + 1 / x < v ∧
      v < u + 1 / x + 3617 / 8160 * (1 / x ^ 16 - 1 / (x + 1) ^ 16) := by
  have hx0 : 0 < x := by norm_num at hx; linarith
  have h1 : ¬ x < 8.5 := not_lt.2 hx
  have h2 : ¬ x + 1 < 8.5 := by norm_num at hx ⊢; linarith
  have hd : ∀ y : ℝ, ¬ y < 8.5 → digamma n y = some (stirling y) := by
    intro y hy
    cases n <;> simp [digamma, digammaLoop, hy]
  obtain ⟨h3, h4⟩ := stErr_bounds hx0
  refine ⟨_, _, hd x h1, hd (x + 1) h2, ?_, ?_⟩
  · unfold stErr at h3; rw [one_div]; linarith
  · unfold stErr at h4; rw [one_div, one_div, one_div, ← inv_pow, ← inv_pow]; linarith

example : ∃ u v, digamma 3 9 = some u ∧ digamma 3 (9 + 1) = some v ∧ u + 1 / 9 < v ∧
    v < u + 1 / 9 + 3617 / 8160 * (1 / 9 ^ 16 - 1 / (9 + 1) ^ 16) := C52_violated 3 9 (by norm_num)

/-! ## the digamma function -/

/-- the digamma function: the logarithmic derivative of Euler's gamma function -/
noncomputable def psi (x : ℝ) : ℝ := deriv Real.Gamma x / Real.Gamma x

theorem differentiableAt_Gamma_pos {x : ℝ} (hx : 0 < x) : DifferentiableAt ℝ Real.Gamma x :=
  Real.differentiableAt_Gamma (fun m => by have : (0 : ℝ) ≤ m := Nat.cast_nonneg m; linarith)

theorem psi_add_one {x : ℝ} (hx : 0 < x) : psi (x + 1) = psi x + x⁻¹ := by
  have h1 : deriv (fun y => Real.Gamma (y + 1)) x = deriv Real.Gamma (x + 1) := deriv_comp_add_const _ _ _
  have h2 : deriv (fun y => Real.Gamma (y + 1)) x = deriv (fun y => y * Real.Gamma y) x := by
    apply Filter.EventuallyEq.deriv_eq
    filter_upwards [lt_mem_nhds hx] with y hy
    exact Real.Gamma_add_one hy.ne'
  have h3 : deriv (fun y => y * Real.Gamma y) x = Real.Gamma x + x * deriv Real.Gamma x := by
    have := (hasDerivAt_id x).mul (differentiableAt_Gamma_pos hx).hasDerivAt
    have e := this.deriv
    simp only [id, one_mul] at e
    exact e
  unfold psi
  rw [← h1, h2, h3, Real.Gamma_add_one hx.ne']
  have := (Real.Gamma_pos_of_pos hx).ne'
  field_simp
  ring

theorem psi_bounds {x : ℝ} (hx : 0 < x) : Real.log x - x⁻¹ ≤ psi x ∧ psi x ≤ Real.log x := by
  have hd : ∀ y : ℝ, 0 < y → HasDerivAt (Real.log ∘ Real.Gamma) (psi y) y := by
    intro y hy
    have := (differentiableAt_Gamma_pos hy).hasDerivAt.log (Real.Gamma_pos_of_pos hy).ne'
    exact this
  have hs : slope (Real.log ∘ Real.Gamma) x (x + 1) = Real.log x := by
    rw [slope_def_field]
    simp only [Function.comp, Real.Gamma_add_one hx.ne',
      Real.log_mul hx.ne' (Real.Gamma_pos_of_pos hx).ne', add_sub_cancel_left, add_sub_cancel_right, div_one]
  have h1 := Real.convexOn_log_Gamma.le_slope_of_hasDerivAt (x := x) (y := x + 1) hx (by simp; linarith)
    (by linarith) (hd x hx)
  have h2 := Real.convexOn_log_Gamma.slope_le_of_hasDerivAt (x := x) (y := x + 1) hx (by simp; linarith)
    (by linarith) (hd (x + 1) (by linarith))
  rw [hs] at h1 h2
  rw [psi_add_one hx] at h2
  exact ⟨by linarith, h1⟩

/-- The expansion differs from the digamma function by less than its next term. -/
theorem stirling_psi {x : ℝ} (hx : 0 < x) : stirling x ≤ psi x ∧ psi x ≤ stirling x + 3617 / 8160 * x⁻¹ ^ 16 := by
  have hlim : Tendsto (fun n : ℕ => stirling (x + n) - psi (x + n)) atTop (𝓝 0) := by
    have hx' : Tendsto (fun n : ℕ => x + (n : ℝ)) atTop atTop :=
      tendsto_atTop_add_const_left _ _ tendsto_natCast_atTop_atTop
    have h1 : Tendsto (fun n : ℕ => psi (x + n) - Real.log (x + n)) atTop (𝓝 0) := by
      have hinv := (tendsto_inv_atTop_zero (𝕜 := ℝ)).comp hx'
      have hneg := hinv.neg
      rw [neg_zero] at hneg
      refine tendsto_of_tendsto_of_tendsto_of_le_of_le hneg tendsto_const_nhds (fun n => ?_) (fun n => ?_)
      · have := (psi_bounds (x := x + n) (by positivity)).1
        simp only [Function.comp]; linarith
      · have := (psi_bounds (x := x + n) (by positivity)).2
        simp only; linarith
    have h2 := (stirling_sub_log.comp hx').sub h1
    rw [sub_zero] at h2
    refine h2.congr (fun n => ?_)
    simp only [Function.comp]; ring
  have hstep : ∀ y, 0 < y → stirling (y + 1) - psi (y + 1) = stirling y - psi y + stErr y := by
    intro y hy
    rw [psi_add_one hy, stErr]; ring
  have hup : ∀ n : ℕ, stirling x - psi x ≤ stirling (x + n) - psi (x + n) := by
    intro n
    induction n with
    | zero => simp
    | succ n ih =>
      have hp : 0 < x + n := by positivity
      have := hstep (x + n) hp
      have h2 := (stErr_bounds hp).1
      rw [show x + ((n + 1 : ℕ) : ℝ) = x + n + 1 by push_cast; ring]
      linarith
  have hdn : ∀ n : ℕ, stirling (x + n) - psi (x + n) + 3617 / 8160 * (x + n)⁻¹ ^ 16
      ≤ stirling x - psi x + 3617 / 8160 * x⁻¹ ^ 16 := by
    intro n
    induction n with
    | zero => simp
    | succ n ih =>
      have hp : 0 < x + n := by positivity
      have := hstep (x + n) hp
      have h2 := (stErr_bounds hp).2
      rw [show x + ((n + 1 : ℕ) : ℝ) = x + n + 1 by push_cast; ring]
      linarith
  constructor
  · have := ge_of_tendsto' hlim hup
    linarith
  · have h3 : ∀ n : ℕ, stirling (x + n) - psi (x + n) ≤ stirling x - psi x + 3617 / 8160 * x⁻¹ ^ 16 := by
      intro n
      have h4 : (0 : ℝ) ≤ 3617 / 8160 * (x + n)⁻¹ ^ 16 := by positivity
      linarith [hdn n]
    have := le_of_tendsto' hlim h3
    linarith

/-- `digamma` is the digamma function up to `7 * 10^-16`, for every positive argument. -/
theorem C52_accuracy (n : ℕ) (x v : ℝ) (hx : 0 < x) (hv : digamma n x = some v) :
    v ≤ psi x ∧ psi x ≤ v + 7e-16 := by
  have base : ∀ (n : ℕ) (x v : ℝ), 0 < x → ¬ x < 8.5 → digamma n x = some v → v ≤ psi x ∧ psi x ≤ v + 7e-16 := by
    intro n x v hx h1 hv
    have e : digamma n x = some (stirling x) := by cases n <;> simp [digamma, digammaLoop, h1]
    rw [e] at hv
    injection hv with hv
    rw [← hv]
    obtain ⟨h2, h3⟩ := stirling_psi hx
    refine ⟨h2, h3.trans ?_⟩
    have h4 : x⁻¹ ≤ 2 / 17 := by
      rw [inv_le_comm₀ hx (by norm_num)]
      norm_num at h1 ⊢; linarith
    have h5 : x⁻¹ ^ 16 ≤ (2 / 17) ^ 16 := pow_le_pow_left₀ (by positivity) h4 16
    have h6 : (3617 / 8160 : ℝ) * (2 / 17) ^ 16 ≤ 7e-16 := by norm_num
    linarith
  induction n generalizing x v with
  | zero =>
    by_cases h1 : x < 8.5
    · simp [digamma, digammaLoop, h1] at hv
    · exact base 0 x v hx h1 hv
  | succ n ih =>
    by_cases h1 : x < 8.5
    · rw [C52_recurrence n x h1 hx.ne'] at hv
      cases h2 : digamma n (x + 1) with
      | none => rw [h2] at hv; simp at hv
      | some w =>
        rw [h2] at hv
        simp only [Option.map_some, Option.some.injEq] at hv
        obtain ⟨h3, h4⟩ := ih (x + 1) w (by positivity) h2
        rw [psi_add_one hx] at h3 h4
        rw [← hv, one_div]
        constructor <;> linarith
    · exact base (n + 1) x v hx h1 hv

example (v : ℝ) (hv : digamma 20 0.3 = some v) : v ≤ psi 0.3 ∧ psi 0.3 ≤ v + 7e-16 :=
  C52_accuracy 20 0.3 v (by norm_num) hv

end Special
end Verif
