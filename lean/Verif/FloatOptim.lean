import Verif.FloatDist
import Verif.OptimLemmas

/-!
# Property C120: the minimisers with rounding

The rounding of binary floating point numbers is monotone.  From this alone it follows that the line searches of
`Gradient` and `Newton` never return a point with a larger computed objective, whatever the objective and the
derivatives compute.  `LevenbergMarquardt` does not have this property: the quotient of its two small differences
is positive when both have become negative by rounding.
-/

set_option linter.unusedSectionVars false

namespace Verif

section
variable {K : Type} [Field K] [LinearOrder K] [IsStrictOrderedRing K] [FloorRing K]

theorem nearestEven_neg (y : K) : nearestEven (-y) = -nearestEven y := by
  have h1 := Int.floor_le y
  have h2 := Int.lt_floor_add_one y
  by_cases hy : y = ⌊y⌋
  · rw [hy, ← Int.cast_neg, nearestEven_int, nearestEven_int]
  · have h3 : (⌊y⌋ : K) < y := lt_of_le_of_ne h1 (Ne.symm hy)
    have e : ⌊-y⌋ = -⌊y⌋ - 1 := by
      rw [Int.floor_eq_iff]
      push_cast
      constructor <;> linarith
    unfold nearestEven
    rw [e]
    push_cast
    have ev : Even (-⌊y⌋ - 1) ↔ ¬ Even ⌊y⌋ := by
      rw [Int.even_sub_one, even_neg]
    split_ifs with a b c d f g <;> first | omega | (exfalso; linarith) | (exfalso; tauto)

theorem roundBits_neg (p : ℕ) (x : K) : roundBits p (-x) = -roundBits p x := by
  have e : ulp p (-x) = ulp p x := by rw [ulp, ulp, abs_neg]
  rw [roundBits, roundBits, e, neg_div, nearestEven_neg]
  push_cast
  ring

/-- rounding to nearest is monotone -/
theorem roundBits_monotone {p : ℕ} (hp : 1 ≤ p) : Monotone (roundBits p : K → K) := by
  have nn : ∀ z : K, 0 ≤ z → 0 ≤ roundBits p z := fun z hz => by
    refine mul_nonneg ?_ (ulp_pos p z).le
    exact_mod_cast le_nearestEven (n := 0) (by simpa using (div_nonneg hz (ulp_pos p z).le))
  intro x y h
  rcases lt_or_ge 0 x with hx | hx
  · exact roundBits_mono hp hx h
  rcases le_or_gt 0 y with hy | hy
  · have a := nn (-x) (by linarith)
    rw [roundBits_neg] at a
    linarith [nn y hy]
  · have := roundBits_mono hp (x := -y) (y := -x) (by linarith) (by linarith)
    rw [roundBits_neg, roundBits_neg] at this
    linarith

theorem binary_monotone (p : ℕ) (hp : 1 ≤ p) : Monotone (binary K p hp).rnd := roundBits_monotone hp
end

namespace Opt
open Rounding

section
variable {K : Type} [Field K] [LinearOrder K] [IsStrictOrderedRing K] {R : Rounding K}

theorem rnd_nn (hm : Monotone R.rnd) {x : K} (h : 0 ≤ x) : 0 ≤ R.rnd x := by
  have := hm h
  rwa [R.rnd_zero] at this

theorem accum_nn (hm : Monotone R.rnd) {g : ℕ → Fl R} (h : ∀ k, 0 ≤ (g k).val) (n : ℕ) : 0 ≤ (Mat.accum g n).val := by
  induction n with
  | zero => exact le_refl _
  | succ n ih => exact rnd_nn hm (add_nonneg ih (h n))

theorem accum_np (hm : Monotone R.rnd) {g : ℕ → Fl R} (h : ∀ k, (g k).val ≤ 0) (n : ℕ) : (Mat.accum g n).val ≤ 0 := by
  have np : ∀ {x : K}, x ≤ 0 → R.rnd x ≤ 0 := fun hx => by
    have := hm hx
    rwa [R.rnd_zero] at this
  induction n with
  | zero => exact le_refl _
  | succ n ih => exact np (add_nonpos ih (h n))

theorem half_nn (hm : Monotone R.rnd) {a : Fl R} (h : 0 ≤ a.val) : 0 ≤ (a / 2).val :=
  rnd_nn hm (div_nonneg h (rnd_nn hm (Nat.cast_nonneg _)))

/-- every point that the line search of `Gradient` accepts has a computed objective that is not larger -/
theorem gradientSearch_fl (hm : Monotone R.rnd) {eval : Mat (Fl R) → Option (Mat (Fl R))}
    (hf : ∀ x v, obj eval x = some v → R.rnd v.val = v.val) {sigma : Fl R} (hs : 0 ≤ sigma.val) {x ag : Mat (Fl R)} {n : ℕ}
    (hn : 0 < n) {g : ℕ → ℕ → Fl R} (hg : ag.Is n 1 g) {fx : Fl R} (hx : obj eval x = some fx) (fuel : ℕ) :
    ∀ (a b : Fl R), 0 ≤ a.val → gradientSearch eval sigma x ag fuel a = some b →
      ∃ y fy, x.add (ag.mulScalar b) = some y ∧ obj eval y = some fy ∧ fy.val ≤ fx.val := by
  induction fuel with
  | zero => intro a b _ h; simp [gradientSearch] at h
  | succ fuel ih =>
    intro a b ha h
    rw [gradientSearch] at h
    simp only [Option.bind_eq_bind, Option.bind_eq_some_iff] at h
    obtain ⟨r, h1, fr, h2, d, h3, fx', h4, h5⟩ := h
    obtain rfl : fx' = fx := Option.some.inj (h4.symm.trans hx)
    split_ifs at h5 with h6
    · obtain rfl : a = b := Option.some.inj h5
      refine ⟨r, fr, h1, h2, ?_⟩
      rw [Mat.dotp_accum (Mat.mulScalar_is hg a) hg hn] at h3
      obtain rfl := Option.some.inj h3
      have hd : 0 ≤ (Mat.accum (fun i => g i 0 * a * g i 0) n).val := accum_nn hm (fun k => by
        refine rnd_nn hm ?_
        rw [Fl.mul_val]
        rcases le_total 0 (g k 0).val with h | h
        · exact mul_nonneg (rnd_nn hm (mul_nonneg h ha)) h
        · refine mul_nonneg_of_nonpos_of_nonpos ?_ h
          have := hm (mul_nonpos_of_nonpos_of_nonneg h ha)
          rwa [R.rnd_zero] at this) n
      have hb : 0 ≤ (sigma * Mat.accum (fun i => g i 0 * a * g i 0) n).val := rnd_nn hm (mul_nonneg hs hd)
      have h7 := (Fl.le_iff _ _).1 h6
      refine h7.trans ?_
      rw [Fl.sub_val]
      refine (hm (sub_le_self _ hb)).trans (le_of_eq (hf _ _ hx))
    · exact ih _ b (half_nn hm ha) h5

/-- **C120** `Gradient::minimize` with rounding: for every objective and every gradient (in whatever way they are computed), the
computed objective at the returned point is not larger than at the start -/
theorem C120_gradient (hm : Monotone R.rnd) {eval jac : Mat (Fl R) → Option (Mat (Fl R))}
    (hf : ∀ x v, obj eval x = some v → R.rnd v.val = v.val)
    (hg : ∀ x g, gradAt jac x = some g → ∃ n, 0 < n ∧ ∃ f, g.Is n 1 f) {sigma : Fl R} (hs : 0 ≤ sigma.val) (iters fuel : ℕ)
    {x₀ x : Mat (Fl R)} {f₀ : Fl R} (h0 : obj eval x₀ = some f₀) (h : gradientMinimize eval jac sigma iters fuel x₀ = some x) :
    ∃ fx, obj eval x = some fx ∧ fx.val ≤ f₀.val := by
  unfold gradientMinimize at h
  refine forRange_inv_of_some (fun _ y => ∃ fy, obj eval y = some fy ∧ fy.val ≤ f₀.val) ⟨f₀, h0, le_refl _⟩ ?_ h
  intro k y z _ _ hy hz
  obtain ⟨fy, e1, e2⟩ := hy
  unfold gradientStep at hz
  simp only [Option.bind_eq_bind, Option.bind_eq_some_iff] at hz
  obtain ⟨g, g1, a, a1, a2⟩ := hz
  obtain ⟨n, hn, f, hI⟩ := hg _ _ g1
  obtain ⟨w, fw, w1, w2, w3⟩ := gradientSearch_fl hm hf hs hn (Mat.apply_is hI _) e1 fuel 1 a
    (show (0 : K) ≤ 1 from zero_le_one) a1
  obtain rfl := Option.some.inj (w1.symm.trans a2)
  exact ⟨fw, w2, w3.trans e2⟩

theorem newtonSearch_fl (hm : Monotone R.rnd) {eval : Mat (Fl R) → Option (Mat (Fl R))} {sigma : Fl R} (hs : 0 ≤ sigma.val)
    {x d : Mat (Fl R)} {fx temp : Fl R} (hr : R.rnd fx.val = fx.val) (ht : temp.val ≤ 0) (fuel : ℕ) :
    ∀ (a b : Fl R), 0 ≤ a.val → newtonSearch eval sigma x d fx temp fuel a = some b →
      ∃ y fy, x.add (d.mulScalar b) = some y ∧ obj eval y = some fy ∧ fy.val ≤ fx.val := by
  induction fuel with
  | zero => intro a b _ h; simp [newtonSearch] at h
  | succ fuel ih =>
    intro a b ha h
    rw [newtonSearch] at h
    simp only [Option.bind_eq_bind, Option.bind_eq_some_iff] at h
    obtain ⟨r, h1, fr, h2, h5⟩ := h
    split_ifs at h5 with h6
    · exact ih _ b (half_nn hm ha) h5
    · obtain rfl : a = b := Option.some.inj h5
      refine ⟨r, fr, h1, h2, ?_⟩
      have h7 := (Fl.le_iff _ _).1 (not_lt.1 h6)
      refine h7.trans ?_
      rw [Fl.add_val]
      have h8 : (temp * (sigma * a)).val ≤ 0 := by
        have := hm (mul_nonpos_of_nonpos_of_nonneg ht (show 0 ≤ (sigma * a).val from rnd_nn hm (mul_nonneg hs ha)))
        rwa [R.rnd_zero] at this
      exact (hm (by linarith : fx.val + (temp * (sigma * a)).val ≤ fx.val)).trans hr.le

/-- **C120** `Newton::minimize` with rounding: for every objective, gradient and Hessian matrix, and whatever the linear solver
returns, the computed objective at the returned point is not larger than at the start -/
theorem C120_newton (hm : Monotone R.rnd) {eval jac hess : Mat (Fl R) → Option (Mat (Fl R))}
    (hf : ∀ x v, obj eval x = some v → R.rnd v.val = v.val)
    (hg : ∀ x g, gradAt jac x = some g → ∃ n, 0 < n ∧ ∃ f, g.Is n 1 f) {sigma rho : Fl R} (hs : 0 ≤ sigma.val)
    (hrho : 0 ≤ rho.val) (iters fuel : ℕ) {x₀ x : Mat (Fl R)} {f₀ : Fl R} (h0 : obj eval x₀ = some f₀)
    (h : newtonMinimize eval jac hess sigma rho iters fuel x₀ = some x) :
    ∃ fx, obj eval x = some fx ∧ fx.val ≤ f₀.val := by
  unfold newtonMinimize at h
  refine forRange_inv_of_some (fun _ y => ∃ fy, obj eval y = some fy ∧ fy.val ≤ f₀.val) ⟨f₀, h0, le_refl _⟩ ?_ h
  intro k y z _ _ hy hz
  obtain ⟨fy, e1, e2⟩ := hy
  unfold newtonMinStep at hz
  simp only [Option.bind_eq_bind, Option.bind_eq_some_iff] at hz
  obtain ⟨H, _, g, g1, s, _, d, d1, fy', f1, temp, t1, a, a1, a2⟩ := hz
  obtain rfl : fy' = fy := Option.some.inj (f1.symm.trans e1)
  obtain ⟨n, hn, f, hI⟩ := hg _ _ g1
  have ht : temp.val ≤ 0 := by
    have hneg : ∀ t, g.dotp (neg g) = some t → t.val ≤ 0 := by
      intro t ht
      rw [neg, Mat.dotp_accum hI (Mat.apply_is hI _) hn] at ht
      obtain rfl := Option.some.inj ht
      refine accum_np hm (fun k => ?_) n
      have : (f k 0 * -f k 0).val = R.rnd ((f k 0).val * -(f k 0).val) := rfl
      rw [this]
      have := hm (show (f k 0).val * -(f k 0).val ≤ 0 by nlinarith [mul_self_nonneg (f k 0).val])
      rwa [R.rnd_zero] at this
    simp only [newtonDir, Option.bind_eq_bind, Option.bind_eq_some_iff] at d1
    obtain ⟨ga, q1, gd, q2, q3⟩ := d1
    split_ifs at q3 with hc
    · obtain rfl := Option.some.inj q3
      obtain rfl := Option.some.inj (t1.symm.trans q2)
      refine ((Fl.le_iff _ _).1 hc).trans ?_
      rw [Mat.dotp_accum hI hI hn] at q1
      obtain rfl := Option.some.inj q1
      have hga := accum_nn hm (g := fun i => f i 0 * f i 0) (fun k => rnd_nn hm (mul_self_nonneg _)) n
      have := hm (mul_nonpos_of_nonpos_of_nonneg (show (-rho).val ≤ 0 from neg_nonpos.2 hrho) hga)
      rwa [R.rnd_zero] at this
    · obtain rfl := Option.some.inj q3
      exact hneg _ t1
  obtain ⟨w, fw, w1, w2, w3⟩ := newtonSearch_fl hm hs (hf _ _ e1) ht fuel 1 a
    (show (0 : K) ≤ 1 from zero_le_one) a1
  obtain rfl := Option.some.inj (w1.symm.trans a2)
  exact ⟨fw, w2, w3.trans e2⟩

end

/-- the objective `3x² + 5y²` in `f64`, its gradient and its Hessian matrix -/
def parEval (v : Mat (Fl f64)) : Option (Mat (Fl f64)) := do
  let x ← v.vget 0
  let y ← v.vget 1
  some ⟨1, 1, [⟨3⟩ * (x * x) + ⟨5⟩ * (y * y)]⟩

/-- see `parEval` -/
def parJac (v : Mat (Fl f64)) : Option (Mat (Fl f64)) := do
  let x ← v.vget 0
  let y ← v.vget 1
  some ⟨1, 2, [⟨6⟩ * x, ⟨10⟩ * y]⟩

/-- see `parEval` -/
def parHess (_ : Mat (Fl f64)) : Option (Mat (Fl f64)) := some ⟨2, 2, [⟨6⟩, 0, 0, ⟨10⟩]⟩

/-- the residuals `(2x + 9, 5x - 1)` -/
def lmEval (v : Mat (Fl f64)) : Option (Mat (Fl f64)) := do
  let x ← v.vget 0
  some ⟨2, 1, [⟨2⟩ * x + ⟨9⟩, ⟨5⟩ * x - ⟨1⟩]⟩

/-- their Jacobian matrix -/
def lmJac (_ : Mat (Fl f64)) : Option (Mat (Fl f64)) := some ⟨2, 1, [⟨2⟩, ⟨5⟩]⟩

/-- one iteration of both methods from the rounded `(1/3, 1/5)`: the gradient method accepts the step size `1/8` and the objective
goes down from about `0.53` to `0.033`, Newton's method accepts `1` and finds the minimum -/
example : gradientMinimize parEval parJac ⟨1 / 4⟩ 1 5 ⟨2, 1, [1 / ⟨3⟩, 1 / ⟨5⟩]⟩ =
      some ⟨2, 1, [⟨96076792050570560 / 2 ^ 60⟩, ⟨-57646075230342336 / 2 ^ 60⟩]⟩ ∧
    obj parEval ⟨2, 1, [1 / ⟨3⟩, 1 / ⟨5⟩]⟩ = some ⟨614891469123651712 / 2 ^ 60⟩ ∧
    obj parEval ⟨2, 1, [⟨96076792050570560 / 2 ^ 60⟩, ⟨-57646075230342336 / 2 ^ 60⟩]⟩ = some ⟨38430716820228216 / 2 ^ 60⟩ ∧
    newtonMinimize parEval parJac parHess ⟨1 / 4⟩ ⟨1 / 8⟩ 1 5 ⟨2, 1, [1 / ⟨3⟩, 1 / ⟨5⟩]⟩ = some ⟨2, 1, [0, 0]⟩ := by
  decide +kernel

theorem parEval_rep (x : Mat (Fl f64)) (v : Fl f64) (h : obj parEval x = some v) : f64.rnd v.val = v.val := by
  simp only [obj, parEval, Option.bind_eq_bind, Option.bind_eq_some_iff] at h
  obtain ⟨w, ⟨a, -, b, -, h1⟩, h2⟩ := h
  obtain rfl := Option.some.inj h1
  obtain rfl := Option.some.inj h2
  exact f64.idem _

theorem parJac_is (x g : Mat (Fl f64)) (h : gradAt parJac x = some g) : ∃ n, 0 < n ∧ ∃ f, g.Is n 1 f := by
  simp only [gradAt, parJac, Option.bind_eq_bind, Option.bind_eq_some_iff] at h
  obtain ⟨w, ⟨a, -, b, -, h1⟩, r, h2, h3⟩ := h
  obtain rfl := Option.some.inj h1
  have hI : (⟨1, 2, [⟨6⟩ * a, ⟨10⟩ * b]⟩ : Mat (Fl f64)).Is 1 2 (fun _ j => if j = 0 then ⟨6⟩ * a else ⟨10⟩ * b) := by
    refine ⟨rfl, rfl, rfl, fun i j hi hj => ?_⟩
    obtain rfl : i = 0 := by omega
    interval_cases j <;> rfl
  obtain ⟨v, v1, v2⟩ := Mat.getRow_is hI (i := 0) (by omega)
  obtain ⟨w, w1, w2⟩ := Mat.transpose_is v2 (Or.inr (Or.inl rfl)) (Or.inl (by omega))
  obtain rfl := Option.some.inj (v1.symm.trans h2)
  obtain rfl := Option.some.inj (w1.symm.trans h3)
  exact ⟨2, two_pos, _, w2⟩

/-- the theorems applied to this objective, for every start, all parameters and every number of iterations -/
example (sigma rho : Fl f64) (hs : 0 ≤ sigma.val) (hr : 0 ≤ rho.val) (iters fuel : ℕ) (a b : Fl f64) {x y : Mat (Fl f64)}
    (hx : gradientMinimize parEval parJac sigma iters fuel ⟨2, 1, [a, b]⟩ = some x)
    (hy : newtonMinimize parEval parJac parHess sigma rho iters fuel ⟨2, 1, [a, b]⟩ = some y) :
    (∃ fx, obj parEval x = some fx ∧ fx.val ≤ (⟨3⟩ * (a * a) + ⟨5⟩ * (b * b)).val) ∧
      ∃ fy, obj parEval y = some fy ∧ fy.val ≤ (⟨3⟩ * (a * a) + ⟨5⟩ * (b * b)).val :=
  ⟨C120_gradient (R := f64) (binary_monotone 53 _) parEval_rep parJac_is hs iters fuel rfl hx,
    C120_newton (R := f64) (binary_monotone 53 _) parEval_rep parJac_is hs hr iters fuel rfl hy⟩

/-- **C120** is violated by `LevenbergMarquardt`: near a minimum the two differences of sums of squares are both rounded to a
negative number, their quotient is `1`, and the step is accepted although the sum of squares of the residuals grows, in the
computed as well as in the exact values.  The residuals are `2x + 9` and `5x - 1`, `beta_0 = 0.3` and `beta_1 = 0.9`. -/
theorem C120_lm_violated :
    ∃ x₀ x₁ : ℚ,
      lmMinimize lmEval lmJac ⟨345876451382054080 / 2 ^ 60⟩ ⟨1037629354146162304 / 2 ^ 60⟩ 1 1 ⟨1, 1, [⟨x₀⟩]⟩ = some ⟨1, 1, [⟨x₁⟩]⟩ ∧
        (∃ v w s t, lmEval ⟨1, 1, [⟨x₀⟩]⟩ = some v ∧ lmEval ⟨1, 1, [⟨x₁⟩]⟩ = some w ∧ v.dotp v = some s ∧ w.dotp w = some t ∧
          s < t) ∧
        (2 * x₀ + 9) ^ 2 + (5 * x₀ - 1) ^ 2 < (2 * x₁ + 9) ^ 2 + (5 * x₁ - 1) ^ 2 := by
  refine ⟨-2018855005372981 / 2 ^ 52, -516826881375483264 / 2 ^ 60, by decide +kernel, ?_, by norm_num⟩
  refine ⟨⟨2, 1, [⟨2⟩ * ⟨-2018855005372981 / 2 ^ 52⟩ + ⟨9⟩, ⟨5⟩ * ⟨-2018855005372981 / 2 ^ 52⟩ - ⟨1⟩]⟩,
    ⟨2, 1, [⟨2⟩ * ⟨-516826881375483264 / 2 ^ 60⟩ + ⟨9⟩, ⟨5⟩ * ⟨-516826881375483264 / 2 ^ 60⟩ - ⟨1⟩]⟩,
    ⟨87820813919880167424 / 2 ^ 60⟩, ⟨87820813919880183808 / 2 ^ 60⟩, rfl, rfl, by decide +kernel, by decide +kernel, by decide +kernel⟩

end Opt
end Verif
