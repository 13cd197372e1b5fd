import Verif.OptimModel
import Verif.OptimLemmas
import Verif.FloatCg
import Verif.FloatDist
import Verif.FloatOptim

/-!
# Property C131: gradient descent with rounding

Nothing is assumed about the objective and its gradient: they may be computed with any error.
-/

set_option linter.unusedSectionVars false

namespace Verif
namespace Opt
open Finset Rounding

section
variable {K : Type} [Field K] [LinearOrder K] [IsStrictOrderedRing K] {R : Rounding K} {n : ℕ}

theorem neg_col_fl (g : Fin n → Fl R) : neg (col g) = col (fun i => -g i) := by
  simp [neg, Mat.apply, col, List.map_ofFn, Function.comp_def]

theorem rnd_pos (hu : R.u < 1) {x : K} (hx : 0 < x) : 0 < R.rnd x := by
  have := R.err x
  rw [abs_of_pos hx, abs_le] at this
  have h : 0 < (1 - R.u) * x := mul_pos (by linarith) hx
  linarith [this.1]

/-- the accepted step length -/
theorem gradientSearch_accepted (hu : R.u < 1) {eval : Mat (Fl R) → Option (Mat (Fl R))} {sigma : Fl R} {x g : Fin n → Fl R} {fuel : ℕ} {α α' : Fl R}
    (hα : 0 < α.val) (h : gradientSearch eval sigma (col x) (col g) fuel α = some α') :
    0 < α'.val ∧ ∃ fr fx d, obj eval (col fun i => x i + g i * α') = some fr ∧ obj eval (col x) = some fx ∧
      (col fun i => g i * α').dotp (col g) = some d ∧ fr ≤ fx - sigma * d := by
  induction fuel generalizing α with
  | zero => simp [gradientSearch] at h
  | succ k ih =>
    simp only [gradientSearch, Ode.col_mulScalar_ops, Ode.col_add_ops, Option.bind_eq_bind, Option.bind_some,
      Option.bind_eq_some_iff] at h
    obtain ⟨fr, h1, d, h2, fx, h3, h4⟩ := h
    split_ifs at h4 with hc
    · obtain rfl := Option.some.inj h4
      exact ⟨hα, fr, fx, d, h1, h3, h2, hc⟩
    · refine ih ?_ h4
      rw [Fl.div_val]
      refine rnd_pos hu (div_pos hα ?_)
      change 0 < R.rnd _
      exact rnd_pos hu (by norm_num)

/-- the decrease of the computed objective in one accepted step -/
theorem step_decrease (hu : R.u < 1) (hmono : Monotone R.rnd) (hn : 0 < n) (hg : R.gam n ≤ 1) {sigma : Fl R} (hs : 0 ≤ sigma.val)
    {g : Fin n → Fl R} {α fr fx d : Fl R} (hα : 0 < α.val) (hfx : R.rnd fx.val = fx.val)
    (hd : (col fun i => g i * α).dotp (col g) = some d) (h : fr ≤ fx - sigma * d) :
    fr.val ≤ fx.val ∧
      (1 - R.u) ^ 3 * (1 - R.gam n) * (sigma.val * (α.val * ∑ i, (g i).val ^ 2)) ≤ fx.val - fr.val + R.u * |fx.val| := by
  have u0 := R.u_nonneg
  have hu' : 0 ≤ 1 - R.u := by linarith
  obtain ⟨v, hv, he⟩ := C88_dotp (show ColRepr (col fun i => g i * α) (fun i => g i * α) from rfl) (show ColRepr (col g) g from rfl) hn
  obtain rfl : d = v := Option.some.inj (hd.symm.trans hv)
  -- every product is at least `(1 - u) α g²`
  have hp : ∀ i, (1 - R.u) * (α.val * (g i).val ^ 2) ≤ (g i * α).val * (g i).val := by
    intro i
    rw [Fl.mul_val]
    have e := R.err ((g i).val * α.val)
    rw [abs_mul (g i).val, abs_of_pos hα] at e
    have h1 : |(R.rnd ((g i).val * α.val) - (g i).val * α.val) * (g i).val| ≤ R.u * (|(g i).val| * α.val) * |(g i).val| := by
      rw [abs_mul]
      exact mul_le_mul_of_nonneg_right e (abs_nonneg _)
    have h2 : R.u * (|(g i).val| * α.val) * |(g i).val| = R.u * (α.val * (g i).val ^ 2) := by
      rw [← sq_abs (g i).val]; ring
    rw [h2, abs_le] at h1
    linarith [h1.1]
  have hp0 : ∀ i, 0 ≤ (g i * α).val * (g i).val := fun i =>
    (mul_nonneg hu' (mul_nonneg hα.le (sq_nonneg _))).trans (hp i)
  have hS : (1 - R.u) * (α.val * ∑ i, (g i).val ^ 2) ≤ ∑ i, (g i * α).val * (g i).val := by
    rw [mul_sum, mul_sum]
    exact sum_le_sum fun i _ => hp i
  have hS0 : 0 ≤ ∑ i, (g i * α).val * (g i).val := sum_nonneg fun i _ => hp0 i
  have hQ0 : 0 ≤ α.val * ∑ i, (g i).val ^ 2 := mul_nonneg hα.le (sum_nonneg fun i _ => sq_nonneg _)
  have e : ∑ i, |(g i * α).val * (g i).val| = ∑ i, (g i * α).val * (g i).val := sum_congr rfl fun i _ => abs_of_nonneg (hp0 i)
  rw [e] at he
  change |d.val - _| ≤ R.gam n * _ at he
  have hd1 : (1 - R.gam n) * ∑ i, (g i * α).val * (g i).val ≤ d.val := by
    rw [abs_le] at he
    linarith [he.1]
  have hg' : 0 ≤ 1 - R.gam n := by linarith
  have hd2 : (1 - R.gam n) * ((1 - R.u) * (α.val * ∑ i, (g i).val ^ 2)) ≤ d.val := (mul_le_mul_of_nonneg_left hS hg').trans hd1
  have hd0 : 0 ≤ d.val := (mul_nonneg hg' hS0).trans hd1
  -- the subtracted number
  have hb : (1 - R.u) * (sigma.val * d.val) ≤ (sigma * d).val := by
    rw [Fl.mul_val]
    have e := R.err (sigma.val * d.val)
    rw [abs_of_nonneg (mul_nonneg hs hd0), abs_le] at e
    linarith [e.1]
  have hb0 : 0 ≤ (sigma * d).val := (mul_nonneg hu' (mul_nonneg hs hd0)).trans hb
  rw [Fl.le_iff, Fl.sub_val] at h
  refine ⟨h.trans ?_, ?_⟩
  · have := hmono (show fx.val - (sigma * d).val ≤ fx.val by linarith)
    rwa [hfx] at this
  · have e := R.err (fx.val - (sigma * d).val)
    have e2 : |fx.val - (sigma * d).val| ≤ |fx.val| + (sigma * d).val := by
      refine (abs_sub _ _).trans ?_
      rw [abs_of_nonneg hb0]
    have e3 := e.trans (mul_le_mul_of_nonneg_left e2 u0)
    rw [abs_le] at e3
    have h1 : (1 - R.u) * (sigma * d).val ≤ fx.val - fr.val + R.u * |fx.val| := by linarith [e3.2]
    have h2 : (1 - R.u) * ((1 - R.u) * (sigma.val * d.val)) ≤ (1 - R.u) * (sigma * d).val := mul_le_mul_of_nonneg_left hb hu'
    have h3 : sigma.val * ((1 - R.gam n) * ((1 - R.u) * (α.val * ∑ i, (g i).val ^ 2))) ≤ sigma.val * d.val :=
      mul_le_mul_of_nonneg_left hd2 hs
    have h4 := mul_le_mul_of_nonneg_left h3 (mul_nonneg hu' hu')
    have h5 : (1 - R.u) ^ 3 * (1 - R.gam n) * (sigma.val * (α.val * ∑ i, (g i).val ^ 2)) =
        (1 - R.u) * (1 - R.u) * (sigma.val * ((1 - R.gam n) * ((1 - R.u) * (α.val * ∑ i, (g i).val ^ 2)))) := by ring
    rw [h5]
    linarith

/-- **C131** gradient descent with rounding: whatever the objective and its gradient are, and however badly they are computed, when
`minimize` returns, the computed objective has not increased in any iteration, every step goes along the negative computed gradient
with a positive length, and in every iteration `σ α ‖g‖²`, up to the factor `(1 - u)³ (2 - (1 + u)^n)`, is at most the decrease of the
computed objective plus `u |f|`. -/
theorem C131_descent (hu : R.u < 1) (hmono : Monotone R.rnd) (hn : 0 < n) (hgam : (1 + R.u) ^ n - 1 ≤ 1)
    {eval jac : Mat (Fl R) → Option (Mat (Fl R))} {g : (Fin n → Fl R) → (Fin n → Fl R)}
    (hrep : ∀ (x : Fin n → Fl R) v, obj eval (col x) = some v → R.rnd v.val = v.val)
    (hjac : ∀ x : Fin n → Fl R, gradAt jac (col x) = some (col (g x))) {sigma : Fl R} (hs : 0 ≤ sigma.val) {iters fuel : ℕ}
    {x₀ : Fin n → Fl R} {y : Mat (Fl R)} (h : gradientMinimize eval jac sigma iters fuel (col x₀) = some y) :
    ∃ xs : ℕ → Fin n → Fl R, xs 0 = x₀ ∧ y = col (xs iters) ∧ ∀ k < iters, ∃ α f f' : Fl R, 0 < α.val ∧
      obj eval (col (xs k)) = some f ∧ obj eval (col (xs (k + 1))) = some f' ∧
      (∀ i, xs (k + 1) i = xs k i + -g (xs k) i * α) ∧ f'.val ≤ f.val ∧
      (1 - R.u) ^ 3 * (2 - (1 + R.u) ^ n) * (sigma.val * (α.val * ∑ i, (g (xs k) i).val ^ 2)) ≤ f.val - f'.val + R.u * |f.val| := by
  unfold gradientMinimize at h
  rw [forRange_traj] at h
  obtain ⟨ys, h1, h2, h3⟩ := h
  have step : ∀ (x : Fin n → Fl R) z, gradientStep eval jac sigma fuel (col x) = some z → ∃ α f f' : Fl R, 0 < α.val ∧
      z = col (fun i => x i + -g x i * α) ∧ obj eval (col x) = some f ∧ obj eval z = some f' ∧ f'.val ≤ f.val ∧
      (1 - R.u) ^ 3 * (2 - (1 + R.u) ^ n) * (sigma.val * (α.val * ∑ i, (g x i).val ^ 2)) ≤ f.val - f'.val + R.u * |f.val| := by
    intro x z hz
    simp only [gradientStep, hjac, neg_col_fl, Option.bind_eq_bind, Option.bind_some, Option.bind_eq_some_iff,
      Ode.col_mulScalar_ops, Ode.col_add_ops] at hz
    obtain ⟨α, hα, hz⟩ := hz
    obtain ⟨a0, fr, fx, d, a1, a2, a3, a4⟩ := gradientSearch_accepted hu (show 0 < (1 : Fl R).val from zero_lt_one) hα
    obtain rfl := Option.some.inj hz
    obtain ⟨b1, b2⟩ := step_decrease hu hmono hn hgam hs a0 (hrep x fx a2) a3 a4
    refine ⟨α, fx, fr, a0, rfl, a2, a1, b1, ?_⟩
    have e : 1 - R.gam n = 2 - (1 + R.u) ^ n := by rw [Rounding.gam]; ring
    rw [e] at b2
    simpa [Fl.neg_val] using b2
  have hc : ∀ k, k ≤ iters → ∃ x : Fin n → Fl R, ys k = col x := by
    intro k
    induction k with
    | zero => exact fun _ => ⟨x₀, h1⟩
    | succ k ih =>
      intro hk
      obtain ⟨x, hx⟩ := ih (by omega)
      have := h3 k (by omega)
      rw [hx] at this
      obtain ⟨α, f, f', -, hz, -⟩ := step x _ this
      exact ⟨_, hz⟩
  have inj : ∀ {x z : Fin n → Fl R}, (col x : Mat (Fl R)) = col z → x = z := by
    intro x z hxz
    simpa [col] using hxz
  choose! xs hxs using hc
  refine ⟨xs, inj ((hxs 0 (by omega)).symm.trans h1), by rw [← h2, hxs iters le_rfl], fun k hk => ?_⟩
  have := h3 k hk
  rw [hxs k hk.le, hxs (k + 1) hk] at this
  obtain ⟨α, f, f', b1, b2, b3, b4, b5, b6⟩ := step _ _ this
  exact ⟨α, f, f', b1, b3, b4, fun i => congrFun (inj b2) i, b5, b6⟩

/-- **C131** after `iters` iterations some iterate has a small computed gradient, if the computed objective is bounded from below by
`B` and by `F` in absolute value: `σ α ‖g‖²` is at most `(f₀ - B) / iters + u F`, up to the factor above -/
theorem C131_gradient (hu : R.u < 1) (hmono : Monotone R.rnd) (hn : 0 < n) (hgam : (1 + R.u) ^ n - 1 ≤ 1)
    {eval jac : Mat (Fl R) → Option (Mat (Fl R))} {g : (Fin n → Fl R) → (Fin n → Fl R)}
    (hrep : ∀ (x : Fin n → Fl R) v, obj eval (col x) = some v → R.rnd v.val = v.val)
    (hjac : ∀ x : Fin n → Fl R, gradAt jac (col x) = some (col (g x))) {sigma : Fl R} (hs : 0 ≤ sigma.val) {iters fuel : ℕ}
    (hi : 0 < iters) {x₀ : Fin n → Fl R} {y : Mat (Fl R)} (h : gradientMinimize eval jac sigma iters fuel (col x₀) = some y)
    {f₀ : Fl R} (hf₀ : obj eval (col x₀) = some f₀) {B F : K}
    (hB : ∀ (x : Fin n → Fl R) v, obj eval (col x) = some v → B ≤ v.val ∧ |v.val| ≤ F) :
    ∃ (x : Fin n → Fl R) (α : Fl R), 0 < α.val ∧ (∃ f, obj eval (col x) = some f ∧ f.val ≤ f₀.val) ∧
      (1 - R.u) ^ 3 * (2 - (1 + R.u) ^ n) * (sigma.val * (α.val * ∑ i, (g x i).val ^ 2)) ≤ (f₀.val - B) / iters + R.u * F := by
  obtain ⟨xs, h1, -, h3⟩ := C131_descent hu hmono hn hgam hrep hjac hs h
  have N0 : (0 : K) < iters := by exact_mod_cast hi
  by_contra hc
  push Not at hc
  have key : ∀ k ≤ iters, ∃ f, obj eval (col (xs k)) = some f ∧ f.val ≤ f₀.val ∧ f.val ≤ f₀.val - k * ((f₀.val - B) / iters) ∧
      (0 < k → f.val < f₀.val - k * ((f₀.val - B) / iters)) := by
    intro k
    induction k with
    | zero => exact fun _ => ⟨f₀, by rw [h1, hf₀], le_rfl, by simp, fun h => absurd h (lt_irrefl _)⟩
    | succ k ih =>
      intro hk
      obtain ⟨f, a1, a2, a3, -⟩ := ih (by omega)
      obtain ⟨α, f1, f', b1, b2, b3, -, b5, b6⟩ := h3 k hk
      obtain rfl : f = f1 := Option.some.inj (a1.symm.trans b2)
      have hlt := hc (xs k) α b1 ⟨f, a1, a2⟩
      have hF := mul_le_mul_of_nonneg_left (hB _ _ a1).2 R.u_nonneg
      have : f'.val < f₀.val - ((k + 1 : ℕ) : K) * ((f₀.val - B) / iters) := by
        push_cast
        rw [add_mul, one_mul]
        linarith
      exact ⟨f', b3, b5.trans a2, this.le, fun _ => this⟩
  obtain ⟨f, a1, -, -, a4⟩ := key iters le_rfl
  have h5 := a4 hi
  rw [mul_div_cancel₀ _ N0.ne'] at h5
  linarith [(hB _ _ a1).1]

/-- **C131** the line search ends with rounding, whatever the objective and its gradient are, if neither a coordinate that is changed
nor the computed objective is zero: a step that is too short to change them is accepted.  `habs` says that a number does not change
when at most `u/4` of it is added, see `C131_absorb`; the halvings are at most the least `k` such that `(3/4)^k` times the step is
that small.  Missing: coordinates and objectives that are zero. -/
theorem C131_search_partial (hu : R.u ≤ 1 / 8) (hn : 0 < n)
    (habs : ∀ x t, R.rnd x = x → |t| ≤ R.u / 4 * |x| → R.rnd (x + t) = x)
    {eval : Mat (Fl R) → Option (Mat (Fl R))} (heval : ∀ x : Fin n → Fl R, ∃ v, obj eval (col x) = some v ∧ R.rnd v.val = v.val)
    {sigma fx : Fl R} {x g : Fin n → Fl R} (hx : ∀ i, R.rnd (x i).val = (x i).val) (hfx : obj eval (col x) = some fx) {k : ℕ}
    (h1 : ∀ i, (3 / 4) ^ k * ((1 + R.u) * |(g i).val|) ≤ R.u / 4 * |(x i).val|)
    (h2 : (3 / 4) ^ k * ((1 + R.u) ^ (n + 2) * (|sigma.val| * ∑ i, (g i).val ^ 2)) ≤ R.u / 4 * |fx.val|) {fuel : ℕ} (hk : k < fuel) :
    ∃ α, gradientSearch eval sigma (col x) (col g) fuel 1 = some α := by
  have u0 := R.u_nonneg
  have hfr : R.rnd fx.val = fx.val := by
    obtain ⟨v, a, b⟩ := heval x
    obtain rfl : fx = v := Option.some.inj (hfx.symm.trans a)
    exact b
  -- the general statement: `α ≤ (3/4)^j` and `k ≤ j + l`, `l < fuel`
  have main : ∀ (fuel j : ℕ) (α : Fl R), 0 < α.val → α.val ≤ (3 / 4) ^ j → k < j + fuel →
      0 < fuel → ∃ α', gradientSearch eval sigma (col x) (col g) fuel α = some α' := by
    intro fuel
    induction fuel with
    | zero => intro j α _ _ _ h; omega
    | succ m ih =>
      intro j α hα hj hkj _
      simp only [gradientSearch, Ode.col_mulScalar_ops, Ode.col_add_ops, Option.bind_eq_bind, Option.bind_some]
      obtain ⟨fr, hfr1, -⟩ := heval fun i => x i + g i * α
      obtain ⟨d, hd, he⟩ := C88_dotp (show ColRepr (col fun i => g i * α) (fun i => g i * α) from rfl)
        (show ColRepr (col g) g from rfl) hn
      simp only [hfr1, hd, hfx, Option.bind_some]
      split_ifs with hc
      · exact ⟨α, rfl⟩
      by_cases hkj' : k ≤ j
      · -- short enough
        exfalso
        apply hc
        have hαk : α.val ≤ (3 / 4) ^ k := hj.trans (pow_le_pow_of_le_one (by norm_num) (by norm_num) hkj')
        have hp : ∀ i, |(g i * α).val| ≤ α.val * ((1 + R.u) * |(g i).val|) := by
          intro i
          rw [Fl.mul_val]
          have e := R.err ((g i).val * α.val)
          rw [abs_mul (g i).val, abs_of_pos hα] at e
          have e2 := abs_add_le (R.rnd ((g i).val * α.val) - (g i).val * α.val) ((g i).val * α.val)
          rw [sub_add_cancel, abs_mul (g i).val, abs_of_pos hα] at e2
          linarith
        have hxr : (fun i => x i + g i * α) = x := by
          funext i
          refine Fl.ext ?_
          rw [Fl.add_val]
          refine habs _ _ (hx i) ((hp i).trans (le_trans ?_ (h1 i)))
          exact mul_le_mul_of_nonneg_right hαk (mul_nonneg (by linarith) (abs_nonneg _))
        have hffx : fr = fx := by
          rw [hxr] at hfr1
          exact Option.some.inj (hfr1.symm.trans hfx)
        rw [hffx, Fl.le_iff, Fl.sub_val, sub_eq_add_neg]
        have hG0 : 0 ≤ ∑ i, (g i).val ^ 2 := sum_nonneg fun i _ => sq_nonneg _
        have hsum : ∑ i, |(g i * α).val * (g i).val| ≤ α.val * ((1 + R.u) * ∑ i, (g i).val ^ 2) := by
          rw [mul_sum, mul_sum]
          refine sum_le_sum fun i _ => ?_
          rw [abs_mul]
          refine (mul_le_mul_of_nonneg_right (hp i) (abs_nonneg _)).trans (le_of_eq ?_)
          rw [← sq_abs (g i).val]; ring
        have hds : |d.val| ≤ (1 + R.u) ^ n * ∑ i, |(g i * α).val * (g i).val| := by
          have e2 := abs_add_le (d.val - ∑ i, (g i * α).val * (g i).val) (∑ i, (g i * α).val * (g i).val)
          rw [sub_add_cancel] at e2
          have e3 := abs_sum_le_sum_abs (fun i => (g i * α).val * (g i).val) univ
          linarith
        have pn : 0 ≤ (1 + R.u) ^ n := by positivity
        have hb : |(sigma * d).val| ≤ R.u / 4 * |fx.val| := by
          rw [Fl.mul_val]
          have e := R.err (sigma.val * d.val)
          have e2 := abs_add_le (R.rnd (sigma.val * d.val) - sigma.val * d.val) (sigma.val * d.val)
          rw [sub_add_cancel] at e2
          have e3 : |sigma.val * d.val| ≤ |sigma.val| * ((1 + R.u) ^ n * (α.val * ((1 + R.u) * ∑ i, (g i).val ^ 2))) := by
            rw [abs_mul]
            exact mul_le_mul_of_nonneg_left (hds.trans (mul_le_mul_of_nonneg_left hsum pn)) (abs_nonneg _)
          have e4 := mul_le_mul_of_nonneg_left e3 (show 0 ≤ 1 + R.u by linarith)
          have e5 : (1 + R.u) * (|sigma.val| * ((1 + R.u) ^ n * (α.val * ((1 + R.u) * ∑ i, (g i).val ^ 2)))) =
              α.val * ((1 + R.u) ^ (n + 2) * (|sigma.val| * ∑ i, (g i).val ^ 2)) := by ring
          rw [e5] at e4
          have e6 := mul_le_mul_of_nonneg_right hαk
            (show 0 ≤ (1 + R.u) ^ (n + 2) * (|sigma.val| * ∑ i, (g i).val ^ 2) by positivity)
          linarith
        rw [habs _ _ hfr (by rw [abs_neg]; exact hb)]
      · refine ih (j + 1) _ ?_ ?_ (by omega) (by omega)
        · rw [Fl.div_val]
          refine rnd_pos (by linarith) (div_pos hα ?_)
          change 0 < R.rnd _
          exact rnd_pos (by linarith) (by norm_num)
        · rw [Fl.div_val]
          have t1 : (7 / 4 : K) ≤ (2 : Fl R).val := by
            change _ ≤ R.rnd ((2 : ℕ) : K)
            have e := R.err ((2 : ℕ) : K)
            push_cast at e ⊢
            rw [abs_of_pos (show (0 : K) < 2 by norm_num), abs_le] at e
            linarith [e.1]
          have t0 : 0 < (2 : Fl R).val := by linarith
          have e := R.err (α.val / (2 : Fl R).val)
          rw [abs_of_pos (div_pos hα t0), abs_le] at e
          have e2 : α.val / (2 : Fl R).val ≤ 4 / 7 * α.val := by
            rw [div_le_iff₀ t0]
            have := mul_le_mul_of_nonneg_left t1 hα.le
            linarith
          have e3 : R.u * (α.val / (2 : Fl R).val) ≤ 1 / 8 * (α.val / (2 : Fl R).val) :=
            mul_le_mul_of_nonneg_right hu (div_pos hα t0).le
          rw [pow_succ]
          linarith [e.2]
  exact main fuel 0 1 zero_lt_one (by simp [Fl.one_val]) (by omega) (by omega)

/-- a halved step length -/
theorem half_fl (hu : R.u ≤ 1 / 8) {α : Fl R} (hα : 0 < α.val) : 0 < (α / 2).val ∧ (α / 2).val ≤ 3 / 4 * α.val := by
  have t1 : (7 / 4 : K) ≤ (2 : Fl R).val := by
    change _ ≤ R.rnd ((2 : ℕ) : K)
    have e := R.err ((2 : ℕ) : K)
    push_cast at e ⊢
    rw [abs_of_pos (show (0 : K) < 2 by norm_num), abs_le] at e
    linarith [e.1]
  have t0 : 0 < (2 : Fl R).val := by linarith
  rw [Fl.div_val]
  refine ⟨rnd_pos (by linarith) (div_pos hα t0), ?_⟩
  have e := R.err (α.val / (2 : Fl R).val)
  rw [abs_of_pos (div_pos hα t0), abs_le] at e
  have e2 : α.val / (2 : Fl R).val ≤ 4 / 7 * α.val := by
    rw [div_le_iff₀ t0]
    have := mul_le_mul_of_nonneg_left t1 hα.le
    linarith
  have e3 : R.u * (α.val / (2 : Fl R).val) ≤ 1 / 8 * (α.val / (2 : Fl R).val) :=
    mul_le_mul_of_nonneg_right hu (div_pos hα t0).le
  linarith [e.2]

/-- **C131** the line search of Newton's method ends with rounding, whatever the objective, the direction `d` and the computed slope
`temp` are, if neither a coordinate that is changed nor the computed objective is zero.  Missing: coordinates and objectives that are
zero. -/
theorem C131_newton_search_partial (hu : R.u ≤ 1 / 8)
    (habs : ∀ x t, R.rnd x = x → |t| ≤ R.u / 4 * |x| → R.rnd (x + t) = x)
    {eval : Mat (Fl R) → Option (Mat (Fl R))} (heval : ∀ x : Fin n → Fl R, ∃ v, obj eval (col x) = some v)
    {sigma fx temp : Fl R} {x d : Fin n → Fl R} (hx : ∀ i, R.rnd (x i).val = (x i).val) (hfx : obj eval (col x) = some fx)
    (hfr : R.rnd fx.val = fx.val) {k : ℕ}
    (h1 : ∀ i, (3 / 4) ^ k * ((1 + R.u) * |(d i).val|) ≤ R.u / 4 * |(x i).val|)
    (h2 : (3 / 4) ^ k * ((1 + R.u) ^ 2 * (|temp.val| * |sigma.val|)) ≤ R.u / 4 * |fx.val|) {fuel : ℕ} (hk : k < fuel) :
    ∃ α, newtonSearch eval sigma (col x) (col d) fx temp fuel 1 = some α := by
  have u0 := R.u_nonneg
  have main : ∀ (fuel j : ℕ) (α : Fl R), 0 < α.val → α.val ≤ (3 / 4) ^ j → k < j + fuel →
      0 < fuel → ∃ α', newtonSearch eval sigma (col x) (col d) fx temp fuel α = some α' := by
    intro fuel
    induction fuel with
    | zero => intro j α _ _ _ h; omega
    | succ m ih =>
      intro j α hα hj hkj _
      simp only [newtonSearch, Ode.col_mulScalar_ops, Ode.col_add_ops, Option.bind_eq_bind, Option.bind_some]
      obtain ⟨fr, hfr1⟩ := heval fun i => x i + d i * α
      simp only [hfr1, Option.bind_some]
      split_ifs with hc
      · by_cases hkj' : k ≤ j
        · exfalso
          have hαk : α.val ≤ (3 / 4) ^ k := hj.trans (pow_le_pow_of_le_one (by norm_num) (by norm_num) hkj')
          have grow : ∀ v : K, |R.rnd v| ≤ (1 + R.u) * |v| := by
            intro v
            have e2 := abs_add_le (R.rnd v - v) v
            rw [sub_add_cancel] at e2
            linarith [R.err v]
          have hxr : (fun i => x i + d i * α) = x := by
            funext i
            refine Fl.ext ?_
            rw [Fl.add_val]
            refine habs _ _ (hx i) (le_trans ?_ (h1 i))
            rw [Fl.mul_val]
            refine (grow _).trans ?_
            rw [abs_mul, abs_of_pos hα]
            have := mul_le_mul_of_nonneg_right hαk (mul_nonneg (show 0 ≤ 1 + R.u by linarith) (abs_nonneg (d i).val))
            linarith
          have hffx : fr = fx := by
            rw [hxr] at hfr1
            exact Option.some.inj (hfr1.symm.trans hfx)
          have hb : |(temp * (sigma * α)).val| ≤ R.u / 4 * |fx.val| := by
            rw [Fl.mul_val, Fl.mul_val]
            refine (grow _).trans (le_trans ?_ h2)
            have e1 := grow (sigma.val * α.val)
            rw [abs_mul sigma.val, abs_of_pos hα] at e1
            rw [abs_mul]
            have e2 := mul_le_mul_of_nonneg_left (mul_le_mul_of_nonneg_left e1 (abs_nonneg temp.val)) (show 0 ≤ 1 + R.u by linarith)
            have e3 := mul_le_mul_of_nonneg_right hαk
              (show 0 ≤ (1 + R.u) ^ 2 * (|temp.val| * |sigma.val|) by positivity)
            have e4 : (1 + R.u) * (|temp.val| * ((1 + R.u) * (|sigma.val| * α.val))) =
                α.val * ((1 + R.u) ^ 2 * (|temp.val| * |sigma.val|)) := by ring
            rw [e4] at e2
            exact e2.trans e3
          rw [hffx, gt_iff_lt, ← not_le, Fl.le_iff, Fl.add_val, habs _ _ hfr hb] at hc
          exact hc le_rfl
        · obtain ⟨a1, a2⟩ := half_fl hu hα
          exact ih (j + 1) _ a1 (by rw [pow_succ]; linarith) (by omega) (by omega)
      · exact ⟨α, rfl⟩
  exact main fuel 0 1 zero_lt_one (by simp [Fl.one_val]) (by omega) (by omega)

end

section
variable {K : Type} [Field K] [LinearOrder K] [IsStrictOrderedRing K] [FloorRing K]

/-- **C131** rounding to nearest with `p` bits absorbs: a `p`-bit number does not change when at most `2^-p / 4` of it is added -/
theorem C131_absorb {p : ℕ} (hp : 1 ≤ p) {x t : K} (hx : (binary K p hp).rnd x = x) (ht : |t| ≤ (binary K p hp).u / 4 * |x|) :
    (binary K p hp).rnd (x + t) = x := by
  change roundBits p x = x at hx
  change roundBits p (x + t) = x
  change |t| ≤ (2 ^ p)⁻¹ / 4 * |x| at ht
  by_cases h0 : x = 0
  · have : t = 0 := by simpa [h0] using ht
    rw [this, add_zero, hx]
  obtain ⟨b1, b2⟩ := log_bounds h0
  set e := Int.log 2 |x| with he
  have hU := ulp_pos p x
  have hUe : ulp p x = 2 ^ (e + 1 - p) := rfl
  obtain ⟨m, hm⟩ : ∃ m : ℤ, x = m * ulp p x := ⟨_, hx.symm⟩
  have two : (2 : K) ≠ 0 := two_ne_zero
  have hpow : (2 : K) ^ (e + 1) = 2 ^ p * ulp p x := by
    rw [hUe, ← zpow_natCast, ← zpow_add₀ two]; congr 1; ring
  have p2 : (0 : K) < 2 ^ p := by positivity
  -- `t` is less than a quarter of the spacing
  have ht2 : |t| < ulp p x / 4 := by
    have : (2 ^ p)⁻¹ / 4 * |x| < (2 ^ p)⁻¹ / 4 * 2 ^ (e + 1) := mul_lt_mul_of_pos_left b2 (by positivity)
    rw [hpow] at this
    have e2 : ((2 : K) ^ p)⁻¹ / 4 * (2 ^ p * ulp p x) = ulp p x / 4 := by field_simp
    rw [e2] at this
    exact ht.trans_lt this
  have ht3 : |t| ≤ |x| / 8 := by
    have h1 : ((2 : K) ^ p)⁻¹ ≤ 1 / 2 := by
      rw [inv_le_comm₀ p2 (by norm_num)]
      calc (1 / 2 : K)⁻¹ = 2 ^ 1 := by norm_num
        _ ≤ 2 ^ p := pow_le_pow_right₀ (by norm_num) hp
    have := mul_le_mul_of_nonneg_right h1 (abs_nonneg x)
    linarith
  have hy1 : |x| - |t| ≤ |x + t| := by
    have := abs_sub_abs_le_abs_sub x (-t)
    rwa [abs_neg, sub_neg_eq_add] at this
  have hy2 : |x + t| ≤ |x| + |t| := abs_add_le _ _
  have hx0 := abs_pos.mpr h0
  have hy0 : x + t ≠ 0 := fun h => by rw [h, abs_zero] at hy1; linarith
  obtain ⟨c1, c2⟩ := log_bounds hy0
  set e' := Int.log 2 |x + t| with he'
  -- the exponent does not grow
  have hup : e' ≤ e := by
    by_contra hlt
    have h1 : (2 : K) ^ (e + 1) ≤ 2 ^ e' := zpow_le_zpow_right₀ (by norm_num) (by omega)
    have habs : |x| = |(m : K)| * ulp p x := by conv_lhs => rw [hm, abs_mul, abs_of_pos hU]
    have hm1 : |(m : K)| < 2 ^ p := by
      rw [habs, hpow] at b2
      exact lt_of_mul_lt_mul_right b2 hU.le
    have hm2 : |m| + 1 ≤ 2 ^ p := by
      have : |m| < 2 ^ p := by exact_mod_cast hm1
      omega
    have hm3 : |(m : K)| + 1 ≤ 2 ^ p := by exact_mod_cast hm2
    have h2 := mul_le_mul_of_nonneg_right hm3 hU.le
    rw [add_mul, one_mul, ← habs, ← hpow] at h2
    linarith
  have hlow : e - 1 ≤ e' := by
    by_contra hlt
    have h1 : (2 : K) ^ (e' + 1) ≤ 2 ^ (e - 1) := zpow_le_zpow_right₀ (by norm_num) (by omega)
    rw [zpow_sub_one₀ two] at h1
    linarith
  -- `x` is a multiple of the spacing at `x + t`
  obtain ⟨M, hM, ht4⟩ : ∃ M : ℤ, x = M * ulp p (x + t) ∧ |t| < 1 / 2 * ulp p (x + t) := by
    have hv : ulp p (x + t) = 2 ^ (e' + 1 - p) := rfl
    rcases (show e' = e ∨ e' = e - 1 by omega) with h | h
    · refine ⟨m, ?_, ?_⟩
      · rw [hv, h, ← hUe]; exact hm
      · rw [hv, h, ← hUe]; linarith
    · have : ulp p x = 2 * ulp p (x + t) := by
        rw [hv, hUe, h, show e + 1 - (p : ℤ) = (e - 1 + 1 - p) + 1 by ring, zpow_add_one₀ two]; ring
      refine ⟨m * 2, ?_, ?_⟩
      · push_cast
        rw [mul_assoc, ← this]; exact hm
      · linarith
  have hV := ulp_pos p (x + t)
  have hq : (x + t) / ulp p (x + t) = M + t / ulp p (x + t) := by
    rw [add_div]
    congr 1
    rw [div_eq_iff hV.ne']
    exact hM
  have hn : nearestEven ((x + t) / ulp p (x + t)) = M := by
    have h1 := nearestEven_err ((x + t) / ulp p (x + t))
    have h2 : |t / ulp p (x + t)| < 1 / 2 := by
      rw [abs_div, abs_of_pos hV, div_lt_iff₀ hV]; exact ht4
    rw [hq] at h1 ⊢
    set N := nearestEven ((M : K) + t / ulp p (x + t))
    rw [abs_le] at h1
    rw [abs_lt] at h2
    have h3 : ((N : ℤ) : K) < ((M + 1 : ℤ) : K) := by push_cast; linarith [h1.2, h2.2]
    have h4 : ((M - 1 : ℤ) : K) < ((N : ℤ) : K) := by push_cast; linarith [h1.1, h2.1]
    have h3' : N < M + 1 := by exact_mod_cast h3
    have h4' : M - 1 < N := by exact_mod_cast h4
    omega
  rw [roundBits, hn, ← hM]

end

/-- the objective `2⁶⁰ + x²` in `f64` -/
def bigEval (v : Mat (Fl f64)) : Option (Mat (Fl f64)) := do
  let x ← v.vget 0
  some ⟨1, 1, [⟨2 ^ 60⟩ + x * x]⟩

/-- its gradient `2 x` -/
def bigJac (v : Mat (Fl f64)) : Option (Mat (Fl f64)) := do
  let x ← v.vget 0
  some ⟨1, 1, [⟨2⟩ * x]⟩

/-- **C131 violated**: gradient descent finds the minimum. In `f64` for `2⁶⁰ + x²`, whose minimum is at `0`, from `1`: exactly, one step
of length `1/2` leads to the minimum, but `2⁶⁰ + 1` is rounded to `2⁶⁰` and so the first trial, `1 - 2 = -1`, is accepted; the method
alternates between `1` and `-1` for any number of iterations (`gradient.rs:82-98` compares only values of the objective). -/
theorem C131_stagnation_violated (iters fuel : ℕ) :
    gradientMinimize bigEval bigJac ⟨3 / 10⟩ iters (fuel + 1) ⟨1, 1, [⟨1⟩]⟩ = some ⟨1, 1, [⟨(-1) ^ iters⟩]⟩ := by
  have s1 : gradientStep bigEval bigJac ⟨3 / 10⟩ (fuel + 1) ⟨1, 1, [⟨1⟩]⟩ = some ⟨1, 1, [⟨-1⟩]⟩ := by
    have : gradientSearch bigEval ⟨3 / 10⟩ ⟨1, 1, [⟨1⟩]⟩ (neg ⟨1, 1, [⟨2⟩]⟩) (fuel + 1) 1 = some 1 := by
      rw [gradientSearch]
      have a1 : (⟨1, 1, [⟨1⟩]⟩ : Mat (Fl f64)).add ((neg ⟨1, 1, [⟨2⟩]⟩ : Mat (Fl f64)).mulScalar 1) = some ⟨1, 1, [⟨-1⟩]⟩ := by decide +kernel
      have a2 : obj bigEval ⟨1, 1, [⟨-1⟩]⟩ = some ⟨2 ^ 60⟩ := by decide +kernel
      have a3 : ((neg ⟨1, 1, [⟨2⟩]⟩ : Mat (Fl f64)).mulScalar 1).dotp (neg ⟨1, 1, [⟨2⟩]⟩) = some ⟨4⟩ := by decide +kernel
      have a4 : obj bigEval ⟨1, 1, [⟨1⟩]⟩ = some ⟨2 ^ 60⟩ := by decide +kernel
      simp only [a1, a2, a3, a4, Option.bind_eq_bind, Option.bind_some]
      rw [if_pos (by decide +kernel)]
    have g1 : gradAt bigJac ⟨1, 1, [⟨1⟩]⟩ = some ⟨1, 1, [⟨2⟩]⟩ := by decide +kernel
    simp only [gradientStep, g1, Option.bind_eq_bind, Option.bind_some, this]
    decide +kernel
  have s2 : gradientStep bigEval bigJac ⟨3 / 10⟩ (fuel + 1) ⟨1, 1, [⟨-1⟩]⟩ = some ⟨1, 1, [⟨1⟩]⟩ := by
    have : gradientSearch bigEval ⟨3 / 10⟩ ⟨1, 1, [⟨-1⟩]⟩ (neg ⟨1, 1, [⟨-2⟩]⟩) (fuel + 1) 1 = some 1 := by
      rw [gradientSearch]
      have a1 : (⟨1, 1, [⟨-1⟩]⟩ : Mat (Fl f64)).add ((neg ⟨1, 1, [⟨-2⟩]⟩ : Mat (Fl f64)).mulScalar 1) = some ⟨1, 1, [⟨1⟩]⟩ := by decide +kernel
      have a2 : obj bigEval ⟨1, 1, [⟨1⟩]⟩ = some ⟨2 ^ 60⟩ := by decide +kernel
      have a3 : ((neg ⟨1, 1, [⟨-2⟩]⟩ : Mat (Fl f64)).mulScalar 1).dotp (neg ⟨1, 1, [⟨-2⟩]⟩) = some ⟨4⟩ := by decide +kernel
      have a4 : obj bigEval ⟨1, 1, [⟨-1⟩]⟩ = some ⟨2 ^ 60⟩ := by decide +kernel
      simp only [a1, a2, a3, a4, Option.bind_eq_bind, Option.bind_some]
      rw [if_pos (by decide +kernel)]
    have g1 : gradAt bigJac ⟨1, 1, [⟨-1⟩]⟩ = some ⟨1, 1, [⟨-2⟩]⟩ := by decide +kernel
    simp only [gradientStep, g1, Option.bind_eq_bind, Option.bind_some, this]
    decide +kernel
  unfold gradientMinimize
  induction iters with
  | zero => rw [forRange_empty le_rfl]; simp
  | succ k ih =>
    rw [forRange_succ (Nat.zero_le _), ih, Option.bind_some]
    rcases Nat.even_or_odd k with hk | hk
    · rw [hk.neg_one_pow, (hk.add_one).neg_one_pow, s1]
    · rw [hk.neg_one_pow, (hk.add_one).neg_one_pow, s2]

/-- absorption in `f64`: `1` does not change when `2⁻⁵⁵` is added -/
example : f64.rnd (1 + 2⁻¹ ^ 55) = 1 :=
  C131_absorb (K := ℚ) (p := 53) (by norm_num) (by decide +kernel) (by norm_num [binary])

/-- the objective `x²` in `f64` from `3` with `σ = 3/10`: the minimum in one step, and the objective does not increase -/
example : gradientMinimize (fun v => do
      let x ← v.vget 0
      some (⟨1, 1, [x * x]⟩ : Mat (Fl f64))) bigJac ⟨3 / 10⟩ 2 50 ⟨1, 1, [⟨3⟩]⟩ = some ⟨1, 1, [⟨0⟩]⟩ := by decide +kernel

/-- the line search for `2⁶⁰ + x²` at `1` ends for every `σ ≤ 1`, after at most 200 trials -/
example (sigma : Fl f64) (h0 : 0 ≤ sigma.val) (h1 : sigma.val ≤ 1) :
    ∃ α, gradientSearch bigEval sigma (col ![⟨1⟩]) (col ![⟨-2⟩]) 201 1 = some α := by
  have hu : f64.u = (2 ^ 53)⁻¹ := rfl
  refine C131_search_partial (n := 1) (k := 200) (fx := ⟨2 ^ 60⟩) (by rw [hu]; norm_num) one_pos
    (fun x t hx ht => C131_absorb (K := ℚ) (p := 53) (by norm_num) hx ht) (fun x => ⟨_, rfl, f64.idem _⟩)
    (fun i => by fin_cases i; decide +kernel) (by decide +kernel) (fun i => ?_) ?_ (by norm_num)
  · fin_cases i
    simp only [hu]
    norm_num
  · rw [abs_of_nonneg h0, hu]
    simp only [univ_unique, Fin.default_eq_zero, sum_singleton, Matrix.cons_val_fin_one]
    norm_num
    linarith

/-- and that of Newton's method, with the direction `-1` and the slope `-2` -/
example (sigma : Fl f64) (h0 : 0 ≤ sigma.val) (h1 : sigma.val ≤ 1) :
    ∃ α, newtonSearch bigEval sigma (col ![⟨1⟩]) (col ![⟨-1⟩]) ⟨2 ^ 60⟩ ⟨-2⟩ 201 1 = some α := by
  have hu : f64.u = (2 ^ 53)⁻¹ := rfl
  refine C131_newton_search_partial (n := 1) (k := 200) (by rw [hu]; norm_num)
    (fun x t hx ht => C131_absorb (K := ℚ) (p := 53) (by norm_num) hx ht) (fun x => ⟨_, rfl⟩)
    (fun i => by fin_cases i; decide +kernel) (by decide +kernel) (by decide +kernel) (fun i => ?_) ?_ (by norm_num)
  · fin_cases i
    simp only [hu]
    norm_num
  · rw [abs_of_nonneg h0, hu]
    norm_num
    linarith

end Opt
end Verif
