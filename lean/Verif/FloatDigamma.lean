import Verif.DigammaModel
import Verif.FloatLnGamma
import Verif.DigammaProps
import Verif.DistGamma
import Mathlib.NumberTheory.Harmonic.GammaDeriv

/-!
# Property C126: the digamma function and the entropy of the gamma distribution with rounding
-/

namespace Verif
open Finset

namespace Special
open Rounding
variable {R : Rounding ℝ} {φ : ℝ} {ln : Fl R → Fl R}

/-- a rounded negative number -/
theorem LC.rnd_neg (hu : R.u < 1) {ε a b : ℝ} (h : LC ε (-a) b) : LC (ε + R.u) (-R.rnd a) b := by
  have h0 := R.u_nonneg
  have ha := h.1
  have e1 := R.err a
  have e2 := R.err' a
  rw [abs_of_neg (by linarith : a < 0)] at e1
  have hneg : R.rnd a < 0 := by
    have := (abs_le.1 e1).2
    have : 0 < (1 - R.u) * (-a) := mul_pos (by linarith) ha
    linarith
  rw [abs_of_neg hneg] at e2
  have h2 : LC R.u (-R.rnd a) (-a) := LC.of_rel h0 ha (by linarith [(abs_le.1 e1).1]) (by linarith [(abs_le.1 e2).2])
  have := h2.trans h
  rwa [add_comm] at this

/-- the sum of the loop -/
noncomputable def digS (x : ℝ) (k : ℕ) : ℝ := ∑ j ∈ range k, (x + j)⁻¹

theorem psi_add_nat {x : ℝ} (hx : 0 < x) (k : ℕ) : psi (x + k) = psi x + digS x k := by
  induction k with
  | zero => simp [digS]
  | succ k ih =>
    rw [show x + ((k + 1 : ℕ) : ℝ) = x + k + 1 by push_cast; ring, psi_add_one (by positivity), ih, digS, digS, sum_range_succ]
    ring

theorem digS_le {x : ℝ} (hx : 0 < x) {k : ℕ} (hk : k ≤ 9) : digS x k ≤ 1 / x + 2.72 := by
  have h1 : digS x k ≤ digS x 9 := by
    refine sum_le_sum_of_subset_of_nonneg (range_mono hk) fun j _ _ => ?_
    positivity
  refine h1.trans ?_
  have h2 : ∀ j : ℝ, 0 < j → (x + j)⁻¹ ≤ j⁻¹ := fun j hj => by gcongr; linarith
  simp only [digS, sum_range_succ, sum_range_zero]
  have a1 := h2 1 (by norm_num)
  have a2 := h2 2 (by norm_num)
  have a3 := h2 3 (by norm_num)
  have a4 := h2 4 (by norm_num)
  have a5 := h2 5 (by norm_num)
  have a6 := h2 6 (by norm_num)
  have a7 := h2 7 (by norm_num)
  have a8 := h2 8 (by norm_num)
  norm_num at a1 a2 a3 a4 a5 a6 a7 a8 ⊢
  linarith

/-- after `k` rounds -/
def DigInv (x : ℝ) (k : ℕ) (value x2 : Fl R) : Prop :=
  LC (k * R.u) x2.val (x + k) ∧ (k = 0 ∧ value.val = 0 ∨ LC (2 * k * R.u) (-value.val) (digS x k))

theorem lit_one (h1 : R.rnd 1 = 1) : (1.0 : Fl R).val = 1 := by
  show R.rnd 1.0 = 1
  rw [show (1.0 : ℝ) = 1 by norm_num, h1]

theorem digInv_step (hu : R.u < 1) (h1 : R.rnd 1 = 1) {x : ℝ} (hx : 0 < x) {k : ℕ} {value x2 : Fl R} (h : DigInv x k value x2) :
    DigInv x (k + 1) (value - 1.0 / x2) (x2 + 1.0) := by
  have h0 := R.u_nonneg
  have k0 : (0 : ℝ) ≤ k := Nat.cast_nonneg k
  obtain ⟨hx2, hv⟩ := h
  have hq : LC (k * R.u + R.u) (1.0 / x2 : Fl R).val ((x + k)⁻¹) := by
    rw [Fl.div_val, lit_one h1, inv_eq_one_div]
    have := (LC.refl one_pos).div hx2
    rw [zero_add] at this
    exact this.rnd hu
  constructor
  · rw [Fl.add_val, lit_one h1]
    have h2 : LC (k * R.u) 1 1 := (LC.refl one_pos).mono (by positivity)
    have := (hx2.add h2).rnd hu
    push_cast
    rw [← add_assoc x]
    exact this.mono (by linarith)
  · right
    rw [Fl.sub_val]
    push_cast
    rcases hv with ⟨rfl, hv⟩ | hv
    · rw [hv]
      have := LC.rnd_neg (R := R) hu (a := 0 - (1.0 / x2 : Fl R).val) (by rw [zero_sub, neg_neg]; exact hq)
      refine LC.mono (by simpa [digS] using this) ?_
      push_cast
      linarith
    · have h3 : LC ((2 * k + 1) * R.u) (-(value.val - (1.0 / x2 : Fl R).val)) (digS x (k + 1)) := by
        rw [digS, sum_range_succ, neg_sub, sub_eq_neg_add]
        have p := mul_nonneg k0 h0
        exact (hv.mono (by linarith)).add (hq.mono (by linarith))
      exact (LC.rnd_neg hu h3).mono (by linarith)

/-- the loop ends after at most nine rounds -/
theorem digammaLoop_fl (hu : R.u ≤ 1e-3) (h1 : R.rnd 1 = 1) {x : ℝ} (hx : 0 < x) (n : ℕ) :
    ∀ (k : ℕ) (value x2 : Fl R), k ≤ 9 → 9 ≤ n + k → DigInv x k value x2 →
      ∃ (k' : ℕ) (v' y : Fl R), k' ≤ 9 ∧ DigInv x k' v' y ∧ 8.49 ≤ y.val ∧
        digammaLoopG (fun a b => some (a / b)) n value x2 = some (v', y) := by
  have h0 := R.u_nonneg
  norm_num at hu
  have hu' : R.u < 1 := by linarith
  have hlit := R.err 8.5
  rw [abs_of_pos (show (0 : ℝ) < 8.5 by norm_num)] at hlit
  obtain ⟨l1, l2⟩ := abs_le.1 hlit
  norm_num at l1 l2
  have hend : ∀ {x2 : Fl R}, ¬ x2 < 8.5 → 8.49 ≤ x2.val := by
    intro x2 h
    have : R.rnd 8.5 ≤ x2.val := not_lt.1 h
    norm_num at this ⊢
    linarith
  have hnine : ∀ {k : ℕ} {value x2 : Fl R}, DigInv x k value x2 → 9 ≤ k → k ≤ 9 → ¬ x2 < 8.5 := by
    intro k value x2 h hk hk'
    obtain rfl : k = 9 := by omega
    have h2 := h.1.symm.le_exp
    have h3 : Real.exp (((9 : ℕ) : ℝ) * R.u) ≤ 1 + 0.01 := by
      have := Real.abs_exp_sub_one_sub_id_le (x := ((9 : ℕ) : ℝ) * R.u) (by rw [abs_of_nonneg (by positivity)]; push_cast; linarith)
      have := (abs_le.1 this).2
      push_cast at this ⊢
      norm_num
      nlinarith
    have h4 := mul_le_mul_of_nonneg_right h3 h.1.1.le
    have : R.rnd 8.5 ≤ x2.val := by
      push_cast at h2 h4
      norm_num at h2 h4 ⊢
      linarith
    exact not_lt.2 this
  induction n with
  | zero =>
    intro k value x2 hk hn h
    have hc := hnine h (by omega) hk
    exact ⟨k, value, x2, hk, h, hend hc, by rw [digammaLoopG, if_neg hc]⟩
  | succ n ih =>
    intro k value x2 hk hn h
    by_cases hc : x2 < 8.5
    · have hk' : k < 9 := by
        by_contra hcon
        exact hnine h (by omega) hk hc
      obtain ⟨k', v', y, a1, a2, a3, a4⟩ := ih (k + 1) _ _ (by omega) (by omega) (digInv_step hu' h1 hx h)
      exact ⟨k', v', y, a1, a2, a3, by rw [digammaLoopG, if_pos hc]; exact a4⟩
    · exact ⟨k, value, x2, hk, h, hend hc, by rw [digammaLoopG, if_neg hc]⟩

/-- a quotient of two literals -/
theorem lit_quot (hu : R.u ≤ 1e-3) {a b : ℝ} (ha : 0 < a) (hb : 0 < b) : |R.rnd (R.rnd a / R.rnd b) - a / b| ≤ 4 * R.u * (a / b) := by
  have h0 := R.u_nonneg
  norm_num at hu
  have hu' : R.u < 1 := by linarith
  have h := (((LC.lit (R := R) hu' ha).div (LC.lit hu' hb)).rnd hu').abs_sub_le (by linarith)
  refine h.trans (mul_le_mul_of_nonneg_right ?_ (by positivity))
  nlinarith

theorem stirling_tail {z : ℝ} (z0 : 0 < z) (iz : 1 / z ≤ 5 / 42) : (3617 / 8160 : ℝ) * z⁻¹ ^ 16 ≤ 9e-16 := by
  have e1 : z⁻¹ ≤ 5 / 42 := by rw [inv_eq_one_div]; exact iz
  have e2 : z⁻¹ ^ 16 ≤ (5 / 42) ^ 16 := pow_le_pow_left₀ (by positivity) e1 16
  have e3 : (3617 / 8160 : ℝ) * (5 / 42) ^ 16 ≤ 9e-16 := by norm_num
  linarith

theorem one_add_pow_le (h0 : 0 ≤ R.u) (hu : R.u ≤ 1 / 1000) : (1 + R.u) ^ 3 ≤ 1.0031 ∧ (1 + R.u) ^ 2 ≤ 1.0031 := by
  have h1 : (1 + R.u) ^ 3 ≤ (1 + 1 / 1000) ^ 3 := pow_le_pow_left₀ (by linarith) (by linarith) 3
  have h2 : (1 + R.u) ^ 2 ≤ (1 + 1 / 1000) ^ 2 := pow_le_pow_left₀ (by linarith) (by linarith) 2
  constructor
  · norm_num at h1 ⊢; linarith
  · norm_num at h2 ⊢; linarith

theorem exp_nine (h0 : 0 ≤ R.u) (hu : R.u ≤ 1 / 1000) : Real.exp (9 * R.u) ≤ 1.0095 := by
  have := Real.abs_exp_sub_one_sub_id_le (x := 9 * R.u) (by rw [abs_of_nonneg (by positivity)]; linarith)
  have := (abs_le.1 this).2
  norm_num
  nlinarith

/-- one round of the Horner scheme -/
theorem horner_sub (hu : R.u ≤ 1e-3) {w c e : ℝ} {w' c' p : Fl R} (hw0 : 0 ≤ w) (hw : w ≤ 0.0146)
    (hw' : |w'.val - w| ≤ 23 * R.u * w) (hp : |p.val - e| ≤ R.u) (he : |e| ≤ 1 / 10) (hc0 : 0 ≤ c) (hc : c ≤ 1 / 12)
    (hc' : |c'.val - c| ≤ 4 * R.u * c) :
    |(c' - w' * p).val - (c - w * e)| ≤ R.u ∧ |c - w * e| ≤ 1 / 10 := by
  have h0 := R.u_nonneg
  norm_num at hu hw
  have hp1 : |p.val| ≤ 11 / 100 := by
    have := abs_add_le (p.val - e) e
    rw [sub_add_cancel] at this
    linarith
  have hwe : |w * e| ≤ 0.00146 := by
    rw [abs_mul, abs_of_nonneg hw0]
    have := mul_le_mul hw he (abs_nonneg _) (by norm_num)
    norm_num at this ⊢
    linarith
  have e1 : |w'.val * p.val - w * e| ≤ 0.06 * R.u := by
    have : w'.val * p.val - w * e = (w'.val - w) * p.val + w * (p.val - e) := by ring
    rw [this]
    refine (abs_add_le _ _).trans ?_
    rw [abs_mul, abs_mul, abs_of_nonneg hw0]
    have a1 := mul_le_mul hw' hp1 (abs_nonneg _) (by positivity)
    have a2 := mul_le_mul_of_nonneg_left hp hw0
    have a3 := mul_le_mul_of_nonneg_left hw h0
    norm_num
    linarith
  have e2 := R.rnd_near e1
  have e3 : |R.rnd (w'.val * p.val) - w * e| ≤ 0.07 * R.u := by
    refine e2.trans ?_
    have := mul_le_mul_of_nonneg_left hwe h0
    have := mul_le_mul_of_nonneg_left hu h0
    linarith
  have e4 : |c'.val - R.rnd (w'.val * p.val) - (c - w * e)| ≤ 0.42 * R.u := by
    have : c'.val - R.rnd (w'.val * p.val) - (c - w * e) = (c'.val - c) - (R.rnd (w'.val * p.val) - w * e) := by ring
    rw [this]
    refine (abs_sub _ _).trans ?_
    have := mul_le_mul_of_nonneg_left hc h0
    linarith
  have e5 : |c - w * e| ≤ 1 / 10 := by
    rw [abs_le] at hwe ⊢
    norm_num at hwe
    constructor <;> linarith
  refine ⟨?_, e5⟩
  rw [Fl.sub_val, Fl.mul_val]
  refine (R.rnd_near e4).trans ?_
  have := mul_le_mul_of_nonneg_left e5 h0
  have := mul_le_mul_of_nonneg_left hu h0
  linarith

theorem last_mul (hu : R.u ≤ 1 / 1000) {w e : ℝ} {w' p : Fl R} (w0 : 0 ≤ w) (w1 : w ≤ 0.0146)
    (hw' : |w'.val - w| ≤ 23 * R.u * w) (p6 : |p.val - e| ≤ R.u) (p7 : |e| ≤ 1 / 10) : |(w' * p).val - w * e| ≤ 0.1 * R.u := by
  have h0 := R.u_nonneg
  have hp1 : |p.val| ≤ 11 / 100 := by
    have := abs_add_le (p.val - e) e
    rw [sub_add_cancel] at this
    linarith
  have f1 : |w'.val * p.val - w * e| ≤ 0.06 * R.u := by
    have : w'.val * p.val - w * e = (w'.val - w) * p.val + w * (p.val - e) := by ring
    rw [this]
    refine (abs_add_le _ _).trans ?_
    rw [abs_mul, abs_mul, abs_of_nonneg w0]
    have a1 := mul_le_mul hw' hp1 (abs_nonneg _) (by positivity)
    have a2 := mul_le_mul_of_nonneg_left p6 w0
    have a3 := mul_le_mul_of_nonneg_left w1 h0
    linarith
  rw [Fl.mul_val]
  refine (R.rnd_near f1).trans ?_
  have f2 : |w * e| ≤ 0.00146 := by
    rw [abs_mul, abs_of_nonneg w0]
    have := mul_le_mul w1 p7 (abs_nonneg _) (by norm_num)
    norm_num at this ⊢
    linarith
  have := mul_le_mul_of_nonneg_left f2 h0
  have := mul_le_mul_of_nonneg_left hu h0
  linarith

set_option maxHeartbeats 1000000 in
/-- **C126** (`/repo/src/special/gamma.rs:334-369`, `digamma` with rounding): for every positive argument the loop makes at most nine rounds,
and the result is the logarithmic derivative of the gamma function up to `9e-16`, the rounding errors and the error `φ` of the
logarithm. -/
theorem C126_digamma (hu : R.u ≤ 1e-3) (h1 : R.rnd 1 = 1) (h2 : R.rnd (1 / 2) = 1 / 2) (hφ0 : 0 ≤ φ) (hφ : φ ≤ 1 / 10)
    (hln : ∀ x : Fl R, 0 < x.val → |(ln x).val - Real.log x.val| ≤ φ * |Real.log x.val|) {x : Fl R} (hx : 0 < x.val) {n : ℕ} (hn : 9 ≤ n) :
    ∃ v : Fl R, digammaG (fun a b => some (a / b)) ln n x = some v ∧
      |v.val - deriv Real.Gamma x.val / Real.Gamma x.val| ≤
        9e-16 + (23 / x.val + 80 + 4 * Real.log (x.val + 9)) * R.u + (1 + 2 * Real.log (x.val + 9)) * φ := by
  have h0 := R.u_nonneg
  norm_num at hu
  have hu' : R.u < 1 := by linarith
  have hI : DigInv x.val 0 (0.0 : Fl R) x := by
    refine ⟨by simpa using LC.refl hx, Or.inl ⟨rfl, ?_⟩⟩
    show R.rnd 0.0 = 0
    rw [show (0.0 : ℝ) = 0 by norm_num, R.rnd_zero]
  obtain ⟨k, v, y, hk, hy, hy8, hl⟩ := digammaLoop_fl (by norm_num; exact hu) h1 hx n 0 _ _ (by omega) (by omega) hI
  have hk9 : (k : ℝ) ≤ 9 := by exact_mod_cast hk
  have k0 : (0 : ℝ) ≤ k := Nat.cast_nonneg k
  have hku : (k : ℝ) * R.u ≤ 9 * R.u := mul_le_mul_of_nonneg_right hk9 h0
  have hku0 : 0 ≤ (k : ℝ) * R.u := by positivity
  norm_num at hy8
  obtain ⟨hyz, hvS⟩ := hy
  set z := x.val + k with hz
  have hyz : LC (9 * R.u) y.val z := hyz.mono hku
  have z0 : 0 < z := hyz.2.1
  have y0 : 0 < y.val := hyz.1
  set S := digS x.val k with hS
  have S0 : 0 ≤ S := sum_nonneg fun j _ => by positivity
  have hz8 : 8.4 ≤ z := by
    have h3 := hyz.le_exp
    have h4 := exp_nine h0 hu
    have := mul_le_mul_of_nonneg_right h4 z0.le
    norm_num at this ⊢
    linarith
  norm_num at hz8
  -- the sum
  have hvS' : |v.val - -S| ≤ 19 * R.u * S := by
    rcases hvS with ⟨rfl, hv⟩ | hv
    · rw [hv, hS]; simp [digS]
    · have := (hv.mono (by linarith : 2 * (k : ℝ) * R.u ≤ 18 * R.u)).abs_sub_le (by linarith)
      rw [show v.val - -S = -(-v.val - S) by ring, abs_neg]
      refine this.trans (mul_le_mul_of_nonneg_right ?_ S0)
      nlinarith
  -- the logarithm
  have lz0 : 1 ≤ Real.log z := by
    rw [Real.le_log_iff_exp_le z0]
    have := Real.exp_one_lt_d9
    norm_num at this ⊢
    linarith
  have hlz : Real.log z ≤ Real.log (x.val + 9) := Real.log_le_log z0 (by rw [hz]; linarith)
  have hL : |(ln y).val - Real.log z| ≤ φ * (Real.log z + 9 * R.u) + 9 * R.u := by
    have e1 := hln y y0
    have e2 := hyz.2.2
    have e3 : |Real.log y.val| ≤ Real.log z + 9 * R.u := by
      obtain ⟨q1, q2⟩ := abs_le.1 e2
      rw [abs_le]
      constructor <;> linarith
    have e4 := mul_le_mul_of_nonneg_left e3 hφ0
    have := abs_add_le ((ln y).val - Real.log y.val) (Real.log y.val - Real.log z)
    rw [sub_add_sub_cancel] at this
    linarith
  -- the reciprocal
  have hr : LC (10 * R.u) (1.0 / y : Fl R).val (1 / z) := by
    rw [Fl.div_val, lit_one h1]
    have := ((LC.refl one_pos).div hyz).rnd hu'
    exact this.mono (by linarith)
  set r : Fl R := 1.0 / y with hrd
  have iz : 1 / z ≤ 5 / 42 := by
    rw [div_le_div_iff₀ z0 (by norm_num)]
    linarith
  have iz0 : 0 < 1 / z := by positivity
  have half : (0.5 : Fl R).val = 1 / 2 := lit_half h2
  have hh : |(0.5 * r : Fl R).val - 0.5 * (1 / z)| ≤ 0.8 * R.u := by
    have e1 : LC (11 * R.u) (0.5 * r : Fl R).val (1 / 2 * (1 / z)) := by
      rw [Fl.mul_val, half]
      exact (((LC.refl (by norm_num : (0 : ℝ) < 1 / 2)).mul hr).rnd hu').mono (by linarith)
    have e2 := e1.abs_sub_le (by linarith)
    rw [show (0.5 : ℝ) * (1 / z) = 1 / 2 * (1 / z) by norm_num]
    refine e2.trans ?_
    have e3 : 11 * R.u + (11 * R.u) ^ 2 ≤ 12 * R.u := by nlinarith
    have := mul_le_mul e3 (by linarith : 1 / 2 * (1 / z) ≤ 5 / 84) (by positivity) (by positivity)
    norm_num at this ⊢
    linarith
  set w := (1 / z) * (1 / z) with hw
  have w0 : 0 ≤ w := by positivity
  have w1 : w ≤ 0.0146 := by
    have := mul_le_mul iz iz iz0.le (by norm_num)
    rw [hw]
    norm_num at this ⊢
    linarith
  have hw' : |(r * r : Fl R).val - w| ≤ 23 * R.u * w := by
    have e1 : LC (21 * R.u) (r * r : Fl R).val w := by
      rw [Fl.mul_val]
      exact ((hr.mul hr).rnd hu').mono (by linarith)
    refine (e1.abs_sub_le (by linarith)).trans (mul_le_mul_of_nonneg_right ?_ w0)
    nlinarith
  -- the Horner scheme
  have hu3 : R.u ≤ 1e-3 := by norm_num; exact hu
  have q : ∀ a b : ℝ, 0 < a → 0 < b → |R.rnd (R.rnd a / R.rnd b) - a / b| ≤ 4 * R.u * (a / b) := fun a b ha hb => lit_quot hu3 ha hb
  have p0 : |(1.0 / 12.0 : Fl R).val - 1.0 / 12.0| ≤ R.u := by
    refine (q 1.0 12.0 (by norm_num) (by norm_num)).trans ?_
    norm_num
    linarith
  have p1 := horner_sub hu3 w0 w1 hw' p0 (by rw [abs_of_pos (show (0 : ℝ) < 1.0 / 12.0 by norm_num)]; norm_num) (by norm_num) (by norm_num)
    (q 691.0 32760.0 (by norm_num) (by norm_num) : |(691.0 / 32760.0 : Fl R).val - 691.0 / 32760.0| ≤ _)
  have p2 := horner_sub hu3 w0 w1 hw' p1.1 p1.2 (by norm_num) (by norm_num)
    (q 1.0 132.0 (by norm_num) (by norm_num) : |(1.0 / 132.0 : Fl R).val - 1.0 / 132.0| ≤ _)
  have p3 := horner_sub hu3 w0 w1 hw' p2.1 p2.2 (by norm_num) (by norm_num)
    (q 1.0 240.0 (by norm_num) (by norm_num) : |(1.0 / 240.0 : Fl R).val - 1.0 / 240.0| ≤ _)
  have p4 := horner_sub hu3 w0 w1 hw' p3.1 p3.2 (by norm_num) (by norm_num)
    (q 1.0 252.0 (by norm_num) (by norm_num) : |(1.0 / 252.0 : Fl R).val - 1.0 / 252.0| ≤ _)
  have p5 := horner_sub hu3 w0 w1 hw' p4.1 p4.2 (by norm_num) (by norm_num)
    (q 1.0 120.0 (by norm_num) (by norm_num) : |(1.0 / 120.0 : Fl R).val - 1.0 / 120.0| ≤ _)
  have p6 := horner_sub hu3 w0 w1 hw' p5.1 p5.2 (by norm_num) (by norm_num)
    (q 1.0 12.0 (by norm_num) (by norm_num) : |(1.0 / 12.0 : Fl R).val - 1.0 / 12.0| ≤ _)
  have est : stirling z = Real.log z - 0.5 * (1 / z) - w * (1.0 / 12.0 - w * (1.0 / 120.0 - w * (1.0 / 252.0 - w * (1.0 / 240.0 -
      w * (1.0 / 132.0 - w * (691.0 / 32760.0 - w * (1.0 / 12.0))))))) := by
    rw [stirling]
    simp only [show (1.0 : ℝ) = 1 by norm_num, show (12.0 : ℝ) = 12 by norm_num, show (120.0 : ℝ) = 120 by norm_num,
      show (252.0 : ℝ) = 252 by norm_num, show (240.0 : ℝ) = 240 by norm_num, show (132.0 : ℝ) = 132 by norm_num,
      show (691.0 : ℝ) = 691 by norm_num, show (32760.0 : ℝ) = 32760 by norm_num, hw]
  set P : Fl R := 1.0 / 12.0 - r * r * (1.0 / 120.0 - r * r * (1.0 / 252.0 - r * r * (1.0 / 240.0 - r * r * (1.0 / 132.0
    - r * r * (691.0 / 32760.0 - r * r * (1.0 / 12.0)))))) with hP
  set Q : ℝ := 1.0 / 12.0 - w * (1.0 / 120.0 - w * (1.0 / 252.0 - w * (1.0 / 240.0 -
      w * (1.0 / 132.0 - w * (691.0 / 32760.0 - w * (1.0 / 12.0)))))) with hQ
  have p7 : |Q| ≤ 1 / 10 := p6.2
  have p6 : |P.val - Q| ≤ R.u := p6.1
  have ht := last_mul hu w0 w1 hw' p6 p7
  clear_value P Q
  -- the sums
  set lz := Real.log z with hlzd
  have hφu : φ * R.u ≤ 1 / 10 * R.u := mul_le_mul_of_nonneg_right hφ h0
  set E := 19 * R.u * S + φ * lz + 10 * R.u with hE
  have E0 : 0 ≤ E := by positivity
  have s1 : |v.val + (ln y).val - (-S + lz)| ≤ E := by
    have : v.val + (ln y).val - (-S + lz) = (v.val - -S) + ((ln y).val - lz) := by ring
    rw [this]
    refine (abs_add_le _ _).trans ?_
    rw [hE]
    linarith
  have b1 : |-S + lz| ≤ S + lz := by
    rw [abs_le]; constructor <;> linarith
  have s2 : |(v + ln y).val - (-S + lz)| ≤ (1 + R.u) * E + R.u * (S + lz) :=
    (R.rnd_near s1).trans (by
      have := mul_le_mul_of_nonneg_left b1 h0
      linarith)
  have b2 : |-S + lz - 0.5 * (1 / z)| ≤ S + lz := by
    rw [abs_le]; constructor <;> linarith
  have s3 : |(v + ln y).val - (0.5 * r : Fl R).val - (-S + lz - 0.5 * (1 / z))| ≤ (1 + R.u) * E + R.u * (S + lz) + 0.8 * R.u := by
    have : (v + ln y).val - (0.5 * r : Fl R).val - (-S + lz - 0.5 * (1 / z)) =
      ((v + ln y).val - (-S + lz)) - ((0.5 * r : Fl R).val - 0.5 * (1 / z)) := by ring
    rw [this]
    exact (abs_sub _ _).trans (add_le_add s2 hh)
  have s4 : |(v + ln y - 0.5 * r : Fl R).val - (-S + lz - 0.5 * (1 / z))| ≤
      (1 + R.u) * ((1 + R.u) * E + R.u * (S + lz) + 0.8 * R.u) + R.u * (S + lz) :=
    (R.rnd_near s3).trans (by
      have := mul_le_mul_of_nonneg_left b2 h0
      linarith)
  have wQ : |w * Q| ≤ 0.00146 := by
    rw [abs_mul, abs_of_nonneg w0]
    have := mul_le_mul w1 p7 (abs_nonneg _) (by norm_num)
    norm_num at this ⊢
    linarith
  have b3 : |-S + lz - 0.5 * (1 / z) - w * Q| ≤ S + lz + 0.01 := by
    obtain ⟨c1, c2⟩ := abs_le.1 b2
    obtain ⟨c3, c4⟩ := abs_le.1 wQ
    rw [abs_le]; constructor <;> linarith
  have s5 : |(v + ln y - 0.5 * r : Fl R).val - (r * r * P : Fl R).val - (-S + lz - 0.5 * (1 / z) - w * Q)| ≤
      (1 + R.u) * ((1 + R.u) * E + R.u * (S + lz) + 0.8 * R.u) + R.u * (S + lz) + 0.1 * R.u := by
    have : (v + ln y - 0.5 * r : Fl R).val - (r * r * P : Fl R).val - (-S + lz - 0.5 * (1 / z) - w * Q) =
      ((v + ln y - 0.5 * r : Fl R).val - (-S + lz - 0.5 * (1 / z))) - ((r * r * P : Fl R).val - w * Q) := by ring
    rw [this]
    exact (abs_sub _ _).trans (add_le_add s4 ht)
  have s6 : |(v + ln y - 0.5 * r - r * r * P : Fl R).val - (-S + lz - 0.5 * (1 / z) - w * Q)| ≤
      (1 + R.u) * ((1 + R.u) * ((1 + R.u) * E + R.u * (S + lz) + 0.8 * R.u) + R.u * (S + lz) + 0.1 * R.u) +
        R.u * (S + lz + 0.01) :=
    (R.rnd_near s5).trans (by
      have := mul_le_mul_of_nonneg_left b3 h0
      linarith)
  refine ⟨v + ln y - 0.5 * r - r * r * P, ?_, ?_⟩
  · rw [digammaG, hl]
    rw [hP]; rfl
  -- the exact value
  obtain ⟨t1, t2⟩ := stirling_psi z0
  have t3 := stirling_tail z0 iz
  have t4 : psi z = psi x.val + S := psi_add_nat hx k
  have t5 : stirling z = lz - 0.5 * (1 / z) - w * Q := est
  have hSle : S ≤ 1 / x.val + 2.72 := digS_le hx hk
  have t6 : |(-S + lz - 0.5 * (1 / z) - w * Q) - psi x.val| ≤ 9e-16 := by
    have : (-S + lz - 0.5 * (1 / z) - w * Q) - psi x.val = stirling z - psi z := by rw [t4, t5]; ring
    rw [this, abs_le]
    constructor <;> linarith
  have t7 := abs_add_le ((v + ln y - 0.5 * r - r * r * P : Fl R).val - (-S + lz - 0.5 * (1 / z) - w * Q))
    ((-S + lz - 0.5 * (1 / z) - w * Q) - psi x.val)
  rw [sub_add_sub_cancel] at t7
  change |(v + ln y - 0.5 * r - r * r * P : Fl R).val - psi x.val| ≤ _
  refine t7.trans ((add_le_add s6 t6).trans ?_)
  -- collecting
  obtain ⟨g1, g2⟩ := one_add_pow_le h0 hu
  have m1 := mul_le_mul_of_nonneg_right g1 E0
  have Sl0 : 0 ≤ R.u * (S + lz) := by positivity
  have m2 := mul_le_mul_of_nonneg_right g2 Sl0
  have m3 := mul_le_mul_of_nonneg_right g2 h0
  have m4 : (1 + R.u) * (R.u * (S + lz)) ≤ 1.0031 * (R.u * (S + lz)) := mul_le_mul_of_nonneg_right (by norm_num; linarith) Sl0
  have m5 : (1 + R.u) * R.u ≤ 1.0031 * R.u := mul_le_mul_of_nonneg_right (by norm_num; linarith) h0
  have uS := mul_le_mul_of_nonneg_left hSle h0
  have ul := mul_le_mul_of_nonneg_left hlz h0
  have pl := mul_le_mul_of_nonneg_left hlz hφ0
  have pl0 : 0 ≤ φ * lz := by positivity
  have ul0 : 0 ≤ R.u * lz := by positivity
  have ux0 : 0 ≤ R.u * (1 / x.val) := by positivity
  have ex : 23 / x.val * R.u = 23 * (R.u * (1 / x.val)) := by ring
  have lhs : (1 + R.u) * ((1 + R.u) * ((1 + R.u) * E + R.u * (S + lz) + 0.8 * R.u) + R.u * (S + lz) + 0.1 * R.u) +
        R.u * (S + lz + 0.01) = (1 + R.u) ^ 3 * E + (1 + R.u) ^ 2 * (R.u * (S + lz)) + 0.8 * ((1 + R.u) ^ 2 * R.u) +
        (1 + R.u) * (R.u * (S + lz)) + 0.1 * ((1 + R.u) * R.u) + R.u * (S + lz) + 0.01 * R.u := by ring
  rw [lhs]
  have rhs : 9e-16 + (23 / x.val + 80 + 4 * Real.log (x.val + 9)) * R.u + (1 + 2 * Real.log (x.val + 9)) * φ =
    9e-16 + 23 * (R.u * (1 / x.val)) + 80 * R.u + 4 * (R.u * Real.log (x.val + 9)) + φ + 2 * (φ * Real.log (x.val + 9)) := by ring
  rw [rhs]
  rw [hE] at m1 ⊢
  linarith

/-- with 53 bits and the rounded logarithm `digamma(1)` is `-γ` up to `2e-14` -/
example : ∃ v : Fl (binary ℝ 53 (by norm_num)), digammaG (fun a b => some (a / b))
      (fun x => ⟨(binary ℝ 53 (by norm_num)).rnd (Real.log x.val)⟩) 9 ⟨1⟩ = some v ∧
      |v.val - -Real.eulerMascheroniConstant| ≤ 2e-14 := by
  have hu : (binary ℝ 53 (by norm_num)).u = 1 / 2 ^ 53 := (one_div _).symm
  obtain ⟨v, h1, h2⟩ := C126_digamma (R := binary ℝ 53 (by norm_num)) (φ := 1 / 2 ^ 53)
    (ln := fun x => ⟨(binary ℝ 53 (by norm_num)).rnd (Real.log x.val)⟩) (by rw [hu]; norm_num) (binary_one _) (binary_half _)
    (by norm_num) (by norm_num) (fun x _ => by rw [← hu]; exact (binary ℝ 53 (by norm_num)).err _) (x := ⟨1⟩) one_pos (n := 9) le_rfl
  refine ⟨v, h1, ?_⟩
  rw [Real.hasDerivAt_Gamma_one.deriv, Real.Gamma_one, div_one, hu] at h2
  refine h2.trans ?_
  have l : Real.log (1 + 9) ≤ 3 := by
    have a2 := Real.log_le_log (by norm_num : (0 : ℝ) < 1 + 9) (by norm_num : (1 : ℝ) + 9 ≤ 2 ^ 4)
    rw [Real.log_pow] at a2
    have a3 := Real.log_two_lt_d9
    norm_num at a2 a3 ⊢
    linarith
  norm_num at l ⊢
  linarith

end Special

namespace Stat
open Special Rounding MeasureTheory Set
variable {R : Rounding ℝ} {φ : ℝ} {pi : Fl R} {sqrt exp sin ln : Fl R → Fl R} {pow : Fl R → Fl R → Fl R}

set_option maxHeartbeats 1000000 in
/-- **C126** (`/repo/src/statistics/distrib/gamma.rs:147-152`, `entropy` with rounding): the returned value is the differential entropy
`-∫ f ln f` of the gamma density up to the errors of `gamma` and `digamma` and a relative error of the terms of the sum. -/
theorem C126_gamma_entropy (L : GammaLib R φ pi sqrt exp sin pow) (hu : R.u ≤ 1e-4) (h1 : R.rnd 1 = 1) (h2 : R.rnd (1 / 2) = 1 / 2)
    (h3 : ∀ x : ℝ, 1 / 2 ≤ x → 1 / 2 ≤ R.rnd x) (hφ : φ ≤ 1 / 10)
    (hln : ∀ x : Fl R, 0 < x.val → |(ln x).val - Real.log x.val| ≤ φ * |Real.log x.val|)
    {a b : Fl R} (ha : 0 < a.val) (hb : 0 < b.val) {n : ℕ} (hn : 9 ≤ n) (f : ℝ → ℝ)
    (hf : ∀ x, f x = b.val ^ a.val / Real.Gamma a.val * x ^ (a.val - 1) * Real.exp (-b.val * x)) :
    ∃ v : Fl R, gammaEntropyG (fun x => some (ln x)) (gammaG (fun x y => some (x / y)) pi sqrt exp sin pow)
        (digammaG (fun x y => some (x / y)) ln n) a b = some v ∧
      |v.val + ∫ x in Ioi (0 : ℝ), f x * Real.log (f x)| ≤
        1.2 * (2.6e-12 + 5 * φ + (1200 + 7 * a.val + 2 * a.val * Real.log (a.val + 6.5)) * R.u) +
        1.2 * |1 - a.val| * (9e-16 + (23 / a.val + 80 + 4 * Real.log (a.val + 9)) * R.u + (1 + 2 * Real.log (a.val + 9)) * φ) +
        (1.1 * φ + 4 * R.u) * (a.val + |Real.log b.val| + |Real.log (Real.Gamma a.val)| +
          |1 - a.val| * |deriv Real.Gamma a.val / Real.Gamma a.val|) := by
  have h0 := R.u_nonneg
  have hφ0 := L.nonneg
  obtain rfl : f = gammaDens a.val b.val := funext hf
  obtain ⟨g, eg, g0, hg⟩ := C114_gamma L hu h1 h2 h3 a ha
  obtain ⟨p, ep, hp⟩ := C126_digamma (hu.trans (by norm_num)) h1 h2 hφ0 hφ hln ha hn
  have hH := gamma_neg_log ha hb
  have hlb := hln b hb
  have hlg := hln g g0
  set G := 2.6e-12 + 5 * φ + (1200 + 7 * a.val + 2 * a.val * Real.log (a.val + 6.5)) * R.u
  set D := 9e-16 + (23 / a.val + 80 + 4 * Real.log (a.val + 9)) * R.u + (1 + 2 * Real.log (a.val + 9)) * φ
  change |p.val - psi a.val| ≤ D at hp
  change ∃ v : Fl R, _ ∧ _ ≤ 1.2 * G + 1.2 * |1 - a.val| * D +
    (1.1 * φ + 4 * R.u) * (a.val + |Real.log b.val| + |Real.log (Real.Gamma a.val)| + |1 - a.val| * |psi a.val|)
  have G0 : 0 ≤ G := (abs_nonneg _).trans hg
  have D0 : 0 ≤ D := (abs_nonneg _).trans hp
  clear_value G D
  refine ⟨a - ln b + ln g + (1 - a) * p, ?_, ?_⟩
  · simp only [gammaEntropyG, eg, ep, Option.bind_eq_bind, Option.bind_some]
  rw [show ((a - ln b + ln g + (1 - a) * p : Fl R).val + ∫ x in Ioi (0 : ℝ), gammaDens a.val b.val x * Real.log (gammaDens a.val b.val x)) =
    (a - ln b + ln g + (1 - a) * p : Fl R).val - (a.val - Real.log b.val + Real.log (Real.Gamma a.val) + (1 - a.val) * psi a.val) by
      rw [← hH]; ring]
  generalize Real.log b.val = B at *
  generalize Real.log (Real.Gamma a.val) = Λ at *
  generalize psi a.val = Ψ at *
  generalize hlg' : Real.log g.val = g' at *
  -- the terms
  have e1 : |(ln g).val - Λ| ≤ 1.1 * G + φ * |Λ| := by
    have q1 : |g'| ≤ |Λ| + G := by
      have := abs_add_le (g' - Λ) Λ
      rw [sub_add_cancel] at this
      linarith
    have q2 := mul_le_mul_of_nonneg_left q1 hφ0
    have q3 := mul_le_mul_of_nonneg_right hφ G0
    have := abs_add_le ((ln g).val - g') (g' - Λ)
    rw [sub_add_sub_cancel] at this
    linarith
  have s1 : |(a - ln b : Fl R).val - (a.val - B)| ≤ (1 + R.u) * (φ * |B|) + R.u * (a.val + |B|) := by
    have q1 : |a.val - (ln b).val - (a.val - B)| ≤ φ * |B| := by
      rw [show a.val - (ln b).val - (a.val - B) = -((ln b).val - B) by ring, abs_neg]
      exact hlb
    refine (R.rnd_near q1).trans ?_
    have q2 : |a.val - B| ≤ a.val + |B| := by
      have := abs_sub a.val B
      rwa [abs_of_pos ha] at this
    have := mul_le_mul_of_nonneg_left q2 h0
    linarith
  have s2 : |(a - ln b + ln g : Fl R).val - (a.val - B + Λ)| ≤
      (1 + R.u) * ((1 + R.u) * (φ * |B|) + R.u * (a.val + |B|) + (1.1 * G + φ * |Λ|)) + R.u * (a.val + |B| + |Λ|) := by
    have q1 : |(a - ln b : Fl R).val + (ln g).val - (a.val - B + Λ)| ≤
        (1 + R.u) * (φ * |B|) + R.u * (a.val + |B|) + (1.1 * G + φ * |Λ|) := by
      rw [show (a - ln b : Fl R).val + (ln g).val - (a.val - B + Λ) = ((a - ln b : Fl R).val - (a.val - B)) + ((ln g).val - Λ) by ring]
      exact (abs_add_le _ _).trans (add_le_add s1 e1)
    refine (R.rnd_near q1).trans ?_
    have q2 : |a.val - B + Λ| ≤ a.val + |B| + |Λ| := by
      have := abs_sub a.val B
      rw [abs_of_pos ha] at this
      linarith [abs_add_le (a.val - B) Λ]
    have := mul_le_mul_of_nonneg_left q2 h0
    linarith
  have m0 := abs_nonneg (1 - a.val)
  have s3 : |((1 - a) * p : Fl R).val - (1 - a.val) * Ψ| ≤
      (1 + R.u) * ((1 + R.u) * (|1 - a.val| * D) + R.u * (|1 - a.val| * |Ψ|)) + R.u * (|1 - a.val| * |Ψ|) := by
    have q0 : |(1 - a : Fl R).val - (1 - a.val)| ≤ R.u * |1 - a.val| := R.err _
    have q3 : |(1 - a : Fl R).val| ≤ (1 + R.u) * |1 - a.val| := by
      have := abs_add_le ((1 - a : Fl R).val - (1 - a.val)) (1 - a.val)
      rw [sub_add_cancel] at this
      linarith
    have q1 : |(1 - a : Fl R).val * p.val - (1 - a.val) * Ψ| ≤ (1 + R.u) * (|1 - a.val| * D) + R.u * (|1 - a.val| * |Ψ|) := by
      rw [show (1 - a : Fl R).val * p.val - (1 - a.val) * Ψ = (1 - a : Fl R).val * (p.val - Ψ) + ((1 - a : Fl R).val - (1 - a.val)) * Ψ by ring]
      refine (abs_add_le _ _).trans ?_
      rw [abs_mul, abs_mul]
      have c1 := mul_le_mul q3 hp (abs_nonneg _) (by positivity)
      have c2 := mul_le_mul_of_nonneg_right q0 (abs_nonneg Ψ)
      linarith
    have := R.rnd_near q1
    rw [abs_mul (1 - a.val) Ψ] at this
    exact this.trans_eq (by ring)
  have q1 : |(a - ln b + ln g : Fl R).val + ((1 - a) * p : Fl R).val - (a.val - B + Λ + (1 - a.val) * Ψ)| ≤
      (1 + R.u) * ((1 + R.u) * (φ * |B|) + R.u * (a.val + |B|) + (1.1 * G + φ * |Λ|)) + R.u * (a.val + |B| + |Λ|) +
      ((1 + R.u) * ((1 + R.u) * (|1 - a.val| * D) + R.u * (|1 - a.val| * |Ψ|)) + R.u * (|1 - a.val| * |Ψ|)) := by
    rw [show (a - ln b + ln g : Fl R).val + ((1 - a) * p : Fl R).val - (a.val - B + Λ + (1 - a.val) * Ψ) =
      ((a - ln b + ln g : Fl R).val - (a.val - B + Λ)) + (((1 - a) * p : Fl R).val - (1 - a.val) * Ψ) by ring]
    exact (abs_add_le _ _).trans (add_le_add s2 s3)
  refine (R.rnd_near q1).trans ?_
  have q2 : |a.val - B + Λ + (1 - a.val) * Ψ| ≤ a.val + |B| + |Λ| + |1 - a.val| * |Ψ| := by
    have k1 := abs_sub a.val B
    rw [abs_of_pos ha] at k1
    have k2 := abs_add_le (a.val - B) Λ
    have k3 := abs_add_le (a.val - B + Λ) ((1 - a.val) * Ψ)
    rw [abs_mul] at k3
    linarith
  have q3 := mul_le_mul_of_nonneg_left q2 h0
  have B0 := abs_nonneg B
  have Λ0 := abs_nonneg Λ
  have MD : 0 ≤ |1 - a.val| * D := by positivity
  have MP : 0 ≤ |1 - a.val| * |Ψ| := by positivity
  have hu4 : R.u ≤ 1 / 10000 := by norm_num at hu ⊢; linarith
  generalize |1 - a.val| * |Ψ| = X at *
  rw [mul_assoc 1.2]
  generalize |1 - a.val| * D = Y at *
  generalize |B| = B' at *
  generalize |Λ| = Λ' at *
  have u3 : (1 + R.u) ^ 3 ≤ 1.001 := by
    have := pow_le_pow_left₀ (by linarith) (by linarith : 1 + R.u ≤ 1 + 1 / 10000) 3
    norm_num at this ⊢
    linarith
  have u2 : (1 + R.u) ^ 2 ≤ 1.001 := by
    have := pow_le_pow_left₀ (by linarith) (by linarith : 1 + R.u ≤ 1 + 1 / 10000) 2
    norm_num at this ⊢
    linarith
  have u1 : 1 + R.u ≤ 1.001 := by norm_num; linarith
  have φB : 0 ≤ φ * B' := by positivity
  have φΛ : 0 ≤ φ * Λ' := by positivity
  have φa : 0 ≤ φ * a.val := by positivity
  have φX : 0 ≤ φ * X := by positivity
  have ua : 0 ≤ R.u * a.val := by positivity
  have uB : 0 ≤ R.u * B' := by positivity
  have uΛ : 0 ≤ R.u * Λ' := by positivity
  have uX : 0 ≤ R.u * X := by positivity
  have x1 := mul_le_mul_of_nonneg_right u3 φB
  have x2 := mul_le_mul_of_nonneg_right u2 φΛ
  have x3 := mul_le_mul_of_nonneg_right u2 ua
  have x4 := mul_le_mul_of_nonneg_right u2 uB
  have x5 := mul_le_mul_of_nonneg_right u1 ua
  have x6 := mul_le_mul_of_nonneg_right u1 uB
  have x7 := mul_le_mul_of_nonneg_right u1 uΛ
  have x8 := mul_le_mul_of_nonneg_right u2 G0
  have x9 := mul_le_mul_of_nonneg_right u3 MD
  have x10 := mul_le_mul_of_nonneg_right u2 uX
  have x11 := mul_le_mul_of_nonneg_right u1 uX
  have lhs : ((1 + R.u) * ((1 + R.u) * (φ * B') + R.u * (a.val + B') + (1.1 * G + φ * Λ')) + R.u * (a.val + B' + Λ') +
      ((1 + R.u) * ((1 + R.u) * Y + R.u * X) + R.u * X)) * (1 + R.u) =
      (1 + R.u) ^ 3 * (φ * B') + (1 + R.u) ^ 2 * (R.u * a.val) + (1 + R.u) ^ 2 * (R.u * B') + 1.1 * ((1 + R.u) ^ 2 * G) +
      (1 + R.u) ^ 2 * (φ * Λ') + (1 + R.u) * (R.u * a.val) + (1 + R.u) * (R.u * B') + (1 + R.u) * (R.u * Λ') +
      (1 + R.u) ^ 3 * Y + (1 + R.u) ^ 2 * (R.u * X) + (1 + R.u) * (R.u * X) := by ring
  rw [lhs]
  linarith

/-- the hypotheses are met: with 53 bits the entropy of the gamma distribution with the parameters 1 and 1 is `1` up to `3.3e-12` -/
example : ∃ v : Fl (binary ℝ 53 (by norm_num)), gammaEntropyG (fun x => some ⟨(binary ℝ 53 (by norm_num)).rnd (Real.log x.val)⟩)
      (gammaG (fun a b => some (a / b)) ⟨(binary ℝ 53 (by norm_num)).rnd Real.pi⟩
        (fun x => ⟨(binary ℝ 53 (by norm_num)).rnd (Real.sqrt x.val)⟩) (fun x => ⟨(binary ℝ 53 (by norm_num)).rnd (Real.exp x.val)⟩)
        (fun x => ⟨(binary ℝ 53 (by norm_num)).rnd (Real.sin x.val)⟩) (fun x y => ⟨(binary ℝ 53 (by norm_num)).rnd (x.val ^ y.val)⟩))
      (digammaG (fun x y => some (x / y)) (fun x => ⟨(binary ℝ 53 (by norm_num)).rnd (Real.log x.val)⟩) 9) ⟨1⟩ ⟨1⟩ = some v ∧
      |v.val - 1| ≤ 3.3e-12 := by
  have hu : (binary ℝ 53 (by norm_num)).u = 1 / 2 ^ 53 := (one_div _).symm
  obtain ⟨v, h1, h2⟩ := C126_gamma_entropy (R := binary ℝ 53 (by norm_num))
    (ln := fun x => ⟨(binary ℝ 53 (by norm_num)).rnd (Real.log x.val)⟩) (correct_lib _ (by rw [hu]; norm_num)) (by rw [hu]; norm_num)
    (binary_one _) (binary_half _) (fun _ => binary_ge_half _) (by rw [hu]; norm_num)
    (fun x _ => (binary ℝ 53 (by norm_num)).err _)
    (a := ⟨1⟩) (b := ⟨1⟩) one_pos one_pos (n := 9) le_rfl (gammaDens 1 1) (fun _ => rfl)
  refine ⟨v, h1, ?_⟩
  have hH := gamma_neg_log one_pos one_pos
  rw [Real.Gamma_one, Real.log_one] at hH
  have e : ∫ x in Ioi (0 : ℝ), gammaDens 1 1 x * Real.log (gammaDens 1 1 x) = -1 := by linarith
  rw [e, Real.Gamma_one, Real.log_one, hu] at h2
  rw [sub_eq_add_neg]
  refine h2.trans ?_
  have l : Real.log (1 + 6.5) ≤ 3 := by
    have a2 := Real.log_le_log (by norm_num : (0 : ℝ) < 1 + 6.5) (by norm_num : (1 : ℝ) + 6.5 ≤ 2 ^ 4)
    rw [Real.log_pow] at a2
    have a3 := Real.log_two_lt_d9
    norm_num at a2 a3 ⊢
    linarith
  norm_num at l ⊢
  linarith

end Stat
end Verif
