import Verif.CxFnModel
import Verif.ComplexLemmas
import Verif.FloatCx
import Verif.FloatBeta

/-!
# Property C128: functions of complex numbers with rounding
-/

namespace Verif
namespace Cx
open Rounding Special
variable {R : Rounding ℝ} {φ : ℝ} {exp cos sin : Fl R → Fl R}

/-- the value of a complex number with rounded components -/
def flC (z : Cx (Fl R)) : ℂ := ⟨z.re.val, z.im.val⟩

/-- errors of the components relative to the components -/
theorem comp_norm {x y a b η : ℝ} (h0 : 0 ≤ η) (hx : |x - a| ≤ η * |a|) (hy : |y - b| ≤ η * |b|) :
    ‖(⟨x, y⟩ : ℂ) - ⟨a, b⟩‖ ≤ η * ‖(⟨a, b⟩ : ℂ)‖ := by
  refine le_of_sq_le_sq ?_ (by positivity)
  rw [mul_pow, Complex.sq_norm, Complex.sq_norm, Complex.normSq_apply, Complex.normSq_apply]
  simp only [Complex.sub_re, Complex.sub_im]
  have h1 := pow_le_pow_left₀ (abs_nonneg _) hx 2
  have h2 := pow_le_pow_left₀ (abs_nonneg _) hy 2
  rw [mul_pow, sq_abs, sq_abs] at h1 h2
  nlinarith

theorem sub_close (a b : Cx (Fl R)) : ‖flC (a.sub b) - (flC a - flC b)‖ ≤ R.u * ‖flC a - flC b‖ :=
  comp_norm R.u_nonneg (R.err _) (R.err _)

theorem add_close (a b : Cx (Fl R)) : ‖flC (a.add b) - (flC a + flC b)‖ ≤ R.u * ‖flC a + flC b‖ :=
  comp_norm R.u_nonneg (R.err _) (R.err _)

theorem sqrt_two_le {x y c : ℝ} (hy : 0 ≤ y) (hc : 0 ≤ c) (hx : 0 ≤ x) (h : x ^ 2 ≤ 2 * c ^ 2 * y ^ 2) : x ≤ 3 / 2 * c * y := by
  refine le_of_sq_le_sq (h.trans ?_) (by positivity)
  have : 0 ≤ c ^ 2 * y ^ 2 := by positivity
  nlinarith

theorem mul_close (a b : Cx (Fl R)) : ‖flC (a.mul b) - flC a * flC b‖ ≤ 3 / 2 * ((1 + R.u) ^ 2 - 1) * (‖flC a‖ * ‖flC b‖) := by
  refine sqrt_two_le (by positivity) (R.gam_nonneg 2) (norm_nonneg _) ?_
  have := C103_mul a b
  rw [mul_pow, Complex.sq_norm, Complex.sq_norm, Complex.sq_norm, Complex.normSq_apply, Complex.normSq_apply, Complex.normSq_apply]
  simp only [Complex.sub_re, Complex.sub_im, Complex.mul_re, Complex.mul_im, flC]
  nlinarith

theorem div_close (hu : R.u < 1) (a b : Cx (Fl R)) (hb : flC b ≠ 0) :
    ∃ q, a.div b = some q ∧ ‖flC q - flC a / flC b‖ ≤ 3 / 2 * ((1 + R.u) ^ 5 - 1) * (‖flC a‖ / ‖flC b‖) := by
  have hn : Complex.normSq (flC b) = b.re.val ^ 2 + b.im.val ^ 2 := by
    rw [Complex.normSq_apply]; simp only [flC]; ring
  have hD : b.re.val ^ 2 + b.im.val ^ 2 ≠ 0 := by
    rw [← hn]
    exact fun h => hb (Complex.normSq_eq_zero.1 h)
  obtain ⟨q, e, h⟩ := (C103_div hu a b rfl rfl rfl).2 hD
  refine ⟨q, e, sqrt_two_le (by positivity) (R.gam_nonneg 5) (norm_nonneg _) ?_⟩
  rw [div_pow, Complex.sq_norm, Complex.sq_norm, Complex.sq_norm, hn, Complex.normSq_apply, Complex.normSq_apply (flC a)]
  have e1 : (flC a / flC b).re = (a.re.val * b.re.val + a.im.val * b.im.val) / (b.re.val ^ 2 + b.im.val ^ 2) := by
    rw [Complex.div_re, hn]; simp only [flC]; ring
  have e2 : (flC a / flC b).im = (a.im.val * b.re.val - a.re.val * b.im.val) / (b.re.val ^ 2 + b.im.val ^ 2) := by
    rw [Complex.div_im, hn]; simp only [flC]; ring
  rw [Complex.sub_re, Complex.sub_im, e1, e2]
  simp only [flC]
  change _ ≤ 2 * ((1 + R.u) ^ 5 - 1) ^ 2 * _
  calc _ = (q.re.val - (a.re.val * b.re.val + a.im.val * b.im.val) / (b.re.val ^ 2 + b.im.val ^ 2)) ^ 2 +
        (q.im.val - (a.im.val * b.re.val - a.re.val * b.im.val) / (b.re.val ^ 2 + b.im.val ^ 2)) ^ 2 := by ring
    _ ≤ _ := h
    _ = _ := by ring

/-- The library functions of the exponential function with the relative error `φ`. -/
structure ExpLib (R : Rounding ℝ) (φ : ℝ) (exp cos sin : Fl R → Fl R) : Prop where
  nonneg : 0 ≤ φ
  exp_le : ∀ x : Fl R, |(exp x).val - Real.exp x.val| ≤ φ * |Real.exp x.val|
  cos_le : ∀ x : Fl R, |(cos x).val - Real.cos x.val| ≤ φ * |Real.cos x.val|
  sin_le : ∀ x : Fl R, |(sin x).val - Real.sin x.val| ≤ φ * |Real.sin x.val|

theorem prod_close (hφ : 0 ≤ φ) {x y a b : ℝ} (hx : |x - a| ≤ φ * |a|) (hy : |y - b| ≤ φ * |b|) :
    |R.rnd (x * y) - a * b| ≤ ((1 + φ) ^ 2 * (1 + R.u) - 1) * |a * b| := by
  have h0 := R.u_nonneg
  have hy' : |y| ≤ (1 + φ) * |b| := by
    have := abs_add_le (y - b) b
    rw [sub_add_cancel] at this
    linarith
  have h1 : |x * y - a * b| ≤ ((1 + φ) ^ 2 - 1) * |a * b| := by
    have : x * y - a * b = (x - a) * y + a * (y - b) := by ring
    rw [this]
    refine (abs_add_le _ _).trans ?_
    rw [abs_mul, abs_mul, abs_mul]
    have a1 := mul_le_mul hx hy' (abs_nonneg _) (by positivity)
    have a2 := mul_le_mul_of_nonneg_left hy (abs_nonneg a)
    linarith
  refine (R.rnd_near h1).trans (le_of_eq ?_)
  ring

/-- **C128** (`/repo/src/num/complex.rs:665-670`, `exp` with rounding): the relative error is at most `(1+φ)² (1+u) - 1`. -/
theorem C128_exp (L : ExpLib R φ exp cos sin) (z : Cx (Fl R)) :
    ‖flC (z.expG exp cos sin) - Complex.exp (flC z)‖ ≤ ((1 + φ) ^ 2 * (1 + R.u) - 1) * ‖Complex.exp (flC z)‖ := by
  have h0 := R.u_nonneg
  have hφ := L.nonneg
  have e : Complex.exp (flC z) = ⟨Real.exp z.re.val * Real.cos z.im.val, Real.exp z.re.val * Real.sin z.im.val⟩ := by
    apply Complex.ext
    · simp [Complex.exp_re, flC]
    · simp [Complex.exp_im, flC]
  rw [e]
  refine comp_norm ?_ (prod_close hφ (L.exp_le _) (L.cos_le _)) (prod_close hφ (L.exp_le _) (L.sin_le _))
  have : 1 ≤ (1 + φ) ^ 2 := one_le_pow₀ (by linarith)
  nlinarith

/-- sum or difference of the two exponentials, divided by a number of absolute value 2 -/
theorem half_close (hu : R.u < 1) {η : ℝ} (hη : 0 ≤ η) {s w : Cx (Fl R)} {A B S E : ℂ} {a b : ℂ} (ha : ‖a - A‖ ≤ η * ‖A‖)
    (hb : ‖b - B‖ ≤ η * ‖B‖) {S' : ℂ} (hS' : ‖S' - S‖ ≤ ‖a - A‖ + ‖b - B‖) (hS : ‖S‖ ≤ ‖A‖ + ‖B‖) (hs : ‖flC s - S'‖ ≤ R.u * ‖S'‖)
    (hw : ‖flC w‖ = 2) (hE : E = S / flC w) {M : ℝ} (hM : ‖A‖ + ‖B‖ ≤ 2 * M) :
    ∃ q, s.div w = some q ∧ ‖flC q - E‖ ≤ ((1 + η) * (1 + R.u) * (1 + 3 / 2 * ((1 + R.u) ^ 5 - 1)) - 1) * M := by
  have h0 := R.u_nonneg
  have g5 : 0 ≤ (1 + R.u) ^ 5 - 1 := R.gam_nonneg 5
  obtain ⟨q, e, h⟩ := div_close hu s w (by rw [← norm_pos_iff, hw]; norm_num)
  refine ⟨q, e, ?_⟩
  have M0 : 0 ≤ M := by linarith [norm_nonneg A, norm_nonneg B]
  have a1 : ‖S' - S‖ ≤ η * (2 * M) := by
    have := mul_le_mul_of_nonneg_left hM hη
    linarith
  have a2 : ‖S'‖ ≤ (1 + η) * (2 * M) := by
    have := norm_add_le (S' - S) S
    rw [sub_add_cancel] at this
    linarith
  have a3 : ‖flC s - S‖ ≤ ((1 + η) * (1 + R.u) - 1) * (2 * M) := by
    have := norm_add_le (flC s - S') (S' - S)
    rw [sub_add_sub_cancel] at this
    have := mul_le_mul_of_nonneg_left a2 h0
    linarith
  have a4 : ‖flC s‖ ≤ (1 + η) * (1 + R.u) * (2 * M) := by
    have := norm_add_le (flC s - S) S
    rw [sub_add_cancel] at this
    linarith
  rw [hw] at h
  have a5 : ‖flC s / flC w - E‖ ≤ ((1 + η) * (1 + R.u) - 1) * M := by
    rw [hE, ← sub_div, norm_div, hw]
    linarith
  have := norm_add_le (flC q - flC s / flC w) (flC s / flC w - E)
  rw [sub_add_sub_cancel] at this
  have := mul_le_mul_of_nonneg_left a4 g5
  linarith

theorem two_val (h2 : R.rnd 2 = 2) : (1 + 1 : Fl R).val = 2 := by
  rw [Fl.add_val, Fl.one_val, show (1 : ℝ) + 1 = 2 by norm_num, h2]

theorem norm_exp_I (x y : ℝ) : ‖Complex.exp (⟨-y, x⟩ : ℂ)‖ + ‖Complex.exp (⟨y, -x⟩ : ℂ)‖ ≤ 2 * Real.cosh y := by
  rw [Complex.norm_exp, Complex.norm_exp, Real.cosh_eq]
  apply le_of_eq
  simp only
  ring

/-- **C128** (`/repo/src/num/complex.rs:718-752`, `sin` and `cos` with rounding): the errors at `x + i y` are at most
`((1+φ)² (1+u)² (1 + 3/2 ((1+u)^5 - 1)) - 1) cosh y`. -/
theorem C128_sin_cos (L : ExpLib R φ exp cos sin) (hu : R.u < 1) (h2 : R.rnd 2 = 2) (z : Cx (Fl R)) :
    (∃ s, z.sinG exp cos sin = some s ∧ ‖flC s - Complex.sin (flC z)‖ ≤
      ((1 + φ) ^ 2 * (1 + R.u) ^ 2 * (1 + 3 / 2 * ((1 + R.u) ^ 5 - 1)) - 1) * Real.cosh z.im.val) ∧
    ∃ c, z.cosG exp cos sin = some c ∧ ‖flC c - Complex.cos (flC z)‖ ≤
      ((1 + φ) ^ 2 * (1 + R.u) ^ 2 * (1 + 3 / 2 * ((1 + R.u) ^ 5 - 1)) - 1) * Real.cosh z.im.val := by
  have h0 := R.u_nonneg
  have hφ := L.nonneg
  have hη : 0 ≤ (1 + φ) ^ 2 * (1 + R.u) - 1 := by
    have : 1 ≤ (1 + φ) ^ 2 := one_le_pow₀ (by linarith)
    nlinarith
  have A := C128_exp L ⟨-z.im, z.re⟩
  have B := C128_exp L ⟨z.im, -z.re⟩
  have eA : flC (⟨-z.im, z.re⟩ : Cx (Fl R)) = flC z * Complex.I := by
    apply Complex.ext <;> simp [flC, Fl.neg_val]
  have eB : flC (⟨z.im, -z.re⟩ : Cx (Fl R)) = -flC z * Complex.I := by
    apply Complex.ext <;> simp [flC, Fl.neg_val]
  have hM := norm_exp_I z.re.val z.im.val
  have eA' : (⟨-z.im.val, z.re.val⟩ : ℂ) = flC z * Complex.I := eA
  have eB' : (⟨z.im.val, -z.re.val⟩ : ℂ) = -flC z * Complex.I := eB
  rw [eA', eB'] at hM
  rw [eA] at A
  rw [eB] at B
  have key : ∀ k : ℝ, (1 + ((1 + φ) ^ 2 * (1 + R.u) - 1)) * (1 + R.u) * k = (1 + φ) ^ 2 * (1 + R.u) ^ 2 * k := fun k => by ring
  constructor
  · obtain ⟨q, e, h⟩ := half_close hu hη A B (S := Complex.exp (flC z * Complex.I) - Complex.exp (-flC z * Complex.I))
      (E := Complex.sin (flC z)) (S' := flC (expG exp cos sin ⟨-z.im, z.re⟩) - flC (expG exp cos sin ⟨z.im, -z.re⟩))
      (by
        rw [show ∀ a b c d : ℂ, a - b - (c - d) = (a - c) - (b - d) from fun a b c d => by ring]
        exact norm_sub_le _ _) (norm_sub_le _ _) (sub_close _ _) (w := ⟨0, 1 + 1⟩)
      (by
        have : flC (⟨0, 1 + 1⟩ : Cx (Fl R)) = 2 * Complex.I := by
          apply Complex.ext <;> simp [flC, two_val h2, Fl.zero_val]
        rw [this]; simp) (by
        have : flC (⟨0, 1 + 1⟩ : Cx (Fl R)) = 2 * Complex.I := by
          apply Complex.ext <;> simp [flC, two_val h2, Fl.zero_val]
        rw [this, Complex.sin, eq_div_iff (by simp)]
        linear_combination (Complex.exp (-flC z * Complex.I) - Complex.exp (flC z * Complex.I)) * Complex.I_sq) hM
    rw [key] at h
    exact ⟨q, e, h⟩
  · obtain ⟨q, e, h⟩ := half_close hu hη A B (S := Complex.exp (flC z * Complex.I) + Complex.exp (-flC z * Complex.I))
      (E := Complex.cos (flC z)) (S' := flC (expG exp cos sin ⟨-z.im, z.re⟩) + flC (expG exp cos sin ⟨z.im, -z.re⟩))
      (by
        rw [show ∀ a b c d : ℂ, a + b - (c + d) = (a - c) + (b - d) from fun a b c d => by ring]
        exact norm_add_le _ _) (norm_add_le _ _) (add_close _ _) (w := ⟨1 + 1, 0⟩)
      (by
        have : flC (⟨1 + 1, 0⟩ : Cx (Fl R)) = 2 := by
          apply Complex.ext <;> simp [flC, two_val h2, Fl.zero_val]
        rw [this]; simp) (by
        have : flC (⟨1 + 1, 0⟩ : Cx (Fl R)) = 2 := by
          apply Complex.ext <;> simp [flC, two_val h2, Fl.zero_val]
        rw [this, Complex.cos]) hM
    rw [key] at h
    exact ⟨q, e, h⟩

/-- **C128** (`/repo/src/num/complex.rs:1099-1108`, `sinh` and `cosh` with rounding): the errors at `x + i y` are at most a multiple
of `u` and `φ` times `cosh x`. -/
theorem C128_sinh_cosh (L : ExpLib R φ exp cos sin) (hu : R.u < 1) (h2 : R.rnd 2 = 2) (z : Cx (Fl R)) :
    (∃ s, z.sinhG exp cos sin = some s ∧ ‖flC s - Complex.sinh (flC z)‖ ≤
      ((1 + φ) ^ 2 * (1 + R.u) ^ 2 * (1 + 3 / 2 * ((1 + R.u) ^ 5 - 1)) * (1 + 3 / 2 * ((1 + R.u) ^ 2 - 1)) - 1) * Real.cosh z.re.val) ∧
    ∃ c, z.coshG exp cos sin = some c ∧ ‖flC c - Complex.cosh (flC z)‖ ≤
      ((1 + φ) ^ 2 * (1 + R.u) ^ 2 * (1 + 3 / 2 * ((1 + R.u) ^ 5 - 1)) - 1) * Real.cosh z.re.val := by
  have h0 := R.u_nonneg
  have g2 : 0 ≤ (1 + R.u) ^ 2 - 1 := R.gam_nonneg 2
  obtain ⟨⟨s, e1, b1⟩, c, e2, b2⟩ := C128_sin_cos L hu h2 ⟨-z.im, z.re⟩
  have eA : flC (⟨-z.im, z.re⟩ : Cx (Fl R)) = flC z * Complex.I := by
    apply Complex.ext <;> simp [flC, Fl.neg_val]
  rw [eA] at b1 b2
  refine ⟨⟨mul ⟨0, -1⟩ s, by simp only [sinhG, e1, Option.bind_eq_bind, Option.bind_some], ?_⟩, c, e2, by rwa [Complex.cos_mul_I] at b2⟩
  have m := mul_close (⟨0, -1⟩ : Cx (Fl R)) s
  have ei : flC (⟨0, -1⟩ : Cx (Fl R)) = -Complex.I := by
    apply Complex.ext <;> simp [flC, Fl.neg_val, Fl.zero_val, Fl.one_val]
  rw [ei, norm_neg, Complex.norm_I, one_mul] at m
  rw [Complex.sin_mul_I] at b1
  have n1 : ‖Complex.sinh (flC z) * Complex.I‖ ≤ Real.cosh z.re.val := by
    rw [norm_mul, Complex.norm_I, mul_one, Complex.sinh]
    rw [norm_div]
    have t := norm_sub_le (Complex.exp (flC z)) (Complex.exp (-flC z))
    rw [Complex.norm_exp, Complex.norm_exp] at t
    rw [Real.cosh_eq, Complex.norm_ofNat]
    simp only [Complex.neg_re, flC] at t ⊢
    linarith
  set κ := (1 + φ) ^ 2 * (1 + R.u) ^ 2 * (1 + 3 / 2 * ((1 + R.u) ^ 5 - 1))
  have n2 : ‖flC s‖ ≤ κ * Real.cosh z.re.val := by
    have := norm_add_le (flC s - Complex.sinh (flC z) * Complex.I) (Complex.sinh (flC z) * Complex.I)
    rw [sub_add_cancel] at this
    linarith
  have n3 : ‖-Complex.I * flC s - Complex.sinh (flC z)‖ ≤ (κ - 1) * Real.cosh z.re.val := by
    rw [show -Complex.I * flC s - Complex.sinh (flC z) = -Complex.I * (flC s - Complex.sinh (flC z) * Complex.I) by
      linear_combination -Complex.sinh (flC z) * Complex.I_sq, norm_mul, norm_neg, Complex.norm_I, one_mul]
    exact b1
  have := norm_add_le (flC (mul ⟨0, -1⟩ s) - -Complex.I * flC s) (-Complex.I * flC s - Complex.sinh (flC z))
  rw [sub_add_sub_cancel] at this
  have := mul_le_mul_of_nonneg_left n2 g2
  linarith

/-- **C128** (`/repo/src/num/complex.rs:389-394`, `abs` with rounding): the relative error is at most `(1+φ) (1+u)² - 1`. -/
theorem C128_abs (hφ : 0 ≤ φ) {root : Fl R → Fl R} (hroot : ∀ x : Fl R, 0 ≤ x.val → |(root x).val - Real.sqrt x.val| ≤ φ * Real.sqrt x.val)
    (hu : R.u < 1) (z : Cx (Fl R)) : |(z.absG root).re.val - ‖flC z‖| ≤ ((1 + φ) * (1 + R.u) ^ 2 - 1) * ‖flC z‖ ∧ (z.absG root).im = 0 := by
  have h0 := R.u_nonneg
  refine ⟨?_, rfl⟩
  have hD := two_products_add (R := R) (z.re.val * z.re.val) (z.im.val * z.im.val)
  rw [abs_mul_self, abs_mul_self] at hD
  have hnorm : ‖flC z‖ = Real.sqrt (z.re.val * z.re.val + z.im.val * z.im.val) := by
    rw [Complex.norm_def, Complex.normSq_apply]; rfl
  have e : (z.re * z.re + z.im * z.im : Fl R).val = R.rnd (R.rnd (z.re.val * z.re.val) + R.rnd (z.im.val * z.im.val)) := rfl
  have hn : ∀ x : ℝ, 0 ≤ x → 0 ≤ R.rnd x := fun x hx => by
    have h := (abs_le.1 (R.err x)).1
    rw [abs_of_nonneg hx] at h
    have := mul_le_mul_of_nonneg_right hu.le hx
    linarith
  have D0 : 0 ≤ (z.re * z.re + z.im * z.im : Fl R).val := hn _ (add_nonneg (hn _ (mul_self_nonneg _)) (hn _ (mul_self_nonneg _)))
  have hr := hroot _ D0
  rw [← e] at hD
  set D' := (z.re * z.re + z.im * z.im : Fl R).val
  set D := z.re.val * z.re.val + z.im.val * z.im.val
  have d0 : 0 ≤ D := add_nonneg (mul_self_nonneg _) (mul_self_nonneg _)
  have s1 : Real.sqrt D' ≤ (1 + R.u) * Real.sqrt D := by
    rw [← Real.sqrt_sq (by linarith : 0 ≤ 1 + R.u), ← Real.sqrt_mul (by positivity)]
    refine Real.sqrt_le_sqrt ?_
    have := (abs_le.1 hD).2
    rw [Rounding.gam] at this
    linarith
  have s2 : Real.sqrt D - Real.sqrt D' ≤ ((1 + R.u) ^ 2 - 1) * Real.sqrt D := by
    have h1 := (abs_le.1 hD).1
    rw [Rounding.gam] at h1
    set γ := (1 + R.u) ^ 2 - 1 with hγ
    have γ0 : 0 ≤ γ := R.gam_nonneg 2
    by_cases hg : 1 ≤ γ
    · have := mul_le_mul_of_nonneg_right hg (Real.sqrt_nonneg D)
      linarith [Real.sqrt_nonneg D']
    · have h2 : (1 - γ) * Real.sqrt D ≤ Real.sqrt D' := by
        refine Real.le_sqrt_of_sq_le ?_
        rw [mul_pow, Real.sq_sqrt d0]
        nlinarith
      linarith
  rw [hnorm]
  change |(root (z.re * z.re + z.im * z.im)).val - Real.sqrt D| ≤ _
  have t := abs_sub_le (root (z.re * z.re + z.im * z.im)).val (Real.sqrt D') (Real.sqrt D)
  have s3 : |Real.sqrt D' - Real.sqrt D| ≤ ((1 + R.u) ^ 2 - 1) * Real.sqrt D := by
    have q := Real.sqrt_nonneg D
    rw [abs_le]
    constructor
    · linarith
    · nlinarith
  have s4 : φ * Real.sqrt D' ≤ φ * ((1 + R.u) ^ 2 * Real.sqrt D) := by
    refine mul_le_mul_of_nonneg_left (s1.trans (mul_le_mul_of_nonneg_right ?_ (Real.sqrt_nonneg D))) hφ
    nlinarith
  linarith

/-- **C128** (`/repo/src/num/complex.rs:684-688`, `ln` with rounding): for `z ≠ 0` the real part is `ln |z|` up to
`φ |ln |z|| + (1+φ) (φ + u + u²/2)`, and the imaginary part is the argument up to the error of `arctan2`. -/
theorem C128_ln (hφ : 0 ≤ φ) {root ln : Fl R → Fl R} {atan2 : Fl R → Fl R → Fl R}
    (hroot : ∀ x : Fl R, 0 < x.val → (root x).val ≤ (1 + φ) * Real.sqrt x.val ∧ Real.sqrt x.val ≤ (1 + φ) * (root x).val)
    (hln : ∀ x : Fl R, 0 < x.val → |(ln x).val - Real.log x.val| ≤ φ * |Real.log x.val|)
    (hatan : ∀ x y : Fl R, |(atan2 y x).val - (⟨x.val, y.val⟩ : ℂ).arg| ≤ φ * |(⟨x.val, y.val⟩ : ℂ).arg|)
    (hu : R.u < 1) {z : Cx (Fl R)} (hz : flC z ≠ 0) :
    ∃ l, z.lnG root (fun x => some (ln x)) atan2 = some l ∧
      |l.re.val - (Complex.log (flC z)).re| ≤ φ * |(Complex.log (flC z)).re| + (1 + φ) * (φ + R.u + R.u ^ 2 / 2) ∧
      |l.im.val - (Complex.log (flC z)).im| ≤ φ * |(Complex.log (flC z)).im| := by
  have h0 := R.u_nonneg
  refine ⟨⟨ln (z.absG root).re, (z.argG atan2).re⟩, rfl, ?_, ?_⟩
  · have hD := two_products_add (R := R) (z.re.val * z.re.val) (z.im.val * z.im.val)
    rw [abs_mul_self, abs_mul_self] at hD
    have hD2 := (sum_squares (R := R) z.re.val z.im.val).resolve_right (not_le.2 hu)
    have e : (z.re * z.re + z.im * z.im : Fl R).val = R.rnd (R.rnd (z.re.val * z.re.val) + R.rnd (z.im.val * z.im.val)) := rfl
    rw [← e] at hD hD2
    set D' := (z.re * z.re + z.im * z.im : Fl R).val
    have hn2 : Complex.normSq (flC z) = z.re.val * z.re.val + z.im.val * z.im.val := by
      rw [Complex.normSq_apply]; rfl
    have d0 : 0 < z.re.val * z.re.val + z.im.val * z.im.val := by
      rw [← hn2]
      exact Complex.normSq_pos.2 hz
    set D := z.re.val * z.re.val + z.im.val * z.im.val
    have c1 : LC (R.gam 2) D' D := LC.of_rel (R.gam_nonneg 2) d0 (by linarith [(abs_le.1 hD).2]) (by linarith [(abs_le.1 hD2).1])
    have c2 := c1.sqrt
    obtain ⟨r1, r2⟩ := hroot (z.re * z.re + z.im * z.im) c1.1
    have c3 := (LC.of_rel hφ c2.1 r1 r2).trans c2
    have hnorm : Real.sqrt D = ‖flC z‖ := by
      rw [Complex.norm_def, hn2]
    rw [hnorm] at c3
    obtain ⟨p1, p2, p3⟩ := c3
    have hl := hln (root (z.re * z.re + z.im * z.im)) p1
    rw [Complex.log_re]
    have eg : R.gam 2 / 2 = R.u + R.u ^ 2 / 2 := by rw [Rounding.gam]; ring
    rw [eg] at p3
    change |(ln (root (z.re * z.re + z.im * z.im))).val - Real.log ‖flC z‖| ≤ _
    set a := Real.log (root (z.re * z.re + z.im * z.im)).val
    set b := Real.log ‖flC z‖
    have t := abs_sub_le (ln (root (z.re * z.re + z.im * z.im))).val a b
    have q : |a| ≤ |b| + (φ + (R.u + R.u ^ 2 / 2)) := by
      have := abs_add_le (a - b) b
      rw [sub_add_cancel] at this
      linarith
    have := mul_le_mul_of_nonneg_left q hφ
    linarith
  · rw [Complex.log_im]
    exact hatan z.re z.im

/-! ### Examples and what does not hold -/

/-- correctly rounded library functions -/
theorem ExpLib.correct (R : Rounding ℝ) : ExpLib R R.u (fun x => ⟨R.rnd (Real.exp x.val)⟩) (fun x => ⟨R.rnd (Real.cos x.val)⟩)
    (fun x => ⟨R.rnd (Real.sin x.val)⟩) :=
  ⟨R.u_nonneg, fun _ => R.err _, fun _ => R.err _, fun _ => R.err _⟩

theorem binary_two {p : ℕ} (hp : 1 ≤ p) (h : 2 ≤ p) : (binary ℝ p hp).rnd 2 = 2 := by
  have := roundBits_intCast (K := ℝ) hp (n := 2) (by
    have := pow_le_pow_right₀ (by norm_num : (1 : ℤ) ≤ 2) h
    norm_num at this ⊢
    linarith)
  push_cast at this
  exact this

/-- with 53 bits and correctly rounded library functions the error of `sin` at `1 + 2 i` is at most `6e-15` -/
example : ∃ s, sinG (fun x : Fl (binary ℝ 53 (by norm_num)) => ⟨(binary ℝ 53 (by norm_num)).rnd (Real.exp x.val)⟩)
      (fun x => ⟨(binary ℝ 53 (by norm_num)).rnd (Real.cos x.val)⟩) (fun x => ⟨(binary ℝ 53 (by norm_num)).rnd (Real.sin x.val)⟩)
      ⟨⟨1⟩, ⟨2⟩⟩ = some s ∧ ‖flC s - Complex.sin ⟨1, 2⟩‖ ≤ 6e-15 := by
  have hu : (binary ℝ 53 (by norm_num)).u = 1 / 2 ^ 53 := (one_div _).symm
  obtain ⟨⟨s, e, h⟩, _⟩ := C128_sin_cos (ExpLib.correct (binary ℝ 53 (by norm_num))) (by rw [hu]; norm_num) (binary_two _ (by norm_num))
    ⟨⟨1⟩, ⟨2⟩⟩
  refine ⟨s, e, h.trans ?_⟩
  rw [hu]
  have c : Real.cosh 2 ≤ 4 := by
    rw [Real.cosh_eq]
    have e1 := Real.exp_one_lt_d9
    have e2 : Real.exp 2 = Real.exp 1 * Real.exp 1 := by rw [← Real.exp_add]; norm_num
    have e3 : Real.exp (-2) ≤ 1 / 2 := by
      rw [Real.exp_neg, inv_le_comm₀ (Real.exp_pos _) (by norm_num)]
      have := Real.add_one_le_exp (2 : ℝ)
      linarith
    have e4 := Real.exp_pos 1
    norm_num at e1
    nlinarith
  refine (mul_le_mul_of_nonneg_left c (by norm_num)).trans ?_
  norm_num

/-- **C128 is violated** (`/repo/src/num/complex.rs:718-725`): the error of `sin` near 0 on the imaginary axis is not small
relative to the value.  With correctly rounded library functions `sin(y i)` is 0 as soon as `e^y` and
`e^-y` are rounded to 1, although `sin(y i) = i sinh y` is not 0; with 53 bits this is the case for `y = 2⁻⁶⁰`. -/
theorem C128_sin_small_violated (h2 : R.rnd 2 = 2) (h1 : R.rnd 1 = 1) (h4 : R.rnd 4 = 4) {y : Fl R} (hy : 0 < y.val) (e1 : R.rnd (Real.exp y.val) = 1)
    (e2 : R.rnd (Real.exp (-y.val)) = 1) :
    ∃ s, sinG (fun x : Fl R => ⟨R.rnd (Real.exp x.val)⟩) (fun x => ⟨R.rnd (Real.cos x.val)⟩) (fun x => ⟨R.rnd (Real.sin x.val)⟩)
      ⟨0, y⟩ = some s ∧ flC s = 0 ∧ Complex.sin (flC (⟨0, y⟩ : Cx (Fl R))) ≠ 0 := by
  have n0 : (-(0 : Fl R)) = 0 := Fl.ext (by rw [Fl.neg_val, Fl.zero_val, neg_zero])
  have hE : ∀ x : Fl R, R.rnd (Real.exp x.val) = 1 → expG (fun x : Fl R => ⟨R.rnd (Real.exp x.val)⟩) (fun x => ⟨R.rnd (Real.cos x.val)⟩)
      (fun x => ⟨R.rnd (Real.sin x.val)⟩) ⟨x, 0⟩ = ⟨1, 0⟩ := fun x hx => by
    simp only [expG, hx, Fl.zero_val, Real.cos_zero, Real.sin_zero, h1, R.rnd_zero]
    congr 1
    · exact Fl.ext (by rw [Fl.mul_val, Fl.one_val, mul_one, h1])
    · exact Fl.ext (by rw [Fl.mul_val, Fl.zero_val, mul_zero, R.rnd_zero])
  have hsub : ((⟨1, 0⟩ : Cx (Fl R)).sub ⟨1, 0⟩) = ⟨0, 0⟩ := by
    simp only [sub]
    congr 1 <;> exact Fl.ext (by rw [Fl.sub_val, sub_self, R.rnd_zero, Fl.zero_val])
  refine ⟨⟨0, 0⟩, ?_, ?_, ?_⟩
  · simp only [sinG]
    rw [n0, hE (-y) (by rw [Fl.neg_val]; exact e2), hE y e1, hsub]
    have hd : ((0 : Fl R) * 0 + (1 + 1) * (1 + 1)) = ⟨4⟩ := by
      apply Fl.ext
      rw [Fl.add_val, Fl.mul_val, Fl.mul_val, two_val h2, Fl.zero_val]
      norm_num [R.rnd_zero, h4]
    have hd0 : ¬ ((0 : Fl R) * 0 + (1 + 1) * (1 + 1)) = 0 := by
      rw [hd]
      intro h
      have := congrArg Fl.val h
      rw [Fl.zero_val] at this
      norm_num at this
    have z : ∀ x : Fl R, 0 * x = 0 := fun x => Fl.ext (by rw [Fl.mul_val, Fl.zero_val, zero_mul, R.rnd_zero])
    have z1 : (0 : Fl R) - 0 = 0 := Fl.ext (by rw [Fl.sub_val, Fl.zero_val, sub_self, R.rnd_zero])
    have z2 : (0 : Fl R) + 0 = 0 := Fl.ext (by rw [Fl.add_val, Fl.zero_val, add_zero, R.rnd_zero])
    have z3 : ∀ x : Fl R, 0 / x = 0 := fun x => Fl.ext (by rw [Fl.div_val, Fl.zero_val, zero_div, R.rnd_zero])
    simp only [div]
    rw [if_neg hd0]
    simp only [mul, z, z1, z2, z3]
  · rfl
  · have : flC (⟨0, y⟩ : Cx (Fl R)) = y.val * Complex.I := by
      apply Complex.ext <;> simp [flC, Fl.zero_val]
    rw [this, Complex.sin_mul_I]
    refine mul_ne_zero ?_ Complex.I_ne_zero
    rw [← Complex.ofReal_sinh]
    exact_mod_cast (Real.sinh_pos_iff.2 hy).ne'

/-- numbers close to 1 are rounded to 1 -/
theorem binary53_one {x : ℝ} (h1 : 1 - 1 / 2 ^ 55 ≤ x) (h2 : x ≤ 1 + 1 / 2 ^ 55) : (binary ℝ 53 (by norm_num)).rnd x = 1 := by
  have x0 : 0 < x := by norm_num at h1; linarith
  change roundBits 53 x = 1
  rw [roundBits, ulp]
  by_cases hx : 1 ≤ x
  · have hl : Int.log 2 |x| = 0 := log_unique (by rw [abs_of_pos x0]; simpa using hx) (by rw [abs_of_pos x0]; norm_num at h2 ⊢; linarith)
    rw [hl]
    have e : (2 : ℝ) ^ ((0 : ℤ) + 1 - (53 : ℕ)) = 1 / 2 ^ 52 := by norm_num
    rw [e]
    have hn : nearestEven (x / (1 / 2 ^ 52)) = 2 ^ 52 := by
      have b := abs_le.1 (nearestEven_err (x / (1 / 2 ^ 52)))
      refine le_antisymm (Int.lt_add_one_iff.1 ?_) (le_nearestEven ?_)
      · have : ((nearestEven (x / (1 / 2 ^ 52)) : ℤ) : ℝ) < ((2 ^ 52 + 1 : ℤ) : ℝ) := by
          have := b.2
          norm_num at h2 this ⊢
          linarith
        exact_mod_cast this
      · norm_num
        linarith
    rw [hn]
    norm_num
  · push Not at hx
    have hl : Int.log 2 |x| = -1 := log_unique (by rw [abs_of_pos x0]; norm_num at h1 ⊢; linarith) (by rw [abs_of_pos x0]; norm_num; linarith)
    rw [hl]
    have e : (2 : ℝ) ^ ((-1 : ℤ) + 1 - (53 : ℕ)) = 1 / 2 ^ 53 := by norm_num
    rw [e]
    have hn : nearestEven (x / (1 / 2 ^ 53)) = 2 ^ 53 := by
      have b := abs_le.1 (nearestEven_err (x / (1 / 2 ^ 53)))
      refine le_antisymm (nearestEven_le ?_) (Int.sub_one_lt_iff.1 ?_)
      · norm_num
        linarith
      · have : ((2 ^ 53 - 1 : ℤ) : ℝ) < ((nearestEven (x / (1 / 2 ^ 53)) : ℤ) : ℝ) := by
          have := b.1
          norm_num at h1 this ⊢
          linarith
        exact_mod_cast this
    rw [hn]
    norm_num

/-- the hypotheses are met: with 53 bits `sin(2⁻⁶⁰ i) = 0` -/
example : ∃ s, sinG (fun x : Fl (binary ℝ 53 (by norm_num)) => ⟨(binary ℝ 53 (by norm_num)).rnd (Real.exp x.val)⟩)
      (fun x => ⟨(binary ℝ 53 (by norm_num)).rnd (Real.cos x.val)⟩) (fun x => ⟨(binary ℝ 53 (by norm_num)).rnd (Real.sin x.val)⟩)
      ⟨0, ⟨1 / 2 ^ 60⟩⟩ = some s ∧ flC s = 0 := by
  have b1 := Real.abs_exp_sub_one_sub_id_le (x := (1 / 2 ^ 60 : ℝ)) (by rw [abs_of_pos (by norm_num)]; norm_num)
  have b2 := Real.abs_exp_sub_one_sub_id_le (x := -(1 / 2 ^ 60 : ℝ)) (by rw [abs_neg, abs_of_pos (by norm_num)]; norm_num)
  rw [abs_le] at b1 b2
  obtain ⟨s, h1, h2, _⟩ := C128_sin_small_violated (R := binary ℝ 53 (by norm_num)) (binary_two _ (by norm_num)) (binary_one _)
    (by
      have := roundBits_intCast (K := ℝ) (show 1 ≤ 53 by norm_num) (n := 4) (by norm_num)
      push_cast at this
      exact this) (y := ⟨1 / 2 ^ 60⟩) (by norm_num)
    (binary53_one (by norm_num at b1 ⊢; linarith [b1.1]) (by norm_num at b1 ⊢; linarith [b1.2]))
    (binary53_one (by norm_num at b2 ⊢; linarith [b2.1]) (by norm_num at b2 ⊢; linarith [b2.2]))
  exact ⟨s, h1, h2⟩

end Cx
end Verif
