import Verif.StatFnModel
import Verif.FloatTest
import Verif.FloatErf
import Verif.FloatOptim
import Mathlib.Analysis.Real.Pi.Bounds

/-!
# Property C123: the raised cosine, normal and log-normal distributions with rounding

Bounds are of the form `E - M`: `M` bounds the terms of the formula, `E` the computed terms.
-/

namespace Verif
namespace Stat
open Rounding Special

section
variable {R : Rounding ℝ} {φ : ℝ}

/-- `b` is at most `M`, and the error of `a` at most `E - M` -/
def Maj (E M a b : ℝ) : Prop := |b| ≤ M ∧ |a - b| ≤ E - M

namespace Maj

theorem of_relN {n : ℕ} {a b : ℝ} (h : R.RelN n a b) : Maj ((1 + R.u) ^ n * |b|) |b| a b :=
  ⟨le_rfl, by have := h.abs_sub_le; rw [show R.gam n = (1 + R.u) ^ n - 1 from rfl] at this; linarith⟩

theorem mono {E E' M a b : ℝ} (h : Maj E M a b) (hE : E ≤ E') : Maj E' M a b := ⟨h.1, h.2.trans (by linarith)⟩

theorem le {E M a b : ℝ} (h : Maj E M a b) : |a| ≤ E := by
  have := abs_sub_abs_le_abs_sub a b
  linarith [h.1, h.2]

theorem nonneg {E M a b : ℝ} (h : Maj E M a b) : 0 ≤ E := (abs_nonneg a).trans h.le

theorem add {E E' M M' a a' b b' : ℝ} (h : Maj E M a b) (h' : Maj E' M' a' b') : Maj (E + E') (M + M') (a + a') (b + b') := by
  refine ⟨(abs_add_le _ _).trans (add_le_add h.1 h'.1), ?_⟩
  rw [show a + a' - (b + b') = (a - b) + (a' - b') by ring]
  refine (abs_add_le _ _).trans ?_
  linarith [h.2, h'.2]

theorem scale {n : ℕ} {E M a b c d : ℝ} (h : Maj E M a b) (h' : R.RelN n c d) : Maj ((1 + R.u) ^ n * (E * |d|)) (M * |d|) (a * c) (b * d) := by
  refine ⟨by rw [abs_mul]; exact mul_le_mul_of_nonneg_right h.1 (abs_nonneg _), ?_⟩
  have h1 := ((RelN.refl a).mul h').abs_sub_le
  rw [zero_add, abs_mul, show R.gam n = (1 + R.u) ^ n - 1 from rfl] at h1
  have h2 : |a * d - b * d| ≤ (E - M) * |d| := by
    rw [← sub_mul, abs_mul]
    exact mul_le_mul_of_nonneg_right h.2 (abs_nonneg _)
  have h3 : ((1 + R.u) ^ n - 1) * (|a| * |d|) ≤ ((1 + R.u) ^ n - 1) * (E * |d|) :=
    mul_le_mul_of_nonneg_left (mul_le_mul_of_nonneg_right h.le (abs_nonneg _)) (by linarith [one_le_pow₀ (n := n) R.one_le])
  have := abs_sub_le (a * c) (a * d) (b * d)
  linarith

theorem rnd {E M a b : ℝ} (h : Maj E M a b) : Maj ((1 + R.u) * E) M (R.rnd a) b := by
  refine ⟨h.1, (R.rnd_near h.2).trans ?_⟩
  have := mul_le_mul_of_nonneg_left h.1 R.u_nonneg
  linarith

end Maj

theorem two_lit (hu : R.u < 1) : R.RelN 1 (2.0 : Fl R).val 2 := by
  have := RelN.of_rnd hu (2.0 : ℝ)
  rw [show (2.0 : Fl R).val = R.rnd (2.0 : ℝ) from rfl]
  norm_num at this ⊢
  exact this

theorem half_lit (hu : R.u < 1) : R.RelN 1 (0.5 : Fl R).val (1 / 2) := by
  have := RelN.of_rnd hu (0.5 : ℝ)
  rw [show (0.5 : Fl R).val = R.rnd (0.5 : ℝ) from rfl]
  norm_num at this ⊢
  exact this

/-! ### The raised cosine distribution -/

/-- a trigonometric function at an argument with a relative error -/
theorem trig_maj {n : ℕ} {f : ℝ → ℝ} {F : Fl R → Fl R} (hφ : 0 ≤ φ) (hF : ∀ x, |(F x).val - f x.val| ≤ φ * |f x.val|)
    (h1 : ∀ x, |f x| ≤ 1) (hl : ∀ x y, |f x - f y| ≤ |x - y|) {y : Fl R} {z : ℝ} (h : R.RelN n y.val z) :
    Maj (1 + φ + R.gam n * |z|) 1 (F y).val (f z) := by
  refine ⟨h1 z, ?_⟩
  have a1 := hF y
  have a2 := mul_le_mul_of_nonneg_left (h1 y.val) hφ
  have a3 := (hl y.val z).trans h.abs_sub_le
  have := abs_sub_le (F y).val (f y.val) (f z)
  linarith

theorem cos_lip (x y : ℝ) : |Real.cos x - Real.cos y| ≤ |x - y| := by
  rw [Real.cos_sub_cos, abs_mul, abs_mul, abs_neg, abs_two]
  have h1 := Real.abs_sin_le_one ((x + y) / 2)
  have h2 : |Real.sin ((x - y) / 2)| ≤ |(x - y) / 2| := Real.abs_sin_le_abs
  rw [abs_div, abs_two] at h2
  nlinarith [abs_nonneg (Real.sin ((x + y) / 2)), abs_nonneg (Real.sin ((x - y) / 2))]

theorem sin_lip (x y : ℝ) : |Real.sin x - Real.sin y| ≤ |x - y| := by
  have := cos_lip (Real.pi / 2 - x) (Real.pi / 2 - y)
  rw [Real.cos_pi_div_two_sub, Real.cos_pi_div_two_sub] at this
  rwa [show Real.pi / 2 - x - (Real.pi / 2 - y) = y - x by ring, abs_sub_comm y x] at this

/-- **C123, density of the raised cosine distribution**, where the comparisons find `x` in the interval -/
theorem C123_rcos_pdf (hu : R.u < 1) (hφ : 0 ≤ φ) {pi : Fl R} (hpi : pi.val = R.rnd Real.pi) {cos : Fl R → Fl R}
    (hcos : ∀ x, |(cos x).val - Real.cos x.val| ≤ φ * |Real.cos x.val|) (mu s x : Fl R) (hs : 0 < s.val)
    (h1 : mu - s ≤ x) (h2 : x < mu + s) {z : ℝ} (hz : z = Real.pi * (x.val - mu.val) / s.val) :
    |(rcosPdfG pi cos mu s x).val - (1 + Real.cos z) / (2 * s.val)| ≤
      ((1 + R.u) ^ 4 * (2 + φ + ((1 + R.u) ^ 4 - 1) * |z|) - 2) / (2 * s.val) := by
  unfold rcosPdfG
  rw [if_pos ⟨h1, h2⟩]
  have a1 : R.RelN 4 (pi * (x - mu) / s).val z := by
    have p1 : R.RelN 1 pi.val Real.pi := by rw [hpi]; exact RelN.of_rnd hu _
    rw [hz]
    exact ((((p1.mul (RelN.of_rnd hu (x.val - mu.val))).rnd hu).div (RelN.refl s.val)).rnd hu)
  have a2 := trig_maj hφ hcos Real.abs_cos_le_one cos_lip a1
  have a3 := ((show Maj 1 1 1 1 from ⟨by simp, by simp⟩).add a2).rnd (R := R)
  have d1 : R.RelN 2 (2.0 * s).val (2 * s.val) := (((two_lit hu).mul (RelN.refl s.val)).rnd hu)
  have a4 := (a3.scale ((RelN.refl (1 : ℝ)).div d1)).rnd (R := R)
  have e : R.rnd (R.rnd (1 + (cos (pi * (x - mu) / s)).val) * (1 / (2.0 * s).val)) =
      ((1 + cos (pi * (x - mu) / s)) / (2.0 * s)).val := by rw [mul_one_div]; rfl
  rw [e, abs_of_pos (show 0 < 1 / (2 * s.val) by positivity)] at a4
  have := a4.2
  rw [mul_one_div] at this
  refine this.trans (le_of_eq ?_)
  rw [show R.gam 4 = (1 + R.u) ^ 4 - 1 from rfl]
  field_simp
  ring

/-- **C123, distribution function of the raised cosine distribution**, where the comparisons find `x` in the interval -/
theorem C123_rcos_cdf (hu : R.u < 1) (hφ : 0 ≤ φ) {pi : Fl R} (hpi : pi.val = R.rnd Real.pi) {sin : Fl R → Fl R}
    (hsin : ∀ x, |(sin x).val - Real.sin x.val| ≤ φ * |Real.sin x.val|) (mu s x : Fl R) (hs : 0 < s.val)
    (h1 : mu - s ≤ x) (h2 : x ≤ mu + s) {k : ℝ} (hk : k = (x.val - mu.val) / s.val) :
    ∃ F : Fl R, rcosCdfG pi sin mu s x = some F ∧
      |F.val - (1 + k + Real.sin (Real.pi * k) / Real.pi) / 2| ≤
        ((1 + R.u) ^ 6 * (1 + |k| + (1 + φ) / Real.pi + ((1 + R.u) ^ 4 - 1) * |k|) - (1 + |k| + 1 / Real.pi)) / 2 := by
  have u0 := R.u_nonneg
  have hpp := Real.pi_pos
  have hs0 : s ≠ 0 := fun h => by rw [h, Fl.zero_val] at hs; exact lt_irrefl _ hs
  refine ⟨(1 + (x - mu) / s + 1 / pi * sin ((x - mu) / s * pi)) / 2.0, ?_, ?_⟩
  · unfold rcosCdfG
    rw [if_pos ⟨h1, h2⟩, if_neg hs0]
  have p1 : R.RelN 1 pi.val Real.pi := by rw [hpi]; exact RelN.of_rnd hu _
  have k1 : R.RelN 2 ((x - mu) / s).val k := by
    rw [hk]
    exact (((RelN.of_rnd hu (x.val - mu.val)).div (RelN.refl s.val)).rnd hu)
  have z1 : R.RelN 4 ((x - mu) / s * pi).val (Real.pi * k) := by
    rw [mul_comm Real.pi]
    exact (k1.mul p1).rnd hu
  have a2 := trig_maj hφ hsin Real.abs_sin_le_one sin_lip z1
  have i1 : R.RelN 2 (1 / pi).val (1 / Real.pi) := ((RelN.refl (1 : ℝ)).div p1).rnd hu
  have a3 := (a2.scale i1).rnd (R := R)
  have b1 := ((show Maj 1 1 1 1 from ⟨by simp, by simp⟩).add (Maj.of_relN k1)).rnd (R := R)
  have c1 := (b1.add a3).rnd (R := R)
  have c2 := (c1.scale ((RelN.refl (1 : ℝ)).div (two_lit hu))).rnd (R := R)
  have e : R.rnd (R.rnd (R.rnd (1 + ((x - mu) / s).val) + R.rnd ((sin ((x - mu) / s * pi)).val * (1 / pi).val)) * (1 / (2.0 : Fl R).val)) =
      ((1 + (x - mu) / s + 1 / pi * sin ((x - mu) / s * pi)) / 2.0).val := by
    rw [mul_one_div, mul_comm (sin ((x - mu) / s * pi)).val]; rfl
  rw [e, abs_of_pos (show (0 : ℝ) < 1 / 2 by norm_num), abs_of_pos (show 0 < 1 / Real.pi by positivity), abs_mul, abs_of_pos hpp] at c2
  have c3 := c2.2
  rw [show R.gam 4 = (1 + R.u) ^ 4 - 1 from rfl] at c3
  rw [show (1 + k + Real.sin (Real.pi * k) / Real.pi) / 2 = (1 + k + Real.sin (Real.pi * k) * (1 / Real.pi)) * (1 / 2) by ring]
  refine c3.trans ?_
  set G := ((1 + R.u) ^ 4 - 1) * |k| with hG
  have eG : ((1 + R.u) ^ 4 - 1) * (Real.pi * |k|) = Real.pi * G := by rw [hG]; ring
  have g0 : 0 ≤ G := mul_nonneg (by linarith [one_le_pow₀ (n := 4) R.one_le]) (abs_nonneg _)
  rw [eG]
  have e2 : (1 + φ + Real.pi * G) * (1 / Real.pi) = (1 + φ) / Real.pi + G := by field_simp
  rw [e2]
  set Q := (1 + φ) / Real.pi
  have m1 : (1 + R.u) ^ 4 * 1 ≤ (1 + R.u) ^ 6 * 1 := mul_le_mul_of_nonneg_right (pow_le_pow_right₀ R.one_le (by norm_num)) zero_le_one
  have e3 : (1 + R.u) * ((1 + R.u) ^ (0 + 1) * ((1 + R.u) * ((1 + R.u) * (1 + (1 + R.u) ^ 2 * |k|) +
      (1 + R.u) * ((1 + R.u) ^ 2 * (Q + G))) * (1 / 2))) =
      ((1 + R.u) ^ 4 * 1 + (1 + R.u) ^ 6 * (|k| + Q + G)) / 2 := by ring
  rw [e3]
  linarith

/-- the number `π` with 53 bits is less than `π` -/
theorem rnd_pi_lt : 3 < (binary ℝ 53 (by norm_num)).rnd Real.pi ∧ (binary ℝ 53 (by norm_num)).rnd Real.pi < Real.pi := by
  have h1 := Real.pi_gt_d20
  have h2 := Real.pi_lt_d20
  have hl : Int.log 2 |Real.pi| = 1 := log_unique (by rw [abs_of_pos Real.pi_pos]; norm_num; linarith)
    (by rw [abs_of_pos Real.pi_pos]; norm_num; linarith)
  have hu : ulp 53 Real.pi = 1 / 2 ^ 51 := by rw [ulp, hl]; norm_num
  have h3 : Real.pi / ulp 53 Real.pi = Real.pi * 2 ^ 51 := by rw [hu]; field_simp
  have h4 : ⌊Real.pi * 2 ^ 51⌋ = 7074237752028440 := by
    rw [Int.floor_eq_iff]
    push_cast
    constructor <;> norm_num <;> linarith
  have e : (binary ℝ 53 (by norm_num)).rnd Real.pi = 7074237752028440 / 2 ^ 51 := by
    change roundBits 53 Real.pi = _
    rw [roundBits, h3, nearestEven, h4, if_pos (by push_cast; norm_num; linarith), hu]
    push_cast
    ring
  rw [e]
  constructor
  · norm_num
  · norm_num; linarith

theorem rnd_neg_of_neg {x : ℝ} (hu : R.u < 1) (hx : x < 0) : R.rnd x < 0 := by
  have := abs_le.1 (R.err x)
  rw [abs_of_neg hx] at this
  nlinarith

/-- the lower end of the interval, for any rounding that is odd and rounds `π` down -/
theorem rcos_lower (hu : R.u < 1) (neg : ∀ x, R.rnd (-x) = -R.rnd x) (one : R.rnd 1 = 1) (p1 : 3 < R.rnd Real.pi) (p2 : R.rnd Real.pi < Real.pi)
    {sin : Fl R → Fl R} (hφ : φ < 1) (hsin : ∀ x, |(sin x).val - Real.sin x.val| ≤ φ * |Real.sin x.val|) (s : Fl R) (hs : 0 < s.val)
    (hr : R.rnd s.val = s.val) : ∃ F, rcosCdfG ⟨R.rnd Real.pi⟩ sin 0 s (-s) = some F ∧ F.val < 0 := by
  have hs0 : s ≠ 0 := fun h => by rw [h, Fl.zero_val] at hs; exact lt_irrefl _ hs
  have ek : ((-s - 0) / s : Fl R) = -1 := by
    apply Fl.ext
    change R.rnd (R.rnd (-s.val - 0) / s.val) = -1
    rw [sub_zero, neg, hr, neg_div, div_self hs.ne', neg, one]
  refine ⟨(1 + (-s - 0) / s + 1 / ⟨R.rnd Real.pi⟩ * sin ((-s - 0) / s * ⟨R.rnd Real.pi⟩)) / 2.0, ?_, ?_⟩
  · unfold rcosCdfG
    rw [if_pos, if_neg hs0]
    constructor
    · rw [Fl.le_iff]
      change R.rnd (0 - s.val) ≤ -s.val
      rw [zero_sub, neg, hr]
    · rw [Fl.le_iff]
      change -s.val ≤ R.rnd (0 + s.val)
      rw [zero_add, hr]
      linarith
  · rw [ek]
    have a1 : (1 + -1 : Fl R) = 0 := by
      apply Fl.ext
      change R.rnd (1 + -1) = 0
      rw [add_neg_cancel, R.rnd_zero]
    have a2 : (-1 * ⟨R.rnd Real.pi⟩ : Fl R).val = -R.rnd Real.pi := by
      change R.rnd (-1 * R.rnd Real.pi) = _
      rw [neg_one_mul, neg, R.idem]
    rw [a1]
    have a3 := hsin (-1 * ⟨R.rnd Real.pi⟩)
    rw [a2, Real.sin_neg, abs_neg] at a3
    have a4 : 0 < Real.sin (R.rnd Real.pi) := Real.sin_pos_of_pos_of_lt_pi (by linarith) p2
    rw [abs_of_pos a4] at a3
    have a5 : (sin (-1 * ⟨R.rnd Real.pi⟩)).val < 0 := by
      have := (abs_le.1 a3).2
      nlinarith
    have a6 : 0 < (1 / ⟨R.rnd Real.pi⟩ : Fl R).val :=
      (LC.lit (R := R) hu (show 0 < 1 / R.rnd Real.pi by apply one_div_pos.2; linarith)).1
    have a7 : (1 / ⟨R.rnd Real.pi⟩ * sin (-1 * ⟨R.rnd Real.pi⟩) : Fl R).val < 0 := rnd_neg_of_neg hu (mul_neg_of_pos_of_neg a6 a5)
    have a8 : (0 + 1 / ⟨R.rnd Real.pi⟩ * sin (-1 * ⟨R.rnd Real.pi⟩) : Fl R).val < 0 :=
      rnd_neg_of_neg hu (by rw [Fl.zero_val, zero_add]; exact a7)
    have a9 : 0 < (2.0 : Fl R).val := (LC.lit (R := R) hu (show (0 : ℝ) < 2.0 by norm_num)).1
    exact rnd_neg_of_neg hu (div_neg_of_neg_of_pos a8 a9)

/-- **C123** is violated: the distribution function of the raised cosine distribution is negative at the lower end. With 53 bits, for
`μ = 0`, every `s` and every sine with a relative error less than one, the value at `x = -s` is less than zero: `π` is rounded down, so
that `sin(-π)` is about `-1.2e-16`. -/
theorem C123_rcos_cdf_violated {sin : Fl (binary ℝ 53 (by norm_num)) → Fl (binary ℝ 53 (by norm_num))} (hφ : φ < 1)
    (hsin : ∀ x, |(sin x).val - Real.sin x.val| ≤ φ * |Real.sin x.val|) (s : Fl (binary ℝ 53 (by norm_num))) (hs : 0 < s.val)
    (hr : (binary ℝ 53 (by norm_num)).rnd s.val = s.val) :
    ∃ F, rcosCdfG ⟨(binary ℝ 53 (by norm_num)).rnd Real.pi⟩ sin 0 s (-s) = some F ∧ F.val < 0 := by
  refine rcos_lower ?_ (roundBits_neg 53) (binary_one _) rnd_pi_lt.1 rnd_pi_lt.2 hφ hsin s hs hr
  have : (binary ℝ 53 (by norm_num)).u = 1 / 2 ^ 53 := (one_div _).symm
  rw [this]; norm_num

/-! ### The normal and the log-normal distribution -/

theorem erfSpec_abs_le (x : ℝ) : |erfSpec x| ≤ 1 := by
  rw [abs_le]
  have h1 := erfSpec_le_one x
  have h2 := erfSpec_le_one (-x)
  rw [erfSpec_neg] at h2
  constructor <;> linarith

theorem erf_maj {e y : ℝ} {k ε κ : ℝ} (h1 : |y - k| ≤ κ) (h2 : |e - erfSpec y| ≤ ε) : Maj (1 + ε + 2 * κ) 1 e (erfSpec k) := by
  refine ⟨erfSpec_abs_le k, ?_⟩
  have := abs_sub_le e (erfSpec y) (erfSpec k)
  have := erfSpec_lip (a := y) (b := k)
  linarith

/-- **C123, distribution function of the normal distribution**, with any computed error function that is accurate to `ε` between `A` and `B` -/
theorem C123_normal_cdf (hu : R.u < 1) {sqrt : Fl R → Fl R} (hs : FlSqrt sqrt) {erf : Fl R → Option (Fl R)} {A B ε : ℝ}
    (herf : ∀ y : Fl R, A ≤ |y.val| → |y.val| ≤ B → ∃ e : Fl R, erf y = some e ∧ |e.val - 2 / √Real.pi * ∫ t in (0 : ℝ)..y.val, Real.exp (-t ^ 2)| ≤ ε)
    (m v x : Fl R) (hv : 0 < v.val) {k κ : ℝ} (hk : k = (x.val - m.val) / √(2 * v.val)) (hκ : κ = ((1 + R.u) ^ 5 - 1) * |k|)
    (hA : A ≤ |k| - κ) (hB : |k| + κ ≤ B) :
    ∃ p : Fl R, normalCdfG sqrt erf m v x = some p ∧
      |p.val - 1 / 2 * (1 + 2 / √Real.pi * ∫ t in (0 : ℝ)..k, Real.exp (-t ^ 2))| ≤ (1 + R.u) ^ 3 * (1 + ε / 2 + κ) - 1 := by
  have h1 : R.RelN 5 ((x - m) / sqrt (2.0 * v)).val k := by
    have d1 := (((two_lit hu).mul (RelN.refl v.val)).rnd hu).near (by positivity)
    have d2 := Near.flsqrt hs hu (x := 2.0 * v) d1
    rw [hk]
    exact (((RelN.of_rnd hu (x.val - m.val)).div (RelN.of_near d2)).rnd hu)
  have h2 := h1.abs_sub_le
  rw [show R.gam 5 = (1 + R.u) ^ 5 - 1 from rfl, ← hκ] at h2
  have h3 := abs_sub_abs_le_abs_sub ((x - m) / sqrt (2.0 * v)).val k
  have h4 := abs_sub_abs_le_abs_sub k ((x - m) / sqrt (2.0 * v)).val
  rw [abs_sub_comm] at h4
  obtain ⟨e, he, h5⟩ := herf ((x - m) / sqrt (2.0 * v)) (by linarith) (by linarith)
  refine ⟨0.5 * (1 + e), by rw [normalCdfG, he]; rfl, ?_⟩
  have a1 := ((show Maj 1 1 1 1 from ⟨by simp, by simp⟩).add (erf_maj h2 h5)).rnd (R := R)
  have a2 := (a1.scale (half_lit hu)).rnd (R := R)
  have := a2.2
  rw [abs_of_pos (show (0 : ℝ) < 1 / 2 by norm_num), mul_comm _ (1 / 2 : ℝ)] at this
  have e1 : (0.5 * (1 + e) : Fl R).val = R.rnd (R.rnd (1 + e.val) * (0.5 : Fl R).val) := by rw [mul_comm]; rfl
  rw [e1]
  refine this.trans (le_of_eq ?_)
  ring

/-- the error of `ln x - μ` -/
theorem ln_sub_maj {ln : Fl R → Fl R} (hln : ∀ x : Fl R, 0 < x.val → |(ln x).val - Real.log x.val| ≤ φ * |Real.log x.val|)
    (mu x : Fl R) (hx : 0 < x.val) : Maj ((1 + R.u) * (|Real.log x.val - mu.val| + φ * |Real.log x.val|)) |Real.log x.val - mu.val|
      (ln x - mu).val (Real.log x.val - mu.val) := by
  have h : Maj (|Real.log x.val - mu.val| + φ * |Real.log x.val|) |Real.log x.val - mu.val| ((ln x).val - mu.val) (Real.log x.val - mu.val) := by
    refine ⟨le_rfl, ?_⟩
    rw [sub_sub_sub_cancel_right]
    linarith [hln x hx]
  exact h.rnd

/-- **C123, distribution function of the log-normal distribution** -/
theorem C123_log_normal_cdf (hu : R.u < 1) {sqrt ln : Fl R → Fl R} (hs : FlSqrt sqrt)
    (hln : ∀ x : Fl R, 0 < x.val → |(ln x).val - Real.log x.val| ≤ φ * |Real.log x.val|) {erf : Fl R → Option (Fl R)} {A B ε : ℝ}
    (herf : ∀ y : Fl R, A ≤ |y.val| → |y.val| ≤ B → ∃ e : Fl R, erf y = some e ∧ |e.val - 2 / √Real.pi * ∫ t in (0 : ℝ)..y.val, Real.exp (-t ^ 2)| ≤ ε)
    (mu s2 x : Fl R) (hs2 : 0 < s2.val) (hx : 0 < x.val) {k κ : ℝ} (hk : k = (Real.log x.val - mu.val) / √(2 * s2.val))
    (hκ : κ = ((1 + R.u) ^ 5 - 1) * |k| + (1 + R.u) ^ 5 * (φ * |Real.log x.val| / √(2 * s2.val))) (hA : A ≤ |k| - κ) (hB : |k| + κ ≤ B) :
    ∃ p : Fl R, logNormalCdfG sqrt ln erf mu s2 x = some p ∧
      |p.val - (1 / 2 + 1 / 2 * (2 / √Real.pi * ∫ t in (0 : ℝ)..k, Real.exp (-t ^ 2)))| ≤ (1 + R.u) ^ 3 * (1 + ε / 2 + κ) - 1 := by
  have u0 := R.u_nonneg
  have hW : 0 < √(2 * s2.val) := Real.sqrt_pos.2 (by positivity)
  have d1 := (((two_lit hu).mul (RelN.refl s2.val)).rnd hu).near (by positivity)
  have d2 := Near.flsqrt hs hu (x := 2.0 * s2) d1
  have h0 := (((ln_sub_maj hln mu x hx).scale ((RelN.refl (1 : ℝ)).div (RelN.of_near d2))).rnd (R := R))
  have e0 : R.rnd ((ln x - mu).val * (1 / (sqrt (2.0 * s2)).val)) = ((ln x - mu) / sqrt (2.0 * s2)).val := by rw [mul_one_div]; rfl
  rw [e0, mul_one_div, ← hk, abs_of_pos (one_div_pos.2 hW)] at h0
  set y := (ln x - mu) / sqrt (2.0 * s2) with hy
  have ek : |k| = |Real.log x.val - mu.val| / √(2 * s2.val) := by rw [hk, abs_div, abs_of_pos hW]
  have h2 : |y.val - k| ≤ κ := by
    refine h0.2.trans (le_of_eq ?_)
    rw [hκ, ek]
    field_simp
    ring
  have h3 := abs_sub_abs_le_abs_sub y.val k
  have h4 := abs_sub_abs_le_abs_sub k y.val
  rw [abs_sub_comm] at h4
  obtain ⟨e, he, h5⟩ := herf y (by linarith) (by linarith)
  refine ⟨0.5 + 0.5 * e, ?_, ?_⟩
  · rw [logNormalCdfG, if_neg (show ¬ x ≤ 0 from fun h => absurd ((Fl.le_iff _ _).1 h) (not_le.2 hx)), ← hy, he]; rfl
  have a1 := (((erf_maj h2 h5).scale (half_lit hu)).rnd (R := R))
  have a2 := ((Maj.of_relN (half_lit hu)).add a1).rnd (R := R)
  have := a2.2
  rw [abs_of_pos (show (0 : ℝ) < 1 / 2 by norm_num), mul_comm _ (1 / 2 : ℝ)] at this
  have e1 : (0.5 + 0.5 * e : Fl R).val = R.rnd ((0.5 : Fl R).val + R.rnd (e.val * (0.5 : Fl R).val)) := by
    rw [mul_comm e.val]; rfl
  rw [e1]
  refine this.trans ?_
  have m1 : (1 + R.u) ^ 2 ≤ (1 + R.u) ^ 3 := pow_le_pow_right₀ R.one_le (by norm_num)
  have e2 : (1 + R.u) * ((1 + R.u) ^ 1 * (1 / 2) + (1 + R.u) * ((1 + R.u) ^ 1 * ((1 + ε + 2 * κ) * (1 / 2)))) =
      ((1 + R.u) ^ 2 + (1 + R.u) ^ 3 * (1 + ε + 2 * κ)) / 2 := by ring
  rw [e2]
  linarith

/-- **C123, density of the log-normal distribution.** The relative error depends on the error of `ln x - μ`, of which `D` is a bound for the
computed value. -/
theorem C123_log_normal_pdf (hu : R.u < 1) (hφ : 0 ≤ φ) {pi : Fl R} (hpi : pi.val = R.rnd Real.pi) {sqrt exp ln sq : Fl R → Fl R}
    (hsqrt : ∀ x : Fl R, 0 < x.val → Rel φ (sqrt x).val (Real.sqrt x.val)) (hexp : ∀ x, Rel φ (exp x).val (Real.exp x.val))
    (hsq : ∀ x, Rel φ (sq x).val (x.val ^ 2)) (hln : ∀ x : Fl R, 0 < x.val → |(ln x).val - Real.log x.val| ≤ φ * |Real.log x.val|)
    (mu s2 x : Fl R) (hs2 : 0 < s2.val) (hx : 0 < x.val) {d D : ℝ} (hd : d = Real.log x.val - mu.val)
    (hD : D = (1 + R.u) * (|d| + φ * |Real.log x.val|)) :
    ∃ p : Fl R, logNormalPdfG pi sqrt exp ln sq mu s2 x = some p ∧
      LC (2 * φ + 5 * R.u + ((1 + R.u) ^ 3 * (1 + φ) * D ^ 2 - d ^ 2) / (2 * s2.val)) p.val
        (1 / (x.val * √(2 * Real.pi * s2.val)) * Real.exp (-(d ^ 2 / (2 * s2.val)))) := by
  have u0 := R.u_nonneg
  have a0 := ln_sub_maj hln mu x hx
  rw [← hd, ← hD] at a0
  have hD0 := a0.nonneg
  have hdD : |d| ≤ D := by have := (abs_nonneg _).trans a0.2; linarith
  -- the square
  have a1 : Maj ((1 + φ) * D ^ 2) (d ^ 2) (sq (ln x - mu)).val (d ^ 2) := by
    refine ⟨by rw [abs_of_nonneg (sq_nonneg d)], ?_⟩
    obtain ⟨q1, q2⟩ := hsq (ln x - mu)
    set y := (ln x - mu).val with hy
    set w := (sq (ln x - mu)).val with hw
    have y1 : y ^ 2 ≤ D ^ 2 := by rw [← sq_abs]; exact pow_le_pow_left₀ (abs_nonneg _) a0.le 2
    have w1 : |w - y ^ 2| ≤ φ * y ^ 2 := by
      have h0 : 0 ≤ y ^ 2 := sq_nonneg y
      rw [abs_le]
      constructor
      · by_cases hc : w ≤ y ^ 2
        · nlinarith
        · have := mul_nonneg hφ h0; linarith
      · linarith
    have w2 : |y ^ 2 - d ^ 2| ≤ D ^ 2 - d ^ 2 := by
      have b1 := a0.2
      have b2 : |y + d| ≤ D + |d| := (abs_add_le _ _).trans (add_le_add a0.le le_rfl)
      rw [show y ^ 2 - d ^ 2 = (y - d) * (y + d) by ring, abs_mul, ← sq_abs d, show D ^ 2 - |d| ^ 2 = (D - |d|) * (D + |d|) by ring]
      exact mul_le_mul b1 b2 (abs_nonneg _) (by linarith)
    have := abs_sub_le w (y ^ 2) (d ^ 2)
    have := mul_le_mul_of_nonneg_left y1 hφ
    linarith
  have n1 : R.RelN 1 (-0.5 : Fl R).val (-(1 / 2)) := (half_lit hu).neg
  have a2 := (a1.scale n1).rnd (R := R)
  have a3 := (a2.scale (R := R) ((RelN.refl (1 : ℝ)).div (RelN.refl s2.val))).rnd (R := R)
  have e3 : R.rnd (R.rnd ((sq (ln x - mu)).val * (-0.5 : Fl R).val) * (1 / s2.val)) = (-0.5 * sq (ln x - mu) / s2).val := by
    rw [mul_one_div, mul_comm (sq (ln x - mu)).val]; rfl
  rw [e3] at a3
  have a4 := a3.2
  rw [abs_neg, abs_of_pos (show (0 : ℝ) < 1 / 2 by norm_num), abs_of_pos (one_div_pos.2 hs2)] at a4
  have e4 : d ^ 2 * -(1 / 2) * (1 / s2.val) = -(d ^ 2 / (2 * s2.val)) := by field_simp
  have e5 : (1 + R.u) * ((1 + R.u) ^ (0 + 0) * ((1 + R.u) * ((1 + R.u) ^ 1 * ((1 + φ) * D ^ 2 * (1 / 2))) * (1 / s2.val))) -
      d ^ 2 * (1 / 2) * (1 / s2.val) = ((1 + R.u) ^ 3 * (1 + φ) * D ^ 2 - d ^ 2) / (2 * s2.val) := by
    field_simp
    ring
  rw [e4, e5] at a4
  refine ⟨_, by
    rw [logNormalPdfG, if_neg (show ¬ x < 0 from fun h => absurd ((Fl.le_iff 0 x).2 hx.le) (not_le.2 h)),
      if_neg (show ¬ x = 0 from fun h => by rw [h, Fl.zero_val] at hx; exact lt_irrefl _ hx)], ?_⟩
  have h1 := ((hexp (-0.5 * sq (ln x - mu) / s2)).lc hφ (Real.exp_pos _)).trans (lc_exp a4)
  have h2 := ((LC.refl hs2).mul (two_lc hu)).rnd hu
  have h3 : LC R.u pi.val Real.pi := by rw [hpi]; exact LC.lit hu Real.pi_pos
  have h4 := (h2.mul h3).rnd hu
  have h5 := ((hsqrt (s2 * 2.0 * pi) h4.1).lc hφ (Real.sqrt_pos.2 h4.1)).trans h4.sqrt
  have h6 := ((LC.refl hx).mul h5).rnd hu
  have h7 := ((LC.refl one_pos).div h6).rnd hu
  rw [show s2.val * 2 * Real.pi = 2 * Real.pi * s2.val by ring] at h7
  exact LC.mono ((h7.mul h1).rnd hu) (by linarith)

/-- **C123, accuracy of the normal distribution function.** With 53 bits, library functions with a relative error of at most `2^-52` and the
error function of the project, the distribution function is accurate to `4e-12` within about `1.4` standard deviations. -/
theorem C123_normal_cdf_f64 {ln exp sqrt sin : Fl R → Fl R} {pi e : Fl R} {pow : Fl R → Fl R → Fl R}
    (L1 : LnGammaLib R φ ln pi e sin pow) (L2 : IncLib R φ ln exp) (L3 : GammaLib R φ pi sqrt exp sin pow)
    (hs : FlSqrt sqrt) (hu : R.u ≤ 1 / 2 ^ 53) (hφ : φ ≤ 1 / 2 ^ 52) (h1 : R.rnd 1 = 1) (h2 : R.rnd (1 / 2) = 1 / 2) (hm : Monotone R.rnd)
    {n : ℕ} (hn : 18 ≤ n) (m v x : Fl R) (hv : 0 < v.val) {k : ℝ} (hk : k = (x.val - m.val) / √(2 * v.val)) (k0 : 1e-149 ≤ |k|)
    (k1 : |k| ≤ 0.999) :
    ∃ p : Fl R, normalCdfG sqrt (erfG (lrFl ln exp pi e sin pow n) (gamFl exp sqrt pi sin pow) pi sqrt) m v x = some p ∧
      |p.val - 1 / 2 * (1 + 2 / √Real.pi * ∫ t in (0 : ℝ)..k, Real.exp (-t ^ 2))| ≤ 4e-12 := by
  have u0 := R.u_nonneg
  have hp : ∀ j ≤ 5, (1 + R.u) ^ j ≤ 1 + 1e-15 := fun j hj =>
    (pow_le_pow_right₀ R.one_le hj).trans ((pow_le_pow_left₀ (by linarith) (by linarith) 5 : (1 + R.u) ^ 5 ≤ (1 + 1 / 2 ^ 53) ^ 5).trans (by norm_num))
  have hg : ((1 + R.u) ^ 5 - 1) * |k| ≤ 1e-15 * |k| := mul_le_mul_of_nonneg_right (by linarith [hp 5 le_rfl]) (abs_nonneg _)
  obtain ⟨p, hp1, hp2⟩ := C123_normal_cdf (lt_of_le_of_lt hu (by norm_num)) hs (A := 1e-150) (B := 1) (ε := 6e-12)
    (erf := erfG (lrFl ln exp pi e sin pow n) (gamFl exp sqrt pi sin pow) pi sqrt) (fun y y0 y1 => by
      obtain ⟨r, _, a, b, _⟩ := C121_erf L1 L2 L3 hu hφ h1 h2 hm y0 y1 hn
      exact ⟨r, a, b⟩) m v x hv hk rfl
    (by
      have : (1 - 1e-15) * 1e-149 ≤ (1 - 1e-15) * |k| := mul_le_mul_of_nonneg_left k0 (by norm_num)
      have e : (1e-150 : ℝ) ≤ (1 - 1e-15) * 1e-149 := by norm_num
      linarith) (by
      norm_num at hg k1 ⊢
      linarith)
  refine ⟨p, hp1, hp2.trans ?_⟩
  have g3 := hp 3 (by norm_num)
  have hκ : ((1 + R.u) ^ 5 - 1) * |k| ≤ 1e-15 := by
    have := mul_le_mul_of_nonneg_left k1 (by norm_num : (0 : ℝ) ≤ 1e-15)
    norm_num at this hg ⊢
    linarith
  have κ0 : 0 ≤ ((1 + R.u) ^ 5 - 1) * |k| := mul_nonneg (by linarith [one_le_pow₀ (n := 5) R.one_le]) (abs_nonneg _)
  have := mul_le_mul g3 (show 1 + 6e-12 / 2 + ((1 + R.u) ^ 5 - 1) * |k| ≤ 1 + 6e-12 / 2 + 1e-15 by linarith) (by linarith) (by norm_num)
  norm_num at this ⊢
  linarith

/-- the standard normal distribution function at `1` with 53 bits and correctly rounded functions -/
example : ∃ p : Fl (binary ℝ 53 (by norm_num)), normalCdfG (fun x => ⟨(binary ℝ 53 (by norm_num)).rnd (Real.sqrt x.val)⟩) (erfG
      (lrFl (fun x => ⟨(binary ℝ 53 (by norm_num)).rnd (Real.log x.val)⟩) (fun x => ⟨(binary ℝ 53 (by norm_num)).rnd (Real.exp x.val)⟩)
        ⟨(binary ℝ 53 (by norm_num)).rnd Real.pi⟩ ⟨(binary ℝ 53 (by norm_num)).rnd (Real.exp 1)⟩
        (fun x => ⟨(binary ℝ 53 (by norm_num)).rnd (Real.sin x.val)⟩) (fun x y => ⟨(binary ℝ 53 (by norm_num)).rnd (x.val ^ y.val)⟩) 18)
      (gamFl (fun x => ⟨(binary ℝ 53 (by norm_num)).rnd (Real.exp x.val)⟩) (fun x => ⟨(binary ℝ 53 (by norm_num)).rnd (Real.sqrt x.val)⟩)
        ⟨(binary ℝ 53 (by norm_num)).rnd Real.pi⟩
        (fun x => ⟨(binary ℝ 53 (by norm_num)).rnd (Real.sin x.val)⟩) (fun x y => ⟨(binary ℝ 53 (by norm_num)).rnd (x.val ^ y.val)⟩))
      ⟨(binary ℝ 53 (by norm_num)).rnd Real.pi⟩ (fun x => ⟨(binary ℝ 53 (by norm_num)).rnd (Real.sqrt x.val)⟩)) ⟨0⟩ ⟨1⟩ ⟨1⟩ = some p ∧
      |p.val - 1 / 2 * (1 + 2 / √Real.pi * ∫ t in (0 : ℝ)..1 / √2, Real.exp (-t ^ 2))| ≤ 4e-12 := by
  have e : (binary ℝ 53 (by norm_num)).u = 1 / 2 ^ 53 := (one_div _).symm
  have hu : (binary ℝ 53 (by norm_num)).u ≤ 1 / 10 := by rw [e]; norm_num
  have q1 : (1.4 : ℝ) ≤ √2 := Real.le_sqrt_of_sq_le (by norm_num)
  have q2 : √2 ≤ 1.5 := Real.sqrt_le_iff.2 ⟨by norm_num, by norm_num⟩
  have q3 : |1 / √2| = 1 / √2 := abs_of_pos (by positivity)
  refine C123_normal_cdf_f64 (correct_lnlib _ hu) (correct_inclib _ hu) (correct_lib _ (by linarith))
    (fun x hx => ⟨√x.val, Real.sqrt_nonneg _, Real.mul_self_sqrt hx, rfl⟩) e.le
    (by rw [e]; norm_num) (binary_one _) (binary_half _) (binary_monotone 53 (by norm_num)) (le_refl 18) ⟨0⟩ ⟨1⟩ ⟨1⟩ one_pos
    (by norm_num) ?_ ?_
  · rw [q3, le_div_iff₀ (by positivity)]
    have := mul_le_mul_of_nonneg_left q2 (by norm_num : (0 : ℝ) ≤ 1e-149)
    refine this.trans (by norm_num)
  · rw [q3, div_le_iff₀ (by positivity)]
    norm_num at q1 ⊢
    linarith

/-- the raised cosine distribution with `μ = 0`, `s = 1` at `1/2` with correctly rounded functions: density `1/2` and distribution
function `3/4 + 1/(2π)`, with small errors -/
example (R : Rounding ℝ) (hR : R.u = 1 / 2 ^ 53) (hm : Monotone R.rnd) (h1 : R.rnd 1 = 1) (h2 : R.rnd (-1) = -1) :
    |(rcosPdfG (⟨R.rnd Real.pi⟩ : Fl R) (fun y => ⟨R.rnd (Real.cos y.val)⟩) ⟨0⟩ ⟨1⟩ ⟨1 / 2⟩).val - 1 / 2| ≤ 1e-14 ∧
      ∃ F : Fl R, rcosCdfG (⟨R.rnd Real.pi⟩ : Fl R) (fun y => ⟨R.rnd (Real.sin y.val)⟩) ⟨0⟩ ⟨1⟩ ⟨1 / 2⟩ = some F ∧
        |F.val - (3 / 4 + 1 / (2 * Real.pi))| ≤ 1e-14 := by
  have hu : R.u < 1 := by rw [hR]; norm_num
  have c1 : (⟨0⟩ - ⟨1⟩ : Fl R) ≤ ⟨1 / 2⟩ := by
    rw [Fl.le_iff]
    change R.rnd (0 - 1) ≤ 1 / 2
    rw [zero_sub, h2]; norm_num
  have c2 : (⟨1 / 2⟩ : Fl R) < ⟨0⟩ + ⟨1⟩ := by
    rw [← not_le, Fl.le_iff]
    change ¬ R.rnd (0 + 1) ≤ 1 / 2
    rw [zero_add, h1]; norm_num
  have p3 := Real.pi_gt_three
  have p4 : Real.pi < 3.15 := Real.pi_lt_d2
  constructor
  · have := C123_rcos_pdf hu R.u_nonneg (pi := ⟨R.rnd Real.pi⟩) rfl (cos := fun y => ⟨R.rnd (Real.cos y.val)⟩) (fun x => R.err _)
      ⟨0⟩ ⟨1⟩ ⟨1 / 2⟩ one_pos c1 c2 (z := Real.pi / 2) (by norm_num; ring)
    rw [Real.cos_pi_div_two, hR, abs_of_pos (show 0 < Real.pi / 2 by linarith)] at this
    norm_num at this ⊢
    refine this.trans ?_
    linarith
  · obtain ⟨F, hF, h⟩ := C123_rcos_cdf hu R.u_nonneg (pi := ⟨R.rnd Real.pi⟩) rfl (sin := fun y => ⟨R.rnd (Real.sin y.val)⟩) (fun x => R.err _)
      ⟨0⟩ ⟨1⟩ ⟨1 / 2⟩ one_pos c1 c2.le (k := 1 / 2) (by norm_num)
    refine ⟨F, hF, ?_⟩
    rw [show Real.pi * (1 / 2) = Real.pi / 2 by ring, Real.sin_pi_div_two, hR, abs_of_pos (show (0 : ℝ) < 1 / 2 by norm_num)] at h
    rw [show 3 / 4 + 1 / (2 * Real.pi) = (1 + 1 / 2 + 1 / Real.pi) / 2 by field_simp; ring]
    refine h.trans ?_
    have e : (1 + 1 / 2 ^ 53) / Real.pi = (1 + 1 / 2 ^ 53) * (1 / Real.pi) := by ring
    rw [e]
    have i1 : 1 / Real.pi ≤ 1 / 3 := one_div_le_one_div_of_le (by norm_num) p3.le
    have i0 : 0 < 1 / Real.pi := by positivity
    set J := 1 / Real.pi
    norm_num
    linarith

/-- at the lower end of the interval `[-1, 1]` the distribution function is negative, with a correctly rounded sine -/
example : ∃ F : Fl (binary ℝ 53 (by norm_num)), rcosCdfG ⟨(binary ℝ 53 (by norm_num)).rnd Real.pi⟩ (fun y => ⟨(binary ℝ 53 (by norm_num)).rnd (Real.sin y.val)⟩) 0
    (1 : Fl (binary ℝ 53 (by norm_num))) (-1) = some F ∧ F.val < 0 := by
  refine C123_rcos_cdf_violated (φ := 1 / 2) (by norm_num) (fun x => ?_) 1 one_pos (binary_one _)
  refine ((binary ℝ 53 (by norm_num)).err _).trans (mul_le_mul_of_nonneg_right ?_ (abs_nonneg _))
  have : (binary ℝ 53 (by norm_num)).u = 1 / 2 ^ 53 := (one_div _).symm
  rw [this]; norm_num

/-- the log-normal distribution with `μ = 1`, `σ² = 2` at `x = 1`, where `ln x = 0`: the density has a relative error of at most `9 u`, and the
distribution function is accurate when the error function is -/
example (hu : R.u ≤ 1 / 100) {erf : Fl R → Option (Fl R)} (herf : ∀ y : Fl R, 0.4 ≤ |y.val| → |y.val| ≤ 0.6 → ∃ e : Fl R, erf y = some e ∧
      |e.val - 2 / √Real.pi * ∫ t in (0 : ℝ)..y.val, Real.exp (-t ^ 2)| ≤ 1 / 10) :
    (∃ p : Fl R, logNormalPdfG (⟨R.rnd Real.pi⟩ : Fl R) (fun y => ⟨R.rnd (Real.sqrt y.val)⟩) (fun y => ⟨R.rnd (Real.exp y.val)⟩)
        (fun y => ⟨R.rnd (Real.log y.val)⟩) (fun y => ⟨R.rnd (y.val ^ 2)⟩) ⟨1⟩ ⟨2⟩ ⟨1⟩ = some p ∧
      LC (9 * R.u) p.val (1 / √(4 * Real.pi) * Real.exp (-(1 / 4)))) ∧
    ∃ p : Fl R, logNormalCdfG (fun y => ⟨R.rnd (Real.sqrt y.val)⟩) (fun y => ⟨R.rnd (Real.log y.val)⟩) erf ⟨1⟩ ⟨2⟩ ⟨1⟩ = some p ∧
      |p.val - (1 / 2 + 1 / 2 * (2 / √Real.pi * ∫ t in (0 : ℝ)..-(1 / 2), Real.exp (-t ^ 2)))| ≤ 1 / 8 := by
  have u0 := R.u_nonneg
  have hu1 : R.u < 1 := by linarith
  have hs : FlSqrt (fun x : Fl R => ⟨R.rnd √x.val⟩) := fun x hx => ⟨√x.val, Real.sqrt_nonneg _, Real.mul_self_sqrt hx, rfl⟩
  constructor
  · obtain ⟨p, hp, h⟩ := C123_log_normal_pdf (R := R) (φ := R.u) hu1 u0 (pi := ⟨R.rnd Real.pi⟩) rfl
      (sqrt := fun y => ⟨R.rnd (Real.sqrt y.val)⟩) (exp := fun y => ⟨R.rnd (Real.exp y.val)⟩) (ln := fun y => ⟨R.rnd (Real.log y.val)⟩)
      (sq := fun y => ⟨R.rnd (y.val ^ 2)⟩)
      (fun x _ => rel_rnd hu1 (Real.sqrt_nonneg _)) (fun x => rel_rnd hu1 (Real.exp_pos _).le) (fun x => rel_rnd hu1 (sq_nonneg _))
      (fun x _ => R.err _) ⟨1⟩ ⟨2⟩ ⟨1⟩ two_pos one_pos (d := -1) (D := 1 + R.u) (by simp) (by simp)
    refine ⟨p, hp, ?_⟩
    rw [show (1 : ℝ) * √(2 * Real.pi * 2) = √(4 * Real.pi) by rw [one_mul]; congr 1; ring,
      show ((-1 : ℝ) ^ 2 / (2 * 2)) = 1 / 4 by norm_num] at h
    refine h.mono ?_
    have e : (1 + R.u) ^ 3 * (1 + R.u) * (1 + R.u) ^ 2 = (1 + R.u) ^ 6 := by ring
    have b : (1 + R.u) ^ 6 ≤ 1 + 8 * R.u := by
      have s2 : R.u ^ 2 ≤ 1 / 100 * R.u := by nlinarith
      have t2 : (1 + R.u) ^ 2 ≤ 1 + 2.01 * R.u := by nlinarith
      have t4 : (1 + R.u) ^ 4 ≤ 1 + 4.1 * R.u := by
        have := mul_le_mul t2 t2 (by positivity) (by nlinarith)
        nlinarith
      have t6 := mul_le_mul t4 t2 (by positivity) (by nlinarith)
      nlinarith
    norm_num
    rw [e]
    linarith
  · have q : √(2 * 2 : ℝ) = 2 := by rw [Real.sqrt_mul_self]; norm_num
    have g5 : (1 + R.u) ^ 5 ≤ 1.06 := (pow_le_pow_left₀ (by linarith) (by linarith) 5 : (1 + R.u) ^ 5 ≤ (1 + 1 / 100) ^ 5).trans (by norm_num)
    have g3 : (1 + R.u) ^ 3 ≤ 1.031 := (pow_le_pow_left₀ (by linarith) (by linarith) 3 : (1 + R.u) ^ 3 ≤ (1 + 1 / 100) ^ 3).trans (by norm_num)
    have o5 := one_le_pow₀ (n := 5) R.one_le
    obtain ⟨p, hp, h⟩ := C123_log_normal_cdf (R := R) (φ := R.u) hu1 hs (ln := fun y => ⟨R.rnd (Real.log y.val)⟩) (fun x _ => R.err _) herf
      ⟨1⟩ ⟨2⟩ ⟨1⟩ two_pos one_pos (k := -(1 / 2)) (κ := ((1 + R.u) ^ 5 - 1) * (1 / 2)) (by rw [Real.log_one, q]; norm_num)
      (by rw [Real.log_one]; norm_num) (by norm_num at g5 ⊢; linarith) (by norm_num at g5 ⊢; linarith)
    refine ⟨p, hp, h.trans ?_⟩
    have := mul_le_mul g3 (show 1 + 1 / 10 / 2 + ((1 + R.u) ^ 5 - 1) * (1 / 2) ≤ 1.08 by norm_num at g5 ⊢; linarith) (by linarith) (by norm_num)
    norm_num at this ⊢
    linarith

end
end Stat
end Verif
