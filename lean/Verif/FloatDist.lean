import Verif.ElemDistModel
import Verif.DiscreteProps
import Verif.FloatBeta

/-!
# Property C118: the elementary distributions with rounding
-/

namespace Verif
open Finset

/-! ### Rounding is monotone -/

section
variable {K : Type} [Field K] [LinearOrder K] [IsStrictOrderedRing K] [FloorRing K]

theorem nearestEven_mono {x y : K} (h : x ≤ y) : nearestEven x ≤ nearestEven y := by
  have hf := Int.floor_mono h
  rcases hf.lt_or_eq with h1 | h1
  · have a : nearestEven x ≤ ⌊x⌋ + 1 := by unfold nearestEven; split_ifs <;> omega
    have b : ⌊y⌋ ≤ nearestEven y := by unfold nearestEven; split_ifs <;> omega
    omega
  · unfold nearestEven
    rw [← h1]
    split_ifs <;> first | omega | (exfalso; linarith)

/-- rounding to nearest is monotone on the positive numbers -/
theorem roundBits_mono {p : ℕ} (hp : 1 ≤ p) {x y : K} (hx : 0 < x) (h : x ≤ y) : roundBits p x ≤ roundBits p y := by
  have hy : 0 < y := hx.trans_le h
  have hl : Int.log 2 |x| ≤ Int.log 2 |y| := by
    rw [abs_of_pos hx, abs_of_pos hy]
    exact Int.log_mono_right hx h
  have nn : ∀ z : K, 0 < z → 0 ≤ roundBits p z := fun z hz => by
    refine mul_nonneg ?_ (ulp_pos p z).le
    exact_mod_cast le_nearestEven (n := 0) (by simpa using (div_pos hz (ulp_pos p z)).le)
  rcases hl.lt_or_eq with h1 | h1
  · have a := (roundBits_bounds hp hx.ne').2
    have b := (roundBits_bounds hp hy.ne').1
    rw [abs_of_nonneg (nn x hx)] at a
    rw [abs_of_nonneg (nn y hy)] at b
    exact a.trans ((zpow_le_zpow_right₀ (by norm_num) (by omega)).trans b)
  · have e : ulp p x = ulp p y := by rw [ulp, ulp, h1]
    rw [roundBits, roundBits, e]
    refine mul_le_mul_of_nonneg_right ?_ (ulp_pos p y).le
    exact_mod_cast nearestEven_mono (div_le_div_of_nonneg_right h (ulp_pos p y).le)
end

namespace Stat
open Rounding Special

variable {R : Rounding ℝ} {φ : ℝ}

/-- `a` is between `1 / (1 + φ)` times and `1 + φ` times `b` -/
def Rel (φ a b : ℝ) : Prop := a ≤ (1 + φ) * b ∧ b ≤ (1 + φ) * a

theorem Rel.lc (h0 : 0 ≤ φ) {a b : ℝ} (hb : 0 < b) (h : Rel φ a b) : LC φ a b := LC.of_rel h0 hb h.1 h.2

/-! ### The exponential distribution -/

/-- **C118, density of the exponential distribution** -/
theorem C118_expo_pdf (hu : R.u < 1) (hφ : 0 ≤ φ) {exp : Fl R → Fl R} (hexp : ∀ x, Rel φ (exp x).val (Real.exp x.val))
    (l x : Fl R) (hl : 0 < l.val) (hx : 0 ≤ x.val) :
    LC (φ + (1 + l.val * x.val) * R.u) (expoPdfG exp l x).val (l.val * Real.exp (-l.val * x.val)) := by
  unfold expoPdfG
  rw [if_neg (not_lt.2 ((Fl.le_iff 0 x).2 hx))]
  have h1 : |(-l * x).val - (-l.val * x.val)| ≤ l.val * x.val * R.u := by
    have := R.err (-l.val * x.val)
    rw [abs_mul, abs_neg, abs_of_pos hl, abs_of_nonneg hx] at this
    exact this.trans (le_of_eq (mul_comm _ _))
  have h2 := ((hexp (-l * x)).lc hφ (Real.exp_pos _)).trans (lc_exp h1)
  refine LC.mono (((LC.refl hl).mul h2).rnd hu) ?_
  linarith

theorem mul_exp_neg_le (s : ℝ) : s * Real.exp (-s) ≤ 1 := by
  rw [Real.exp_neg, ← div_eq_mul_inv, div_le_one (Real.exp_pos _)]
  linarith [Real.add_one_le_exp s]

/-- **C118, distribution function of the exponential distribution**: absolute accuracy -/
theorem C118_expo_cdf (hu : R.u ≤ 1 / 10) (hφ : 0 ≤ φ) (hφ1 : φ ≤ 1) {exp : Fl R → Fl R}
    (hexp : ∀ x, Rel φ (exp x).val (Real.exp x.val)) (l x : Fl R) (hl : 0 < l.val) (hx : 0 ≤ x.val) :
    |(expoCdfG exp l x).val - (1 - Real.exp (-(l.val * x.val)))| ≤ φ + 3 * R.u := by
  have u0 := R.u_nonneg
  unfold expoCdfG
  rw [if_neg (not_lt.2 ((Fl.le_iff 0 x).2 hx))]
  set t := l.val * x.val with ht
  have ht0 : 0 ≤ t := mul_nonneg hl.le hx
  have h1 : |(-x * l).val - -t| ≤ R.u * t := by
    have := R.err (-x.val * l.val)
    rw [abs_mul, abs_neg, abs_of_pos hl, abs_of_nonneg hx, mul_comm x.val, ← ht] at this
    have e : -x.val * l.val = -t := by rw [ht]; ring
    change |R.rnd (-x.val * l.val) - -t| ≤ _
    rw [← e]
    exact this
  have h1' := abs_le.1 h1
  set y := (-x * l).val with hy
  have hy0 : y ≤ -((1 - R.u) * t) := by linarith
  have hys : y ≤ 0 := hy0.trans (neg_nonpos.2 (mul_nonneg (by linarith) ht0))
  have hE : Real.exp y ≤ 1 := Real.exp_le_one_iff.2 hys
  -- the argument
  have h2 : |Real.exp y - Real.exp (-t)| ≤ 10 / 9 * R.u := by
    have k1 : (1 - R.u) * t * Real.exp (-((1 - R.u) * t)) ≤ 1 := mul_exp_neg_le _
    have k2 : t * Real.exp (-((1 - R.u) * t)) ≤ 10 / 9 := by
      have : 0 ≤ t * Real.exp (-((1 - R.u) * t)) := mul_nonneg ht0 (Real.exp_pos _).le
      nlinarith
    have k3 : Real.exp (-t) ≤ Real.exp (-((1 - R.u) * t)) := Real.exp_le_exp.2 (by nlinarith)
    have k4 : Real.exp y ≤ Real.exp (-((1 - R.u) * t)) := Real.exp_le_exp.2 hy0
    have k5 : Real.exp y - Real.exp (-t) ≤ (y + t) * Real.exp y := by
      have e : Real.exp (-t) = Real.exp y * Real.exp (-(y + t)) := by rw [← Real.exp_add]; congr 1; ring
      have := Real.add_one_le_exp (-(y + t))
      have := mul_le_mul_of_nonneg_left this (Real.exp_pos y).le
      rw [e]; linarith
    have k6 : Real.exp (-t) - Real.exp y ≤ -(y + t) * Real.exp (-t) := by
      have e : Real.exp y = Real.exp (-t) * Real.exp (y + t) := by rw [← Real.exp_add]; congr 1; ring
      have := Real.add_one_le_exp (y + t)
      have := mul_le_mul_of_nonneg_left this (Real.exp_pos (-t)).le
      rw [e]; linarith
    have k7 : (y + t) * Real.exp y ≤ R.u * t * Real.exp (-((1 - R.u) * t)) :=
      mul_le_mul (by linarith) k4 (Real.exp_pos _).le (by positivity)
    have k8 : -(y + t) * Real.exp (-t) ≤ R.u * t * Real.exp (-((1 - R.u) * t)) :=
      mul_le_mul (by linarith) k3 (Real.exp_pos _).le (by positivity)
    have k9 : R.u * t * Real.exp (-((1 - R.u) * t)) ≤ 10 / 9 * R.u := by
      rw [mul_assoc]
      have := mul_le_mul_of_nonneg_left k2 u0
      linarith
    rw [abs_le]
    constructor <;> linarith
  obtain ⟨a1, a2⟩ := hexp (-x * l)
  rw [← hy] at a1 a2
  set w := (exp (-x * l)).val with hw
  have hw0 : 0 ≤ w := by
    by_contra hc
    have := mul_nonpos_of_nonneg_of_nonpos (by linarith : 0 ≤ 1 + φ) (not_le.1 hc).le
    linarith [Real.exp_pos y]
  have h3 : |w - Real.exp y| ≤ φ := by
    have k1 : φ * Real.exp y ≤ φ := by nlinarith
    rw [abs_le]
    constructor
    · by_cases hc : w ≤ Real.exp y
      · nlinarith
      · linarith
    · linarith
  have h4 : |1 - w| ≤ 1 := by
    rw [abs_le]
    have := abs_le.1 h3
    constructor <;> linarith
  have h5 := R.err (1 - w)
  have h6 : R.u * |1 - w| ≤ R.u := by nlinarith
  change |R.rnd (1 - w) - _| ≤ _
  have e : R.rnd (1 - w) - (1 - Real.exp (-t)) = (R.rnd (1 - w) - (1 - w)) - (w - Real.exp y) - (Real.exp y - Real.exp (-t)) := by ring
  rw [e]
  have := abs_sub ((R.rnd (1 - w) - (1 - w)) - (w - Real.exp y)) (Real.exp y - Real.exp (-t))
  have := abs_sub (R.rnd (1 - w) - (1 - w)) (w - Real.exp y)
  linarith

/-- a number that is less than half a unit below one is rounded to one -/
theorem round_one {p : ℕ} (hp : 1 ≤ p) {y : ℝ} (h1 : 1 - (1 / 2) ^ (p + 1) < y) (h2 : y ≤ 1) : (binary ℝ p hp).rnd y = 1 := by
  rcases h2.lt_or_eq with h2 | rfl
  · have hh : ((1 : ℝ) / 2) ^ (p + 1) ≤ 1 / 2 := by
      rw [pow_succ]
      have : ((1 : ℝ) / 2) ^ p ≤ 1 := pow_le_one₀ (by norm_num) (by norm_num)
      linarith
    have hy : 1 / 2 < y := by linarith
    have hl : Int.log 2 |y| = -1 := log_unique (by rw [abs_of_pos (by linarith)]; norm_num; linarith)
      (by rw [abs_of_pos (by linarith)]; norm_num; linarith)
    have hu : ulp p y = (1 / 2) ^ p := by
      rw [ulp, hl, show (-1 + 1 - (p : ℤ)) = -(p : ℤ) by ring, zpow_neg, zpow_natCast, one_div, inv_pow]
    have h3 : (0 : ℝ) < (1 / 2) ^ p := by positivity
    have h4 : ((1 : ℝ) / 2) ^ p * 2 ^ p = 1 := by rw [← mul_pow]; norm_num
    have h5 : y / ulp p y = y * 2 ^ p := by
      rw [hu, div_eq_iff h3.ne', mul_assoc, mul_comm (2 ^ p), h4, mul_one]
    have h6 : (2 : ℝ) ^ p - 1 / 2 < y * 2 ^ p := by
      have : (2 : ℝ) ^ p * (1 - (1 / 2) ^ (p + 1)) < 2 ^ p * y := mul_lt_mul_of_pos_left h1 (by positivity)
      rw [pow_succ, mul_sub, ← mul_assoc, mul_comm (2 ^ p), mul_comm (2 ^ p), h4] at this
      linarith
    have h7 : y * 2 ^ p < 2 ^ p := by
      have := mul_lt_mul_of_pos_right h2 (by positivity : (0 : ℝ) < 2 ^ p)
      linarith
    have h8 : ⌊y * 2 ^ p⌋ = 2 ^ p - 1 := by
      rw [Int.floor_eq_iff]
      push_cast
      constructor <;> linarith
    change roundBits p y = 1
    rw [roundBits, h5, hu, nearestEven, h8]
    push_cast
    rw [if_neg (by linarith), if_pos (by linarith)]
    push_cast
    rw [sub_add_cancel, mul_comm, h4]
  · exact binary_one hp

/-- **C118** is violated: the distribution function of the exponential distribution has no relative accuracy. With correctly rounded
functions and `p` bits (`53` for `f64`) it is zero for all `0 < λ x ≤ 2^-(p+2)`, although the probability is positive there. -/
theorem C118_expo_cdf_violated {p : ℕ} (hp : 1 ≤ p) (l x : Fl (binary ℝ p hp)) (hl : 0 < l.val) (hx : 0 < x.val)
    (h : l.val * x.val ≤ (1 / 2) ^ (p + 2)) :
    (expoCdfG (fun y => ⟨(binary ℝ p hp).rnd (Real.exp y.val)⟩) l x).val = 0 ∧ 0 < 1 - Real.exp (-(l.val * x.val)) := by
  have ht : 0 < l.val * x.val := mul_pos hl hx
  refine ⟨?_, by rw [sub_pos, Real.exp_lt_one_iff]; linarith⟩
  unfold expoCdfG
  rw [if_neg (not_lt.2 ((Fl.le_iff 0 x).2 hx.le))]
  have hu1 : (binary ℝ p hp).u ≤ 1 / 2 := by
    have : (binary ℝ p hp).u = (1 / 2) ^ p := by simp [binary]
    rw [this]
    exact (pow_le_pow_of_le_one (by norm_num) (by norm_num) hp).trans (by norm_num)
  have h1 := abs_le.1 ((binary ℝ p hp).err (-x.val * l.val))
  rw [show -x.val * l.val = -(l.val * x.val) by ring, abs_neg, abs_of_pos ht] at h1
  have hy : (-x * l).val = (binary ℝ p hp).rnd (-(l.val * x.val)) := by
    rw [show -(l.val * x.val) = -x.val * l.val by ring]; rfl
  have h2 : -(1 / 2) ^ (p + 1) < (-x * l).val ∧ (-x * l).val ≤ 0 := by
    rw [hy]
    have : ((1 : ℝ) / 2) ^ (p + 1) = 2 * (1 / 2) ^ (p + 2) := by rw [pow_succ _ (p + 1)]; ring
    rw [this]
    constructor <;> nlinarith
  have h3 : (binary ℝ p hp).rnd (Real.exp (-x * l).val) = 1 := by
    refine round_one hp ?_ (Real.exp_le_one_iff.2 h2.2)
    have := Real.add_one_le_exp (-x * l).val
    linarith [h2.1]
  change (binary ℝ p hp).rnd (1 - (binary ℝ p hp).rnd (Real.exp (-x * l).val)) = 0
  rw [h3, sub_self, rnd_zero]

/-- **C118, quantiles of the exponential distribution** -/
theorem C118_expo_quantile (hu : R.u ≤ 1 / 10) (hφ : 0 ≤ φ) (hφ1 : φ ≤ 1) {ln : Fl R → Fl R}
    (hln : ∀ x : Fl R, 0 < x.val → |(ln x).val - Real.log x.val| ≤ φ * |Real.log x.val|) (l p : Fl R) (hl : 0 < l.val)
    (hp : 0 ≤ p.val) (hp1 : p.val < 1) :
    |(expoQuantileG ln l p).val - -Real.log (1 - p.val) / l.val| ≤
      (2 * φ + R.u) * (-Real.log (1 - p.val) / l.val) + 3 * R.u / l.val := by
  have u0 := R.u_nonneg
  have h1 : LC R.u (1 - p).val (1 - p.val) := LC.lit (c := 1 - p.val) (by linarith) (by linarith)
  set L := Real.log (1 - p.val) with hL
  have hL0 : L ≤ 0 := Real.log_nonpos (by linarith) (by linarith)
  have h2 := hln _ h1.1
  have h3 := h1.2.2
  rw [← hL] at h3
  set y := Real.log (1 - p).val with hy
  set a := (ln (1 - p)).val with ha
  have h4 : |y| ≤ -L + R.u := by
    have := abs_sub_abs_le_abs_sub y L
    rw [abs_of_nonpos hL0] at this
    linarith
  have h5 : |a - L| ≤ φ * (-L + R.u) + R.u := by
    have := abs_sub_le a y L
    have := mul_le_mul_of_nonneg_left h4 hφ
    linarith
  have h6 : |-a / l.val - -L / l.val| ≤ (φ * (-L + R.u) + R.u) / l.val := by
    rw [← sub_div, abs_div, abs_of_pos hl, show -a - -L = -(a - L) by ring, abs_neg]
    exact div_le_div_of_nonneg_right h5 hl.le
  have h7 := R.err (-a / l.val)
  have h8 : |-a / l.val| ≤ -L / l.val + (φ * (-L + R.u) + R.u) / l.val := by
    have := abs_sub_abs_le_abs_sub (-a / l.val) (-L / l.val)
    rw [abs_of_nonneg (div_nonneg (by linarith) hl.le : 0 ≤ -L / l.val)] at this
    linarith
  change |R.rnd (-a / l.val) - -L / l.val| ≤ _
  have h9 := abs_sub_le (R.rnd (-a / l.val)) (-a / l.val) (-L / l.val)
  have h10 := mul_le_mul_of_nonneg_left h8 u0
  have e1 : (φ * (-L + R.u) + R.u) / l.val = φ * (-L / l.val) + (φ + 1) * (R.u / l.val) := by field_simp; ring
  rw [e1] at h10 h6
  have q0 : 0 ≤ -L / l.val := div_nonneg (by linarith) hl.le
  have v0 : 0 ≤ R.u / l.val := div_nonneg u0 hl.le
  rw [mul_div_assoc]
  set q := -L / l.val
  set v := R.u / l.val
  have g1 : R.u * (φ * q) ≤ 1 / 10 * (φ * q) := mul_le_mul_of_nonneg_right hu (mul_nonneg hφ q0)
  have g2 : R.u * ((φ + 1) * v) ≤ 1 / 10 * (2 * v) := by
    refine mul_le_mul hu (mul_le_mul_of_nonneg_right (by linarith) v0) (mul_nonneg (by linarith) v0) (by norm_num)
  have g3 : (φ + 1) * v ≤ 2 * v := mul_le_mul_of_nonneg_right (by linarith) v0
  nlinarith [mul_nonneg hφ q0]

/-! ### The uniform distribution -/

/-- **C118, density of the uniform distribution** -/
theorem C118_uniform_pdf (hu : R.u < 1) (a b x : Fl R) (h1 : a.val ≤ x.val) (h2 : x.val ≤ b.val) (hab : a.val < b.val) :
    LC (2 * R.u) (uniformPdfG a b x).val (1 / (b.val - a.val)) := by
  unfold uniformPdfG
  rw [if_pos ⟨(Fl.le_iff _ _).2 h1, (Fl.le_iff _ _).2 h2⟩]
  have := (((LC.refl one_pos).div (LC.lit hu (sub_pos.2 hab))).rnd hu)
  exact LC.mono this (by linarith)

/-- **C118, distribution function of the uniform distribution**: relative accuracy, and exactly zero at the lower end -/
theorem C118_uniform_cdf (hu : R.u < 1) (a b x : Fl R) (h1 : a.val ≤ x.val) (h2 : x.val ≤ b.val) (hab : a.val < b.val) :
    (a.val < x.val → LC (3 * R.u) (uniformCdfG a b x).val ((x.val - a.val) / (b.val - a.val))) ∧
      (a.val = x.val → (uniformCdfG a b x).val = 0) := by
  unfold uniformCdfG
  rw [if_neg (not_lt.2 ((Fl.le_iff _ _).2 h1)), if_neg (not_lt.2 ((Fl.le_iff _ _).2 h2))]
  constructor
  · intro h
    have := (((LC.lit hu (sub_pos.2 h)).div (LC.lit hu (sub_pos.2 hab))).rnd hu)
    exact LC.mono this (by linarith)
  · intro h
    change R.rnd (R.rnd (x.val - a.val) / R.rnd (b.val - a.val)) = 0
    rw [h, sub_self, rnd_zero, zero_div, rnd_zero]

/-- **C118, range of the distribution function of the uniform distribution**: with rounding to nearest the result is a probability. -/
theorem C118_uniform_range {p : ℕ} (hp : 1 ≤ p) (a b x : Fl (binary ℝ p hp)) (hab : a.val < b.val) :
    0 ≤ (uniformCdfG a b x).val ∧ (uniformCdfG a b x).val ≤ 1 := by
  unfold uniformCdfG
  have hu : (binary ℝ p hp).u < 1 := by
    have : (binary ℝ p hp).u = (1 / 2) ^ p := by simp [binary]
    rw [this]
    exact pow_lt_one₀ (by norm_num) (by norm_num) (by omega)
  split_ifs with h1 h2
  · exact ⟨le_rfl, zero_le_one⟩
  · exact ⟨zero_le_one, le_rfl⟩
  · have h1' : a.val ≤ x.val := (Fl.le_iff _ _).1 (not_lt.1 h1)
    have h2' : x.val ≤ b.val := (Fl.le_iff _ _).1 (not_lt.1 h2)
    change 0 ≤ (binary ℝ p hp).rnd ((binary ℝ p hp).rnd (x.val - a.val) / (binary ℝ p hp).rnd (b.val - a.val)) ∧
      (binary ℝ p hp).rnd ((binary ℝ p hp).rnd (x.val - a.val) / (binary ℝ p hp).rnd (b.val - a.val)) ≤ 1
    have hb := (LC.lit hu (sub_pos.2 hab)).1
    rcases h1'.lt_or_eq with h3 | h3
    · have ha := (LC.lit hu (sub_pos.2 h3)).1
      have hq : 0 < (binary ℝ p hp).rnd (x.val - a.val) / (binary ℝ p hp).rnd (b.val - a.val) := div_pos ha hb
      refine ⟨(LC.lit hu hq).1.le, ?_⟩
      rw [← binary_one hp]
      refine roundBits_mono hp hq ?_
      rw [div_le_one hb]
      exact roundBits_mono hp (sub_pos.2 h3) (by linarith)
    · rw [h3, sub_self, rnd_zero, zero_div, rnd_zero]
      exact ⟨le_rfl, zero_le_one⟩

/-- **C118, quantiles of the uniform distribution** -/
theorem C118_uniform_quantile (hu : R.u ≤ 1 / 10) (a b q : Fl R) (h0 : 0 ≤ q.val) (h1 : q.val ≤ 1) (hab : a.val ≤ b.val) :
    ∃ v : Fl R, uniformQuantileG a b q = some v ∧
      |v.val - (q.val * (b.val - a.val) + a.val)| ≤ R.u * |q.val * (b.val - a.val) + a.val| + 3 * R.u * (b.val - a.val) := by
  have u0 := R.u_nonneg
  refine ⟨q * (b - a) + a, ?_, ?_⟩
  · unfold uniformQuantileG
    rw [if_neg]
    rintro (h | h)
    · exact absurd ((Fl.le_iff _ _).2 h1) (not_le.2 h)
    · exact absurd ((Fl.le_iff _ _).2 h0) (not_le.2 h)
  · set d := b.val - a.val with hd
    have d0 : 0 ≤ d := sub_nonneg.2 hab
    have e1 : |(b - a).val - d| ≤ R.u * d := by
      have := R.err d
      rwa [abs_of_nonneg d0] at this
    set d' := (b - a).val with hd'
    have e2 : |q.val * d' - q.val * d| ≤ R.u * d := by
      rw [← mul_sub, abs_mul, abs_of_nonneg h0]
      have := mul_le_mul h1 e1 (abs_nonneg _) zero_le_one
      linarith
    have e3 : |q.val * d'| ≤ d + R.u * d := by
      have k := abs_sub_abs_le_abs_sub (q.val * d') (q.val * d)
      have : |q.val * d| ≤ d := by
        rw [abs_of_nonneg (mul_nonneg h0 d0)]
        nlinarith
      linarith
    have e4 := R.err (q.val * d')
    set m := (q * (b - a)).val with hm
    have e5 : |m - q.val * d| ≤ 21 / 10 * (R.u * d) := by
      have k := abs_sub_le m (q.val * d') (q.val * d)
      have k2 : |m - q.val * d'| ≤ R.u * |q.val * d'| := e4
      have k3 := mul_le_mul_of_nonneg_left e3 u0
      have k4 : R.u * (R.u * d) ≤ 1 / 10 * (R.u * d) := mul_le_mul_of_nonneg_right hu (mul_nonneg u0 d0)
      linarith
    have e6 := R.err (m + a.val)
    change |R.rnd (m + a.val) - _| ≤ _
    have k := abs_sub_le (R.rnd (m + a.val)) (m + a.val) (q.val * d + a.val)
    have k2 : m + a.val - (q.val * d + a.val) = m - q.val * d := by ring
    rw [k2] at k
    have k3 : |m + a.val| ≤ |q.val * d + a.val| + 21 / 10 * (R.u * d) := by
      have := abs_sub_abs_le_abs_sub (m + a.val) (q.val * d + a.val)
      rw [k2] at this
      linarith
    have k4 := mul_le_mul_of_nonneg_left k3 u0
    have k5 : R.u * (21 / 10 * (R.u * d)) ≤ 1 / 10 * (21 / 10 * (R.u * d)) :=
      mul_le_mul_of_nonneg_right hu (by positivity)
    linarith [mul_nonneg u0 d0]

/-- **C118** is violated: a quantile of the uniform distribution can lie outside of the interval. In `f64` the quantile `q = 1` for
`a = -1` and `b = 3 / 2^53` is `4 / 2^53 > b`. -/
theorem C118_uniform_quantile_violated : uniformQuantileG (⟨-1⟩ : Fl f64) ⟨3 / 2 ^ 53⟩ 1 = some ⟨4 / 2 ^ 53⟩ ∧
    f64.rnd (3 / 2 ^ 53) = 3 / 2 ^ 53 := by decide +kernel

theorem rel_rnd (hu : R.u < 1) {x : ℝ} (hx : 0 ≤ x) : Rel R.u (R.rnd x) x := by
  have := Near.of_rnd hu hx
  simpa [Rel] using this.2

/-- with correctly rounded functions and 53 bits: the density of the exponential distribution with `λ = 2` at `x = 3` is accurate to
`8 / 2^53` -/
example (p : ℕ) (hp : 1 ≤ p) (h53 : p = 53) :
    LC (8 / 2 ^ 53) (expoPdfG (fun y => ⟨(binary ℝ p hp).rnd (Real.exp y.val)⟩) (⟨2⟩ : Fl (binary ℝ p hp)) ⟨3⟩).val (2 * Real.exp (-6)) := by
  have hu : (binary ℝ p hp).u = 1 / 2 ^ 53 := by subst h53; norm_num [binary]
  have := C118_expo_pdf (φ := (binary ℝ p hp).u) (by rw [hu]; norm_num) (binary ℝ p hp).u_nonneg
    (exp := fun y => ⟨(binary ℝ p hp).rnd (Real.exp y.val)⟩) (fun x => rel_rnd (by rw [hu]; norm_num) (Real.exp_pos _).le)
    ⟨2⟩ ⟨3⟩ (by norm_num) (by norm_num)
  rw [show (-2 * 3 : ℝ) = -6 by norm_num] at this
  refine this.mono ?_
  rw [hu]
  norm_num

/-- the distribution function for `λ = 1` at `2^-60` is zero with 53 bits -/
example : (expoCdfG (fun y => ⟨(binary ℝ 53 (by norm_num)).rnd (Real.exp y.val)⟩) (⟨1⟩ : Fl (binary ℝ 53 (by norm_num))) ⟨1 / 2 ^ 60⟩).val = 0 :=
  (C118_expo_cdf_violated (by norm_num) _ _ (by norm_num) (by norm_num) (by norm_num)).1

/-- the distribution function of the uniform distribution on `[1, 4]` at `2` is accurate to `3 u` -/
example (hu : R.u < 1) : LC (3 * R.u) (uniformCdfG (⟨1⟩ : Fl R) ⟨4⟩ ⟨2⟩).val (1 / 3) := by
  have := (C118_uniform_cdf hu (⟨1⟩ : Fl R) ⟨4⟩ ⟨2⟩ (by norm_num) (by norm_num) (by norm_num)).1 (by norm_num)
  norm_num at this ⊢
  exact this

/-! ### The normal distribution -/

theorem lc_abs {x : ℝ} (hx : x ≠ 0) : LC R.u |R.rnd x| |x| := by
  refine LC.of_rel R.u_nonneg (abs_pos.2 hx) ?_ ?_
  · have := abs_sub_abs_le_abs_sub (R.rnd x) x
    linarith [R.err x]
  · have := abs_sub_abs_le_abs_sub x (R.rnd x)
    rw [abs_sub_comm] at this
    linarith [R.err' x]

/-- the exponent of the density -/
theorem normal_arg (hφ : 0 ≤ φ) (h5 : φ + 5 * R.u ≤ 1 / 2) {sq : Fl R → Fl R} (hsq : ∀ x, Rel φ (sq x).val (x.val ^ 2))
    (m v x : Fl R) (hv : 0 < v.val) :
    |(-0.5 * sq ((x - m) / v)).val - -(1 / 2 * ((x.val - m.val) / v.val) ^ 2)| ≤
      (2 * φ + 10 * R.u) * (1 / 2 * ((x.val - m.val) / v.val) ^ 2) := by
  have u0 := R.u_nonneg
  have hu : R.u < 1 := by linarith
  have h1 := hsq ((x - m) / v)
  set s := (sq ((x - m) / v)).val with hs
  have hval : (-0.5 * sq ((x - m) / v)).val = R.rnd (-(R.rnd 0.5) * s) := rfl
  rw [hval]
  have hq : ((x - m) / v).val = R.rnd (R.rnd (x.val - m.val) / v.val) := rfl
  rw [hq] at h1
  by_cases hx : x.val - m.val = 0
  · rw [hx, R.rnd_zero, zero_div, R.rnd_zero] at h1
    have : s = 0 := by
      obtain ⟨a, b⟩ := h1
      norm_num at a b
      have : 0 ≤ s := by
        by_contra hc
        have := mul_neg_of_pos_of_neg (by linarith : 0 < 1 + φ) (not_le.1 hc)
        linarith
      linarith
    rw [this, mul_zero, R.rnd_zero, hx]
    norm_num
  · have a1 := lc_abs (R := R) hx
    have a2 : LC R.u (|R.rnd (x.val - m.val)| / v.val) (|x.val - m.val| / v.val) := by
      simpa using a1.div (LC.refl hv)
    have hne : R.rnd (x.val - m.val) / v.val ≠ 0 := div_ne_zero (abs_pos.1 a1.1) hv.ne'
    have a3 := lc_abs (R := R) hne
    rw [abs_div, abs_of_pos hv] at a3
    have a4 := a3.trans a2
    have a5 := a4.mul a4
    rw [abs_mul_abs_self, ← pow_two] at a5
    have a6 := ((h1.lc hφ a5.1).trans a5)
    have a7 := (LC.lit hu (by norm_num : (0 : ℝ) < 0.5)).mul a6
    have eZ : (0.5 : ℝ) * (|x.val - m.val| / v.val * (|x.val - m.val| / v.val)) = 1 / 2 * ((x.val - m.val) / v.val) ^ 2 := by
      rw [div_mul_div_comm, abs_mul_abs_self]
      field_simp
      norm_num
    rw [eZ] at a7
    set Z := 1 / 2 * ((x.val - m.val) / v.val) ^ 2 with hZ
    have hZ0 := a7.2.1
    have a8 : LC (φ + 5 * R.u) (R.rnd 0.5 * s) Z := a7.mono (by linarith)
    set y := R.rnd 0.5 * s with hy
    have a9 := a8.abs_sub_le (by linarith)
    set ε := φ + 5 * R.u with hε
    have ε0 : 0 ≤ ε := by linarith
    have a10 : (ε + ε ^ 2) * Z ≤ 3 / 2 * ε * Z := mul_le_mul_of_nonneg_right (by nlinarith) hZ0.le
    have a11 : |y| ≤ 7 / 4 * Z := by
      rw [abs_of_pos a8.1]
      have := (abs_le.1 a9).2
      nlinarith
    have a12 := R.err (-R.rnd 0.5 * s)
    rw [show -R.rnd 0.5 * s = -y by rw [hy]; ring] at a12 ⊢
    rw [abs_neg] at a12
    have a13 := abs_sub_le (R.rnd (-y)) (-y) (-Z)
    rw [show -y - -Z = -(y - Z) by ring, abs_neg] at a13
    have a14 := mul_le_mul_of_nonneg_left a11 u0
    nlinarith [mul_nonneg u0 hZ0.le, mul_nonneg hφ hZ0.le]

/-- **C118, density of the normal distribution.** The computed value is close to the value of the formula in the code; for which
variances the formula is the density is C58. -/
theorem C118_normal_pdf (hφ : 0 ≤ φ) (h5 : φ + 5 * R.u ≤ 1 / 2) {pi : Fl R} (hpi : pi.val = R.rnd Real.pi)
    {sqrt exp sq : Fl R → Fl R} (hsqrt : ∀ x : Fl R, 0 < x.val → Rel φ (sqrt x).val (Real.sqrt x.val))
    (hexp : ∀ x, Rel φ (exp x).val (Real.exp x.val)) (hsq : ∀ x, Rel φ (sq x).val (x.val ^ 2)) (m v x : Fl R) (hv : 0 < v.val) :
    LC (2 * φ + 4 * R.u + (2 * φ + 10 * R.u) * (1 / 2 * ((x.val - m.val) / v.val) ^ 2)) (normalPdfG pi sqrt exp sq m v x).val
      (1 / Real.sqrt (v.val * 2 * Real.pi) * Real.exp (-(1 / 2 * ((x.val - m.val) / v.val) ^ 2))) := by
  have u0 := R.u_nonneg
  have hu : R.u < 1 := by linarith
  have h1 := ((hexp (-0.5 * sq ((x - m) / v))).lc hφ (Real.exp_pos _)).trans (lc_exp (normal_arg hφ h5 hsq m v x hv))
  have h2 := ((LC.refl hv).mul (two_lc hu)).rnd hu
  have h3 : LC R.u pi.val Real.pi := by rw [hpi]; exact LC.lit hu Real.pi_pos
  have h4 := (h2.mul h3).rnd hu
  have h5 := ((hsqrt (v * 2.0 * pi) h4.1).lc hφ (Real.sqrt_pos.2 h4.1)).trans h4.sqrt
  have h6 := ((LC.refl one_pos).div h5).rnd hu
  exact LC.mono ((h6.mul h1).rnd hu) (by linarith)

/-- the standard normal density at `1` with correctly rounded functions: `12 u` -/
example (hu : R.u ≤ 1 / 12) : LC (12 * R.u) (normalPdfG (⟨R.rnd Real.pi⟩ : Fl R) (fun y => ⟨R.rnd (Real.sqrt y.val)⟩)
    (fun y => ⟨R.rnd (Real.exp y.val)⟩) (fun y => ⟨R.rnd (y.val ^ 2)⟩) 0 1 1).val (1 / Real.sqrt (2 * Real.pi) * Real.exp (-(1 / 2))) := by
  have hu1 : R.u < 1 := by linarith
  have := C118_normal_pdf (R := R) (φ := R.u) R.u_nonneg (by linarith) (pi := ⟨R.rnd Real.pi⟩) rfl
    (sqrt := fun y => ⟨R.rnd (Real.sqrt y.val)⟩) (exp := fun y => ⟨R.rnd (Real.exp y.val)⟩) (sq := fun y => ⟨R.rnd (y.val ^ 2)⟩)
    (fun x _ => rel_rnd hu1 (Real.sqrt_nonneg _)) (fun x => rel_rnd hu1 (Real.exp_pos _).le) (fun x => rel_rnd hu1 (sq_nonneg _))
    0 1 1 zero_lt_one
  have e1 : (1 : Fl R).val = 1 := rfl
  have e0 : (0 : Fl R).val = 0 := rfl
  rw [e1, e0] at this
  norm_num at this ⊢
  exact this.mono (by linarith)

/-! ### The Poisson and the binomial distribution -/

/-- **C118, Poisson distribution** -/
theorem C118_poisson (hu : R.u < 1) (hφ : 0 ≤ φ) {exp : Fl R → Fl R} (hexp : ∀ x, Rel φ (exp x).val (Real.exp x.val))
    {pow : Fl R → Fl R → Fl R} (hpow : ∀ x y : Fl R, 0 < x.val → Rel φ (pow x y).val (x.val ^ y.val)) (g : Fl R) (hg : 0 < g.val)
    (x : ℕ) (hx : x ≤ 20) :
    ∃ v : Fl R, poissonPmfG exp pow g x = some v ∧
      LC (2 * φ + (3 + x * |Real.log g.val|) * R.u) v.val (g.val ^ x * Real.exp (-g.val) / x.factorial) := by
  have u0 := R.u_nonneg
  refine ⟨_, by unfold poissonPmfG; rw [factorial_of_le hx]; rfl, ?_⟩
  have h1 : |(x : Fl R).val - x| ≤ R.u * x := by
    have := R.err (x : ℝ)
    rwa [abs_of_nonneg (by positivity : (0 : ℝ) ≤ x)] at this
  have h2 := ((hpow g (x : Fl R) hg).lc hφ (Real.rpow_pos_of_pos hg _)).trans ((LC.refl hg).rpow h1)
  rw [Real.rpow_natCast] at h2
  have h3 := (hexp (-g)).lc hφ (Real.exp_pos _)
  have hk : LC R.u ((x.factorial : ℕ) : Fl R).val (x.factorial : ℝ) := LC.lit hu (by exact_mod_cast x.factorial_pos)
  exact LC.mono ((((h2.mul h3).rnd hu).div hk).rnd hu) (by linarith)

/-- the error of one probability of the binomial distribution -/
theorem C118_binomial (hu : R.u < 1) (hφ : 0 ≤ φ) {pow : Fl R → Fl R → Fl R}
    (hpow : ∀ x y : Fl R, 0 < x.val → Rel φ (pow x y).val (x.val ^ y.val)) (n x : ℕ) (hn : n ≤ 20) (hx : x ≤ n) (p : Fl R)
    (hp : 0 < p.val) (hp1 : p.val < 1) :
    ∃ v : Fl R, binomialPmfG pow n p x = some v ∧
      LC (2 * φ + (3 + x * |Real.log p.val| + (n - x : ℕ) * (2 + |Real.log (1 - p.val)|)) * R.u) v.val
        (n.choose x * p.val ^ x * (1 - p.val) ^ (n - x)) := by
  have u0 := R.u_nonneg
  refine ⟨_, by unfold binomialPmfG; rw [if_neg (by omega), C53_binom, if_pos ⟨hx, hn⟩]; rfl, ?_⟩
  have hc : ∀ k : ℕ, |(k : Fl R).val - k| ≤ R.u * k := fun k => by
    have := R.err (k : ℝ)
    rwa [abs_of_nonneg (by positivity : (0 : ℝ) ≤ k)] at this
  have h2 := ((hpow p (x : Fl R) hp).lc hφ (Real.rpow_pos_of_pos hp _)).trans ((LC.refl hp).rpow (hc x))
  have h3 : LC R.u (1 - p).val (1 - p.val) := LC.lit (c := 1 - p.val) hu (by linarith)
  have h4 := ((hpow (1 - p) ((n - x : ℕ) : Fl R) h3.1).lc hφ (Real.rpow_pos_of_pos h3.1 _)).trans (h3.rpow (hc (n - x)))
  rw [Real.rpow_natCast] at h2 h4
  have h5 : LC R.u ((n.choose x : ℕ) : Fl R).val (n.choose x : ℝ) := LC.lit hu (by exact_mod_cast Nat.choose_pos hx)
  have h6 : |((n - x : ℕ) : Fl R).val| ≤ 2 * (n - x : ℕ) := by
    have := abs_sub_abs_le_abs_sub ((n - x : ℕ) : Fl R).val ((n - x : ℕ) : ℝ)
    rw [abs_of_nonneg (by positivity : (0 : ℝ) ≤ (n - x : ℕ))] at this
    have k := hc (n - x)
    have : R.u * ((n - x : ℕ) : ℝ) ≤ 1 * ((n - x : ℕ) : ℝ) := mul_le_mul_of_nonneg_right hu.le (by positivity)
    linarith
  refine LC.mono ((((h5.mul h2).rnd hu).mul h4).rnd hu) ?_
  have h7 := mul_le_mul_of_nonneg_right h6 u0
  linarith

/-- **C118, distribution function of the binomial distribution**: all terms are positive, so the sum is as accurate as its terms. -/
theorem C118_binomial_cdf (hu : R.u < 1) (hφ : 0 ≤ φ) {pow : Fl R → Fl R → Fl R}
    (hpow : ∀ x y : Fl R, 0 < x.val → Rel φ (pow x y).val (x.val ^ y.val)) {floor : Fl R → ℕ} (n : ℕ) (hn : n ≤ 20) (p x : Fl R)
    (hp : 0 < p.val) (hp1 : p.val < 1) (hx : floor x + 1 < 2 ^ 32) :
    ∃ v : Fl R, binomialCdfG floor pow n p x = some v ∧
      LC (2 * φ + (3 + n * (2 + |Real.log p.val| + |Real.log (1 - p.val)|) + (floor x + 1)) * R.u) v.val
        (∑ k ∈ range (floor x + 1), (n.choose k : ℝ) * p.val ^ k * (1 - p.val) ^ (n - k)) := by
  have u0 := R.u_nonneg
  set E := 2 * φ + (3 + n * (2 + |Real.log p.val| + |Real.log (1 - p.val)|)) * R.u with hE
  have lp := abs_nonneg (Real.log p.val)
  have lq := abs_nonneg (Real.log (1 - p.val))
  have hpmf : ∀ k, k ≤ n → ∃ v : Fl R, binomialPmfG pow n p k = some v ∧
      LC E v.val (n.choose k * p.val ^ k * (1 - p.val) ^ (n - k)) := by
    intro k hk
    obtain ⟨v, h1, h2⟩ := C118_binomial hu hφ hpow n k hn hk p hp hp1
    refine ⟨v, h1, h2.mono ?_⟩
    have e : ((n - k : ℕ) : ℝ) = n - k := by push_cast [hk]; ring
    have k0 : (0 : ℝ) ≤ k := by positivity
    have kn : (k : ℝ) ≤ n := by exact_mod_cast hk
    rw [hE, e]
    refine add_le_add le_rfl (mul_le_mul_of_nonneg_right ?_ u0)
    nlinarith [mul_nonneg k0 lq, mul_nonneg (sub_nonneg.2 kn) lp, mul_nonneg (sub_nonneg.2 kn) lq, mul_nonneg k0 lp]
  have h0 : (0 : Fl R).val = 0 := rfl
  obtain ⟨v, h1, h2⟩ := forRange_inv (a := 0) (b := floor x + 1) (s := (0 : Fl R)) (f := fun (prob : Fl R) k => do
      let q ← binomialPmfG pow n p k
      some (prob + q))
    (fun i s => (i = 0 ∧ s.val = 0) ∨ (0 < i ∧ LC (E + i * R.u) s.val
      (∑ k ∈ range i, (n.choose k : ℝ) * p.val ^ k * (1 - p.val) ^ (n - k)))) (by omega) (Or.inl ⟨rfl, h0⟩) (by
      intro i s _ _ hs
      by_cases hi : i ≤ n
      · obtain ⟨w, w1, w2⟩ := hpmf i hi
        refine ⟨s + w, by simp only [w1, Option.bind_eq_bind, Option.bind_some], Or.inr ⟨by omega, ?_⟩⟩
        change LC _ (R.rnd (s.val + w.val)) _
        rw [sum_range_succ]
        rcases hs with ⟨rfl, hs⟩ | ⟨hi0, hs⟩
        · rw [hs, zero_add, range_zero, sum_empty, zero_add]
          have e1 : (((0 + 1 : ℕ)) : ℝ) = 1 := by norm_num
          rw [e1, one_mul]
          rw [zero_add]
          exact w2.rnd hu
        · have : 0 ≤ (i : ℝ) * R.u := by positivity
          exact ((hs.add (w2.mono (by linarith))).rnd hu).mono (by push_cast; linarith)
      · have e : binomialPmfG pow n p i = some 0 := by unfold binomialPmfG; rw [if_pos (by omega)]
        refine ⟨s + 0, by simp only [e, Option.bind_eq_bind, Option.bind_some], Or.inr ⟨by omega, ?_⟩⟩
        change LC _ (R.rnd (s.val + 0)) _
        rw [sum_range_succ, Nat.choose_eq_zero_of_lt (by omega), Nat.cast_zero, zero_mul, zero_mul, add_zero, add_zero]
        rcases hs with ⟨rfl, -⟩ | ⟨-, hs⟩
        · omega
        · exact (hs.rnd hu).mono (by push_cast; linarith))
  rcases h2 with ⟨h, -⟩ | ⟨-, h2⟩
  · omega
  · refine ⟨v, by unfold binomialCdfG; rw [if_pos hx]; exact h1, h2.mono ?_⟩
    rw [hE]
    push_cast
    linarith

/-- three heads in five tosses of a fair coin with correctly rounded powers: `5 / 16` up to `15 u` -/
example (hu : R.u < 1) : ∃ v : Fl R, binomialPmfG (fun a b => ⟨R.rnd (a.val ^ b.val)⟩) 5 (⟨1 / 2⟩ : Fl R) 3 = some v ∧
    LC (15 * R.u) v.val (5 / 16) := by
  obtain ⟨v, h1, h2⟩ := C118_binomial (φ := R.u) hu R.u_nonneg (pow := fun a b => ⟨R.rnd (a.val ^ b.val)⟩)
    (fun x y h => rel_rnd hu (Real.rpow_nonneg h.le _)) 5 3 (by norm_num) (by norm_num) ⟨1 / 2⟩ (by norm_num) (by norm_num)
  refine ⟨v, h1, ?_⟩
  have e : ((5).choose 3 : ℝ) * (1 / 2) ^ 3 * (1 - 1 / 2) ^ (5 - 3) = 5 / 16 := by norm_num [Nat.choose]
  rw [e] at h2
  refine h2.mono ?_
  have hl : |Real.log (1 / 2)| ≤ 1 := by
    rw [one_div, Real.log_inv, abs_neg, abs_of_pos (Real.log_pos (by norm_num))]
    linarith [Real.log_two_lt_d9]
  have hl2 : |Real.log (1 - 1 / 2)| ≤ 1 := by norm_num at hl ⊢; exact hl
  have u0 := R.u_nonneg
  have : (3 : ℝ) + (3 : ℕ) * |Real.log (1 / 2)| + (5 - 3 : ℕ) * (2 + |Real.log (1 - 1 / 2)|) ≤ 13 := by
    push_cast
    norm_num at hl hl2 ⊢
    linarith
  have := mul_le_mul_of_nonneg_right this u0
  linarith

end Stat
end Verif
