import Verif.QuantTabN3
import Verif.NormalProps
import Verif.LogNormalProps
import Mathlib.Analysis.Real.Pi.Bounds
import Mathlib.Analysis.Complex.ExponentialBounds

/-!
# C58, C69: the accuracy of the quantiles

The rational functions of `normal.rs` are within `10⁻¹¹` (relative to the smaller of `p` and `1 - p`) of inverting the
normal distribution function, for every probability a normalised double can represent.
-/

namespace Verif
namespace PC
open Set Filter

/-- integer values -/
def evZ : List ℤ → ℤ → ℤ
  | [], _ => 0
  | c :: p, x => c + x * evZ p x

theorem ev_int (p : List ℤ) (y : ℤ) : ev p (y : ℝ) = (evZ p y : ℤ) := by
  induction p with
  | nil => simp [ev, evZ]
  | cons a p ih => simp only [ev, evZ, ih]; push_cast; ring

theorem exp_lower {w b : ℝ} (hw : 0 ≤ w) (h : b ≤ ∑ i ∈ Finset.range 20, w ^ i / (i.factorial : ℝ)) : b ≤ Real.exp w :=
  h.trans (Real.sum_le_exp_of_nonneg hw 20)

theorem exp_upper {w b : ℝ} (hw : 0 ≤ w) (hw1 : w ≤ 1) (h : ∑ i ∈ Finset.range 20, w ^ i / (i.factorial : ℝ) +
    w ^ 20 * (20 + 1) / ((20).factorial * 20) ≤ b) : Real.exp w ≤ b := by
  refine le_trans (Real.exp_bound' hw hw1 (by norm_num : 0 < 20)) ?_
  push_cast; push_cast at h; exact h

theorem tG_anchor {κ N : ℤ} {C D : List ℤ} {y z ρ c : ℝ} (hN : 0 < N) (hy : 0 < y) (hD : 0 < ev D y)
    (hW : 0 < ev (tW C D) y) (hc : 0 < c) (hz : y ^ 2 / N ^ 2 - κ * ev C y ^ 2 / (2 * ev D y ^ 2) = z)
    (hρ : ev (tW C D) y * N ^ 2 / (2 * ev D y ^ 2 * y) = ρ) :
    tG κ N C D y + Real.log (c * N ^ 2 / 2) = Real.log (c * (Real.exp z * ρ)) := by
  have hNr : (0 : ℝ) < N := by exact_mod_cast hN
  have hρ0 : 0 < ρ := by rw [← hρ]; positivity
  have l1 : Real.log (c * N ^ 2 / 2) = Real.log c + 2 * Real.log N - Real.log 2 := by
    rw [Real.log_div (by positivity) (by positivity), Real.log_mul (by positivity) (by positivity), Real.log_pow]
    push_cast; ring
  have l2 : Real.log ρ = Real.log (ev (tW C D) y) + 2 * Real.log N - (Real.log 2 + 2 * Real.log (ev D y) + Real.log y) := by
    rw [← hρ, Real.log_div (by positivity) (by positivity), Real.log_mul (by positivity) (by positivity),
      Real.log_mul (by positivity) (by positivity), Real.log_mul (by positivity) (by positivity), Real.log_pow, Real.log_pow]
    push_cast; ring
  rw [tG, hz, Real.log_mul hc.ne' (by positivity), Real.log_mul (Real.exp_pos z).ne' hρ0.ne', Real.log_exp, l1, l2]
  ring

theorem cG_anchor {κ N : ℤ} {A B : List ℤ} {y c : ℝ} (hB : 0 < ev B y) (hW : 0 < ev (cW A B) y) (hc : 0 < c) :
    cG κ N A B y + Real.log c =
      Real.log (c * (ev (cW A B) y / ev B y ^ 2)) - κ * y * ev A y ^ 2 / (2 * N * ev B y ^ 2) := by
  rw [cG, Real.log_mul hc.ne' (by positivity), Real.log_div (by positivity) (by positivity), Real.log_pow]
  push_cast
  ring

theorem sqrt_two_pi : 2.5066282746310005 ≤ √(2 * Real.pi) ∧ √(2 * Real.pi) ≤ 2.5066282746310006 := by
  have h1 := Real.pi_gt_d20
  have h2 := Real.pi_lt_d20
  constructor
  · apply Real.le_sqrt_of_sq_le; norm_num; linarith
  · rw [Real.sqrt_le_left (by norm_num)]; norm_num; linarith

theorem exp4_bounds {z wl wh el eh : ℝ} (h1 : 4 * wl ≤ z) (h2 : z ≤ 4 * wh) (he : el ≤ Real.exp wl) (hh : Real.exp wh ≤ eh)
    (he0 : 0 ≤ el) : el ^ 4 ≤ Real.exp z ∧ Real.exp z ≤ eh ^ 4 := by
  constructor
  · refine le_trans (pow_le_pow_left₀ he0 he 4) ?_
    rw [← Real.exp_nat_mul]
    exact Real.exp_le_exp.2 (by push_cast; exact h1)
  · refine le_trans ?_ (pow_le_pow_left₀ (Real.exp_pos _).le hh 4)
    rw [← Real.exp_nat_mul]
    exact Real.exp_le_exp.2 (by push_cast; exact h2)

/-- `|v / √(2π) - 1| ≤ 10⁻¹³` from a decimal bound of `v` -/
theorem near_sqrt_two_pi {v : ℝ} (h1 : 2.5066282746309 ≤ v) (h2 : v ≤ 2.5066282746311) :
    |1 / √(2 * Real.pi) * v - 1| ≤ 1e-13 := by
  obtain ⟨a, b⟩ := sqrt_two_pi
  have h0 : 0 < √(2 * Real.pi) := by linarith
  rw [one_div_mul_eq_div, div_sub_one h0.ne', abs_div, abs_of_pos h0, div_le_iff₀ h0, abs_le]
  constructor <;> linarith

/-! ## Values of the polynomials at the ends of the ranges -/

theorem n1_A_0 : ev (n1A) 0 = 235669387181021195919596883473175365885283797979354858398437500000000000000 := by
  have h := ev_int (n1A) 0
  rw [show evZ (n1A) 0 = 235669387181021195919596883473175365885283797979354858398437500000000000000 by decide +kernel] at h
  push_cast at h
  exact h

theorem n1_B_0 : ev (n1B) 0 = 94018482742804754847553198637076808123625814914703369140625000000000000000 := by
  have h := ev_int (n1B) 0
  rw [show evZ (n1B) 0 = 94018482742804754847553198637076808123625814914703369140625000000000000000 by decide +kernel] at h
  push_cast at h
  exact h

theorem n1_W_0 : ev (cW n1A n1B) 0 = 22157278211686213420256638866035022892962473256516863799517479042277925458435384603594897612310887780040502548217773437500000000000000000000000000000 := by
  have h := ev_int (cW n1A n1B) 0
  rw [show evZ (cW n1A n1B) 0 = 22157278211686213420256638866035022892962473256516863799517479042277925458435384603594897612310887780040502548217773437500000000000000000000000000000 by decide +kernel] at h
  push_cast at h
  exact h

theorem n2_A_16000 : ev (n2A) 16000 = 355859277687420894335000000000000000000000000000000000000 := by
  have h := ev_int (n2A) 16000
  rw [show evZ (n2A) 16000 = 355859277687420894335000000000000000000000000000000000000 by decide +kernel] at h
  push_cast at h
  exact h

theorem n2_B_16000 : ev (n2B) 16000 = 250000000000000000000000000000000000000000000000000000000 := by
  have h := ev_int (n2B) 16000
  rw [show evZ (n2B) 16000 = 250000000000000000000000000000000000000000000000000000000 by decide +kernel] at h
  push_cast at h
  exact h

theorem n2_W_16000 : ev (tW n2A n2B) 16000 = 10673429308249067612487710840002216072338750000000000000000000000000000000000000000000000000000000000000000000 := by
  have h := ev_int (tW n2A n2B) 16000
  rw [show evZ (tW n2A n2B) 16000 = 10673429308249067612487710840002216072338750000000000000000000000000000000000000000000000000000000000000000000 by decide +kernel] at h
  push_cast at h
  exact h

theorem n2_A_50000 : ev (n2A) 50000 = 136509769442618591711503542080704000000000000000000000000000 := by
  have h := ev_int (n2A) 50000
  rw [show evZ (n2A) 50000 = 136509769442618591711503542080704000000000000000000000000000 by decide +kernel] at h
  push_cast at h
  exact h

theorem n2_B_50000 : ev (n2B) 50000 = 20503413123506980832880181939041985664000000000000000000000 := by
  have h := ev_int (n2B) 50000
  rw [show evZ (n2B) 50000 = 20503413123506980832880181939041985664000000000000000000000 by decide +kernel] at h
  push_cast at h
  exact h

theorem n2_W_50000 : ev (tW n2A n2B) 50000 = 61804018487068533659437122462721287082985480164359482765090001612800000000000000000000000000000000000000000000000 := by
  have h := ev_int (tW n2A n2B) 50000
  rw [show evZ (tW n2A n2B) 50000 = 61804018487068533659437122462721287082985480164359482765090001612800000000000000000000000000000000000000000000000 by decide +kernel] at h
  push_cast at h
  exact h

theorem n3_A_50000 : ev (n3A) 50000 = 1664476160875275944300000000000000000000000000000000000000000000 := by
  have h := ev_int (n3A) 50000
  rw [show evZ (n3A) 50000 = 1664476160875275944300000000000000000000000000000000000000000000 by decide +kernel] at h
  push_cast at h
  exact h

theorem n3_B_50000 : ev (n3B) 50000 = 250000000000000000000000000000000000000000000000000000000000000 := by
  have h := ev_int (n3B) 50000
  rw [show evZ (n3B) 50000 = 250000000000000000000000000000000000000000000000000000000000000 by decide +kernel] at h
  push_cast at h
  exact h

theorem n3_W_50000 : ev (tW n3A n3B) 50000 = 9188495486338467788591801605335142233325000000000000000000000000000000000000000000000000000000000000000000000000000000000 := by
  have h := ev_int (tW n3A n3B) 50000
  rw [show evZ (tW n3A n3B) 50000 = 9188495486338467788591801605335142233325000000000000000000000000000000000000000000000000000000000000000000000000000000000 by decide +kernel] at h
  push_cast at h
  exact h

theorem n3_A_280000 : ev (n3A) 280000 = 6201574094485642443782492051988750000000000000000000000000000000000 := by
  have h := ev_int (n3A) 280000
  rw [show evZ (n3A) 280000 = 6201574094485642443782492051988750000000000000000000000000000000000 by decide +kernel] at h
  push_cast at h
  exact h

theorem n3_B_280000 : ev (n3B) 280000 = 157074418886844922291226518843699295270000000000000000000000000000 := by
  have h := ev_int (n3B) 280000
  rw [show evZ (n3B) 280000 = 157074418886844922291226518843699295270000000000000000000000000000 by decide +kernel] at h
  push_cast at h
  exact h

theorem n3_W_280000 : ev (tW n3A n3B) 280000 = 3497230956514752997762187306935349924708191120207943700124702594625000000000000000000000000000000000000000000000000000000000000 := by
  have h := ev_int (tW n3A n3B) 280000
  rw [show evZ (tW n3A n3B) 280000 = 3497230956514752997762187306935349924708191120207943700124702594625000000000000000000000000000000000000000000000000000000000000 by decide +kernel] at h
  push_cast at h
  exact h

/-! ## The tables of the checks are those of the code -/

theorem normalR1_eq (q : ℝ) : q * Stat.normalR1 (0.180625 - q * q) = cX 100000000 n1A n1B q := by
  have hA : ev n1A (100000000 * q ^ 2) = 1000000000000000000000000000000000000000000000000000000000000000000000000 * (((((((((0.180625 - q * q) * 2509.0809287301226727 + 33430.575583588128105) * (0.180625 - q * q) + 67265.770927008700853) * (0.180625 - q * q)
    + 45921.953931549871457) * (0.180625 - q * q) + 13731.693765509461125) * (0.180625 - q * q) + 1971.5909503065514427) * (0.180625 - q * q)
    + 133.14166789178437745) * (0.180625 - q * q) + 3.387132872796366608)) := by
    simp only [n1A, ev]; push_cast; ring
  have hB : ev n1B (100000000 * q ^ 2) = 1000000000000000000000000000000000000000000000000000000000000000000000000 * (((((((((0.180625 - q * q) * 5226.495278852854561 + 28729.085735721942674) * (0.180625 - q * q) + 39307.89580009271061) * (0.180625 - q * q)
    + 21213.794301586595867) * (0.180625 - q * q) + 5394.1960214247511077) * (0.180625 - q * q) + 687.1870074920579083) * (0.180625 - q * q)
    + 42.313330701600911252) * (0.180625 - q * q) + 1)) := by
    simp only [n1B, ev]; push_cast; ring
  rw [cX]
  push_cast
  rw [hA, hB, Stat.normalR1, mul_left_comm q, mul_div_mul_left _ _ (by norm_num), mul_div_assoc]

theorem normalR2_eq (r : ℝ) : Stat.normalR2 (r - 1.6) = tX 10000 n2A n2B r := by
  have hA : ev n2A (10000 * r) = 250000000000000000000000000000000000000000000000000000000 * ((((((((r - 1.6) * 7.7454501427834140764e-4 + 0.0227238449892691845833) * (r - 1.6) + 0.24178072517745061177) * (r - 1.6)
    + 1.27045825245236838258) * (r - 1.6) + 3.64784832476320460504) * (r - 1.6) + 5.7694972214606914055) * (r - 1.6)
    + 4.6303378461565452959) * (r - 1.6) + 1.42343711074968357734) := by
    simp only [n2A, ev]; push_cast; ring
  have hB : ev n2B (10000 * r) = 250000000000000000000000000000000000000000000000000000000 * ((((((((r - 1.6) * 1.05075007164441684324e-9 + 5.475938084995344946e-4) * (r - 1.6) + 0.0151986665636164571966) * (r - 1.6)
    + 0.14810397642748007459) * (r - 1.6) + 0.68976733498510000455) * (r - 1.6) + 1.6763848301838038494) * (r - 1.6)
    + 2.05319162663775882187) * (r - 1.6) + 1) := by
    simp only [n2B, ev]; push_cast; ring
  rw [tX]
  push_cast
  rw [hA, hB, Stat.normalR2, mul_div_mul_left _ _ (by norm_num)]

theorem normalR3_eq (r : ℝ) : Stat.normalR3 (r - 5.0) = tX 10000 n3A n3B r := by
  rw [show r - 5.0 = r - 5 by norm_num]
  have hA : ev n3A (10000 * r) = 250000000000000000000000000000000000000000000000000000000000000 * ((((((((r - 5) * 2.01033439929228813265e-7 + 2.71155556874348757815e-5) * (r - 5) + 0.0012426609473880784386) * (r - 5)
    + 0.026532189526576123093) * (r - 5) + 0.29656057182850489123) * (r - 5) + 1.7848265399172913358) * (r - 5)
    + 5.4637849111641143699) * (r - 5) + 6.6579046435011037772) := by
    simp only [n3A, ev]; push_cast; ring
  have hB : ev n3B (10000 * r) = 250000000000000000000000000000000000000000000000000000000000000 * ((((((((r - 5) * 2.04426310338993978564e-15 + 1.4215117583164458887e-7) * (r - 5) + 1.8463183175100546818e-5) * (r - 5)
    + 7.868691311456132591e-4) * (r - 5) + 0.0148753612908506148525) * (r - 5) + 0.13692988092273580531) * (r - 5)
    + 0.59983220655588793769) * (r - 5) + 1) := by
    simp only [n3B, ev]; push_cast; ring
  rw [tX]
  push_cast
  rw [hA, hB, Stat.normalR3, mul_div_mul_left _ _ (by norm_num)]

/-! ## Anchors -/

theorem n1_anchor : |cG 1 100000000 n1A n1B 0 + Real.log (1 / √(2 * Real.pi))| ≤ 2e-13 := by
  have hB := n1_B_0
  have hW := n1_W_0
  rw [cG_anchor (by rw [hB]; norm_num) (by rw [hW]; norm_num) (by have := Real.pi_pos; positivity)]
  have : |1 / √(2 * Real.pi) * (ev (cW n1A n1B) 0 / ev n1B 0 ^ 2) - 1| ≤ 1e-13 := by
    rw [hB, hW]
    exact near_sqrt_two_pi (by norm_num) (by norm_num)
  have := log_abs_le this (by norm_num)
  simp only [mul_zero, zero_mul, zero_div, sub_zero]
  linarith


theorem n2_anchor :
    |tG 1 10000 n2A n2B 16000 + Real.log (1 / √(2 * Real.pi) * ((10000 : ℤ) : ℝ) ^ 2 / 2)| ≤ 2e-13 := by
  have hA := n2_A_16000
  have hB := n2_B_16000
  have hW := n2_W_16000
  rw [tG_anchor (by norm_num) (by norm_num) (by rw [hB]; norm_num) (by rw [hW]; norm_num)
    (by have := Real.pi_pos; positivity) rfl rfl]
  obtain ⟨b1, b2⟩ := exp4_bounds (z := ((16000 : ℝ)) ^ 2 / ((10000 : ℤ) : ℝ) ^ 2
      - ((1 : ℤ) : ℝ) * ev n2A 16000 ^ 2 / (2 * ev n2B 16000 ^ 2)) (wl := 0.38672834896757413) (wh := 0.38672834896757414) (el := 1.4721565241101815) (eh := 1.4721565241101817)
    (by rw [hA, hB]; norm_num) (by rw [hA, hB]; norm_num)
    (exp_lower (by norm_num) (by norm_num [Finset.sum_range_succ, Nat.factorial]))
    (exp_upper (by norm_num) (by norm_num) (by norm_num [Finset.sum_range_succ, Nat.factorial])) (by norm_num)
  have hρ : 0 ≤ ev (tW n2A n2B) 16000 * ((10000 : ℤ) : ℝ) ^ 2 / (2 * ev n2B 16000 ^ 2 * 16000) := by
    rw [hW, hB]; norm_num
  refine (log_abs_le (near_sqrt_two_pi (le_trans ?_ (mul_le_mul_of_nonneg_right b1 hρ))
    (le_trans (mul_le_mul_of_nonneg_right b2 hρ) ?_)) (by norm_num)).trans (by norm_num : (2 : ℝ) * 1e-13 ≤ 2e-13)
  · rw [hB, hW]; norm_num
  · rw [hB, hW]; norm_num

theorem n3_anchor :
    |tG 1 10000 n3A n3B 50000 + Real.log (1 / √(2 * Real.pi) * ((10000 : ℤ) : ℝ) ^ 2 / 2)| ≤ 2e-13 := by
  have hA := n3_A_50000
  have hB := n3_B_50000
  have hW := n3_W_50000
  rw [tG_anchor (by norm_num) (by norm_num) (by rw [hB]; norm_num) (by rw [hW]; norm_num)
    (by have := Real.pi_pos; positivity) rfl rfl]
  obtain ⟨b1, b2⟩ := exp4_bounds (z := ((50000 : ℝ)) ^ 2 / ((10000 : ℤ) : ℝ) ^ 2
      - ((1 : ℤ) : ℝ) * ev n3A 50000 ^ 2 / (2 * ev n3B 50000 ^ 2)) (wl := 0.70903821975580502) (wh := 0.70903821975580503) (el := 2.0320359464783517) (eh := 2.0320359464783519)
    (by rw [hA, hB]; norm_num) (by rw [hA, hB]; norm_num)
    (exp_lower (by norm_num) (by norm_num [Finset.sum_range_succ, Nat.factorial]))
    (exp_upper (by norm_num) (by norm_num) (by norm_num [Finset.sum_range_succ, Nat.factorial])) (by norm_num)
  have hρ : 0 ≤ ev (tW n3A n3B) 50000 * ((10000 : ℤ) : ℝ) ^ 2 / (2 * ev n3B 50000 ^ 2 * 50000) := by
    rw [hW, hB]; norm_num
  refine (log_abs_le (near_sqrt_two_pi (le_trans ?_ (mul_le_mul_of_nonneg_right b1 hρ))
    (le_trans (mul_le_mul_of_nonneg_right b2 hρ) ?_)) (by norm_num)).trans (by norm_num : (2 : ℝ) * 1e-13 ≤ 2e-13)
  · rw [hB, hW]; norm_num
  · rw [hB, hW]; norm_num

/-! ## The standard normal distribution function -/

/-- the standard normal distribution function -/
noncomputable abbrev stdN : ℝ → ℝ := Stat.normalCdf Stat.erfSpec (0, 1)

theorem stdN_eq (x : ℝ) : stdN x = 1 / 2 * (1 + Stat.erfSpec (x / √2)) := by
  simp only [stdN, Stat.normalCdf]; norm_num

theorem stdN_hasDerivAt (x : ℝ) :
    HasDerivAt stdN (1 / √(2 * Real.pi) * Real.exp (-(((1 : ℤ) : ℝ) * x ^ 2 / 2))) x := by
  have h := Stat.normalCdf_hasDerivAt 0 one_pos x
  refine h.congr_deriv ?_
  simp only [Stat.gauss]
  norm_num
  left
  ring

theorem stdN_neg (x : ℝ) : stdN (-x) = 1 - stdN x := by
  rw [stdN_eq, stdN_eq, neg_div, Stat.erfSpec_neg]; ring

theorem stdN_zero : stdN 0 = 1 / 2 := by
  have := stdN_neg 0
  rw [neg_zero] at this; linarith

theorem stdN_atTop : Tendsto stdN atTop (nhds 1) := by
  have h : Tendsto (fun x : ℝ => 1 / 2 * (1 + Stat.erfSpec (x / √2))) atTop (nhds (1 / 2 * (1 + 1))) :=
    ((Stat.erfSpec_atTop.comp (tendsto_id.atTop_div_const (by positivity))).const_add 1).const_mul _
  rw [show stdN = fun x : ℝ => 1 / 2 * (1 + Stat.erfSpec (x / √2)) from funext stdN_eq]
  convert h using 2
  norm_num

theorem stdN_le_one (x : ℝ) : stdN x ≤ 1 := by
  have hmono : Monotone stdN := monotone_of_deriv_nonneg (fun y => (stdN_hasDerivAt y).differentiableAt)
    (fun y => by rw [(stdN_hasDerivAt y).deriv]; positivity)
  exact hmono.ge_of_tendsto stdN_atTop x

theorem invsqrt_pos : 0 < 1 / √(2 * Real.pi) := by have := Real.pi_pos; positivity

theorem invsqrt_le : 1 / √(2 * Real.pi) ≤ 0.4 := by
  have := sqrt_two_pi.1
  rw [div_le_iff₀ (by linarith)]; linarith

/-- the central part: `|q| ≤ 0.425` -/
theorem central_acc {q : ℝ} (hq : |q| ≤ 0.425) :
    |stdN (q * Stat.normalR1 (0.180625 - q * q)) - (1 / 2 + q)| ≤ 1.64e-12 * |q| := by
  have key : ∀ q, 0 ≤ q → q ≤ 0.425 → |stdN (cX 100000000 n1A n1B q) - (1 / 2 + q)| ≤ 1.64e-12 * q := fun q h0 h1 => by
    have hc := central_core (κ := 1) (by norm_num : (0 : ℤ) < 100000000) n1_chain n1_ne invsqrt_pos stdN_hasDerivAt
      (q0 := 0) (η := 8.2e-13) le_rfl (by norm_num) (by
        have h1 := n1_anchor
        have h2 : ((tot n1S : ℚ) : ℝ) ≤ (6.1e-13 : ℚ) := by exact_mod_cast n1_tot.trans (by norm_num)
        push_cast at h2
        push_cast
        norm_num at h1 h2 ⊢
        linarith) (by norm_num) (q := q) h0 (by
        rw [n1_hi]; push_cast
        nlinarith)
    have h2 : cX 100000000 n1A n1B 0 = 0 := by simp [cX]
    rw [h2, stdN_zero, sub_zero, sub_zero] at hc
    rw [show stdN (cX 100000000 n1A n1B q) - (1 / 2 + q) = stdN (cX 100000000 n1A n1B q) - q - 1 / 2 by ring]
    refine hc.trans (le_of_eq ?_)
    norm_num
  rcases le_total 0 q with h | h
  · rw [abs_of_nonneg h] at hq ⊢
    rw [normalR1_eq]; exact key q h hq
  · rw [abs_of_nonpos h] at hq ⊢
    have := key (-q) (by linarith) hq
    rw [← normalR1_eq, neg_mul_neg, neg_mul, stdN_neg] at this
    rw [← abs_neg]
    convert this using 2
    ring

theorem exp_neg_le {a : ℕ} {b : ℝ} (hb : (1 : ℝ) ≤ b * 2.7 ^ a) : Real.exp (-(a : ℝ)) ≤ b := by
  have h1 : (2.7 : ℝ) ^ a ≤ Real.exp a := by
    rw [← Real.exp_one_pow]
    exact pow_le_pow_left₀ (by norm_num) (by have := Real.exp_one_gt_d9; linarith) a
  rw [Real.exp_neg, inv_le_iff_one_le_mul₀ (Real.exp_pos _)]
  have hb0 : 0 ≤ b := by
    by_contra hcon
    have : b * 2.7 ^ a ≤ 0 := mul_nonpos_of_nonpos_of_nonneg (not_le.1 hcon).le (by positivity)
    linarith
  exact hb.trans (mul_le_mul_of_nonneg_left h1 hb0)

/-- the far tail: `5 ≤ r ≤ 27` -/
theorem tail3_acc {r : ℝ} (h5 : 5 ≤ r) (h27 : r ≤ 27) :
    |stdN (Stat.normalR3 (r - 5.0)) - (1 - Real.exp (-r ^ 2))| ≤ 8e-12 * Real.exp (-r ^ 2) := by
  rw [normalR3_eq]
  have hc := tail_core (κ := 1) (by norm_num : (0 : ℤ) < 10000) n3_chain n3_ne (by norm_num) invsqrt_pos stdN_hasDerivAt
    (η := 3.7e-12) (by
        have h1 := n3_anchor
        have h2 : ((tot n3S : ℚ) : ℝ) ≤ (3.5e-12 : ℚ) := by exact_mod_cast n3_tot.trans (by norm_num)
        push_cast at h2 h1
        push_cast
        norm_num at h1 h2 ⊢
        linarith) (by norm_num) (r := r) (r1 := 28) (by push_cast; linarith) (by linarith) (by rw [n3_hi]; norm_num)
  have hX : tX 10000 n3A n3B 28 = ev n3A 280000 / ev n3B 280000 := by rw [tX]; norm_num
  have hX1 : (39.4 : ℝ) ≤ tX 10000 n3A n3B 28 := by
    rw [hX, n3_A_280000, n3_B_280000]; norm_num
  have h1 := upper_tail (κ := ((1 : ℤ) : ℝ)) (by norm_num) stdN_hasDerivAt stdN_atTop
    (x := tX 10000 n3A n3B 28) (by have := invsqrt_le; push_cast; linarith) (by linarith)
  have h2 : Real.exp (-(((1 : ℤ) : ℝ) * tX 10000 n3A n3B 28 ^ 2 / 2)) ≤ Real.exp (-(776 : ℝ)) :=
    Real.exp_le_exp.2 (by push_cast; nlinarith)
  have h3 : Real.exp (-(28 : ℝ) ^ 2) ≤ Real.exp (-(776 : ℝ)) := Real.exp_le_exp.2 (by norm_num)
  have h4 := stdN_le_one (tX 10000 n3A n3B 28)
  have h6 : Real.exp (-(776 : ℝ)) ≤ 1e-15 * Real.exp (-r ^ 2) := by
    rw [show -(776 : ℝ) = -((47 : ℕ) : ℝ) + -729 by norm_num, Real.exp_add]
    exact mul_le_mul (exp_neg_le (by norm_num)) (Real.exp_le_exp.2 (by nlinarith)) (Real.exp_pos _).le (by norm_num)
  have h7 := (Real.exp_pos (-(28 : ℝ) ^ 2)).le
  have h8 := (Real.exp_pos (-r ^ 2)).le
  have h9 := h1.trans h2
  clear h1 h2 hX1 hX
  generalize stdN (tX 10000 n3A n3B 28) = s28 at *
  generalize stdN (tX 10000 n3A n3B r) = sr at *
  generalize Real.exp (-(28 : ℝ) ^ 2) = e28 at *
  generalize Real.exp (-r ^ 2) = er at *
  generalize Real.exp (-776) = e776 at *
  norm_num at hc h6 ⊢
  rw [abs_le] at hc ⊢
  constructor <;> linarith [hc.1, hc.2]

/-- the tail: `1.6 ≤ r ≤ 5` -/
theorem tail2_acc {r : ℝ} (h1 : 1.6 ≤ r) (h5 : r ≤ 5) :
    |stdN (Stat.normalR2 (r - 1.6)) - (1 - Real.exp (-r ^ 2))| ≤ 9e-12 * Real.exp (-r ^ 2) := by
  rw [normalR2_eq]
  have hc := tail_core (κ := 1) (by norm_num : (0 : ℤ) < 10000) n2_chain n2_ne (by norm_num) invsqrt_pos stdN_hasDerivAt
    (η := 4e-13) (by
        have h1 := n2_anchor
        have h2 : ((tot n2S : ℚ) : ℝ) ≤ (1.6e-13 : ℚ) := by exact_mod_cast n2_tot.trans (by norm_num)
        push_cast at h2 h1
        push_cast
        norm_num at h1 h2 ⊢
        linarith) (by norm_num) (r := r) (r1 := 5) (by push_cast; linarith) h5 (by rw [n2_hi]; norm_num)
  have h3 := tail3_acc (le_refl 5) (by norm_num)
  rw [normalR3_eq] at h3
  have hX2 : tX 10000 n2A n2B 5 = ev n2A 50000 / ev n2B 50000 := by rw [tX]; norm_num
  have hX3 : tX 10000 n3A n3B 5 = ev n3A 50000 / ev n3B 50000 := by rw [tX]; norm_num
  have hcl := psi_close (κ := ((1 : ℤ) : ℝ)) (by norm_num) invsqrt_pos stdN_hasDerivAt (x := tX 10000 n2A n2B 5)
    (y := tX 10000 n3A n3B 5) (m := 6.6) (by norm_num)
    (by rw [hX2, n2_A_50000, n2_B_50000]; norm_num) (by rw [hX3, n3_A_50000, n3_B_50000]; norm_num)
  have hd : |tX 10000 n2A n2B 5 - tX 10000 n3A n3B 5| ≤ 1e-15 := by
    rw [hX2, hX3, n2_A_50000, n2_B_50000, n3_A_50000, n3_B_50000, abs_le]
    constructor <;> norm_num
  have he : Real.exp (-(((1 : ℤ) : ℝ) * 6.6 ^ 2 / 2)) ≤ 81 * Real.exp (-(5 : ℝ) ^ 2) := by
    rw [show -(((1 : ℤ) : ℝ) * 6.6 ^ 2 / 2) = 3.22 + -(5 : ℝ) ^ 2 by norm_num, Real.exp_add]
    refine mul_le_mul_of_nonneg_right ?_ (Real.exp_pos _).le
    have h4 : Real.exp 3.22 ≤ Real.exp 4 := Real.exp_le_exp.2 (by norm_num)
    have h6 : Real.exp 4 ≤ 81 := by
      rw [show (4 : ℝ) = ((4 : ℕ) : ℝ) by norm_num, ← Real.exp_one_pow]
      have := Real.exp_one_lt_d9
      have h7 := pow_le_pow_left₀ (Real.exp_pos 1).le (by linarith : Real.exp 1 ≤ 3) 4
      exact h7.trans (by norm_num)
    linarith
  have hcl2 : |stdN (tX 10000 n2A n2B 5) - stdN (tX 10000 n3A n3B 5)| ≤ 1e-13 * Real.exp (-(5 : ℝ) ^ 2) := by
    refine hcl.trans ?_
    have a0 := invsqrt_pos
    calc 1 / √(2 * Real.pi) * Real.exp (-(((1 : ℤ) : ℝ) * 6.6 ^ 2 / 2)) * |tX 10000 n2A n2B 5 - tX 10000 n3A n3B 5|
        ≤ 0.4 * (81 * Real.exp (-(5 : ℝ) ^ 2)) * 1e-15 :=
          mul_le_mul (mul_le_mul invsqrt_le he (Real.exp_pos _).le (by norm_num)) hd (abs_nonneg _) (by positivity)
      _ ≤ 1e-13 * Real.exp (-(5 : ℝ) ^ 2) := by
          have := Real.exp_pos (-(5 : ℝ) ^ 2)
          generalize Real.exp (-(5 : ℝ) ^ 2) = e5 at *
          norm_num
          linarith
  have h8 : Real.exp (-(5 : ℝ) ^ 2) ≤ Real.exp (-r ^ 2) := Real.exp_le_exp.2 (by nlinarith)
  have h7 := Real.exp_pos (-(5 : ℝ) ^ 2)
  clear hcl he hd hX2 hX3
  generalize stdN (tX 10000 n2A n2B 5) = s2 at *
  generalize stdN (tX 10000 n3A n3B 5) = s3 at *
  generalize stdN (tX 10000 n2A n2B r) = sr at *
  generalize Real.exp (-(5 : ℝ) ^ 2) = e5 at *
  generalize Real.exp (-r ^ 2) = er at *
  norm_num at hc hcl2 h3 ⊢
  rw [abs_le] at hc hcl2 h3 ⊢
  constructor <;> linarith [hc.1, hc.2, hcl2.1, hcl2.2, h3.1, h3.2]

/-- both tails in terms of the probability of the tail -/
theorem tail_acc {p : ℝ} (h0 : 1 / 2 ^ 1022 ≤ p) (h1 : p ≤ 0.075) :
    |stdN (if √(-Real.log p) ≤ 5 then Stat.normalR2 (√(-Real.log p) - 1.6) else Stat.normalR3 (√(-Real.log p) - 5.0))
      - (1 - p)| ≤ 9e-12 * p := by
  have hp : 0 < p := lt_of_lt_of_le (by positivity) h0
  have hlog : Real.log p ≤ -2.56 := by
    rw [Real.log_le_iff_le_exp hp]
    refine h1.trans ?_
    rw [Real.exp_neg, le_inv_comm₀ (by norm_num) (Real.exp_pos _)]
    have := (exp4_bounds (z := 2.56) (wl := 0.64) (wh := 0.64) (el := 0) (eh := 1.9) (by norm_num) (by norm_num)
      (Real.exp_pos _).le (exp_upper (by norm_num) (by norm_num) (by norm_num [Finset.sum_range_succ, Nat.factorial]))
      le_rfl).2
    refine this.trans (by norm_num)
  have hlog2 : -729 ≤ Real.log p := by
    have h3 := Real.log_le_log (by positivity) h0
    rw [one_div, Real.log_inv, Real.log_pow] at h3
    have := Real.log_two_lt_d9
    push_cast at h3
    linarith
  have hr : √(-Real.log p) ^ 2 = -Real.log p := Real.sq_sqrt (by linarith)
  have he : Real.exp (-√(-Real.log p) ^ 2) = p := by rw [hr, neg_neg, Real.exp_log hp]
  have h16 : 1.6 ≤ √(-Real.log p) := Real.le_sqrt_of_sq_le (by norm_num at hlog ⊢; linarith)
  have h27 : √(-Real.log p) ≤ 27 := by
    rw [Real.sqrt_le_left (by norm_num)]; norm_num; linarith
  split_ifs with c
  · have := tail2_acc h16 c
    rwa [he] at this
  · have := tail3_acc (not_le.1 c).le h27
    rw [he] at this
    linarith

end PC

namespace Stat
open MeasureTheory Set PC

theorem ppnd_acc {p v : ℝ} (h0 : 1 / 2 ^ 1022 ≤ min p (1 - p)) (hv : normalPpnd p = .inr v) :
    |stdN v - p| ≤ 1e-11 * min p (1 - p) := by
  have hp0 : 1 / 2 ^ 1022 ≤ p := h0.trans (min_le_left _ _)
  have hp1 : 1 / 2 ^ 1022 ≤ 1 - p := h0.trans (min_le_right _ _)
  have hpos : (0 : ℝ) < p := lt_of_lt_of_le (by positivity) hp0
  have hpos1 : (0 : ℝ) < 1 - p := lt_of_lt_of_le (by positivity) hp1
  unfold normalPpnd at hv
  simp only at hv
  by_cases c : |p - 0.5| ≤ 0.425
  · rw [if_pos c, Sum.inr.injEq] at hv
    have := central_acc c
    rw [hv] at this
    have h1 : 0.075 ≤ min p (1 - p) := by
      have := abs_le.1 c
      refine le_min ?_ ?_ <;> linarith
    have h2 : |p - 0.5| ≤ 0.5 - min p (1 - p) := by
      rw [abs_le]
      have a := min_le_left p (1 - p)
      have b := min_le_right p (1 - p)
      constructor <;> linarith
    rw [show stdN v - (1 / 2 + (p - 0.5)) = stdN v - p by norm_num] at this
    refine this.trans ?_
    generalize min p (1 - p) = mp at *
    generalize |p - 0.5| = aq at *
    norm_num at h1 h2 ⊢
    linarith
  · rw [if_neg c] at hv
    have hne : p - 0.5 ≠ 0 := by intro h; rw [h] at c; norm_num at c
    rcases lt_or_gt_of_ne hne with hn | hn
    · rw [if_pos hn, if_neg (not_le.2 hpos), if_pos hn.le, Sum.inr.injEq] at hv
      have hp2 : p ≤ 0.075 := by
        rw [abs_of_neg hn] at c; linarith
      have := tail_acc hp0 hp2
      rw [← hv, stdN_neg, min_eq_left (by linarith), ← abs_neg]
      refine le_trans (le_of_eq ?_) (this.trans (by norm_num; linarith))
      congr 1; ring
    · rw [if_neg (by linarith : ¬ p - 0.5 < 0), if_neg (not_le.2 hpos1), if_neg (by linarith : ¬ p - 0.5 ≤ 0),
        Sum.inr.injEq] at hv
      have hp2 : 1 - p ≤ 0.075 := by
        rw [abs_of_pos hn] at c; linarith
      have := tail_acc hp1 hp2
      rw [hv] at this
      rw [min_eq_right (by linarith)]
      rw [show 1 - (1 - p) = p by ring] at this
      exact this.trans (by norm_num; linarith)

/-- C58: `quantile` inverts the distribution function: for every `p` with `p` and `1 - p` at least `2⁻¹⁰²²` (so for every
normalised double), the mass of the Gaussian density below `quantile(p)` is `p` up to the fraction `10⁻¹¹` of the smaller
of `p` and `1 - p`. -/
theorem C58_quantile_accuracy {m v : ℝ} {d : ℝ × ℝ} (h : normalNew m v = some d) {p x : ℝ}
    (hp : 1 / 2 ^ 1022 ≤ min p (1 - p)) (hx : normalQuantile d p = some x) :
    |(∫ t in Iic x, gauss m v t) - p| ≤ 1e-11 * min p (1 - p) := by
  rw [← (C58_cdf_partial h x).1]
  obtain ⟨rfl, hv⟩ := normalNew_some h
  have hp0 : 0 < p := lt_of_lt_of_le (by positivity) (hp.trans (min_le_left _ _))
  have hp1 : p < 1 := by
    have : (0 : ℝ) < 1 - p := lt_of_lt_of_le (by positivity) (hp.trans (min_le_right _ _))
    linarith
  obtain ⟨z, e, -⟩ := normalPpnd_inr hp0 hp1
  rw [normalQuantile, if_neg (by push Not; exact ⟨hp0, hp1⟩), e] at hx
  simp only [Option.some.injEq] at hx
  have := ppnd_acc hp e
  have e2 : normalCdf erfSpec (m, v) x = stdN z := by
    rw [stdN_eq, ← hx, normalCdf]
    simp only
    rw [add_sub_cancel_left, Real.sqrt_mul (by norm_num : (0 : ℝ) ≤ 2), mul_comm √v z,
      mul_div_mul_right _ _ (Real.sqrt_pos.2 hv).ne']
    norm_num
  rw [e2]
  exact this

/-- C69: `quantile` inverts the log-normal distribution function with the same accuracy. -/
theorem C69_quantile_accuracy {m v : ℝ} {d : ℝ × ℝ} (h : logNormalNew m v = some d) {p x : ℝ}
    (hp : 1 / 2 ^ 1022 ≤ min p (1 - p)) (hx : logNormalQuantile d p = some x) :
    |(∫ t in Iic x, lnDens m v t) - p| ≤ 1e-11 * min p (1 - p) := by
  rw [← (C69_partial h).2.2.2.2.2.2.2 x]
  obtain ⟨rfl, hv⟩ := logNormalNew_some h
  have hp0 : 0 < p := lt_of_lt_of_le (by positivity) (hp.trans (min_le_left _ _))
  have hp1 : p < 1 := by
    have : (0 : ℝ) < 1 - p := lt_of_lt_of_le (by positivity) (hp.trans (min_le_right _ _))
    linarith
  obtain ⟨z, e, -⟩ := normalPpnd_inr hp0 hp1
  have hstd : normalNew (0 : ℝ) 1 = some (0, 1) := by rw [normalNew, if_neg (by norm_num)]
  rw [logNormalQuantile, if_neg (by push Not; exact ⟨hp0, hp1⟩), hstd] at hx
  simp only [Option.bind_eq_bind, Option.bind_some] at hx
  rw [normalQuantile, if_neg (by push Not; exact ⟨hp0, hp1⟩), e] at hx
  simp only [Option.bind_some, Option.some.injEq, Real.sqrt_one, one_mul, zero_add] at hx
  have := ppnd_acc hp e
  have e2 : logNormalCdf erfSpec (m, v) x = stdN z := by
    rw [stdN_eq, ← hx, logNormalCdf, if_neg (not_le.2 (Real.exp_pos _)), Real.log_exp]
    simp only
    rw [add_sub_cancel_left, Real.sqrt_mul (by norm_num : (0 : ℝ) ≤ 2), mul_div_mul_right _ _ (Real.sqrt_pos.2 hv).ne']
    norm_num
    ring
  rw [e2]
  exact this

example {x : ℝ} (hx : normalQuantile (100, 225) 0.975 = some x) : |(∫ t in Iic x, gauss 100 225 t) - 0.975| ≤ 3e-13 := by
  have := C58_quantile_accuracy (m := 100) (v := 225) (d := (100, 225)) (by norm_num [normalNew])
    (p := 0.975) (le_trans (one_div_pow_le_one_div_pow_of_le (by norm_num : (1 : ℝ) ≤ 2) (by norm_num : 6 ≤ 1022))
      (by norm_num)) hx
  norm_num at this ⊢
  linarith

end Stat
end Verif
