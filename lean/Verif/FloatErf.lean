import Verif.FloatIncGamma
import Verif.FloatLnGamma
import Verif.FloatOptim
import Verif.ErfAcc
import Verif.DistChi

/-!
# Property C121: the error function with rounding

`erfG` of `LnGammaModel.lean` runs here on rounded numbers without overflow and underflow, with `ln_gamma`, `gamma` and
`gamma_lr` computed with rounding as well.
-/

set_option linter.unusedSectionVars false

namespace Verif
namespace Special
open Rounding

section
variable {R : Rounding ℝ} {φ : ℝ} {ln exp sqrt sin : Fl R → Fl R} {pi e : Fl R} {pow : Fl R → Fl R → Fl R}

/-- `gamma_lr` with the computed `ln_gamma` -/
noncomputable def lrFl (ln exp : Fl R → Fl R) (pi e : Fl R) (sin : Fl R → Fl R) (pow : Fl R → Fl R → Fl R) (n : ℕ) : Fl R → Fl R → Option (Fl R) :=
  gammaLrG (fun a b => some (a / b)) ln exp (lnGammaG (fun a b => some (a / b)) (fun a => some (ln a)) pi e sin pow) n

/-- `gamma` with rounding -/
noncomputable def gamFl (exp sqrt : Fl R → Fl R) (pi : Fl R) (sin : Fl R → Fl R) (pow : Fl R → Fl R → Fl R) : Fl R → Option (Fl R) :=
  gammaG (fun a b => some (a / b)) pi sqrt exp sin pow

theorem erfSpec_lip {a b : ℝ} : |Stat.erfSpec a - Stat.erfSpec b| ≤ 2 * |a - b| := by
  have := Convex.norm_image_sub_le_of_norm_hasDerivWithin_le (f := Stat.erfSpec) (s := Set.univ) (C := 2)
    (f' := fun x => 2 / √Real.pi * Real.exp (-x ^ 2)) (fun x _ => (Stat.erfSpec_hasDerivAt x).hasDerivWithinAt) (fun x _ => by
      have h1 : 1 ≤ √Real.pi := Real.one_le_sqrt.2 (by linarith [Real.pi_gt_three])
      have h2 : Real.exp (-x ^ 2) ≤ 1 := Real.exp_le_one_iff.2 (by nlinarith [sq_nonneg x])
      have h3 : 2 / √Real.pi ≤ 2 := div_le_self (by norm_num) h1
      rw [Real.norm_eq_abs, abs_of_pos (by positivity)]
      calc _ ≤ 2 * 1 := mul_le_mul h3 h2 (Real.exp_pos _).le (by norm_num)
        _ = 2 := by norm_num) convex_univ (Set.mem_univ b) (Set.mem_univ a)
  simpa using this

theorem log_Gamma_half : Real.log (Real.Gamma (1 / 2)) = Real.log Real.pi / 2 := by
  rw [Real.Gamma_one_half_eq, Real.log_sqrt Real.pi_pos.le]

theorem log_pi_bounds : 1 ≤ Real.log Real.pi ∧ Real.log Real.pi ≤ 2.2 := by
  constructor
  · rw [Real.le_log_iff_exp_le Real.pi_pos]
    have h1 := Real.exp_one_lt_d9
    have h2 := Real.pi_gt_d2
    norm_num at h1 h2
    linarith
  · have h2 := Real.pi_lt_d2
    have := Real.log_le_sub_one_of_pos Real.pi_pos
    norm_num at h2 ⊢
    linarith

/-- the value of `gamma_lr(1/2, x²)` -/
theorem lr_half (L1 : LnGammaLib R φ ln pi e sin pow) (L2 : IncLib R φ ln exp)
    (hu : R.u ≤ 1 / 2 ^ 53) (hφ : φ ≤ 1 / 2 ^ 52) (h1 : R.rnd 1 = 1) (h2 : R.rnd (1 / 2) = 1 / 2)
    {X : Fl R} (hX : 0 < X.val) (hX1 : X.val ≤ 1) (hl : -700 ≤ Real.log X.val) {n : ℕ} (hn : 18 ≤ n) :
    ∃ v : Fl R, lrFl ln exp pi e sin pow n 0.5 X = some v ∧ |v.val - Stat.erfSpec √X.val| ≤ 2e-12 ∧ v.val ≤ 2 := by
  have h0 := R.u_nonneg
  have hφ0 := L2.nonneg
  have half : (0.5 : Fl R).val = 1 / 2 := lit_half h2
  obtain ⟨lp1, lp2⟩ := log_pi_bounds
  norm_num at lp2 hu hφ
  obtain ⟨lg, elg, hlg⟩ := C121_ln_gamma (x := (0.5 : Fl R)) L1 (by norm_num; linarith) h1 h2 (by rw [half])
  rw [half] at hlg
  have hd : |lg.val - Real.log (Real.Gamma (1 / 2))| ≤ 3.6e-13 := by
    refine hlg.trans ?_
    rw [sub_self, zero_mul, add_zero, min_eq_left (by norm_num : (10 + 170 * (1 / 2) : ℝ) ≤ 5000)]
    norm_num
    linarith
  have hlX : Real.log X.val ≤ 0 := Real.log_nonpos hX.le hX1
  have hA : axErr R φ 3.6e-13 (1 / 2) X.val ≤ 1.2e-12 := by
    unfold axErr
    rw [log_Gamma_half, abs_of_nonpos hlX, abs_of_nonneg (by linarith : 0 ≤ Real.log Real.pi / 2)]
    have : (5 * R.u + 2 * φ) * (1 / 2 * -Real.log X.val + X.val + Real.log Real.pi / 2) ≤
        (9 / 2 * (1 / 4503599627370496)) * 353 := mul_le_mul (by linarith) (by linarith) (by linarith) (by norm_num)
    norm_num at this ⊢
    linarith
  obtain ⟨v, hv, h⟩ := C121_small (a := (0.5 : Fl R)) (x := X) (δ := 3.6e-13) L2 (by norm_num; linarith)
    (by rw [half]; norm_num) hX hX1 elg (by rw [half]; exact hd) (by rw [half]; exact hA.trans (by norm_num))
    (by rw [half, log_Gamma_half]; linarith) hn
  refine ⟨v, hv, ?_⟩
  rw [half] at h
  have hg := gInt_half (x := √X.val) (Real.sqrt_pos.2 hX)
  rw [Real.sq_sqrt hX.le] at hg
  have hg' : (∫ t in (0 : ℝ)..X.val, t ^ ((1 / 2 : ℝ) - 1) * Real.exp (-t)) = √Real.pi * Stat.erfSpec √X.val := hg
  rw [hg', Real.Gamma_one_half_eq, mul_div_cancel_left₀ _ (Real.sqrt_pos.2 Real.pi_pos).ne'] at h
  have hE : φ + axErr R φ 3.6e-13 (1 / 2) X.val + 398 * R.u + 1.2e-15 * X.val ≤ 1.5e-12 := by
    norm_num at hA ⊢
    linarith
  have h3 := (h.mono hE).abs_sub_le (by norm_num)
  have h4 := Stat.erfSpec_le_one √X.val
  have h5 : (1.5e-12 + 1.5e-12 ^ 2) * Stat.erfSpec √X.val ≤ (1.5e-12 + 1.5e-12 ^ 2) * 1 :=
    mul_le_mul_of_nonneg_left h4 (by norm_num)
  have h6 : |v.val - Stat.erfSpec √X.val| ≤ 2e-12 := (h3.trans h5).trans (by norm_num)
  refine ⟨h6, ?_⟩
  have := (abs_le.1 h6).2
  norm_num at this
  linarith

/-- the last operations of `erf` -/
theorem erf_tail (L1 : LnGammaLib R φ ln pi e sin pow) (L3 : GammaLib R φ pi sqrt exp sin pow)
    (hu : R.u ≤ 1 / 2 ^ 53) (hφ : φ ≤ 1 / 2 ^ 52) {v g : Fl R} {P : ℝ} (hv : |v.val - P| ≤ 2e-12) (hP : 0 ≤ P) (hP1 : P ≤ 1)
    (hg : LC 3e-12 g.val √Real.pi) :
    |(1 - (1 - v) * g / sqrt pi : Fl R).val - P| ≤ 5.3e-12 := by
  have h0 := R.u_nonneg
  have hφ0 := L3.nonneg
  norm_num at hu hφ
  have hu' : R.u < 1 := by linarith
  have b1 : |1 - v.val - (1 - P)| ≤ 2e-12 := by rw [sub_sub_sub_cancel_left, abs_sub_comm]; exact hv
  have b2 := R.rnd_near b1
  rw [abs_of_nonneg (show 0 ≤ 1 - P by linarith)] at b2
  have c2 : |(1 - v : Fl R).val - (1 - P)| ≤ 2.001e-12 := by
    have e1 : 2e-12 * (1 + R.u) + R.u * (1 - P) ≤ 2.001e-12 := by
      have := mul_le_mul_of_nonneg_left (show 1 - P ≤ 1 by linarith) h0
      norm_num at this ⊢
      linarith
    exact LE.le.trans b2 e1
  have lspi : LC (φ + R.u / 2) (sqrt pi).val (Real.sqrt Real.pi) := by
    have h1 : LC R.u pi.val Real.pi := by rw [L3.pi_eq]; exact LC.lit hu' Real.pi_pos
    have h2 := L3.sqrt_le _ h1.1
    exact (LC.of_rel hφ0 (Real.sqrt_pos.2 h1.1) h2.1 h2.2).trans h1.sqrt
  set s := (sqrt pi).val with hs
  have lk : LC 3.001e-12 (g.val / s) 1 := by
    have := hg.div lspi
    rw [div_self (Real.sqrt_pos.2 Real.pi_pos).ne'] at this
    refine this.mono ?_
    norm_num
    linarith
  have hk := lk.abs_sub_le (by norm_num)
  set k := g.val / s with hkd
  have hk' : |k - 1| ≤ 3.002e-12 := hk.trans (by norm_num)
  set w := (1 - v : Fl R).val with hw
  -- the product is rounded
  have hsp : 0 < s := lspi.1
  have hw2 : |w| ≤ 1.1 := by
    have := abs_le.1 c2
    rw [abs_le]; norm_num at this ⊢
    constructor <;> linarith
  have d1 : |w * k - (1 - P)| ≤ 5.2e-12 := by
    rw [show w * k - (1 - P) = (w - (1 - P)) * k + (1 - P) * (k - 1) by ring]
    refine (abs_add_le _ _).trans ?_
    rw [abs_mul, abs_mul, abs_of_nonneg (show 0 ≤ 1 - P by linarith)]
    have hk2 : |k| ≤ 1.01 := by
      have := abs_le.1 hk'
      rw [abs_le]; norm_num at this ⊢
      constructor <;> linarith
    have p1 := mul_le_mul c2 hk2 (abs_nonneg _) (by norm_num)
    have p2 := mul_le_mul (show 1 - P ≤ 1 by linarith) hk' (abs_nonneg _) (by norm_num)
    norm_num at p1 p2 ⊢
    linarith
  have d2 : |R.rnd (w * g.val) / s - w * k| ≤ R.u * 1.2 := by
    have e1 : R.rnd (w * g.val) / s - w * k = (R.rnd (w * g.val) - w * g.val) / s := by
      rw [hkd]; field_simp
    have e2 := R.err (w * g.val)
    rw [e1, abs_div, abs_of_pos hsp, div_le_iff₀ hsp]
    refine e2.trans ?_
    have hk3 : k ≤ 1.01 := by
      have := (abs_le.1 hk').2
      norm_num at this ⊢
      linarith
    have e3 : |w * g.val| ≤ 1.2 * s := by
      rw [abs_mul, abs_of_pos hg.1]
      have e4 : g.val ≤ 1.01 * s := (div_le_iff₀ hsp).1 hk3
      calc |w| * g.val ≤ 1.1 * (1.01 * s) := mul_le_mul hw2 e4 hg.1.le (by norm_num)
        _ ≤ 1.2 * s := by norm_num; linarith
    have := mul_le_mul_of_nonneg_left e3 h0
    linarith
  have d3 : |R.rnd (w * g.val) / s - (1 - P)| ≤ 5.2002e-12 := by
    have := abs_sub_le (R.rnd (w * g.val) / s) (w * k) (1 - P)
    norm_num at d1 d2 ⊢
    linarith
  have d4 := R.rnd_near d3
  rw [abs_of_nonneg (show 0 ≤ 1 - P by linarith)] at d4
  have d5 : |R.rnd (R.rnd (w * g.val) / s) - (1 - P)| ≤ 5.201e-12 := by
    refine d4.trans ?_
    have := mul_le_mul_of_nonneg_left (show 1 - P ≤ 1 by linarith) h0
    norm_num at this ⊢
    linarith
  have d6 : |1 - R.rnd (R.rnd (w * g.val) / s) - P| ≤ 5.201e-12 := by
    rw [show 1 - R.rnd (R.rnd (w * g.val) / s) - P = -(R.rnd (R.rnd (w * g.val) / s) - (1 - P)) by ring, abs_neg]
    exact d5
  have d7 := R.rnd_near d6
  rw [abs_of_nonneg hP] at d7
  have e1 : 5.201e-12 * (1 + R.u) + R.u * P ≤ 5.3e-12 := by
    have := mul_le_mul_of_nonneg_left hP1 h0
    norm_num at this ⊢
    linarith
  exact LE.le.trans d7 e1

/-- **C121** (`/repo/src/special/error.rs:72-84`, `erf` and `erfc` for `1e-150 ≤ |x| ≤ 1` with rounding): with at least 53 bits
and library functions of a relative error of at most `2⁻⁵²`, `erf` returns the error function up to `6e-12`, and `erfc` its
complement. -/
theorem C121_erf (L1 : LnGammaLib R φ ln pi e sin pow) (L2 : IncLib R φ ln exp) (L3 : GammaLib R φ pi sqrt exp sin pow)
    (hu : R.u ≤ 1 / 2 ^ 53) (hφ : φ ≤ 1 / 2 ^ 52) (h1 : R.rnd 1 = 1) (h2 : R.rnd (1 / 2) = 1 / 2) (hm : Monotone R.rnd)
    {x : Fl R} (hx : 1e-150 ≤ |x.val|) (hx1 : |x.val| ≤ 1) {n : ℕ} (hn : 18 ≤ n) :
    ∃ r c : Fl R, erfG (lrFl ln exp pi e sin pow n) (gamFl exp sqrt pi sin pow) pi sqrt x = some r ∧
      |r.val - 2 / √Real.pi * ∫ t in (0 : ℝ)..x.val, Real.exp (-t ^ 2)| ≤ 6e-12 ∧
      erfcG (lrFl ln exp pi e sin pow n) (gamFl exp sqrt pi sin pow) pi sqrt x = some c ∧
      |c.val - (1 - 2 / √Real.pi * ∫ t in (0 : ℝ)..x.val, Real.exp (-t ^ 2))| ≤ 6e-12 := by
  have h0 := R.u_nonneg
  have hφ0 := L2.nonneg
  have hu1 := hu
  have hφ1 := hφ
  norm_num at hu hφ
  have hu' : R.u < 1 := by linarith
  have half : (0.5 : Fl R).val = 1 / 2 := lit_half h2
  have hx0 : 0 < |x.val| := lt_of_lt_of_le (by norm_num) hx
  have hxne : x.val ≠ 0 := abs_pos.1 hx0
  have hxx : x.val * x.val = |x.val| ^ 2 := by rw [sq_abs, pow_two]
  have lX : LC R.u (x * x).val (|x.val| ^ 2) := by
    show LC R.u (R.rnd (x.val * x.val)) _
    rw [hxx]
    exact LC.lit hu' (by positivity)
  have hX1 : (x * x).val ≤ 1 := by
    show R.rnd (x.val * x.val) ≤ 1
    rw [← h1]
    refine hm ?_
    rw [hxx]
    exact pow_le_one₀ hx0.le hx1
  have hlX : -700 ≤ Real.log (x * x).val := by
    have a1 := (abs_le.1 lX.2.2).1
    rw [Real.log_pow] at a1
    have a2 : -348 ≤ Real.log |x.val| := by
      rw [Real.le_log_iff_exp_le hx0]
      refine le_trans ?_ hx
      rw [Real.exp_neg, show (1e-150 : ℝ) = (1e150)⁻¹ by norm_num]
      refine inv_anti₀ (by norm_num) ?_
      have := Real.exp_one_gt_d9
      have h87 : (5e37 : ℝ) ≤ Real.exp 87 := by
        rw [show (87 : ℝ) = ((87 : ℕ) : ℝ) * 1 by norm_num, Real.exp_nat_mul]
        refine le_trans ?_ (pow_le_pow_left₀ (by norm_num) (show (2.718 : ℝ) ≤ Real.exp 1 by norm_num at this ⊢; linarith) 87)
        norm_num
      rw [show (348 : ℝ) = ((4 : ℕ) : ℝ) * 87 by norm_num, Real.exp_nat_mul]
      refine le_trans ?_ (pow_le_pow_left₀ (by norm_num) h87 4)
      norm_num
    push_cast at a1
    linarith
  obtain ⟨v, ev, hv, hv2⟩ := lr_half L1 L2 hu1 hφ1 h1 h2 lX.1 hX1 hlX hn
  have h3 : ∀ y : ℝ, 1 / 2 ≤ y → 1 / 2 ≤ R.rnd y := fun y hy => by rw [← h2]; exact hm hy
  obtain ⟨g, eg, hg0, hg⟩ := C114_gamma L3 (by norm_num; linarith) h1 h2 h3 (0.5 : Fl R) (by rw [half]; norm_num)
  rw [half, Real.Gamma_one_half_eq] at hg
  have lg : LC 3e-12 g.val √Real.pi := by
    refine ⟨hg0, Real.sqrt_pos.2 Real.pi_pos, hg.trans ?_⟩
    have hl : Real.log (1 / 2 + 6.5) ≤ 6 := by
      have := Real.log_le_sub_one_of_pos (show (0 : ℝ) < 1 / 2 + 6.5 by norm_num)
      norm_num at this ⊢
      linarith
    have := mul_le_mul_of_nonneg_right (show 1200 + 7 * (1 / 2 : ℝ) + 2 * (1 / 2) * Real.log (1 / 2 + 6.5) ≤ 1210 by linarith) h0
    norm_num at this ⊢
    linarith
  set P := Stat.erfSpec √(x * x).val with hPd
  have hP0 : 0 ≤ P := by
    rw [hPd]
    unfold Stat.erfSpec
    refine mul_nonneg (by positivity) (intervalIntegral.integral_nonneg (Real.sqrt_nonneg _) fun t _ => (Real.exp_pos _).le)
  have hP1 : P ≤ 1 := Stat.erfSpec_le_one _
  have ht := erf_tail L1 L3 hu1 hφ1 hv hP0 hP1 lg
  have hroot : |√(x * x).val - (|x.val|)| ≤ 2 * R.u := by
    have := lX.sqrt
    rw [Real.sqrt_sq hx0.le] at this
    refine (this.abs_sub_le (by linarith)).trans ?_
    calc (R.u / 2 + (R.u / 2) ^ 2) * |x.val| ≤ (R.u / 2 + (R.u / 2) ^ 2) * 1 := mul_le_mul_of_nonneg_left hx1 (by positivity)
      _ ≤ 2 * R.u := by nlinarith
  have hPx : |P - Stat.erfSpec (|x.val|)| ≤ 4 * R.u := (erfSpec_lip).trans (by linarith)
  set q := (1 - (1 - v) * g / sqrt pi : Fl R) with hq
  have hqx : |q.val - Stat.erfSpec (|x.val|)| ≤ 5.31e-12 := by
    have := abs_sub_le q.val P (Stat.erfSpec (|x.val|))
    norm_num at ht ⊢
    linarith
  have hE1 := Stat.erfSpec_le_one |x.val|
  have hE0 : 0 ≤ Stat.erfSpec (|x.val|) := by
    unfold Stat.erfSpec
    refine mul_nonneg (by positivity) (intervalIntegral.integral_nonneg (abs_nonneg _) fun t _ => (Real.exp_pos _).le)
  have sgnx : |(sgnG x).val * q.val - Stat.erfSpec x.val| ≤ 5.31e-12 := by
    rcases lt_or_gt_of_ne hxne with h | h
    · have e1 : sgnG x = -1 := by
        unfold sgnG
        rw [if_neg (show ¬ (0 : Fl R) < x by rw [not_lt, Fl.le_iff]; exact h.le),
          if_neg (show ¬ ((0 : Fl R) ≤ x ∧ x ≤ 0) by rw [Fl.le_iff, Fl.le_iff]; exact fun hh => absurd hh.1 (not_le.2 h))]
      have e2 : Stat.erfSpec x.val = -Stat.erfSpec (|x.val|) := by rw [abs_of_neg h, Stat.erfSpec_neg, neg_neg]
      rw [e1, e2, show ((-1 : Fl R).val) = -1 from rfl, show -1 * q.val - -Stat.erfSpec (|x.val|) = -(q.val - Stat.erfSpec (|x.val|)) by ring,
        abs_neg]
      exact hqx
    · have e1 : sgnG x = 1 := by
        unfold sgnG
        rw [if_pos (show (0 : Fl R) < x by rw [← not_le, Fl.le_iff]; exact not_le.2 h)]
      have e2 : Stat.erfSpec x.val = Stat.erfSpec (|x.val|) := by rw [abs_of_pos h]
      rw [e1, e2, show ((1 : Fl R).val) = 1 from rfl, one_mul]
      exact hqx
  have hEx : |Stat.erfSpec x.val| ≤ 1 := by
    rcases abs_choice x.val with h | h
    · rw [← h, abs_of_nonneg hE0]; exact hE1
    · have : Stat.erfSpec x.val = -Stat.erfSpec (|x.val|) := by rw [h, Stat.erfSpec_neg, neg_neg]
      rw [this, abs_neg, abs_of_nonneg hE0]; exact hE1
  have fin : |(sgnG x * q).val - Stat.erfSpec x.val| ≤ 5.32e-12 := by
    have := R.rnd_near sgnx
    have h5 := mul_le_mul_of_nonneg_left hEx h0
    have e1 : 5.31e-12 * (1 + R.u) + R.u * |Stat.erfSpec x.val| ≤ 5.32e-12 := by
      norm_num at h5 ⊢
      linarith
    exact LE.le.trans this e1
  have ev' : erfG (lrFl ln exp pi e sin pow n) (gamFl exp sqrt pi sin pow) pi sqrt x = some (sgnG x * q) := by
    unfold erfG gammaUG gammaUrG
    rw [if_neg (show ¬ x = 0 from fun h => hxne (congrArg Fl.val h)), ev]
    simp only [Option.bind_eq_bind, Option.bind_some]
    rw [show gamFl exp sqrt pi sin pow 0.5 = some g from eg]
    rfl
  refine ⟨sgnG x * q, 1 - sgnG x * q, ev', fin.trans (by norm_num), ?_, ?_⟩
  · unfold erfcG
    rw [ev']
    rfl
  · change |R.rnd (1 - (sgnG x * q).val) - (1 - Stat.erfSpec x.val)| ≤ _
    have b1 : |1 - (sgnG x * q).val - (1 - Stat.erfSpec x.val)| ≤ 5.32e-12 := by
      rw [sub_sub_sub_cancel_left, abs_sub_comm]; exact fin
    have b2 := R.rnd_near b1
    have b3 : |1 - Stat.erfSpec x.val| ≤ 2 := by
      have := abs_le.1 hEx
      rw [abs_le]; constructor <;> linarith
    have h5 := mul_le_mul_of_nonneg_left b3 h0
    refine b2.trans ?_
    norm_num at h5 ⊢
    linarith

/-- the hypotheses are met: with 53 bits and correctly rounded library functions, `erf(-1/2)` has an error of at most `6e-12` -/
example : ∃ r : Fl (binary ℝ 53 (by norm_num)), erfG
      (lrFl (fun x => ⟨(binary ℝ 53 (by norm_num)).rnd (Real.log x.val)⟩) (fun x => ⟨(binary ℝ 53 (by norm_num)).rnd (Real.exp x.val)⟩)
        ⟨(binary ℝ 53 (by norm_num)).rnd Real.pi⟩ ⟨(binary ℝ 53 (by norm_num)).rnd (Real.exp 1)⟩
        (fun x => ⟨(binary ℝ 53 (by norm_num)).rnd (Real.sin x.val)⟩) (fun x y => ⟨(binary ℝ 53 (by norm_num)).rnd (x.val ^ y.val)⟩) 18)
      (gamFl (fun x => ⟨(binary ℝ 53 (by norm_num)).rnd (Real.exp x.val)⟩) (fun x => ⟨(binary ℝ 53 (by norm_num)).rnd (Real.sqrt x.val)⟩)
        ⟨(binary ℝ 53 (by norm_num)).rnd Real.pi⟩
        (fun x => ⟨(binary ℝ 53 (by norm_num)).rnd (Real.sin x.val)⟩) (fun x y => ⟨(binary ℝ 53 (by norm_num)).rnd (x.val ^ y.val)⟩))
      ⟨(binary ℝ 53 (by norm_num)).rnd Real.pi⟩ (fun x => ⟨(binary ℝ 53 (by norm_num)).rnd (Real.sqrt x.val)⟩) ⟨-(1 / 2)⟩ = some r ∧
      |r.val - 2 / √Real.pi * ∫ t in (0 : ℝ)..-(1 / 2), Real.exp (-t ^ 2)| ≤ 6e-12 := by
  have e : (binary ℝ 53 (by norm_num)).u = 1 / 2 ^ 53 := (one_div _).symm
  have hu : (binary ℝ 53 (by norm_num)).u ≤ 1 / 10 := by rw [e]; norm_num
  obtain ⟨r, c, hr, h, _⟩ := C121_erf (x := ⟨-(1 / 2)⟩) (correct_lnlib _ hu) (correct_inclib _ hu) (correct_lib _ (by linarith)) e.le
    (by rw [e]; norm_num) (binary_one _) (binary_half _) (binary_monotone 53 (by norm_num))
    (by rw [abs_neg, abs_of_pos (by norm_num)]; norm_num) (by rw [abs_neg, abs_of_pos (by norm_num)]; norm_num) (le_refl 18)
  exact ⟨r, hr, h⟩

end
end Special
end Verif
