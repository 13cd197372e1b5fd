import Verif.FloatStat
import Verif.IeeeProps
import Verif.GammaFnModel
import Verif.LanczosProps
import Mathlib.Analysis.SpecialFunctions.Exponential

/-!
# Property C114: the gamma function with rounding and overflow
-/

namespace Verif
open Finset

namespace Special
open Rounding

/-- `a` and `b` are positive and their logarithms differ by at most `ε` -/
def LC (ε a b : ℝ) : Prop := 0 < a ∧ 0 < b ∧ |Real.log a - Real.log b| ≤ ε

namespace LC

theorem refl {a : ℝ} (h : 0 < a) : LC 0 a a := ⟨h, h, by simp⟩

theorem mono {ε δ a b : ℝ} (h : LC ε a b) (hd : ε ≤ δ) : LC δ a b := ⟨h.1, h.2.1, h.2.2.trans hd⟩

theorem symm {ε a b : ℝ} (h : LC ε a b) : LC ε b a := ⟨h.2.1, h.1, by rw [abs_sub_comm]; exact h.2.2⟩

theorem trans {ε δ a b c : ℝ} (h : LC ε a b) (h' : LC δ b c) : LC (ε + δ) a c :=
  ⟨h.1, h'.2.1, (abs_sub_le _ (Real.log b) _).trans (add_le_add h.2.2 h'.2.2)⟩

theorem mul {ε δ a b c d : ℝ} (h : LC ε a b) (h' : LC δ c d) : LC (ε + δ) (a * c) (b * d) := by
  refine ⟨mul_pos h.1 h'.1, mul_pos h.2.1 h'.2.1, ?_⟩
  rw [Real.log_mul h.1.ne' h'.1.ne', Real.log_mul h.2.1.ne' h'.2.1.ne', add_sub_add_comm]
  exact (abs_add_le _ _).trans (add_le_add h.2.2 h'.2.2)

theorem div {ε δ a b c d : ℝ} (h : LC ε a b) (h' : LC δ c d) : LC (ε + δ) (a / c) (b / d) := by
  refine ⟨div_pos h.1 h'.1, div_pos h.2.1 h'.2.1, ?_⟩
  rw [Real.log_div h.1.ne' h'.1.ne', Real.log_div h.2.1.ne' h'.2.1.ne', sub_sub_sub_comm]
  exact (abs_sub _ _).trans (add_le_add h.2.2 h'.2.2)

theorem sqrt {ε a b : ℝ} (h : LC ε a b) : LC (ε / 2) (Real.sqrt a) (Real.sqrt b) := by
  refine ⟨Real.sqrt_pos.2 h.1, Real.sqrt_pos.2 h.2.1, ?_⟩
  rw [Real.log_sqrt h.1.le, Real.log_sqrt h.2.1.le, ← sub_div, abs_div, abs_two]
  have := h.2.2
  linarith

/-- one relative error of size `φ` -/
theorem of_rel {φ a b : ℝ} (hφ : 0 ≤ φ) (hb : 0 < b) (h1 : a ≤ (1 + φ) * b) (h2 : b ≤ (1 + φ) * a) : LC φ a b := by
  have ha : 0 < a := by
    by_contra hc
    have := mul_nonpos_of_nonneg_of_nonpos (by linarith : 0 ≤ 1 + φ) (not_lt.1 hc)
    linarith
  refine ⟨ha, hb, ?_⟩
  have h3 := Real.log_le_log ha h1
  have h4 := Real.log_le_log hb h2
  rw [Real.log_mul (by linarith) hb.ne'] at h3
  rw [Real.log_mul (by linarith) ha.ne'] at h4
  have h5 : Real.log (1 + φ) ≤ φ := by
    have := Real.log_le_sub_one_of_pos (by linarith : 0 < 1 + φ)
    linarith
  rw [abs_le]
  constructor <;> linarith

theorem rnd {R : Rounding ℝ} (hu : R.u < 1) {ε a b : ℝ} (h : LC ε a b) : LC (ε + R.u) (R.rnd a) b := by
  have h1 := Near.of_rnd hu h.1.le
  have h2 : LC R.u (R.rnd a) a := of_rel R.u_nonneg h.1 (by simpa using h1.2.1) (by simpa using h1.2.2)
  have := h2.trans h
  rwa [add_comm] at this

theorem lit {R : Rounding ℝ} (hu : R.u < 1) {c : ℝ} (hc : 0 < c) : LC R.u (R.rnd c) c := by
  simpa using (refl hc).rnd hu

theorem le_exp {ε a b : ℝ} (h : LC ε a b) : a ≤ Real.exp ε * b := by
  have h1 := (abs_le.1 h.2.2).2
  rw [← Real.exp_log h.1, ← Real.exp_log h.2.1, ← Real.exp_add]
  exact Real.exp_le_exp.2 (by linarith)

theorem of_exp {ε a b : ℝ} (ha : 0 < a) (hb : 0 < b) (h1 : a ≤ Real.exp ε * b) (h2 : b ≤ Real.exp ε * a) : LC ε a b := by
  refine ⟨ha, hb, ?_⟩
  have h3 := Real.log_le_log ha h1
  have h4 := Real.log_le_log hb h2
  rw [Real.log_mul (Real.exp_pos _).ne' hb.ne', Real.log_exp] at h3
  rw [Real.log_mul (Real.exp_pos _).ne' ha.ne', Real.log_exp] at h4
  rw [abs_le]
  constructor <;> linarith

theorem add {ε a b c d : ℝ} (h : LC ε a b) (h' : LC ε c d) : LC ε (a + c) (b + d) :=
  of_exp (add_pos h.1 h'.1) (add_pos h.2.1 h'.2.1)
    (by have := h.le_exp; have := h'.le_exp; linarith) (by have := h.symm.le_exp; have := h'.symm.le_exp; linarith)

/-- the relative difference -/
theorem abs_sub_le {ε a b : ℝ} (h : LC ε a b) (h1 : ε ≤ 1) : |a - b| ≤ (ε + ε ^ 2) * b := by
  have h0 : 0 ≤ ε := (abs_nonneg _).trans h.2.2
  have e1 : Real.exp ε ≤ 1 + ε + ε ^ 2 := by
    have := abs_le.1 (Real.abs_exp_sub_one_sub_id_le (x := ε) (by rw [abs_of_nonneg h0]; exact h1))
    linarith [this.2]
  have e2 : 1 - ε ≤ Real.exp (-ε) := by
    have := Real.add_one_le_exp (-ε)
    linarith
  have h2 := h.le_exp.trans (mul_le_mul_of_nonneg_right e1 h.2.1.le)
  have h3 : (1 - ε) * b ≤ a := by
    refine (mul_le_mul_of_nonneg_right e2 h.2.1.le).trans ?_
    have := mul_le_mul_of_nonneg_left h.symm.le_exp (Real.exp_pos (-ε)).le
    rwa [← mul_assoc, ← Real.exp_add, neg_add_cancel, Real.exp_zero, one_mul] at this
  have h4 : 0 ≤ ε ^ 2 * b := mul_nonneg (sq_nonneg _) h.2.1.le
  rw [abs_le]
  constructor <;> linarith

/-- from an absolute error of at most `θ b` with `θ ≤ 1 / 10` -/
theorem of_abs {θ a b : ℝ} (hb : 0 < b) (hθ : 0 ≤ θ) (hθ1 : θ ≤ 1 / 10) (h : |a - b| ≤ θ * b) : LC (10 / 9 * θ) a b := by
  have h1 := abs_le.1 h
  have h2 : 9 / 10 * b ≤ a := by nlinarith
  have ha : 0 < a := by linarith
  refine of_rel (by positivity) hb ?_ ?_
  · nlinarith [mul_nonneg hθ hb.le]
  · nlinarith [mul_le_mul_of_nonneg_left h2 hθ]

end LC

/-! ### The sum -/

section Sum
variable {R : Rounding ℝ}

theorem acc {m : ℕ} {s s' p p' T P : ℝ} (h1 : |s' - s| ≤ R.gam m * T) (h2 : |p' - p| ≤ R.gam m * P) (hs : |s| ≤ T)
    (hp : |p| ≤ P) : |R.rnd (s' + p') - (s + p)| ≤ R.gam (m + 1) * (T + P) ∧ |s + p| ≤ T + P := by
  have h3 : |s + p| ≤ T + P := (abs_add_le _ _).trans (add_le_add hs hp)
  refine ⟨?_, h3⟩
  have h4 : |s' + p' - (s + p)| ≤ R.gam m * (T + P) := by
    rw [add_sub_add_comm, mul_add]
    exact (abs_add_le _ _).trans (add_le_add h1 h2)
  have h5 := R.rnd_near h4
  have h6 := mul_le_mul_of_nonneg_left h3 R.u_nonneg
  rw [R.gam_succ]
  linarith

theorem acc_sub {m : ℕ} {s s' p p' T P : ℝ} (h1 : |s' - s| ≤ R.gam m * T) (h2 : |p' - p| ≤ R.gam m * P) (hs : |s| ≤ T)
    (hp : |p| ≤ P) : |R.rnd (s' - p') - (s - p)| ≤ R.gam (m + 1) * (T + P) ∧ |s - p| ≤ T + P := by
  have := acc (p := -p) (p' := -p') h1 (by rw [← neg_sub', abs_neg]; exact h2) hs (by rw [abs_neg]; exact hp)
  simpa only [← sub_eq_add_neg] using this

/-- the rounded quotient `c / (z + k)` of two literals -/
theorem term_fl (hu : R.u < 1) {z : Fl R} (hz : 0 < z.val) {c k : ℝ} (hc : 0 < c) (hk : 0 ≤ k) {m : ℕ} (hm : 4 ≤ m) :
    |R.rnd (R.rnd c / R.rnd (z.val + R.rnd k)) - c / (z.val + k)| ≤ R.gam m * (c / (z.val + k)) ∧
      |c / (z.val + k)| ≤ c / (z.val + k) := by
  have h1 := Near.of_rnd hu hc.le
  have h2 := (((Near.refl (R := R) hz.le).mono (by omega : 0 ≤ 1)).add (Near.of_rnd hu hk)).rnd hu
  have h3 := (((h1.div h2 (by linarith)).rnd hu).mono (by omega : _ ≤ m)).abs_sub_le
  exact ⟨h3, (abs_of_nonneg (by positivity)).le⟩

theorem term_fl0 (hu : R.u < 1) {z : Fl R} (hz : 0 < z.val) {c : ℝ} (hc : 0 < c) {m : ℕ} (hm : 4 ≤ m) :
    |R.rnd (R.rnd c / z.val) - c / z.val| ≤ R.gam m * (c / z.val) ∧ |c / z.val| ≤ c / z.val := by
  have h1 := Near.of_rnd hu hc.le
  have h3 := (((h1.div (Near.refl (R := R) hz.le) hz).rnd hu).mono (by omega : _ ≤ m)).abs_sub_le
  exact ⟨h3, (abs_of_nonneg (by positivity)).le⟩

/-- the sum of the absolute values -/
noncomputable def lanczosAbs (z : ℝ) : ℝ :=
  0.99999999999980993 + 676.5203681218851 / z
    + 1259.1392167224028 / (z + 1.0)
    + 771.32342877765313 / (z + 2.0)
    + 176.61502916214059 / (z + 3.0)
    + 12.507343278686905 / (z + 4.0)
    + 0.13857109526572012 / (z + 5.0)
    + 9.9843695780195716e-6 / (z + 6.0)
    + 1.5056327351493116e-7 / (z + 7.0)

theorem lanczosSum_fl (hu : R.u < 1) {z : Fl R} (hz : 0 < z.val) :
    |(lanczosSumG z).val - lanczosSumG z.val| ≤ R.gam 12 * lanczosAbs z.val := by
  have h0 : |R.rnd 0.99999999999980993 - 0.99999999999980993| ≤ R.gam 4 * 0.99999999999980993 ∧
      |(0.99999999999980993 : ℝ)| ≤ 0.99999999999980993 :=
    ⟨((Near.of_rnd hu (by norm_num)).mono (by omega)).abs_sub_le, (abs_of_nonneg (by norm_num)).le⟩
  have t1 := term_fl0 hu hz (c := 676.5203681218851) (by norm_num) (m := 4) (by omega)
  have a1 := acc h0.1 t1.1 h0.2 t1.2
  have t2 := term_fl hu hz (c := 1259.1392167224028) (k := 1.0) (by norm_num) (by norm_num) (m := 5) (by omega)
  have a2 := acc_sub a1.1 t2.1 a1.2 t2.2
  have t3 := term_fl hu hz (c := 771.32342877765313) (k := 2.0) (by norm_num) (by norm_num) (m := 6) (by omega)
  have a3 := acc a2.1 t3.1 a2.2 t3.2
  have t4 := term_fl hu hz (c := 176.61502916214059) (k := 3.0) (by norm_num) (by norm_num) (m := 7) (by omega)
  have a4 := acc_sub a3.1 t4.1 a3.2 t4.2
  have t5 := term_fl hu hz (c := 12.507343278686905) (k := 4.0) (by norm_num) (by norm_num) (m := 8) (by omega)
  have a5 := acc a4.1 t5.1 a4.2 t5.2
  have t6 := term_fl hu hz (c := 0.13857109526572012) (k := 5.0) (by norm_num) (by norm_num) (m := 9) (by omega)
  have a6 := acc_sub a5.1 t6.1 a5.2 t6.2
  have t7 := term_fl hu hz (c := 9.9843695780195716e-6) (k := 6.0) (by norm_num) (by norm_num) (m := 10) (by omega)
  have a7 := acc a6.1 t7.1 a6.2 t7.2
  have t8 := term_fl hu hz (c := 1.5056327351493116e-7) (k := 7.0) (by norm_num) (by norm_num) (m := 11) (by omega)
  exact (acc a7.1 t8.1 a7.2 t8.2).1

end Sum

/-- the cancellation in the sum is at most a factor of 70 -/
theorem lanczosAbs_le {z : ℝ} (hz : 1 / 2 ≤ z) : lanczosAbs z ≤ 70 * lanczosSumG z := by
  obtain ⟨y, hy, rfl⟩ : ∃ y, 0 ≤ y ∧ z = y + 1 / 2 := ⟨z - 1 / 2, by linarith, by ring⟩
  have h : 70 * lanczosSumG (y + 1 / 2) - lanczosAbs (y + 1 / 2) =
      (1310606198704741305851183859588135 + 1384348237967351812697662958791014 * y
        + 601201903468917142701504108844684 * y ^ 2 + 134771062512427406762775856388152 * y ^ 3
        + 15921705152501791654696908109520 * y ^ 4 + 902625045987319890134034805536 * y ^ 5
        + 29869933585476159685559539776 * y ^ 6 + 3276285971331310648962209408 * y ^ 7
        + 220799999999958032544000000 * y ^ 8) / (3200000000000000000000000 *
    ((y + 1 / 2) * (y + 1 / 2 + 1) * (y + 1 / 2 + 2) * (y + 1 / 2 + 3) * (y + 1 / 2 + 4) * (y + 1 / 2 + 5)
      * (y + 1 / 2 + 6) * (y + 1 / 2 + 7))) := by
    unfold lanczosSumG lanczosAbs
    have e1 : (1.0 : ℝ) = 1 := by norm_num
    have e2 : (2.0 : ℝ) = 2 := by norm_num
    have e3 : (3.0 : ℝ) = 3 := by norm_num
    have e4 : (4.0 : ℝ) = 4 := by norm_num
    have e5 : (5.0 : ℝ) = 5 := by norm_num
    have e6 : (6.0 : ℝ) = 6 := by norm_num
    have e7 : (7.0 : ℝ) = 7 := by norm_num
    rw [e1, e2, e3, e4, e5, e6, e7]
    field_simp
    ring
  have h2 : 0 ≤ 70 * lanczosSumG (y + 1 / 2) - lanczosAbs (y + 1 / 2) := by
    rw [h]; positivity
  linarith

theorem lanczosAbs_pos {z : ℝ} (hz : 0 < z) : 0 < lanczosAbs z := by unfold lanczosAbs; positivity

section Gamma
variable {R : Rounding ℝ}

theorem gam12 (hu : R.u ≤ 1e-4) : R.gam 12 ≤ 13 * R.u := by
  have h0 := R.u_nonneg
  have h1 : (1 + R.u) ^ 12 ≤ Real.exp (12 * R.u) := by
    have := pow_le_pow_left₀ (by linarith) (by linarith [Real.add_one_le_exp R.u] : 1 + R.u ≤ Real.exp R.u) 12
    rwa [← Real.exp_nat_mul] at this
  have h2 := (abs_le.1 (Real.abs_exp_sub_one_sub_id_le (x := 12 * R.u) (by
    rw [abs_of_nonneg (by linarith)]; norm_num at hu ⊢; linarith))).2
  unfold Rounding.gam
  norm_num at hu
  nlinarith

theorem lanczosSum_lc (hu : R.u ≤ 1e-4) {z : Fl R} (hz : 1 / 2 ≤ z.val) :
    LC (1100 * R.u) (lanczosSumG z).val (lanczosSumG z.val) := by
  have h0 := R.u_nonneg
  have hu' : R.u < 1 := by norm_num at hu; linarith
  have h1 := lanczosSum_fl hu' (z := z) (by linarith)
  have h2 := lanczosAbs_le hz
  have h3 := lanczosAbs_pos (z := z.val) (by linarith)
  have hS : 0 < lanczosSumG z.val := by linarith
  have h4 : |(lanczosSumG z).val - lanczosSumG z.val| ≤ (910 * R.u) * lanczosSumG z.val := by
    refine h1.trans ((mul_le_mul (gam12 hu) h2 h3.le (by linarith)).trans (le_of_eq (by ring)))
  refine (LC.of_abs hS (by linarith) (by norm_num at hu; linarith) h4).mono (by linarith)

/-- The library functions of `gamma` with the relative error `φ`: each returns a value between `1 / (1 + φ)` times and `1 + φ`
times the true one; `pi` is the rounded constant. -/
structure GammaLib (R : Rounding ℝ) (φ : ℝ) (pi : Fl R) (sqrt exp sin : Fl R → Fl R) (pow : Fl R → Fl R → Fl R) : Prop where
  nonneg : 0 ≤ φ
  pi_eq : pi.val = R.rnd Real.pi
  sqrt_le : ∀ x : Fl R, 0 < x.val → (sqrt x).val ≤ (1 + φ) * Real.sqrt x.val ∧ Real.sqrt x.val ≤ (1 + φ) * (sqrt x).val
  exp_le : ∀ x : Fl R, (exp x).val ≤ (1 + φ) * Real.exp x.val ∧ Real.exp x.val ≤ (1 + φ) * (exp x).val
  sin_le : ∀ x : Fl R, 0 < x.val → x.val < 2 →
    (sin x).val ≤ (1 + φ) * Real.sin x.val ∧ Real.sin x.val ≤ (1 + φ) * (sin x).val
  pow_le : ∀ x y : Fl R, 0 < x.val →
    (pow x y).val ≤ (1 + φ) * x.val ^ y.val ∧ x.val ^ y.val ≤ (1 + φ) * (pow x y).val

variable {φ : ℝ} {pi : Fl R} {sqrt exp sin : Fl R → Fl R} {pow : Fl R → Fl R → Fl R}

theorem lc_exp {a b δ : ℝ} (h : |a - b| ≤ δ) : LC δ (Real.exp a) (Real.exp b) :=
  ⟨Real.exp_pos _, Real.exp_pos _, by rwa [Real.log_exp, Real.log_exp]⟩

/-- the Lanczos formula with rounding against the exact one -/
theorem lanczos_lc (L : GammaLib R φ pi sqrt exp sin pow) (hu : R.u ≤ 1e-4) {z : Fl R} (hz : 1 / 2 ≤ z.val) :
    LC (4 * φ + (1130 + 7 * z.val + 2 * z.val * Real.log (z.val + 6.5)) * R.u) (lanczosG pi sqrt exp pow z).val
      (lanczos z.val) := by
  have h0 := R.u_nonneg
  have hu4 : R.u ≤ 1 / 10000 := by norm_num at hu ⊢; linarith
  have hu' : R.u < 1 := by linarith
  have hz0 : 0 < z.val := by linarith
  have hφ := L.nonneg
  obtain ⟨t, ht⟩ : ∃ t : Fl R, t = z + 6.5 := ⟨_, rfl⟩
  obtain ⟨e, he⟩ : ∃ e : Fl R, e = z - 0.5 := ⟨_, rfl⟩
  have lt : LC (2 * R.u) t.val (z.val + 6.5) := by
    have := (((LC.refl hz0).mono h0).add (LC.lit hu' (by norm_num : (0 : ℝ) < 6.5))).rnd hu'
    rw [ht]
    refine LC.mono this (by linarith)
  have hT : (7 : ℝ) ≤ z.val + 6.5 := by norm_num; linarith
  have at' : |t.val - (z.val + 6.5)| ≤ 3 * R.u * (z.val + 6.5) := by
    refine (lt.abs_sub_le (by linarith)).trans (mul_le_mul_of_nonneg_right (by nlinarith) (by linarith))
  have ae : |e.val - (z.val - 0.5)| ≤ 2 * R.u * z.val := by
    have h1 : |(z.val - R.rnd 0.5) - (z.val - 0.5)| ≤ R.u * (1 / 2) := by
      rw [sub_sub_sub_cancel_left, abs_sub_comm]
      have := R.err 0.5
      rwa [show |(0.5 : ℝ)| = 1 / 2 by rw [abs_of_nonneg (by norm_num)]; norm_num] at this
    have h2 := R.rnd_near h1
    rw [abs_of_nonneg (by norm_num; linarith : 0 ≤ z.val - 0.5)] at h2
    rw [he]
    refine LE.le.trans h2 ?_
    norm_num
    nlinarith
  have lp : LC (φ + (3 * z.val + 2 * z.val * Real.log (z.val + 6.5)) * R.u) (pow t e).val ((z.val + 6.5) ^ (z.val - 0.5)) := by
    have h1 := L.pow_le t e lt.1
    have h2 := LC.of_rel hφ (Real.rpow_pos_of_pos lt.1 _) h1.1 h1.2
    refine h2.trans ⟨Real.rpow_pos_of_pos lt.1 _, Real.rpow_pos_of_pos lt.2.1 _, ?_⟩
    rw [Real.log_rpow lt.1, Real.log_rpow lt.2.1]
    have hl : 0 ≤ Real.log (z.val + 6.5) := Real.log_nonneg (by linarith)
    have h3 : |e.val| ≤ 3 / 2 * z.val := by
      have h4 := abs_le.1 ae
      have h5 : R.u * z.val ≤ 1 / 10000 * z.val := mul_le_mul_of_nonneg_right hu4 hz0.le
      norm_num at h4
      rw [abs_le]
      constructor <;> linarith
    have h6 : e.val * Real.log t.val - (z.val - 0.5) * Real.log (z.val + 6.5) =
        e.val * (Real.log t.val - Real.log (z.val + 6.5)) + (e.val - (z.val - 0.5)) * Real.log (z.val + 6.5) := by ring
    rw [h6]
    refine (abs_add_le _ _).trans ?_
    rw [abs_mul, abs_mul, abs_of_nonneg hl]
    have h7 := mul_le_mul h3 lt.2.2 (abs_nonneg _) (by linarith)
    have h8 := mul_le_mul_of_nonneg_right ae hl
    refine (add_le_add h7 h8).trans (le_of_eq (by ring))
  have lx : LC (φ + 3 * R.u * (z.val + 6.5)) (exp (-t)).val (Real.exp (-(z.val + 6.5))) := by
    have h1 := L.exp_le (-t)
    refine (LC.of_rel hφ (Real.exp_pos _) h1.1 h1.2).trans (lc_exp ?_)
    change |-t.val - -(z.val + 6.5)| ≤ _
    rw [neg_sub_neg, abs_sub_comm]
    exact at'
  have ls2 : LC (φ + R.u / 2) (sqrt 2.0).val (Real.sqrt 2) := by
    have h1 : LC R.u (2.0 : Fl R).val 2 := by
      have := LC.lit hu' (by norm_num : (0 : ℝ) < 2.0)
      norm_num at this
      show LC R.u (R.rnd 2.0) 2
      norm_num
      exact this
    have h2 := L.sqrt_le _ h1.1
    exact (LC.of_rel hφ (Real.sqrt_pos.2 h1.1) h2.1 h2.2).trans h1.sqrt
  have lspi : LC (φ + R.u / 2) (sqrt pi).val (Real.sqrt Real.pi) := by
    have h1 : LC R.u pi.val Real.pi := by rw [L.pi_eq]; exact LC.lit hu' Real.pi_pos
    have h2 := L.sqrt_le _ h1.1
    exact (LC.of_rel hφ (Real.sqrt_pos.2 h1.1) h2.1 h2.2).trans h1.sqrt
  have key := ((((((((ls2.mul lspi).rnd hu').mul lp).rnd hu').mul lx).rnd hu').mul (lanczosSum_lc hu hz)).rnd hu')
  have e1 : (lanczosG pi sqrt exp pow z).val = R.rnd (R.rnd (R.rnd (R.rnd ((sqrt 2.0).val * (sqrt pi).val) * (pow t e).val)
      * (exp (-t)).val) * (lanczosSumG z).val) := by
    rw [ht, he]; rfl
  have e2 : lanczos z.val = Real.sqrt 2 * Real.sqrt Real.pi * (z.val + 6.5) ^ (z.val - 0.5) * Real.exp (-(z.val + 6.5))
      * lanczosSumG z.val := by
    rw [← lanczosG_real]
    unfold lanczosG
    norm_num
  rw [e1, e2]
  refine key.mono ?_
  norm_num
  nlinarith [mul_nonneg h0 hz0.le]

/-! ### The reflection -/

theorem mul_sin_mono : MonotoneOn (fun x : ℝ => x * Real.sin x) (Set.Icc 0 1.6) := by
  refine monotoneOn_of_deriv_nonneg (convex_Icc _ _) (by fun_prop) (by fun_prop) ?_
  intro x hx
  rw [interior_Icc] at hx
  obtain ⟨h0, h1⟩ := hx
  have hd : HasDerivAt (fun x : ℝ => x * Real.sin x) (1 * Real.sin x + x * Real.cos x) x :=
    (hasDerivAt_id x).mul (Real.hasDerivAt_sin x)
  rw [hd.deriv]
  have hpi := Real.pi_gt_d2
  norm_num at h1 hpi
  by_cases hc : x ≤ Real.pi / 2
  · have h2 := Real.sin_nonneg_of_nonneg_of_le_pi h0.le (by linarith)
    have h3 := Real.cos_nonneg_of_neg_pi_div_two_le_of_le (by linarith) hc
    have := mul_nonneg h0.le h3
    linarith
  · rw [not_le] at hc
    have h2 : Real.sin x = Real.cos (x - Real.pi / 2) := (Real.cos_sub_pi_div_two x).symm
    have h3 : Real.cos x = -Real.sin (x - Real.pi / 2) := by rw [Real.sin_sub_pi_div_two]; ring
    have h4 := Real.one_sub_sq_div_two_le_cos (x := x - Real.pi / 2)
    have h5 := Real.sin_le (x := x - Real.pi / 2) (by linarith)
    rw [h2, h3]
    have h6 : x - Real.pi / 2 ≤ 1 / 10 := by linarith
    have h7 : 0 ≤ x - Real.pi / 2 := by linarith
    nlinarith

theorem sin_lc {ε a b : ℝ} (h : LC ε a b) (ha : a ≤ 1.6) (hb : b ≤ 1.6) : LC ε (Real.sin a) (Real.sin b) := by
  wlog hab : a ≤ b generalizing a b
  · exact (this h.symm hb ha (not_le.1 hab).le).symm
  have hpi := Real.pi_gt_d2
  have hb' : b < Real.pi := by norm_num at hb hpi; linarith
  have sa := Real.sin_pos_of_pos_of_lt_pi h.1 (by linarith)
  have sb := Real.sin_pos_of_pos_of_lt_pi h.2.1 hb'
  have k1 : a * Real.sin b ≤ b * Real.sin a := by
    have q1 : 0 ≤ 1 - a / b := by have := (div_le_one h.2.1).2 hab; linarith
    have q0 : (0 : ℝ) ∈ Set.Icc 0 Real.pi := ⟨le_rfl, Real.pi_pos.le⟩
    have qb : b ∈ Set.Icc 0 Real.pi := ⟨h.2.1.le, hb'.le⟩
    have hc := strictConcaveOn_sin_Icc.concaveOn.2 q0 qb q1 (div_nonneg h.1.le h.2.1.le) (by ring)
    simp only [smul_eq_mul, mul_zero, zero_add, Real.sin_zero] at hc
    rw [div_mul_cancel₀ _ h.2.1.ne', div_mul_eq_mul_div, div_le_iff₀ h.2.1] at hc
    linarith
  have k2 : a * Real.sin a ≤ b * Real.sin b := mul_sin_mono ⟨h.1.le, ha⟩ ⟨h.2.1.le, hb⟩ hab
  have l1 := Real.log_le_log (mul_pos h.1 sb) k1
  have l2 := Real.log_le_log (mul_pos h.1 sa) k2
  rw [Real.log_mul h.1.ne' sb.ne', Real.log_mul h.2.1.ne' sa.ne'] at l1
  rw [Real.log_mul h.1.ne' sa.ne', Real.log_mul h.2.1.ne' sb.ne'] at l2
  refine ⟨sa, sb, ?_⟩
  have h3 := abs_le.1 h.2.2
  rw [abs_le]
  constructor <;> linarith

theorem log_Gamma_two : Real.log (Real.Gamma 2) = 0 := by rw [Real.Gamma_two, Real.log_one]

/-- `log Γ` between 1 and 2 -/
theorem log_Gamma_bounds {x : ℝ} (h1 : 1 ≤ x) (h2 : x ≤ 2) : -Real.log 2 ≤ Real.log (Real.Gamma x) ∧ Real.log (Real.Gamma x) ≤ 0 := by
  have hc := Real.convexOn_log_Gamma
  have g3 : Real.log (Real.Gamma 3) = Real.log 2 := by
    rw [show (3 : ℝ) = 2 + 1 by norm_num, Real.Gamma_add_one (by norm_num), Real.Gamma_two, mul_one]
  have hl : 0 < Real.log 2 := Real.log_pos (by norm_num)
  constructor
  · rcases h2.lt_or_eq with h | h
    · have := hc.slope_mono_adjacent (x := x) (y := 2) (z := 3) (by simp; linarith) (by simp) h (by norm_num)
      simp only [Function.comp, log_Gamma_two, g3] at this
      rw [div_le_iff₀ (by linarith)] at this
      nlinarith
    · rw [h, log_Gamma_two]; linarith
  · have q1 : (1 : ℝ) ∈ Set.Ioi 0 := by simp
    have q2 : (2 : ℝ) ∈ Set.Ioi 0 := by simp
    have := hc.2 q1 q2 (by linarith : 0 ≤ 2 - x) (by linarith : 0 ≤ x - 1) (by ring)
    simp only [Function.comp, smul_eq_mul, log_Gamma_two, Real.Gamma_one, Real.log_one] at this
    rw [show (2 - x) * 1 + (x - 1) * 2 = x by ring] at this
    linarith

theorem log_Gamma_lip_aux {a b : ℝ} (ha : 1 / 2 ≤ a) (hab : a < b) (hb : b ≤ 1.1) :
    |Real.log (Real.Gamma a) - Real.log (Real.Gamma b)| ≤ 9 * (b - a) := by
  have hc := Real.convexOn_log_Gamma
  have hl := Real.log_two_lt_d9
  have hl0 : 0 < Real.log 2 := Real.log_pos (by norm_num)
  norm_num at hb hl
  have low : ∀ x : ℝ, 1 / 2 ≤ x → x ≤ 2 → -Real.log 2 ≤ Real.log (Real.Gamma x) := by
    intro x h1 h2
    by_cases h : 1 ≤ x
    · exact (log_Gamma_bounds h h2).1
    · rw [not_le] at h
      have h3 := (log_Gamma_bounds (x := x + 1) (by linarith) (by linarith)).1
      rw [Real.Gamma_add_one (by linarith), Real.log_mul (by linarith) (Real.Gamma_pos_of_pos (by linarith)).ne'] at h3
      have := Real.log_nonpos (by linarith : 0 ≤ x) h.le
      linarith
  have g14 : Real.log (Real.Gamma (1 / 4)) ≤ 2 * Real.log 2 := by
    have h3 := (log_Gamma_bounds (x := 1 / 4 + 1) (by norm_num) (by norm_num)).2
    rw [Real.Gamma_add_one (by norm_num), Real.log_mul (by norm_num) (Real.Gamma_pos_of_pos (by norm_num)).ne',
      show (1 / 4 : ℝ) = (2 ^ 2)⁻¹ by norm_num, Real.log_inv, Real.log_pow] at h3
    rw [show (1 / 4 : ℝ) = (2 ^ 2)⁻¹ by norm_num]
    push_cast at h3
    linarith
  have s1 := hc.slope_mono_adjacent (x := 1 / 4) (y := a) (z := b) (by simp) (by simp; linarith) (by linarith) hab
  have s2 := hc.slope_mono_adjacent (x := a) (y := b) (z := 2) (by simp; linarith) (by simp) hab (by linarith)
  simp only [Function.comp, log_Gamma_two] at s1 s2
  have la := low a ha (by linarith)
  have lb := low b (by linarith) (by linarith)
  have k1 : -9 ≤ (Real.log (Real.Gamma a) - Real.log (Real.Gamma (1 / 4))) / (a - 1 / 4) := by
    rw [le_div_iff₀ (by linarith)]
    linarith
  have k2 : (0 - Real.log (Real.Gamma b)) / (2 - b) ≤ 9 := by
    rw [div_le_iff₀ (by linarith)]
    linarith
  have m1 := k1.trans s1
  have m2 := s2.trans k2
  rw [le_div_iff₀ (by linarith)] at m1
  rw [div_le_iff₀ (by linarith)] at m2
  rw [abs_le]
  constructor <;> linarith

theorem log_Gamma_lip {a b : ℝ} (ha : 1 / 2 ≤ a) (hb : 1 / 2 ≤ b) (ha' : a ≤ 1.1) (hb' : b ≤ 1.1) :
    |Real.log (Real.Gamma a) - Real.log (Real.Gamma b)| ≤ 9 * |a - b| := by
  rcases lt_trichotomy a b with h | h | h
  · have := log_Gamma_lip_aux ha h hb'
    rwa [abs_sub_comm a b, abs_of_pos (by linarith : 0 < b - a)]
  · simp [h]
  · have := log_Gamma_lip_aux hb h ha'
    rw [abs_sub_comm]
    rwa [abs_of_pos (by linarith : 0 < a - b)]

theorem Gamma_lc {z : ℝ} (hz : 1 / 2 ≤ z) : LC 2.6e-12 (lanczos z) (Real.Gamma z) :=
  ⟨lanczos_pos (by linarith), Real.Gamma_pos_of_pos (by linarith), log_lanczos_error hz⟩

/-- **C114** (`/repo/src/special/gamma.rs:256-282`, `gamma` for positive arguments, with rounding, without overflow): if the
library functions have a relative error of at most `φ` and each operation one of at most `u ≤ 10⁻⁴`, then the result is positive
and its logarithm differs from `log Γ(z)` by at most `2.6e-12 + 5 φ + (1200 + 7 z + 2 z log (z + 6.5)) u`: the first
term belongs to the formula, and the rounding errors grow with `z log z`.  Of the rounding it is used that 1 and 1/2 are numbers
of the format and that nothing larger is rounded to less than 1/2. -/
theorem C114_gamma (L : GammaLib R φ pi sqrt exp sin pow) (hu : R.u ≤ 1e-4) (h1 : R.rnd 1 = 1) (h2 : R.rnd (1 / 2) = 1 / 2)
    (h3 : ∀ x : ℝ, 1 / 2 ≤ x → 1 / 2 ≤ R.rnd x) (z : Fl R) (hz : 0 < z.val) :
    ∃ g : Fl R, gammaG (fun a b => some (a / b)) pi sqrt exp sin pow z = some g ∧ 0 < g.val ∧
      |Real.log g.val - Real.log (Real.Gamma z.val)| ≤
        2.6e-12 + 5 * φ + (1200 + 7 * z.val + 2 * z.val * Real.log (z.val + 6.5)) * R.u := by
  have h0 := R.u_nonneg
  have hφ := L.nonneg
  have hu4 : R.u ≤ 1 / 10000 := by norm_num at hu ⊢; linarith
  have hu' : R.u < 1 := by linarith
  have hz0 : z ≠ 0 := by
    rintro rfl
    exact absurd hz (lt_irrefl _)
  have half : (0.5 : Fl R).val = 1 / 2 := by
    show R.rnd 0.5 = 1 / 2
    rw [show (0.5 : ℝ) = 1 / 2 by norm_num, h2]
  have hlt : z < 0.5 ↔ z.val < 1 / 2 := by rw [← half]; rfl
  have hlog : 0 ≤ Real.log (z.val + 6.5) := Real.log_nonneg (by norm_num; linarith)
  unfold gammaG
  rw [if_neg hz0]
  by_cases hc : z.val < 1 / 2
  · rw [if_pos (hlt.2 hc)]
    refine ⟨_, rfl, ?_⟩
    obtain ⟨w, hw⟩ : ∃ w : Fl R, w = 1.0 - z := ⟨_, rfl⟩
    have wv : w.val = R.rnd (1 - z.val) := by
      rw [hw]
      show R.rnd (R.rnd 1.0 - z.val) = _
      rw [show (1.0 : ℝ) = 1 by norm_num, h1]
    have w1 : 1 / 2 ≤ w.val := by rw [wv]; exact h3 _ (by linarith)
    have w2 : |w.val - (1 - z.val)| ≤ R.u := by
      rw [wv]
      refine (R.err _).trans ?_
      rw [abs_of_nonneg (by linarith)]
      nlinarith
    have w3 : w.val ≤ 1.1 := by have := (abs_le.1 w2).2; norm_num; linarith
    have l1 := lanczos_lc L hu w1
    have l2 : LC (2.6e-12 : ℝ) (lanczos w.val) (Real.Gamma w.val) := Gamma_lc w1
    have l3 : LC (9 * R.u) (Real.Gamma w.val) (Real.Gamma (1 - z.val)) :=
      ⟨Real.Gamma_pos_of_pos (by linarith), Real.Gamma_pos_of_pos (by linarith),
        (log_Gamma_lip w1 (by linarith) w3 (by norm_num; linarith)).trans (by linarith)⟩
    have lpi : LC R.u pi.val Real.pi := by rw [L.pi_eq]; exact LC.lit hu' Real.pi_pos
    have lx : LC (2 * R.u) (pi * z).val (Real.pi * z.val) :=
      LC.mono ((lpi.mul (LC.refl hz)).rnd hu') (by linarith)
    have hpi := Real.pi_lt_d2
    norm_num at hpi
    have x1 : Real.pi * z.val ≤ 1.575 := by norm_num; nlinarith [Real.pi_pos]
    have x2 : (pi * z).val ≤ 1.6 := by
      have := (abs_le.1 (lx.abs_sub_le (by linarith))).2
      norm_num at x1 ⊢
      nlinarith [lx.2.1]
    have ls : LC (φ + 2 * R.u) (sin (pi * z)).val (Real.sin (Real.pi * z.val)) := by
      have a1 := L.sin_le (pi * z) lx.1 (by norm_num at x2; linarith)
      have a2 := sin_lc lx x2 (by norm_num at x1 ⊢; linarith)
      exact (LC.of_rel hφ a2.1 a1.1 a1.2).trans a2
    have key := (lpi.div ((ls.mul ((l1.trans l2).trans l3)).rnd hu')).rnd hu'
    have eG : Real.Gamma z.val = Real.pi / (Real.sin (Real.pi * z.val) * Real.Gamma (1 - z.val)) := by
      have h := Real.Gamma_mul_Gamma_one_sub z.val
      have hG := Real.Gamma_pos_of_pos (show 0 < 1 - z.val by linarith)
      have hs := ls.2.1
      rw [eq_div_iff (by positivity), mul_left_comm, h]
      field_simp
    rw [← eG] at key
    have key2 : LC (2.6e-12 + 5 * φ + 1200 * R.u) (pi / (sin (pi * z) * lanczosG pi sqrt exp pow (1.0 - z))).val
        (Real.Gamma z.val) := by
      rw [← hw]
      refine LC.mono key ?_
      have lw : Real.log (w.val + 6.5) ≤ 3 := by
        have a1 : w.val + 6.5 ≤ 2 ^ 3 := by norm_num at w3 ⊢; linarith
        have a2 := Real.log_le_log (by linarith) a1
        rw [Real.log_pow] at a2
        have a3 := Real.log_two_lt_d9
        norm_num at a2 a3 ⊢
        linarith
      have a4 : 2 * w.val * Real.log (w.val + 6.5) ≤ 2 * w.val * 3 := mul_le_mul_of_nonneg_left lw (by linarith)
      have a5 : (1130 + 7 * w.val + 2 * w.val * Real.log (w.val + 6.5)) * R.u ≤ 1150 * R.u := by
        refine mul_le_mul_of_nonneg_right ?_ h0
        norm_num at w3
        linarith
      linarith
    refine ⟨key2.1, key2.2.2.trans ?_⟩
    have : 0 ≤ (7 * z.val + 2 * z.val * Real.log (z.val + 6.5)) * R.u := by positivity
    linarith
  · rw [if_neg (fun h => hc (hlt.1 h))]
    rw [not_lt] at hc
    have key := (lanczos_lc L hu hc).trans (Gamma_lc hc)
    refine ⟨_, rfl, key.1, key.2.2.trans ?_⟩
    linarith

/-- **C114**, in the precision of `f64` (`u = 2⁻⁵³`) with library functions that are correct up to two units `2⁻⁵³` and
arguments up to 142: the relative error of `gamma` is at most `3.1e-12`. -/
theorem C114_relative (L : GammaLib R φ pi sqrt exp sin pow) (hu : R.u ≤ 1 / 2 ^ 53) (hφ : φ ≤ 1 / 2 ^ 52) (h1 : R.rnd 1 = 1)
    (h2 : R.rnd (1 / 2) = 1 / 2) (h3 : ∀ x : ℝ, 1 / 2 ≤ x → 1 / 2 ≤ R.rnd x) (z : Fl R) (hz : 0 < z.val) (hz' : z.val ≤ 142) :
    ∃ g : Fl R, gammaG (fun a b => some (a / b)) pi sqrt exp sin pow z = some g ∧
      |g.val - Real.Gamma z.val| ≤ 3.1e-12 * Real.Gamma z.val := by
  have h0 := R.u_nonneg
  obtain ⟨g, e, hg, hb⟩ := C114_gamma L (hu.trans (by norm_num)) h1 h2 h3 z hz
  refine ⟨g, e, ?_⟩
  have hG := Real.Gamma_pos_of_pos hz
  have hl : Real.log (z.val + 6.5) ≤ 6 := by
    have a1 : z.val + 6.5 ≤ 2 ^ 8 := by norm_num; linarith
    have a2 := Real.log_le_log (by norm_num; linarith) a1
    rw [Real.log_pow] at a2
    have a3 := Real.log_two_lt_d9
    norm_num at a2 a3 ⊢
    linarith
  have h4 : 2 * z.val * Real.log (z.val + 6.5) ≤ 2 * 142 * 6 := by
    refine mul_le_mul (by linarith) hl (Real.log_nonneg (by norm_num; linarith)) (by norm_num)
  have h5 : (1200 + 7 * z.val + 2 * z.val * Real.log (z.val + 6.5)) * R.u ≤ 3898 * (1 / 2 ^ 53) :=
    mul_le_mul (by linarith) hu h0 (by norm_num)
  have h6 : LC 3.05e-12 g.val (Real.Gamma z.val) := by
    refine ⟨hg, hG, hb.trans ?_⟩
    norm_num at h5 hφ ⊢
    linarith
  refine (h6.abs_sub_le (by norm_num)).trans (mul_le_mul_of_nonneg_right (by norm_num) hG.le)

/-- correctly rounded library functions have the relative error `u` -/
theorem correct_lib (R : Rounding ℝ) (hu : R.u < 1) : GammaLib R R.u ⟨R.rnd Real.pi⟩ (fun x => ⟨R.rnd (Real.sqrt x.val)⟩)
    (fun x => ⟨R.rnd (Real.exp x.val)⟩) (fun x => ⟨R.rnd (Real.sin x.val)⟩) (fun x y => ⟨R.rnd (x.val ^ y.val)⟩) := by
  have key : ∀ {x : ℝ}, 0 ≤ x → R.rnd x ≤ (1 + R.u) * x ∧ x ≤ (1 + R.u) * R.rnd x := fun hx => by
    have := Near.of_rnd hu hx
    simpa using this.2
  refine ⟨R.u_nonneg, rfl, fun x _ => key (Real.sqrt_nonneg _), fun x => key (Real.exp_pos _).le, fun x h1 h2 => key ?_,
    fun x y h => key (Real.rpow_nonneg h.le _)⟩
  exact Real.sin_nonneg_of_nonneg_of_le_pi h1.le (by have := Real.pi_gt_d2; norm_num at this; linarith)

theorem binary_half {p : ℕ} (hp : 1 ≤ p) : (binary ℝ p hp).rnd (1 / 2) = 1 / 2 := by
  have hl : Int.log 2 |(1 / 2 : ℝ)| = -1 := log_unique (by norm_num) (by norm_num)
  refine roundBits_of_int (n := 2 ^ (p - 1)) ?_
  rw [ulp, hl]
  push_cast
  rw [← zpow_natCast, ← zpow_add₀ (by norm_num)]
  rw [show ((p - 1 : ℕ) : ℤ) + (0 - p) = -1 by omega]
  norm_num

theorem binary_one {p : ℕ} (hp : 1 ≤ p) : (binary ℝ p hp).rnd 1 = 1 := by
  have := roundBits_intCast (K := ℝ) hp (n := 1) (by simpa using one_le_pow₀ (by norm_num : (1 : ℤ) ≤ 2))
  rw [Int.cast_one] at this
  exact this

theorem binary_ge_half {p : ℕ} (hp : 1 ≤ p) {x : ℝ} (hx : 1 / 2 ≤ x) : 1 / 2 ≤ (binary ℝ p hp).rnd x := by
  have h0 : 0 < x := by linarith
  have h1 := (roundBits_bounds hp h0.ne').1
  have h2 : (-1 : ℤ) ≤ Int.log 2 |x| := by
    rw [abs_of_pos h0, ← Int.zpow_le_iff_le_log (by norm_num) h0]
    norm_num
    linarith
  have h3 : (1 / 2 : ℝ) ≤ 2 ^ Int.log 2 |x| := by
    have := zpow_le_zpow_right₀ (by norm_num : (1 : ℝ) ≤ 2) h2
    norm_num at this ⊢
    linarith
  have h4 : 0 ≤ (binary ℝ p hp).rnd x := by
    have h5 := abs_le.1 ((binary ℝ p hp).err x)
    have h6 : (binary ℝ p hp).u ≤ 1 := inv_le_one_of_one_le₀ (one_le_pow₀ (by norm_num))
    rw [abs_of_pos h0] at h5
    nlinarith [h5.1]
  have h5 : |roundBits p x| = (binary ℝ p hp).rnd x := abs_of_nonneg h4
  rw [← h5]
  linarith

/-- **C114**, the arithmetic of `f64` (53 bits, unbounded exponents) with correctly rounded library functions: for all arguments
up to 142 the relative error of `gamma` is at most `3.1e-12`. -/
theorem C114_f64 (z : Fl (binary ℝ 53 (by norm_num))) (hz : 0 < z.val) (hz' : z.val ≤ 142) :
    ∃ g : Fl (binary ℝ 53 (by norm_num)), gammaG (fun a b => some (a / b)) ⟨(binary ℝ 53 (by norm_num)).rnd Real.pi⟩
      (fun x => ⟨(binary ℝ 53 (by norm_num)).rnd (Real.sqrt x.val)⟩) (fun x => ⟨(binary ℝ 53 (by norm_num)).rnd (Real.exp x.val)⟩)
      (fun x => ⟨(binary ℝ 53 (by norm_num)).rnd (Real.sin x.val)⟩)
      (fun x y => ⟨(binary ℝ 53 (by norm_num)).rnd (x.val ^ y.val)⟩) z = some g ∧
      |g.val - Real.Gamma z.val| ≤ 3.1e-12 * Real.Gamma z.val := by
  have e : (binary ℝ 53 (by norm_num)).u = 1 / 2 ^ 53 := (one_div _).symm
  exact C114_relative (correct_lib _ (by rw [e]; norm_num)) e.le (by rw [e]; norm_num) (binary_one _) (binary_half _)
    (fun _ => binary_ge_half _) z hz hz'

/-- the hypotheses are met: `gamma(10)` with 53 bits is `362880` up to `1.2e-6` -/
example : ∃ g : Fl (binary ℝ 53 (by norm_num)), gammaG (fun a b => some (a / b)) ⟨(binary ℝ 53 (by norm_num)).rnd Real.pi⟩
      (fun x => ⟨(binary ℝ 53 (by norm_num)).rnd (Real.sqrt x.val)⟩) (fun x => ⟨(binary ℝ 53 (by norm_num)).rnd (Real.exp x.val)⟩)
      (fun x => ⟨(binary ℝ 53 (by norm_num)).rnd (Real.sin x.val)⟩)
      (fun x y => ⟨(binary ℝ 53 (by norm_num)).rnd (x.val ^ y.val)⟩) ⟨10⟩ = some g ∧ |g.val - 362880| ≤ 1.2e-6 := by
  obtain ⟨g, h1, h2⟩ := C114_f64 ⟨10⟩ (by norm_num) (by norm_num)
  refine ⟨g, h1, ?_⟩
  have e : Real.Gamma 10 = 362880 := by
    have := Real.Gamma_nat_eq_factorial 9
    rw [show ((9 : ℕ) : ℝ) + 1 = 10 by norm_num] at this
    rw [this]
    norm_num [Nat.factorial]
  rw [e] at h2
  exact h2.trans (by norm_num)

end Gamma

/-! ### Overflow -/

section Overflow
open Ie
variable {pi : IeF64} {sqrt exp sin : IeF64 → IeF64} {pow : IeF64 → IeF64 → IeF64}

/-- rounding of a number between 1 and 2000 -/
theorem round_mid {x : ℚ} (h1 : 1 ≤ x) (h2 : x ≤ 2000) :
    ∃ y : ℚ, Ie.round 53 1024 x = fin y ∧ x * (1 - 1 / 2 ^ 53) ≤ y ∧ y ≤ x * (1 + 1 / 2 ^ 53) := by
  have h3 := abs_le.1 ((binary ℚ 53 (by norm_num)).err x)
  have e : (binary ℚ 53 (by norm_num)).u = 1 / 2 ^ 53 := (one_div _).symm
  rw [e, abs_of_nonneg (by linarith)] at h3
  change -(1 / 2 ^ 53 * x) ≤ roundBits 53 x - x ∧ roundBits 53 x - x ≤ 1 / 2 ^ 53 * x at h3
  refine ⟨roundBits 53 x, round_fin (Or.inl ?_) ?_, by linarith [h3.1], by linarith [h3.2]⟩
  · rw [abs_of_nonneg (by linarith)]
    refine le_trans ?_ h1
    exact zpow_le_one_of_nonpos₀ (by norm_num) (by norm_num)
  · have h4 : |roundBits 53 x| ≤ 2 ^ 11 := by
      rw [abs_le]
      constructor <;> norm_num at h3 ⊢ <;> linarith [h3.1, h3.2]
    exact lt_of_le_of_lt h4 (pow_lt_pow_right₀ (by norm_num) (by norm_num))

theorem not_fin_mul {a b : IeF64} (h : (∀ y, a ≠ fin y) ∨ ∀ y, b ≠ fin y) (y : ℚ) : a * b ≠ fin y := by
  show Ie.mul a b ≠ fin y
  rcases a with _ | _ | _ <;> rcases b with _ | _ | _ <;> simp only [Ie.mul] <;> try (intro hc; cases hc)
  · split <;> (intro hc; cases hc)
  · split <;> (intro hc; cases hc)
  · rcases h with h | h
    · exact absurd rfl (h _)
    · exact absurd rfl (h _)

theorem pow_149 : (2 : ℝ) ^ 1024 ≤ 149 ^ 142 := by
  have : (2 : ℕ) ^ 1024 ≤ 149 ^ 142 := by decide +kernel
  exact_mod_cast this

theorem lanczos_overflow (hpow : ∀ x y : ℚ, 0 < x → (2 : ℝ) ^ 1024 ≤ (x : ℝ) ^ (y : ℝ) → pow (fin x) (fin y) = inf false)
    {q : ℚ} (h1 : 143 ≤ q) (h2 : q ≤ 900) (y : ℚ) : lanczosG pi sqrt exp pow (fin q) ≠ fin y := by
  obtain ⟨t, ht, ht', -⟩ := round_mid (x := q + 13 / 2) (by linarith) (by linarith)
  obtain ⟨w, hw, hw', -⟩ := round_mid (x := q - 1 / 2) (by linarith) (by linarith)
  have e1 : (fin q + 6.5 : IeF64) = fin t := by
    rw [← ht, show (6.5 : IeF64) = fin (13 / 2) by decide +kernel, add_fin]
  have e2 : (fin q - 0.5 : IeF64) = fin w := by
    rw [← hw, show (0.5 : IeF64) = fin (1 / 2) by decide +kernel, sub_fin]
  have t1 : 149 ≤ t := by norm_num at ht'; linarith
  have w1 : 142 ≤ w := by norm_num at hw'; linarith
  have hp : pow (fin t) (fin w) = inf false := by
    refine hpow t w (by linarith) ?_
    have t2 : (149 : ℝ) ≤ t := by exact_mod_cast t1
    have w2 : ((142 : ℕ) : ℝ) ≤ w := by exact_mod_cast w1
    have k1 := pow_149
    have k2 : (149 : ℝ) ^ 142 ≤ (t : ℝ) ^ 142 := pow_le_pow_left₀ (by norm_num) t2 142
    have k3 : (t : ℝ) ^ 142 ≤ (t : ℝ) ^ (w : ℝ) := by
      rw [← Real.rpow_natCast]
      exact Real.rpow_le_rpow_of_exponent_le (by linarith) w2
    exact k1.trans (k2.trans k3)
  unfold lanczosG
  simp only [e1, e2, hp]
  exact not_fin_mul (Or.inl (not_fin_mul (Or.inl (not_fin_mul (Or.inr (fun _ h => by cases h)))))) y

theorem gamma_lt {x : ℝ} (h1 : 143 ≤ x) (h2 : x ≤ 171) : Real.Gamma x ≤ (Nat.factorial 170 : ℕ) := by
  have h := Real.Gamma_nat_eq_factorial 170
  have e : ((170 : ℕ) : ℝ) + 1 = 171 := by norm_num
  rw [e] at h
  rw [← h]
  exact Real.Gamma_strictMonoOn_Ici.monotoneOn (by simp; linarith) (by simp; norm_num) h2

theorem factorial_170 : (Nat.factorial 170 : ℕ) < 2 ^ 1023 := by decide +kernel

/-- **C114 is violated** by overflow: for every `f64` number between 143 and 171, `gamma` does not return a finite number,
although `Γ` is below `2¹⁰²³` there: the factor `t.pow(z - 0.5)` alone exceeds the range before it is multiplied by the small
`exp(-t)`.  (The largest factorial that fits into an `f64` is `170! = Γ(171)`, but `gamma` gives up at `Γ(143)`.)
The only assumption is that `pow` returns infinity if the exact power is at least `2¹⁰²⁴`. -/
theorem C114_overflow_violated (div : IeF64 → IeF64 → Option IeF64)
    (hpow : ∀ x y : ℚ, 0 < x → (2 : ℝ) ^ 1024 ≤ (x : ℝ) ^ (y : ℝ) → pow (fin x) (fin y) = inf false)
    {q : ℚ} (h1 : 143 ≤ q) (h2 : q ≤ 171) :
    (∃ r, gammaG div pi sqrt exp sin pow (fin q) = some r ∧ ∀ y, r ≠ fin y) ∧ Real.Gamma q < 2 ^ 1023 := by
  constructor
  · refine ⟨lanczosG pi sqrt exp pow (fin q), ?_, lanczos_overflow hpow h1 (by linarith)⟩
    unfold gammaG
    rw [if_neg, if_neg]
    · rw [show (0.5 : IeF64) = fin (1 / 2) by decide +kernel]
      intro h
      have := of_decide_eq_true (h : decide (q < 1 / 2) = true)
      linarith
    · intro h
      have h3 : q = 0 := by simpa using (Ie.fin.inj (h : (fin q : IeF64) = fin 0))
      linarith
  · refine lt_of_le_of_lt (gamma_lt (by exact_mod_cast h1) (by exact_mod_cast h2)) ?_
    exact_mod_cast factorial_170

/-- **C114 is violated** at the mirrored arguments: if the exact `1 - q` is an `f64` number between 143 and 171, then
`gamma(q)`, which is `pi / (sin(pi q) gamma(1 - q))`, returns 0 or no finite number, although `|Γ(q)|` is above the smallest
normal number `2⁻¹⁰²²` for every `q` that is not an integer. -/
theorem C114_negative_violated
    (hpow : ∀ x y : ℚ, 0 < x → (2 : ℝ) ^ 1024 ≤ (x : ℝ) ^ (y : ℝ) → pow (fin x) (fin y) = inf false)
    {q : ℚ} (h1 : -170 ≤ q) (h2 : q ≤ -142) (hr : Ie.round 53 1024 (1 - q) = fin (1 - q)) (hi : ∀ n : ℤ, q ≠ n) :
    (∃ r, gammaG (fun a b => some (a / b)) pi sqrt exp sin pow (fin q) = some r ∧ ∀ y, r = fin y → y = 0) ∧
      (2 : ℝ) ^ (-1022 : ℤ) < |Real.Gamma q| := by
  constructor
  · refine ⟨pi / (sin (pi * fin q) * lanczosG pi sqrt exp pow (1.0 - fin q)), ?_, ?_⟩
    · unfold gammaG
      rw [if_neg, if_pos]
      · rw [show (0.5 : IeF64) = fin (1 / 2) by decide +kernel]
        exact decide_eq_true (by linarith : q < 1 / 2)
      · intro h
        have h3 : q = 0 := by simpa using (Ie.fin.inj (h : (fin q : IeF64) = fin 0))
        linarith
    · intro y hy
      rw [show (1.0 : IeF64) = fin 1 by decide +kernel, sub_fin, hr] at hy
      have key := not_fin_mul (a := sin (pi * fin q)) (Or.inr (lanczos_overflow (pi := pi) (sqrt := sqrt) (exp := exp) hpow
        (q := 1 - q) (by linarith) (by linarith)))
      generalize sin (pi * fin q) * lanczosG pi sqrt exp pow (fin (1 - q)) = d at hy key
      change Ie.div pi d = fin y at hy
      rcases d with _ | s | x
      · rcases pi with _ | _ | _ <;> cases hy
      · rcases pi with _ | _ | _ <;> cases hy
        rfl
      · exact absurd rfl (key x)
  · have e := Real.Gamma_mul_Gamma_one_sub (q : ℝ)
    have hq1 : (143 : ℝ) ≤ 1 - q := by have : (q : ℝ) ≤ -142 := by exact_mod_cast h2
                                       linarith
    have hq2 : (1 : ℝ) - q ≤ 171 := by have : (-170 : ℝ) ≤ q := by exact_mod_cast h1
                                       linarith
    have g1 := gamma_lt hq1 hq2
    have g0 := Real.Gamma_pos_of_pos (show 0 < 1 - (q : ℝ) by linarith)
    have g2 : Real.Gamma (1 - q) < 2 ^ 1023 := lt_of_le_of_lt g1 (by exact_mod_cast factorial_170)
    have hs : Real.sin (Real.pi * q) ≠ 0 := by
      intro h
      obtain ⟨n, hn⟩ := Real.sin_eq_zero_iff.1 h
      apply hi n
      have : (n : ℝ) = q := mul_left_cancel₀ Real.pi_pos.ne' (by rw [← hn]; ring)
      exact_mod_cast this.symm
    have e2 : |Real.Gamma q| = Real.pi / (|Real.sin (Real.pi * q)| * Real.Gamma (1 - q)) := by
      have : |Real.Gamma q| * Real.Gamma (1 - q) = Real.pi / |Real.sin (Real.pi * q)| := by
        rw [← abs_of_pos Real.pi_pos, ← abs_div, abs_of_pos Real.pi_pos, ← e, abs_mul, abs_of_pos g0]
      rw [eq_div_iff (by positivity), mul_left_comm, this]
      field_simp
    rw [e2, lt_div_iff₀ (by positivity)]
    have s1 := Real.abs_sin_le_one (Real.pi * q)
    have k : |Real.sin (Real.pi * q)| * Real.Gamma (1 - q) ≤ 2 ^ 1023 := by
      calc _ ≤ 1 * Real.Gamma (1 - q) := mul_le_mul_of_nonneg_right s1 g0.le
        _ ≤ _ := by linarith
    calc (2 : ℝ) ^ (-1022 : ℤ) * (|Real.sin (Real.pi * q)| * Real.Gamma (1 - q)) ≤ 2 ^ (-1022 : ℤ) * 2 ^ 1023 :=
          mul_le_mul_of_nonneg_left k (by positivity)
      _ = 2 := by
        rw [← zpow_natCast, ← zpow_add₀ (by norm_num), show (-1022 : ℤ) + ((1023 : ℕ) : ℤ) = 1 by norm_num, zpow_one]
      _ < Real.pi := by have := Real.pi_gt_d2; norm_num at this; linarith

/-- `Γ(143) = 142!` and `Γ(-142.5)` -/
example (hpow : ∀ x y : ℚ, 0 < x → (2 : ℝ) ^ 1024 ≤ (x : ℝ) ^ (y : ℝ) → pow (fin x) (fin y) = inf false) :
    (∃ r, gammaG (fun a b => some (a / b)) pi sqrt exp sin pow (fin 143) = some r ∧ ∀ y, r ≠ fin y) ∧
      ∃ r, gammaG (fun a b => some (a / b)) pi sqrt exp sin pow (fin (-285 / 2)) = some r ∧ ∀ y, r = fin y → y = 0 := by
  refine ⟨(C114_overflow_violated _ hpow (by norm_num) (by norm_num)).1, (C114_negative_violated hpow (by norm_num)
    (by norm_num) (by decide +kernel) ?_).1⟩
  intro n h
  have h2 : (-285 : ℤ) = 2 * n := by
    have : (-285 : ℚ) = 2 * n := by linarith
    exact_mod_cast this
  omega

/-- **C114 is violated** at the integers: if moreover `sqrt(2)` and `sqrt(pi)` lie between 1 and 2 and the exponential
function returns positive finite numbers, `gamma(n)` is `+∞` for `n = 143, …, 171`, although `Γ(n) = (n - 1)!` is at most `170!`, less
than `2¹⁰²³`. -/
theorem C114_factorial_violated (div : IeF64 → IeF64 → Option IeF64)
    (hpow : ∀ x y : ℚ, 0 < x → (2 : ℝ) ^ 1024 ≤ (x : ℝ) ^ (y : ℝ) → pow (fin x) (fin y) = inf false)
    (hs2 : ∃ a : ℚ, sqrt 2.0 = fin a ∧ 1 ≤ a ∧ a ≤ 2) (hspi : ∃ b : ℚ, sqrt pi = fin b ∧ 1 ≤ b ∧ b ≤ 2)
    (hexp : ∀ x : ℚ, -180 ≤ x → x ≤ 0 → ∃ y : ℚ, 0 < y ∧ exp (fin x) = fin y) (n : ℕ) (h1 : 143 ≤ n) (h2 : n ≤ 171) :
    gammaG div pi sqrt exp sin pow (fin n) = some (inf false) ∧ Real.Gamma n = (n - 1).factorial ∧
      ((n - 1).factorial : ℝ) < 2 ^ 1023 := by
  have q1 : (143 : ℚ) ≤ n := by exact_mod_cast h1
  have q2 : (n : ℚ) ≤ 171 := by exact_mod_cast h2
  refine ⟨?_, ?_, ?_⟩
  · obtain ⟨a, ea, a1, a2⟩ := hs2
    obtain ⟨b, eb, b1, b2⟩ := hspi
    have key : ∀ n : Fin 29, (fin ((n.val + 143 : ℕ) : ℚ) + 6.5 : IeF64) = fin (((n.val + 143 : ℕ) : ℚ) + 13 / 2) ∧
        (fin ((n.val + 143 : ℕ) : ℚ) - 0.5 : IeF64) = fin (((n.val + 143 : ℕ) : ℚ) - 1 / 2) ∧
        fin 0 < lanczosSumG (fin ((n.val + 143 : ℕ) : ℚ) : IeF64) := by decide +kernel
    obtain ⟨k1, k2, k3⟩ := key ⟨n - 143, by omega⟩
    rw [show n - 143 + 143 = n by omega] at k1 k2 k3
    have hp : pow (fin ((n : ℚ) + 13 / 2)) (fin ((n : ℚ) - 1 / 2)) = inf false := by
      refine hpow _ _ (by linarith) ?_
      have t2 : (149 : ℝ) ≤ (((n : ℚ) + 13 / 2 : ℚ) : ℝ) := by
        have : (149 : ℚ) ≤ (n : ℚ) + 13 / 2 := by linarith
        exact_mod_cast this
      have w2 : ((142 : ℕ) : ℝ) ≤ (((n : ℚ) - 1 / 2 : ℚ) : ℝ) := by
        have : (142 : ℚ) ≤ (n : ℚ) - 1 / 2 := by linarith
        exact_mod_cast this
      have k1 := pow_149
      refine k1.trans ((pow_le_pow_left₀ (by norm_num) t2 142).trans ?_)
      rw [← Real.rpow_natCast]
      exact Real.rpow_le_rpow_of_exponent_le (by linarith) w2
    obtain ⟨y, hy, he⟩ := hexp (-((n : ℚ) + 13 / 2)) (by linarith) (by linarith)
    unfold gammaG
    rw [if_neg, if_neg]
    · unfold lanczosG
      simp only [k1, k2, hp, ea, eb]
      rw [show (-(fin ((n : ℚ) + 13 / 2)) : IeF64) = fin (-((n : ℚ) + 13 / 2)) from rfl, he]
      generalize lanczosSumG (fin (n : ℚ) : IeF64) = S at k3
      have e1 : ∃ c : ℚ, 0 < c ∧ (fin a * fin b : IeF64) = fin c := by
        obtain ⟨c, hc, hc', -⟩ := round_mid (x := a * b) (by nlinarith) (by nlinarith)
        exact ⟨c, by norm_num at hc'; nlinarith, by rw [← hc]; rfl⟩
      obtain ⟨c, hc, ec⟩ := e1
      rw [ec]
      have m1 : (fin c * inf false : IeF64) = inf false := by
        show (if c = 0 then _ else _) = _
        rw [if_neg hc.ne']
        simp [not_lt.2 hc.le]
      have m2 : ∀ y : ℚ, 0 < y → (inf false * fin y : IeF64) = inf false := fun y hy => by
        show (if y = 0 then _ else _) = _
        rw [if_neg hy.ne']
        simp [not_lt.2 hy.le]
      rw [m1, m2 _ hy]
      rcases S with _ | s | x
      · cases k3
      · rcases s
        · rfl
        · cases k3
      · rw [m2 _ (of_decide_eq_true k3)]
    · rw [show (0.5 : IeF64) = fin (1 / 2) by decide +kernel]
      intro h
      have := of_decide_eq_true (h : decide ((n : ℚ) < 1 / 2) = true)
      linarith
    · intro h
      have h3 : (n : ℚ) = 0 := by simpa using (Ie.fin.inj (h : (fin (n : ℚ) : IeF64) = fin 0))
      linarith
  · have := Real.Gamma_nat_eq_factorial (n - 1)
    rw [← this]
    congr 1
    rw [Nat.cast_sub (by omega)]
    push_cast
    ring
  · have : (n - 1).factorial ≤ Nat.factorial 170 := Nat.factorial_le (by omega)
    exact_mod_cast lt_of_le_of_lt this factorial_170

end Overflow

end Special
end Verif
