import Verif.FloatBeta
import Verif.IeeeFnModel
import Verif.IncGammaAcc

/-!
# Property C121: the incomplete gamma function with rounding

`gammaLrG` of `IeeeFnModel.lean` runs here on rounded numbers without overflow and underflow.  The logarithm, the exponential
function and the logarithm of the gamma function are parameters with stated errors.
-/

set_option linter.unusedSectionVars false

namespace Verif
namespace Special
open Rounding Finset

/-- the terms of the series -/
noncomputable def serC (a x : ℝ) (i : ℕ) : ℝ := ∏ j ∈ range i, x / (a + j + 1)
/-- the partial sums of the series -/
noncomputable def serS (a x : ℝ) (i : ℕ) : ℝ := 1 + ∑ k ∈ range i, ∏ j ∈ range (k + 1), x / (a + j + 1)

theorem serC_pos {a x : ℝ} (ha : 0 < a) (hx : 0 < x) (i : ℕ) : 0 < serC a x i := prod_pos fun j _ => by positivity

theorem serC_succ (a x : ℝ) (i : ℕ) : serC a x (i + 1) = serC a x i * (x / (a + i + 1)) := prod_range_succ _ _

theorem serS_succ (a x : ℝ) (i : ℕ) : serS a x (i + 1) = serS a x i + serC a x (i + 1) := by
  rw [serS, serS, serC, sum_range_succ, add_assoc]

theorem serS_one_le {a x : ℝ} (ha : 0 < a) (hx : 0 < x) (i : ℕ) : 1 ≤ serS a x i := by
  have : 0 ≤ ∑ k ∈ range i, ∏ j ∈ range (k + 1), x / (a + j + 1) :=
    sum_nonneg fun k _ => (serC_pos ha hx (k + 1)).le
  rw [serS]; linarith

section
variable {R : Rounding ℝ}

/-- the variables of the series loop after `i` rounds -/
def SerInv (a x : ℝ) (i : ℕ) (r c s : Fl R) : Prop :=
  LC (i * R.u) r.val (a + i) ∧ LC ((i ^ 2 + 3 * i) * R.u) c.val (serC a x i) ∧ LC ((i ^ 2 + 4 * i) * R.u) s.val (serS a x i)

theorem SerInv.step (hu : R.u < 1) {a : ℝ} {x : Fl R} (ha : 0 < a) (hx : 0 < x.val) {i : ℕ} {r c s : Fl R} (h : SerInv a x.val i r c s) :
    SerInv a x.val (i + 1) (r + 1) (c * (x / (r + 1))) (s + c * (x / (r + 1))) := by
  obtain ⟨h1, h2, h3⟩ := h
  have h0 := R.u_nonneg
  have hi : (0 : ℝ) ≤ i := Nat.cast_nonneg i
  have iu : 0 ≤ i * R.u := mul_nonneg hi h0
  have r1 : LC ((i + 1 : ℕ) * R.u) (r + 1).val (a + (i + 1 : ℕ)) := by
    have := (h1.add ((LC.refl one_pos).mono iu)).rnd hu
    push_cast
    rw [← add_assoc, add_mul, one_mul]
    exact this
  have q : LC ((i + 2) * R.u) (x / (r + 1)).val (x.val / (a + i + 1)) := by
    have := ((LC.refl hx).div r1).rnd hu
    push_cast at this
    rw [← add_assoc] at this
    exact this.mono (by linarith)
  have c1 : LC (((i + 1 : ℕ) ^ 2 + 3 * (i + 1 : ℕ)) * R.u) (c * (x / (r + 1))).val (serC a x.val (i + 1)) := by
    rw [serC_succ]
    refine ((h2.mul q).rnd hu).mono ?_
    push_cast
    nlinarith
  refine ⟨r1, c1, ?_⟩
  rw [serS_succ]
  have e : (((i + 1 : ℕ) : ℝ) ^ 2 + 3 * (i + 1 : ℕ)) * R.u ≤ ((i : ℝ) ^ 2 + 5 * i + 4) * R.u := by
    push_cast; nlinarith
  refine (((h3.mono (δ := ((i : ℝ) ^ 2 + 5 * i + 4) * R.u) (by nlinarith)).add (c1.mono e)).rnd hu).mono ?_
  push_cast
  nlinarith

/-- the quotient in the test of the loop -/
theorem SerInv.test (hu : R.u < 1) {a : ℝ} {x : ℝ} {i : ℕ} {r c s : Fl R} (h : SerInv a x i r c s) :
    LC ((2 * i ^ 2 + 7 * i + 1) * R.u) (c / s).val (serC a x i / serS a x i) :=
  ((h.2.1.div h.2.2).rnd hu).mono (by linarith)

theorem lrSeries_fl (hu : R.u < 1) {a : ℝ} {x : Fl R} (ha : 0 < a) (hx : 0 < x.val) (n : ℕ) :
    ∀ {i : ℕ} {r c s v : Fl R}, SerInv a x.val i r c s → lrSeriesG (fun a b => some (a / b)) x n r c s = some v →
      ∃ m, i < m ∧ m ≤ i + n ∧ LC ((m ^ 2 + 4 * m) * R.u) v.val (serS a x.val m) ∧
        serC a x.val m ≤ Real.exp ((2 * m ^ 2 + 7 * m + 2) * R.u) * 1e-15 * serS a x.val m := by
  induction n with
  | zero => intro i r c s v _ h; simp [lrSeriesG] at h
  | succ n ih =>
    intro i r c s v hI h
    have hI' := hI.step hu ha hx
    rw [lrSeriesG] at h
    simp only [Option.bind_eq_bind, Option.bind_some] at h
    split_ifs at h with h1
    · obtain rfl := Option.some.inj h
      refine ⟨i + 1, by omega, by omega, hI'.2.2, ?_⟩
      have h2 := (hI'.test hu).symm.le_exp
      have h3 := (Fl.le_iff _ _).1 h1
      have h4 : (0.000000000000001 : Fl R).val ≤ Real.exp R.u * 1e-15 := by
        have := (LC.lit hu (c := 0.000000000000001) (by norm_num)).le_exp
        refine this.trans (le_of_eq ?_)
        norm_num
      have hS : 0 < serS a x.val (i + 1) := hI'.2.2.2.1
      rw [div_le_iff₀ hS] at h2
      refine h2.trans (mul_le_mul_of_nonneg_right ?_ hS.le)
      calc _ ≤ Real.exp ((2 * (i + 1 : ℕ) ^ 2 + 7 * (i + 1 : ℕ) + 1) * R.u) * (Real.exp R.u * 1e-15) :=
            mul_le_mul_of_nonneg_left (h3.trans h4) (Real.exp_pos _).le
        _ = _ := by rw [← mul_assoc, ← Real.exp_add]; ring_nf
    · obtain ⟨m, m1, m2, m3⟩ := ih hI' h
      exact ⟨m, by omega, by omega, m3⟩

/-- the loop ends as soon as the exact quotient is small enough -/
theorem lrSeries_fl_returns (hu : R.u < 1) {a : ℝ} {x : Fl R} (ha : 0 < a) (hx : 0 < x.val) (k : ℕ) :
    ∀ {i : ℕ} {r c s : Fl R}, SerInv a x.val i r c s →
      Real.exp ((2 * (i + k + 1 : ℕ) ^ 2 + 7 * (i + k + 1 : ℕ) + 2) * R.u) * serC a x.val (i + k + 1) ≤ 1e-15 * serS a x.val (i + k + 1) →
      ∀ n, k < n → ∃ v, lrSeriesG (fun a b => some (a / b)) x n r c s = some v := by
  induction k with
  | zero =>
    intro i r c s hI hs n hn
    obtain ⟨n, rfl⟩ : ∃ m, n = m + 1 := ⟨n - 1, by omega⟩
    have hI' := hI.step hu ha hx
    rw [lrSeriesG]
    simp only [Option.bind_eq_bind, Option.bind_some]
    have h2 := (hI'.test hu).le_exp
    have hS : 0 < serS a x.val (i + 1) := hI'.2.2.2.1
    rw [if_pos]
    · exact ⟨_, rfl⟩
    · rw [Fl.le_iff]
      refine h2.trans ?_
      rw [← mul_div_assoc, div_le_iff₀ hS]
      have h4 : 1e-15 ≤ Real.exp R.u * (0.000000000000001 : Fl R).val := by
        have := (LC.lit hu (c := 0.000000000000001) (by norm_num)).symm.le_exp
        refine le_trans (le_of_eq ?_) this
        norm_num
      have e : Real.exp ((2 * (i + 0 + 1 : ℕ) ^ 2 + 7 * (i + 0 + 1 : ℕ) + 2) * R.u) =
          Real.exp ((2 * (i + 1 : ℕ) ^ 2 + 7 * (i + 1 : ℕ) + 1) * R.u) * Real.exp R.u := by
        rw [← Real.exp_add]; ring_nf
      rw [e] at hs
      have h5 : Real.exp R.u * (Real.exp ((2 * (i + 1 : ℕ) ^ 2 + 7 * (i + 1 : ℕ) + 1) * R.u) * serC a x.val (i + 1)) ≤
          Real.exp R.u * ((0.000000000000001 : Fl R).val * serS a x.val (i + 1)) := by
        have := mul_le_mul_of_nonneg_right h4 hS.le
        simp only [add_zero] at hs
        linarith
      exact le_of_mul_le_mul_left h5 (Real.exp_pos _)
  | succ k ih =>
    intro i r c s hI hs n hn
    obtain ⟨n, rfl⟩ : ∃ m, n = m + 1 := ⟨n - 1, by omega⟩
    have hI' := hI.step hu ha hx
    rw [lrSeriesG]
    simp only [Option.bind_eq_bind, Option.bind_some]
    split_ifs
    · exact ⟨_, rfl⟩
    · refine ih hI' ?_ n (by omega)
      rw [show i + 1 + k + 1 = i + (k + 1) + 1 by omega]
      exact hs

/-- the truncation error of the series -/
theorem serS_error {a x τ : ℝ} {m : ℕ} (ha : 0 < a) (hx : 0 < x) (h : x ≤ 1 ∨ x ≤ a) (hm : 0 < m) (hτ : serC a x m ≤ τ * serS a x m) :
    x ^ a * Real.exp (-x) * serS a x m ≤ a * gInt a x ∧
      a * gInt a x ≤ (1 + τ * x) * (x ^ a * Real.exp (-x) * serS a x m) := by
  obtain ⟨m, rfl⟩ : ∃ k, m = k + 1 := ⟨m - 1, by omega⟩
  have hs := gInt_series ha hx (m + 1)
  have hp : 0 < ∏ j ∈ Finset.range (m + 1), (a + j + 1) := Finset.prod_pos fun j _ => by positivity
  have h0 : 0 ≤ gInt (a + (m + 1 : ℕ) + 1) x := gInt_nonneg hx.le
  have hm : (0 : ℝ) ≤ m := Nat.cast_nonneg m
  have hgap : 1 ≤ a + (m + 1 : ℕ) + 1 - x := by
    push_cast
    rcases h with h | h <;> linarith
  have hle := gInt_le (a := a + (m + 1 : ℕ) + 1) (x := x) (by positivity) hx.le (by linarith)
  have hle' : gInt (a + (m + 1 : ℕ) + 1) x ≤ x ^ (a + (m + 1 : ℕ) + 1) * Real.exp (-x) := by nlinarith
  have e2 : x ^ (a + (m + 1 : ℕ) + 1) = x ^ a * (x ^ (m + 1) * x) := by
    rw [add_assoc, Real.rpow_add hx, ← pow_succ]
    congr 1
    exact_mod_cast Real.rpow_natCast x (m + 1 + 1)
  have e3 : ∏ j ∈ Finset.range (m + 1), x / (a + j + 1)
      = x ^ (m + 1) / ∏ j ∈ Finset.range (m + 1), (a + j + 1) := by
    rw [Finset.prod_div_distrib, Finset.prod_const, Finset.card_range]
  have hE : 0 < x ^ a * Real.exp (-x) := by
    have := Real.rpow_pos_of_pos hx a
    positivity
  rw [hs, ← serS]
  constructor
  · have : 0 ≤ gInt (a + (m + 1 : ℕ) + 1) x / ∏ j ∈ Finset.range (m + 1), (a + j + 1) := div_nonneg h0 hp.le
    linarith
  · have : gInt (a + (m + 1 : ℕ) + 1) x / ∏ j ∈ Finset.range (m + 1), (a + j + 1)
        ≤ x ^ a * Real.exp (-x) * (x * (τ * serS a x (m + 1))) := by
      calc _ ≤ x ^ (a + (m + 1 : ℕ) + 1) * Real.exp (-x) / ∏ j ∈ Finset.range (m + 1), (a + j + 1) := by gcongr
        _ = x ^ a * Real.exp (-x) * (x * ∏ j ∈ Finset.range (m + 1), x / (a + j + 1)) := by
            rw [e2, e3]; ring
        _ ≤ _ := mul_le_mul_of_nonneg_left (mul_le_mul_of_nonneg_left hτ hx.le) hE.le
    linarith

/-- The library functions: the logarithm and the exponential function have the relative error `φ`. -/
structure IncLib (R : Rounding ℝ) (φ : ℝ) (ln exp : Fl R → Fl R) : Prop where
  nonneg : 0 ≤ φ
  small : φ ≤ 1 / 10
  ln_le : ∀ x : Fl R, 0 < x.val → |(ln x).val - Real.log x.val| ≤ φ * |Real.log x.val|
  exp_le : ∀ x : Fl R, (exp x).val ≤ (1 + φ) * Real.exp x.val ∧ Real.exp x.val ≤ (1 + φ) * (exp x).val

/-- the error of the exponent `a ln x - x - ln Γ(a)`, where `δ` is the error of `ln Γ(a)` -/
noncomputable def axErr (R : Rounding ℝ) (φ δ a x : ℝ) : ℝ :=
  (5 * R.u + 2 * φ) * (a * |Real.log x| + x + |Real.log (Real.Gamma a)|) + 2 * δ

variable {φ δ : ℝ} {ln exp : Fl R → Fl R}

theorem ax_fl (L : IncLib R φ ln exp) (hu : R.u ≤ 1e-4) {a x lg : Fl R} (ha : 0 < a.val) (hx : 0 < x.val)
    (hl : |lg.val - Real.log (Real.Gamma a.val)| ≤ δ) :
    |(a * ln x - x - lg).val - (a.val * Real.log x.val - x.val - Real.log (Real.Gamma a.val))| ≤ axErr R φ δ a.val x.val := by
  have h0 := R.u_nonneg
  have hu' : R.u ≤ 1 / 10000 := by norm_num at hu ⊢; linarith
  have hφ := L.nonneg
  have hφ1 := L.small
  have hδ : 0 ≤ δ := (abs_nonneg _).trans hl
  set l := a.val * |Real.log x.val| with hl'
  set G := |Real.log (Real.Gamma a.val)| with hG
  have hl0 : 0 ≤ l := by positivity
  have hG0 : 0 ≤ G := abs_nonneg _
  have a1 : |a.val * (ln x).val - a.val * Real.log x.val| ≤ φ * l := by
    rw [← mul_sub, abs_mul, abs_of_pos ha, hl']
    have := mul_le_mul_of_nonneg_left (L.ln_le x hx) ha.le
    linarith
  have e1 : |a.val * Real.log x.val| = l := by rw [abs_mul, abs_of_pos ha]
  have b1 := R.rnd_near a1
  rw [e1] at b1
  have a2 : |R.rnd (a.val * (ln x).val) - x.val - (a.val * Real.log x.val - x.val)| ≤ (1 + R.u) * (φ * l) + R.u * l := by
    rw [sub_sub_sub_cancel_right]
    exact b1.trans (by linarith)
  have e2 : |a.val * Real.log x.val - x.val| ≤ l + x.val := by
    refine (abs_sub _ _).trans ?_
    rw [e1, abs_of_pos hx]
  have b2 := R.rnd_near a2
  have a3 : |R.rnd (R.rnd (a.val * (ln x).val) - x.val) - lg.val -
      (a.val * Real.log x.val - x.val - Real.log (Real.Gamma a.val))| ≤
      (1 + R.u) * ((1 + R.u) * (φ * l) + R.u * l) + R.u * (l + x.val) + δ := by
    rw [sub_sub_sub_comm]
    refine (abs_sub _ _).trans (add_le_add (b2.trans ?_) hl)
    have := mul_le_mul_of_nonneg_left e2 h0
    linarith
  have e3 : |a.val * Real.log x.val - x.val - Real.log (Real.Gamma a.val)| ≤ l + x.val + G :=
    (abs_sub _ _).trans (add_le_add e2 le_rfl)
  have b3 := R.rnd_near a3
  have b4 := mul_le_mul_of_nonneg_left e3 h0
  change |R.rnd (R.rnd (R.rnd (a.val * (ln x).val) - x.val) - lg.val) - _| ≤ _
  refine b3.trans ?_
  unfold axErr
  have p1 : 0 ≤ φ * l := mul_nonneg hφ hl0
  have p2 : 0 ≤ R.u * l := mul_nonneg h0 hl0
  have p3 : 0 ≤ R.u * x.val := mul_nonneg h0 hx.le
  have p4 : 0 ≤ R.u * G := mul_nonneg h0 hG0
  have q1 : R.u * (φ * l) ≤ 1 / 10000 * (φ * l) := mul_le_mul_of_nonneg_right hu' p1
  have q2 : R.u * (R.u * (φ * l)) ≤ 1 / 10000 * (φ * l) :=
    (mul_le_mul_of_nonneg_right hu' (mul_nonneg h0 p1)).trans (by linarith)
  have q22 : R.u * (R.u * (R.u * (φ * l))) ≤ 1 / 10000 * (φ * l) :=
    (mul_le_mul_of_nonneg_right hu' (mul_nonneg h0 (mul_nonneg h0 p1))).trans (by linarith)
  have q3 : R.u * (R.u * l) ≤ 1 / 10000 * (R.u * l) := mul_le_mul_of_nonneg_right hu' p2
  have q33 : R.u * (R.u * (R.u * l)) ≤ 1 / 10000 * (R.u * l) :=
    (mul_le_mul_of_nonneg_right hu' (mul_nonneg h0 p2)).trans (by linarith)
  have q4 : R.u * (R.u * x.val) ≤ 1 / 10000 * (R.u * x.val) := mul_le_mul_of_nonneg_right hu' p3
  have q5 : R.u * δ ≤ 1 / 10000 * δ := mul_le_mul_of_nonneg_right hu' hδ
  have p5 : 0 ≤ φ * x.val := mul_nonneg hφ hx.le
  have p6 : 0 ≤ φ * G := mul_nonneg hφ hG0
  nlinarith

/-- the value of the series loop with rounding: the logarithm of the result differs from that of the sum by the error of the
summation and the truncation -/
theorem series_value (hu : R.u < 1) {a x s : Fl R} (ha : 0 < a.val) (hx : 0 < x.val) (hxa : x.val ≤ 1 ∨ x.val ≤ a.val) {n : ℕ}
    (hn : (2 * n ^ 2 + 7 * n + 2) * R.u ≤ 1 / 10) (h : lrSeriesG (fun a b => some (a / b)) x n a 1 1 = some s) :
    LC ((n ^ 2 + 4 * n) * R.u + 1.2e-15 * x.val) (x.val ^ a.val * Real.exp (-x.val) * s.val) (a.val * gInt a.val x.val) := by
  have h0 := R.u_nonneg
  have hI : SerInv a.val x.val 0 a 1 (1 : Fl R) := by
    refine ⟨?_, ?_, ?_⟩
    · simpa using LC.refl ha
    · simpa [serC, show (1 : Fl R).val = 1 from rfl] using LC.refl one_pos
    · simpa [serS, show (1 : Fl R).val = 1 from rfl] using LC.refl one_pos
  obtain ⟨m, m1, m2, m3, m4⟩ := lrSeries_fl hu ha hx n hI h
  have hmn : (m : ℝ) ≤ n := by exact_mod_cast (by omega : m ≤ n)
  have hm0 : (0 : ℝ) ≤ m := Nat.cast_nonneg m
  have hsq : (m : ℝ) ^ 2 ≤ n ^ 2 := pow_le_pow_left₀ hm0 hmn 2
  have hB : (2 * (m : ℝ) ^ 2 + 7 * m + 2) * R.u ≤ 1 / 10 :=
    (mul_le_mul_of_nonneg_right (by linarith) h0).trans hn
  have hexp : Real.exp ((2 * (m : ℝ) ^ 2 + 7 * m + 2) * R.u) ≤ 1.2 := by
    have := abs_le.1 (Real.abs_exp_sub_one_sub_id_le (x := (2 * (m : ℝ) ^ 2 + 7 * m + 2) * R.u) (by
      rw [abs_of_nonneg (by positivity)]; linarith))
    have h2 : ((2 * (m : ℝ) ^ 2 + 7 * m + 2) * R.u) ^ 2 ≤ (1 / 10) ^ 2 := pow_le_pow_left₀ (by positivity) hB 2
    norm_num at h2 ⊢
    linarith [this.2]
  have hS : 0 < serS a.val x.val m := m3.2.1
  obtain ⟨t1, t2⟩ := serS_error (τ := 1.2e-15) ha hx hxa (by omega) (m4.trans (mul_le_mul_of_nonneg_right (by
    norm_num at hexp ⊢; linarith) hS.le))
  have hE : 0 < x.val ^ a.val * Real.exp (-x.val) := by
    have := Real.rpow_pos_of_pos hx a.val
    positivity
  have hg : 0 < a.val * gInt a.val x.val := (mul_pos hE hS).trans_le t1
  have l1 : LC (1.2e-15 * x.val) (x.val ^ a.val * Real.exp (-x.val) * serS a.val x.val m) (a.val * gInt a.val x.val) := by
    refine LC.of_rel (by positivity) hg ?_ t2
    have : 0 ≤ 1.2e-15 * x.val * (a.val * gInt a.val x.val) := by positivity
    linarith
  refine ((((LC.refl hE).mul m3).trans l1)).mono ?_
  have : ((m : ℝ) ^ 2 + 4 * m) * R.u ≤ (n ^ 2 + 4 * n) * R.u := mul_le_mul_of_nonneg_right (by linarith) h0
  linarith

theorem ax_big (hu : R.u ≤ 1e-4) {t : Fl R} (ht : -709 ≤ t.val) : ¬ t < (-709.78271289338399 : Fl R) := by
  have h0 := R.u_nonneg
  have hu' : R.u ≤ 1 / 10000 := by norm_num at hu ⊢; linarith
  rw [not_lt, Fl.le_iff]
  have h1 : (-709.78271289338399 : Fl R).val = -R.rnd 709.78271289338399 := rfl
  rw [h1]
  have h2 := abs_le.1 (R.err 709.78271289338399)
  have h3 : R.u * |(709.78271289338399 : ℝ)| ≤ 1 / 10000 * 710 := by
    rw [abs_of_pos (by norm_num)]
    exact mul_le_mul hu' (by norm_num) (by norm_num) (by norm_num)
  have h4 := h2.1
  norm_num at h3 h4 ht ⊢
  linarith

/-- **C121** the series branch of `gamma_lr` with rounding (`/repo/src/special/gamma.rs:386-435`): the logarithm of the result
differs from that of the regularized lower incomplete gamma function by at most `φ + (n² + 4 n + 2) u + 1.2e-15 x` and the error of
the exponent `a ln x - x - ln Γ(a)`; `n` bounds the number of rounds. -/
theorem C121_series (L : IncLib R φ ln exp) (hu : R.u ≤ 1e-4) {lnG : Fl R → Option (Fl R)} {a x lg v : Fl R} (ha : 0 < a.val)
    (hx : 0 < x.val) (hxa : x.val ≤ 1 ∨ x.val ≤ a.val) (hlg : lnG a = some lg)
    (hl : |lg.val - Real.log (Real.Gamma a.val)| ≤ δ) {n : ℕ} (hn : (2 * n ^ 2 + 7 * n + 2) * R.u ≤ 1 / 10)
    (hA : axErr R φ δ a.val x.val ≤ 1) (hlow : -708 ≤ a.val * Real.log x.val - x.val - Real.log (Real.Gamma a.val))
    (hv : gammaLrG (fun a b => some (a / b)) ln exp lnG n a x = some v) :
    LC (φ + axErr R φ δ a.val x.val + (n ^ 2 + 4 * n + 2) * R.u + 1.2e-15 * x.val) v.val
      ((∫ t in (0 : ℝ)..x.val, t ^ (a.val - 1) * Real.exp (-t)) / Real.Gamma a.val) := by
  have h0 := R.u_nonneg
  have hu' : R.u < 1 := by norm_num at hu; linarith
  have hax := ax_fl L hu ha hx hl
  have hG := Real.Gamma_pos_of_pos ha
  unfold gammaLrG at hv
  rw [if_neg (by rw [Fl.le_iff]; exact not_le.2 hx), if_neg (show ¬ a = 0 from fun h => ha.ne' (congrArg Fl.val h)),
    if_neg (show ¬ x = 0 from fun h => hx.ne' (congrArg Fl.val h)), hlg] at hv
  simp only [Option.bind_eq_bind, Option.bind_some] at hv
  rw [if_neg (ax_big hu (by linarith [(abs_le.1 hax).1])), if_pos (by rw [Fl.le_iff, Fl.le_iff]; exact hxa)] at hv
  cases hs : lrSeriesG (fun a b => some (a / b)) x n a 1 1 with
  | none => rw [hs] at hv; simp at hv
  | some s =>
    rw [hs, Option.bind_some] at hv
    obtain rfl := Option.some.inj hv
    have h1 := series_value hu' ha hx hxa hn hs
    have h2 : LC (φ + axErr R φ δ a.val x.val) (exp (a * ln x - x - lg)).val
        (Real.exp (a.val * Real.log x.val - x.val - Real.log (Real.Gamma a.val))) := by
      have := L.exp_le (a * ln x - x - lg)
      exact (LC.of_rel L.nonneg (Real.exp_pos _) this.1 this.2).trans (lc_exp hax)
    have e : Real.exp (a.val * Real.log x.val - x.val - Real.log (Real.Gamma a.val)) =
        x.val ^ a.val * Real.exp (-x.val) / Real.Gamma a.val := by
      rw [Real.exp_sub, Real.exp_log hG, sub_eq_add_neg, Real.exp_add, Real.rpow_def_of_pos hx, mul_comm (Real.log x.val)]
    have hE : 0 < x.val ^ a.val * Real.exp (-x.val) := by
      have := Real.rpow_pos_of_pos hx a.val
      positivity
    have hs0 : 0 < s.val := pos_of_mul_pos_right h1.1 hE.le
    have h3 := ((h2.mul (LC.refl hs0)).rnd hu').div (LC.refl ha)
    have h4 := h3.rnd hu'
    have e2 : Real.exp (a.val * Real.log x.val - x.val - Real.log (Real.Gamma a.val)) * s.val / a.val =
        x.val ^ a.val * Real.exp (-x.val) * s.val / (Real.Gamma a.val * a.val) := by
      rw [e]; field_simp
    rw [e2] at h4
    have h5 := h4.trans (h1.div (LC.refl (mul_pos hG ha)))
    have e3 : a.val * gInt a.val x.val / (Real.Gamma a.val * a.val) = gInt a.val x.val / Real.Gamma a.val := by
      field_simp
    rw [e3] at h5
    refine LC.mono h5 ?_
    linarith

/-- **C121** for `x ≤ 1` the series ends after at most 18 rounds, with rounding as well -/
theorem C121_returns (hu : R.u ≤ 1e-4) {a x : Fl R} (ha : 0 < a.val) (hx : 0 < x.val) (hx1 : x.val ≤ 1) {n : ℕ} (hn : 18 ≤ n) :
    ∃ s, lrSeriesG (fun a b => some (a / b)) x n a 1 1 = some s := by
  have h0 := R.u_nonneg
  have hu' : R.u < 1 := by norm_num at hu; linarith
  have hI : SerInv a.val x.val 0 a 1 (1 : Fl R) := by
    refine ⟨?_, ?_, ?_⟩
    · simpa using LC.refl ha
    · simpa [serC, show (1 : Fl R).val = 1 from rfl] using LC.refl one_pos
    · simpa [serS, show (1 : Fl R).val = 1 from rfl] using LC.refl one_pos
  refine lrSeries_fl_returns hu' ha hx 17 hI ?_ n (by omega)
  have hS := serS_one_le ha hx 18
  have hC : ∀ i : ℕ, serC a.val x.val i ≤ 1 / (i.factorial : ℝ) := by
    intro i
    induction i with
    | zero => simp [serC]
    | succ i ih =>
      rw [serC_succ, Nat.factorial_succ, Nat.cast_mul, one_div, mul_inv, mul_comm (((i + 1 : ℕ) : ℝ)⁻¹)]
      have h1 : x.val / (a.val + i + 1) ≤ (((i + 1 : ℕ) : ℝ)⁻¹) := by
        rw [← one_div]
        push_cast
        gcongr
        linarith
      rw [one_div] at ih
      exact mul_le_mul ih h1 (by positivity) (by positivity)
  have h18 := hC 18
  have hexp : Real.exp ((2 * (0 + 17 + 1 : ℕ) ^ 2 + 7 * (0 + 17 + 1 : ℕ) + 2) * R.u) ≤ 3 := by
    have : (2 * ((0 + 17 + 1 : ℕ) : ℝ) ^ 2 + 7 * (0 + 17 + 1 : ℕ) + 2) * R.u ≤ 1 := by
      push_cast; norm_num at hu ⊢; linarith
    exact (Real.exp_le_exp.2 this).trans Real.exp_one_lt_three.le
  have hc0 := (serC_pos ha hx 18).le
  have : (18).factorial = 6402373705728000 := by decide
  rw [this] at h18
  calc _ ≤ 3 * (1 / (6402373705728000 : ℕ) : ℝ) := mul_le_mul hexp h18 hc0 (by norm_num)
    _ ≤ 1e-15 * 1 := by norm_num
    _ ≤ _ := mul_le_mul_of_nonneg_left hS (by norm_num)

theorem lrSeriesG_fuel {K : Type} [Zero K] [One K] [Add K] [Sub K] [Mul K] [Neg K] [NatCast K] [OfScientific K] [DecidableEq K]
    [LE K] [LT K] [DecidableLE K] [DecidableLT K] [Max K] (div : K → K → Option K) (x : K) (n m : ℕ) (h : n ≤ m) : ∀ {r c s v : K},
    lrSeriesG div x n r c s = some v → lrSeriesG div x m r c s = some v := by
  induction n generalizing m with
  | zero => intro r c s v h; simp [lrSeriesG] at h
  | succ n ih =>
    intro r c s v hv
    obtain ⟨m, rfl⟩ : ∃ k, m = k + 1 := ⟨m - 1, by omega⟩
    rw [lrSeriesG] at hv ⊢
    simp only [Option.bind_eq_bind] at hv ⊢
    cases h1 : div x (r + 1) with
    | none => rw [h1] at hv; simp at hv
    | some q =>
      rw [h1] at hv
      simp only [Option.bind_some] at hv ⊢
      cases h2 : div (c * q) (s + c * q) with
      | none => rw [h2] at hv; simp at hv
      | some t =>
        rw [h2] at hv
        simp only [Option.bind_some] at hv ⊢
        split_ifs at hv ⊢
        · exact hv
        · exact ih m (by omega) hv

/-- **C121** for `x ≤ 1` and `a > 0` the function `gamma_lr` returns, with the accuracy of the series -/
theorem C121_small (L : IncLib R φ ln exp) (hu : R.u ≤ 1e-4) {lnG : Fl R → Option (Fl R)} {a x lg : Fl R} (ha : 0 < a.val)
    (hx : 0 < x.val) (hx1 : x.val ≤ 1) (hlg : lnG a = some lg)
    (hl : |lg.val - Real.log (Real.Gamma a.val)| ≤ δ)
    (hA : axErr R φ δ a.val x.val ≤ 1) (hlow : -708 ≤ a.val * Real.log x.val - x.val - Real.log (Real.Gamma a.val))
    {n : ℕ} (hn : 18 ≤ n) :
    ∃ v : Fl R, gammaLrG (fun a b => some (a / b)) ln exp lnG n a x = some v ∧
      LC (φ + axErr R φ δ a.val x.val + 398 * R.u + 1.2e-15 * x.val) v.val
        ((∫ t in (0 : ℝ)..x.val, t ^ (a.val - 1) * Real.exp (-t)) / Real.Gamma a.val) := by
  have hax := ax_fl L hu ha hx hl
  obtain ⟨s, hs⟩ := C121_returns hu ha hx hx1 (le_refl 18)
  have key : ∀ m, 18 ≤ m → gammaLrG (fun a b => some (a / b)) ln exp lnG m a x = some (exp (a * ln x - x - lg) * s / a) := by
    intro m hm
    unfold gammaLrG
    rw [if_neg (by rw [Fl.le_iff]; exact not_le.2 hx), if_neg (show ¬ a = 0 from fun h => ha.ne' (congrArg Fl.val h)),
      if_neg (show ¬ x = 0 from fun h => hx.ne' (congrArg Fl.val h)), hlg]
    simp only [Option.bind_eq_bind, Option.bind_some]
    rw [if_neg (ax_big hu (by linarith [(abs_le.1 hax).1])), if_pos (by rw [Fl.le_iff, Fl.le_iff]; exact Or.inl hx1),
      lrSeriesG_fuel _ x 18 m hm hs, Option.bind_some]
  refine ⟨_, key n hn, ?_⟩
  have := C121_series L hu ha hx (Or.inl hx1) hlg hl (n := 18) (by norm_num at hu ⊢; linarith) hA hlow (key 18 le_rfl)
  refine this.mono ?_
  push_cast
  linarith [R.u_nonneg]

/-- correctly rounded functions -/
theorem correct_inclib (R : Rounding ℝ) (hu : R.u ≤ 1 / 10) : IncLib R R.u (fun x => ⟨R.rnd (Real.log x.val)⟩)
    (fun x => ⟨R.rnd (Real.exp x.val)⟩) := by
  refine ⟨R.u_nonneg, hu, fun x _ => R.err _, fun x => ?_⟩
  have := Near.of_rnd (R := R) (by linarith) (Real.exp_pos x.val).le
  simpa using this.2

/-- the hypotheses are met: `gamma_lr(1, 1/2)` with 53 bits is `1 - e^(-1/2)` up to `1e-13` -/
example : ∃ v : Fl (binary ℝ 53 (by norm_num)), gammaLrG (fun a b => some (a / b))
      (fun x => ⟨(binary ℝ 53 (by norm_num)).rnd (Real.log x.val)⟩) (fun x => ⟨(binary ℝ 53 (by norm_num)).rnd (Real.exp x.val)⟩)
      (fun _ => some 0) 18 ⟨1⟩ ⟨1 / 2⟩ = some v ∧ |v.val - (1 - Real.exp (-(1 / 2)))| ≤ 1e-13 := by
  have e : (binary ℝ 53 (by norm_num)).u = 1 / 2 ^ 53 := (one_div _).symm
  have hl : |Real.log (1 / 2)| ≤ 1 := by
    rw [one_div, Real.log_inv, abs_neg, abs_of_pos (Real.log_pos (by norm_num))]
    have := Real.log_two_lt_d9
    norm_num at this
    linarith
  have hA : axErr (binary ℝ 53 (by norm_num)) (binary ℝ 53 (by norm_num)).u 0 1 (1 / 2) ≤ 10.5 * (1 / 2 ^ 53) := by
    unfold axErr
    rw [Real.Gamma_one, Real.log_one, e, abs_zero]
    norm_num at hl ⊢
    linarith
  obtain ⟨v, hv, h⟩ := C121_small (δ := 0) (lnG := fun _ => some 0) (a := ⟨1⟩) (x := ⟨1 / 2⟩) (lg := 0)
    (correct_inclib (binary ℝ 53 (by norm_num)) (by rw [e]; norm_num)) (by rw [e]; norm_num) (by norm_num) (by norm_num)
    (by norm_num) rfl (by show |(0 : ℝ) - Real.log (Real.Gamma 1)| ≤ 0; simp) (hA.trans (by norm_num)) (by
      show -708 ≤ 1 * Real.log (1 / 2) - 1 / 2 - Real.log (Real.Gamma 1)
      rw [Real.Gamma_one, Real.log_one]
      linarith [(abs_le.1 hl).1]) (le_refl 18)
  refine ⟨v, hv, ?_⟩
  have hi : (∫ t in (0 : ℝ)..(1 / 2), t ^ ((1 : ℝ) - 1) * Real.exp (-t)) = 1 - Real.exp (-(1 / 2)) := by
    simp only [sub_self, Real.rpow_zero, one_mul]
    rw [intervalIntegral.integral_comp_neg (fun t => Real.exp t), integral_exp]
    simp
  simp only [hi, Real.Gamma_one, div_one] at h
  have hE : (binary ℝ 53 (by norm_num)).u + axErr (binary ℝ 53 (by norm_num)) (binary ℝ 53 (by norm_num)).u 0 1 (1 / 2)
      + 398 * (binary ℝ 53 (by norm_num)).u + 1.2e-15 * (1 / 2) ≤ 0.9e-13 := by
    rw [e] at hA ⊢
    norm_num at hA ⊢
    linarith
  have h2 := (h.mono hE).abs_sub_le (by norm_num)
  refine h2.trans ?_
  have h3 := h.2.1
  have h4 := Real.exp_pos (-(1 / 2))
  have h5 : (0.9e-13 + 0.9e-13 ^ 2) * (1 - Real.exp (-(1 / 2))) ≤ (0.9e-13 + 0.9e-13 ^ 2) * 1 :=
    mul_le_mul_of_nonneg_left (by linarith) (by norm_num)
  refine h5.trans (by norm_num)

end
end Special
end Verif
