import Verif.FloatGamma
import Verif.GammaUseModel

/-!
# Property C115: `beta` and the densities that use `gamma`, with rounding and overflow
-/

namespace Verif
open Finset

namespace Special
open Rounding

/-! ### Sensitivity of the gamma function -/

theorem log_Gamma_ge {x : ℝ} (h1 : 1 ≤ x) : -Real.log 2 ≤ Real.log (Real.Gamma x) := by
  by_cases h : x ≤ 2
  · exact (log_Gamma_bounds h1 h).1
  · rw [not_le] at h
    have := Real.Gamma_strictMonoOn_Ici.monotoneOn (a := 2) (b := x) (by simp) (by simp; linarith) h.le
    rw [Real.Gamma_two] at this
    have h2 := Real.log_nonneg this
    have h3 : 0 < Real.log 2 := Real.log_pos (by norm_num)
    linarith

theorem log_Gamma_slope {a b : ℝ} (ha : 0 < a) (hab : a < b) :
    -3 * ((b - a) / a) ≤ Real.log (Real.Gamma b) - Real.log (Real.Gamma a) ∧
      Real.log (Real.Gamma b) - Real.log (Real.Gamma a) ≤ (b - a) * Real.log (1 + b) := by
  have hc := Real.convexOn_log_Gamma
  have hb : 0 < b := by linarith
  have Ga := Real.Gamma_pos_of_pos ha
  have Gb := Real.Gamma_pos_of_pos hb
  have hl0 : 0 < Real.log 2 := Real.log_pos (by norm_num)
  have hl := Real.log_two_lt_d9
  norm_num at hl
  constructor
  · by_cases h2 : 2 ≤ a
    · have h3 := Real.Gamma_strictMonoOn_Ici.monotoneOn (a := a) (b := b) (by simpa using h2) (by simp; linarith) hab.le
      have h4 := Real.log_le_log Ga h3
      have : 0 ≤ (b - a) / a := div_nonneg (by linarith) ha.le
      linarith
    · rw [not_le] at h2
      have s := hc.slope_mono_adjacent (x := a / 2) (y := a) (z := b) (by simpa using ha) (by simpa using hb) (by linarith) hab
      simp only [Function.comp] at s
      have g1 : Real.log (Real.Gamma (a + 1)) = Real.log a + Real.log (Real.Gamma a) := by
        rw [Real.Gamma_add_one ha.ne', Real.log_mul ha.ne' Ga.ne']
      have g2 : Real.log (Real.Gamma (a / 2 + 1)) = Real.log a - Real.log 2 + Real.log (Real.Gamma (a / 2)) := by
        rw [Real.Gamma_add_one (by linarith), Real.log_mul (by linarith) (Real.Gamma_pos_of_pos (by linarith)).ne',
          Real.log_div ha.ne' (by norm_num)]
      have b1 := log_Gamma_ge (x := a + 1) (by linarith)
      have b2 := (log_Gamma_bounds (x := a / 2 + 1) (by linarith) (by linarith)).2
      have k : -3 / a ≤ (Real.log (Real.Gamma a) - Real.log (Real.Gamma (a / 2))) / (a - a / 2) := by
        rw [div_le_div_iff₀ ha (by linarith)]
        nlinarith
      have := k.trans s
      rw [div_le_div_iff₀ ha (by linarith)] at this
      rw [show -3 * ((b - a) / a) = -3 * (b - a) / a by ring, div_le_iff₀ ha]
      linarith
  · have s := hc.slope_mono_adjacent (x := a) (y := b) (z := b + 1) (by simpa using ha) (by simp; linarith) hab (by linarith)
    simp only [Function.comp] at s
    rw [Real.Gamma_add_one hb.ne', Real.log_mul hb.ne' Gb.ne', add_sub_cancel_right, add_sub_cancel_left, div_one,
      div_le_iff₀ (by linarith)] at s
    have h5 := Real.log_le_log hb (by linarith : b ≤ 1 + b)
    have h6 := mul_le_mul_of_nonneg_right h5 (by linarith : 0 ≤ b - a)
    linarith

/-- the gamma function at a perturbed argument -/
theorem Gamma_pert {ε s s' : ℝ} (h : LC ε s' s) (he : ε ≤ 1 / 10) :
    LC (2 * ε * (3 + s * Real.log (1 + 2 * s))) (Real.Gamma s') (Real.Gamma s) := by
  have e0 : 0 ≤ ε := (abs_nonneg _).trans h.2.2
  have hs := h.2.1
  have hs' := h.1
  have hl : 0 ≤ Real.log (1 + 2 * s) := Real.log_nonneg (by linarith)
  refine ⟨Real.Gamma_pos_of_pos hs', Real.Gamma_pos_of_pos hs, ?_⟩
  have d1 := h.abs_sub_le (by linarith)
  have d2 := h.symm.abs_sub_le (by linarith)
  have c : ε + ε ^ 2 ≤ 2 * ε := by nlinarith
  have d3 : |s' - s| ≤ 2 * ε * s := d1.trans (mul_le_mul_of_nonneg_right c hs.le)
  have d4 : |s - s'| ≤ 2 * ε * s' := d2.trans (mul_le_mul_of_nonneg_right c hs'.le)
  have p : 0 ≤ 2 * ε * (s * Real.log (1 + 2 * s)) := by positivity
  rcases lt_trichotomy s s' with hlt | heq | hgt
  · obtain ⟨a1, a2⟩ := log_Gamma_slope hs hlt
    rw [abs_of_pos (by linarith)] at d3
    have q1 : (s' - s) / s ≤ 2 * ε := by rwa [div_le_iff₀ hs]
    have q2 : Real.log (1 + s') ≤ Real.log (1 + 2 * s) := Real.log_le_log (by linarith) (by nlinarith)
    have q3 : (s' - s) * Real.log (1 + s') ≤ 2 * ε * s * Real.log (1 + 2 * s) :=
      mul_le_mul d3 q2 (Real.log_nonneg (by linarith)) (by positivity)
    rw [abs_le]
    constructor <;> linarith
  · rw [heq, sub_self, abs_zero]
    rw [heq] at p
    linarith
  · obtain ⟨a1, a2⟩ := log_Gamma_slope hs' hgt
    rw [abs_of_pos (by linarith)] at d4
    have q1 : (s - s') / s' ≤ 2 * ε := by rwa [div_le_iff₀ hs']
    have q2 : Real.log (1 + s) ≤ Real.log (1 + 2 * s) := Real.log_le_log (by linarith) (by linarith)
    have q3 : (s - s') * Real.log (1 + s) ≤ 2 * ε * s * Real.log (1 + 2 * s) := by
      refine mul_le_mul ?_ q2 (Real.log_nonneg (by linarith)) (by positivity)
      refine d4.trans (mul_le_mul_of_nonneg_left hgt.le (by linarith))
    rw [abs_le]
    constructor <;> linarith

section Fl
variable {R : Rounding ℝ} {φ : ℝ} {pi : Fl R} {sqrt exp sin : Fl R → Fl R} {pow : Fl R → Fl R → Fl R}

/-- the format contains 1 and 1/2, and nothing larger is rounded below 1/2 -/
def Halves (R : Rounding ℝ) : Prop := R.rnd 1 = 1 ∧ R.rnd (1 / 2) = 1 / 2 ∧ ∀ x : ℝ, 1 / 2 ≤ x → 1 / 2 ≤ R.rnd x

/-- `gamma` with rounding at a computed argument -/
theorem gamma_lc (L : GammaLib R φ pi sqrt exp sin pow) (hu : R.u ≤ 1e-4) (hR : Halves R) {z : Fl R} {s : ℝ} {m : ℕ}
    (hm : m ≤ 10) (hz : LC (m * R.u) z.val s) :
    ∃ g : Fl R, gammaG (fun a b => some (a / b)) pi sqrt exp sin pow z = some g ∧
      LC (2.6e-12 + 5 * φ + (1200 + 6 * m + 14 * s + (4 + 2 * m) * s * Real.log (2 * s + 6.5)) * R.u) g.val (Real.Gamma s) := by
  have h0 := R.u_nonneg
  have hu4 : R.u ≤ 1 / 10000 := by norm_num at hu ⊢; linarith
  have hm' : (m : ℝ) ≤ 10 := by exact_mod_cast hm
  have hs := hz.2.1
  have hmu : (m : ℝ) * R.u ≤ 1 / 1000 := by nlinarith
  have hmu0 : 0 ≤ (m : ℝ) * R.u := by positivity
  obtain ⟨g, e, hg, hb⟩ := C114_gamma L hu hR.1 hR.2.1 hR.2.2 z hz.1
  refine ⟨g, e, ?_⟩
  have hlc : LC _ g.val (Real.Gamma z.val) := ⟨hg, Real.Gamma_pos_of_pos hz.1, hb⟩
  refine (hlc.trans (Gamma_pert hz (by linarith))).mono ?_
  have d1 := (abs_le.1 (hz.abs_sub_le (by linarith))).2
  have z2 : z.val ≤ 2 * s := by
    have c : m * R.u + (m * R.u) ^ 2 ≤ 1 := by nlinarith
    have := mul_le_mul_of_nonneg_right c hs.le
    linarith
  have hl : 0 ≤ Real.log (2 * s + 6.5) := Real.log_nonneg (by norm_num; linarith)
  have l1 : Real.log (z.val + 6.5) ≤ Real.log (2 * s + 6.5) := Real.log_le_log (by have := hz.1; linarith) (by linarith)
  have l2 : Real.log (1 + 2 * s) ≤ Real.log (2 * s + 6.5) := Real.log_le_log (by linarith) (by norm_num; linarith)
  have k1 : 2 * z.val * Real.log (z.val + 6.5) ≤ 2 * (2 * s) * Real.log (2 * s + 6.5) := by
    refine mul_le_mul (by linarith) l1 (Real.log_nonneg ?_) (by linarith)
    have := hz.1
    norm_num
    linarith
  have k2 : s * Real.log (1 + 2 * s) ≤ s * Real.log (2 * s + 6.5) := mul_le_mul_of_nonneg_left l2 hs.le
  have k3 : (1200 + 7 * z.val + 2 * z.val * Real.log (z.val + 6.5)) * R.u ≤
      (1200 + 14 * s + 2 * (2 * s) * Real.log (2 * s + 6.5)) * R.u := mul_le_mul_of_nonneg_right (by linarith) h0
  have k4 : 2 * (m * R.u) * (3 + s * Real.log (1 + 2 * s)) ≤ 2 * (m * R.u) * (3 + s * Real.log (2 * s + 6.5)) :=
    mul_le_mul_of_nonneg_left (by linarith) (by linarith)
  refine (add_le_add (add_le_add le_rfl k3) k4).trans (le_of_eq (by ring))

/-- **C115** (`/repo/src/special/beta.rs:109-112`, `beta` for positive arguments, with rounding, without overflow): the
logarithm of the result differs from that of `Γ(x) Γ(y) / Γ(x + y)` by at most
`7.8e-12 + 15 φ + (3610 + 28 s + 10 s log (2 s + 6.5)) u` with `s = x + y`. -/
theorem C115_beta (L : GammaLib R φ pi sqrt exp sin pow) (hu : R.u ≤ 1e-4) (hR : Halves R) (x y : Fl R) (hx : 0 < x.val)
    (hy : 0 < y.val) :
    ∃ v : Fl R, betaG (fun a b => some (a / b)) (gammaG (fun a b => some (a / b)) pi sqrt exp sin pow) x y = some v ∧
      LC (7.8e-12 + 15 * φ + (3610 + 28 * (x.val + y.val) + 10 * (x.val + y.val) * Real.log (2 * (x.val + y.val) + 6.5)) * R.u)
        v.val (Real.Gamma x.val * Real.Gamma y.val / Real.Gamma (x.val + y.val)) := by
  have h0 := R.u_nonneg
  have hu' : R.u < 1 := by norm_num at hu; linarith
  obtain ⟨gx, ex, lx⟩ := gamma_lc L hu hR (m := 0) (by omega) (by simpa using LC.refl hx)
  obtain ⟨gy, ey, ly⟩ := gamma_lc L hu hR (m := 0) (by omega) (by simpa using LC.refl hy)
  have hs : LC ((1 : ℕ) * R.u) (x + y).val (x.val + y.val) := by
    have := (LC.refl (add_pos hx hy)).rnd hu'
    rw [zero_add] at this
    rw [Nat.cast_one, one_mul]
    exact this
  obtain ⟨gs, es, ls⟩ := gamma_lc L hu hR (m := 1) (by omega) hs
  refine ⟨gx * gy / gs, ?_, ?_⟩
  · simp only [betaG, ex, ey, es, Option.bind_eq_bind, Option.bind_some]
  · have key := (((lx.mul ly).rnd hu').div ls).rnd hu'
    refine LC.mono key ?_
    set s := x.val + y.val with hsdef
    have l1 : Real.log (2 * x.val + 6.5) ≤ Real.log (2 * s + 6.5) := Real.log_le_log (by norm_num; linarith) (by linarith)
    have l2 : Real.log (2 * y.val + 6.5) ≤ Real.log (2 * s + 6.5) := Real.log_le_log (by norm_num; linarith) (by linarith)
    have k1 := mul_le_mul_of_nonneg_left l1 hx.le
    have k2 := mul_le_mul_of_nonneg_left l2 hy.le
    have k3 : x.val * Real.log (2 * s + 6.5) + y.val * Real.log (2 * s + 6.5) = s * Real.log (2 * s + 6.5) := by
      rw [hsdef]; ring
    have hl : 0 ≤ s * Real.log (2 * s + 6.5) := by
      refine mul_nonneg (by linarith) (Real.log_nonneg (by norm_num; linarith))
    push_cast
    have k4 : (1200 + 6 * 0 + 14 * x.val + (4 + 2 * 0) * x.val * Real.log (2 * x.val + 6.5)) * R.u +
        (1200 + 6 * 0 + 14 * y.val + (4 + 2 * 0) * y.val * Real.log (2 * y.val + 6.5)) * R.u + R.u +
        (1200 + 6 * 1 + 14 * s + (4 + 2 * 1) * s * Real.log (2 * s + 6.5)) * R.u + R.u ≤
        (3610 + 28 * s + 10 * s * Real.log (2 * s + 6.5)) * R.u := by
      rw [← sub_nonneg]
      have : 0 ≤ (2 + 14 * (s - x.val - y.val) + 4 * (s * Real.log (2 * s + 6.5) - x.val * Real.log (2 * x.val + 6.5)
          - y.val * Real.log (2 * y.val + 6.5))) * R.u := by
        refine mul_nonneg ?_ h0
        have e : s - x.val - y.val = 0 := by rw [hsdef]; ring
        rw [e]
        linarith
      refine this.trans (le_of_eq ?_)
      ring
    norm_num at k4 ⊢
    linarith

/-- **C115**, in the precision of `f64` with library functions correct up to `2⁻⁵²` and `x + y ≤ 142`: the relative error of
`beta` is at most `1e-11`. -/
theorem C115_beta_relative (L : GammaLib R φ pi sqrt exp sin pow) (hu : R.u ≤ 1 / 2 ^ 53) (hφ : φ ≤ 1 / 2 ^ 52) (hR : Halves R)
    (x y : Fl R) (hx : 0 < x.val) (hy : 0 < y.val) (hxy : x.val + y.val ≤ 142) :
    ∃ v : Fl R, betaG (fun a b => some (a / b)) (gammaG (fun a b => some (a / b)) pi sqrt exp sin pow) x y = some v ∧
      |v.val - Real.Gamma x.val * Real.Gamma y.val / Real.Gamma (x.val + y.val)| ≤
        1e-11 * (Real.Gamma x.val * Real.Gamma y.val / Real.Gamma (x.val + y.val)) := by
  have h0 := R.u_nonneg
  obtain ⟨v, e, h⟩ := C115_beta L (hu.trans (by norm_num)) hR x y hx hy
  refine ⟨v, e, ?_⟩
  set s := x.val + y.val with hs
  have hs0 : 0 < s := add_pos hx hy
  have hl : Real.log (2 * s + 6.5) ≤ 6.3 := by
    have a1 : 2 * s + 6.5 ≤ 2 ^ 9 := by norm_num; linarith
    have a2 := Real.log_le_log (by norm_num; linarith) a1
    rw [Real.log_pow] at a2
    have a3 := Real.log_two_lt_d9
    norm_num at a2 a3 ⊢
    linarith
  have h4 : 10 * s * Real.log (2 * s + 6.5) ≤ 10 * 142 * 6.3 :=
    mul_le_mul (by linarith) hl (Real.log_nonneg (by norm_num; linarith)) (by norm_num)
  have h5 : (3610 + 28 * s + 10 * s * Real.log (2 * s + 6.5)) * R.u ≤ 16600 * (1 / 2 ^ 53) := by
    refine mul_le_mul ?_ hu h0 (by norm_num)
    have : (10 * 142 * 6.3 : ℝ) = 8946 := by norm_num
    linarith
  have h6 := h.mono (show _ ≤ (9.7e-12 : ℝ) by norm_num at h5 hφ ⊢; linarith)
  exact (h6.abs_sub_le (by norm_num)).trans (mul_le_mul_of_nonneg_right (by norm_num) h6.2.1.le)

/-! ### The densities -/

theorem LC.rpow {ε δ a b c d : ℝ} (h : LC ε a b) (hd : |c - d| ≤ δ) :
    LC (|c| * ε + δ * |Real.log b|) (a ^ c) (b ^ d) := by
  refine ⟨Real.rpow_pos_of_pos h.1 _, Real.rpow_pos_of_pos h.2.1 _, ?_⟩
  rw [Real.log_rpow h.1, Real.log_rpow h.2.1,
    show c * Real.log a - d * Real.log b = c * (Real.log a - Real.log b) + (c - d) * Real.log b by ring]
  refine (abs_add_le _ _).trans ?_
  rw [abs_mul, abs_mul]
  exact add_le_add (mul_le_mul_of_nonneg_left h.2.2 (abs_nonneg _)) (mul_le_mul_of_nonneg_right hd (abs_nonneg _))

theorem LC.of_near {m : ℕ} {a b : ℝ} (h : R.Near m a b) (hb : 0 < b) : LC (m * R.u) a b := by
  have k : (1 + R.u) ^ m ≤ Real.exp (m * R.u) := by
    rw [Real.exp_nat_mul]
    exact pow_le_pow_left₀ (by linarith [R.u_nonneg]) (by linarith [Real.add_one_le_exp R.u]) m
  have ha : 0 < a := by
    by_contra hc
    have := mul_nonpos_of_nonneg_of_nonpos (pow_nonneg (by linarith [R.u_nonneg] : 0 ≤ 1 + R.u) m) (not_lt.1 hc)
    linarith [h.2.2]
  exact LC.of_exp ha hb (h.2.1.trans (mul_le_mul_of_nonneg_right k hb.le)) (h.2.2.trans (mul_le_mul_of_nonneg_right k ha.le))

theorem GammaLib.pow_lc (L : GammaLib R φ pi sqrt exp sin pow) {x y : Fl R} {ε δ b d : ℝ} (h : LC ε x.val b)
    (hd : |y.val - d| ≤ δ) : LC (φ + (|y.val| * ε + δ * |Real.log b|)) (pow x y).val (b ^ d) := by
  have h1 := L.pow_le x y h.1
  exact (LC.of_rel L.nonneg (Real.rpow_pos_of_pos h.1 _) h1.1 h1.2).trans (h.rpow hd)

theorem GammaLib.exp_lc (L : GammaLib R φ pi sqrt exp sin pow) {x : Fl R} {δ d : ℝ} (hd : |x.val - d| ≤ δ) :
    LC (φ + δ) (exp x).val (Real.exp d) := by
  have h1 := L.exp_le x
  exact (LC.of_rel L.nonneg (Real.exp_pos _) h1.1 h1.2).trans (lc_exp hd)

theorem two_lc (hu : R.u < 1) : LC R.u (2.0 : Fl R).val 2 := by
  have := LC.lit hu (by norm_num : (0 : ℝ) < 2.0)
  rw [show (2 : ℝ) = 2.0 by norm_num]
  exact this

/-- **C115** (`/repo/src/statistics/distrib/t.rs:74-79`, `pdf`, with rounding, without overflow): the logarithm of the result
differs from that of the density of the t distribution by at most
`5.2e-12 + 12 φ + (2434 + 17 (n + 1) + 9 (n + 1) log (n + 7.5) + 2 (n + 1) log (1 + x² / n)) u`. -/
theorem C115_t (L : GammaLib R φ pi sqrt exp sin pow) (hu : R.u ≤ 1e-4) (hR : Halves R) (n x : Fl R) (hn : 0 < n.val) :
    ∃ v : Fl R, tPdfG (fun a b => some (a / b)) (gammaG (fun a b => some (a / b)) pi sqrt exp sin pow)
        (fun a b => some (pow a b)) sqrt pi n x = some v ∧
      LC (5.2e-12 + 12 * φ + (2434 + 17 * (n.val + 1) + 9 * (n.val + 1) * Real.log (n.val + 7.5)
          + 2 * (n.val + 1) * Real.log (1 + x.val ^ 2 / n.val)) * R.u) v.val
        (Real.Gamma ((n.val + 1) / 2) * (1 + x.val ^ 2 / n.val) ^ (-((n.val + 1) / 2)) /
          (Real.sqrt (n.val * Real.pi) * Real.Gamma (n.val / 2))) := by
  have h0 := R.u_nonneg
  have hφ := L.nonneg
  have hu4 : R.u ≤ 1 / 10000 := by norm_num at hu ⊢; linarith
  have hu' : R.u < 1 := by linarith
  have l2 := two_lc (R := R) hu'
  set a := (n.val + 1) / 2 with ha
  have ha0 : 0 < a := by linarith
  obtain ⟨a', ea⟩ : ∃ a' : Fl R, a' = (n + 1) / 2.0 := ⟨_, rfl⟩
  obtain ⟨b', eb⟩ : ∃ b' : Fl R, b' = n / 2.0 := ⟨_, rfl⟩
  have la : LC ((3 : ℕ) * R.u) a'.val a := by
    have := ((((LC.refl (by linarith : 0 < n.val + 1)).rnd hu').div l2).rnd hu').mono (δ := (3 : ℕ) * R.u) (by push_cast; linarith)
    rw [ea]; exact this
  have lb : LC ((2 : ℕ) * R.u) b'.val (n.val / 2) := by
    have := (((LC.refl hn).div l2).rnd hu').mono (δ := (2 : ℕ) * R.u) (by push_cast; linarith)
    rw [eb]; exact this
  obtain ⟨g1, eg1, lg1⟩ := gamma_lc L hu hR (by omega) la
  obtain ⟨g2, eg2, lg2⟩ := gamma_lc L hu hR (by omega) lb
  set B := 1 + x.val ^ 2 / n.val with hB
  have hB1 : 1 ≤ B := by have : 0 ≤ x.val ^ 2 / n.val := by positivity
                         linarith
  have hlB : 0 ≤ Real.log B := Real.log_nonneg hB1
  have lB : LC ((3 : ℕ) * R.u) (1 + x * x / n).val B := by
    have h1 := ((Near.of_rnd hu' (mul_self_nonneg x.val)).div (Near.refl (R := R) hn.le) hn).rnd hu'
    have h2 := (((Near.refl (R := R) (zero_le_one' ℝ)).mono (by omega)).add h1).rnd hu'
    have h3 : R.Near 3 (1 + x * x / n).val B := by
      rw [hB, sq]
      exact h2
    exact LC.of_near h3 (by linarith)
  have da : |a'.val - a| ≤ 4 * R.u * a := by
    refine (la.abs_sub_le (by push_cast; linarith)).trans (mul_le_mul_of_nonneg_right ?_ ha0.le)
    push_cast
    nlinarith
  have a2 : |(-a').val| ≤ 2 * a := by
    change |-a'.val| ≤ _
    rw [abs_neg, abs_of_pos la.1]
    have := (abs_le.1 da).2
    nlinarith
  have lw : LC (φ + (6 * a + 4 * a * Real.log B) * R.u) (pow (1 + x * x / n) (-a')).val (B ^ (-a)) := by
    have h1 : |(-a').val - (-a)| ≤ 4 * R.u * a := by
      change |-a'.val - -a| ≤ _
      rw [neg_sub_neg, abs_sub_comm]
      exact da
    refine (L.pow_lc lB h1).mono ?_
    rw [abs_of_nonneg hlB]
    have := mul_le_mul_of_nonneg_right a2 (by positivity : 0 ≤ ((3 : ℕ) : ℝ) * R.u)
    push_cast at this ⊢
    linarith
  have ls : LC (φ + R.u) (sqrt (n * pi)).val (Real.sqrt (n.val * Real.pi)) := by
    have h1 : LC R.u pi.val Real.pi := by rw [L.pi_eq]; exact LC.lit hu' Real.pi_pos
    have h2 : LC (2 * R.u) (n * pi).val (n.val * Real.pi) := LC.mono (((LC.refl hn).mul h1).rnd hu') (by linarith)
    have h3 := L.sqrt_le _ h2.1
    exact ((LC.of_rel hφ (Real.sqrt_pos.2 h2.1) h3.1 h3.2).trans h2.sqrt).mono (by linarith)
  refine ⟨g1 * pow (1 + x * x / n) (-a') / (sqrt (n * pi) * g2), ?_, ?_⟩
  · simp only [tPdfG, Option.bind_eq_bind, Option.bind_some, ← ea, ← eb, eg1, eg2]
  · have key := (((lg1.mul lw).rnd hu').div ((ls.mul lg2).rnd hu')).rnd hu'
    refine LC.mono key ?_
    have e1 : 2 * a + 6.5 = n.val + 7.5 := by rw [ha]; norm_num; ring
    have e2 : 2 * (n.val / 2) + 6.5 = n.val + 6.5 := by ring
    rw [e1, e2]
    have q1 : Real.log (n.val + 6.5) ≤ Real.log (n.val + 7.5) := Real.log_le_log (by norm_num; linarith) (by norm_num)
    have q2 : n.val * Real.log (n.val + 6.5) ≤ n.val * Real.log (n.val + 7.5) := mul_le_mul_of_nonneg_left q1 hn.le
    have q3 : 0 ≤ Real.log (n.val + 7.5) := Real.log_nonneg (by norm_num; linarith)
    have k : 0 ≤ (7 + (4 * (n.val * Real.log (n.val + 7.5)) - 4 * (n.val * Real.log (n.val + 6.5)))
        + 4 * Real.log (n.val + 7.5)) * R.u := mul_nonneg (by linarith) h0
    push_cast
    rw [← sub_nonneg]
    refine k.trans (le_of_eq ?_)
    rw [ha]
    norm_num
    ring

/-- **C115** (`/repo/src/statistics/distrib/chisquare.rs:70-83`, `pdf` for `x > 0`, with rounding, without overflow): the
logarithm of the result differs from that of the density by at most
`2.6e-12 + 8 φ + (1220 + 10 k + 4 k log (k + 6.5) + (3 k + 1) |log x| + 2 x) u`. -/
theorem C115_chi (L : GammaLib R φ pi sqrt exp sin pow) (hu : R.u ≤ 1e-4) (hR : Halves R) (k x : Fl R) (hk : 0 < k.val)
    (hx : 0 < x.val) :
    ∃ v : Fl R, chiPdfG (fun a b => some (a / b)) (gammaG (fun a b => some (a / b)) pi sqrt exp sin pow)
        (fun a b => some (pow a b)) exp k x = some v ∧
      LC (2.6e-12 + 8 * φ + (1220 + 10 * k.val + 4 * k.val * Real.log (k.val + 6.5) + (3 * k.val + 1) * |Real.log x.val|
          + 2 * x.val) * R.u) v.val
        (1 / (2 ^ (k.val / 2) * Real.Gamma (k.val / 2)) * (x.val ^ (k.val / 2 - 1) * Real.exp (-x.val / 2))) := by
  have h0 := R.u_nonneg
  have hφ := L.nonneg
  have hu4 : R.u ≤ 1 / 10000 := by norm_num at hu ⊢; linarith
  have hu' : R.u < 1 := by linarith
  have l2 := two_lc (R := R) hu'
  set d := k.val / 2 with hd
  have hd0 : 0 < d := by linarith
  obtain ⟨d', ed⟩ : ∃ d' : Fl R, d' = k / 2.0 := ⟨_, rfl⟩
  have ld : LC ((2 : ℕ) * R.u) d'.val d := by
    have := (((LC.refl hk).div l2).rnd hu').mono (δ := (2 : ℕ) * R.u) (by push_cast; linarith)
    rw [ed]; exact this
  have dd : |d'.val - d| ≤ 3 * R.u * d := by
    refine (ld.abs_sub_le (by push_cast; linarith)).trans (mul_le_mul_of_nonneg_right ?_ hd0.le)
    push_cast
    nlinarith
  have d2 : |d'.val| ≤ 2 * d := by
    rw [abs_of_pos ld.1]
    have := (abs_le.1 dd).2
    nlinarith
  obtain ⟨g, eg, lg⟩ := gamma_lc L hu hR (by omega) ld
  have lw : LC (φ + 5 * d * R.u) (pow 2.0 d').val (2 ^ d) := by
    refine (L.pow_lc l2 dd).mono ?_
    have hl0 : 0 < Real.log 2 := Real.log_pos (by norm_num)
    have hl := Real.log_two_lt_d9
    rw [abs_of_pos hl0]
    have m1 := mul_le_mul_of_nonneg_right d2 h0
    have m2 : 3 * R.u * d * Real.log 2 ≤ 3 * R.u * d * 1 := mul_le_mul_of_nonneg_left (by norm_num at hl; linarith) (by positivity)
    linarith
  have de : |(d' - 1).val - (d - 1)| ≤ (5 * d + 1) * R.u := by
    have h1 : |(d'.val - 1) - (d - 1)| ≤ 3 * R.u * d := by rwa [sub_sub_sub_cancel_right]
    have h2 := R.rnd_near h1
    have h3 : |d - 1| ≤ d + 1 := (abs_sub _ _).trans (by rw [abs_of_pos hd0, abs_one])
    have h4 := mul_le_mul_of_nonneg_left h3 h0
    refine LE.le.trans h2 ?_
    nlinarith [mul_nonneg h0 hd0.le]
  have ly : LC (φ + (5 * d + 1) * R.u * |Real.log x.val|) (pow x (d' - 1)).val (x.val ^ (d - 1)) :=
    (L.pow_lc (LC.refl hx) de).mono (by rw [mul_zero, zero_add])
  have dv : |(-x / 2.0 : Fl R).val - -x.val / 2| ≤ 2 * R.u * x.val := by
    have h1 := (((LC.refl hx).div l2).abs_sub_le (by linarith))
    have h2 : |-x.val / (2.0 : Fl R).val - -x.val / 2| ≤ (R.u + R.u ^ 2) * (x.val / 2) := by
      rw [neg_div, neg_div, neg_sub_neg, abs_sub_comm]
      simpa only [zero_add] using h1
    have h3 := R.rnd_near h2
    rw [show |-x.val / 2| = x.val / 2 by rw [neg_div, abs_neg, abs_of_pos (by linarith)]] at h3
    refine LE.le.trans h3 ?_
    have : (R.u + R.u ^ 2) * (1 + R.u) + R.u ≤ 4 * R.u := by nlinarith
    nlinarith
  have lx := L.exp_lc dv
  have hlt : ¬x < 0 := not_lt.2 (le_of_lt (show (0 : Fl R) < x from hx))
  refine ⟨1 / (pow 2.0 d' * g) * (pow x (d' - 1) * exp (-x / 2.0)), ?_, ?_⟩
  · rw [chiPdfG, if_neg hlt]
    simp only [Option.bind_eq_bind, Option.bind_some, ← ed, eg]
  · have key := ((((LC.refl one_pos).div ((lw.mul lg).rnd hu')).rnd hu').mul ((ly.mul lx).rnd hu')).rnd hu'
    refine LC.mono key ?_
    have e1 : 2 * d + 6.5 = k.val + 6.5 := by rw [hd]; ring
    rw [e1]
    have k0 : 0 ≤ (4 + k.val / 2 + k.val / 2 * |Real.log x.val|) * R.u := by positivity
    push_cast
    rw [← sub_nonneg]
    refine k0.trans (le_of_eq ?_)
    rw [hd]
    norm_num
    ring

/-- **C115** (`/repo/src/statistics/distrib/gamma.rs:71-80`, `pdf`, with rounding, without overflow): the logarithm of the
result differs from that of the density of the gamma distribution by at most
`2.6e-12 + 8 φ + (1204 + 14 α + 4 α log (2 α + 6.5) + |α - 1| |log x| + β x) u`. -/
theorem C115_gamma_pdf (L : GammaLib R φ pi sqrt exp sin pow) (hu : R.u ≤ 1e-4) (hR : Halves R) (al be x : Fl R)
    (ha : 0 < al.val) (hb : 0 < be.val) (hx : 0 < x.val) :
    ∃ v : Fl R, gammaPdfG (fun a b => some (a / b)) (gammaG (fun a b => some (a / b)) pi sqrt exp sin pow)
        (fun a b => some (pow a b)) exp al be x = some v ∧
      LC (2.6e-12 + 8 * φ + (1204 + 14 * al.val + 4 * al.val * Real.log (2 * al.val + 6.5) + |al.val - 1| * |Real.log x.val|
          + be.val * x.val) * R.u) v.val
        (be.val ^ al.val / Real.Gamma al.val * x.val ^ (al.val - 1) * Real.exp (-be.val * x.val)) := by
  have h0 := R.u_nonneg
  have hu' : R.u < 1 := by norm_num at hu; linarith
  obtain ⟨g, eg, lg⟩ := gamma_lc L hu hR (m := 0) (by omega) (by simpa using LC.refl ha)
  have lw : LC φ (pow be al).val (be.val ^ al.val) :=
    (L.pow_lc (LC.refl hb) (d := al.val) (δ := 0) (by simp)).mono (by simp)
  have ly : LC (φ + R.u * |al.val - 1| * |Real.log x.val|) (pow x (al - 1)).val (x.val ^ (al.val - 1)) :=
    (L.pow_lc (LC.refl hx) (R.err _)).mono (by rw [mul_zero, zero_add]; exact le_rfl)
  have lx : LC (φ + R.u * (be.val * x.val)) (exp (-be * x)).val (Real.exp (-be.val * x.val)) := by
    refine L.exp_lc ?_
    have := R.err (-be.val * x.val)
    rw [neg_mul, abs_neg, abs_of_pos (mul_pos hb hx), ← neg_mul] at this
    exact this
  have hle : ¬x ≤ 0 := not_le.2 (show (0 : Fl R) < x from hx)
  refine ⟨pow be al / g * pow x (al - 1) * exp (-be * x), ?_, ?_⟩
  · rw [gammaPdfG, if_neg hle]
    simp only [Option.bind_eq_bind, Option.bind_some, eg]
  · have key := ((((lw.div lg).rnd hu').mul ly).rnd hu' |>.mul lx).rnd hu'
    refine LC.mono key ?_
    push_cast
    norm_num
    linarith

/-- **C115** (`/repo/src/statistics/distrib/beta.rs:65-77`, `pdf` for `0 < x < 1`, with rounding, without overflow): the
logarithm of the result differs from that of the density of the beta distribution by at most
`7.8e-12 + 17 φ + (3612 + 28 s + 10 s log (2 s + 6.5) + |p - 1| |log x| + 2 |q - 1| + |q - 1| |log (1 - x)|) u`, `s = p + q`. -/
theorem C115_beta_pdf (L : GammaLib R φ pi sqrt exp sin pow) (hu : R.u ≤ 1e-4) (hR : Halves R) (p q x : Fl R)
    (hp : 0 < p.val) (hq : 0 < q.val) (hx : 0 < x.val) (hx1 : x.val < 1) :
    ∃ v : Fl R, betaPdfG (fun a b => some (a / b)) (gammaG (fun a b => some (a / b)) pi sqrt exp sin pow)
        (fun a b => some (pow a b)) p q x = some v ∧
      LC (7.8e-12 + 17 * φ + (3612 + 28 * (p.val + q.val) + 10 * (p.val + q.val) * Real.log (2 * (p.val + q.val) + 6.5)
          + |p.val - 1| * |Real.log x.val| + 2 * |q.val - 1| + |q.val - 1| * |Real.log (1 - x.val)|) * R.u) v.val
        (x.val ^ (p.val - 1) * (1 - x.val) ^ (q.val - 1) /
          (Real.Gamma p.val * Real.Gamma q.val / Real.Gamma (p.val + q.val))) := by
  have h0 := R.u_nonneg
  have hu' : R.u < 1 := by norm_num at hu; linarith
  obtain ⟨b, eb, lb⟩ := C115_beta L hu hR p q hp hq
  have l1 : LC (φ + R.u * |p.val - 1| * |Real.log x.val|) (pow x (p - 1)).val (x.val ^ (p.val - 1)) :=
    (L.pow_lc (LC.refl hx) (R.err _)).mono (by rw [mul_zero, zero_add]; exact le_rfl)
  have l2 : LC (φ + (2 * |q.val - 1| + |q.val - 1| * |Real.log (1 - x.val)|) * R.u) (pow (1 - x) (q - 1)).val
      ((1 - x.val) ^ (q.val - 1)) := by
    have hc : LC R.u (1 - x).val (1 - x.val) := LC.mono ((LC.refl (by linarith : 0 < 1 - x.val)).rnd hu') (by linarith)
    have he : |(q - 1).val - (q.val - 1)| ≤ R.u * |q.val - 1| := R.err _
    refine (L.pow_lc hc he).mono ?_
    have h1 : |(q - 1).val| ≤ 2 * |q.val - 1| := by
      have a1 : |R.rnd (q.val - 1)| ≤ |R.rnd (q.val - 1) - (q.val - 1)| + |q.val - 1| := by
        have := abs_add_le (R.rnd (q.val - 1) - (q.val - 1)) (q.val - 1)
        rwa [sub_add_cancel] at this
      have a2 := R.err (q.val - 1)
      have a3 := mul_le_mul_of_nonneg_right hu'.le (abs_nonneg (q.val - 1))
      change |R.rnd (q.val - 1)| ≤ _
      linarith
    have := mul_le_mul_of_nonneg_right h1 h0
    linarith
  have n1 : ¬x < 0 := not_lt.2 (le_of_lt (show (0 : Fl R) < x from hx))
  have n2 : ¬x > 1 := not_lt.2 (le_of_lt (show x < (1 : Fl R) from hx1))
  refine ⟨pow x (p - 1) * pow (1 - x) (q - 1) / b, ?_, ?_⟩
  · rw [betaPdfG, if_neg n1, if_neg n2]
    simp only [Option.bind_eq_bind, Option.bind_some, eb]
  · have key := (((l1.mul l2).rnd hu').div lb).rnd hu'
    refine LC.mono key ?_
    linarith

/-- the hypotheses are met by 53 bits and correctly rounded functions: `B(2, 3) = 1/12` up to `1e-12` -/
example : ∃ v : Fl (binary ℝ 53 (by norm_num)), betaG (fun a b => some (a / b)) (gammaG (fun a b => some (a / b))
      ⟨(binary ℝ 53 (by norm_num)).rnd Real.pi⟩
      (fun x => ⟨(binary ℝ 53 (by norm_num)).rnd (Real.sqrt x.val)⟩) (fun x => ⟨(binary ℝ 53 (by norm_num)).rnd (Real.exp x.val)⟩)
      (fun x => ⟨(binary ℝ 53 (by norm_num)).rnd (Real.sin x.val)⟩)
      (fun x y => ⟨(binary ℝ 53 (by norm_num)).rnd (x.val ^ y.val)⟩)) ⟨2⟩ ⟨3⟩ = some v ∧ |v.val - 1 / 12| ≤ 1e-12 := by
  have e : (binary ℝ 53 (by norm_num)).u = 1 / 2 ^ 53 := (one_div _).symm
  obtain ⟨v, h1, h2⟩ := C115_beta_relative (correct_lib (binary ℝ 53 (by norm_num)) (by rw [e]; norm_num)) e.le
    (by rw [e]; norm_num) ⟨binary_one _, binary_half _, fun _ => binary_ge_half _⟩ ⟨2⟩ ⟨3⟩ (by norm_num) (by norm_num) (by norm_num)
  refine ⟨v, h1, ?_⟩
  have g : ∀ n : ℕ, Real.Gamma (n + 1) = n.factorial := Real.Gamma_nat_eq_factorial
  have g2 : Real.Gamma 2 = 1 := Real.Gamma_two
  have g3 : Real.Gamma 3 = 2 := by rw [show (3 : ℝ) = ((2 : ℕ) : ℝ) + 1 by norm_num, g]; norm_num [Nat.factorial]
  have g5 : Real.Gamma (2 + 3) = 24 := by
    rw [show (2 + 3 : ℝ) = ((4 : ℕ) : ℝ) + 1 by norm_num, g]; norm_num [Nat.factorial]
  rw [g2, g3, g5] at h2
  norm_num at h2 ⊢
  linarith

/-- the other densities at the simplest points: `1 / π` for the t distribution with one degree of freedom at 0,
`exp(-1/2) / 2` for the chi-square distribution with 2 degrees of freedom at 1, `exp(-1)` for the gamma distribution with
parameters 1, 1 at 1, and 1 for the beta distribution with parameters 1, 1 at 1/2; each up to a relative error of `1e-11` -/
example : ∃ (pi : Fl (binary ℝ 53 (by norm_num))) (sqrt exp sin : Fl (binary ℝ 53 (by norm_num)) → Fl (binary ℝ 53 (by norm_num)))
    (pow : Fl (binary ℝ 53 (by norm_num)) → Fl (binary ℝ 53 (by norm_num)) → Fl (binary ℝ 53 (by norm_num)))
    (a b c d : Fl (binary ℝ 53 (by norm_num))),
    tPdfG (fun a b => some (a / b)) (gammaG (fun a b => some (a / b)) pi sqrt exp sin pow)
        (fun a b => some (pow a b)) sqrt pi ⟨1⟩ ⟨0⟩ = some a ∧ LC 1e-11 a.val (1 / Real.pi) ∧
    chiPdfG (fun a b => some (a / b)) (gammaG (fun a b => some (a / b)) pi sqrt exp sin pow)
        (fun a b => some (pow a b)) exp ⟨2⟩ ⟨1⟩ = some b ∧ LC 1e-11 b.val (Real.exp (-1 / 2) / 2) ∧
    gammaPdfG (fun a b => some (a / b)) (gammaG (fun a b => some (a / b)) pi sqrt exp sin pow)
        (fun a b => some (pow a b)) exp ⟨1⟩ ⟨1⟩ ⟨1⟩ = some c ∧ LC 1e-11 c.val (Real.exp (-1)) ∧
    betaPdfG (fun a b => some (a / b)) (gammaG (fun a b => some (a / b)) pi sqrt exp sin pow)
        (fun a b => some (pow a b)) ⟨1⟩ ⟨1⟩ ⟨1 / 2⟩ = some d ∧ LC 1e-11 d.val 1 := by
  have e : (binary ℝ 53 (by norm_num)).u = 1 / 2 ^ 53 := (one_div _).symm
  have L := correct_lib (binary ℝ 53 (by norm_num)) (by rw [e]; norm_num)
  have hR : Halves (binary ℝ 53 (by norm_num)) := ⟨binary_one _, binary_half _, fun _ => binary_ge_half _⟩
  have hu : (binary ℝ 53 (by norm_num)).u ≤ 1e-4 := by rw [e]; norm_num
  have lg : Real.log 17 ≤ 6 := by
    have h1 := Real.log_le_sub_one_of_pos (show (0 : ℝ) < 17 / 8 by norm_num)
    have h2 : Real.log 17 = Real.log (17 / 8) + 3 * Real.log 2 := by
      have h3 : (17 : ℝ) = 17 / 8 * 2 ^ 3 := by norm_num
      conv_lhs => rw [h3]
      rw [Real.log_mul (by norm_num) (by norm_num), Real.log_pow]
      norm_num
    have h4 := Real.log_two_lt_d9
    norm_num at h4 h1
    linarith
  have lg' : ∀ t : ℝ, 0 < t → t ≤ 17 → Real.log t ≤ 6 := fun t h1 h2 => (Real.log_le_log h1 h2).trans lg
  obtain ⟨a, a1, a2⟩ := C115_t L hu hR ⟨1⟩ ⟨0⟩ (by norm_num)
  obtain ⟨b, b1, b2⟩ := C115_chi L hu hR ⟨2⟩ ⟨1⟩ (by norm_num) (by norm_num)
  obtain ⟨c, c1, c2⟩ := C115_gamma_pdf L hu hR ⟨1⟩ ⟨1⟩ ⟨1⟩ (by norm_num) (by norm_num) (by norm_num)
  obtain ⟨d, d1, d2⟩ := C115_beta_pdf L hu hR ⟨1⟩ ⟨1⟩ ⟨1 / 2⟩ (by norm_num) (by norm_num) (by norm_num) (by norm_num)
  refine ⟨_, _, _, _, _, a, b, c, d, a1, ?_, b1, ?_, c1, ?_, d1, ?_⟩
  · have v : Real.Gamma (((1 : ℝ) + 1) / 2) * (1 + (0 : ℝ) ^ 2 / 1) ^ (-(((1 : ℝ) + 1) / 2)) /
        (Real.sqrt (1 * Real.pi) * Real.Gamma (1 / 2)) = 1 / Real.pi := by
      rw [Real.Gamma_one_half_eq]
      norm_num [Real.mul_self_sqrt Real.pi_pos.le]
    rw [v] at a2
    refine a2.mono ?_
    have h := lg' 8.5 (by norm_num) (by norm_num)
    rw [e]
    norm_num at h ⊢
    linarith
  · have v : 1 / ((2 : ℝ) ^ ((2 : ℝ) / 2) * Real.Gamma (2 / 2)) * ((1 : ℝ) ^ ((2 : ℝ) / 2 - 1) * Real.exp (-1 / 2)) =
        Real.exp (-1 / 2) / 2 := by
      norm_num
      ring
    rw [v] at b2
    refine b2.mono ?_
    have h := lg' 8.5 (by norm_num) (by norm_num)
    rw [e]
    norm_num at h ⊢
    linarith
  · have v : (1 : ℝ) ^ (1 : ℝ) / Real.Gamma 1 * (1 : ℝ) ^ ((1 : ℝ) - 1) * Real.exp (-1 * 1) = Real.exp (-1) := by norm_num
    rw [v] at c2
    refine c2.mono ?_
    have h := lg' 8.5 (by norm_num) (by norm_num)
    rw [e]
    norm_num at h ⊢
    linarith
  · have v : (1 / 2 : ℝ) ^ ((1 : ℝ) - 1) * (1 - 1 / 2 : ℝ) ^ ((1 : ℝ) - 1) /
        (Real.Gamma 1 * Real.Gamma 1 / Real.Gamma (1 + 1)) = 1 := by
      rw [show (1 + 1 : ℝ) = 2 by norm_num, Real.Gamma_two]
      norm_num
    rw [v] at d2
    refine d2.mono ?_
    have h := lg' 10.5 (by norm_num) (by norm_num)
    rw [e]
    norm_num at h ⊢
    linarith

end Fl
/-! ### Overflow -/

section Overflow
open Ie
variable {pi : IeF64} {sqrt exp sin : IeF64 → IeF64} {pow : IeF64 → IeF64 → IeF64}

/-- not a finite number -/
def NotFin (a : IeF64) : Prop := ∀ y, a ≠ fin y

theorem gamma_notFin (div : IeF64 → IeF64 → Option IeF64)
    (hpow : ∀ x y : ℚ, 0 < x → (2 : ℝ) ^ 1024 ≤ (x : ℝ) ^ (y : ℝ) → pow (fin x) (fin y) = inf false)
    {q : ℚ} (h1 : 143 ≤ q) (h2 : q ≤ 900) : ∃ r, gammaG div pi sqrt exp sin pow (fin q) = some r ∧ NotFin r := by
  refine ⟨lanczosG pi sqrt exp pow (fin q), ?_, lanczos_overflow hpow h1 h2⟩
  unfold gammaG
  rw [if_neg, if_neg]
  · rw [show (0.5 : IeF64) = fin (1 / 2) by decide +kernel]
    intro h
    have := of_decide_eq_true (h : decide (q < 1 / 2) = true)
    linarith
  · intro h
    have h3 : q = 0 := by simpa using (Ie.fin.inj (h : (fin q : IeF64) = fin 0))
    linarith

theorem half_notFin (div : IeF64 → IeF64 → Option IeF64)
    (hpow : ∀ x y : ℚ, 0 < x → (2 : ℝ) ^ 1024 ≤ (x : ℝ) ^ (y : ℝ) → pow (fin x) (fin y) = inf false)
    {q : ℚ} (h1 : 287 ≤ q) (h2 : q ≤ 1700) : ∃ r, gammaG div pi sqrt exp sin pow (fin q / 2.0) = some r ∧ NotFin r := by
  obtain ⟨y, hy, y1, y2⟩ := round_mid (x := q / 2) (by linarith) (by linarith)
  have e : (fin q / 2.0 : IeF64) = fin y := by
    rw [← hy, show (2.0 : IeF64) = fin 2 by decide +kernel]
    change Ie.div (fin q) (fin 2) = _
    simp only [Ie.div]
    rw [if_neg (by norm_num)]
  rw [e]
  norm_num at y1 y2
  exact gamma_notFin div hpow (by linarith) (by linarith)

theorem div_notFin_notFin {a b : IeF64} (ha : NotFin a) (hb : NotFin b) : a / b = nan := by
  show Ie.div a b = nan
  rcases a with _ | _ | x <;> rcases b with _ | _ | y <;> try rfl
  · exact absurd rfl (hb y)
  · exact absurd rfl (ha x)
  · exact absurd rfl (ha x)

/-- 0 or NaN -/
def ZeroNan (a : IeF64) : Prop := a = fin 0 ∨ a = nan

theorem div_notFin {b : IeF64} (a : IeF64) (hb : NotFin b) : ZeroNan (a / b) := by
  show Ie.div a b = fin 0 ∨ Ie.div a b = nan
  rcases a with _ | _ | x <;> rcases b with _ | _ | y <;> first | exact Or.inl rfl | exact Or.inr rfl | exact absurd rfl (hb y)

theorem round_zero : Ie.round 53 1024 0 = fin 0 := by decide +kernel

theorem ZeroNan.mul {a : IeF64} (h : ZeroNan a) (b : IeF64) : ZeroNan (a * b) := by
  rcases h with rfl | rfl
  · rcases b with _ | _ | y
    · exact Or.inr rfl
    · right
      change Ie.mul (fin 0) (inf _) = _
      simp only [Ie.mul, if_true]
    · left
      rw [mul_fin, zero_mul, round_zero]
  · rcases b with _ | _ | y <;> exact Or.inr rfl

/-- **C115 is violated** by the t distribution: with 287 to 1600 degrees of freedom `pdf` is NaN at every point, because both
gamma functions in the quotient overflow, although the density is close to that of the normal distribution.  The only
assumption is that `pow` returns infinity if the exact power is at least `2¹⁰²⁴`. -/
theorem C115_t_violated (hpow : ∀ x y : ℚ, 0 < x → (2 : ℝ) ^ 1024 ≤ (x : ℝ) ^ (y : ℝ) → pow (fin x) (fin y) = inf false)
    {n : ℚ} (h1 : 287 ≤ n) (h2 : n ≤ 1600) (x : IeF64) :
    tPdfG (fun a b => some (a / b)) (gammaG (fun a b => some (a / b)) pi sqrt exp sin pow) (fun a b => some (pow a b)) sqrt pi
      (fin n) x = some nan := by
  obtain ⟨m, hm, m1, m2⟩ := round_mid (x := n + 1) (by linarith) (by linarith)
  norm_num at m1 m2
  have em : (fin n + 1 : IeF64) = fin m := by rw [← hm]; rfl
  obtain ⟨g1, e1, n1⟩ := half_notFin (pi := pi) (sqrt := sqrt) (exp := exp) (sin := sin) (fun a b => some (a / b)) hpow
    (q := m) (by linarith) (by linarith)
  obtain ⟨g2, e2, n2⟩ := half_notFin (pi := pi) (sqrt := sqrt) (exp := exp) (sin := sin) (fun a b => some (a / b)) hpow
    (q := n) (by linarith) (by linarith)
  simp only [tPdfG, Option.bind_eq_bind, Option.bind_some, em, e1, e2]
  rw [div_notFin_notFin (not_fin_mul (Or.inl n1)) (not_fin_mul (Or.inr n2))]

/-- **C115 is violated** by the chi-square distribution: with 287 to 1700 degrees of freedom `pdf` is 0 or NaN at every point
`x ≥ 0` (the density near its maximum at `k - 2` is about `1 / sqrt(4 π k)`). -/
theorem C115_chi_violated (hpow : ∀ x y : ℚ, 0 < x → (2 : ℝ) ^ 1024 ≤ (x : ℝ) ^ (y : ℝ) → pow (fin x) (fin y) = inf false)
    {k : ℚ} (h1 : 287 ≤ k) (h2 : k ≤ 1700) (x : IeF64) :
    ∃ r, chiPdfG (fun a b => some (a / b)) (gammaG (fun a b => some (a / b)) pi sqrt exp sin pow) (fun a b => some (pow a b)) exp
      (fin k) x = some r ∧ (r = fin 0 ∨ r = nan) := by
  obtain ⟨g, e, n⟩ := half_notFin (pi := pi) (sqrt := sqrt) (exp := exp) (sin := sin) (fun a b => some (a / b)) hpow h1 h2
  unfold chiPdfG
  split
  · exact ⟨_, rfl, Or.inl rfl⟩
  · simp only [Option.bind_eq_bind, Option.bind_some, e]
    exact ⟨_, rfl, (div_notFin _ (not_fin_mul (Or.inr n))).mul _⟩

/-- **C115 is violated** by the gamma distribution: with a shape parameter from 143 to 900 `pdf` is 0 or NaN at every point
`x > 0`. -/
theorem C115_gamma_pdf_violated
    (hpow : ∀ x y : ℚ, 0 < x → (2 : ℝ) ^ 1024 ≤ (x : ℝ) ^ (y : ℝ) → pow (fin x) (fin y) = inf false)
    {a : ℚ} (h1 : 143 ≤ a) (h2 : a ≤ 900) (b x : IeF64) (hx : ¬x ≤ 0) :
    ∃ r, gammaPdfG (fun a b => some (a / b)) (gammaG (fun a b => some (a / b)) pi sqrt exp sin pow) (fun a b => some (pow a b)) exp
      (fin a) b x = some r ∧ (r = fin 0 ∨ r = nan) := by
  obtain ⟨g, e, n⟩ := gamma_notFin (pi := pi) (sqrt := sqrt) (exp := exp) (sin := sin) (fun a b => some (a / b)) hpow h1 h2
  rw [gammaPdfG, if_neg hx]
  simp only [Option.bind_eq_bind, Option.bind_some, e]
  exact ⟨_, rfl, ((div_notFin _ n).mul _).mul _⟩

/-- **C115 is violated** by `beta`: if the (rounded) sum of the arguments is from 143 to 900, the result is 0 or NaN, although
`B(x, y)` is positive, for example `B(71.5, 71.5) > 10⁻⁴⁴`. -/
theorem C115_beta_violated (hpow : ∀ x y : ℚ, 0 < x → (2 : ℝ) ^ 1024 ≤ (x : ℝ) ^ (y : ℝ) → pow (fin x) (fin y) = inf false)
    {x y : ℚ} {s : ℚ} (hs : (fin x + fin y : IeF64) = fin s) (h1 : 143 ≤ s) (h2 : s ≤ 900) (r : IeF64)
    (h : betaG (fun a b => some (a / b)) (gammaG (fun a b => some (a / b)) pi sqrt exp sin pow) (fin x) (fin y) = some r) :
    r = fin 0 ∨ r = nan := by
  obtain ⟨g, e, n⟩ := gamma_notFin (pi := pi) (sqrt := sqrt) (exp := exp) (sin := sin) (fun a b => some (a / b)) hpow h1 h2
  simp only [betaG, hs, e, Option.bind_eq_bind, Option.bind_some] at h
  cases ha : gammaG (fun a b => some (a / b)) pi sqrt exp sin pow (fin x) with
  | none => rw [ha] at h; cases h
  | some g1 =>
    cases hb : gammaG (fun a b => some (a / b)) pi sqrt exp sin pow (fin y) with
    | none => rw [ha, hb] at h; cases h
    | some g2 =>
      rw [ha, hb] at h
      obtain rfl := Option.some.inj h
      exact div_notFin _ n

/-- **C115 is violated** by the beta distribution: if the (rounded) sum of the parameters is from 143 to 900, the value of `pdf`
at every `x` in `[0, 1]` is not a finite number. -/
theorem C115_beta_pdf_violated
    (hpow : ∀ x y : ℚ, 0 < x → (2 : ℝ) ^ 1024 ≤ (x : ℝ) ^ (y : ℝ) → pow (fin x) (fin y) = inf false)
    {p q : ℚ} {s : ℚ} (hs : (fin p + fin q : IeF64) = fin s) (h1 : 143 ≤ s) (h2 : s ≤ 900) (x r : IeF64) (hx : ¬x > 1)
    (h : betaPdfG (fun a b => some (a / b)) (gammaG (fun a b => some (a / b)) pi sqrt exp sin pow) (fun a b => some (pow a b))
      (fin p) (fin q) x = some r) : NotFin r := by
  unfold betaPdfG at h
  rw [if_neg hx] at h
  split at h
  · cases h
  · simp only [Option.bind_eq_bind, Option.bind_some] at h
    cases hb : betaG (fun a b => some (a / b)) (gammaG (fun a b => some (a / b)) pi sqrt exp sin pow) (fin p) (fin q) with
    | none => rw [hb] at h; cases h
    | some b =>
      rw [hb] at h
      obtain rfl := Option.some.inj h
      intro y
      generalize pow x (fin p - 1) * pow (1 - x) (fin q - 1) = w
      rcases C115_beta_violated hpow hs h1 h2 b hb with rfl | rfl
      · show Ie.div w (fin 0) ≠ fin y
        rcases w with _ | _ | x
        · intro hc; cases hc
        · intro hc; cases hc
        · simp only [Ie.div, if_true]
          split <;> (intro hc; cases hc)
      · show Ie.div w nan ≠ fin y
        rcases w with _ | _ | x <;> (intro hc; cases hc)

/-- 300 degrees of freedom; the parameters 100 and 50 -/
example (hpow : ∀ x y : ℚ, 0 < x → (2 : ℝ) ^ 1024 ≤ (x : ℝ) ^ (y : ℝ) → pow (fin x) (fin y) = inf false) (r : IeF64)
    (h : betaG (fun a b => some (a / b)) (gammaG (fun a b => some (a / b)) pi sqrt exp sin pow) (fin 100) (fin 50) = some r) :
    tPdfG (fun a b => some (a / b)) (gammaG (fun a b => some (a / b)) pi sqrt exp sin pow) (fun a b => some (pow a b)) sqrt pi
      (fin 300) 0 = some nan ∧ (r = fin 0 ∨ r = nan) :=
  ⟨C115_t_violated hpow (by norm_num) (by norm_num) 0,
    C115_beta_violated hpow (s := 150) (by decide +kernel) (by norm_num) (by norm_num) r h⟩

/-- the assumption on `pow` can be met -/
example : ∃ pow : IeF64 → IeF64 → IeF64,
    ∀ x y : ℚ, 0 < x → (2 : ℝ) ^ 1024 ≤ (x : ℝ) ^ (y : ℝ) → pow (fin x) (fin y) = inf false :=
  ⟨fun _ _ => inf false, fun _ _ _ _ => rfl⟩

end Overflow

end Special
end Verif
