import Verif.NormalQuantModel
import Verif.FloatDist2
import Verif.QuantNormal

/-!
# Property C124: the quantiles of the normal and log-normal distributions with rounding

The polynomials have positive coefficients, so that the rounded polynomial at a rounded argument is at most `(1 + u)¹⁵` times the exact
polynomial at `ρ + δ`, which is at most `exp(L δ)` times the one at `ρ`. Where rounding leads to another branch, the argument is moved to
the end of the interval of that branch.
-/

namespace Verif
namespace Stat
open Rounding Special PC

section
variable {R : Rounding ℝ} {φ : ℝ}

theorem Maj.mul {E E' M M' a a' b b' : ℝ} (h : Maj E M a b) (h' : Maj E' M' a' b') : Maj (E * E') (M * M') (a * a') (b * b') := by
  refine ⟨by rw [abs_mul]; exact mul_le_mul h.1 h'.1 (abs_nonneg _) ((abs_nonneg _).trans h.1), ?_⟩
  have h1 : |(a - b) * a'| ≤ (E - M) * E' := by
    rw [abs_mul]
    exact mul_le_mul h.2 h'.le (abs_nonneg _) ((abs_nonneg _).trans h.2)
  have h2 : |b * (a' - b')| ≤ M * (E' - M') := by
    rw [abs_mul]
    exact mul_le_mul h.1 h'.2 (abs_nonneg _) ((abs_nonneg _).trans h.1)
  rw [show a * a' - b * b' = (a - b) * a' + b * (a' - b') by ring]
  refine (abs_add_le _ _).trans ?_
  linarith

/-- one step of Horner's scheme -/
theorem maj_step {k : ℕ} {P b s r ρ X c : ℝ} (h : Maj ((1 + R.u) ^ k * P) b s b) (hx : Maj X ρ r ρ) (hc : 0 ≤ c) :
    Maj ((1 + R.u) ^ (k + 2) * (P * X + c)) (b * ρ + c) (R.rnd (R.rnd (s * r) + R.rnd c)) (b * ρ + c) := by
  have u0 := R.u_nonneg
  have h1 := (h.mul hx).rnd (R := R)
  have h2 : Maj ((1 + R.u) * c) c (R.rnd c) c := by
    refine ⟨by rw [abs_of_nonneg hc], ?_⟩
    have := R.err c
    rw [abs_of_nonneg hc] at this
    linarith
  refine ((h1.add h2).rnd (R := R)).mono (le_of_sub_nonneg ?_)
  have h3 : 0 ≤ (1 + R.u) ^ 2 * c * ((1 + R.u) ^ k - 1) :=
    mul_nonneg (by positivity) (by linarith [one_le_pow₀ (n := k) R.one_le])
  refine h3.trans (le_of_eq ?_)
  ring

/-- a polynomial of degree seven -/
def hor (c7 c6 c5 c4 c3 c2 c1 c0 x : ℝ) : ℝ := ((((((x * c7 + c6) * x + c5) * x + c4) * x + c3) * x + c2) * x + c1) * x + c0

theorem hor_maj {r ρ X c7 c6 c5 c4 c3 c2 c1 c0 : ℝ} (hx : Maj X ρ r ρ) (h7 : 0 ≤ c7) (h6 : 0 ≤ c6) (h5 : 0 ≤ c5) (h4 : 0 ≤ c4)
    (h3 : 0 ≤ c3) (h2 : 0 ≤ c2) (h1 : 0 ≤ c1) (h0 : 0 ≤ c0) :
    Maj ((1 + R.u) ^ 15 * hor c7 c6 c5 c4 c3 c2 c1 c0 X) (hor c7 c6 c5 c4 c3 c2 c1 c0 ρ)
      (((((((((⟨r⟩ : Fl R) * ⟨R.rnd c7⟩ + ⟨R.rnd c6⟩) * ⟨r⟩ + ⟨R.rnd c5⟩) * ⟨r⟩ + ⟨R.rnd c4⟩) * ⟨r⟩ + ⟨R.rnd c3⟩) * ⟨r⟩ + ⟨R.rnd c2⟩) * ⟨r⟩
        + ⟨R.rnd c1⟩) * ⟨r⟩ + ⟨R.rnd c0⟩).val) (hor c7 c6 c5 c4 c3 c2 c1 c0 ρ) := by
  have a7 : Maj ((1 + R.u) ^ 1 * c7) c7 (R.rnd c7) c7 := by
    refine ⟨by rw [abs_of_nonneg h7], ?_⟩
    have := R.err c7
    rw [abs_of_nonneg h7] at this
    linarith
  have a6 := maj_step a7 hx h6
  rw [mul_comm (R.rnd c7) r, mul_comm c7 ρ, mul_comm c7 X] at a6
  exact maj_step (maj_step (maj_step (maj_step (maj_step (maj_step a6 hx h5) hx h4) hx h3) hx h2) hx h1) hx h0

theorem hor_nonneg {x c7 c6 c5 c4 c3 c2 c1 c0 : ℝ} (hx : 0 ≤ x) (h7 : 0 ≤ c7) (h6 : 0 ≤ c6) (h5 : 0 ≤ c5) (h4 : 0 ≤ c4)
    (h3 : 0 ≤ c3) (h2 : 0 ≤ c2) (h1 : 0 ≤ c1) (h0 : 0 < c0) : 0 < hor c7 c6 c5 c4 c3 c2 c1 c0 x := by
  unfold hor
  positivity

/-- growth of a polynomial with positive coefficients -/
theorem hor_growth {L c7 c6 c5 c4 c3 c2 c1 c0 ρ δ : ℝ} (h7 : 0 ≤ L * c7) (h6 : 7 * c7 ≤ L * c6) (h5 : 6 * c6 ≤ L * c5)
    (h4 : 5 * c5 ≤ L * c4) (h3 : 4 * c4 ≤ L * c3) (h2 : 3 * c3 ≤ L * c2) (h1 : 2 * c2 ≤ L * c1) (h0 : c1 ≤ L * c0)
    (hρ : 0 ≤ ρ) (hδ : 0 ≤ δ) :
    hor c7 c6 c5 c4 c3 c2 c1 c0 (ρ + δ) ≤ Real.exp (L * δ) * hor c7 c6 c5 c4 c3 c2 c1 c0 ρ := by
  set H : ℝ → ℝ := hor c7 c6 c5 c4 c3 c2 c1 c0 with hH
  set H' : ℝ → ℝ := fun x => c1 + 2 * c2 * x + 3 * c3 * x ^ 2 + 4 * c4 * x ^ 3 + 5 * c5 * x ^ 4 + 6 * c6 * x ^ 5 + 7 * c7 * x ^ 6 with hH'
  have hd : ∀ x, HasDerivAt H (H' x) x := fun x => by
    have e : H = fun x => c0 + c1 * x + c2 * x ^ 2 + c3 * x ^ 3 + c4 * x ^ 4 + c5 * x ^ 5 + c6 * x ^ 6 + c7 * x ^ 7 := by
      funext y; simp only [hH, hor]; ring
    rw [e]
    refine ((((((((hasDerivAt_const x c0).add ((hasDerivAt_id x).const_mul c1)).add ((hasDerivAt_pow 2 x).const_mul c2)).add
      ((hasDerivAt_pow 3 x).const_mul c3)).add ((hasDerivAt_pow 4 x).const_mul c4)).add ((hasDerivAt_pow 5 x).const_mul c5)).add
      ((hasDerivAt_pow 6 x).const_mul c6)).add ((hasDerivAt_pow 7 x).const_mul c7)).congr_deriv ?_
    simp only [hH']
    push_cast
    ring
  have hle : ∀ x, 0 ≤ x → H' x ≤ L * H x := fun x hx => by
    have : L * H x - H' x = (L * c0 - c1) + (L * c1 - 2 * c2) * x + (L * c2 - 3 * c3) * x ^ 2 + (L * c3 - 4 * c4) * x ^ 3 +
        (L * c4 - 5 * c5) * x ^ 4 + (L * c5 - 6 * c6) * x ^ 5 + (L * c6 - 7 * c7) * x ^ 6 + L * c7 * x ^ 7 := by
      simp only [hH, hH', hor]; ring
    have k1 := mul_nonneg (sub_nonneg.2 h1) hx
    have k2 := mul_nonneg (sub_nonneg.2 h2) (pow_nonneg hx 2)
    have k3 := mul_nonneg (sub_nonneg.2 h3) (pow_nonneg hx 3)
    have k4 := mul_nonneg (sub_nonneg.2 h4) (pow_nonneg hx 4)
    have k5 := mul_nonneg (sub_nonneg.2 h5) (pow_nonneg hx 5)
    have k6 := mul_nonneg (sub_nonneg.2 h6) (pow_nonneg hx 6)
    have k7 := mul_nonneg h7 (pow_nonneg hx 7)
    linarith
  have hdG : ∀ x, HasDerivAt (fun t => Real.exp (-(L * t)) * H t) (Real.exp (-(L * x)) * (H' x - L * H x)) x := fun x => by
    have h1 : HasDerivAt (fun t : ℝ => Real.exp (-(L * t))) (Real.exp (-(L * x)) * (-(L * 1))) x :=
      (((hasDerivAt_id x).const_mul L).neg).exp
    exact (h1.mul (hd x)).congr_deriv (by ring)
  have hanti : AntitoneOn (fun t => Real.exp (-(L * t)) * H t) (Set.Ici 0) := by
    refine antitoneOn_of_deriv_nonpos (convex_Ici 0) (fun x _ => (hdG x).continuousAt.continuousWithinAt)
      (fun x _ => (hdG x).differentiableAt.differentiableWithinAt) fun x hx => ?_
    rw [interior_Ici] at hx
    rw [(hdG x).deriv]
    exact mul_nonpos_of_nonneg_of_nonpos (Real.exp_pos _).le (by linarith [hle x (le_of_lt hx)])
  have := hanti (Set.mem_Ici.2 hρ) (Set.mem_Ici.2 (by linarith : 0 ≤ ρ + δ)) (by linarith)
  simp only at this
  have h8 := mul_le_mul_of_nonneg_left this (Real.exp_pos (L * (ρ + δ))).le
  rw [← mul_assoc, ← mul_assoc, ← Real.exp_add, ← Real.exp_add, add_neg_cancel, Real.exp_zero, one_mul] at h8
  rwa [show L * (ρ + δ) + -(L * ρ) = L * δ by ring] at h8

/-- a polynomial with positive coefficients at an argument with an error -/
theorem hor_lc {L c7 c6 c5 c4 c3 c2 c1 c0 ρ δ r : ℝ} (p7 : 0 ≤ c7) (p6 : 0 ≤ c6) (p5 : 0 ≤ c5) (p4 : 0 ≤ c4)
    (p3 : 0 ≤ c3) (p2 : 0 ≤ c2) (p1 : 0 ≤ c1) (p0 : 0 < c0) (hL : 0 ≤ L) (h6 : 7 * c7 ≤ L * c6) (h5 : 6 * c6 ≤ L * c5)
    (h4 : 5 * c5 ≤ L * c4) (h3 : 4 * c4 ≤ L * c3) (h2 : 3 * c3 ≤ L * c2) (h1 : 2 * c2 ≤ L * c1) (h0 : c1 ≤ L * c0)
    (hρ : 0 ≤ ρ) (hr : |r - ρ| ≤ δ) (hs : 15 * R.u + L * δ ≤ 1 / 20) :
    LC (6 / 5 * (15 * R.u + L * δ)) (((((((((⟨r⟩ : Fl R) * ⟨R.rnd c7⟩ + ⟨R.rnd c6⟩) * ⟨r⟩ + ⟨R.rnd c5⟩) * ⟨r⟩ + ⟨R.rnd c4⟩) * ⟨r⟩
      + ⟨R.rnd c3⟩) * ⟨r⟩ + ⟨R.rnd c2⟩) * ⟨r⟩ + ⟨R.rnd c1⟩) * ⟨r⟩ + ⟨R.rnd c0⟩).val) (hor c7 c6 c5 c4 c3 c2 c1 c0 ρ) := by
  have hδ : 0 ≤ δ := (abs_nonneg _).trans hr
  have u0 := R.u_nonneg
  have hx : Maj (ρ + δ) ρ r ρ := ⟨by rw [abs_of_nonneg hρ], by linarith⟩
  have hm := (hor_maj (R := R) hx p7 p6 p5 p4 p3 p2 p1 p0.le).2
  have hg := hor_growth (mul_nonneg hL p7) h6 h5 h4 h3 h2 h1 h0 hρ hδ
  have hp := hor_nonneg hρ p7 p6 p5 p4 p3 p2 p1 p0
  generalize hor c7 c6 c5 c4 c3 c2 c1 c0 ρ = H at *
  generalize hor c7 c6 c5 c4 c3 c2 c1 c0 (ρ + δ) = H2 at *
  set t := 15 * R.u + L * δ with ht
  have ht0 : 0 ≤ t := by positivity
  have e1 : (1 + R.u) ^ 15 ≤ Real.exp (15 * R.u) := by
    have : Real.exp (15 * R.u) = Real.exp R.u ^ 15 := by rw [← Real.exp_nat_mul]; norm_num
    rw [this]
    exact pow_le_pow_left₀ (by linarith) (by linarith [Real.add_one_le_exp R.u]) 15
  have e2 : (1 + R.u) ^ 15 * H2 ≤ Real.exp t * H := by
    rw [ht, Real.exp_add, mul_assoc]
    exact mul_le_mul e1 hg (by
      by_contra hc
      have := (abs_nonneg _).trans hm
      have h9 : (1 + R.u) ^ 15 * H2 ≤ 0 := mul_nonpos_of_nonneg_of_nonpos (by positivity) (not_le.1 hc).le
      linarith) (Real.exp_pos _).le
  have e3 : Real.exp t ≤ 1 + t + t ^ 2 := by
    have := abs_le.1 (Real.abs_exp_sub_one_sub_id_le (x := t) (by rw [abs_of_nonneg ht0]; linarith))
    linarith [this.2]
  have e4 : Real.exp t * H ≤ (1 + 21 / 20 * t) * H := mul_le_mul_of_nonneg_right (by nlinarith) hp.le
  have := LC.of_abs (θ := 21 / 20 * t) hp (by positivity) (by linarith) (hm.trans (by linarith))
  exact this.mono (by linarith)

theorem R1_lc (hu : R.u < 1) {r : Fl R} {ρ δ : ℝ} (hρ : 0 ≤ ρ) (hr : |r.val - ρ| ≤ δ) (hs : 15 * R.u + 43 * δ ≤ 1 / 20) :
    LC (37 * R.u + 100 * δ) (normalR1G r).val (normalR1 ρ) := by
  have hδ : 0 ≤ δ := (abs_nonneg _).trans hr
  have n := hor_lc (R := R) (L := 40) (c7 := 2509.0809287301226727) (c6 := 33430.575583588128105) (c5 := 67265.770927008700853)
    (c4 := 45921.953931549871457) (c3 := 13731.693765509461125) (c2 := 1971.5909503065514427) (c1 := 133.14166789178437745)
    (c0 := 3.387132872796366608) (by norm_num) (by norm_num) (by norm_num) (by norm_num) (by norm_num) (by norm_num) (by norm_num)
    (by norm_num) (by norm_num) (by norm_num) (by norm_num) (by norm_num) (by norm_num) (by norm_num) (by norm_num) (by norm_num)
    hρ hr (by linarith)
  have d := hor_lc (R := R) (L := 43) (c7 := 5226.495278852854561) (c6 := 28729.085735721942674) (c5 := 39307.89580009271061)
    (c4 := 21213.794301586595867) (c3 := 5394.1960214247511077) (c2 := 687.1870074920579083) (c1 := 42.313330701600911252)
    (c0 := 1.0) (by norm_num) (by norm_num) (by norm_num) (by norm_num) (by norm_num) (by norm_num) (by norm_num)
    (by norm_num) (by norm_num) (by norm_num) (by norm_num) (by norm_num) (by norm_num) (by norm_num) (by norm_num) (by norm_num)
    hρ hr (by linarith)
  have := ((n.div d).rnd hu).mono (show _ ≤ 37 * R.u + 100 * δ by linarith)
  rw [← normalR1G_real]
  exact this

theorem R2_lc (hu : R.u < 1) {r : Fl R} {ρ δ : ℝ} (hρ : 0 ≤ ρ) (hr : |r.val - ρ| ≤ δ) (hs : 15 * R.u + 4 * δ ≤ 1 / 20) :
    LC (37 * R.u + 6.5 * δ) (normalR2G r).val (normalR2 ρ) := by
  have hδ : 0 ≤ δ := (abs_nonneg _).trans hr
  have n := hor_lc (R := R) (L := 3.3) (c7 := 7.7454501427834140764e-4) (c6 := 0.0227238449892691845833) (c5 := 0.24178072517745061177)
    (c4 := 1.27045825245236838258) (c3 := 3.64784832476320460504) (c2 := 5.7694972214606914055) (c1 := 4.6303378461565452959)
    (c0 := 1.42343711074968357734) (by norm_num) (by norm_num) (by norm_num) (by norm_num) (by norm_num) (by norm_num) (by norm_num)
    (by norm_num) (by norm_num) (by norm_num) (by norm_num) (by norm_num) (by norm_num) (by norm_num) (by norm_num) (by norm_num)
    hρ hr (by linarith)
  have d := hor_lc (R := R) (L := 2.1) (c7 := 1.05075007164441684324e-9) (c6 := 5.475938084995344946e-4) (c5 := 0.0151986665636164571966)
    (c4 := 0.14810397642748007459) (c3 := 0.68976733498510000455) (c2 := 1.6763848301838038494) (c1 := 2.05319162663775882187)
    (c0 := 1.0) (by norm_num) (by norm_num) (by norm_num) (by norm_num) (by norm_num) (by norm_num) (by norm_num)
    (by norm_num) (by norm_num) (by norm_num) (by norm_num) (by norm_num) (by norm_num) (by norm_num) (by norm_num) (by norm_num)
    hρ hr (by linarith)
  have := ((n.div d).rnd hu).mono (show _ ≤ 37 * R.u + 6.5 * δ by linarith)
  rw [← normalR2G_real]
  exact this

theorem R3_lc (hu : R.u < 1) {r : Fl R} {ρ δ : ℝ} (hρ : 0 ≤ ρ) (hr : |r.val - ρ| ≤ δ) (hs : 15 * R.u + δ ≤ 1 / 20) :
    LC (37 * R.u + 2 * δ) (normalR3G r).val (normalR3 ρ) := by
  have hδ : 0 ≤ δ := (abs_nonneg _).trans hr
  have n := hor_lc (R := R) (L := 0.83) (c7 := 2.01033439929228813265e-7) (c6 := 2.71155556874348757815e-5) (c5 := 0.0012426609473880784386)
    (c4 := 0.026532189526576123093) (c3 := 0.29656057182850489123) (c2 := 1.7848265399172913358) (c1 := 5.4637849111641143699)
    (c0 := 6.6579046435011037772) (by norm_num) (by norm_num) (by norm_num) (by norm_num) (by norm_num) (by norm_num) (by norm_num)
    (by norm_num) (by norm_num) (by norm_num) (by norm_num) (by norm_num) (by norm_num) (by norm_num) (by norm_num) (by norm_num)
    hρ hr (by linarith)
  have d := hor_lc (R := R) (L := 0.6) (c7 := 2.04426310338993978564e-15) (c6 := 1.4215117583164458887e-7) (c5 := 1.8463183175100546818e-5)
    (c4 := 7.868691311456132591e-4) (c3 := 0.0148753612908506148525) (c2 := 0.13692988092273580531) (c1 := 0.59983220655588793769)
    (c0 := 1.0) (by norm_num) (by norm_num) (by norm_num) (by norm_num) (by norm_num) (by norm_num) (by norm_num)
    (by norm_num) (by norm_num) (by norm_num) (by norm_num) (by norm_num) (by norm_num) (by norm_num) (by norm_num) (by norm_num)
    hρ hr (by linarith)
  have := ((n.div d).rnd hu).mono (show _ ≤ 37 * R.u + 2 * δ by linarith)
  rw [← normalR3G_real]
  exact this

/-- the distribution function at an argument with a relative error -/
theorem stdN_lc {ε a b : ℝ} (h : LC ε a b) : |stdN a - stdN b| ≤ 0.4 * ε := by
  have hd : ∀ s ∈ (Set.univ : Set ℝ), HasDerivWithinAt (fun s : ℝ => stdN (Real.exp s))
      (1 / √(2 * Real.pi) * Real.exp (-(((1 : ℤ) : ℝ) * Real.exp s ^ 2 / 2)) * Real.exp s) Set.univ s := fun s _ =>
    ((stdN_hasDerivAt (Real.exp s)).comp s (Real.hasDerivAt_exp s)).hasDerivWithinAt
  have hb : ∀ s ∈ (Set.univ : Set ℝ), ‖1 / √(2 * Real.pi) * Real.exp (-(((1 : ℤ) : ℝ) * Real.exp s ^ 2 / 2)) * Real.exp s‖ ≤ 0.4 :=
    fun s _ => by
      have e0 := Real.exp_pos s
      generalize Real.exp s = x at *
      have i0 := invsqrt_pos
      have i1 := invsqrt_le
      rw [Real.norm_of_nonneg (by positivity)]
      have h1 : Real.exp (-(((1 : ℤ) : ℝ) * x ^ 2 / 2)) * x ≤ 1 := by
        rw [Real.exp_neg, inv_mul_le_iff₀ (Real.exp_pos _), mul_one]
        have := Real.add_one_le_exp (((1 : ℤ) : ℝ) * x ^ 2 / 2)
        push_cast at this ⊢
        nlinarith [sq_nonneg (x - 1)]
      rw [mul_assoc]
      refine (mul_le_mul i1 h1 (by positivity) (by norm_num)).trans (by norm_num)
  have := convex_univ.norm_image_sub_le_of_norm_hasDerivWithin_le hd hb (Set.mem_univ (Real.log b)) (Set.mem_univ (Real.log a))
  simp only [Real.exp_log h.1, Real.exp_log h.2.1, Real.norm_eq_abs] at this
  exact this.trans (mul_le_mul_of_nonneg_left h.2.2 (by norm_num))

theorem exp_neg_lip {a b : ℝ} (ha : 0 ≤ a) (hb : 0 ≤ b) : |Real.exp (-a) - Real.exp (-b)| ≤ |a - b| := by
  have key : ∀ a b : ℝ, 0 ≤ a → a ≤ b → Real.exp (-a) - Real.exp (-b) ≤ b - a := fun a b ha hab => by
    have h1 : Real.exp (-b) = Real.exp (-a) * Real.exp (-(b - a)) := by rw [← Real.exp_add]; congr 1; ring
    have h2 := Real.add_one_le_exp (-(b - a))
    have h3 : Real.exp (-a) ≤ 1 := Real.exp_le_one_iff.2 (by linarith)
    have h4 := Real.exp_pos (-a)
    rw [h1]
    nlinarith
  rcases le_total a b with h | h
  · rw [abs_of_nonneg (sub_nonneg.2 (Real.exp_le_exp.2 (by linarith))), abs_sub_comm, abs_of_nonneg (by linarith)]
    exact key a b ha h
  · rw [abs_sub_comm, abs_of_nonneg (sub_nonneg.2 (Real.exp_le_exp.2 (by linarith))), abs_of_nonneg (by linarith)]
    exact key b a hb h

/-- the argument and the value of the first rational function -/
theorem central_arg (hu : R.u ≤ 1e-5) {a b : ℝ} {t : Fl R} (hb : LC R.u b a) (hb2 : b ≤ (1 + R.u) * 0.425)
    (ht : t.val = R.rnd (R.rnd 0.180625 - R.rnd (b * b))) :
    ∃ c, 0 < c ∧ c ≤ 17 / 40 ∧ c ≤ a ∧ a - c ≤ R.u ∧ LC (1.1 * R.u) b c ∧
      LC (137 * R.u) (normalR1G t).val (normalR1 (0.180625 - c * c)) := by
  have u0 := R.u_nonneg
  have hu1 : R.u < 1 := lt_of_le_of_lt hu (by norm_num)
  norm_num at hu hb2
  have ha := hb.2.1
  have hb0 := hb.1
  set c := min a 0.425 with hc
  have hc0 : 0 < c := lt_min ha (by norm_num)
  have hc1 : c ≤ 17 / 40 := (min_le_right _ _).trans (by norm_num)
  have hca : c ≤ a := min_le_left _ _
  have a1 := abs_le.1 (hb.abs_sub_le (by linarith))
  have a2 := abs_le.1 (hb.symm.abs_sub_le (by linarith))
  have q1 : R.u ^ 2 ≤ 1 / 100000 * R.u := by nlinarith
  have hbc1 : b ≤ (1 + (R.u + R.u ^ 2)) * c := by
    rcases min_choice a 0.425 with h | h
    · rw [hc, h]; linarith [a1.2]
    · rw [hc, h]; norm_num; nlinarith
  have hbc2 : c ≤ (1 + (R.u + R.u ^ 2)) * b := by linarith [a2.2]
  have hbc : LC (1.1 * R.u) b c := (LC.of_rel (by positivity) hc0 hbc1 hbc2).mono (by linarith)
  have hac : a - c ≤ R.u := by
    rcases min_choice a 0.425 with h | h
    · rw [hc, h]; linarith
    · rw [hc, h]
      norm_num
      nlinarith [a2.2]
  have e1 := ((hbc.mul hbc).rnd hu1).abs_sub_le (by linarith)
  have hcc : c * c ≤ 0.180625 := by
    have := mul_le_mul hc1 hc1 hc0.le (by norm_num)
    norm_num at this ⊢
    linarith
  have e1' : |R.rnd (b * b) - c * c| ≤ 3.3 * R.u * 0.180625 :=
    e1.trans (mul_le_mul (by nlinarith) hcc (by positivity) (by positivity))
  have e2 := R.err 0.180625
  rw [abs_of_pos (show (0 : ℝ) < 0.180625 by norm_num)] at e2
  have hρ : 0 ≤ 0.180625 - c * c := by linarith
  have e3 : |R.rnd 0.180625 - R.rnd (b * b) - (0.180625 - c * c)| ≤ 0.8 * R.u := by
    rw [show R.rnd 0.180625 - R.rnd (b * b) - (0.180625 - c * c) = (R.rnd 0.180625 - 0.180625) - (R.rnd (b * b) - c * c) by ring]
    refine (abs_sub _ _).trans ?_
    norm_num at e1' e2 ⊢
    linarith
  have e4 := R.rnd_near e3
  rw [← ht, abs_of_nonneg hρ] at e4
  have e5 : |t.val - (0.180625 - c * c)| ≤ R.u := by
    refine e4.trans ?_
    have : R.u * (0.180625 - c * c) ≤ R.u * 0.180625 := mul_le_mul_of_nonneg_left (by nlinarith) u0
    norm_num at this ⊢
    nlinarith
  exact ⟨c, hc0, hc1, hca, hac, hbc, (R1_lc hu1 hρ e5 (by linarith)).mono (by linarith)⟩

theorem central_v (hu : R.u ≤ 1e-5) {a b : ℝ} {t : Fl R} (hb : LC R.u b a) (hb2 : b ≤ (1 + R.u) * 0.425)
    (ht : t.val = R.rnd (R.rnd 0.180625 - R.rnd (b * b))) : 0 < (normalR1G t).val := by
  obtain ⟨c, -, -, -, -, -, h⟩ := central_arg hu hb hb2 ht
  exact h.1

/-- the middle of the distribution -/
theorem central_pos (hu : R.u ≤ 1e-5) {a b y : ℝ} {t : Fl R} (hb : LC R.u b a) (hb2 : b ≤ (1 + R.u) * 0.425)
    (ht : t.val = R.rnd (R.rnd 0.180625 - R.rnd (b * b))) (hy : LC R.u y (b * (normalR1G t).val)) :
    |stdN y - (1 / 2 + a)| ≤ 7e-13 + 60 * R.u := by
  have u0 := R.u_nonneg
  obtain ⟨c, hc0, hc1, hca, hac, hbc, e6⟩ := central_arg hu hb hb2 ht
  have e7 := stdN_lc (hy.trans (hbc.mul e6))
  have e8 := central_acc (q := c) (by rw [abs_of_pos hc0]; norm_num at hc1 ⊢; linarith)
  rw [abs_of_pos hc0] at e8
  rw [show stdN y - (1 / 2 + a) = (stdN y - stdN (c * normalR1 (0.180625 - c * c))) +
    (stdN (c * normalR1 (0.180625 - c * c)) - (1 / 2 + c)) - (a - c) by ring]
  refine (abs_sub _ _).trans ?_
  have e9 := abs_add_le (stdN y - stdN (c * normalR1 (0.180625 - c * c))) (stdN (c * normalR1 (0.180625 - c * c)) - (1 / 2 + c))
  rw [abs_of_nonneg (by linarith : 0 ≤ a - c)]
  linarith


set_option maxHeartbeats 1000000 in
/-- the value that is computed in the tails -/
theorem tail_pos (hu : R.u ≤ 1e-5) (hφ0 : 0 ≤ φ) (hφ : φ ≤ 1e-5) {sqrt ln : Fl R → Fl R}
    (hsq : ∀ x, 0 ≤ x.val → |(sqrt x).val - √x.val| ≤ φ * √x.val) (hln : ∀ x, |(ln x).val - Real.log x.val| ≤ φ * |Real.log x.val|)
    {s : Fl R} {p : ℝ} (hs : LC R.u s.val p) (h0 : 1 / 2 ^ 1022 ≤ p) (h1 : p ≤ 0.0751) :
    0 < (if sqrt (-ln s) ≤ 5.0 then normalR2G (sqrt (-ln s) - 1.6) else normalR3G (sqrt (-ln s) - 5.0)).val ∧
    |stdN (if sqrt (-ln s) ≤ 5.0 then normalR2G (sqrt (-ln s) - 1.6) else normalR3G (sqrt (-ln s) - 5.0)).val - (1 - p)|
      ≤ 7e-13 + 150 * (R.u + φ) := by
  have u0 := R.u_nonneg
  have hu1 : R.u < 1 := lt_of_le_of_lt hu (by norm_num)
  norm_num at hu hφ
  have hp : 0 < p := hs.2.1
  have hlog : Real.log p ≤ -2.56 := by
    rw [Real.log_le_iff_le_exp hp]
    refine h1.trans ?_
    rw [Real.exp_neg, le_inv_comm₀ (by norm_num) (Real.exp_pos _)]
    have := (exp4_bounds (z := 2.56) (wl := 0.64) (wh := 0.64) (el := 0) (eh := 1.9) (by norm_num) (by norm_num)
      (Real.exp_pos _).le (exp_upper (by norm_num) (by norm_num) (by norm_num [Finset.sum_range_succ, Nat.factorial]))
      le_rfl).2
    refine this.trans (by norm_num)
  have hlog2 : -729 ≤ Real.log p := by
    have h3 := Real.log_le_log (by positivity) h0
    rw [one_div, Real.log_inv, Real.log_pow] at h3
    have := Real.log_two_lt_d9
    push_cast at h3
    linarith
  set L := -Real.log p with hL
  have hL1 : 2.56 ≤ L := by linarith
  have hL0 : 0 < L := lt_of_lt_of_le (by norm_num) hL1
  have hr2 : √L ^ 2 = L := Real.sq_sqrt hL0.le
  have he : Real.exp (-√L ^ 2) = p := by rw [hr2, hL, neg_neg, Real.exp_log hp]
  have h16 : 1.6 ≤ √L := Real.le_sqrt_of_sq_le (by norm_num at hL1 ⊢; linarith)
  have h27 : √L ≤ 27 := by
    rw [Real.sqrt_le_left (by norm_num)]; norm_num; linarith
  -- the logarithm and the root
  have l1 : LC (1 / 2 * R.u) (-Real.log s.val) L := by
    refine (LC.of_abs (θ := 25 / 64 * R.u) hL0 (by positivity) (by linarith) ?_).mono (by linarith)
    have h3 := hs.2.2
    rw [hL, ← neg_sub', abs_neg]
    norm_num at hL1
    nlinarith
  have l2 : LC (10 / 9 * φ) (-ln s).val (-Real.log s.val) := by
    refine LC.of_abs l1.1 hφ0 (by linarith) ?_
    rw [Fl.neg_val, ← neg_sub', abs_neg]
    have := hln s
    rwa [← abs_neg (Real.log s.val), abs_of_pos l1.1] at this
  have l3 := (l2.trans l1).sqrt
  have l4 : LC (10 / 9 * φ) (sqrt (-ln s)).val √(-ln s).val := LC.of_abs l3.1 hφ0 (by linarith) (hsq _ l2.1.le)
  generalize sqrt (-ln s) = r at *
  set κ := 2 * φ + 1 / 4 * R.u with hκ
  have hκ0 : 0 ≤ κ := by positivity
  have hκ1 : κ ≤ 3 / 100000 := by linarith
  have l5 := ((l4.trans l3).mono (show _ ≤ κ by linarith)).abs_sub_le (by linarith)
  generalize √L = x at *
  norm_num at h16
  have l6 : |r.val - x| ≤ 1.001 * κ * x := l5.trans (mul_le_mul_of_nonneg_right (by norm_num; nlinarith) (by linarith))
  have l7 : |r.val - x| ≤ 27.03 * κ := l6.trans (by norm_num; nlinarith)
  have f5 : |R.rnd 5.0 - 5| ≤ 5 * R.u := by
    have := R.err 5.0
    rw [abs_of_pos (show (0 : ℝ) < 5.0 by norm_num)] at this
    norm_num at this ⊢
    linarith
  have l8 := abs_le.1 l7
  have f6 := abs_le.1 f5
  norm_num at l8
  -- the error of moving `x`
  have mv : ∀ ρ, 0 ≤ ρ → ρ ≤ 27 → ρ + x ≤ 55 → |ρ - x| * (ρ + x) ≤ 10.01 * (5.02 * κ + 5 * R.u) →
      |Real.exp (-ρ ^ 2) - p| ≤ 101 * φ + 64 * R.u := fun ρ h h' h'' hm => by
    have := exp_neg_lip (sq_nonneg ρ) (sq_nonneg x)
    rw [he] at this
    refine this.trans ?_
    rw [show ρ ^ 2 - x ^ 2 = (ρ - x) * (ρ + x) by ring, abs_mul, abs_of_nonneg (by linarith : 0 ≤ ρ + x)]
    refine hm.trans ?_
    rw [hκ]
    norm_num
    linarith
  have fin : ∀ (ρ v z A : ℝ), LC A v z → A ≤ 115 * R.u + 109 * φ → |Real.exp (-ρ ^ 2) - p| ≤ 101 * φ + 64 * R.u →
      |stdN z - (1 - Real.exp (-ρ ^ 2))| ≤ 9e-12 * Real.exp (-ρ ^ 2) →
      |stdN v - (1 - p)| ≤ 7e-13 + 150 * (R.u + φ) := fun ρ v z A hv hA hm hz => by
    have k1 := stdN_lc hv
    have k2 := abs_le.1 hm
    generalize Real.exp (-ρ ^ 2) = w at *
    rw [show stdN v - (1 - p) = (stdN v - stdN z) + (stdN z - (1 - w)) - (w - p) by ring]
    refine (abs_sub _ _).trans ?_
    have k3 := abs_add_le (stdN v - stdN z) (stdN z - (1 - w))
    linarith
  split_ifs with c
  · have c' : r.val ≤ R.rnd 5.0 := c
    have x5 : x ≤ 5.01 := by norm_num; linarith
    have l9 : |r.val - x| ≤ 5.02 * κ := l6.trans (by norm_num at x5 ⊢; nlinarith)
    have l10 := abs_le.1 l9
    norm_num at l10 x5
    set ρ := min x 5 with hρ
    have d1 : |r.val - ρ| ≤ 5.02 * κ + 5 * R.u := by
      rcases le_total x 5 with h | h
      · rw [hρ, min_eq_left h]; linarith
      · rw [hρ, min_eq_right h, abs_le]; norm_num; constructor <;> linarith
    have d2 : |ρ - x| ≤ 5.02 * κ + 5 * R.u := by
      rcases le_total x 5 with h | h
      · rw [hρ, min_eq_left h, sub_self, abs_zero]; positivity
      · rw [hρ, min_eq_right h, abs_le]; norm_num; constructor <;> linarith
    have r1 : 1.6 ≤ ρ := by norm_num; exact le_min (by linarith) (by norm_num)
    have r2 : ρ ≤ 5 := min_le_right _ _
    have f16 := R.err 1.6
    rw [abs_of_pos (show (0 : ℝ) < 1.6 by norm_num)] at f16
    have d3 : |r.val - R.rnd 1.6 - (ρ - 1.6)| ≤ 5.02 * κ + 6.6 * R.u := by
      rw [show r.val - R.rnd 1.6 - (ρ - 1.6) = (r.val - ρ) - (R.rnd 1.6 - 1.6) by ring]
      refine (abs_sub _ _).trans ?_
      norm_num at d1 f16 ⊢
      linarith
    have d4 := R.rnd_near d3
    rw [abs_of_nonneg (by linarith : 0 ≤ ρ - 1.6)] at d4
    have d5 : |(r - 1.6).val - (ρ - 1.6)| ≤ 5.03 * κ + 10.1 * R.u := by
      refine le_trans d4 ?_
      have m1 : R.u * (ρ - 1.6) ≤ R.u * (5 - 1.6) := mul_le_mul_of_nonneg_left (by linarith) u0
      have m2 : R.u * κ ≤ 1 / 100000 * κ := mul_le_mul_of_nonneg_right hu hκ0
      have m3 : R.u * R.u ≤ 1 / 100000 * R.u := mul_le_mul_of_nonneg_right hu u0
      norm_num at m1 ⊢
      linarith
    have d6 := R2_lc hu1 (by linarith) d5 (by norm_num; linarith)
    refine ⟨d6.1, fin ρ _ _ _ d6 (by rw [hκ]; norm_num; linarith) (mv ρ (by linarith) (by linarith) (by linarith) ?_) (tail2_acc r1 r2)⟩
    have := mul_le_mul d2 (show ρ + x ≤ 10.01 by norm_num; linarith) (by linarith) ((abs_nonneg _).trans d2)
    linarith
  · have c' : R.rnd 5.0 < r.val := not_le.1 c
    set ρ := max x 5 with hρ
    have d1 : |r.val - ρ| ≤ 27.03 * κ + 5 * R.u := by
      rcases le_total x 5 with h | h
      · rw [hρ, max_eq_right h, abs_le]; norm_num; constructor <;> linarith
      · rw [hρ, max_eq_left h]; linarith
    have d2 : |ρ - x| * (ρ + x) ≤ 10.01 * (5.02 * κ + 5 * R.u) := by
      rcases le_total x 5 with h | h
      · have l9 : |r.val - x| ≤ 5.02 * κ := l6.trans (by norm_num; nlinarith)
        have l10 := abs_le.1 l9
        have : |ρ - x| ≤ 5.02 * κ + 5 * R.u := by
          rw [hρ, max_eq_right h, abs_of_nonneg (by linarith)]; norm_num at l10 ⊢; linarith
        have := mul_le_mul this (show ρ + x ≤ 10.01 by rw [hρ, max_eq_right h]; norm_num; linarith)
          (by rw [hρ, max_eq_right h]; linarith) ((abs_nonneg _).trans this)
        linarith
      · rw [hρ, max_eq_left h, sub_self, abs_zero, zero_mul]; positivity
    have r1 : 5 ≤ ρ := le_max_right _ _
    have r2 : ρ ≤ 27 := max_le h27 (by norm_num)
    have d3 : |r.val - R.rnd 5.0 - (ρ - 5)| ≤ 27.03 * κ + 10 * R.u := by
      rw [show r.val - R.rnd 5.0 - (ρ - 5) = (r.val - ρ) - (R.rnd 5.0 - 5) by ring]
      refine (abs_sub _ _).trans ?_
      linarith
    have d4 := R.rnd_near d3
    rw [abs_of_nonneg (by linarith : 0 ≤ ρ - 5)] at d4
    have d5 : |(r - 5.0).val - (ρ - 5)| ≤ 27.04 * κ + 32.1 * R.u := by
      refine le_trans d4 ?_
      have m1 : R.u * (ρ - 5) ≤ R.u * (27 - 5) := mul_le_mul_of_nonneg_left (by linarith) u0
      have m2 : R.u * κ ≤ 1 / 100000 * κ := mul_le_mul_of_nonneg_right hu hκ0
      have m3 : R.u * R.u ≤ 1 / 100000 * R.u := mul_le_mul_of_nonneg_right hu u0
      norm_num at m1 ⊢
      linarith
    have d6 := R3_lc hu1 (by linarith) d5 (by norm_num; linarith)
    have t3 := tail3_acc r1 r2
    rw [show ρ - 5.0 = ρ - 5 by norm_num] at t3
    refine ⟨d6.1, fin ρ _ _ _ d6 (by rw [hκ]; norm_num; linarith) (mv ρ (by linarith) r2 (by linarith) d2) (t3.trans ?_)⟩
    exact mul_le_mul_of_nonneg_right (by norm_num) (Real.exp_pos _).le

theorem ppnd_fl (hu : R.u ≤ 1e-5) (h2 : R.rnd (1 / 2) = 1 / 2) (hφ0 : 0 ≤ φ) (hφ : φ ≤ 1e-5) {sqrt ln abs : Fl R → Fl R}
    (hsq : ∀ x, 0 ≤ x.val → |(sqrt x).val - √x.val| ≤ φ * √x.val) (hln : ∀ x, |(ln x).val - Real.log x.val| ≤ φ * |Real.log x.val|)
    (habs : ∀ x, (abs x).val = |x.val|) (p : Fl R) (hp : 1 / 2 ^ 1022 ≤ min p.val (1 - p.val)) :
    ∃ z : Fl R, normalPpndG sqrt ln abs p = .inr z ∧ |stdN z.val - p.val| ≤ 7e-13 + 150 * (R.u + φ) := by
  have u0 := R.u_nonneg
  have hu1 : R.u < 1 := lt_of_le_of_lt hu (by norm_num)
  have hu' := hu
  norm_num at hu'
  have hq : (p - 0.5).val = R.rnd (p.val - 1 / 2) := by
    rw [Fl.sub_val, show (0.5 : Fl R).val = R.rnd (0.5 : ℝ) from rfl, show (0.5 : ℝ) = 1 / 2 by norm_num, h2]
  have hpos : 0 < p.val := lt_of_lt_of_le (by positivity) (hp.trans (min_le_left _ _))
  have hpos1 : 0 < 1 - p.val := lt_of_lt_of_le (by positivity) (hp.trans (min_le_right _ _))
  have hN : ∀ y : ℝ, y < 0 → LC R.u (-R.rnd y) (-y) := fun y hy => by
    have := LC.of_near (((RelN.of_rnd hu1 y).neg).near (by linarith)) (by linarith)
    simpa using this
  set q := p.val - 1 / 2 with hqd
  unfold normalPpndG
  simp only
  by_cases c : abs (p - 0.5) ≤ 0.425
  · rw [if_pos c]
    refine ⟨_, rfl, ?_⟩
    have c' : |R.rnd q| ≤ R.rnd 0.425 := by
      rw [← hq, ← habs]; exact c
    have c2 : |R.rnd q| ≤ (1 + R.u) * 0.425 := by
      refine c'.trans ?_
      have := abs_le.1 (R.err 0.425)
      rw [abs_of_pos (show (0 : ℝ) < 0.425 by norm_num)] at this
      linarith [this.2]
    set t : Fl R := 0.180625 - (p - 0.5) * (p - 0.5) with ht
    have htv : t.val = R.rnd (R.rnd 0.180625 - R.rnd (R.rnd q * R.rnd q)) := by
      rw [ht, Fl.sub_val, Fl.mul_val, hq]; rfl
    have hz : ((p - 0.5) * normalR1G t).val = R.rnd (R.rnd q * (normalR1G t).val) := by rw [Fl.mul_val, hq]
    rw [hz]
    rcases lt_trichotomy q 0 with h | h | h
    · have k1 := hN q h
      have k0 : R.rnd q < 0 := by linarith [k1.1]
      have key : ∀ y, LC R.u y (-R.rnd q * (normalR1G t).val) → |stdN y - (1 / 2 + -q)| ≤ 7e-13 + 60 * R.u := fun y hy =>
        central_pos hu k1 (by rwa [abs_of_neg k0] at c2) (by rw [htv, neg_mul_neg]) hy
      by_cases hv : 0 < (normalR1G t).val
      · have k3 := hN (R.rnd q * (normalR1G t).val) (mul_neg_of_neg_of_pos k0 hv)
        rw [← neg_mul] at k3
        have := key _ k3
        rw [stdN_neg] at this
        rw [show stdN (R.rnd (R.rnd q * (normalR1G t).val)) - p.val =
          -(1 - stdN (R.rnd (R.rnd q * (normalR1G t).val)) - (1 / 2 + -q)) by rw [hqd]; ring, abs_neg]
        linarith
      · exact absurd (central_v hu k1 (by rwa [abs_of_neg k0] at c2) (by rw [htv, neg_mul_neg])) hv
    · rw [h, R.rnd_zero, zero_mul, R.rnd_zero, stdN_zero, show p.val = 1 / 2 by linarith, sub_self, abs_zero]
      positivity
    · have k1 := LC.lit (R := R) hu1 h
      rw [abs_of_pos k1.1] at c2
      have hv := central_v hu k1 c2 htv
      have := central_pos hu k1 c2 htv (LC.lit (R := R) hu1 (mul_pos k1.1 hv))
      rw [show (1 : ℝ) / 2 + q = p.val by rw [hqd]; ring] at this
      linarith
  · rw [if_neg c]
    have c' : R.rnd 0.425 < |R.rnd q| := by
      rw [← hq, ← habs]; exact not_le.1 c
    have a1 : 0.4249 ≤ |q| := by
      have h3 := abs_le.1 (R.err 0.425)
      rw [abs_of_pos (show (0 : ℝ) < 0.425 by norm_num)] at h3
      have h4 := R.err q
      have h5 := abs_sub_abs_le_abs_sub (R.rnd q) q
      have h6 : |q| ≤ 1 / 2 := by rw [abs_le]; constructor <;> linarith
      have h7 : R.u * |q| ≤ R.u * (1 / 2) := mul_le_mul_of_nonneg_left h6 u0
      linarith [h3.1]
    have hne : q ≠ 0 := fun h => by rw [h] at a1; norm_num at a1
    rcases lt_or_gt_of_ne hne with h | h
    · have k1 := hN q h
      have g1 : p - 0.5 < 0 := show (p - 0.5).val < 0 by rw [hq]; linarith [k1.1]
      rw [if_pos g1, if_neg (show ¬ p ≤ 0 from not_le.2 hpos), if_pos g1.le]
      rw [abs_of_neg h] at a1
      have := tail_pos hu hφ0 hφ hsq hln ((LC.refl hpos).mono u0) (hp.trans (min_le_left _ _)) (by linarith)
      refine ⟨_, rfl, ?_⟩
      rw [Fl.neg_val, stdN_neg, ← abs_neg]
      refine le_trans (le_of_eq ?_) this.2
      congr 1; ring
    · have k1 := LC.lit (R := R) hu1 h
      have g1 : ¬ p - 0.5 ≤ 0 := show ¬ (p - 0.5).val ≤ 0 by rw [hq]; exact not_le.2 k1.1
      have g2 : LC R.u (1 - p : Fl R).val (1 - p.val) := LC.lit (R := R) hu1 hpos1
      rw [if_neg (fun h => g1 (le_of_lt h)), if_neg (show ¬ 1 - p ≤ 0 from not_le.2 g2.1), if_neg g1]
      rw [abs_of_pos h] at a1
      have := tail_pos hu hφ0 hφ hsq hln g2 (hp.trans (min_le_right _ _)) (by linarith)
      refine ⟨_, rfl, ?_⟩
      rw [show 1 - (1 - p.val) = p.val by ring] at this
      exact this.2

/-- **C124, normal quantile.** With a unit roundoff of at most `10⁻⁵` and library functions with a relative error `φ ≤ 10⁻⁵`, for every
probability `p` with `p` and `1 - p` at least `2⁻¹⁰²²`, `quantile` returns `m + √v z` up to rounding, where the mass of the standard normal
density below `z` is `p` up to `7e-13 + 150 (u + φ)`. -/
theorem C124_quantile (hu : R.u ≤ 1e-5) (h2 : R.rnd (1 / 2) = 1 / 2) (hφ0 : 0 ≤ φ) (hφ : φ ≤ 1e-5) {sqrt ln abs : Fl R → Fl R}
    (hsq : ∀ x, 0 ≤ x.val → |(sqrt x).val - √x.val| ≤ φ * √x.val) (hln : ∀ x, |(ln x).val - Real.log x.val| ≤ φ * |Real.log x.val|)
    (habs : ∀ x, (abs x).val = |x.val|) (m v p : Fl R) (hv : 0 < v.val) (hp : 1 / 2 ^ 1022 ≤ min p.val (1 - p.val)) :
    ∃ (x : Fl R) (z : ℝ), normalQuantileG sqrt ln abs m v p = some x ∧
      |(∫ t in Set.Iic z, 1 / √(2 * Real.pi) * Real.exp (-t ^ 2 / 2)) - p.val| ≤ 7e-13 + 150 * (R.u + φ) ∧
      |x.val - (m.val + √v.val * z)| ≤ R.u * |m.val + √v.val * z| + (1 + R.u) * ((1 + R.u) * (1 + φ) - 1) * (√v.val * |z|) := by
  have u0 := R.u_nonneg
  have hpos : 0 < p.val := lt_of_lt_of_le (by positivity) (hp.trans (min_le_left _ _))
  have hpos1 : 0 < 1 - p.val := lt_of_lt_of_le (by positivity) (hp.trans (min_le_right _ _))
  obtain ⟨z, hz, hz2⟩ := ppnd_fl hu h2 hφ0 hφ hsq hln habs p hp
  refine ⟨m + sqrt v * z, z.val, ?_, ?_, ?_⟩
  · rw [normalQuantileG, if_neg ?_, hz]
    rintro (h | h)
    · exact absurd ((Fl.le_iff _ _).1 h) (not_le.2 hpos)
    · have : (1 : ℝ) ≤ p.val := (Fl.le_iff _ _).1 h
      linarith
  · have := (C58_cdf_partial (m := (0 : ℝ)) (v := 1) (d := (0, 1)) (by norm_num [normalNew]) z.val).1
    rw [show (∫ t in Set.Iic z.val, 1 / √(2 * Real.pi) * Real.exp (-t ^ 2 / 2)) = ∫ t in Set.Iic z.val, gauss 0 1 t by
      simp only [gauss, mul_one, sub_zero], ← this]
    exact hz2
  · have e1 : |(sqrt v).val * z.val - √v.val * z.val| ≤ φ * (√v.val * |z.val|) := by
      rw [← sub_mul, abs_mul, ← mul_assoc]
      exact mul_le_mul_of_nonneg_right (hsq v hv.le) (abs_nonneg _)
    have e2 := R.rnd_near e1
    rw [abs_mul, abs_of_nonneg (Real.sqrt_nonneg v.val)] at e2
    have e3 : |m.val + R.rnd ((sqrt v).val * z.val) - (m.val + √v.val * z.val)| ≤ ((1 + R.u) * (1 + φ) - 1) * (√v.val * |z.val|) := by
      rw [add_sub_add_left_eq_sub]
      refine e2.trans (le_of_eq ?_)
      ring
    have e4 := R.rnd_near e3
    refine le_trans e4 (le_of_eq ?_)
    ring

/-- **C124, 53 bits.** In double precision the standard normal quantile is the number below which the mass of the density is `p`, up to
`10⁻¹²`, if the logarithm and the root of the library have a relative error of at most `2⁻⁵²`. -/
theorem C124_quantile_f64 {sqrt ln abs : Fl (binary ℝ 53 (by norm_num)) → Fl (binary ℝ 53 (by norm_num))}
    (hsq : ∀ x, 0 ≤ x.val → |(sqrt x).val - √x.val| ≤ 1 / 2 ^ 52 * √x.val)
    (hln : ∀ x, |(ln x).val - Real.log x.val| ≤ 1 / 2 ^ 52 * |Real.log x.val|)
    (habs : ∀ x, (abs x).val = |x.val|) (p : Fl (binary ℝ 53 (by norm_num))) (hp : 1 / 2 ^ 1022 ≤ min p.val (1 - p.val)) :
    ∃ z : Fl (binary ℝ 53 (by norm_num)), normalPpndG sqrt ln abs p = .inr z ∧
      |(∫ t in Set.Iic z.val, 1 / √(2 * Real.pi) * Real.exp (-t ^ 2 / 2)) - p.val| ≤ 1e-12 := by
  have hU : (binary ℝ 53 (by norm_num)).u = 1 / 2 ^ 53 := (one_div _).symm
  obtain ⟨z, h1, h2⟩ := ppnd_fl (R := binary ℝ 53 (by norm_num)) (φ := 1 / 2 ^ 52) (by rw [hU]; norm_num) (binary_half _) (by positivity)
    (by norm_num) hsq hln habs p hp
  refine ⟨z, h1, ?_⟩
  have := (C58_cdf_partial (m := (0 : ℝ)) (v := 1) (d := (0, 1)) (by norm_num [normalNew]) z.val).1
  rw [show (∫ t in Set.Iic z.val, 1 / √(2 * Real.pi) * Real.exp (-t ^ 2 / 2)) = ∫ t in Set.Iic z.val, gauss 0 1 t by
    simp only [gauss, mul_one, sub_zero], ← this]
  refine h2.trans ?_
  rw [hU]
  norm_num

/-- **C124, log-normal quantile**: the logarithm of the result is `μ + σ z` up to rounding, with `z` as for the normal quantile -/
theorem C124_log_normal_quantile (hu : R.u ≤ 1e-5) (h2 : R.rnd (1 / 2) = 1 / 2) (hφ0 : 0 ≤ φ) (hφ : φ ≤ 1e-5)
    {sqrt exp ln abs : Fl R → Fl R} (hsq : ∀ x, 0 ≤ x.val → |(sqrt x).val - √x.val| ≤ φ * √x.val)
    (hexp : ∀ x, |(exp x).val - Real.exp x.val| ≤ φ * Real.exp x.val)
    (hln : ∀ x, |(ln x).val - Real.log x.val| ≤ φ * |Real.log x.val|) (habs : ∀ x, (abs x).val = |x.val|)
    (m v p : Fl R) (hv : 0 < v.val) (hp : 1 / 2 ^ 1022 ≤ min p.val (1 - p.val)) :
    ∃ (x : Fl R) (z : ℝ), logNormalQuantileG sqrt exp ln abs m v p = some x ∧
      |(∫ t in Set.Iic z, 1 / √(2 * Real.pi) * Real.exp (-t ^ 2 / 2)) - p.val| ≤ 7e-13 + 150 * (R.u + φ) ∧ 0 < x.val ∧
      |Real.log x.val - (m.val + √v.val * z)| ≤ 10 / 9 * φ + R.u * |m.val + √v.val * z| +
        (1 + R.u) * ((1 + R.u) ^ 3 * (1 + φ) ^ 2 - 1) * (√v.val * |z|) := by
  have u0 := R.u_nonneg
  have hpos : 0 < p.val := lt_of_lt_of_le (by positivity) (hp.trans (min_le_left _ _))
  have hpos1 : 0 < 1 - p.val := lt_of_lt_of_le (by positivity) (hp.trans (min_le_right _ _))
  obtain ⟨x0, z, hx0, hz, hx1⟩ := C124_quantile hu h2 hφ0 hφ hsq hln habs 0 1 p one_pos hp
  rw [Fl.zero_val, Fl.one_val, Real.sqrt_one, one_mul, one_mul, zero_add] at hx1
  refine ⟨exp (m + x0 * sqrt v), z, ?_, hz, ?_⟩
  · rw [logNormalQuantileG, if_neg ?_]
    · have hn : normalNew (0 : Fl R) 1 = some (0, 1) := by
        rw [normalNew, if_neg]
        exact fun h => absurd ((Fl.le_iff _ _).1 h) (not_le.2 one_pos)
      rw [hn]
      simp only [Option.bind_eq_bind, Option.bind_some, hx0]
    · rintro (h | h)
      · exact absurd ((Fl.le_iff _ _).1 h) (not_le.2 hpos)
      · have : (1 : ℝ) ≤ p.val := (Fl.le_iff _ _).1 h
        linarith
  have s0 := Real.sqrt_nonneg v.val
  have b1 : Maj ((1 + R.u) ^ 2 * (1 + φ) * |z|) |z| x0.val z := ⟨le_rfl, hx1.trans (le_of_eq (by ring))⟩
  have b2 : Maj ((1 + φ) * √v.val) √v.val (sqrt v).val √v.val :=
    ⟨by rw [abs_of_nonneg s0], (hsq v hv.le).trans (le_of_eq (by ring))⟩
  have b3 := ((b1.mul b2).rnd (R := R)).2
  have b4 : |m.val + (x0 * sqrt v).val - (m.val + √v.val * z)| ≤ ((1 + R.u) ^ 3 * (1 + φ) ^ 2 - 1) * (√v.val * |z|) := by
    rw [add_sub_add_left_eq_sub, mul_comm √v.val z]
    exact b3.trans (le_of_eq (by ring))
  have b5 := R.rnd_near b4
  have b6 : LC (10 / 9 * φ) (exp (m + x0 * sqrt v)).val (Real.exp (m + x0 * sqrt v).val) :=
    LC.of_abs (Real.exp_pos _) hφ0 (hφ.trans (by norm_num)) (hexp _)
  refine ⟨b6.1, ?_⟩
  have b7 := b6.2.2
  rw [Real.log_exp] at b7
  have b8 : |(m + x0 * sqrt v).val - (m.val + √v.val * z)| ≤ (1 + R.u) * (((1 + R.u) ^ 3 * (1 + φ) ^ 2 - 1) * (√v.val * |z|)) +
      R.u * |m.val + √v.val * z| := le_trans b5 (le_of_eq (by ring))
  refine (abs_sub_le _ (m + x0 * sqrt v).val _).trans ((add_le_add b7 b8).trans (le_of_eq ?_))
  ring

/-! ### Examples -/

/-- the upper quartile and the quantile of `2⁻⁴⁰` in double precision -/
example : ∀ p : Fl (binary ℝ 53 (by norm_num)), p.val = 3 / 4 ∨ p.val = 1 / 2 ^ 40 → ∃ z : Fl (binary ℝ 53 (by norm_num)),
    normalPpndG (fun x => ⟨(binary ℝ 53 (by norm_num)).rnd √x.val⟩) (fun x => ⟨(binary ℝ 53 (by norm_num)).rnd (Real.log x.val)⟩)
      (fun x => ⟨|x.val|⟩) p = .inr z ∧
    |(∫ t in Set.Iic z.val, 1 / √(2 * Real.pi) * Real.exp (-t ^ 2 / 2)) - p.val| ≤ 1e-12 := by
  have hU : (binary ℝ 53 (by norm_num)).u = 1 / 2 ^ 53 := (one_div _).symm
  have hle : (binary ℝ 53 (by norm_num)).u ≤ 1 / 2 ^ 52 := by rw [hU]; norm_num
  have hs : (1 : ℝ) / 2 ^ 1022 ≤ 1 / 2 ^ 40 := one_div_pow_le_one_div_pow_of_le (by norm_num) (by norm_num)
  intro p hp
  refine C124_quantile_f64 (fun x hx => ?_) (fun x => ?_) (fun x => rfl) p ?_
  · have := (binary ℝ 53 (by norm_num)).err √x.val
    rw [abs_of_nonneg (Real.sqrt_nonneg x.val)] at this
    exact this.trans (mul_le_mul_of_nonneg_right hle (Real.sqrt_nonneg _))
  · exact ((binary ℝ 53 (by norm_num)).err _).trans (mul_le_mul_of_nonneg_right hle (abs_nonneg _))
  · refine hs.trans ?_
    rcases hp with h | h <;> rw [h] <;> norm_num

/-- the normal distribution with mean `100` and variance `225` and the log-normal distribution with `μ = 0`, `σ² = 4` at `p = 1 / 4`, for any
rounding with `u ≤ 10⁻⁶` that leaves one half unchanged -/
example (hu : R.u ≤ 1e-6) (h2 : R.rnd (1 / 2) = 1 / 2) :
    (∃ (x : Fl R) (z : ℝ), normalQuantileG (fun x => ⟨R.rnd √x.val⟩) (fun x => ⟨R.rnd (Real.log x.val)⟩) (fun x => ⟨|x.val|⟩)
        ⟨100⟩ ⟨225⟩ ⟨1 / 4⟩ = some x ∧
      |(∫ t in Set.Iic z, 1 / √(2 * Real.pi) * Real.exp (-t ^ 2 / 2)) - 1 / 4| ≤ 7e-13 + 300 * R.u ∧
      |x.val - (100 + 15 * z)| ≤ R.u * |100 + 15 * z| + 3 * R.u * (15 * |z|)) ∧
    ∃ (x : Fl R) (z : ℝ), logNormalQuantileG (fun x => ⟨R.rnd √x.val⟩) (fun x => ⟨R.rnd (Real.exp x.val)⟩)
        (fun x => ⟨R.rnd (Real.log x.val)⟩) (fun x => ⟨|x.val|⟩) ⟨0⟩ ⟨4⟩ ⟨1 / 4⟩ = some x ∧
      |(∫ t in Set.Iic z, 1 / √(2 * Real.pi) * Real.exp (-t ^ 2 / 2)) - 1 / 4| ≤ 7e-13 + 300 * R.u ∧
      |Real.log x.val - 2 * z| ≤ 2 * R.u + 7 * R.u * (2 * |z|) := by
  have u0 := R.u_nonneg
  have s15 : √(225 : ℝ) = 15 := by rw [show (225 : ℝ) = 15 ^ 2 by norm_num, Real.sqrt_sq (by norm_num)]
  have s2 : √(4 : ℝ) = 2 := by rw [show (4 : ℝ) = 2 ^ 2 by norm_num, Real.sqrt_sq (by norm_num)]
  have hs : (1 : ℝ) / 2 ^ 1022 ≤ 1 / 2 ^ 2 := one_div_pow_le_one_div_pow_of_le (by norm_num) (by norm_num)
  have hsq : ∀ x : Fl R, 0 ≤ x.val → |(⟨R.rnd √x.val⟩ : Fl R).val - √x.val| ≤ R.u * √x.val := fun x _ => by
    have := R.err √x.val
    rwa [abs_of_nonneg (Real.sqrt_nonneg x.val)] at this
  have hexp : ∀ x : Fl R, |(⟨R.rnd (Real.exp x.val)⟩ : Fl R).val - Real.exp x.val| ≤ R.u * Real.exp x.val := fun x => by
    have := R.err (Real.exp x.val)
    rwa [abs_of_pos (Real.exp_pos x.val)] at this
  have hu' := hu
  norm_num at hu'
  constructor
  · obtain ⟨x, z, h1, h3, h4⟩ := C124_quantile (R := R) (φ := R.u) (sqrt := fun x => ⟨R.rnd √x.val⟩)
      (ln := fun x => ⟨R.rnd (Real.log x.val)⟩) (abs := fun x => ⟨|x.val|⟩) (hu.trans (by norm_num)) h2 u0 (hu.trans (by norm_num))
      hsq (fun x => R.err _) (fun x => rfl) ⟨100⟩ ⟨225⟩ ⟨1 / 4⟩ (by norm_num) (hs.trans (by norm_num))
    simp only [s15] at h3 h4
    refine ⟨x, z, h1, h3.trans (by linarith), h4.trans ?_⟩
    have h7 : R.u ^ 2 ≤ 1 / 1000000 * R.u := by nlinarith
    have h8 : R.u ^ 3 ≤ 1 / 1000000 * R.u := by nlinarith
    have h9 : (1 + R.u) * ((1 + R.u) * (1 + R.u) - 1) ≤ 3 * R.u := by
      rw [show (1 + R.u) * ((1 + R.u) * (1 + R.u) - 1) = 2 * R.u + 3 * R.u ^ 2 + R.u ^ 3 by ring]
      linarith
    have := mul_le_mul_of_nonneg_right h9 (by positivity : 0 ≤ 15 * |z|)
    linarith
  · obtain ⟨x, z, h1, h3, -, h4⟩ := C124_log_normal_quantile (R := R) (φ := R.u) (sqrt := fun x => ⟨R.rnd √x.val⟩)
      (exp := fun x => ⟨R.rnd (Real.exp x.val)⟩) (ln := fun x => ⟨R.rnd (Real.log x.val)⟩) (abs := fun x => ⟨|x.val|⟩)
      (hu.trans (by norm_num)) h2 u0 (hu.trans (by norm_num)) hsq hexp (fun x => R.err _) (fun x => rfl) ⟨0⟩ ⟨4⟩ ⟨1 / 4⟩ (by norm_num)
      (hs.trans (by norm_num))
    simp only [s2, zero_add] at h3 h4
    refine ⟨x, z, h1, h3.trans (by linarith), h4.trans ?_⟩
    rw [abs_mul, abs_two]
    have q1 : (1 + R.u) * ((1 + R.u) ^ 3 * (1 + R.u) ^ 2 - 1) + R.u ≤ 7 * R.u := by
      have h5 : (1 + R.u) ^ 6 ≤ 1 + 7 * R.u - R.u / 2 := by
        have : (1 + R.u) ^ 2 ≤ 1 + 2.01 * R.u := by norm_num; nlinarith
        have h6 : ((1 + R.u) ^ 2) ^ 3 ≤ (1 + 2.01 * R.u) ^ 3 := pow_le_pow_left₀ (by positivity) this 3
        have h7 : R.u ^ 2 ≤ 1 / 1000000 * R.u := by nlinarith
        have h8 : R.u ^ 3 ≤ 1 / 1000000 * R.u := by nlinarith
        rw [show (1 + R.u) ^ 6 = ((1 + R.u) ^ 2) ^ 3 by ring]
        refine h6.trans ?_
        ring_nf
        norm_num
        linarith
      rw [show (1 + R.u) * ((1 + R.u) ^ 3 * (1 + R.u) ^ 2 - 1) + R.u = (1 + R.u) ^ 6 - 1 by ring]
      linarith
    have := mul_le_mul_of_nonneg_right q1 (by positivity : 0 ≤ 2 * |z|)
    linarith

end

end Stat
end Verif
