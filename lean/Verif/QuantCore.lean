import Verif.PolyCheck
import Mathlib.Analysis.SpecialFunctions.Log.Deriv
import Mathlib.Analysis.SpecialFunctions.ExpDeriv
import Mathlib.Analysis.Complex.Exponential
import Mathlib.Analysis.Calculus.Deriv.MeanValue

/-!
# Error of a rational approximation of the inverse of a distribution function

`Ψ` is a function with derivative `c exp (- κ x ^ 2 / 2)`: the standard normal distribution function (`κ = 1`) or the
error function (`κ = 2`).  An approximation `X` of its inverse is measured by `Ψ (X q) - q`.  The logarithmic derivative
of `X' Ψ' (X)` is a rational function, which `PC.chain` bounds.
-/

namespace Verif
namespace PC
open Set Filter

/-- difference -/
def sub (p q : List ℤ) : List ℤ := add p (smul (-1) q)

theorem ev_sub (p q : List ℤ) (x : ℝ) : ev (sub p q) x = ev p x - ev q x := by
  rw [sub, ev_add, ev_smul]; push_cast; ring

/-! ## Central part: `X q = q A (N q²) / B (N q²)` -/

/-- `B² X'` -/
def cW (A B : List ℤ) : List ℤ := add (mul A B) (mul [0, 2] (sub (mul (der A) B) (mul A (der B))))

/-- numerator of the logarithmic derivative of `X' exp (- κ X² / 2)` -/
def cP (κ N : ℤ) (A B : List ℤ) : List ℤ :=
  sub (smul (2 * N) (mul (sub (mul (der (cW A B)) B) (smul 2 (mul (cW A B) (der B)))) (mul B B)))
    (smul κ (mul A (mul (cW A B) (cW A B))))

/-- denominator of the logarithmic derivative of `X' exp (- κ X² / 2)` -/
def cQ (N : ℤ) (A B : List ℤ) : List ℤ := smul (2 * N) (mul (mul (mul B B) B) (cW A B))

/-- the approximation -/
noncomputable def cX (N : ℤ) (A B : List ℤ) (q : ℝ) : ℝ := q * ev A (N * q ^ 2) / ev B (N * q ^ 2)

/-- the logarithm of `X' exp (- κ X² / 2)` -/
noncomputable def cG (κ N : ℤ) (A B : List ℤ) (y : ℝ) : ℝ :=
  Real.log (ev (cW A B) y) - 2 * Real.log (ev B y) - κ * y * ev A y ^ 2 / (2 * N * ev B y ^ 2)

theorem ev_cW (A B : List ℤ) (y : ℝ) : ev (cW A B) y =
    ev A y * ev B y + 2 * y * (ev (der A) y * ev B y - ev A y * ev (der B) y) := by
  simp only [cW, ev_add, ev_mul, ev_sub, ev]; push_cast; ring

theorem ev_cQ (N : ℤ) (A B : List ℤ) (y : ℝ) : ev (cQ N A B) y = 2 * N * (ev B y ^ 3 * ev (cW A B) y) := by
  simp only [cQ, ev_smul, ev_mul]; push_cast; ring

theorem ev_cP (κ N : ℤ) (A B : List ℤ) (y : ℝ) : ev (cP κ N A B) y =
    2 * N * ((ev (der (cW A B)) y * ev B y - 2 * (ev (cW A B) y * ev (der B) y)) * ev B y ^ 2)
      - κ * (ev A y * ev (cW A B) y ^ 2) := by
  simp only [cP, ev_smul, ev_mul, ev_sub]; push_cast; ring

theorem cG_hasDerivAt {κ N : ℤ} (hN : 0 < N) {A B : List ℤ} {y : ℝ} (hB : 0 < ev B y) (hW : 0 < ev (cW A B) y) :
    HasDerivAt (cG κ N A B) (ev (cP κ N A B) y / ev (cQ N A B) y) y := by
  have hN' : (N : ℝ) ≠ 0 := by exact_mod_cast hN.ne'
  have hA' := ev_hasDerivAt A y
  have hB' := ev_hasDerivAt B y
  have hW' := ev_hasDerivAt (cW A B) y
  have h1 := hW'.log hW.ne'
  have h2 := (hB'.log hB.ne').const_mul 2
  have h3 := (((hasDerivAt_id y).const_mul (κ : ℝ)).mul (hA'.pow 2)).div ((hB'.pow 2).const_mul (2 * (N : ℝ)))
    (by simp only [Pi.pow_apply]; positivity)
  have h4 := (h1.sub h2).sub h3
  refine h4.congr_deriv ?_
  rw [ev_cP, ev_cQ]
  simp only [id, Pi.pow_apply, Nat.cast_ofNat, mul_one, Pi.mul_apply, Nat.add_one_sub_one, pow_one, Nat.reduceSub]
  have hW2 := hW.ne'
  have hB2 := hB.ne'
  field_simp
  rw [ev_cW]
  ring

theorem cX_hasDerivAt {N : ℤ} {A B : List ℤ} {q : ℝ} (hB : 0 < ev B (N * q ^ 2)) :
    HasDerivAt (cX N A B) (ev (cW A B) (N * q ^ 2) / ev B (N * q ^ 2) ^ 2) q := by
  have hq : HasDerivAt (fun q : ℝ => (N : ℝ) * q ^ 2) (N * (2 * q)) q := by
    simpa using (hasDerivAt_pow 2 q).const_mul (N : ℝ)
  have hA' := (ev_hasDerivAt A (N * q ^ 2)).comp q hq
  have hB' := (ev_hasDerivAt B (N * q ^ 2)).comp q hq
  have h := ((hasDerivAt_id q).mul hA').div hB' hB.ne'
  refine h.congr_deriv ?_
  rw [ev_cW]
  simp only [id, Function.comp, Pi.mul_apply]
  have hB2 := hB.ne'
  field_simp
  ring

theorem log_abs_le {t e : ℝ} (h : |t - 1| ≤ e) (he : e ≤ 1 / 2) : |Real.log t| ≤ 2 * e := by
  have h1 := abs_le.1 h
  have ht : 0 < t := by linarith [h1.1]
  rw [abs_le]
  constructor
  · have := Real.one_sub_inv_le_log_of_pos ht
    have h3 : t⁻¹ - 1 ≤ 2 * e := by
      rw [inv_eq_one_div, div_sub_one ht.ne', div_le_iff₀ ht]
      have he0 : 0 ≤ e := (abs_nonneg _).trans h
      nlinarith
    linarith
  · have := Real.log_le_sub_one_of_pos ht
    have he0 : 0 ≤ e := (abs_nonneg _).trans h
    linarith

/-- The error of a central approximation grows from `q0` to `q` by at most `2 η (q - q0)`. -/
theorem central_core {κ N : ℤ} (hN : 0 < N) {A B : List ℤ} {lo : ℤ} {s : List (ℤ × ℤ)}
    (hc : chain (cP κ N A B) (cQ N A B) B lo s = true) (hs : s ≠ []) {Ψ : ℝ → ℝ} {c : ℝ} (hc0 : 0 < c)
    (hΨ : ∀ x, HasDerivAt Ψ (c * Real.exp (-(κ * x ^ 2 / 2))) x) {q0 η : ℝ} (hq0 : 0 ≤ q0) (hlo : N * q0 ^ 2 = lo)
    (hη : |cG κ N A B lo + Real.log c| + tot s ≤ η) (hη1 : η ≤ 1) {q : ℝ} (hq : q0 ≤ q)
    (hhi : N * q ^ 2 ≤ hiOf lo s) :
    |Ψ (cX N A B q) - q - (Ψ (cX N A B q0) - q0)| ≤ 2 * η * (q - q0) := by
  have hNr : (0 : ℝ) < N := by exact_mod_cast hN
  have hin : ∀ t, q0 ≤ t → t ≤ q → (lo : ℝ) ≤ N * t ^ 2 ∧ N * t ^ 2 ≤ hiOf lo s := fun t h1 h2 => by
    have a1 : q0 ^ 2 ≤ t ^ 2 := pow_le_pow_left₀ hq0 h1 2
    have a2 : t ^ 2 ≤ q ^ 2 := pow_le_pow_left₀ (hq0.trans h1) h2 2
    constructor
    · rw [← hlo]; exact mul_le_mul_of_nonneg_left a1 hNr.le
    · exact (mul_le_mul_of_nonneg_left a2 hNr.le).trans hhi
  have hW : ∀ y, 0 < ev (cQ N A B) y → 0 < ev B y → 0 < ev (cW A B) y := fun y h1 h2 => by
    rw [ev_cQ] at h1
    by_contra hcon
    have : 2 * (N : ℝ) * (ev B y ^ 3 * ev (cW A B) y) ≤ 0 :=
      mul_nonpos_of_nonneg_of_nonpos (by positivity) (mul_nonpos_of_nonneg_of_nonpos (by positivity) (not_lt.1 hcon))
    linarith
  have hg := chain_sound (cG κ N A B) s lo hc
    (fun x _ _ h1 h2 => cG_hasDerivAt hN h2 (hW x h1 h2))
  have hpos := chain_pos s lo hc hs
  have hder : ∀ t ∈ Icc q0 q, HasDerivAt (fun q => Ψ (cX N A B q) - q)
      (Real.exp (cG κ N A B (N * t ^ 2) + Real.log c) - 1) t := fun t ht => by
    obtain ⟨h1, h2⟩ := hin t ht.1 ht.2
    obtain ⟨p1, p2⟩ := hpos _ h1 h2
    have p3 := hW _ p1 p2
    have := ((hΨ (cX N A B t)).comp t (cX_hasDerivAt p2)).sub (hasDerivAt_id t)
    refine this.congr_deriv ?_
    have e : -(κ * cX N A B t ^ 2 / 2) = -(κ * (N * t ^ 2) * ev A (N * t ^ 2) ^ 2 / (2 * N * ev B (N * t ^ 2) ^ 2)) := by
      unfold cX
      have := p2.ne'
      field_simp
    rw [e, cG, Real.exp_add, Real.exp_log hc0, sub_eq_add_neg _ (κ * (N * t ^ 2) * _ / _ : ℝ), Real.exp_add, Real.exp_sub,
      Real.exp_log p3, two_mul (Real.log _), Real.exp_add, Real.exp_log p2]
    ring
  have hbd : ∀ t ∈ Icc q0 q, ‖Real.exp (cG κ N A B (N * t ^ 2) + Real.log c) - 1‖ ≤ 2 * η := fun t ht => by
    obtain ⟨h1, h2⟩ := hin t ht.1 ht.2
    have h3 := hg _ h1 h2
    have h4 : |cG κ N A B (N * t ^ 2) + Real.log c| ≤ η := by
      calc |cG κ N A B (N * t ^ 2) + Real.log c|
          = |(cG κ N A B (N * t ^ 2) - cG κ N A B lo) + (cG κ N A B lo + Real.log c)| := by congr 1; ring
        _ ≤ _ := abs_add_le _ _
        _ ≤ η := by linarith
    have := Real.abs_exp_sub_one_le (h4.trans hη1)
    rw [Real.norm_eq_abs]
    linarith
  have := Convex.norm_image_sub_le_of_norm_hasDerivWithin_le (f := fun q => Ψ (cX N A B q) - q)
    (s := Icc q0 q) (fun t ht => (hder t ht).hasDerivWithinAt) hbd (convex_Icc _ _) (left_mem_Icc.2 hq)
    (right_mem_Icc.2 hq)
  rwa [Real.norm_eq_abs, Real.norm_eq_abs, abs_of_nonneg (by linarith : 0 ≤ q - q0)] at this

/-! ## Tail: `X r = C (N r) / D (N r)`, where `1 - Ψ (X r)` should be `exp (- r²)` -/

/-- `D² X' / N` -/
def tW (C D : List ℤ) : List ℤ := sub (mul (der C) D) (mul C (der D))

/-- numerator of the logarithmic derivative of `X' exp (r² - κ X² / 2) / r` -/
def tP (κ N : ℤ) (C D : List ℤ) : List ℤ :=
  add (mul [-(N * N), 0, 2] (mul (mul (mul D D) D) (tW C D)))
    (mul [0, N * N] (sub (mul (sub (mul (der (tW C D)) D) (smul 2 (mul (tW C D) (der D)))) (mul D D))
      (smul κ (mul C (mul (tW C D) (tW C D))))))

/-- denominator of the logarithmic derivative of `X' exp (r² - κ X² / 2) / r` -/
def tQ (N : ℤ) (C D : List ℤ) : List ℤ := mul [0, N * N] (mul (mul (mul D D) D) (tW C D))

/-- the approximation -/
noncomputable def tX (N : ℤ) (C D : List ℤ) (r : ℝ) : ℝ := ev C (N * r) / ev D (N * r)

/-- the logarithm of `X' exp (r² - κ X² / 2) / r` up to a constant -/
noncomputable def tG (κ N : ℤ) (C D : List ℤ) (y : ℝ) : ℝ :=
  y ^ 2 / N ^ 2 - κ * ev C y ^ 2 / (2 * ev D y ^ 2) + Real.log (ev (tW C D) y) - 2 * Real.log (ev D y) - Real.log y

theorem ev_tW (C D : List ℤ) (y : ℝ) : ev (tW C D) y = ev (der C) y * ev D y - ev C y * ev (der D) y := by
  simp only [tW, ev_mul, ev_sub]

theorem ev_tQ (N : ℤ) (C D : List ℤ) (y : ℝ) : ev (tQ N C D) y = N ^ 2 * (y * (ev D y ^ 3 * ev (tW C D) y)) := by
  simp only [tQ, ev_mul, ev]; push_cast; ring

theorem ev_tP (κ N : ℤ) (C D : List ℤ) (y : ℝ) : ev (tP κ N C D) y =
    (2 * y ^ 2 - N ^ 2) * (ev D y ^ 3 * ev (tW C D) y) +
    N ^ 2 * y * ((ev (der (tW C D)) y * ev D y - 2 * (ev (tW C D) y * ev (der D) y)) * ev D y ^ 2
      - κ * (ev C y * ev (tW C D) y ^ 2)) := by
  simp only [tP, ev_smul, ev_mul, ev_sub, ev_add, ev]; push_cast; ring

theorem tG_hasDerivAt {κ N : ℤ} (hN : 0 < N) {C D : List ℤ} {y : ℝ} (hy : 0 < y) (hD : 0 < ev D y)
    (hW : 0 < ev (tW C D) y) : HasDerivAt (tG κ N C D) (ev (tP κ N C D) y / ev (tQ N C D) y) y := by
  have hN' : (N : ℝ) ≠ 0 := by exact_mod_cast hN.ne'
  have hC' := ev_hasDerivAt C y
  have hD' := ev_hasDerivAt D y
  have hW' := ev_hasDerivAt (tW C D) y
  have h1 := hW'.log hW.ne'
  have h2 := (hD'.log hD.ne').const_mul 2
  have h3 := ((hC'.pow 2).const_mul (κ : ℝ)).div ((hD'.pow 2).const_mul 2) (by simp only [Pi.pow_apply]; positivity)
  have h0 := (hasDerivAt_pow 2 y).div_const ((N : ℝ) ^ 2)
  have h5 := Real.hasDerivAt_log hy.ne'
  have h4 := (((h0.sub h3).add h1).sub h2).sub h5
  refine h4.congr_deriv ?_
  rw [ev_tP, ev_tQ]
  simp only [Pi.pow_apply, Nat.cast_ofNat, Nat.add_one_sub_one, pow_one, Nat.reduceSub]
  have hW2 := hW.ne'
  have hD2 := hD.ne'
  have hy2 := hy.ne'
  field_simp
  rw [ev_tW]
  ring

theorem tX_hasDerivAt {N : ℤ} {C D : List ℤ} {r : ℝ} (hD : 0 < ev D (N * r)) :
    HasDerivAt (tX N C D) (N * ev (tW C D) (N * r) / ev D (N * r) ^ 2) r := by
  have hq : HasDerivAt (fun q : ℝ => (N : ℝ) * q) N r := by
    simpa using (hasDerivAt_id r).const_mul (N : ℝ)
  have hC' := (ev_hasDerivAt C (N * r)).comp r hq
  have hD' := (ev_hasDerivAt D (N * r)).comp r hq
  have h := hC'.div hD' hD.ne'
  refine h.congr_deriv ?_
  rw [ev_tW]
  simp only [Function.comp]
  ring

/-- The error of a tail approximation grows from `r` to `r1` by at most `2 η (exp (-r²) - exp (-r1²))`. -/
theorem tail_core {κ N : ℤ} (hN : 0 < N) {C D : List ℤ} {lo : ℤ} {s : List (ℤ × ℤ)}
    (hc : chain (tP κ N C D) (tQ N C D) D lo s = true) (hs : s ≠ []) (hlo : 0 < lo) {Ψ : ℝ → ℝ} {c : ℝ} (hc0 : 0 < c)
    (hΨ : ∀ x, HasDerivAt Ψ (c * Real.exp (-(κ * x ^ 2 / 2))) x) {η : ℝ}
    (hη : |tG κ N C D lo + Real.log (c * N ^ 2 / 2)| + tot s ≤ η) (hη1 : η ≤ 1) {r r1 : ℝ} (hr : lo ≤ N * r) (hr1 : r ≤ r1)
    (hhi : N * r1 ≤ hiOf lo s) :
    |Ψ (tX N C D r1) + Real.exp (-r1 ^ 2) - (Ψ (tX N C D r) + Real.exp (-r ^ 2))|
      ≤ 2 * η * (Real.exp (-r ^ 2) - Real.exp (-r1 ^ 2)) := by
  have hNr : (0 : ℝ) < N := by exact_mod_cast hN
  have hlor : (0 : ℝ) < lo := by exact_mod_cast hlo
  have hin : ∀ t, r ≤ t → t ≤ r1 → (lo : ℝ) ≤ N * t ∧ N * t ≤ hiOf lo s := fun t h1 h2 =>
    ⟨hr.trans (mul_le_mul_of_nonneg_left h1 hNr.le), (mul_le_mul_of_nonneg_left h2 hNr.le).trans hhi⟩
  have hr0 : 0 < r := by
    by_contra hcon
    have := mul_nonpos_of_nonneg_of_nonpos hNr.le (not_lt.1 hcon)
    linarith
  have hW : ∀ y, 0 < y → 0 < ev (tQ N C D) y → 0 < ev D y → 0 < ev (tW C D) y := fun y hy h1 h2 => by
    rw [ev_tQ] at h1
    by_contra hcon
    have : (N : ℝ) ^ 2 * (y * (ev D y ^ 3 * ev (tW C D) y)) ≤ 0 :=
      mul_nonpos_of_nonneg_of_nonpos (by positivity) (mul_nonpos_of_nonneg_of_nonpos hy.le
        (mul_nonpos_of_nonneg_of_nonpos (by positivity) (not_lt.1 hcon)))
    linarith
  have hg := chain_sound (tG κ N C D) s lo hc
    (fun x hx _ h1 h2 => tG_hasDerivAt hN (hlor.trans_le hx) h2 (hW x (hlor.trans_le hx) h1 h2))
  have hpos := chain_pos s lo hc hs
  have hder : ∀ t ∈ Icc r r1, HasDerivAt (fun r => Ψ (tX N C D r) + Real.exp (-r ^ 2))
      (2 * t * Real.exp (-t ^ 2) * (Real.exp (tG κ N C D (N * t) + Real.log (c * N ^ 2 / 2)) - 1)) t := fun t ht => by
    obtain ⟨h1, h2⟩ := hin t ht.1 ht.2
    obtain ⟨p1, p2⟩ := hpos _ h1 h2
    have hy := hlor.trans_le h1
    have p3 := hW _ hy p1 p2
    have he : HasDerivAt (fun r : ℝ => Real.exp (-r ^ 2)) (Real.exp (-t ^ 2) * -(2 * t)) t := by
      have := ((hasDerivAt_pow 2 t).fun_neg).exp
      simpa using this
    have := ((hΨ (tX N C D t)).comp t (tX_hasDerivAt p2)).add he
    refine this.congr_deriv ?_
    have e : -(κ * tX N C D t ^ 2 / 2) = -(κ * ev C (N * t) ^ 2 / (2 * ev D (N * t) ^ 2)) := by
      unfold tX
      have := p2.ne'
      field_simp
    have ht : 0 < t := hr0.trans_le ht.1
    have e2 : Real.exp (tG κ N C D (N * t) + Real.log (c * N ^ 2 / 2)) =
        Real.exp (t ^ 2) * Real.exp (-(κ * ev C (N * t) ^ 2 / (2 * ev D (N * t) ^ 2))) * ev (tW C D) (N * t)
          / ev D (N * t) ^ 2 / (N * t) * (c * N ^ 2 / 2) := by
      rw [tG, Real.exp_add, Real.exp_log (by positivity), Real.exp_sub, Real.exp_log hy, Real.exp_sub, two_mul (Real.log _),
        Real.exp_add, Real.exp_add, Real.exp_log p2, Real.exp_log p3, sub_eq_add_neg, Real.exp_add,
        show ((N : ℝ) * t) ^ 2 / N ^ 2 = t ^ 2 by field_simp, ← pow_two]
    rw [e, e2, Real.exp_neg (t ^ 2)]
    have h5 := (Real.exp_pos (t ^ 2)).ne'
    have h6 := p2.ne'
    field_simp
    ring
  have hbd : ∀ t ∈ Icc r r1, |Real.exp (tG κ N C D (N * t) + Real.log (c * N ^ 2 / 2)) - 1| ≤ 2 * η := fun t ht => by
    obtain ⟨h1, h2⟩ := hin t ht.1 ht.2
    have h3 := hg _ h1 h2
    have h4 : |tG κ N C D (N * t) + Real.log (c * N ^ 2 / 2)| ≤ η := by
      calc |tG κ N C D (N * t) + Real.log (c * N ^ 2 / 2)|
          = |(tG κ N C D (N * t) - tG κ N C D lo) + (tG κ N C D lo + Real.log (c * N ^ 2 / 2))| := by congr 1; ring
        _ ≤ _ := abs_add_le _ _
        _ ≤ η := by linarith
    have := Real.abs_exp_sub_one_le (h4.trans hη1)
    linarith
  have he : ∀ t : ℝ, HasDerivAt (fun r : ℝ => 2 * η * Real.exp (-r ^ 2)) (2 * η * (Real.exp (-t ^ 2) * -(2 * t))) t :=
    fun t => by
      have := (((hasDerivAt_pow 2 t).fun_neg).exp).const_mul (2 * η)
      simpa using this
  have anti : ∀ (f f' : ℝ → ℝ), (∀ t ∈ Icc r r1, HasDerivAt f (f' t) t) → (∀ t ∈ Icc r r1, f' t ≤ 0) → f r1 ≤ f r :=
    fun f f' h1 h2 => by
      have := antitoneOn_of_deriv_nonpos (convex_Icc r r1)
        (fun t ht => (h1 t ht).continuousAt.continuousWithinAt)
        (fun t ht => by rw [interior_Icc] at ht; exact (h1 t (Ioo_subset_Icc_self ht)).differentiableAt.differentiableWithinAt)
        (fun t ht => by
          rw [interior_Icc] at ht
          rw [(h1 t (Ioo_subset_Icc_self ht)).deriv]; exact h2 t (Ioo_subset_Icc_self ht))
      exact this (left_mem_Icc.2 hr1) (right_mem_Icc.2 hr1) hr1
  have k1 := anti _ _ (fun t ht => (hder t ht).add (he t)) (fun t ht => by
    have ht0 : 0 < t := hr0.trans_le ht.1
    have h1 := (abs_le.1 (hbd t ht)).2
    have h2 : 0 ≤ 2 * t * Real.exp (-t ^ 2) := by positivity
    have := mul_le_mul_of_nonneg_left h1 h2
    nlinarith)
  have k2 := anti _ _ (fun t ht => (he t).sub (hder t ht)) (fun t ht => by
    have ht0 : 0 < t := hr0.trans_le ht.1
    have h1 := (abs_le.1 (hbd t ht)).1
    have h2 : 0 ≤ 2 * t * Real.exp (-t ^ 2) := by positivity
    have := mul_le_mul_of_nonneg_left h1 h2
    nlinarith)
  simp only [Pi.add_apply, Pi.sub_apply] at k1 k2
  rw [abs_le]
  constructor <;> linarith

/-- `1 - Ψ x ≤ exp (- κ x² / 2)` far out. -/
theorem upper_tail {κ c : ℝ} (hκ : 0 < κ) {Ψ : ℝ → ℝ}
    (hΨ : ∀ x, HasDerivAt Ψ (c * Real.exp (-(κ * x ^ 2 / 2))) x) (h1 : Tendsto Ψ atTop (nhds 1)) {x : ℝ} (hx : c ≤ κ * x)
    (hx0 : 0 ≤ x) : 1 - Ψ x ≤ Real.exp (-(κ * x ^ 2 / 2)) := by
  have hd : ∀ t, HasDerivAt (fun t => Real.exp (-(κ * t ^ 2 / 2)) + Ψ t)
      (Real.exp (-(κ * t ^ 2 / 2)) * (c - κ * t)) t := fun t => by
    have := ((((hasDerivAt_pow 2 t).const_mul κ).div_const 2).fun_neg).exp.add (hΨ t)
    refine this.congr_deriv ?_
    simp only [Nat.cast_ofNat, Nat.add_one_sub_one, pow_one]
    ring
  have hanti : AntitoneOn (fun t => Real.exp (-(κ * t ^ 2 / 2)) + Ψ t) (Ici x) := by
    refine antitoneOn_of_deriv_nonpos (convex_Ici x) (fun t _ => (hd t).continuousAt.continuousWithinAt)
      (fun t _ => (hd t).differentiableAt.differentiableWithinAt) (fun t ht => ?_)
    rw [interior_Ici] at ht
    rw [(hd t).deriv]
    have : κ * x ≤ κ * t := mul_le_mul_of_nonneg_left (le_of_lt ht) hκ.le
    exact mul_nonpos_of_nonneg_of_nonpos (Real.exp_pos _).le (by linarith)
  have hlim : Tendsto (fun t => Real.exp (-(κ * t ^ 2 / 2)) + Ψ t) atTop (nhds (0 + 1)) := by
    refine Tendsto.add (Real.tendsto_exp_neg_atTop_nhds_zero.comp ?_) h1
    exact (((tendsto_pow_atTop two_ne_zero).const_mul_atTop hκ).atTop_div_const two_pos)
  have : 0 + 1 ≤ Real.exp (-(κ * x ^ 2 / 2)) + Ψ x :=
    le_of_tendsto hlim (eventually_atTop.2 ⟨x, fun t ht => hanti (self_mem_Ici (a := x)) ht ht⟩)
  linarith

/-- a difference of values of `Ψ` far out -/
theorem psi_close {κ c : ℝ} (hκ : 0 < κ) (hc : 0 < c) {Ψ : ℝ → ℝ}
    (hΨ : ∀ x, HasDerivAt Ψ (c * Real.exp (-(κ * x ^ 2 / 2))) x) {x y m : ℝ} (hm : 0 ≤ m) (hx : m ≤ x) (hy : m ≤ y) :
    |Ψ x - Ψ y| ≤ c * Real.exp (-(κ * m ^ 2 / 2)) * |x - y| := by
  have := Convex.norm_image_sub_le_of_norm_hasDerivWithin_le (f := Ψ) (C := c * Real.exp (-(κ * m ^ 2 / 2)))
    (s := Ici m) (fun t _ => (hΨ t).hasDerivWithinAt) (fun t ht => by
      have : m ^ 2 ≤ t ^ 2 := pow_le_pow_left₀ hm ht 2
      rw [Real.norm_eq_abs, abs_of_pos (by positivity)]
      gcongr) (convex_Ici m) hy hx
  rwa [Real.norm_eq_abs, Real.norm_eq_abs] at this

end PC
end Verif
