import Verif.QuantTabE3
import Verif.QuantNormal
import Verif.ErrorProps

/-!
# C70: the accuracy of the inverse error function
-/

namespace Verif
namespace PC
open Set Filter
open Verif.Special

theorem sqrt_pi : 1.77245385090551602 ≤ √Real.pi ∧ √Real.pi ≤ 1.77245385090551603 := by
  have h1 := Real.pi_gt_d20
  have h2 := Real.pi_lt_d20
  constructor
  · apply Real.le_sqrt_of_sq_le; norm_num; linarith
  · rw [Real.sqrt_le_left (by norm_num)]; norm_num; linarith

/-- `|2 v / √π - 1| ≤ 10⁻¹³` from a decimal bound of `v` -/
theorem near_sqrt_pi {v : ℝ} (h1 : 0.8862269254527 ≤ v) (h2 : v ≤ 0.8862269254528) : |2 / √Real.pi * v - 1| ≤ 1e-13 := by
  obtain ⟨a, b⟩ := sqrt_pi
  have h0 : 0 < √Real.pi := by linarith
  rw [div_mul_eq_mul_div, div_sub_one h0.ne', abs_div, abs_of_pos h0, div_le_iff₀ h0, abs_le]
  constructor <;> linarith

/-! ## Values of the polynomials at the ends of the ranges -/

theorem e1_A_0 : ev (e1A) 0 = 163214436998760371254195595836639404296875000000000000 := by
  have h := ev_int (e1A) 0
  rw [show evZ (e1A) 0 = 163214436998760371254195595836639404296875000000000000 by decide +kernel] at h
  push_cast at h
  exact h

theorem e1_B_0 : ev (e1B) 0 = 184167770478624230798720531463623046875000000000000000 := by
  have h := ev_int (e1B) 0
  rw [show evZ (e1B) 0 = 184167770478624230798720531463623046875000000000000000 by decide +kernel] at h
  push_cast at h
  exact h

theorem e1_W_0 : ev (cW e1A e1B) 0 = 30058838971985574702035221537294569355447883591378829805762507021427154541015625000000000000000000000000000 := by
  have h := ev_int (cW e1A e1B) 0
  rw [show evZ (cW e1A e1B) 0 = 30058838971985574702035221537294569355447883591378829805762507021427154541015625000000000000000000000000000 by decide +kernel] at h
  push_cast at h
  exact h

theorem e1_A_562500 : ev (e1A) 562500 = 16030495584406622931100000000000000000000000000000000 := by
  have h := ev_int (e1A) 562500
  rw [show evZ (e1A) 562500 = 16030495584406622931100000000000000000000000000000000 by decide +kernel] at h
  push_cast at h
  exact h

theorem e1_B_562500 : ev (e1B) 562500 = 14780647071513831611000000000000000000000000000000000 := by
  have h := ev_int (e1B) 562500
  rw [show evZ (e1B) 562500 = 14780647071513831611000000000000000000000000000000000 by decide +kernel] at h
  push_cast at h
  exact h

theorem e1_W_562500 : ev (cW e1A e1B) 562500 = 375217928701193967434192190820314265244150000000000000000000000000000000000000000000000000000000000000000 := by
  have h := ev_int (cW e1A e1B) 562500
  rw [show evZ (cW e1A e1B) 562500 = 375217928701193967434192190820314265244150000000000000000000000000000000000000000000000000000000000000000 by decide +kernel] at h
  push_cast at h
  exact h

theorem e2_A_112500000 : ev (e2A) 112500000 = 216780539523529703812867088884332105180874350480735301971435546875000000 := by
  have h := ev_int (e2A) 112500000
  rw [show evZ (e2A) 112500000 = 216780539523529703812867088884332105180874350480735301971435546875000000 by decide +kernel] at h
  push_cast at h
  exact h

theorem e2_B_112500000 : ev (e2B) 112500000 = 199878826565189494262822939527554666483410983346402645111083984375000000 := by
  have h := ev_int (e2B) 112500000
  rw [show evZ (e2B) 112500000 = 199878826565189494262822939527554666483410983346402645111083984375000000 by decide +kernel] at h
  push_cast at h
  exact h

theorem e2_W_112500000 : ev (cW e2A e2B) 112500000 = 68616769854210600742016200267803806537749662765068176631896088492320328371966385343761721422872756903643676196224987506866455078125000000000000 := by
  have h := ev_int (cW e2A e2B) 112500000
  rw [show evZ (cW e2A e2B) 112500000 = 68616769854210600742016200267803806537749662765068176631896088492320328371966385343761721422872756903643676196224987506866455078125000000000000 by decide +kernel] at h
  push_cast at h
  exact h

theorem e3_A_16600 : ev (e3A) 16600 = 106589520581458455744974921478723883917205350400000000000000000000 := by
  have h := ev_int (e3A) 16600
  rw [show evZ (e3A) 16600 = 106589520581458455744974921478723883917205350400000000000000000000 by decide +kernel] at h
  push_cast at h
  exact h

theorem e3_B_16600 : ev (e3B) 16600 = 81253861387300863850763869416489333880473600000000000000000000000 := by
  have h := ev_int (e3B) 16600
  rw [show evZ (e3B) 16600 = 81253861387300863850763869416489333880473600000000000000000000000 by decide +kernel] at h
  push_cast at h
  exact h

theorem e3_W_16600 : ev (tW e3A e3B) 16600 = 690210175000406826255642393805699270103161966542351889112809122951226099330733942374400000000000000000000000000000000000000000 := by
  have h := ev_int (tW e3A e3B) 16600
  rw [show evZ (tW e3A e3B) 16600 = 690210175000406826255642393805699270103161966542351889112809122951226099330733942374400000000000000000000000000000000000000000 by decide +kernel] at h
  push_cast at h
  exact h

theorem e3_A_100000 : ev (e3A) 100000 = 17483576400433175912068669975000000000000000000000000000000000000000000 := by
  have h := ev_int (e3A) 100000
  rw [show evZ (e3A) 100000 = 17483576400433175912068669975000000000000000000000000000000000000000000 by decide +kernel] at h
  push_cast at h
  exact h

theorem e3_B_100000 : ev (e3B) 100000 = 1773958732232345813289426345000000000000000000000000000000000000000000 := by
  have h := ev_int (e3B) 100000
  rw [show evZ (e3B) 100000 = 1773958732232345813289426345000000000000000000000000000000000000000000 by decide +kernel] at h
  push_cast at h
  exact h

theorem e3_W_100000 : ev (tW e3A e3B) 100000 = 317682136073808642231538117712099137296705632584930671875000000000000000000000000000000000000000000000000000000000000000000000000000000 := by
  have h := ev_int (tW e3A e3B) 100000
  rw [show evZ (tW e3A e3B) 100000 = 317682136073808642231538117712099137296705632584930671875000000000000000000000000000000000000000000000000000000000000000000000000000000 by decide +kernel] at h
  push_cast at h
  exact h

/-! ## The tables of the checks are those of the code -/

theorem e1_eq {x v : ℝ} (h0 : |x| ≤ 0.75) (hv : erfinvFin tables64 x = some v) : v = cX 1000000 e1A e1B x := by
  unfold erfinvFin at hv
  simp only [tables64] at hv
  rw [if_pos h0, C70_horner _ _ (by simp [f64Leq075P]), C70_horner _ _ (by simp [f64Leq075Q])] at hv
  simp only [Option.bind_eq_bind, Option.bind_some] at hv
  rw [R.div] at hv
  split_ifs at hv with hq
  rw [← Option.some.inj hv]
  have hA : ev e1A (1000000 * x ^ 2) = 1000000000000000000000000000000000000000000000000000 * ∑ i ∈ Finset.range f64Leq075P.length, f64Leq075P.getD i 0 * (x * x - 0.5625) ^ i := by
    simp only [e1A, ev, f64Leq075P, List.length_cons, List.length_nil, Finset.sum_range_succ, Finset.range_zero,
      Finset.sum_empty, List.getD_cons_zero, List.getD_cons_succ]
    push_cast; ring
  have hB : ev e1B (1000000 * x ^ 2) = 1000000000000000000000000000000000000000000000000000 * ∑ i ∈ Finset.range f64Leq075Q.length, f64Leq075Q.getD i 0 * (x * x - 0.5625) ^ i := by
    simp only [e1B, ev, f64Leq075Q, List.length_cons, List.length_nil, Finset.sum_range_succ, Finset.range_zero,
      Finset.sum_empty, List.getD_cons_zero, List.getD_cons_succ]
    push_cast; ring
  rw [cX]
  push_cast
  rw [hA, hB, mul_left_comm x, mul_div_mul_left _ _ (by norm_num)]

theorem e2_eq {x v : ℝ} (h0 : 0.75 < |x|) (h1 : |x| ≤ 0.9375) (hv : erfinvFin tables64 x = some v) :
    v = cX 200000000 e2A e2B x := by
  unfold erfinvFin at hv
  simp only [tables64] at hv
  rw [if_neg (not_le.2 h0), if_pos h1, C70_horner _ _ (by simp [f64Leq09375P]), C70_horner _ _ (by simp [f64Leq09375Q])] at hv
  simp only [Option.bind_eq_bind, Option.bind_some] at hv
  rw [R.div] at hv
  split_ifs at hv with hq
  rw [← Option.some.inj hv]
  have hA : ev e2A (200000000 * x ^ 2) = -200000000000000000000000000000000000000000000000000000000000000000000000 * ∑ i ∈ Finset.range f64Leq09375P.length, f64Leq09375P.getD i 0 * (x * x - 0.87890625) ^ i := by
    simp only [e2A, ev, f64Leq09375P, List.length_cons, List.length_nil, Finset.sum_range_succ, Finset.range_zero,
      Finset.sum_empty, List.getD_cons_zero, List.getD_cons_succ]
    push_cast; ring
  have hB : ev e2B (200000000 * x ^ 2) = -200000000000000000000000000000000000000000000000000000000000000000000000 * ∑ i ∈ Finset.range f64Leq09375Q.length, f64Leq09375Q.getD i 0 * (x * x - 0.87890625) ^ i := by
    simp only [e2B, ev, f64Leq09375Q, List.length_cons, List.length_nil, Finset.sum_range_succ, Finset.range_zero,
      Finset.sum_empty, List.getD_cons_zero, List.getD_cons_succ]
    push_cast; ring
  rw [cX]
  push_cast
  rw [hA, hB, mul_left_comm x, mul_div_mul_left _ _ (by norm_num)]

theorem e3_eq {x v : ℝ} (h0 : 0.9375 < x) (h1 : x < 1) (hv : erfinvFin tables64 x = some v) :
    v = tX 10000 e3A e3B √(-Real.log (1 - x)) := by
  have habs : |x| = x := abs_of_pos (by norm_num at h0; linarith)
  unfold erfinvFin at hv
  simp only [tables64, habs] at hv
  obtain ⟨l, hl, hs⟩ := third_arg (x := x) (by rw [habs]; exact h0) (by rw [habs]; exact h1)
  rw [habs] at hl
  have hll : l = Real.log (1 - x) := by
    rw [ln_of_pos (by linarith)] at hl; exact (Option.some.inj hl).symm
  subst hll
  rw [if_neg (by norm_num at h0 ⊢; linarith), if_neg (not_le.2 h0)] at hv
  simp only [hl, Option.bind_eq_bind, Option.bind_some, div_of_ne hs.ne'] at hv
  rw [copysign_pos (by positivity) (by norm_num at h0; linarith), C70_horner _ _ (by simp [f64P]), C70_horner _ _ (by simp [f64Q])] at hv
  simp only [Option.bind_some] at hv
  rw [R.div] at hv
  split_ifs at hv with hq
  rw [← Option.some.inj hv]
  generalize √(-Real.log (1 - x)) = r at hs ⊢
  have hA : ev e3A (10000 * r) = 250000000000000000000000000000000000000000000000000000000000000 * (r ^ 10 * ∑ i ∈ Finset.range f64P.length, f64P.getD i 0 * (1 / r) ^ i) := by
    simp only [e3A, ev, f64P, List.length_cons, List.length_nil, Finset.sum_range_succ, Finset.range_zero,
      Finset.sum_empty, List.getD_cons_zero, List.getD_cons_succ]
    push_cast
    have := hs.ne'
    field_simp
    ring
  have hB : ev e3B (10000 * r) = 250000000000000000000000000000000000000000000000000000000000000 * (r ^ 10 * (1 / r * ∑ i ∈ Finset.range f64Q.length, f64Q.getD i 0 * (1 / r) ^ i)) := by
    simp only [e3B, ev, f64Q, List.length_cons, List.length_nil, Finset.sum_range_succ, Finset.range_zero,
      Finset.sum_empty, List.getD_cons_zero, List.getD_cons_succ]
    push_cast
    have := hs.ne'
    field_simp
    ring
  rw [tX]
  push_cast
  rw [hA, hB, mul_div_mul_left _ _ (by norm_num), mul_div_mul_left _ _ (by positivity)]

/-! ## Anchors -/

theorem e1_anchor : |cG 2 1000000 e1A e1B 0 + Real.log (2 / √Real.pi)| ≤ 2e-13 := by
  have hB := e1_B_0
  have hW := e1_W_0
  rw [cG_anchor (by rw [hB]; norm_num) (by rw [hW]; norm_num) (by have := Real.pi_pos; positivity)]
  have : |2 / √Real.pi * (ev (cW e1A e1B) 0 / ev e1B 0 ^ 2) - 1| ≤ 1e-13 := by
    rw [hB, hW]
    exact near_sqrt_pi (by norm_num) (by norm_num)
  have := log_abs_le this (by norm_num)
  simp only [mul_zero, zero_mul, zero_div, sub_zero]
  linarith

theorem e3_anchor :
    |tG 2 10000 e3A e3B 16600 + Real.log (2 / √Real.pi * ((10000 : ℤ) : ℝ) ^ 2 / 2)| ≤ 2e-13 := by
  have hA := e3_A_16600
  have hB := e3_B_16600
  have hW := e3_W_16600
  rw [tG_anchor (by norm_num) (by norm_num) (by rw [hB]; norm_num) (by rw [hW]; norm_num)
    (by have := Real.pi_pos; positivity) rfl rfl]
  obtain ⟨b1, b2⟩ := exp4_bounds (z := ((16600 : ℝ)) ^ 2 / ((10000 : ℤ) : ℝ) ^ 2
      - ((2 : ℤ) : ℝ) * ev e3A 16600 ^ 2 / (2 * ev e3B 16600 ^ 2)) (wl := 0.25868949733357582) (wh := 0.25868949733357583)
      (el := 1.2952315695277382) (eh := 1.2952315695277384)
    (by rw [hA, hB]; norm_num) (by rw [hA, hB]; norm_num)
    (exp_lower (by norm_num) (by norm_num [Finset.sum_range_succ, Nat.factorial]))
    (exp_upper (by norm_num) (by norm_num) (by norm_num [Finset.sum_range_succ, Nat.factorial])) (by norm_num)
  have hρ : 0 ≤ ev (tW e3A e3B) 16600 * ((10000 : ℤ) : ℝ) ^ 2 / (2 * ev e3B 16600 ^ 2 * 16600) := by
    rw [hW, hB]; norm_num
  refine (log_abs_le (near_sqrt_pi (le_trans ?_ (mul_le_mul_of_nonneg_right b1 hρ))
    (le_trans (mul_le_mul_of_nonneg_right b2 hρ) ?_)) (by norm_num)).trans (by norm_num : (2 : ℝ) * 1e-13 ≤ 2e-13)
  · rw [hB, hW]; norm_num
  · rw [hB, hW]; norm_num

theorem e1_drift : |cG 2 1000000 e1A e1B 562500 - cG 2 1000000 e1A e1B 0| ≤ 1.4e-13 := by
  have hpos := chain_pos e1S 0 e1_chain e1_ne
  have h := chain_sound (cG 2 1000000 e1A e1B) e1S 0 e1_chain (fun x _ _ h1 h2 => cG_hasDerivAt (by norm_num) h2 (by
    rw [ev_cQ] at h1
    by_contra hcon
    have : 2 * ((1000000 : ℤ) : ℝ) * (ev e1B x ^ 3 * ev (cW e1A e1B) x) ≤ 0 :=
      mul_nonpos_of_nonneg_of_nonpos (by positivity) (mul_nonpos_of_nonneg_of_nonpos (by positivity) (not_lt.1 hcon))
    linarith)) 562500 (by norm_num) (by rw [e1_hi]; norm_num)
  have h2 : ((tot e1S : ℚ) : ℝ) ≤ (1.4e-13 : ℚ) := by exact_mod_cast e1_tot.trans (by norm_num)
  push_cast at h2 h
  refine h.trans (h2.trans (le_of_eq (by norm_num)))

theorem e2_anchor : |cG 2 200000000 e2A e2B 112500000 + Real.log (2 / √Real.pi)| ≤ 4.2e-13 := by
  have hA := e2_A_112500000
  have hB := e2_B_112500000
  have hW := e2_W_112500000
  have kA := e1_A_562500
  have kB := e1_B_562500
  have kW := e1_W_562500
  have h1 : |cG 2 200000000 e2A e2B 112500000 - cG 2 1000000 e1A e1B 562500| ≤ 6e-14 := by
    have e : cG 2 200000000 e2A e2B 112500000 - cG 2 1000000 e1A e1B 562500 =
        Real.log ((ev (cW e2A e2B) 112500000 / ev e2B 112500000 ^ 2) / (ev (cW e1A e1B) 562500 / ev e1B 562500 ^ 2))
        - (0.5625 * ev e2A 112500000 ^ 2 / ev e2B 112500000 ^ 2 - 0.5625 * ev e1A 562500 ^ 2 / ev e1B 562500 ^ 2) := by
      rw [cG, cG, Real.log_div (by rw [hW, hB]; norm_num) (by rw [kW, kB]; norm_num),
        Real.log_div (by rw [hW]; norm_num) (by rw [hB]; norm_num), Real.log_div (by rw [kW]; norm_num) (by rw [kB]; norm_num),
        Real.log_pow, Real.log_pow]
      push_cast
      ring
    rw [e]
    have a1 : |Real.log ((ev (cW e2A e2B) 112500000 / ev e2B 112500000 ^ 2) / (ev (cW e1A e1B) 562500 / ev e1B 562500 ^ 2))|
        ≤ 2 * 2e-14 := by
      refine log_abs_le ?_ (by norm_num)
      rw [hB, hW, kB, kW, abs_le]
      constructor <;> norm_num
    have a2 : |0.5625 * ev e2A 112500000 ^ 2 / ev e2B 112500000 ^ 2 - 0.5625 * ev e1A 562500 ^ 2 / ev e1B 562500 ^ 2| ≤ 1e-14 := by
      rw [hA, hB, kA, kB, abs_le]
      constructor <;> norm_num
    refine (abs_sub _ _).trans ?_
    norm_num at a1 a2 ⊢
    linarith
  have h2 := e1_drift
  have h3 := e1_anchor
  generalize cG 2 200000000 e2A e2B 112500000 = g2 at *
  generalize cG 2 1000000 e1A e1B 562500 = g1 at *
  generalize cG 2 1000000 e1A e1B 0 = g0 at *
  generalize Real.log (2 / √Real.pi) = lc at *
  norm_num at h1 h2 h3 ⊢
  rw [abs_le] at h1 h2 h3 ⊢
  constructor <;> linarith [h1.1, h1.2, h2.1, h2.2, h3.1, h3.2]

/-! ## Errors -/

theorem erf_hasDerivAt (x : ℝ) :
    HasDerivAt Stat.erfSpec (2 / √Real.pi * Real.exp (-(((2 : ℤ) : ℝ) * x ^ 2 / 2))) x := by
  refine (Stat.erfSpec_hasDerivAt x).congr_deriv ?_
  congr 2
  push_cast; ring

theorem erfSpec_zero : Stat.erfSpec 0 = 0 := by simp [Stat.erfSpec]

theorem twosqrt_pos : 0 < 2 / √Real.pi := by have := Real.pi_pos; positivity

theorem twosqrt_le : 2 / √Real.pi ≤ 1.2 := by
  have := sqrt_pi.1
  rw [div_le_iff₀ (by linarith)]; linarith

theorem erf1_acc {q : ℝ} (h0 : 0 ≤ q) (h1 : q ≤ 0.75) : |Stat.erfSpec (cX 1000000 e1A e1B q) - q| ≤ 7e-13 * q := by
  have hc := central_core (κ := 2) (by norm_num : (0 : ℤ) < 1000000) e1_chain e1_ne twosqrt_pos erf_hasDerivAt
    (q0 := 0) (η := 3.5e-13) le_rfl (by norm_num) (by
      have h1 := e1_anchor
      have h2 : ((tot e1S : ℚ) : ℝ) ≤ (1.4e-13 : ℚ) := by exact_mod_cast e1_tot.trans (by norm_num)
      push_cast at h2
      push_cast
      norm_num at h1 h2 ⊢
      linarith) (by norm_num) (q := q) h0 (by
      rw [e1_hi]; push_cast
      nlinarith)
  have h2 : cX 1000000 e1A e1B 0 = 0 := by simp [cX]
  rw [h2, erfSpec_zero, sub_zero, sub_zero, sub_zero] at hc
  refine hc.trans (le_of_eq ?_)
  norm_num

theorem erf2_acc {q : ℝ} (h0 : 0.75 ≤ q) (h1 : q ≤ 0.9375) : |Stat.erfSpec (cX 200000000 e2A e2B q) - q| ≤ 1.24e-12 := by
  have hc := central_core (κ := 2) (by norm_num : (0 : ℤ) < 200000000) e2_chain e2_ne twosqrt_pos erf_hasDerivAt
    (q0 := 0.75) (η := 1.8e-12) (by norm_num) (by norm_num) (by
      have h1 := e2_anchor
      have h2 : ((tot e2S : ℚ) : ℝ) ≤ (1.3e-12 : ℚ) := by exact_mod_cast e2_tot.trans (by norm_num)
      push_cast at h2
      push_cast
      norm_num at h1 h2 ⊢
      linarith) (by norm_num) (q := q) h0 (by
      rw [e2_hi]; push_cast
      nlinarith)
  have h3 := erf1_acc (q := 0.75) (by norm_num) le_rfl
  have hX2 : cX 200000000 e2A e2B 0.75 = 0.75 * ev e2A 112500000 / ev e2B 112500000 := by rw [cX]; norm_num
  have hX1 : cX 1000000 e1A e1B 0.75 = 0.75 * ev e1A 562500 / ev e1B 562500 := by rw [cX]; norm_num
  have hcl := psi_close (κ := ((2 : ℤ) : ℝ)) (by norm_num) twosqrt_pos erf_hasDerivAt (x := cX 200000000 e2A e2B 0.75)
    (y := cX 1000000 e1A e1B 0.75) (m := 0) le_rfl
    (by rw [hX2, e2_A_112500000, e2_B_112500000]; norm_num) (by rw [hX1, e1_A_562500, e1_B_562500]; norm_num)
  have hd : |cX 200000000 e2A e2B 0.75 - cX 1000000 e1A e1B 0.75| ≤ 1e-15 := by
    rw [hX2, hX1, e2_A_112500000, e2_B_112500000, e1_A_562500, e1_B_562500, abs_le]
    constructor <;> norm_num
  have hcl2 : |Stat.erfSpec (cX 200000000 e2A e2B 0.75) - Stat.erfSpec (cX 1000000 e1A e1B 0.75)| ≤ 2e-15 := by
    refine hcl.trans ?_
    rw [show -(((2 : ℤ) : ℝ) * 0 ^ 2 / 2) = 0 by norm_num, Real.exp_zero, mul_one]
    refine (mul_le_mul twosqrt_le hd (abs_nonneg _) (by norm_num)).trans (by norm_num)
  clear hcl hd hX1 hX2
  generalize Stat.erfSpec (cX 200000000 e2A e2B 0.75) = s2 at *
  generalize Stat.erfSpec (cX 1000000 e1A e1B 0.75) = s1 at *
  generalize Stat.erfSpec (cX 200000000 e2A e2B q) = sq at *
  norm_num at hc hcl2 h3 h0 h1 ⊢
  rw [abs_le] at hc hcl2 h3 ⊢
  constructor <;> linarith [hc.1, hc.2, hcl2.1, hcl2.2, h3.1, h3.2]

theorem erf3_acc {r : ℝ} (h1 : 1.66 ≤ r) (h7 : r ≤ 7) :
    |Stat.erfSpec (tX 10000 e3A e3B r) - (1 - Real.exp (-r ^ 2))| ≤ 4e-12 * Real.exp (-r ^ 2) := by
  have hc := tail_core (κ := 2) (by norm_num : (0 : ℤ) < 10000) e3_chain e3_ne (by norm_num) twosqrt_pos erf_hasDerivAt
    (η := 1.7e-12) (by
        have h1 := e3_anchor
        have h2 : ((tot e3S : ℚ) : ℝ) ≤ (1.5e-12 : ℚ) := by exact_mod_cast e3_tot.trans (by norm_num)
        push_cast at h2 h1
        push_cast
        norm_num at h1 h2 ⊢
        linarith) (by norm_num) (r := r) (r1 := 10) (by push_cast; linarith) (by linarith) (by rw [e3_hi]; norm_num)
  have hX : tX 10000 e3A e3B 10 = ev e3A 100000 / ev e3B 100000 := by rw [tX]; norm_num
  have hX1 : (9.8 : ℝ) ≤ tX 10000 e3A e3B 10 := by
    rw [hX, e3_A_100000, e3_B_100000]; norm_num
  have h1 := upper_tail (κ := ((2 : ℤ) : ℝ)) (by norm_num) erf_hasDerivAt Stat.erfSpec_atTop
    (x := tX 10000 e3A e3B 10) (by have := twosqrt_le; push_cast; linarith) (by linarith)
  have h2 : Real.exp (-(((2 : ℤ) : ℝ) * tX 10000 e3A e3B 10 ^ 2 / 2)) ≤ Real.exp (-(96 : ℝ)) :=
    Real.exp_le_exp.2 (by push_cast; nlinarith)
  have h3 : Real.exp (-(10 : ℝ) ^ 2) ≤ Real.exp (-(96 : ℝ)) := Real.exp_le_exp.2 (by norm_num)
  have h4 : Stat.erfSpec (tX 10000 e3A e3B 10) ≤ 1 := by
    have hmono : Monotone Stat.erfSpec := monotone_of_deriv_nonneg (fun y => (Stat.erfSpec_hasDerivAt y).differentiableAt)
      (fun y => by rw [(Stat.erfSpec_hasDerivAt y).deriv]; positivity)
    exact hmono.ge_of_tendsto Stat.erfSpec_atTop _
  have h6 : Real.exp (-(96 : ℝ)) ≤ 1e-15 * Real.exp (-r ^ 2) := by
    rw [show -(96 : ℝ) = -((47 : ℕ) : ℝ) + -49 by norm_num, Real.exp_add]
    exact mul_le_mul (exp_neg_le (by norm_num)) (Real.exp_le_exp.2 (by nlinarith)) (Real.exp_pos _).le (by norm_num)
  have h7 := (Real.exp_pos (-(10 : ℝ) ^ 2)).le
  have h8 := (Real.exp_pos (-r ^ 2)).le
  have h9 := h1.trans h2
  clear h1 h2 hX1 hX
  generalize Stat.erfSpec (tX 10000 e3A e3B 10) = s28 at *
  generalize Stat.erfSpec (tX 10000 e3A e3B r) = sr at *
  generalize Real.exp (-(10 : ℝ) ^ 2) = e28 at *
  generalize Real.exp (-r ^ 2) = er at *
  generalize Real.exp (-96) = e776 at *
  norm_num at hc h6 ⊢
  rw [abs_le] at hc ⊢
  constructor <;> linarith [hc.1, hc.2]

theorem erfinv_acc_pos {x v : ℝ} (h0 : 0 ≤ x) (h1 : x ≤ 1 - 1e-20) (hv : erfinvFin tables64 x = some v) :
    |Stat.erfSpec v - x| ≤ 2e-11 * min x (1 - x) := by
  have habs : |x| = x := abs_of_nonneg h0
  by_cases c1 : x ≤ 0.75
  · rw [e1_eq (by rw [habs]; exact c1) hv]
    refine (erf1_acc h0 c1).trans ?_
    rcases le_total x (1 - x) with h | h
    · rw [min_eq_left h]; norm_num; linarith
    · rw [min_eq_right h]; norm_num at c1 ⊢; linarith
  · push Not at c1
    by_cases c2 : x ≤ 0.9375
    · rw [e2_eq (by rw [habs]; exact c1) (by rw [habs]; exact c2) hv]
      refine (erf2_acc c1.le c2).trans ?_
      rw [min_eq_right (by norm_num at c1; linarith)]
      norm_num at c2 ⊢
      linarith
    · push Not at c2
      have hx1 : x < 1 := lt_of_le_of_lt h1 (by norm_num)
      rw [e3_eq c2 hx1 hv, min_eq_right (by norm_num at c1; linarith)]
      have hp : 0 < 1 - x := by linarith
      have hlog : Real.log (1 - x) ≤ -2.7556 := by
        rw [Real.log_le_iff_le_exp hp]
        refine le_trans (by norm_num at c2 ⊢; linarith : 1 - x ≤ 0.0625) ?_
        rw [Real.exp_neg, le_inv_comm₀ (by norm_num) (Real.exp_pos _)]
        have := (exp4_bounds (z := 2.7556) (wl := 0.6889) (wh := 0.6889) (el := 0) (eh := 1.9917) (by norm_num) (by norm_num)
          (Real.exp_pos _).le (exp_upper (by norm_num) (by norm_num) (by norm_num [Finset.sum_range_succ, Nat.factorial]))
          le_rfl).2
        refine this.trans (by norm_num)
      have hlog2 : -49 ≤ Real.log (1 - x) := by
        rw [Real.le_log_iff_exp_le hp]
        refine le_trans ?_ (by linarith : (1e-20 : ℝ) ≤ 1 - x)
        exact_mod_cast exp_neg_le (a := 49) (by norm_num)
      have hr : √(-Real.log (1 - x)) ^ 2 = -Real.log (1 - x) := Real.sq_sqrt (by linarith)
      have he : Real.exp (-√(-Real.log (1 - x)) ^ 2) = 1 - x := by rw [hr, neg_neg, Real.exp_log hp]
      have h16 : 1.66 ≤ √(-Real.log (1 - x)) := Real.le_sqrt_of_sq_le (by norm_num at hlog ⊢; linarith)
      have h27 : √(-Real.log (1 - x)) ≤ 7 := by
        rw [Real.sqrt_le_left (by norm_num)]; norm_num; linarith
      have := erf3_acc h16 h27
      rw [he, sub_sub_cancel] at this
      refine this.trans ?_
      norm_num
      linarith

end PC

namespace Special
open PC

/-- C70: `erfinv` of `f64` inverts the error function: for `|x| ≤ 1 - 10⁻²⁰` (so for every double below 1) it returns a real
`v` with `erf v = x` up to the fraction `2 · 10⁻¹¹` of the smaller of `|x|` and `1 - |x|`. -/
theorem C70_accuracy {x : ℝ} (hx : |x| ≤ 1 - 1e-20) : ∃ v : ℝ, erfinv tables64 x = some (v : EReal) ∧
    |Stat.erfSpec v - x| ≤ 2e-11 * min |x| (1 - |x|) := by
  have key : ∀ y : ℝ, 0 ≤ y → y ≤ 1 - 1e-20 → ∃ v : ℝ, erfinv tables64 y = some (v : EReal) ∧
      |Stat.erfSpec v - y| ≤ 2e-11 * min y (1 - y) := fun y h0 h1 => by
    have h2 : y < 1 := lt_of_le_of_lt h1 (by norm_num)
    obtain ⟨v, hv, -⟩ := erfinvFin64 h0 h2
    refine ⟨v, ?_, erfinv_acc_pos h0 h1 hv⟩
    simp [erfinv, abs_of_nonneg h0, not_le.2 h2, hv]
  rcases le_total 0 x with h | h
  · rw [abs_of_nonneg h] at hx ⊢
    exact key x h hx
  · rw [abs_of_nonpos h] at hx ⊢
    obtain ⟨v, hv, h2⟩ := key (-x) (by linarith) hx
    have := (C50_erfinv tables64 (-x)).1
    rw [neg_neg, hv] at this
    refine ⟨-v, by rw [this]; simp, ?_⟩
    rw [Stat.erfSpec_neg, ← abs_neg]
    refine le_trans (le_of_eq ?_) h2
    congr 1; ring

/-- C70: `erfcinv` of `f64` inverts the complementary error function with the same accuracy. -/
theorem C70_erfcinv_accuracy {x : ℝ} (hx : |1 - x| ≤ 1 - 1e-20) : ∃ v : ℝ, erfcinv tables64 x = some (v : EReal) ∧
    |1 - Stat.erfSpec v - x| ≤ 2e-11 * min |1 - x| (1 - |1 - x|) := by
  obtain ⟨v, hv, h2⟩ := C70_accuracy hx
  have h3 := abs_le.1 hx
  refine ⟨v, ?_, ?_⟩
  · rw [erfcinv, if_neg, hv]
    push Not
    constructor
    · have := h3.2; norm_num at this; linarith
    · have := h3.1; norm_num at this; linarith
  · rw [← abs_neg]
    refine le_trans (le_of_eq ?_) h2
    congr 1; ring

example : ∃ v : ℝ, erfinv tables64 (-0.99) = some (v : EReal) ∧ |Stat.erfSpec v - (-0.99)| ≤ 2e-13 := by
  obtain ⟨v, h1, h2⟩ := C70_accuracy (x := -0.99) (by norm_num)
  refine ⟨v, h1, h2.trans ?_⟩
  norm_num

end Special
end Verif
