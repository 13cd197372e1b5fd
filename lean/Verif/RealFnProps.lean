import Verif.ComplexLemmas
import Mathlib.Analysis.Real.Pi.Bounds

/-!
# C38: elementary functions of the reals
-/

namespace Verif
open Real

theorem R.div_some {a b : ℝ} (h : b ≠ 0) : R.div a b = some (a / b) := if_neg h
theorem R.div_none {a b : ℝ} (h : b = 0) : R.div a b = none := if_pos h

/-- `sec`, `csc` are reciprocals of cosine and sine, without a finite value exactly at their zeros -/
theorem C38_sec_csc (x : ℝ) :
    (∀ y, R.sec x = some y ↔ cos x ≠ 0 ∧ y * cos x = 1) ∧ (∀ y, R.csc x = some y ↔ sin x ≠ 0 ∧ y * sin x = 1) := by
  constructor
  · intro y
    unfold R.sec
    by_cases h : cos x = 0
    · rw [R.div_none h]; simp [h]
    · rw [R.div_some h, Option.some.injEq, eq_comm, eq_div_iff h]
      exact ⟨fun e => ⟨h, e⟩, fun e => e.2⟩
  · intro y
    unfold R.csc
    by_cases h : sin x = 0
    · rw [R.div_none h]; simp [h]
    · rw [R.div_some h, Option.some.injEq, eq_comm, eq_div_iff h]
      exact ⟨fun e => ⟨h, e⟩, fun e => e.2⟩

example : R.sec 0 = some 1 := ((C38_sec_csc 0).1 1).mpr (by simp)

/-- `cot` is cosine over sine, where neither vanishes -/
theorem C38_cot (x y : ℝ) : R.cot x = some y ↔ cos x ≠ 0 ∧ sin x ≠ 0 ∧ y * sin x = cos x := by
  unfold R.cot
  by_cases h : cos x = 0
  · simp [h]
  · rw [if_neg h]
    by_cases h2 : sin x = 0
    · rw [R.div_none (by rw [tan_eq_sin_div_cos, h2, zero_div])]; simp [h2]
    · have ht : tan x ≠ 0 := by rw [tan_eq_sin_div_cos]; exact div_ne_zero h2 h
      rw [R.div_some ht, Option.some.injEq, tan_eq_sin_div_cos, one_div_div, eq_comm, eq_div_iff h2]
      exact ⟨fun e => ⟨h, h2, e⟩, fun e => e.2.2⟩

example : R.cot (π / 4) = some 1 := (C38_cot _ _).mpr (by
  rw [cos_pi_div_four, sin_pi_div_four]; simp)

/-- `arcsin` and `arccos` panic exactly outside `[-1, 1]`, and are the inverses with the principal ranges -/
theorem C38_arcsin_arccos (x : ℝ) :
    (|x| ≤ 1 → (∃ y, R.arcsin x = some y ∧ sin y = x ∧ -(π / 2) ≤ y ∧ y ≤ π / 2) ∧
      ∃ y, R.arccos x = some y ∧ cos y = x ∧ 0 ≤ y ∧ y ≤ π) ∧
    (1 < |x| → R.arcsin x = none ∧ R.arccos x = none) := by
  constructor
  · intro h
    have h' := abs_le.mp h
    exact ⟨⟨_, if_neg (not_lt.mpr h), sin_arcsin h'.1 h'.2, neg_pi_div_two_le_arcsin x, arcsin_le_pi_div_two x⟩,
      ⟨_, if_neg (not_lt.mpr h), cos_arccos h'.1 h'.2, arccos_nonneg x, arccos_le_pi x⟩⟩
  · intro h
    exact ⟨if_pos h, if_pos h⟩

example : R.arccos 2 = none ∧ R.arccos 0 = some (π / 2) := by
  constructor
  · exact ((C38_arcsin_arccos 2).2 (by norm_num)).2
  · unfold R.arccos; rw [if_neg (by simp), arccos_zero]

/-- `arctan` inverts the tangent with the principal range -/
theorem C38_arctan (x : ℝ) : tan (R.arctan x) = x ∧ -(π / 2) < R.arctan x ∧ R.arctan x < π / 2 :=
  ⟨tan_arctan x, neg_pi_div_two_lt_arctan x, arctan_lt_pi_div_two x⟩

/-- `arctan2 y x` is the polar angle of `(x, y)` in `(-π, π]` -/
theorem C38_arctan2 (x y : ℝ) :
    √(x ^ 2 + y ^ 2) * cos (R.arctan2 y x) = x ∧ √(x ^ 2 + y ^ 2) * sin (R.arctan2 y x) = y ∧
    -π < R.arctan2 y x ∧ R.arctan2 y x ≤ π := by
  have h := Cx.arctan2_eq_arg ⟨x, y⟩
  simp only at h
  have hn : √(x ^ 2 + y ^ 2) = ‖(⟨x, y⟩ : ℂ)‖ := by
    rw [Complex.norm_def, Complex.normSq_apply]; congr 1; ring
  rw [h, hn]
  refine ⟨?_, ?_, Complex.neg_pi_lt_arg _, Complex.arg_le_pi _⟩
  · exact Complex.norm_mul_cos_arg ⟨x, y⟩
  · exact Complex.norm_mul_sin_arg ⟨x, y⟩

example : R.arctan2 1 0 = π / 2 := by simp [R.arctan2]

/-- `cot (arccot x) = x` for every `x ≠ 0`, with values in `[-π/2, π/2]`. Missing from C38: `x = 0`, see
    `C38_arccot_violated`. -/
theorem C38_arccot_partial (x : ℝ) (h : x ≠ 0) :
    R.cot (R.arccot x) = some x ∧ -(π / 2) < R.arccot x ∧ R.arccot x < π / 2 := by
  have e : R.arccot x = arctan (1 / x) := by
    unfold R.arccot
    rw [if_neg h]
    split_ifs <;> rfl
  rw [e]
  refine ⟨(C38_cot _ _).mpr ?_, neg_pi_div_two_lt_arctan _, arctan_lt_pi_div_two _⟩
  have hs : 0 < √(1 + (1 / x) ^ 2) := Real.sqrt_pos.mpr (by positivity)
  rw [cos_arctan, sin_arctan]
  refine ⟨by positivity, div_ne_zero (one_div_ne_zero h) hs.ne', by field_simp⟩

example : R.arccot 1 = π / 4 := by
  unfold R.arccot; simp

/-- `arccot 0` is `0`, where the cotangent has no value; the cotangent vanishes at `π/2` -/
theorem C38_arccot_violated :
    R.arccot 0 = 0 ∧ R.cot (R.arccot 0) = none ∧ cos (π / 2) / sin (π / 2) = 0 := by
  have h : R.arccot 0 = 0 := if_pos rfl
  refine ⟨h, ?_, by simp⟩
  rw [h]
  unfold R.cot
  rw [if_neg (by simp), R.div_none (by simp)]

/-- `arcsec`, `arccsc` are right inverses for `|x| ≥ 1`, and have no value (a NaN, not a panic) otherwise -/
theorem C38_arcsec_arccsc (x : ℝ) :
    (1 ≤ |x| → (∃ y, R.arcsec x = some y ∧ R.sec y = some x ∧ 0 ≤ y ∧ y ≤ π) ∧
      ∃ y, R.arccsc x = some y ∧ R.csc y = some x ∧ -(π / 2) ≤ y ∧ y ≤ π / 2) ∧
    (|x| < 1 → R.arcsec x = none ∧ R.arccsc x = none) := by
  constructor
  · intro h
    have h0 : x ≠ 0 := by rintro rfl; norm_num at h
    have h1 : |1 / x| ≤ 1 := by
      rw [abs_div, abs_one, div_le_one (by positivity)]; exact h
    have h' := abs_le.mp h1
    constructor
    · refine ⟨_, by unfold R.arcsec; rw [if_neg h0, if_neg (not_lt.mpr h1)], ?_, arccos_nonneg _, arccos_le_pi _⟩
      rw [(C38_sec_csc _).1, cos_arccos h'.1 h'.2]
      exact ⟨one_div_ne_zero h0, by field_simp⟩
    · refine ⟨_, by unfold R.arccsc; rw [if_neg h0, if_neg (not_lt.mpr h1)], ?_, neg_pi_div_two_le_arcsin _,
        arcsin_le_pi_div_two _⟩
      rw [(C38_sec_csc _).2, sin_arcsin h'.1 h'.2]
      exact ⟨one_div_ne_zero h0, by field_simp⟩
  · intro h
    by_cases h0 : x = 0
    · exact ⟨if_pos h0, if_pos h0⟩
    · have h1 : |1 / x| > 1 := by
        rw [abs_div, abs_one, gt_iff_lt, lt_div_iff₀ (by positivity), one_mul]; exact h
      exact ⟨by unfold R.arcsec; rw [if_neg h0, if_pos h1], by unfold R.arccsc; rw [if_neg h0, if_pos h1]⟩

example : R.arcsec (-1) = some π ∧ R.arccsc (1 / 2) = none := by
  constructor
  · unfold R.arcsec; norm_num
  · exact ((C38_arcsec_arccsc (1 / 2)).2 (by rw [abs_of_pos] <;> norm_num)).2

/-- hyperbolic reciprocals: `coth` and `csch` panic exactly at zero -/
theorem C38_hyperbolic (x : ℝ) :
    (∃ y, R.sech x = some y ∧ y * cosh x = 1) ∧
    (x ≠ 0 → (∃ y, R.coth x = some y ∧ y * sinh x = cosh x) ∧ ∃ y, R.csch x = some y ∧ y * sinh x = 1) ∧
    (x = 0 → R.coth x = none ∧ R.csch x = none) := by
  have hc := (cosh_pos x).ne'
  refine ⟨⟨_, R.div_some hc, div_mul_cancel₀ _ hc⟩, ?_, fun h => ⟨if_pos h, if_pos h⟩⟩
  intro h
  have hs : sinh x ≠ 0 := by rwa [ne_eq, sinh_eq_zero]
  exact ⟨⟨_, by unfold R.coth; rw [if_neg h, R.div_some hs], div_mul_cancel₀ _ hs⟩,
    ⟨_, by unfold R.csch; rw [if_neg h, R.div_some hs], div_mul_cancel₀ _ hs⟩⟩

/-- `arsinh` inverts `sinh`; `arcosh` is the nonnegative right inverse of `cosh` for `x ≥ 1`, a NaN below -/
theorem C38_arsinh_arcosh (x : ℝ) :
    sinh (R.arsinh x) = x ∧ (1 ≤ x → ∃ y, R.arcosh x = some y ∧ cosh y = x ∧ 0 ≤ y) ∧
    (x < 1 → R.arcosh x = none) :=
  ⟨sinh_arsinh x, fun h => ⟨_, if_neg (not_lt.mpr h), cosh_arcosh h, arcosh_nonneg h⟩, fun h => if_pos h⟩

example : R.arcosh 1 = some 0 := by unfold R.arcosh; simp

/-- `artanh` panics exactly outside `(-1, 1)`, `arcoth` exactly on `[-1, 1]`, and they invert `tanh` and `coth` -/
theorem C38_artanh_arcoth (x : ℝ) :
    (|x| < 1 → ∃ y, R.artanh x = some y ∧ tanh y = x) ∧ (1 ≤ |x| → R.artanh x = none) ∧
    (1 < |x| → ∃ y, R.arcoth x = some y ∧ R.coth y = some x) ∧ (|x| ≤ 1 → R.arcoth x = none) := by
  refine ⟨?_, ?_, ?_, ?_⟩
  · intro h
    have h' := abs_lt.mp h
    refine ⟨_, if_neg ?_, tanh_artanh ⟨h'.1, h'.2⟩⟩
    rintro (h | h) <;> linarith
  · intro h
    refine if_pos ?_
    rcases le_abs.mp h with h | h
    · exact Or.inr h
    · exact Or.inl (by linarith)
  · intro h
    have hn : ¬ (-1 ≤ x ∧ x ≤ 1) := fun e => absurd (abs_le.mpr e) (not_le.mpr h)
    have hq : 0 < (x + 1) / (x - 1) := by
      rcases lt_abs.mp h with h | h
      · apply div_pos <;> linarith
      · apply div_pos_of_neg_of_neg <;> linarith
    have hx1 : x - 1 ≠ 0 := by intro e; rw [e, div_zero] at hq; exact lt_irrefl _ hq
    set q := (x + 1) / (x - 1) with hqd
    have hqm : q * (x - 1) = x + 1 := div_mul_cancel₀ _ hx1
    refine ⟨Real.log q / 2, ?_, ?_⟩
    · unfold R.arcoth R.ln
      rw [if_neg hn, if_neg (not_le.mpr hq)]
      rfl
    · have h1 : Real.exp (Real.log q / 2) * Real.exp (Real.log q / 2) = q := by
        rw [← Real.exp_add, add_halves, Real.exp_log hq]
      have h2 : Real.exp (Real.log q / 2) * Real.exp (-(Real.log q / 2)) = 1 := by
        rw [← Real.exp_add]; simp
      have hE := Real.exp_pos (Real.log q / 2)
      have hl : Real.log q / 2 ≠ 0 := by
        intro e
        rw [e, Real.exp_zero, one_mul] at h1
        rw [← h1] at hqm
        linarith
      have hs : sinh (Real.log q / 2) ≠ 0 := by rwa [ne_eq, sinh_eq_zero]
      unfold R.coth
      rw [if_neg hl, R.div_some hs]
      congr 1
      rw [div_eq_iff hs]
      rw [Real.sinh_eq, Real.cosh_eq]
      generalize Real.exp (Real.log q / 2) = e at *
      generalize Real.exp (-(Real.log q / 2)) = f at *
      have : e * ((e + f) / 2 - x * ((e - f) / 2)) = 0 := by
        linear_combination (1 - x) / 2 * h1 + (1 + x) / 2 * h2 - 1 / 2 * hqm
      rcases mul_eq_zero.mp this with h | h
      · exact absurd h hE.ne'
      · exact sub_eq_zero.mp h
  · intro h
    exact if_pos (abs_le.mp h)

example : R.arcoth (1 / 2) = none := (C38_artanh_arcoth _).2.2.2 (by rw [abs_of_pos] <;> norm_num)

/-- `arsech` panics exactly outside `(0, 1]`; `arcsch` has no value exactly at zero -/
theorem C38_arsech_arcsch (x : ℝ) :
    (0 < x → x ≤ 1 → ∃ y, R.arsech x = some y ∧ R.sech y = some x ∧ 0 ≤ y) ∧
    (x ≤ 0 ∨ 1 < x → R.arsech x = none) ∧
    (x ≠ 0 → ∃ y, R.arcsch x = some y ∧ R.csch y = some x) ∧ (x = 0 → R.arcsch x = none) := by
  refine ⟨?_, fun h => if_pos h, ?_, fun h => if_pos h⟩
  · intro h1 h2
    have h3 : 1 ≤ 1 / x := by rw [le_div_iff₀ h1]; linarith
    obtain ⟨y, a1, a2, a3⟩ := (C38_arsinh_arcosh (1 / x)).2.1 h3
    refine ⟨y, ?_, ?_, a3⟩
    · unfold R.arsech
      rw [if_neg (by rintro (h | h) <;> linarith)]
      exact a1
    · unfold R.sech
      rw [R.div_some (cosh_pos y).ne', a2, one_div_one_div]
  · intro h
    refine ⟨_, if_neg h, ?_⟩
    have hs : sinh (R.arsinh (1 / x)) = 1 / x := sinh_arsinh _
    have hy : R.arsinh (1 / x) ≠ 0 := by
      intro e
      rw [e, sinh_zero] at hs
      exact one_div_ne_zero h hs.symm
    unfold R.csch
    rw [if_neg hy, R.div_some (by rw [hs]; exact one_div_ne_zero h), hs, one_div_one_div]

example : R.arsech 1 = some 0 ∧ R.arsech 2 = none := by
  constructor
  · unfold R.arsech R.arcosh; norm_num
  · exact (C38_arsech_arcsch 2).2.1 (by norm_num)

end Verif
