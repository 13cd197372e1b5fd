import Verif.SpecialModel
import Mathlib.Tactic.FieldSimp
import Mathlib.Tactic.Positivity
import Mathlib.Tactic.Linarith

/-!
# Lemmas on the special functions: the two Lanczos sums are positive
-/

namespace Verif
namespace Special

/-- the Lanczos sum over its common denominator -/
theorem lanczosSum_eq {z : ℝ} (hz : 0 < z) : lanczosSum z =
    ((426207831916787613 / 125000000000) * z ^ 0
       + (40648319250249675489584283 / 9765625000000000000) * z ^ 1
       + (6946501310917629812687579647 / 3125000000000000000000) * z ^ 2
       + (8478621268779175770311451153 / 12500000000000000000000) * z ^ 3
       + (646736292643652766923465573 / 5000000000000000000000) * z ^ 4
       + (15784880456697452186791557 / 1000000000000000000000) * z ^ 5
       + (30095855034716156123603239 / 25000000000000000000000) * z ^ 6
       + (1311458333333588861362569 / 25000000000000000000000) * z ^ 7
       + (99999999999980993 / 100000000000000000) * z ^ 8
      )
      / (z * (z + 1) * (z + 2) * (z + 3) * (z + 4) * (z + 5) * (z + 6) * (z + 7)) := by
  unfold lanczosSum
  have h0 := hz.ne'
  have h1 : z + 1 ≠ 0 := by positivity
  have h2 : z + 2 ≠ 0 := by positivity
  have h3 : z + 3 ≠ 0 := by positivity
  have h4 : z + 4 ≠ 0 := by positivity
  have h5 : z + 5 ≠ 0 := by positivity
  have h6 : z + 6 ≠ 0 := by positivity
  have h7 : z + 7 ≠ 0 := by positivity
  norm_num
  field_simp
  ring

theorem lanczosSum_pos {z : ℝ} (hz : 0 < z) : 0 < lanczosSum z := by
  rw [lanczosSum_eq hz]; positivity

/-- the sum of `ln_gamma` as a real number -/
noncomputable def dkVal (x : ℝ) : ℝ :=
  2.48574089138753565546e-5 + 1.05142378581721974210 / x + (-3.45687097222016235469) / (x + 1) + (4.51227709466894823700) / (x + 2) + (-2.98285225323576655721) / (x + 3) + (1.05639711577126713077) / (x + 4) + (-1.95428773191645869583e-1) / (x + 5) + (1.70970543404441224307e-2) / (x + 6) + (-5.71926117404305781283e-4) / (x + 7) + (4.63399473359905636708e-6) / (x + 8) + (-2.71994908488607703910e-9) / (x + 9)

theorem dkVal_eq {z : ℝ} (hz : 0 < z) : dkVal z =
    ((5961572865583635937707 / 15625000000000000) * z ^ 0
       + (5711021135879016013793486485317 / 15625000000000000000000000) * z ^ 1
       + (98479999683500747719435049943141 / 625000000000000000000000000) * z ^ 2
       + (100634588453566004749160263794579 / 2500000000000000000000000000) * z ^ 3
       + (16871918814836425472465634671089 / 2500000000000000000000000000) * z ^ 4
       + (7758779405455638058915570729641 / 10000000000000000000000000000) * z ^ 5
       + (77431611142776157136186256353 / 1250000000000000000000000000) * z ^ 6
       + (16956831220076502019289392857 / 5000000000000000000000000000) * z ^ 7
       + (304620175911114947669641381 / 2500000000000000000000000000) * z ^ 8
       + (25943405088090502516640409 / 10000000000000000000000000000) * z ^ 9
       + (124287044569376782773 / 5000000000000000000000000) * z ^ 10
      )
      / (z * (z + 1) * (z + 2) * (z + 3) * (z + 4) * (z + 5) * (z + 6) * (z + 7) * (z + 8) * (z + 9)) := by
  unfold dkVal
  have h0 := hz.ne'
  have h1 : z + 1 ≠ 0 := by positivity
  have h2 : z + 2 ≠ 0 := by positivity
  have h3 : z + 3 ≠ 0 := by positivity
  have h4 : z + 4 ≠ 0 := by positivity
  have h5 : z + 5 ≠ 0 := by positivity
  have h6 : z + 6 ≠ 0 := by positivity
  have h7 : z + 7 ≠ 0 := by positivity
  have h8 : z + 8 ≠ 0 := by positivity
  have h9 : z + 9 ≠ 0 := by positivity
  norm_num
  field_simp
  ring

theorem dkVal_pos {z : ℝ} (hz : 0 < z) : 0 < dkVal z := by
  rw [dkVal_eq hz]; positivity

theorem dkSum_eq {x : ℝ} (hx : 0 < x) (den : ℕ → ℝ) (hd : ∀ i : ℕ, 1 ≤ i → den i = x + ((i - 1 : ℕ) : ℝ)) :
    dkSum den = some (dkVal x) := by
  have hp : ∀ i : ℕ, 1 ≤ i → den i ≠ 0 := fun i hi => by rw [hd i hi]; positivity
  have hdiv : ∀ (v : ℝ) (i : ℕ), 1 ≤ i → R.div v (den i) = some (v / (x + ((i - 1 : ℕ) : ℝ))) := by
    intro v i hi
    rw [R.div, if_neg (hp i hi), hd i hi]
  simp [dkSum, gammaDk, List.zipIdx, hdiv, dkVal]

theorem lanczos_pos {z : ℝ} (hz : 0 < z) : 0 < lanczos z := by
  have h := lanczosSum_pos hz
  have ht : (0 : ℝ) < z + 6.5 := by positivity
  have h2 : 0 < Real.sqrt 2 := by positivity
  have h3 : 0 < Real.sqrt Real.pi := Real.sqrt_pos.2 Real.pi_pos
  have h4 : 0 < (z + 6.5) ^ (z - 0.5) := Real.rpow_pos_of_pos ht _
  have h5 := Real.exp_pos (-(z + 6.5))
  unfold lanczos
  positivity

/-- `ln_gamma` for arguments `≥ 0.5` as a real number -/
noncomputable def lnLanczos (x : ℝ) : ℝ :=
  Real.log (dkVal x) + Real.log (2 * (Real.exp 1 / Real.pi) ^ (0.5 : ℝ))
    + (x - 0.5) * Real.log ((x - 0.5 + 10.900511) / Real.exp 1)

theorem ln_of_pos {x : ℝ} (h : 0 < x) : R.ln x = some (Real.log x) := by
  rw [R.ln, if_neg (not_le.2 h)]

theorem div_of_ne {x y : ℝ} (h : y ≠ 0) : R.div x y = some (x / y) := by
  rw [R.div, if_neg h]

theorem lnGamma_of_ge {x : ℝ} (hx : 0.5 ≤ x) : lnGamma x = some (lnLanczos x) := by
  have h0 : (0 : ℝ) < x := by norm_num at hx; linarith
  have hs := dkSum_eq h0 (fun i => x + (i : ℝ) - 1) (fun i hi => by push_cast [hi]; ring)
  have h1 : 0 < 2 * (Real.exp 1 / Real.pi) ^ (0.5 : ℝ) := by have := Real.pi_pos; positivity
  have h2 : 0 < (x - 0.5 + 10.900511) / Real.exp 1 := by
    apply div_pos _ (Real.exp_pos _); norm_num at hx ⊢; linarith
  simp only [lnGamma, not_lt.2 hx, if_false, hs, ln_of_pos (dkVal_pos h0), ln_of_pos h1, ln_of_pos h2,
    Option.bind_eq_bind, Option.bind_some, lnLanczos]

theorem lnGamma_of_lt {x : ℝ} (hx : x < 0.5) (hs : 0 < Real.sin (Real.pi * x)) :
    lnGamma x = some (Real.log Real.pi - Real.log (Real.sin (Real.pi * x)) - lnLanczos (1 - x)) := by
  have h0 : (0 : ℝ) < 1 - x := by norm_num at hx; linarith
  have hd := dkSum_eq h0 (fun i => (i : ℝ) - x) (fun i hi => by push_cast [hi]; ring)
  have h1 : 0 < 2 * (Real.exp 1 / Real.pi) ^ (0.5 : ℝ) := by have := Real.pi_pos; positivity
  have h2 : 0 < (0.5 - x + 10.900511) / Real.exp 1 := by
    apply div_pos _ (Real.exp_pos _); norm_num at hx ⊢; linarith
  simp only [lnGamma, hx, if_true, hd, ln_of_pos (dkVal_pos h0), ln_of_pos h1, ln_of_pos h2, ln_of_pos hs,
    Option.bind_eq_bind, Option.bind_some, lnLanczos, Option.some.injEq]
  have e : (1 - x - 0.5 : ℝ) = 0.5 - x := by norm_num; ring
  rw [e]; ring

theorem lnGamma_of_lt_none {x : ℝ} (hx : x < 0.5) (hs : Real.sin (Real.pi * x) ≤ 0) : lnGamma x = none := by
  simp [lnGamma, hx, R.ln, hs]

theorem sin_pos_of {x : ℝ} (h0 : 0 < x) (h1 : x < 0.5) : 0 < Real.sin (Real.pi * x) := by
  apply Real.sin_pos_of_pos_of_lt_pi (by have := Real.pi_pos; positivity)
  have := Real.pi_pos
  norm_num at h1
  nlinarith

/-- `ln_gamma` of a positive argument has a value -/
theorem lnGamma_of_pos {x : ℝ} (hx : 0 < x) : ∃ v, lnGamma x = some v := by
  by_cases h : x < 0.5
  · exact ⟨_, lnGamma_of_lt h (sin_pos_of hx h)⟩
  · exact ⟨_, lnGamma_of_ge (not_lt.1 h)⟩

theorem gamma_of_ge {x : ℝ} (hx : 0.5 ≤ x) : gamma x = some (lanczos x) := by
  have h0 : x ≠ 0 := by rintro rfl; norm_num at hx
  simp [gamma, h0, not_lt.2 hx]

theorem gamma_of_lt {x : ℝ} (hx : x < 0.5) (hs : Real.sin (Real.pi * x) ≠ 0) :
    gamma x = some (Real.pi / (Real.sin (Real.pi * x) * lanczos (1 - x))) := by
  have h0 : x ≠ 0 := by rintro rfl; simp at hs
  have h1 : (0 : ℝ) < 1 - x := by norm_num at hx; linarith
  simp only [gamma, h0, hx, if_false, if_true]
  exact div_of_ne (mul_ne_zero hs (lanczos_pos h1).ne')

/-- `gamma` of a positive argument is positive -/
theorem gamma_of_pos {x : ℝ} (hx : 0 < x) : ∃ v, gamma x = some v ∧ 0 < v := by
  by_cases h : x < 0.5
  · have hs := sin_pos_of hx h
    refine ⟨_, gamma_of_lt h hs.ne', ?_⟩
    have h1 : (0 : ℝ) < 1 - x := by norm_num at h; linarith
    have := lanczos_pos h1
    have := Real.pi_pos
    positivity
  · exact ⟨_, gamma_of_ge (not_lt.1 h), lanczos_pos hx⟩

end Special
end Verif
