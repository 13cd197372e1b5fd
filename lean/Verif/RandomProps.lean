import Verif.RandomModel
import Mathlib.Analysis.SpecialFunctions.PolarCoord
import Mathlib.MeasureTheory.Function.JacobianOneDim
import Mathlib.Probability.Distributions.Gaussian.Real
import Mathlib.Probability.Distributions.Exponential
import Mathlib.Probability.ProductMeasure

/-!
# C85: random variates

The generator is modelled by independent uniform numbers in `[0, 1)`.
-/

namespace Verif
namespace Stat
open MeasureTheory ProbabilityTheory Set
open scoped ENNReal NNReal

/-- the transformation of the polar method -/
noncomputable def polarX (v : ℝ × ℝ) : ℝ :=
  v.1 * Real.sqrt (-2 * Real.log (v.1 * v.1 + v.2 * v.2) / (v.1 * v.1 + v.2 * v.2))

theorem measurable_polarX : Measurable polarX := by
  unfold polarX
  fun_prop

/-- the open unit disc -/
def disc : Set (ℝ × ℝ) := {v | v.1 * v.1 + v.2 * v.2 < 1}

theorem measurableSet_disc : MeasurableSet disc := by
  unfold disc
  exact measurableSet_lt (by fun_prop) measurable_const

theorem inner_subst (f : ℝ → ℝ≥0∞) (c : ℝ) :
    ∫⁻ r in Ioo (0 : ℝ) 1, ENNReal.ofReal r * f (c * Real.sqrt (-4 * Real.log r)) =
      ∫⁻ ρ in Ioi (0 : ℝ), ENNReal.ofReal (ρ / 2 * Real.exp (-ρ ^ 2 / 2)) * f (c * ρ) := by
  have himg : (fun ρ : ℝ => Real.exp (-ρ ^ 2 / 4)) '' Ioi 0 = Ioo 0 1 := by
    ext r
    constructor
    · rintro ⟨ρ, hρ, rfl⟩
      have : 0 < ρ := hρ
      exact ⟨Real.exp_pos _, by rw [Real.exp_lt_one_iff]; nlinarith [sq_pos_of_pos this]⟩
    · rintro ⟨h0, h1⟩
      have hl : 0 < -4 * Real.log r := by nlinarith [Real.log_neg h0 h1]
      refine ⟨Real.sqrt (-4 * Real.log r), Real.sqrt_pos.2 hl, ?_⟩
      simp only [Real.sq_sqrt hl.le]
      rw [show -(-4 * Real.log r) / 4 = Real.log r by ring, Real.exp_log h0]
  have hinj : InjOn (fun ρ : ℝ => Real.exp (-ρ ^ 2 / 4)) (Ioi 0) := by
    intro a ha b hb h
    have h' := Real.exp_injective h
    have ha' : 0 < a := ha
    have hb' : 0 < b := hb
    exact (pow_left_inj₀ ha'.le hb'.le two_ne_zero).1 (by linarith)
  have hder : ∀ ρ ∈ Ioi (0 : ℝ), HasDerivWithinAt (fun ρ : ℝ => Real.exp (-ρ ^ 2 / 4))
      (-(ρ / 2 * Real.exp (-ρ ^ 2 / 4))) (Ioi 0) ρ := by
    intro ρ _
    have h := (((hasDerivAt_id ρ).pow 2).neg.div_const 4).exp
    refine (h.congr_deriv ?_).hasDerivWithinAt
    simp
    ring
  rw [← himg, lintegral_image_eq_lintegral_abs_deriv_mul measurableSet_Ioi hder hinj]
  refine setLIntegral_congr_fun measurableSet_Ioi fun ρ hρ => ?_
  have hρ' : 0 < ρ := hρ
  have hs : Real.sqrt (-4 * Real.log (Real.exp (-ρ ^ 2 / 4))) = ρ := by
    rw [Real.log_exp, show -4 * (-ρ ^ 2 / 4) = ρ ^ 2 by ring, Real.sqrt_sq hρ'.le]
  simp only [hs]
  rw [← mul_assoc, ← ENNReal.ofReal_mul (abs_nonneg _), abs_neg, abs_of_nonneg (by positivity), mul_assoc, ← Real.exp_add]
  ring_nf

theorem polar_target (F : ℝ × ℝ → ℝ≥0∞) (hF : Measurable F) :
    ∫⁻ p, F p = ∫⁻ θ in Ioo (-Real.pi) Real.pi, ∫⁻ r in Ioi (0 : ℝ), ENNReal.ofReal r * F (r * Real.cos θ, r * Real.sin θ) := by
  rw [← lintegral_comp_polarCoord_symm, polarCoord_target, Measure.volume_eq_prod, ← Measure.prod_restrict]
  rw [lintegral_prod_symm]
  · simp [polarCoord_symm_apply]
  · refine Measurable.aemeasurable ?_
    simp only [polarCoord_symm_apply, smul_eq_mul]
    exact (by fun_prop : Measurable fun p : ℝ × ℝ => ENNReal.ofReal p.1).mul (hF.comp (by fun_prop))

/-- the polar method turns the uniform distribution on the disc into the normal distribution -/
theorem lintegral_polarX (f : ℝ → ℝ≥0∞) (hf : Measurable f) :
    ∫⁻ v in disc, f (polarX v) = ENNReal.ofReal Real.pi * ∫⁻ x, f x ∂(gaussianReal 0 1) := by
  have hL : ∫⁻ v in disc, f (polarX v) = ∫⁻ θ in Ioo (-Real.pi) Real.pi, ∫⁻ ρ in Ioi (0 : ℝ),
      ENNReal.ofReal (ρ / 2 * Real.exp (-ρ ^ 2 / 2)) * f (Real.cos θ * ρ) := by
    rw [← lintegral_indicator measurableSet_disc, polar_target (disc.indicator fun v => f (polarX v))
      ((hf.comp measurable_polarX).indicator measurableSet_disc)]
    refine lintegral_congr fun θ => ?_
    rw [← inner_subst]
    have hu : Ioi (0 : ℝ) = Ioo 0 1 ∪ Ici 1 := by
      ext x; simp only [mem_Ioi, mem_union, mem_Ioo, mem_Ici]
      constructor
      · intro h; rcases lt_or_ge x 1 with h' | h'
        · exact Or.inl ⟨h, h'⟩
        · exact Or.inr h'
      · rintro (h | h) <;> linarith [h]
    have hs : ∀ r : ℝ, r * Real.cos θ * (r * Real.cos θ) + r * Real.sin θ * (r * Real.sin θ) = r ^ 2 := fun r => by
      nlinarith [Real.sin_sq_add_cos_sq θ]
    rw [hu, lintegral_union measurableSet_Ici (by
      rw [Set.disjoint_left]; rintro x ⟨_, h⟩ h'; exact absurd h (not_lt.2 h'))]
    have h2 : ∫⁻ r in Ici (1 : ℝ), ENNReal.ofReal r * disc.indicator (fun v => f (polarX v)) (r * Real.cos θ, r * Real.sin θ) = 0 := by
      rw [setLIntegral_congr_fun (g := fun _ => 0) measurableSet_Ici]
      · simp
      · intro r hr
        have hr' : (1 : ℝ) ≤ r := hr
        have : (r * Real.cos θ, r * Real.sin θ) ∉ disc := by
          simp only [disc, mem_setOf_eq, hs]
          nlinarith
        simp [this]
    rw [h2, add_zero]
    refine setLIntegral_congr_fun measurableSet_Ioo fun r hr => ?_
    have hm : (r * Real.cos θ, r * Real.sin θ) ∈ disc := by
      simp only [disc, mem_setOf_eq, hs]
      nlinarith [hr.1, hr.2]
    simp only [indicator_of_mem hm]
    congr 2
    simp only [polarX, hs]
    rw [Real.log_pow, mul_comm r, mul_assoc]
    congr 1
    nth_rewrite 1 [← Real.sqrt_sq hr.1.le]
    rw [← Real.sqrt_mul (sq_nonneg r)]
    congr 1
    have hr0 : r ≠ 0 := hr.1.ne'
    push_cast
    field_simp
    ring
  have hR : ∫⁻ x, f x ∂(gaussianReal 0 1) = ∫⁻ θ in Ioo (-Real.pi) Real.pi, ∫⁻ ρ in Ioi (0 : ℝ),
      ENNReal.ofReal ρ * (ENNReal.ofReal ((2 * Real.pi)⁻¹ * Real.exp (-ρ ^ 2 / 2)) * f (Real.cos θ * ρ)) := by
    rw [gaussianReal_of_var_ne_zero _ one_ne_zero, lintegral_withDensity_eq_lintegral_mul _ (measurable_gaussianPDF _ _) hf]
    have h1 : ∫⁻ x, (gaussianPDF 0 1 * f) x = ∫⁻ p : ℝ × ℝ, gaussianPDF 0 1 p.1 * f p.1 * gaussianPDF 0 1 p.2 := by
      change _ = ∫⁻ p : ℝ × ℝ, (gaussianPDF 0 1 * f) p.1 * gaussianPDF 0 1 p.2
      rw [Measure.volume_eq_prod, lintegral_prod_mul ((measurable_gaussianPDF _ _).mul hf).aemeasurable
        (measurable_gaussianPDF _ _).aemeasurable, lintegral_gaussianPDF_eq_one _ one_ne_zero, mul_one]
    rw [h1, polar_target _ (by
      have := measurable_gaussianPDF 0 1
      exact ((this.comp measurable_fst).mul (hf.comp measurable_fst)).mul (this.comp measurable_snd))]
    refine lintegral_congr fun θ => ?_
    refine setLIntegral_congr_fun measurableSet_Ioi fun ρ _ => ?_
    simp only
    congr 1
    rw [mul_comm (gaussianPDF 0 1 _), mul_assoc, mul_comm, mul_comm ρ (Real.cos θ)]
    congr 1
    unfold gaussianPDF
    rw [← ENNReal.ofReal_mul (gaussianPDFReal_nonneg _ _ _)]
    congr 1
    simp only [gaussianPDFReal, NNReal.coe_one, mul_one, sub_zero]
    rw [show ∀ a b c d : ℝ, a * b * (c * d) = a * c * (b * d) by intros; ring, ← Real.exp_add, ← mul_inv,
      Real.mul_self_sqrt (by positivity)]
    congr 2
    have := Real.sin_sq_add_cos_sq θ
    field_simp
    nlinarith
  rw [hL, hR, ← lintegral_const_mul' _ _ ENNReal.ofReal_ne_top]
  refine lintegral_congr fun θ => ?_
  rw [← lintegral_const_mul' _ _ ENNReal.ofReal_ne_top]
  refine setLIntegral_congr_fun measurableSet_Ioi fun ρ hρ => ?_
  have hρ' : 0 < ρ := hρ
  rw [← mul_assoc, ← mul_assoc, ← ENNReal.ofReal_mul Real.pi_pos.le, ← ENNReal.ofReal_mul (by positivity)]
  congr 2
  have := Real.pi_pos
  field_simp

/-! ### The generator: independent pairs of uniform numbers -/

/-- the uniform distribution on `[0,1) × [0,1)` -/
noncomputable def unifPair : Measure (ℝ × ℝ) := volume.restrict (Ico 0 1 ×ˢ Ico 0 1)

instance : IsProbabilityMeasure unifPair := ⟨by
  rw [unifPair, Measure.restrict_apply_univ, Measure.volume_eq_prod, Measure.prod_prod]
  simp⟩

/-- the map from the square of generated numbers to `[-1,1)²` -/
def toV (u : ℝ × ℝ) : ℝ × ℝ := (2 * u.1 - 1, 2 * u.2 - 1)

theorem measurable_toV : Measurable toV := by
  unfold toV
  fun_prop

theorem unifPair_toV {D : Set (ℝ × ℝ)} (hD : MeasurableSet D) (hs : D ⊆ disc) :
    unifPair (toV ⁻¹' D) = ENNReal.ofReal (1 / 4) * volume D := by
  have hsub : toV ⁻¹' D ⊆ Ico 0 1 ×ˢ Ico 0 1 := by
    intro u hu
    have h := hs hu
    simp only [disc, toV, mem_setOf_eq] at h
    have h1 : (2 * u.1 - 1) * (2 * u.1 - 1) < 1 := by nlinarith [mul_self_nonneg (2 * u.2 - 1)]
    have h2 : (2 * u.2 - 1) * (2 * u.2 - 1) < 1 := by nlinarith [mul_self_nonneg (2 * u.1 - 1)]
    refine ⟨⟨?_, ?_⟩, ⟨?_, ?_⟩⟩ <;> nlinarith
  rw [unifPair, Measure.restrict_apply (measurable_toV hD), inter_eq_left.2 hsub]
  have e : toV ⁻¹' D = ((2 : ℝ) • ·) ⁻¹' ((fun x => x + ((-1, -1) : ℝ × ℝ)) ⁻¹' D) := by
    ext u
    simp only [mem_preimage, toV, Prod.smul_def, smul_eq_mul, Prod.mk_add_mk]
    rfl
  rw [e, Measure.addHaar_preimage_smul volume two_ne_zero, measure_preimage_add_right]
  congr 2
  simp
  norm_num

/-- the accepted pairs whose variate lies in `B` -/
def hit (d : ℝ × ℝ) (B : Set ℝ) : Set (ℝ × ℝ) :=
  toV ⁻¹' ({v | v.1 * v.1 + v.2 * v.2 ≠ 0} ∩ disc ∩ {v | polarX v * Real.sqrt d.2 + d.1 ∈ B})

theorem measurableSet_hit (d : ℝ × ℝ) {B : Set ℝ} (hB : MeasurableSet B) : MeasurableSet (hit d B) := by
  refine measurable_toV (((measurableSet_eq_fun (by fun_prop) measurable_const).compl.inter measurableSet_disc).inter ?_)
  exact ((measurable_polarX.mul_const _).add_const _) hB

theorem unifPair_hit (μ : ℝ) (v : ℝ≥0) {B : Set ℝ} (hB : MeasurableSet B) :
    unifPair (hit (μ, v) B) = ENNReal.ofReal (Real.pi / 4) * gaussianReal μ v B := by
  have hmB : Measurable fun x : ℝ => x * Real.sqrt v + μ := by fun_prop
  have hDm : MeasurableSet ({w : ℝ × ℝ | w.1 * w.1 + w.2 * w.2 ≠ 0} ∩ disc ∩ {w | polarX w * Real.sqrt v + μ ∈ B}) :=
    ((measurableSet_eq_fun (by fun_prop) measurable_const).compl.inter measurableSet_disc).inter
      (((measurable_polarX.mul_const _).add_const _) hB)
  have hst := unifPair_toV hDm (fun x hx => hx.1.2)
  refine hst.trans ?_
  have h0 : volume ({w : ℝ × ℝ | w.1 * w.1 + w.2 * w.2 ≠ 0} ∩ disc ∩ {w | polarX w * Real.sqrt v + μ ∈ B}) =
      volume (disc ∩ {w | polarX w * Real.sqrt v + μ ∈ B}) := by
    have hsub : disc ∩ {w | polarX w * Real.sqrt v + μ ∈ B} ⊆
        ({w : ℝ × ℝ | w.1 * w.1 + w.2 * w.2 ≠ 0} ∩ disc ∩ {w | polarX w * Real.sqrt v + μ ∈ B}) ∪ {((0, 0) : ℝ × ℝ)} := by
      intro w hw
      by_cases h : w.1 * w.1 + w.2 * w.2 = 0
      · exact Or.inr (Prod.ext (by nlinarith [mul_self_nonneg w.1, mul_self_nonneg w.2])
          (by nlinarith [mul_self_nonneg w.1, mul_self_nonneg w.2]))
      · exact Or.inl ⟨⟨h, hw.1⟩, hw.2⟩
    refine le_antisymm (measure_mono fun w hw => ⟨hw.1.2, hw.2⟩) ((measure_mono hsub).trans ((measure_union_le _ _).trans ?_))
    simp
  have h1 : volume (disc ∩ {w | polarX w * Real.sqrt v + μ ∈ B}) =
      ∫⁻ w in disc, ((fun x : ℝ => x * Real.sqrt v + μ) ⁻¹' B).indicator 1 (polarX w) := by
    have hm : MeasurableSet {w | polarX w * Real.sqrt v + μ ∈ B} := ((measurable_polarX.mul_const _).add_const _) hB
    rw [inter_comm, ← Measure.restrict_apply hm, ← lintegral_indicator_one hm]
    rfl
  rw [h0, h1, lintegral_polarX _ (measurable_one.indicator (hmB hB)), lintegral_indicator_one (hmB hB), ← mul_assoc,
    ← ENNReal.ofReal_mul (by norm_num), ← Measure.map_apply hmB hB]
  congr 2
  · ring
  · have e : (fun x : ℝ => x * Real.sqrt v + μ) = (fun x => x + μ) ∘ fun x => x * Real.sqrt v := rfl
    rw [e, ← Measure.map_map (by fun_prop) (by fun_prop), gaussianReal_map_mul_const, gaussianReal_map_add_const]
    congr 1
    · simp
    · ext
      simp

theorem polarLoop_iff (u : ℕ → ℝ × ℝ) (fuel k : ℕ) (p : ℝ × ℝ) : polarLoop u fuel k = some p ↔
    ∃ j < fuel, (∀ i < j, toV (u (k + i)) ∉ disc) ∧ toV (u (k + j)) ∈ disc ∧
      p = ((toV (u (k + j))).1, (toV (u (k + j))).1 * (toV (u (k + j))).1 + (toV (u (k + j))).2 * (toV (u (k + j))).2) := by
  induction fuel generalizing k with
  | zero => simp [polarLoop]
  | succ n ih =>
    have hd : toV (u k) ∈ disc ↔ ¬ (2 * (u k).1 - 1) * (2 * (u k).1 - 1) + (2 * (u k).2 - 1) * (2 * (u k).2 - 1) ≥ 1 := by
      simp [disc, toV]
    rw [polarLoop]
    split_ifs with h
    · rw [ih]
      have h0 : toV (u k) ∉ disc := fun h' => hd.1 h' h
      constructor
      · rintro ⟨j, hj, h1, h2, h3⟩
        refine ⟨j + 1, by omega, ?_, ?_, ?_⟩
        · intro i hi
          rcases i with _ | i
          · exact h0
          · have := h1 i (by omega)
            rwa [show k + (i + 1) = k + 1 + i by omega]
        · rwa [show k + (j + 1) = k + 1 + j by omega]
        · rwa [show k + (j + 1) = k + 1 + j by omega]
      · rintro ⟨j, hj, h1, h2, h3⟩
        rcases j with _ | j
        · exact absurd h2 h0
        · refine ⟨j, by omega, ?_, ?_, ?_⟩
          · intro i hi
            have := h1 (i + 1) (by omega)
            rwa [show k + (i + 1) = k + 1 + i by omega] at this
          · rwa [show k + (j + 1) = k + 1 + j by omega] at h2
          · rwa [show k + (j + 1) = k + 1 + j by omega] at h3
    · have h0 : toV (u k) ∈ disc := hd.2 h
      constructor
      · intro hp
        simp only [Option.some.injEq] at hp
        exact ⟨0, by omega, by simp, h0, hp.symm⟩
      · rintro ⟨j, hj, h1, h2, h3⟩
        rcases j with _ | j
        · rw [h3]; rfl
        · exact absurd h0 (h1 0 (by omega))

/-- The variate returned for given generated numbers is the transform of the first pair inside of the disc. -/
theorem C85_normal_value (d : ℝ × ℝ) (u : ℕ → ℝ × ℝ) (fuel : ℕ) (x : ℝ) : normalRandom d u fuel = some x ↔
    ∃ j < fuel, (∀ i < j, toV (u i) ∉ disc) ∧ toV (u j) ∈ disc ∧ toV (u j) ≠ 0 ∧
      x = polarX (toV (u j)) * Real.sqrt d.2 + d.1 := by
  have hz : ∀ w : ℝ × ℝ, w.1 * w.1 + w.2 * w.2 = 0 ↔ w = 0 := by
    intro w
    constructor
    · intro hw
      have h1 : w.1 = 0 := by nlinarith [mul_self_nonneg w.1, mul_self_nonneg w.2]
      have h2 : w.2 = 0 := by nlinarith [mul_self_nonneg w.1, mul_self_nonneg w.2]
      exact Prod.ext h1 h2
    · rintro rfl; simp
  unfold normalRandom
  simp only [Option.bind_eq_bind, Option.bind_eq_some_iff, polarLoop_iff, zero_add]
  constructor
  · rintro ⟨p, ⟨j, hj, h1, h2, rfl⟩, h3⟩
    split_ifs at h3 with h4
    exact ⟨j, hj, h1, h2, fun h => h4 ((hz _).2 h), by simpa [polarX] using h3.symm⟩
  · rintro ⟨j, hj, h1, h2, h3, rfl⟩
    refine ⟨_, ⟨j, hj, h1, h2, rfl⟩, ?_⟩
    rw [if_neg (fun h => h3 ((hz _).1 h))]
    rfl

theorem unifPair_reject : unifPair (toV ⁻¹' disc)ᶜ = 1 - ENNReal.ofReal (Real.pi / 4) := by
  have hm := measurable_toV measurableSet_disc
  rw [measure_compl hm (measure_ne_top _ _), measure_univ, unifPair_toV measurableSet_disc (le_refl _)]
  congr 1
  have h := lintegral_polarX (fun _ => 1) measurable_const
  simp only [lintegral_const, Measure.restrict_apply_univ, measure_univ, one_mul, mul_one] at h
  rw [h, ← ENNReal.ofReal_mul (by norm_num)]
  congr 1
  ring

/-- With independent uniform numbers, `random` of the normal distribution has exactly the normal distribution: the
probability that the loop ends and the value lies in `B` is the Gaussian measure of `B`; for `B = ℝ` it is `1`. -/
theorem C85_normal (μ : ℝ) (v : ℝ≥0) {B : Set ℝ} (hB : MeasurableSet B) :
    Measure.infinitePi (fun _ : ℕ => unifPair) {u | ∃ fuel x, normalRandom (μ, v) u fuel = some x ∧ x ∈ B} =
      gaussianReal μ v B := by
  set P := Measure.infinitePi (fun _ : ℕ => unifPair)
  set S : ℕ → Set (ℕ → ℝ × ℝ) := fun k => Set.pi (Finset.range (k + 1))
    (fun i => if i = k then hit (μ, v) B else (toV ⁻¹' disc)ᶜ) with hS
  have hz : ∀ w : ℝ × ℝ, w.1 * w.1 + w.2 * w.2 = 0 ↔ w = 0 := by
    intro w
    constructor
    · intro hw
      have h1 : w.1 = 0 := by nlinarith [mul_self_nonneg w.1, mul_self_nonneg w.2]
      have h2 : w.2 = 0 := by nlinarith [mul_self_nonneg w.1, mul_self_nonneg w.2]
      exact Prod.ext h1 h2
    · rintro rfl; simp
  have mem : ∀ k u, u ∈ S k ↔ (∀ i < k, toV (u i) ∉ disc) ∧ u k ∈ hit (μ, v) B := by
    intro k u
    simp only [hS, Set.mem_pi, Finset.coe_range, mem_Iio]
    constructor
    · intro h
      refine ⟨fun i hi => ?_, by simpa using h k (by omega)⟩
      have := h i (by omega)
      rwa [if_neg (by omega)] at this
    · rintro ⟨h1, h2⟩ i hi
      split_ifs with e
      · rwa [e]
      · exact h1 i (by omega)
  have hE : {u | ∃ fuel x, normalRandom (μ, v) u fuel = some x ∧ x ∈ B} = ⋃ k, S k := by
    ext u
    simp only [mem_setOf_eq, C85_normal_value, mem_iUnion, mem]
    constructor
    · rintro ⟨fuel, x, ⟨j, hj, h1, h2, h3, rfl⟩, h4⟩
      exact ⟨j, h1, ⟨fun h => h3 ((hz _).1 h), h2⟩, h4⟩
    · rintro ⟨k, h1, ⟨h2, h3⟩, h4⟩
      exact ⟨k + 1, _, ⟨k, by omega, h1, h3, fun h => h2 ((hz _).2 h), rfl⟩, h4⟩
  have hm : ∀ k, ∀ i ∈ Finset.range (k + 1), MeasurableSet ((fun i => if i = k then hit (μ, v) B else (toV ⁻¹' disc)ᶜ) i) := by
    intro k i _
    simp only
    split_ifs
    · exact measurableSet_hit _ hB
    · exact (measurable_toV measurableSet_disc).compl
  have hdisj : Pairwise (Function.onFun Disjoint S) := by
    have key : ∀ a b, a < b → Disjoint (S a) (S b) := by
      intro a b hab
      rw [Set.disjoint_left]
      intro u ha hb
      exact ((mem b u).1 hb).1 a hab ((mem a u).1 ha).2.1.2
    intro a b hab
    rcases lt_or_gt_of_ne hab with h | h
    · exact key a b h
    · exact (key b a h).symm
  have hP : ∀ k, P (S k) = (1 - ENNReal.ofReal (Real.pi / 4)) ^ k * (ENNReal.ofReal (Real.pi / 4) * gaussianReal μ v B) := by
    intro k
    rw [hS, Measure.infinitePi_pi _ (hm k), Finset.prod_range_succ]
    simp only [if_true]
    rw [unifPair_hit μ v hB]
    congr 1
    rw [Finset.prod_congr rfl (g := fun _ => 1 - ENNReal.ofReal (Real.pi / 4)), Finset.prod_const, Finset.card_range]
    intro i hi
    rw [if_neg (by have := Finset.mem_range.1 hi; omega), unifPair_reject]
  rw [hE, measure_iUnion hdisj fun k => MeasurableSet.pi (Finset.countable_toSet _) fun i hi => hm k i (by simpa using hi)]
  simp only [hP]
  rw [ENNReal.tsum_mul_right, ENNReal.tsum_geometric, ENNReal.sub_sub_cancel ENNReal.one_ne_top, ← mul_assoc,
    ENNReal.inv_mul_cancel, one_mul]
  · simp [Real.pi_pos]
  · exact ENNReal.ofReal_ne_top
  · rw [ENNReal.ofReal_le_one]
    linarith [Real.pi_le_four]

/-- the generator can return a pair for which the result is a NaN: both numbers `1/2` -/
theorem C85_nan_violated (d : ℝ × ℝ) (u : ℕ → ℝ × ℝ) (h : u 0 = (1/2, 1/2)) (fuel : ℕ) : normalRandom d u fuel = none := by
  by_contra hc
  obtain ⟨x, hx⟩ := Option.ne_none_iff_exists'.1 hc
  obtain ⟨j, -, h1, h2, h3, -⟩ := (C85_normal_value d u fuel x).1 hx
  have h0 : toV (u 0) = 0 := by rw [h]; simp [toV]
  rcases j with _ | j
  · exact h3 h0
  · exact h1 0 (by omega) (by rw [h0]; simp [disc])

/-- `random` of the exponential distribution with a uniform number in `[0, 1)` always returns and has exactly the exponential
distribution. -/
theorem C85_exponential {l : ℝ} (hl : 0 < l) {B : Set ℝ} (hB : MeasurableSet B) :
    (∀ y ∈ Ico (0 : ℝ) 1, expoRandom l y = some (-Real.log (1 - y) / l)) ∧
    volume {y | y ∈ Ico (0 : ℝ) 1 ∧ ∃ x, expoRandom l y = some x ∧ x ∈ B} = expMeasure l B := by
  have hval : ∀ y ∈ Ico (0 : ℝ) 1, expoRandom l y = some (-Real.log (1 - y) / l) := by
    intro y hy
    rw [expoRandom, expoQuantile, if_neg (by linarith [hy.2])]
  refine ⟨hval, ?_⟩
  have hm : Measurable fun y : ℝ => -Real.log (1 - y) / l := by fun_prop
  have e : {y | y ∈ Ico (0 : ℝ) 1 ∧ ∃ x, expoRandom l y = some x ∧ x ∈ B} =
      (fun y : ℝ => -Real.log (1 - y) / l) ⁻¹' B ∩ Ico 0 1 := by
    ext y
    constructor
    · rintro ⟨hy, x, h1, h2⟩
      rw [hval y hy] at h1
      cases h1
      exact ⟨h2, hy⟩
    · rintro ⟨h2, hy⟩
      exact ⟨hy, _, hval y hy, h2⟩
  have := isProbabilityMeasure_expMeasure hl
  rw [e, ← Measure.restrict_apply (hm hB), ← Measure.map_apply hm hB]
  suffices h : Measure.map (fun y : ℝ => -Real.log (1 - y) / l) (volume.restrict (Ico 0 1)) = expMeasure l by rw [h]
  refine Measure.ext_of_Iic _ _ fun t => ?_
  rw [Measure.map_apply hm measurableSet_Iic, Measure.restrict_apply (hm measurableSet_Iic), ← ofReal_cdf,
    cdf_expMeasure_eq hl]
  by_cases ht : 0 ≤ t
  · rw [if_pos ht]
    have e2 : (fun y : ℝ => -Real.log (1 - y) / l) ⁻¹' Iic t ∩ Ico 0 1 = Icc 0 (1 - Real.exp (-(l * t))) := by
      ext y
      simp only [mem_inter_iff, mem_preimage, mem_Iic, mem_Ico, mem_Icc]
      constructor
      · rintro ⟨h1, h2, h3⟩
        refine ⟨h2, ?_⟩
        rw [div_le_iff₀ hl] at h1
        have := (Real.le_log_iff_exp_le (by linarith : 0 < 1 - y)).1 (by linarith : -(l * t) ≤ Real.log (1 - y))
        linarith
      · rintro ⟨h1, h2⟩
        have hp := Real.exp_pos (-(l * t))
        refine ⟨?_, h1, by linarith⟩
        rw [div_le_iff₀ hl]
        have := (Real.le_log_iff_exp_le (by linarith : 0 < 1 - y)).2 (by linarith : Real.exp (-(l * t)) ≤ 1 - y)
        linarith
    rw [e2, Real.volume_Icc, sub_zero]
  · rw [if_neg ht]
    have e2 : (fun y : ℝ => -Real.log (1 - y) / l) ⁻¹' Iic t ∩ Ico 0 1 = ∅ := by
      ext y
      simp only [mem_inter_iff, mem_preimage, mem_Iic, mem_Ico, mem_empty_iff_false, iff_false]
      rintro ⟨h1, h2, h3⟩
      rw [div_le_iff₀ hl] at h1
      have := Real.log_nonpos (by linarith : 0 ≤ 1 - y) (by linarith)
      have h4 : t * l < 0 := mul_neg_of_neg_of_pos (not_le.1 ht) hl
      linarith
    rw [e2]
    simp

/-- `random_sequence` returns `size` variates, the results of the successive calls. -/
theorem C85_sequence (draw : ℕ → Option ℝ) (size : ℕ) (l : List ℝ) :
    randomSequence draw size = some l ↔ l.length = size ∧ ∀ i (h : i < l.length), draw i = some l[i] := by
  have key : ∀ (n k : ℕ) (l : List ℝ), (List.range' k n).mapM draw = some l ↔
      l.length = n ∧ ∀ i (h : i < l.length), draw (k + i) = some l[i] := by
    intro n
    induction n with
    | zero =>
      intro k l
      cases l <;> simp
    | succ n ih =>
      intro k l
      rw [List.range'_succ, List.mapM_cons]
      simp only [Option.bind_eq_bind, Option.bind_eq_some_iff, Option.pure_def, Option.some.injEq]
      constructor
      · rintro ⟨a, h1, b, h2, rfl⟩
        obtain ⟨h3, h4⟩ := (ih (k + 1) b).1 h2
        refine ⟨by simp [h3], fun i hi => ?_⟩
        rcases i with _ | i
        · simpa using h1
        · have := h4 i (by simpa using hi)
          rw [show k + (i + 1) = k + 1 + i by omega, this]
          simp
      · rintro ⟨h1, h2⟩
        rcases l with _ | ⟨a, b⟩
        · simp at h1
        · refine ⟨a, h2 0 (by simp), b, (ih (k + 1) b).2 ⟨by simpa using h1, fun i hi => ?_⟩, rfl⟩
          have := h2 (i + 1) (by simpa using hi)
          rw [show k + 1 + i = k + (i + 1) by omega, this]
          simp
  unfold randomSequence
  rw [List.range_eq_range', key]
  simp

example : randomSequence (fun k => some (k + 1)) 3 = some [1, 2, 3] := by
  rw [C85_sequence]
  refine ⟨rfl, fun i hi => ?_⟩
  have : i = 0 ∨ i = 1 ∨ i = 2 := by simp at hi; omega
  rcases this with rfl | rfl | rfl <;> norm_num

/-- A first pair outside of the disc and a second one inside. -/
example : normalRandom (1, 4) (fun k => if k = 0 then (0, 0) else (3/4, 1/2)) 2 =
    some (1/2 * Real.sqrt (-2 * Real.log (1/4) / (1/4)) * Real.sqrt 4 + 1) := by
  rw [C85_normal_value]
  refine ⟨1, by omega, ?_, ?_, ?_, ?_⟩
  · intro i hi
    have : i = 0 := by omega
    subst this
    simp [toV, disc]
  · simp [toV, disc]
    norm_num
  · simp [toV]
    norm_num
  · simp only [toV, polarX, one_ne_zero, if_false]
    norm_num1
    rfl

end Stat
end Verif
