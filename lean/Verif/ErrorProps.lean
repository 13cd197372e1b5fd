import Verif.IncGammaProps
import Mathlib.Topology.Order.IntermediateValue
import Mathlib.Topology.Algebra.Polynomial

/-!
# C50, C70: the error function and its inverse
-/

namespace Verif
namespace Special
open Finset

theorem sgn_neg {x : ℝ} (hx : x ≠ 0) : sgn (-x) = -sgn x := by
  rcases lt_or_gt_of_ne hx with h | h
  · have h1 : ¬ x > 0 := by linarith
    have h2 : ¬ (x ≥ 0 ∧ x ≤ 0) := fun h' => by linarith [h'.1]
    simp [sgn, h, h1, h2]
  · have h1 : ¬ -x > 0 := by linarith
    have h2 : ¬ (-x ≥ 0 ∧ -x ≤ 0) := fun h' => by linarith [h'.1]
    rw [sgn, if_neg h1, if_neg h2, sgn, if_pos h]

/-- `erf` is odd, zero at zero, and complementary to `erfc`, for all arguments and without error. -/
theorem C50_erf (n : ℕ) (x : ℝ) :
    erf n 0 = some 0 ∧ erf n (-x) = (erf n x).map (fun v => -v) ∧
    (∀ e c, erf n x = some e → erfc n x = some c → e + c = 1) ∧
    erfc n (-x) = (erfc n x).map (fun c => 2 - c) := by
  have hodd : erf n (-x) = (erf n x).map (fun v => -v) := by
    by_cases h : x = 0
    · simp [erf, h]
    · simp only [erf, h, neg_eq_zero, if_false, neg_mul_neg, sgn_neg h, Option.bind_eq_bind]
      cases gammaU n 0.5 (x * x) with
      | none => rfl
      | some u => simp
  refine ⟨by simp [erf], hodd, ?_, ?_⟩
  · intro e c h1 h2
    simp only [erfc, h1, Option.bind_eq_bind, Option.bind_some, Option.some.injEq] at h2
    rw [← h2]; ring
  · simp only [erfc, hodd]
    cases erf n x with
    | none => rfl
    | some v => simp; ring

/-- `erf` and `erfc` have a value for every real argument. -/
theorem C50_total (x : ℝ) : ∃ N e, ∀ n, N ≤ n → erf n x = some e ∧ erfc n x = some (1 - e) := by
  by_cases h : x = 0
  · exact ⟨0, 0, fun n _ => by simp [erf, erfc, h]⟩
  · obtain ⟨N, l, u, g, hN, _, _⟩ := C49_total 0.5 (x * x) (by norm_num)
      (lt_of_le_of_ne (mul_self_nonneg x) (Ne.symm (mul_self_ne_zero.2 h)))
    refine ⟨N, sgn x * (1 - u / Real.sqrt Real.pi), fun n hn => ?_⟩
    have := (hN n hn).2
    simp [erf, erfc, h, this]

example : ∃ N e, ∀ n, N ≤ n → erf n 2.5 = some e ∧ erfc n 2.5 = some (1 - e) := C50_total 2.5

theorem erfinvFin_neg (T : Tables) (x : ℝ) : erfinvFin T (-x) = (erfinvFin T x).map (fun v => -v) := by
  have hdiv : ∀ p q : ℝ, R.div (-p) q = (R.div p q).map (fun v => -v) := by
    intro p q
    unfold R.div
    split_ifs
    · rfl
    · simp [neg_div]
  have hdiv' : ∀ p q : ℝ, R.div p (-q) = (R.div p q).map (fun v => -v) := by
    intro p q
    unfold R.div
    by_cases h : q = 0
    · simp [h]
    · simp [h, div_neg]
  unfold erfinvFin
  simp only [abs_neg, neg_mul_neg]
  split_ifs with h1 h2
  · cases horner (x * x - 0.5625) T.p1 with
    | none => rfl
    | some p =>
      cases horner (x * x - 0.5625) T.q1 with
      | none => rfl
      | some q => simp [hdiv]
  · cases horner (x * x - 0.87890625) T.p2 with
    | none => rfl
    | some p =>
      cases horner (x * x - 0.87890625) T.q2 with
      | none => rfl
      | some q => simp [hdiv]
  · have hx : x ≠ 0 := by rintro rfl; norm_num at h1
    have hc : ∀ t, 0 < t → copysign t (-x) = -copysign t x := by
      intro t ht
      rcases lt_or_gt_of_ne hx with h | h
      · simp [copysign, not_lt.2 ht.le, h, h.le]
      · simp [copysign, not_lt.2 ht.le, h, h.le]
    cases hl : R.ln (1 - |x|) with
    | none => rfl
    | some l =>
      simp only [Option.bind_eq_bind, Option.bind_some]
      by_cases h0 : Real.sqrt (-l) = 0
      · simp [R.div, h0]
      · rw [div_of_ne h0]
        have ht : 0 < 1 / Real.sqrt (-l) := by
          have := lt_of_le_of_ne (Real.sqrt_nonneg (-l)) (Ne.symm h0)
          positivity
        simp only [Option.bind_some]
        cases horner (1 / Real.sqrt (-l)) T.p3 with
        | none => rfl
        | some p =>
          cases horner (1 / Real.sqrt (-l)) T.q3 with
          | none => rfl
          | some q =>
            simp only [Option.bind_some, hc _ ht, neg_mul, hdiv']

/-- `erfinv` is odd for both float types (also at the infinities), panics outside of `[-1, 1]`, and `erfcinv x` is
`erfinv (1 - x)`, with a panic outside of `[0, 2]`. -/
theorem C50_erfinv (T : Tables) (x : ℝ) :
    erfinv T (-x) = (erfinv T x).map (fun v => -v) ∧ (1 < |x| → erfinv T x = none) ∧
    erfinv T 1 = some ⊤ ∧ erfinv T (-1) = some ⊥ ∧
    erfcinv T x = (if x < 0 ∨ x > 2 then none else erfinv T (1 - x)) ∧
    (x < 0 ∨ 2 < x → erfcinv T x = none) := by
  refine ⟨?_, ?_, by simp [erfinv], ?_, rfl, fun h => by simp only [erfcinv]; rw [if_pos h]⟩
  · by_cases h1 : x = 1
    · rw [h1]; norm_num [erfinv]
    by_cases h2 : x = -1
    · rw [h2]; norm_num [erfinv]
    have h3 : -x ≠ 1 := fun h => h2 (by linarith)
    have h4 : -x ≠ -1 := fun h => h1 (by linarith)
    simp only [erfinv, abs_neg, h1, h2, h3, h4, if_false]
    split_ifs with h5
    · rfl
    · rw [erfinvFin_neg]
      cases erfinvFin T x <;> simp
  · intro h
    have h1 : x ≠ 1 := by rintro rfl; norm_num at h
    have h2 : x ≠ -1 := by rintro rfl; norm_num at h
    simp [erfinv, h.le, h1, h2]
  · norm_num [erfinv]

/-! ## C70: the values of `erfinv` -/

/-- `horner` evaluates the polynomial, for all tables with at least two entries. -/
theorem C70_horner (x : ℝ) (c : List ℝ) (hc : 2 ≤ c.length) :
    horner x c = some (∑ i ∈ range c.length, c.getD i 0 * x ^ i) := by
  obtain ⟨m, hm⟩ : ∃ m, c.length = m + 2 := ⟨c.length - 2, by omega⟩
  have hne : c.length ≠ 0 := by omega
  have key : ∀ (k : ℕ) (f : ℝ), (List.range' 1 k).reverse.foldl (fun f i => (f + c.getD i 0) * x) f
      = f * x ^ k + ∑ i ∈ range k, c.getD (i + 1) 0 * x ^ (i + 1) := by
    intro k
    induction k with
    | zero => intro f; simp
    | succ k ih =>
      intro f
      rw [List.range'_concat, List.reverse_append]
      simp only [List.reverse_cons, List.reverse_nil, List.nil_append, List.singleton_append, List.foldl_cons,
        one_mul]
      rw [ih, sum_range_succ, add_comm 1 k]
      ring
  unfold horner
  simp only [hne, if_false, key]
  rw [hm, sum_range_succ', sum_range_succ]
  have e1 : m + 2 - 1 = m + 1 := rfl
  have e2 : m + 1 - 1 = m := rfl
  rw [e1, e2]
  simp only [Option.some.injEq, pow_zero, mul_one]
  ring

example (x : ℝ) : horner x [5, 4, 3] = some (5 + 4 * x + 3 * x ^ 2) := by
  rw [C70_horner x _ (by simp)]; simp [sum_range_succ]

theorem copysign_pos {t x : ℝ} (ht : 0 < t) (hx : 0 < x) : copysign t x = t := by
  simp [copysign, not_lt.2 ht.le, not_lt.2 hx.le]

/-- the third argument of `erfinv` is positive and smaller than 1 -/
theorem third_arg {x : ℝ} (h1 : 0.9375 < |x|) (h2 : |x| < 1) :
    ∃ l, R.ln (1 - |x|) = some l ∧ 0 < Real.sqrt (-l) := by
  have h3 : 0 < 1 - |x| := by linarith
  refine ⟨_, ln_of_pos h3, ?_⟩
  apply Real.sqrt_pos.2
  have : Real.log (1 - |x|) < 0 := Real.log_neg h3 (by norm_num at h1; linarith)
  linarith

theorem horner_pos_of {c : List ℝ} {x : ℝ} (hc : 2 ≤ c.length) (h : 0 < ∑ i ∈ range c.length, c.getD i 0 * x ^ i) :
    ∃ p, horner x c = some p ∧ 0 < p := ⟨_, C70_horner x c hc, h⟩

theorem horner_neg_of {c : List ℝ} {x : ℝ} (hc : 2 ≤ c.length) (h : 0 < -∑ i ∈ range c.length, c.getD i 0 * x ^ i) :
    ∃ p, horner x c = some p ∧ p < 0 := ⟨_, C70_horner x c hc, by linarith⟩

theorem p1_64 {t : ℝ} (ht : 0 ≤ t) : ∃ p, horner (-t) f64Leq075P = some p ∧ 0 < p := by
  apply horner_pos_of (by simp [f64Leq075P])
  simp only [f64Leq075P, List.length_cons, List.length_nil, sum_range_succ, range_zero, sum_empty,
    List.getD_cons_zero, List.getD_cons_succ]
  norm_num [neg_pow]
  positivity

theorem q1_64 {t : ℝ} (ht : 0 ≤ t) : ∃ p, horner (-t) f64Leq075Q = some p ∧ 0 < p := by
  apply horner_pos_of (by simp [f64Leq075Q])
  simp only [f64Leq075Q, List.length_cons, List.length_nil, sum_range_succ, range_zero, sum_empty,
    List.getD_cons_zero, List.getD_cons_succ]
  norm_num [neg_pow]
  positivity

theorem p2_64 {t : ℝ} (ht : 0 ≤ t) : ∃ p, horner (-t) f64Leq09375P = some p ∧ p < 0 := by
  apply horner_neg_of (by simp [f64Leq09375P])
  simp only [f64Leq09375P, List.length_cons, List.length_nil, sum_range_succ, range_zero, sum_empty,
    List.getD_cons_zero, List.getD_cons_succ]
  norm_num [neg_pow]
  ring_nf
  positivity

theorem q2_64 {t : ℝ} (ht : 0 ≤ t) : ∃ p, horner (-t) f64Leq09375Q = some p ∧ p < 0 := by
  apply horner_neg_of (by simp [f64Leq09375Q])
  simp only [f64Leq09375Q, List.length_cons, List.length_nil, sum_range_succ, range_zero, sum_empty,
    List.getD_cons_zero, List.getD_cons_succ]
  norm_num [neg_pow]
  ring_nf
  positivity

theorem p3_64 {t : ℝ} (ht : 0 ≤ t) : ∃ p, horner t f64P = some p ∧ 0 < p := by
  apply horner_pos_of (by simp [f64P])
  simp only [f64P, List.length_cons, List.length_nil, sum_range_succ, range_zero, sum_empty,
    List.getD_cons_zero, List.getD_cons_succ]
  positivity

theorem q3_64 {t : ℝ} (ht : 0 ≤ t) : ∃ p, horner t f64Q = some p ∧ 0 < p := by
  apply horner_pos_of (by simp [f64Q])
  simp only [f64Q, List.length_cons, List.length_nil, sum_range_succ, range_zero, sum_empty,
    List.getD_cons_zero, List.getD_cons_succ]
  positivity

theorem erfinvFin64 {x : ℝ} (h0 : 0 ≤ x) (h1 : x < 1) : ∃ v : ℝ, erfinvFin tables64 x = some v ∧ (0 < x → 0 < v) := by
  have habs : |x| = x := abs_of_nonneg h0
  unfold erfinvFin
  simp only [habs, tables64]
  split_ifs with h2 h3
  · obtain ⟨t, ht, e⟩ : ∃ t : ℝ, 0 ≤ t ∧ x * x - 0.5625 = -t := by
      refine ⟨0.5625 - x * x, ?_, by ring⟩
      norm_num at h2 ⊢; nlinarith
    obtain ⟨p, hp, pp⟩ := p1_64 ht
    obtain ⟨q, hq, pq⟩ := q1_64 ht
    rw [e]
    simp only [hp, hq, Option.bind_eq_bind, Option.bind_some]
    exact ⟨_, div_of_ne pq.ne', fun hx => by positivity⟩
  · obtain ⟨t, ht, e⟩ : ∃ t : ℝ, 0 ≤ t ∧ x * x - 0.87890625 = -t := by
      refine ⟨0.87890625 - x * x, ?_, by ring⟩
      norm_num at h3 ⊢; nlinarith
    obtain ⟨p, hp, pp⟩ := p2_64 ht
    obtain ⟨q, hq, pq⟩ := q2_64 ht
    rw [e]
    simp only [hp, hq, Option.bind_eq_bind, Option.bind_some]
    exact ⟨_, div_of_ne pq.ne, fun hx => div_pos_of_neg_of_neg (mul_neg_of_pos_of_neg hx pp) pq⟩
  · have hx : 0 < x := by
      norm_num at h3; linarith
    obtain ⟨l, hl, hs⟩ := third_arg (x := x) (by rw [habs]; exact not_le.1 h3) (by rw [habs]; exact h1)
    rw [habs] at hl
    simp only [hl, Option.bind_eq_bind, Option.bind_some, div_of_ne hs.ne']
    have ht : 0 < 1 / Real.sqrt (-l) := by positivity
    generalize 1 / Real.sqrt (-l) = t at ht
    obtain ⟨p, hp, pp⟩ := p3_64 ht.le
    obtain ⟨q, hq, pq⟩ := q3_64 ht.le
    rw [copysign_pos ht hx]
    simp only [hp, hq, Option.bind_some]
    exact ⟨_, div_of_ne (by positivity), fun _ => by positivity⟩

/-- `erfinv` of `f64` panics exactly outside of `[-1, 1]`, and has the sign of its argument. -/
theorem C70_f64 (x : ℝ) : (erfinv tables64 x = none ↔ 1 < |x|) ∧
    (0 < x → x < 1 → ∃ v : ℝ, erfinv tables64 x = some (v : EReal) ∧ 0 < v) ∧
    (-1 < x → x < 0 → ∃ v : ℝ, erfinv tables64 x = some (v : EReal) ∧ v < 0) := by
  have fin : ∀ y : ℝ, 0 ≤ y → y < 1 → ∃ v : ℝ, erfinv tables64 y = some (v : EReal) ∧ (0 < y → 0 < v) := by
    intro y h0 h1
    obtain ⟨v, hv, hp⟩ := erfinvFin64 h0 h1
    refine ⟨v, ?_, hp⟩
    simp [erfinv, abs_of_nonneg h0, not_le.2 h1, hv]
  have neg : -1 < x → x < 0 → ∃ v : ℝ, erfinv tables64 x = some (v : EReal) ∧ v < 0 := by
    intro h0 h1
    obtain ⟨v, hv, hp⟩ := fin (-x) (by linarith) (by linarith)
    have := (C50_erfinv tables64 (-x)).1
    rw [neg_neg, hv] at this
    exact ⟨-v, by rw [this]; simp, by linarith [hp (by linarith)]⟩
  refine ⟨⟨?_, (C50_erfinv tables64 x).2.1⟩, fun h0 h1 => ?_, neg⟩
  · intro h
    by_contra hc
    push Not at hc
    rcases lt_or_ge x 0 with h0 | h0
    · rw [abs_of_neg h0] at hc
      rcases lt_or_eq_of_le hc with h1 | h1
      · obtain ⟨v, hv, _⟩ := neg (by linarith) h0
        rw [hv] at h; simp at h
      · rw [show x = -1 by linarith, (C50_erfinv tables64 0).2.2.2.1] at h; simp at h
    · rw [abs_of_nonneg h0] at hc
      rcases lt_or_eq_of_le hc with h1 | h1
      · obtain ⟨v, hv, _⟩ := fin x h0 h1
        rw [hv] at h; simp at h
      · rw [h1, (C50_erfinv tables64 0).2.2.1] at h; simp at h
  · obtain ⟨v, hv, hp⟩ := fin x h0.le h1
    exact ⟨v, hv, hp h0⟩

example : ∃ v : ℝ, erfinv tables64 0.8 = some (v : EReal) ∧ 0 < v := (C70_f64 0.8).2.1 (by norm_num) (by norm_num)

/-- `erfinv` of `f32` is wrong: at `0.9375` the value is smaller than `-1.3` (the inverse error function is about
`1.317` there), so the sign is wrong, and the denominator of the second range has a zero in it, where the function has
no finite value although `|x| < 1`. -/
theorem C70_f32_violated :
    (∃ v : ℝ, erfinv tables32 0.9375 = some (v : EReal) ∧ v < -1.3) ∧
    (∃ x : ℝ, 0.75 < x ∧ x < 0.9375 ∧ erfinv tables32 x = none) := by
  constructor
  · have e : (0.9375 * 0.9375 - 0.87890625 : ℝ) = 0 := by norm_num
    have hp : horner 0 f32Leq09375P = some (-0.124025652212) := by
      rw [C70_horner _ _ (by simp [f32Leq09375P])]
      simp [f32Leq09375P, sum_range_succ]
    have hq : horner 0 f32Leq09375Q = some 0.08827697997 := by
      rw [C70_horner _ _ (by simp [f32Leq09375Q])]
      simp [f32Leq09375Q, sum_range_succ]
    have h : erfinvFin tables32 0.9375 = some (0.9375 * (-0.124025652212) / 0.08827697997) := by
      have h1 : ¬ |(0.9375 : ℝ)| ≤ 0.75 := by rw [abs_of_pos (by norm_num)]; norm_num
      have h2 : |(0.9375 : ℝ)| ≤ 0.9375 := by rw [abs_of_pos (by norm_num)]
      simp only [erfinvFin, h1, h2, if_false, if_true, e, tables32, hp, hq, Option.bind_eq_bind, Option.bind_some]
      exact div_of_ne (by norm_num)
    refine ⟨0.9375 * (-0.124025652212) / 0.08827697997, ?_, ?_⟩
    · have h3 : ¬ |(0.9375 : ℝ)| ≥ 1 := by rw [abs_of_pos (by norm_num)]; norm_num
      simp only [erfinv, h3, if_false, h, Option.bind_eq_bind, Option.bind_some]
    · norm_num
  · have hq : ∀ t : ℝ, horner t f32Leq09375Q
        = some (0.08827697997 + 0.8900743359 * t + -2.17570311960 * t ^ 2 + t ^ 3) := by
      intro t
      rw [C70_horner _ _ (by simp [f32Leq09375Q])]
      simp [f32Leq09375Q, sum_range_succ]; norm_num
    have hp : ∀ t : ℝ, ∃ p, horner t f32Leq09375P = some p := fun t => ⟨_, C70_horner _ _ (by simp [f32Leq09375P])⟩
    let g : ℝ → ℝ := fun x => 0.08827697997 + 0.8900743359 * (x * x - 0.87890625)
      + -2.17570311960 * (x * x - 0.87890625) ^ 2 + (x * x - 0.87890625) ^ 3
    have hg : ContinuousOn g (Set.Icc 0.75 0.9375) := by
      apply Continuous.continuousOn; simp only [g]; fun_prop
    have h0 : (0 : ℝ) ∈ Set.Ioo (g 0.75) (g 0.9375) := by
      constructor <;> simp only [g] <;> norm_num
    obtain ⟨x, ⟨hx1, hx2⟩, hx⟩ := intermediate_value_Ioo (by norm_num) hg h0
    refine ⟨x, hx1, hx2, ?_⟩
    have habs : |x| = x := abs_of_pos (by norm_num at hx1; linarith)
    have h1 : ¬ x ≥ 1 := by norm_num at hx2 ⊢; linarith
    have h2 : ¬ x ≤ 0.75 := not_le.2 hx1
    obtain ⟨p, hp⟩ := hp (x * x - 0.87890625)
    simp only [g] at hx
    simp only [erfinv, habs, h1, if_false, erfinvFin, h2, hx2.le, if_true, tables32, hq, hp, Option.bind_eq_bind,
      Option.bind_some, hx, R.div, Option.bind_none]

end Special
end Verif
