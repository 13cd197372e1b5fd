import Verif.AdaptiveModel
import Verif.OdeLemmas
import Verif.MultistepProps
import Verif.OrthModel
import Verif.QRProps

/-! # Adaptive stepper: C43 -/

namespace Verif
namespace Ode
variable {K : Type} [Field K] [LinearOrder K] [IsStrictOrderedRing K]

/-- C43: the factor of the step size lies in `[fac_min, fac_max]`; after an error of zero the step size is kept. -/
theorem C43_factor (pow : K → K → K) (l : K) (c : Control K) (hc : c.facMin ≤ c.facMax) (err h : K) :
    (err ≠ 0 → ∃ s, c.facMin ≤ s ∧ s ≤ c.facMax ∧ newStep pow l c err h = s * h ∧
      (c.facMin ≤ c.fac * pow (1 / err) l → c.fac * pow (1 / err) l ≤ c.facMax → s = c.fac * pow (1 / err) l)) ∧
    (err = 0 → newStep pow l c err h = h) := by
  constructor
  · intro he
    refine ⟨(fun s => if s > c.facMax then c.facMax else s)
      (if c.fac * pow (1 / err) l < c.facMin then c.facMin else c.fac * pow (1 / err) l), ?_, ?_, ?_, ?_⟩
    · simp only
      split_ifs with h1 h2 h2
      · exact hc
      · exact le_rfl
      · exact hc
      · exact not_lt.mp h1
    · simp only
      split_ifs with h1 h2 h2
      · exact le_rfl
      · exact hc
      · exact le_rfl
      · exact not_lt.mp h2
    · simp [newStep, he]
    · intro h1 h2
      simp only [if_neg (not_lt.mpr h1), gt_iff_lt, if_neg (not_lt.mpr h2)]
  · intro he; simp [newStep, he]

theorem newStep_pos (pow : K → K → K) (l : K) (c : Control K) (hc : c.facMin ≤ c.facMax) (h0 : 0 < c.facMin) (err : K)
    {h : K} (hh : 0 < h) : 0 < newStep pow l c err h := by
  obtain ⟨h1, h2⟩ := C43_factor pow l c hc err h
  by_cases he : err = 0
  · rw [h2 he]; exact hh
  · obtain ⟨s, a1, _, a3, _⟩ := h1 he
    rw [a3]
    exact mul_pos (lt_of_lt_of_le h0 a1) hh

/-- for a column vector only the first component enters the error -/
theorem calcError_col (sqrt : K → K) (c : Control K) {n : ℕ} (hn : 0 < n) (y yh : Fin n → K)
    (hsc : c.absTol + |y ⟨0, hn⟩| * c.relTol ≠ 0) :
    calcError sqrt c (col y) (col yh) =
      some (sqrt (((y ⟨0, hn⟩ - yh ⟨0, hn⟩) / (c.absTol + |y ⟨0, hn⟩| * c.relTol)) *
        ((y ⟨0, hn⟩ - yh ⟨0, hn⟩) / (c.absTol + |y ⟨0, hn⟩| * c.relTol)))) := by
  unfold calcError
  have h1 : (col y).n = 1 := rfl
  rw [h1]
  simp only
  rw [forRange_step (by norm_num), (col_is y).vget_col hn, (col_is yh).vget_col hn]
  simp only [Option.bind_eq_bind, Option.bind_some, extV_lt _ hn]
  have hb : ¬ DivStop.bad (c.absTol + max (y ⟨0, hn⟩) (-y ⟨0, hn⟩) * c.relTol) := hsc
  rw [if_neg hb, Option.bind_some, forRange_empty (by norm_num)]
  simp [abs_eq_max_neg]

/-- C43: the scaled error is at most 1 exactly when the first component of the difference is within the tolerance. -/
theorem C43_error_first {sqrt : K → K} (hs : IsSqrt sqrt) (c : Control K) (ha : 0 < c.absTol) (hr : 0 ≤ c.relTol) {n : ℕ}
    (hn : 0 < n) (y yh : Fin n → K) :
    ∃ e, calcError sqrt c (col y) (col yh) = some e ∧
      (e ≤ 1 ↔ |y ⟨0, hn⟩ - yh ⟨0, hn⟩| ≤ c.absTol + |y ⟨0, hn⟩| * c.relTol) := by
  have hsc : 0 < c.absTol + |y ⟨0, hn⟩| * c.relTol := by positivity
  refine ⟨_, calcError_col sqrt c hn y yh hsc.ne', ?_⟩
  generalize y ⟨0, hn⟩ - yh ⟨0, hn⟩ = d
  generalize hS : c.absTol + |y ⟨0, hn⟩| * c.relTol = S at hsc
  have h1 : |d / S| ≤ 1 ↔ |d| ≤ S := by rw [abs_div, abs_of_pos hsc, div_le_one hsc]
  rw [← h1]
  generalize d / S = q
  have h2 := hs (q * q) (mul_self_nonneg q)
  rw [← abs_mul_abs_self q] at h2 ⊢
  have h3 : sqrt (|q| * |q|) = |q| := (mul_self_inj h2.1 (abs_nonneg q)).mp h2.2
  rw [h3]

/-- C43: what `Ok` means. The times increase strictly from `t_start` to exactly `t_stop`; there are at most `n_max` steps;
    each state is the first result of a step from its predecessor, whose scaled error `calc_error` is at most 1. With
    `fac_max ≤ 1` no step is longer than `h_0`. Missing: the scaled error covers only the first component (`C43_error_first`, `C43_violated`). -/
theorem C43_solve_partial {sqrt : K → K} (pow : K → K → K) (q : ℕ) (c : Control K) (hc : c.facMin ≤ c.facMax)
    (h0 : 0 < c.facMin) (hh : 0 < c.h0) (step : K → Mat K → K → Option (Mat K × Mat K)) (fuel : ℕ) (tStart tStop : K)
    (init : Mat K) {ts : List K} {xs : List (Mat K)}
    (hs : adaptSolve sqrt pow q c step fuel tStart tStop init = some (some (ts, xs))) :
    ∃ (N : ℕ) (τ : ℕ → K) (X : ℕ → Mat K), N ≤ c.nMax ∧ ts = (List.range (N + 1)).map τ ∧
      xs = (List.range (N + 1)).map X ∧ τ 0 = tStart ∧ τ N = tStop ∧ X 0 = init ∧
      (∀ k < N, τ k < τ (k + 1) ∧ ∃ e xh, step (τ k) (X k) (τ (k + 1) - τ k) = some (X (k + 1), xh) ∧
        calcError sqrt c (X (k + 1)) xh = some e ∧ e ≤ 1) ∧
      (c.facMax ≤ 1 → ∀ k < N, τ (k + 1) - τ k ≤ c.h0) := by
  unfold adaptSolve at hs
  by_cases ht : tStart > tStop
  · simp [ht] at hs
  rw [if_neg ht] at hs
  have ht : tStart ≤ tStop := not_lt.mp ht
  simp only [Option.bind_eq_bind, Option.bind_eq_some_iff] at hs
  obtain ⟨r, hr, he⟩ := hs
  let Q : AState K → Prop := fun s => s.n ≤ c.nMax ∧ s.t ≤ tStop ∧ 0 < s.h ∧ (c.facMax ≤ 1 → s.h ≤ c.h0) ∧ ∃ (τ : ℕ → K) (X : ℕ → Mat K),
    s.ts = hist τ s.n ∧ s.xs = hist X s.n ∧ τ 0 = tStart ∧ τ s.n = s.t ∧ X 0 = init ∧ X s.n = s.x ∧
    (∀ k < s.n, τ k < τ (k + 1) ∧ ∃ e xh, step (τ k) (X k) (τ (k + 1) - τ k) = some (X (k + 1), xh) ∧
        calcError sqrt c (X (k + 1)) xh = some e ∧ e ≤ 1) ∧
    (c.facMax ≤ 1 → ∀ k < s.n, τ (k + 1) - τ k ≤ c.h0)
  have hist_upd : ∀ {α : Type} (X : ℕ → α) (n j : ℕ) (x : α), j ≤ n → hist (Function.update X (n + 1) x) j = hist X j := by
    intro α X n j x hj
    apply List.map_congr_left
    intro l hl
    rw [List.mem_range] at hl
    simp [Function.update, show l ≠ n + 1 by omega]
  have hist_succ : ∀ {α : Type} (X : ℕ → α) (n : ℕ) (x : α), hist (Function.update X (n + 1) x) (n + 1) = hist X n ++ [x] := by
    intro α X n x
    have : hist (Function.update X (n + 1) x) (n + 1) = hist (Function.update X (n + 1) x) n ++ [x] := by
      simp [hist, List.range_succ]
    rw [this, hist_upd X n n x le_rfl]
  have loop : ∀ fuel s, Q s → adaptLoop sqrt pow (1 / ((q : K) + 1)) c step tStop fuel s = some r → Q r := by
    intro fuel
    induction fuel with
    | zero => intro s _ h; simp [adaptLoop] at h
    | succ fuel ih =>
      intro s hQ h
      simp only [adaptLoop] at h
      by_cases hcond : s.n < c.nMax ∧ s.t < tStop
      · rw [if_pos hcond] at h
        simp only [Option.bind_eq_bind, Option.bind_eq_some_iff] at h
        obtain ⟨s', hs', h⟩ := h
        refine ih s' ?_ h
        obtain ⟨q1, q2, q3, q4, τ, X, a1, a2, a3, a4, a5, a6, a7, a8⟩ := hQ
        simp only [adaptIter, Option.bind_eq_bind, Option.bind_eq_some_iff] at hs'
        obtain ⟨p, hp, err, herr, hs'⟩ := hs'
        have hhpos : 0 < min s.h (tStop - s.t) := lt_min q3 (by linarith [hcond.2])
        have hnew := newStep_pos pow (1 / ((q : K) + 1)) c hc h0 err hhpos
        have hcut : c.facMax ≤ 1 → min s.h (tStop - s.t) ≤ c.h0 := fun hm => (min_le_left _ _).trans (q4 hm)
        have hnew' : c.facMax ≤ 1 → newStep pow (1 / ((q : K) + 1)) c err (min s.h (tStop - s.t)) ≤ c.h0 := fun hm => by
          obtain ⟨b1, b2⟩ := C43_factor pow (1 / ((q : K) + 1)) c hc err (min s.h (tStop - s.t))
          by_cases he : err = 0
          · rw [b2 he]; exact hcut hm
          · obtain ⟨f, f1, f2, f3, _⟩ := b1 he
            rw [f3]
            exact (mul_le_of_le_one_left hhpos.le (f2.trans hm)).trans (hcut hm)
        by_cases hacc : err ≤ 1
        · rw [if_pos hacc] at hs'
          have hs' := Option.some.inj hs'
          subst hs'
          refine ⟨by simpa using hcond.1, ?_, hnew, hnew', Function.update τ (s.n + 1) (s.t + min s.h (tStop - s.t)),
            Function.update X (s.n + 1) p.1, ?_, ?_, ?_, ?_, ?_, ?_, ?_, ?_⟩
          · have := min_le_right s.h (tStop - s.t)
            simp only; linarith
          · simp only [hist_succ, a1]
          · simp only [hist_succ, a2]
          · simp [Function.update, a3]
          · simp
          · simp [Function.update, a5]
          · simp
          · intro k hk
            simp only at hk
            rcases Nat.lt_or_ge k s.n with hlt | hge
            · have := a7 k hlt
              simpa [Function.update, show k ≠ s.n + 1 by omega, show k ≠ s.n by omega] using this
            · obtain rfl : k = s.n := by omega
              refine ⟨?_, err, p.2, ?_, ?_, hacc⟩
              · simp only [Function.update_self]
                rw [Function.update_of_ne (by omega), a4]
                linarith
              · simp only [Function.update_self]
                rw [Function.update_of_ne (by omega), Function.update_of_ne (by omega), a4, a6, add_sub_cancel_left, hp]
              · simpa using herr
          · intro hm k hk
            simp only at hk
            rcases Nat.lt_or_ge k s.n with hlt | hge
            · have := a8 hm k hlt
              simpa [Function.update, show k ≠ s.n + 1 by omega, show k ≠ s.n by omega] using this
            · obtain rfl : k = s.n := by omega
              rw [Function.update_self, Function.update_of_ne (by omega), a4, add_sub_cancel_left]
              exact hcut hm
        · rw [if_neg hacc] at hs'
          have hs' := Option.some.inj hs'
          subst hs'
          exact ⟨q1, q2, hnew, hnew', τ, X, a1, a2, a3, a4, a5, a6, a7, a8⟩
      · rw [if_neg hcond] at h
        exact (Option.some.inj h) ▸ hQ
  obtain ⟨q1, q2, q3, q4, τ, X, a1, a2, a3, a4, a5, a6, a7, a8⟩ := loop fuel _
    ⟨Nat.zero_le _, ht, hh, fun _ => le_rfl, fun _ => tStart, fun _ => init, by simp [hist], by simp [hist], rfl, rfl, rfl, rfl, by simp, by simp⟩ hr
  by_cases hlt : r.t < tStop
  · simp [hlt] at he
  · rw [if_neg hlt] at he
    have he := Option.some.inj (Option.some.inj he)
    have e1 := congrArg Prod.fst he
    have e2 := congrArg Prod.snd he
    simp only at e1 e2
    refine ⟨r.n, τ, X, q1, by rw [← e1, a1]; rfl, by rw [← e2, a2]; rfl, a3, ?_, a5, a7, a8⟩
    rw [a4]
    exact le_antisymm q2 (not_lt.mp hlt)

/-- C43: `Err` is returned only when `n_max` steps were accepted and `t_stop` was not reached -/
theorem C43_err {sqrt : K → K} (pow : K → K → K) (l : K) (c : Control K)
    (step : K → Mat K → K → Option (Mat K × Mat K)) (fuel : ℕ) (tStop : K) (s r : AState K)
    (hr : adaptLoop sqrt pow l c step tStop fuel s = some r) (hlt : r.t < tStop) : c.nMax ≤ r.n := by
  induction fuel generalizing s with
  | zero => simp [adaptLoop] at hr
  | succ fuel ih =>
    simp only [adaptLoop] at hr
    by_cases hcond : s.n < c.nMax ∧ s.t < tStop
    · rw [if_pos hcond] at hr
      simp only [Option.bind_eq_bind, Option.bind_eq_some_iff] at hr
      obtain ⟨s', _, hr⟩ := hr
      exact ih s' hr
    · rw [if_neg hcond] at hr
      have hr := Option.some.inj hr
      subst hr
      by_contra h
      exact hcond ⟨by omega, hlt⟩

/-- C43 is violated: the error of the second component is ignored. The two results differ by 1 in the second component,
    the tolerances are `1/10`, and the scaled error is 0. -/
theorem C43_violated : ∃ (c : Control ℚ) (y yh : Fin 2 → ℚ), 0 < c.absTol ∧
    calcError Rat.sqrt c (col y) (col yh) = some 0 ∧ c.absTol + |y 1| * c.relTol < |y 1 - yh 1| :=
  ⟨⟨1000, 1, 1, 1, 1, 1/10, 1/10⟩, ![0, 1], ![0, 0], by decide +kernel⟩

/-- a full run: Fehlberg's method of order 2 for `x' = 1` reaches the end in two steps -/
example : adaptSolve Rat.sqrt (fun x _ => x) 2 ⟨10, 1/2, 4/5, 1/1000, 3, 1/100, 1/100⟩
    (doStepEmb fehlberg12 (fun _ _ => some (col ![(1 : ℚ)]))) 10 0 1 (col ![0]) =
    some (some ([0, 1/2, 1], [col ![0], col ![1/2], col ![1]])) := by decide +kernel

end Ode
end Verif
