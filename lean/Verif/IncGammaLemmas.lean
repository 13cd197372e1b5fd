import Verif.SpecialLemmas
import Mathlib.Analysis.SpecificLimits.Normed
import Mathlib.Topology.Algebra.Order.Floor
import Mathlib.Algebra.BigOperators.Fin

/-!
# The two loops of `gamma_lr` end

Series loop: the terms are at most `x^n / n!`.  Continued fraction loop: numerators and denominators are positive and
the relative change is bounded by a multiple of `1 / n`.
-/

namespace Verif
namespace Special
open Finset

/-! ## fuel -/

theorem lrSeries_mono {x : ℝ} {n : ℕ} {r c s v : ℝ} (h : lrSeries x n r c s = some v) (m : ℕ) (hm : n ≤ m) :
    lrSeries x m r c s = some v := by
  induction n generalizing m r c s with
  | zero => simp [lrSeries] at h
  | succ n ih =>
    obtain ⟨m, rfl⟩ : ∃ k, m = k + 1 := ⟨m - 1, by omega⟩
    simp only [lrSeries, Option.bind_eq_bind] at h ⊢
    cases h1 : R.div x (r + 1) with
    | none => rw [h1] at h; simp at h
    | some q =>
      rw [h1] at h
      simp only [Option.bind_some] at h ⊢
      cases h2 : R.div (c * q) (s + c * q) with
      | none => rw [h2] at h; simp at h
      | some t =>
        rw [h2] at h
        simp only [Option.bind_some] at h ⊢
        split_ifs at h ⊢ with h3
        · exact h
        · exact ih h m (by omega)

theorem lrFrac_mono {n : ℕ} {s : CF} {v : ℝ} (h : lrFrac n s = some v) (m : ℕ) (hm : n ≤ m) :
    lrFrac m s = some v := by
  induction n generalizing m s with
  | zero => simp [lrFrac] at h
  | succ n ih =>
    obtain ⟨m, rfl⟩ : ∃ k, m = k + 1 := ⟨m - 1, by omega⟩
    simp only [lrFrac, Option.bind_eq_bind] at h ⊢
    by_cases hq : s.q2 * (s.z + 2) - s.q3 * ((s.y + 1) * (s.c + 1)) = 0
    · simp only [hq, ne_eq, not_true, if_false] at h ⊢
      exact ih h m (by omega)
    · simp only [ne_eq, hq, not_false_iff, if_true] at h ⊢
      rw [div_of_ne hq] at h ⊢
      simp only [Option.bind_some] at h ⊢
      generalize hd : R.div (s.ans - _) _ = d at h ⊢
      cases d with
      | none => simp at h
      | some e =>
        simp only [Option.bind_some] at h ⊢
        by_cases he : |e| ≤ 0.000000000000001
        · simp only [he, if_true] at h ⊢; exact h
        · simp only [he, if_false] at h ⊢; exact ih h m (by omega)

/-! ## the series loop -/

theorem lrSeries_none {x : ℝ} (hx : 0 < x) (n : ℕ) : ∀ {r c s : ℝ}, 0 < r → 0 < c → 0 < s →
    lrSeries x (n + 1) r c s = none →
    0.000000000000001 * s < c * ∏ j ∈ range (n + 1), x / (r + j + 1) := by
  induction n with
  | zero =>
    intro r c s hr hc hs h
    have hr1 : r + 1 ≠ 0 := by positivity
    have hs1 : 0 < s + c * (x / (r + 1)) := by positivity
    simp only [lrSeries, div_of_ne hr1, div_of_ne hs1.ne', Option.bind_eq_bind, Option.bind_some] at h
    split_ifs at h with h1
    rw [not_le, lt_div_iff₀ hs1] at h1
    simp only [zero_add, range_one, prod_singleton, Nat.cast_zero, add_zero]
    have : 0 < c * (x / (r + 1)) := by positivity
    refine lt_of_le_of_lt ?_ h1
    apply mul_le_mul_of_nonneg_left _ (by norm_num)
    linarith
  | succ n ih =>
    intro r c s hr hc hs h
    have hr1 : r + 1 ≠ 0 := by positivity
    have hp : 0 < c * (x / (r + 1)) := by positivity
    have hs1 : 0 < s + c * (x / (r + 1)) := by positivity
    rw [lrSeries] at h
    simp only [div_of_ne hr1, div_of_ne hs1.ne', Option.bind_eq_bind, Option.bind_some] at h
    split_ifs at h with h1
    have := ih (by positivity : 0 < r + 1) hp hs1 h
    rw [prod_range_succ']
    have e : ∀ j : ℕ, x / (r + ((j + 1 : ℕ) : ℝ) + 1) = x / (r + 1 + j + 1) := by
      intro j; push_cast; ring_nf
    simp only [e, Nat.cast_zero, add_zero]
    calc (0.000000000000001 : ℝ) * s ≤ 0.000000000000001 * (s + c * (x / (r + 1))) := by
          apply mul_le_mul_of_nonneg_left _ (by norm_num); linarith
      _ < c * (x / (r + 1)) * ∏ j ∈ range (n + 1), x / (r + 1 + j + 1) := this
      _ = _ := by ring

theorem prod_le_pow_div {x r : ℝ} (hx : 0 < x) (hr : 0 < r) (n : ℕ) :
    ∏ j ∈ range n, x / (r + j + 1) ≤ x ^ n / (n.factorial : ℝ) := by
  induction n with
  | zero => simp
  | succ n ih =>
    rw [prod_range_succ, Nat.factorial_succ, pow_succ]
    push_cast
    have h1 : x / (r + n + 1) ≤ x / (n + 1) := by
      apply div_le_div_of_nonneg_left hx.le (by positivity); linarith
    have h2 : 0 ≤ ∏ j ∈ range n, x / (r + j + 1) := prod_nonneg (fun j _ => by positivity)
    calc _ ≤ x ^ n / (n.factorial : ℝ) * (x / (n + 1)) := by
          apply mul_le_mul ih h1 (by positivity) (by positivity)
      _ = _ := by have : (0 : ℝ) < n.factorial := by exact_mod_cast n.factorial_pos
                  field_simp

/-- The series loop ends for all positive variables. -/
theorem lrSeries_terminates {x r c s : ℝ} (hx : 0 < x) (hr : 0 < r) (hc : 0 < c) (hs : 0 < s) :
    ∃ N v, ∀ n, N ≤ n → lrSeries x n r c s = some v := by
  by_contra hcon
  push Not at hcon
  have hn : ∀ n, lrSeries x n r c s = none := by
    intro n
    cases h : lrSeries x n r c s with
    | none => rfl
    | some v =>
      obtain ⟨m, hm, hne⟩ := hcon n v
      exact absurd (lrSeries_mono h m hm) hne
  have hlim := (FloorSemiring.tendsto_pow_div_factorial_atTop x).const_mul c
  rw [mul_zero] at hlim
  have hev := hlim.eventually (gt_mem_nhds (show (0 : ℝ) < 0.000000000000001 * s by positivity))
  obtain ⟨N, hN⟩ := hev.exists_forall_of_atTop
  have h1 := lrSeries_none hx N hr hc hs (hn (N + 1))
  have h2 := hN (N + 1) (by omega)
  have h3 := mul_le_mul_of_nonneg_left (prod_le_pow_div hx hr (N + 1)) hc.le
  linarith

/-- What the series loop returns: `s` plus the terms up to some `n`, where the last term is at most `10⁻¹⁵` of it. -/
theorem lrSeries_value {x : ℝ} (hx : 0 < x) (fuel : ℕ) : ∀ {r c s v : ℝ}, 0 < r → 0 < c → 0 < s →
    lrSeries x fuel r c s = some v →
    ∃ n, v = s + c * ∑ k ∈ range (n + 1), ∏ j ∈ range (k + 1), x / (r + j + 1) ∧
      c * ∏ j ∈ range (n + 1), x / (r + j + 1) ≤ 0.000000000000001 * v := by
  induction fuel with
  | zero => intro r c s v _ _ _ h; simp [lrSeries] at h
  | succ fuel ih =>
    intro r c s v hr hc hs h
    have hr1 : r + 1 ≠ 0 := by positivity
    have hp : 0 < c * (x / (r + 1)) := by positivity
    have hs1 : 0 < s + c * (x / (r + 1)) := by positivity
    rw [lrSeries] at h
    simp only [div_of_ne hr1, div_of_ne hs1.ne', Option.bind_eq_bind, Option.bind_some] at h
    split_ifs at h with h1
    · injection h with h
      refine ⟨0, by simp [← h], ?_⟩
      rw [div_le_iff₀ hs1] at h1
      simpa [← h] using h1
    · obtain ⟨n, hv, hl⟩ := ih (by positivity : 0 < r + 1) hp hs1 h
      have e : ∀ j : ℕ, x / (r + ((j + 1 : ℕ) : ℝ) + 1) = x / (r + 1 + j + 1) := by
        intro j; push_cast; ring_nf
      have e2 : ∀ k : ℕ, ∏ j ∈ range (k + 1), x / (r + j + 1)
          = (∏ j ∈ range k, x / (r + 1 + j + 1)) * (x / (r + 1)) := by
        intro k
        rw [prod_range_succ']
        simp only [e, Nat.cast_zero, add_zero]
      refine ⟨n + 1, ?_, ?_⟩
      · simp only [e2, ← sum_mul]
        rw [hv, sum_range_succ' _ (n + 1)]
        simp only [range_zero, prod_empty]
        ring
      · rw [e2]
        calc _ = c * (x / (r + 1)) * ∏ j ∈ range (n + 1), x / (r + 1 + j + 1) := by ring
          _ ≤ _ := hl

/-! ## the continued fraction loop -/

/-- the numerators of the continued fraction -/
noncomputable def cfP (a x : ℝ) : ℕ → ℝ
  | 0 => 1
  | 1 => x + 1
  | n + 2 => cfP a x (n + 1) * (x + 2 * (n + 1) + 2 - a) - cfP a x n * ((n + 1) * (n + 2 - a))

/-- the denominators of the continued fraction -/
noncomputable def cfQ (a x : ℝ) : ℕ → ℝ
  | 0 => x
  | 1 => (x + 2 - a) * x
  | n + 2 => cfQ a x (n + 1) * (x + 2 * (n + 1) + 2 - a) - cfQ a x n * ((n + 1) * (n + 2 - a))

/-- growth of a solution of the recursion -/
theorem rec_growth {a x : ℝ} (hxa : a < x) (hx : 0 < x) {F : ℕ → ℝ} (h0 : 0 < F 0) (h1 : F 0 ≤ F 1)
    (hr : ∀ n : ℕ, F (n + 2) = F (n + 1) * (x + 2 * (n + 1) + 2 - a) - F n * ((n + 1) * (n + 2 - a))) (n : ℕ) :
    0 < F n ∧ (n + 1) * F n ≤ F (n + 1) := by
  induction n with
  | zero => exact ⟨h0, by simpa using h1⟩
  | succ n ih =>
    obtain ⟨hp, hg⟩ := ih
    have hp1 : 0 < F (n + 1) := lt_of_lt_of_le (by positivity) hg
    refine ⟨hp1, ?_⟩
    rw [hr n]
    push_cast
    by_cases h : a ≤ n + 2
    · have : (n + 2 - a) * ((n + 1) * F n) ≤ (n + 2 - a) * F (n + 1) :=
        mul_le_mul_of_nonneg_left hg (by linarith)
      nlinarith
    · push Not at h
      have : 0 ≤ (a - n - 2) * ((n + 1) * F n) := by
        apply mul_nonneg (by linarith); positivity
      have h3 : 0 ≤ (x - a) * F (n + 1) := mul_nonneg (by linarith) hp1.le
      have h4 : 0 ≤ (n : ℝ) * F (n + 1) := by positivity
      nlinarith

theorem rec_growth' {a x : ℝ} (hxa : a < x) (hx : 0 < x) {F : ℕ → ℝ} (h0 : 0 < F 0) (h1 : F 0 ≤ F 1)
    (hr : ∀ n : ℕ, F (n + 2) = F (n + 1) * (x + 2 * (n + 1) + 2 - a) - F n * ((n + 1) * (n + 2 - a))) (n : ℕ)
    (hn : a ≤ n + 2) : (x + n + 2) * F (n + 1) ≤ F (n + 2) := by
  obtain ⟨_, hg⟩ := rec_growth hxa hx h0 h1 hr n
  rw [hr n]
  have : (n + 2 - a) * ((n + 1) * F n) ≤ (n + 2 - a) * F (n + 1) :=
    mul_le_mul_of_nonneg_left hg (by linarith)
  nlinarith

theorem cfP_growth {a x : ℝ} (hxa : a < x) (hx : 0 < x) (n : ℕ) :
    0 < cfP a x n ∧ (n + 1) * cfP a x n ≤ cfP a x (n + 1) :=
  rec_growth hxa hx (by simp [cfP]) (by simp [cfP]; linarith) (fun _ => rfl) n

theorem cfQ_growth {a x : ℝ} (hxa : a < x) (hx : 0 < x) (n : ℕ) :
    0 < cfQ a x n ∧ (n + 1) * cfQ a x n ≤ cfQ a x (n + 1) :=
  rec_growth hxa hx (by simpa [cfQ]) (by simp [cfQ]; nlinarith) (fun _ => rfl) n

/-- the determinant of two neighbouring fractions -/
noncomputable def cfD (a x : ℝ) (n : ℕ) : ℝ := cfP a x (n + 1) * cfQ a x n - cfP a x n * cfQ a x (n + 1)

theorem cfD_succ (a x : ℝ) (n : ℕ) : cfD a x (n + 1) = (n + 1) * (n + 2 - a) * cfD a x n := by
  simp only [cfD, cfP, cfQ]; ring

/-- the relative change of the `n`-th round -/
noncomputable def cfE (a x : ℝ) (n : ℕ) : ℝ := |cfD a x (n + 1)| / (cfQ a x (n + 1) * cfP a x (n + 2))

theorem cfE_succ_le {a x : ℝ} (hxa : a < x) (hx : 1 ≤ x) (ha : -x ≤ a) (n : ℕ) (hn : a ≤ n) :
    (n + 3) * cfE a x (n + 1) ≤ (n + 2) * cfE a x n := by
  have hx0 : 0 < x := by linarith
  have hP := fun k => (cfP_growth hxa hx0 k).1
  have hQ := fun k => (cfQ_growth hxa hx0 k).1
  have gQ : (x + n + 2) * cfQ a x (n + 1) ≤ cfQ a x (n + 2) :=
    rec_growth' hxa hx0 (hQ 0) (by simpa using (cfQ_growth hxa hx0 0).2) (fun _ => rfl) n (by linarith)
  have gP : (x + (n + 1 : ℕ) + 2) * cfP a x (n + 2) ≤ cfP a x (n + 3) :=
    rec_growth' hxa hx0 (hP 0) (by simpa using (cfP_growth hxa hx0 0).2) (fun _ => rfl) (n + 1)
      (by push_cast; linarith)
  push_cast at gP
  unfold cfE
  rw [cfD_succ a x (n + 1), abs_mul, abs_mul]
  have e1 : |(((n + 1 : ℕ) : ℝ) + 1)| = n + 2 := by
    rw [abs_of_pos (by positivity)]; push_cast; ring
  have e2 : |(((n + 1 : ℕ) : ℝ) + 2 - a)| = n + 3 - a := by
    rw [abs_of_pos (by push_cast; linarith)]; push_cast; ring
  rw [e1, e2]
  set D := |cfD a x (n + 1)| with hD
  have hD0 : 0 ≤ D := abs_nonneg _
  have hq1 := hQ (n + 1)
  have hq2 := hQ (n + 2)
  have hp2 := hP (n + 2)
  have hp3 := hP (n + 3)
  have e3 : n + 1 + 1 = n + 2 := rfl
  have e4 : n + 1 + 2 = n + 3 := rfl
  rw [e3, e4, ← mul_div_assoc, ← mul_div_assoc, div_le_div_iff₀ (by positivity) (by positivity)]
  have hb : (n + 3) * (n + 3 - a) * (cfQ a x (n + 1) * cfP a x (n + 2))
      ≤ cfQ a x (n + 2) * cfP a x (n + 3) := by
    calc (n + 3) * (n + 3 - a) * (cfQ a x (n + 1) * cfP a x (n + 2))
        ≤ (x + n + 2) * (x + (n + 1) + 2) * (cfQ a x (n + 1) * cfP a x (n + 2)) := by
          apply mul_le_mul_of_nonneg_right _ (by positivity)
          apply mul_le_mul (by linarith) (by linarith) (by linarith) (by positivity)
      _ = ((x + n + 2) * cfQ a x (n + 1)) * ((x + (n + 1) + 2) * cfP a x (n + 2)) := by ring
      _ ≤ _ := mul_le_mul gQ gP (by positivity) (by positivity)
  have h2 : (0 : ℝ) ≤ (n + 2) * D := by positivity
  have := mul_le_mul_of_nonneg_left hb h2
  linarith

theorem cfE_tendsto {a x : ℝ} (hxa : a < x) (hx : 1 ≤ x) (ha : -x ≤ a) {e : ℝ} (he : 0 < e) :
    ∃ n, cfE a x n ≤ e := by
  obtain ⟨n0, hn0⟩ := exists_nat_ge a
  set M := (n0 + 2) * cfE a x n0 with hM
  have hb : ∀ k : ℕ, ((n0 + k : ℕ) + 2) * cfE a x (n0 + k) ≤ M := by
    intro k
    induction k with
    | zero => simp [hM]
    | succ k ih =>
      have := cfE_succ_le hxa hx ha (n0 + k) (by push_cast; have : (0 : ℝ) ≤ k := Nat.cast_nonneg k; linarith)
      refine le_trans ?_ ih
      calc _ = ((n0 + k : ℕ) + 3) * cfE a x (n0 + k + 1) := by
            push_cast; ring_nf
        _ ≤ _ := this
  obtain ⟨k, hk⟩ := exists_nat_ge (M / e)
  refine ⟨n0 + k, ?_⟩
  have h1 := hb k
  rw [div_le_iff₀ he] at hk
  by_contra hc
  push Not at hc
  have hpos : (0 : ℝ) < (n0 + k : ℕ) + 2 := by positivity
  have h2 := mul_lt_mul_of_pos_left hc hpos
  have h3 : (k : ℝ) * e ≤ ((n0 + k : ℕ) + 2) * e := by
    apply mul_le_mul_of_nonneg_right _ he.le
    push_cast
    have : (0 : ℝ) ≤ n0 := Nat.cast_nonneg n0
    linarith
  linarith

/-- the loop variables after `n` rounds, up to a positive factor from the rescaling -/
def CFInv (a x : ℝ) (n : ℕ) (s : CF) : Prop :=
  s.y = 1 - a + n ∧ s.z = x + 2 - a + 2 * n ∧ s.c = n ∧
  s.ans = cfP a x (n + 1) / cfQ a x (n + 1) ∧
  ∃ l : ℝ, 0 < l ∧ s.p3 = l * cfP a x n ∧ s.q3 = l * cfQ a x n ∧
    s.p2 = l * cfP a x (n + 1) ∧ s.q2 = l * cfQ a x (n + 1)

/-- One round of the continued fraction loop -/
theorem lrFrac_step {a x : ℝ} (hxa : a < x) (hx : 0 < x) {n : ℕ} {s : CF} (hs : CFInv a x n s) :
    ∃ s', CFInv a x (n + 1) s' ∧ ∀ fuel, lrFrac (fuel + 1) s =
      if cfE a x n ≤ 0.000000000000001 then some (cfP a x (n + 2) / cfQ a x (n + 2)) else lrFrac fuel s' := by
  obtain ⟨hy, hz, hc, hans, l, hl, hp3, hq3, hp2, hq2⟩ := hs
  have hP := fun k => (cfP_growth hxa hx k).1
  have hQ := fun k => (cfQ_growth hxa hx k).1
  have ep : s.p2 * (s.z + 2) - s.p3 * ((s.y + 1) * (s.c + 1)) = l * cfP a x (n + 2) := by
    rw [hp2, hp3, hz, hy, hc, cfP]; ring
  have eq : s.q2 * (s.z + 2) - s.q3 * ((s.y + 1) * (s.c + 1)) = l * cfQ a x (n + 2) := by
    rw [hq2, hq3, hz, hy, hc, cfQ]; ring
  have hq0 : l * cfQ a x (n + 2) ≠ 0 := (mul_pos hl (hQ _)).ne'
  have ed : l * cfP a x (n + 2) / (l * cfQ a x (n + 2)) = cfP a x (n + 2) / cfQ a x (n + 2) :=
    mul_div_mul_left _ _ hl.ne'
  have hn0 : cfP a x (n + 2) / cfQ a x (n + 2) ≠ 0 := (div_pos (hP _) (hQ _)).ne'
  have ee : |(s.ans - cfP a x (n + 2) / cfQ a x (n + 2)) / (cfP a x (n + 2) / cfQ a x (n + 2))| = cfE a x n := by
    rw [hans, abs_div, cfE, cfD, abs_of_pos (div_pos (hP _) (hQ (n + 2)))]
    have h1 := hQ (n + 1)
    have h2 := hQ (n + 2)
    have h3 := hP (n + 2)
    rw [div_sub_div _ _ h1.ne' h2.ne', abs_div, abs_of_pos (mul_pos h1 h2)]
    rw [abs_sub_comm]
    have : cfQ a x (n + 1) * cfP a x (n + 2) - cfP a x (n + 1) * cfQ a x (n + 2)
      = cfP a x (n + 1 + 1) * cfQ a x (n + 1) - cfP a x (n + 1) * cfQ a x (n + 1 + 1) := by ring_nf
    rw [this]
    field_simp
  let k : ℝ := if |l * cfP a x (n + 2)| > 4503599627370496 then 2.22044604925031308085e-16 else 1
  have hk : 0 < k := by
    simp only [k]; split_ifs <;> norm_num
  refine ⟨⟨s.y + 1, s.z + 2, s.c + 1, s.p2 * k, s.q2 * k, l * cfP a x (n + 2) * k, l * cfQ a x (n + 2) * k,
    cfP a x (n + 2) / cfQ a x (n + 2)⟩, ⟨?_, ?_, ?_, rfl, l * k, by positivity, ?_, ?_, ?_, ?_⟩, ?_⟩
  · push_cast; simp only [hy]; ring
  · push_cast; simp only [hz]; ring
  · push_cast; simp only [hc]
  · simp only [hp2]; ring
  · simp only [hq2]; ring
  · ring
  · ring
  · intro fuel
    rw [lrFrac]
    simp only [ep, eq, ne_eq, hq0, not_false_iff, if_true, div_of_ne hq0, Option.bind_eq_bind, Option.bind_some, ed,
      div_of_ne hn0, ee]
    rfl

theorem lrFracInit_inv {a x : ℝ} (hxa : a < x) (hx : 0 < x) :
    ∃ s, lrFracInit a x = some s ∧ CFInv a x 0 s := by
  have h1 := (cfQ_growth hxa hx 1).1
  have hq : (x + (1 - a) + 1) * x ≠ 0 := by
    have : (x + (1 - a) + 1) * x = cfQ a x 1 := by rw [cfQ]; ring
    rw [this]; exact h1.ne'
  refine ⟨⟨1 - a, x + (1 - a) + 1, 0, 1, x, x + 1, (x + (1 - a) + 1) * x, (x + 1) / ((x + (1 - a) + 1) * x)⟩,
    by simp only [lrFracInit, div_of_ne hq, Option.bind_eq_bind, Option.bind_some], ?_⟩
  refine ⟨by simp, by simp; ring, by simp, ?_, 1, one_pos, by simp [cfP], by simp [cfQ], by simp [cfP], ?_⟩
  · simp only [cfP, cfQ]; congr 1; ring
  · simp only [cfQ]; ring

theorem lrFrac_terminates_aux {a x : ℝ} (hxa : a < x) (hx : 0 < x) (k : ℕ) : ∀ {n : ℕ} {s : CF},
    CFInv a x n s → cfE a x (n + k) ≤ 0.000000000000001 → ∃ v, lrFrac (k + 1) s = some v := by
  induction k with
  | zero =>
    intro n s hs he
    obtain ⟨s', _, h⟩ := lrFrac_step hxa hx hs
    rw [h 0, if_pos (by simpa using he)]
    exact ⟨_, rfl⟩
  | succ k ih =>
    intro n s hs he
    obtain ⟨s', hs', h⟩ := lrFrac_step hxa hx hs
    rw [h (k + 1)]
    split_ifs
    · exact ⟨_, rfl⟩
    · exact ih hs' (by rw [show n + 1 + k = n + (k + 1) by omega]; exact he)

/-- The continued fraction loop ends for `x > 1`, `-x ≤ a < x`. -/
theorem lrFrac_terminates {a x : ℝ} (hxa : a < x) (hx : 1 ≤ x) (ha : -x ≤ a) {s : CF} (hs : CFInv a x 0 s) :
    ∃ N v, ∀ n, N ≤ n → lrFrac n s = some v := by
  obtain ⟨k, hk⟩ := cfE_tendsto hxa hx ha (show (0 : ℝ) < 0.000000000000001 by norm_num)
  obtain ⟨v, hv⟩ := lrFrac_terminates_aux hxa (by linarith) k hs (by simpa using hk)
  exact ⟨k + 1, v, fun n hn => lrFrac_mono hv n hn⟩

/-- What the continued fraction loop returns: a convergent whose relative change was at most `10⁻¹⁵`. -/
theorem lrFrac_value {a x : ℝ} (hxa : a < x) (hx : 0 < x) (fuel : ℕ) : ∀ {n : ℕ} {s : CF} {v : ℝ},
    CFInv a x n s → lrFrac fuel s = some v →
    ∃ m, v = cfP a x (m + 2) / cfQ a x (m + 2) ∧ cfE a x m ≤ 0.000000000000001 := by
  induction fuel with
  | zero => intro n s v _ h; simp [lrFrac] at h
  | succ k ih =>
    intro n s v hs hv
    obtain ⟨s', hs', h⟩ := lrFrac_step hxa hx hs
    rw [h k] at hv
    split_ifs at hv with he
    · injection hv with hv
      exact ⟨n, hv.symm, he⟩
    · exact ih hs' hv

end Special
end Verif
