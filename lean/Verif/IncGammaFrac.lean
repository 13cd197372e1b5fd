import Verif.IncGammaInt

/-!
# The continued fraction of `gamma_lr` converges to the upper incomplete gamma integral
-/

namespace Verif
namespace Special
open Filter Topology

/-- the change of the `n`-th convergent -/
noncomputable def cfd (a x : ℝ) (n : ℕ) : ℝ := |cfD a x n| / (cfQ a x n * cfQ a x (n + 1))

theorem cfQ_pos {a x : ℝ} (hxa : a < x) (hx : 0 < x) (n : ℕ) : 0 < cfQ a x n := (cfQ_growth hxa hx n).1

theorem cfQ_growth_late {a x : ℝ} (hxa : a < x) (hx : 0 < x) (n : ℕ) (hn : a ≤ n + 1) :
    (x + n + 1) * cfQ a x n ≤ cfQ a x (n + 1) := by
  cases n with
  | zero =>
    simp only [cfQ, Nat.cast_zero] at hn ⊢
    nlinarith
  | succ n =>
    have := rec_growth' hxa hx (cfQ_pos hxa hx 0) (by simpa using (cfQ_growth hxa hx 0).2) (F := cfQ a x)
      (fun _ => rfl) n (by push_cast at hn; linarith)
    push_cast
    rw [show x + ((n : ℝ) + 1) + 1 = x + n + 2 by ring]
    exact this

theorem cfd_eq {a x : ℝ} (hxa : a < x) (hx : 0 < x) (n : ℕ) :
    cfd a x n = |cfP a x (n + 1) / cfQ a x (n + 1) - cfP a x n / cfQ a x n| := by
  have h0 := cfQ_pos hxa hx n
  have h1 := cfQ_pos hxa hx (n + 1)
  rw [div_sub_div _ _ h1.ne' h0.ne', abs_div, abs_of_pos (mul_pos h1 h0), cfd, cfD,
    mul_comm (cfQ a x n) (cfQ a x (n + 1))]
  congr 2
  ring

theorem cfd_nonneg {a x : ℝ} (hxa : a < x) (hx : 0 < x) (n : ℕ) : 0 ≤ cfd a x n := by
  rw [cfd_eq hxa hx]; exact abs_nonneg _

/-- the changes decrease so fast that their sum is bounded by a multiple of the first -/
theorem cfd_succ {a x : ℝ} (ha : 0 < a) (hxa : a < x) (hx : 1 ≤ x) (n : ℕ) :
    (a + n + 3) * cfd a x (n + 1) ≤ (a + n + 1) * cfd a x n := by
  have hx0 : 0 < x := by linarith
  have q0 := cfQ_pos hxa hx0 n
  have q1 := cfQ_pos hxa hx0 (n + 1)
  have q2 := cfQ_pos hxa hx0 (n + 2)
  have hn : (0 : ℝ) ≤ n := Nat.cast_nonneg n
  have key : (a + n + 3) * ((n + 1) * |(n : ℝ) + 2 - a|) * cfQ a x n ≤ (a + n + 1) * cfQ a x (n + 2) := by
    rcases le_or_gt a (n + 2) with h | h
    · rw [abs_of_nonneg (by linarith)]
      have g := rec_growth' hxa hx0 (cfQ_pos hxa hx0 0) (by simpa using (cfQ_growth hxa hx0 0).2) (F := cfQ a x)
        (fun _ => rfl) n h
      rcases le_or_gt a (n + 1) with h2 | h2
      · have g2 := cfQ_growth_late hxa hx0 n h2
        have g3 : (n + 3 : ℝ) * ((n + 2) * cfQ a x n) ≤ cfQ a x (n + 2) := by
          calc (n + 3 : ℝ) * ((n + 2) * cfQ a x n) ≤ (x + n + 2) * ((x + n + 1) * cfQ a x n) := by
                have k1 : (n + 3 : ℝ) ≤ x + n + 2 := by linarith
                have k2 : (n + 2 : ℝ) ≤ x + n + 1 := by linarith
                exact mul_le_mul k1 (mul_le_mul_of_nonneg_right k2 q0.le) (by positivity) (by positivity)
            _ ≤ (x + n + 2) * cfQ a x (n + 1) := by gcongr
            _ ≤ _ := g
        have h3 : (a + n + 3) * ((n + 1) * ((n : ℝ) + 2 - a)) ≤ (a + n + 1) * ((n + 3) * (n + 2)) := by
          nlinarith [mul_nonneg hn hn, mul_nonneg ha.le hn, mul_nonneg (mul_nonneg ha.le hn) hn, mul_pos ha ha]
        calc _ ≤ (a + n + 1) * ((n + 3) * (n + 2)) * cfQ a x n := mul_le_mul_of_nonneg_right h3 q0.le
          _ = (a + n + 1) * ((n + 3 : ℝ) * ((n + 2) * cfQ a x n)) := by ring
          _ ≤ _ := by gcongr
      · have g2 := (cfQ_growth hxa hx0 n).2
        have g3 : (a + n + 2) * ((n + 1) * cfQ a x n) ≤ cfQ a x (n + 2) := by
          calc (a + n + 2) * ((n + 1) * cfQ a x n) ≤ (x + n + 2) * cfQ a x (n + 1) := by gcongr
            _ ≤ _ := g
        have h3 : (a + n + 3) * ((n : ℝ) + 2 - a) ≤ (a + n + 1) * (a + n + 2) := by nlinarith
        calc _ = (a + n + 3) * ((n : ℝ) + 2 - a) * ((n + 1) * cfQ a x n) := by ring
          _ ≤ (a + n + 1) * (a + n + 2) * ((n + 1) * cfQ a x n) := mul_le_mul_of_nonneg_right h3 (by positivity)
          _ = (a + n + 1) * ((a + n + 2) * ((n + 1) * cfQ a x n)) := by ring
          _ ≤ _ := by gcongr
    · rw [abs_of_neg (by linarith)]
      have g2 := (cfQ_growth hxa hx0 n).2
      have g3 : (a + n + 2) * ((n + 1) * cfQ a x n) ≤ cfQ a x (n + 2) := by
        have e : cfQ a x (n + 2) = cfQ a x (n + 1) * (x + 2 * (n + 1) + 2 - a)
          + (a - (n + 2)) * ((n + 1) * cfQ a x n) := by rw [cfQ]; ring
        rw [e]
        have : (n + 1) * cfQ a x n * (x + 2 * (n + 1) + 2 - a) ≤ cfQ a x (n + 1) * (x + 2 * (n + 1) + 2 - a) :=
          mul_le_mul_of_nonneg_right g2 (by linarith)
        have h5 : 0 ≤ (x - a) * ((n + 1) * cfQ a x n) := mul_nonneg (by linarith) (by positivity)
        nlinarith
      have h3 : (a + n + 3) * -((n : ℝ) + 2 - a) ≤ (a + n + 1) * (a + n + 2) := by nlinarith
      calc _ = (a + n + 3) * -((n : ℝ) + 2 - a) * ((n + 1) * cfQ a x n) := by ring
        _ ≤ (a + n + 1) * (a + n + 2) * ((n + 1) * cfQ a x n) := mul_le_mul_of_nonneg_right h3 (by positivity)
        _ = (a + n + 1) * ((a + n + 2) * ((n + 1) * cfQ a x n)) := by ring
        _ ≤ _ := by gcongr
  unfold cfd
  rw [cfD_succ, abs_mul, abs_mul, abs_of_nonneg (by positivity : (0 : ℝ) ≤ n + 1), ← mul_div_assoc, ← mul_div_assoc,
    div_le_div_iff₀ (by positivity) (by positivity)]
  have hD := abs_nonneg (cfD a x n)
  calc (a + n + 3) * ((n + 1) * |(n : ℝ) + 2 - a| * |cfD a x n|) * (cfQ a x n * cfQ a x (n + 1))
      = (a + n + 3) * ((n + 1) * |(n : ℝ) + 2 - a|) * cfQ a x n * (|cfD a x n| * cfQ a x (n + 1)) := by ring
    _ ≤ (a + n + 1) * cfQ a x (n + 2) * (|cfD a x n| * cfQ a x (n + 1)) :=
        mul_le_mul_of_nonneg_right key (by positivity)
    _ = _ := by ring

/-- the distance of two convergents -/
theorem cf_dist {a x : ℝ} (ha : 0 < a) (hxa : a < x) (hx : 1 ≤ x) (n j : ℕ) :
    |cfP a x (n + 1 + j) / cfQ a x (n + 1 + j) - cfP a x (n + 1) / cfQ a x (n + 1)|
      + (a + (n + j : ℕ) + 1) * cfd a x (n + j) ≤ (a + n + 1) * cfd a x n := by
  have hx0 : 0 < x := by linarith
  induction j with
  | zero => simp
  | succ j ih =>
    have h1 := cfd_succ ha hxa hx (n + j)
    have h2 := cfd_eq hxa hx0 (n + j + 1)
    have e : n + 1 + (j + 1) = n + j + 1 + 1 := by ring
    have e2 : n + 1 + j = n + j + 1 := by ring
    rw [e2] at ih
    rw [e]
    have h3 := abs_add_le (cfP a x (n + j + 1 + 1) / cfQ a x (n + j + 1 + 1) - cfP a x (n + j + 1) / cfQ a x (n + j + 1))
      (cfP a x (n + j + 1) / cfQ a x (n + j + 1) - cfP a x (n + 1) / cfQ a x (n + 1))
    rw [sub_add_sub_cancel, ← h2] at h3
    rw [show n + (j + 1) = n + j + 1 by ring]
    push_cast at h1 ih ⊢
    linarith

theorem cf_prod_bounded {a x : ℝ} (ha : 0 < a) (hxa : a < x) (hx : 1 ≤ x) :
    ∃ M, ∀ n, |∏ k ∈ Finset.range (n + 1), ((k : ℝ) + 1 - a)| / cfQ a x n ≤ M := by
  have hx0 : 0 < x := by linarith
  obtain ⟨n0, hn0⟩ := exists_nat_ge a
  set f : ℕ → ℝ := fun n => |∏ k ∈ Finset.range (n + 1), ((k : ℝ) + 1 - a)| / cfQ a x n with hf
  have step : ∀ n : ℕ, n0 ≤ n → f (n + 1) ≤ f n := by
    intro n hn
    have hn' : (n0 : ℝ) ≤ n := by exact_mod_cast hn
    have g := cfQ_growth_late hxa hx0 n (by linarith)
    have q0 := cfQ_pos hxa hx0 n
    have q1 := cfQ_pos hxa hx0 (n + 1)
    simp only [hf]
    rw [Finset.prod_range_succ _ (n + 1), abs_mul, div_le_div_iff₀ q1 q0]
    set A := |∏ k ∈ Finset.range (n + 1), ((k : ℝ) + 1 - a)|
    have hA : 0 ≤ A := abs_nonneg _
    push_cast
    rw [abs_of_nonneg (by linarith)]
    have : ((n : ℝ) + 1 + 1 - a) * cfQ a x n ≤ cfQ a x (n + 1) := by nlinarith
    nlinarith
  have late : ∀ j, f (n0 + j) ≤ f n0 := by
    intro j
    induction j with
    | zero => exact le_rfl
    | succ j ih => exact (step (n0 + j) (by omega)).trans ih
  refine ⟨∑ k ∈ Finset.range (n0 + 1), f k, fun n => ?_⟩
  have hpos : ∀ k, 0 ≤ f k := fun k => div_nonneg (abs_nonneg _) (cfQ_pos hxa hx0 k).le
  have hle : ∀ k, k ≤ n0 → f k ≤ ∑ k ∈ Finset.range (n0 + 1), f k := fun k hk =>
    Finset.single_le_sum (fun i _ => hpos i) (Finset.mem_range.2 (by omega))
  rcases le_total n n0 with h | h
  · exact hle n h
  · obtain ⟨j, rfl⟩ := Nat.exists_eq_add_of_le h
    exact (late j).trans (hle n0 le_rfl)

/-- the convergents tend to the upper integral -/
theorem cf_tendsto {a x : ℝ} (ha : 0 < a) (hxa : a < x) (hx : 1 ≤ x) :
    Tendsto (fun n => cfP a x n / cfQ a x n) atTop (𝓝 (uInt a x / (x ^ a * Real.exp (-x)))) := by
  have hx0 : 0 < x := by linarith
  obtain ⟨M, hM⟩ := cf_prod_bounded ha hxa hx
  have hE : 0 < x ^ a * Real.exp (-x) := by
    have := Real.rpow_pos_of_pos hx0 a
    positivity
  rw [tendsto_iff_norm_sub_tendsto_zero]
  have hk : ∀ n, 0 ≤ kInt a x n := fun n =>
    MeasureTheory.setIntegral_nonneg measurableSet_Ioi fun t ht => (kf_bound hx0 (le_of_lt ht) a n).1
  have hl : Tendsto (fun n => x * M * kInt a x n / (x ^ a * Real.exp (-x))) atTop (𝓝 0) := by
    have := ((kInt_tendsto hx0 a).const_mul (x * M)).div_const (x ^ a * Real.exp (-x))
    simpa using this
  refine squeeze_zero (fun _ => norm_nonneg _) (fun n => ?_) hl
  have hq := cfQ_pos hxa hx0 n
  have hr := cf_remainder hx0 a n
  rw [Real.norm_eq_abs, div_sub_div _ _ hq.ne' hE.ne', hr, abs_div, abs_of_pos (mul_pos hq hE), abs_mul, abs_mul,
    abs_of_pos hx0, abs_of_nonneg (hk n), div_le_div_iff₀ (mul_pos hq hE) hE]
  have := hM n
  rw [div_le_iff₀ hq] at this
  calc x * |∏ k ∈ Finset.range (n + 1), ((k : ℝ) + 1 - a)| * kInt a x n * (x ^ a * Real.exp (-x))
      ≤ x * (M * cfQ a x n) * kInt a x n * (x ^ a * Real.exp (-x)) := by
        have := hk n
        gcongr
    _ = _ := by ring

theorem cf_error {a x : ℝ} (ha : 0 < a) (hxa : a < x) (hx : 1 ≤ x) (n : ℕ) :
    |uInt a x / (x ^ a * Real.exp (-x)) - cfP a x (n + 1) / cfQ a x (n + 1)| ≤ (a + n + 1) * cfd a x n := by
  have hx0 : 0 < x := by linarith
  have h1 : Tendsto (fun j => |cfP a x (n + 1 + j) / cfQ a x (n + 1 + j) - cfP a x (n + 1) / cfQ a x (n + 1)|) atTop
      (𝓝 |uInt a x / (x ^ a * Real.exp (-x)) - cfP a x (n + 1) / cfQ a x (n + 1)|) := by
    have : Tendsto (fun j => n + 1 + j) atTop atTop := tendsto_add_atTop_nat (n + 1) |>.congr fun j => by ring
    exact (((cf_tendsto ha hxa hx).comp this).sub_const _).abs
  refine le_of_tendsto' h1 fun j => ?_
  have := cf_dist ha hxa hx n j
  have h3 : 0 ≤ (a + (n + j : ℕ) + 1) * cfd a x (n + j) := mul_nonneg (by positivity) (cfd_nonneg hxa hx0 _)
  linarith

/-- the number of rounds and the value of the continued fraction loop -/
theorem lrFrac_value' {a x : ℝ} (hxa : a < x) (hx : 0 < x) (fuel : ℕ) : ∀ {n : ℕ} {s : CF} {v : ℝ},
    CFInv a x n s → lrFrac fuel s = some v →
    ∃ m, m + 1 ≤ n + fuel ∧ v = cfP a x (m + 2) / cfQ a x (m + 2) ∧ cfE a x m ≤ 0.000000000000001 := by
  induction fuel with
  | zero => intro n s v _ h; simp [lrFrac] at h
  | succ k ih =>
    intro n s v hs hv
    obtain ⟨s', hs', h⟩ := lrFrac_step hxa hx hs
    rw [h k] at hv
    split_ifs at hv with he
    · injection hv with hv
      exact ⟨n, by omega, hv.symm, he⟩
    · obtain ⟨m, h1, h2, h3⟩ := ih hs' hv
      exact ⟨m, by omega, h2, h3⟩

/-- the truncation error of the continued fraction loop after at most `n` rounds -/
theorem lrFrac_error {a x v : ℝ} {n : ℕ} {s : CF} (ha : 0 < a) (hxa : a < x) (hx : 1 ≤ x)
    (hs : CFInv a x 0 s) (hv : lrFrac n s = some v) :
    0 < v ∧ |uInt a x / (x ^ a * Real.exp (-x)) - v| ≤ (a + n + 1) * 1e-15 * v := by
  have hx0 : 0 < x := by linarith
  obtain ⟨m, h1, h2, h3⟩ := lrFrac_value' hxa hx0 n hs hv
  have p2 := (cfP_growth hxa hx0 (m + 2)).1
  have q1 := cfQ_pos hxa hx0 (m + 1)
  have q2 := cfQ_pos hxa hx0 (m + 2)
  have hv0 : 0 < v := by rw [h2]; positivity
  refine ⟨hv0, ?_⟩
  have h4 := cf_error ha hxa hx (m + 1)
  rw [← h2] at h4
  have e : cfd a x (m + 1) = cfE a x m * v := by
    rw [cfd, cfE, h2]; field_simp
  rw [e] at h4
  have hE : 0 ≤ cfE a x m := by rw [cfE]; positivity
  have hm : (m : ℝ) + 1 ≤ n := by exact_mod_cast (by omega : m + 1 ≤ n)
  refine h4.trans ?_
  push_cast
  rw [mul_assoc]
  have h5 : cfE a x m ≤ 1e-15 := h3.trans (le_of_eq (by norm_num))
  gcongr

end Special
end Verif
