import Verif.ErfAcc

/-!
# C49: a bound for the number of rounds of the continued fraction, and the error bound without this number
-/

namespace Verif
namespace Special
open MeasureTheory Set

theorem rec_nonneg {a x : ℝ} (hxa : a < x) (hx : 0 < x) {F : ℕ → ℝ} (h0 : 0 ≤ F 0) (h1 : F 0 ≤ F 1)
    (hr : ∀ n : ℕ, F (n + 2) = F (n + 1) * (x + 2 * (n + 1) + 2 - a) - F n * ((n + 1) * (n + 2 - a))) (n : ℕ) :
    0 ≤ F n ∧ (n + 1) * F n ≤ F (n + 1) := by
  induction n with
  | zero => exact ⟨h0, by simpa using h1⟩
  | succ n ih =>
    obtain ⟨hp, hg⟩ := ih
    have hp1 : 0 ≤ F (n + 1) := le_trans (by positivity) hg
    refine ⟨hp1, ?_⟩
    rw [hr n]
    push_cast
    by_cases h : a ≤ n + 2
    · have : (n + 2 - a) * ((n + 1) * F n) ≤ (n + 2 - a) * F (n + 1) :=
        mul_le_mul_of_nonneg_left hg (by linarith)
      nlinarith
    · push Not at h
      have : 0 ≤ (a - n - 2) * ((n + 1) * F n) := by
        apply mul_nonneg (by linarith); positivity
      have h3 : 0 ≤ (x - a) * F (n + 1) := mul_nonneg (by linarith) hp1
      have h4 : 0 ≤ (n : ℝ) * F (n + 1) := by positivity
      nlinarith

/-- for `a ≥ 1` all convergents are at least `1 / x` -/
theorem cfQ_le {a x : ℝ} (h1 : 1 ≤ a) (hxa : a < x) (n : ℕ) : cfQ a x n ≤ x * cfP a x n := by
  have hx : 0 < x := by linarith
  have := (rec_nonneg hxa hx (F := fun n => x * cfP a x n - cfQ a x n) (by simp [cfP, cfQ])
    (by simp only [cfP, cfQ]; nlinarith) (fun n => by simp only [cfP, cfQ]; ring) n).1
  linarith

theorem cfd_le {a x : ℝ} (h1 : 1 ≤ a) (hxa : a < x) (n : ℕ) : cfd a x n ≤ cfd a x 0 := by
  have hx : 0 < x := by linarith
  induction n with
  | zero => exact le_rfl
  | succ n ih =>
    have := cfd_succ (by linarith) hxa (by linarith) n
    have h0 := cfd_nonneg hxa hx n
    have hn : (0 : ℝ) ≤ n := Nat.cast_nonneg n
    refine le_trans ?_ ih
    by_contra hc
    push Not at hc
    nlinarith

theorem cfE_le {a x : ℝ} (h1 : 1 ≤ a) (hxa : a < x) (n : ℕ) : cfE a x n ≤ a / 2 := by
  have hx : 0 < x := by linarith
  have q1 := cfQ_pos hxa hx (n + 1)
  have q2 := cfQ_pos hxa hx (n + 2)
  have p2 := (cfP_growth hxa hx (n + 2)).1
  have e : cfE a x n = cfd a x (n + 1) * (cfQ a x (n + 2) / cfP a x (n + 2)) := by
    rw [cfd, cfE]; field_simp
  have hv : cfQ a x (n + 2) / cfP a x (n + 2) ≤ x := by
    rw [div_le_iff₀ p2]; exact cfQ_le h1 hxa _
  have h0 : cfd a x 0 = (a - 1) / (x * (x + 2 - a)) := by
    rw [cfd, cfD]
    simp only [cfP, cfQ]
    rw [show (x + 1) * x - 1 * ((x + 2 - a) * x) = (a - 1) * x by ring,
      abs_of_nonneg (mul_nonneg (by linarith) hx.le)]
    have : x + 2 - a ≠ 0 := by linarith
    field_simp
  rw [e]
  calc cfd a x (n + 1) * (cfQ a x (n + 2) / cfP a x (n + 2)) ≤ cfd a x 0 * x := by
        refine mul_le_mul (cfd_le h1 hxa _) hv (by positivity) (cfd_nonneg hxa hx 0)
    _ = (a - 1) / (x + 2 - a) := by
        rw [h0]
        have : x + 2 - a ≠ 0 := by linarith
        field_simp
    _ ≤ a / 2 := by
        rw [div_le_div_iff₀ (by linarith) (by norm_num)]
        nlinarith

/-- growth of a solution of the recursion beyond `a` -/
theorem rec_growth_late {a x : ℝ} (ha : 1 ≤ a) (hxa : a < x) {F : ℕ → ℝ} (h0 : 0 < F 0) (h1 : F 0 ≤ F 1)
    (hr : ∀ n : ℕ, F (n + 2) = F (n + 1) * (x + 2 * (n + 1) + 2 - a) - F n * ((n + 1) * (n + 2 - a))) (n : ℕ)
    (hn : a ≤ n + 2) : ((n : ℝ) + 2 + √(a * (n + 1))) * F (n + 1) ≤ F (n + 2) := by
  have hx : 0 < x := by linarith
  induction n with
  | zero =>
    have := rec_growth' hxa hx h0 h1 hr 0 hn
    have hp := (rec_growth hxa hx h0 h1 hr 1).1
    have hs : √(a * ((0 : ℕ) + 1)) ≤ x := by
      rw [Real.sqrt_le_left hx.le]
      push_cast
      nlinarith
    push_cast at this hs ⊢
    nlinarith
  | succ n ih =>
    have hp1 := (rec_growth hxa hx h0 h1 hr (n + 1)).1
    have hp2 := (rec_growth hxa hx h0 h1 hr (n + 2)).1
    push_cast at hn ⊢
    rw [show (n : ℝ) + 1 + 1 = n + 2 by ring, show (n : ℝ) + 1 + 2 = n + 3 by ring]
    rcases le_or_gt ((n : ℝ) + 2) a with h | h
    · have := rec_growth' hxa hx h0 h1 hr (n + 1) (by push_cast; linarith)
      have hs : √(a * ((n : ℝ) + 2)) ≤ x := by
        rw [Real.sqrt_le_left hx.le]
        nlinarith
      push_cast at this
      have h5 : ((n : ℝ) + 3 + √(a * ((n : ℝ) + 2))) * F (n + 2) ≤ (x + ((n : ℝ) + 1) + 2) * F (n + 2) :=
        mul_le_mul_of_nonneg_right (by linarith) hp2.le
      exact h5.trans this
    · have ih := ih h.le
      have hn0 : (0 : ℝ) ≤ n := Nat.cast_nonneg n
      set c := √(a * ((n : ℝ) + 1)) with hc
      set c' := √(a * ((n : ℝ) + 2)) with hc'
      have hc2 : c ^ 2 = a * (n + 1) := Real.sq_sqrt (by positivity)
      have hc2' : c' ^ 2 = a * (n + 2) := Real.sq_sqrt (by positivity)
      have hc0 : 1 ≤ c := Real.one_le_sqrt.2 (by nlinarith)
      have hcc : c' ≤ c + a / (2 * c) := by
        refine abs_le_of_sq_le_sq' ?_ (by positivity) |>.2
        have : (c + a / (2 * c)) ^ 2 = c ^ 2 + a + (a / (2 * c)) ^ 2 := by field_simp; ring
        rw [this, hc2, hc2']
        have := sq_nonneg (a / (2 * c))
        linarith
      rw [hr (n + 1)]
      push_cast
      have hd : 0 < (n : ℝ) + 2 + c := by linarith
      have hF : F (n + 1) * (((n : ℝ) + 1 + 1) * (n + 1 + 2 - a))
          ≤ F (n + 2) * ((n + 2) * (n + 3 - a) / (n + 2 + c)) := by
        have e : F (n + 1) * (((n : ℝ) + 1 + 1) * (n + 1 + 2 - a))
            = (((n : ℝ) + 2 + c) * F (n + 1)) * ((n + 2) * (n + 3 - a) / (n + 2 + c)) := by
          field_simp; ring
        rw [e]
        exact mul_le_mul_of_nonneg_right ih (div_nonneg (mul_nonneg (by linarith) (by linarith)) hd.le)
      have hk : (n : ℝ) + 3 + c' ≤ x + 2 * ((n : ℝ) + 1 + 1) + 2 - a - (n + 2) * (n + 3 - a) / (n + 2 + c) := by
        have e2 : ((n : ℝ) + 2) * (n + 3 - a) / (n + 2 + c) = n + 3 - a - c + c * (c - 1 + a) / (n + 2 + c) := by
          field_simp; ring
        rw [e2]
        have e3 : c * (c - 1 + a) / (n + 2 + c) ≤ a - a / (2 * c) := by
          rw [div_le_iff₀ hd]
          have e4 : (a - a / (2 * c)) * (n + 2 + c) = a * (n + 2 + c) - a / 2 - a * (n + 2) / (2 * c) := by
            field_simp; ring
          have e5 : a * ((n : ℝ) + 2) / (2 * c) ≤ c / 2 + a / 2 := by
            rw [div_le_iff₀ (by linarith)]
            have : (c / 2 + a / 2) * (2 * c) = c ^ 2 + a * c := by ring
            rw [this, hc2]
            nlinarith
          rw [e4]
          nlinarith
        linarith
      calc ((n : ℝ) + 3 + c') * F (n + 2)
          ≤ (x + 2 * ((n : ℝ) + 1 + 1) + 2 - a - (n + 2) * (n + 3 - a) / (n + 2 + c)) * F (n + 2) :=
            mul_le_mul_of_nonneg_right hk hp2.le
        _ ≤ _ := by nlinarith

theorem cfP_late {a x : ℝ} (ha : 1 ≤ a) (hxa : a < x) (n : ℕ) (hn : a ≤ n + 2) :
    ((n : ℝ) + 2 + √(a * (n + 1))) * cfP a x (n + 1) ≤ cfP a x (n + 2) :=
  rec_growth_late ha hxa (by simp [cfP]) (by simp only [cfP]; linarith) (fun _ => rfl) n hn

theorem cfQ_late {a x : ℝ} (ha : 1 ≤ a) (hxa : a < x) (n : ℕ) (hn : a ≤ n + 2) :
    ((n : ℝ) + 2 + √(a * (n + 1))) * cfQ a x (n + 1) ≤ cfQ a x (n + 2) :=
  rec_growth_late ha hxa (by simp only [cfQ]; linarith) (by simp only [cfQ]; nlinarith) (fun _ => rfl) n hn

/-- the decrease of the relative change beyond `a` -/
theorem cfE_step_late {a x r : ℝ} (ha : 1 ≤ a) (hxa : a < x) (n : ℕ) (hn : a ≤ n + 2)
    (h1 : ((n : ℝ) + 2) ≤ r * (n + 2 + √(a * (n + 1)))) (h2 : ((n : ℝ) + 3) ≤ r * (n + 3 + √(a * (n + 2)))) :
    cfE a x (n + 1) ≤ r ^ 2 * cfE a x n := by
  have hx : 0 < x := by linarith
  have q1 := cfQ_pos hxa hx (n + 1)
  have q2 := cfQ_pos hxa hx (n + 2)
  have p2 := (cfP_growth hxa hx (n + 2)).1
  have p3 := (cfP_growth hxa hx (n + 3)).1
  have gq := cfQ_late ha hxa n hn
  have gp := cfP_late ha hxa (n + 1) (by push_cast; linarith)
  have hn0 : (0 : ℝ) ≤ n := Nat.cast_nonneg n
  push_cast at gp
  rw [show (n : ℝ) + 1 + 1 = n + 2 by ring, show (n : ℝ) + 1 + 2 = n + 3 by ring] at gp
  have s1 := Real.sqrt_nonneg (a * ((n : ℝ) + 1))
  have s2 := Real.sqrt_nonneg (a * ((n : ℝ) + 2))
  have hr0 : 0 < r := by
    by_contra hc
    push Not at hc
    nlinarith
  have hD : 0 ≤ |cfD a x (n + 1)| := abs_nonneg _
  have e1 : |(((n + 1 : ℕ) : ℝ) + 1) * (((n + 1 : ℕ) : ℝ) + 2 - a)| ≤ (n + 2) * (n + 3) := by
    push_cast
    rw [abs_of_nonneg (mul_nonneg (by linarith) (by linarith))]
    exact mul_le_mul (by linarith) (by linarith) (by linarith) (by linarith)
  unfold cfE
  rw [cfD_succ a x (n + 1), abs_mul]
  rw [← mul_div_assoc, div_le_div_iff₀ (mul_pos q2 p3) (mul_pos q1 p2)]
  set D := |cfD a x (n + 1)|
  calc |(((n + 1 : ℕ) : ℝ) + 1) * (((n + 1 : ℕ) : ℝ) + 2 - a)| * D * (cfQ a x (n + 1) * cfP a x (n + 2))
      ≤ ((r * (n + 2 + √(a * (n + 1)))) * (r * (n + 3 + √(a * (n + 2))))) * D * (cfQ a x (n + 1) * cfP a x (n + 2)) := by
        have : |(((n + 1 : ℕ) : ℝ) + 1) * (((n + 1 : ℕ) : ℝ) + 2 - a)|
            ≤ (r * (n + 2 + √(a * (n + 1)))) * (r * (n + 3 + √(a * (n + 2)))) :=
          e1.trans (mul_le_mul h1 h2 (by linarith) (by positivity))
        gcongr
    _ = r ^ 2 * D * (((n + 2 + √(a * (n + 1))) * cfQ a x (n + 1)) * ((n + 3 + √(a * (n + 2))) * cfP a x (n + 2))) := by
        ring
    _ ≤ r ^ 2 * D * (cfQ a x (n + 2) * cfP a x (n + 3)) := by gcongr

/-! ## large `a` -/

theorem cfE_half {a x : ℝ} (ha : 100 ≤ a) (hxa : a < x) (n : ℕ) (hn : a ≤ n + 2) (hn4 : (n : ℝ) ≤ 4 * a) :
    cfE a x (n + 1) ≤ 1 / 2 * cfE a x n := by
  have hx : 0 < x := by linarith
  have h1 : 0.45 * ((n : ℝ) + 2) ≤ √(a * (n + 1)) := by
    refine Real.le_sqrt_of_sq_le ?_
    norm_num
    nlinarith
  have h2 : 0.45 * ((n : ℝ) + 3) ≤ √(a * (n + 2)) := by
    refine Real.le_sqrt_of_sq_le ?_
    norm_num
    nlinarith
  have := cfE_step_late (r := 1 / 1.45) (by linarith) hxa n hn
    (by norm_num at h1 ⊢; linarith) (by norm_num at h2 ⊢; linarith)
  have h0 : 0 ≤ cfE a x n := by
    have q1 := cfQ_pos hxa hx (n + 1)
    have p2 := (cfP_growth hxa hx (n + 2)).1
    rw [cfE]; positivity
  norm_num at this ⊢
  linarith

theorem cfE_large {a x : ℝ} (ha : 100 ≤ a) (hxa : a < x) : cfE a x (2 * ⌈a⌉₊ + 99) ≤ 0.000000000000001 := by
  have hc := Nat.le_ceil a
  have hc' : (⌈a⌉₊ : ℝ) < a + 1 := Nat.ceil_lt_add_one (by linarith)
  have key : ∀ k : ℕ, k ≤ ⌈a⌉₊ + 99 → 2 ^ k * cfE a x (⌈a⌉₊ + k) ≤ a / 2 := by
    intro k hk
    induction k with
    | zero => simpa using cfE_le (by linarith) hxa ⌈a⌉₊
    | succ k ih =>
      have hk' : (k : ℝ) + 1 ≤ ⌈a⌉₊ + 99 := by exact_mod_cast hk
      have hk0 : (0 : ℝ) ≤ k := Nat.cast_nonneg k
      have h1 := cfE_half ha hxa (⌈a⌉₊ + k) (by push_cast; linarith) (by push_cast; linarith)
      refine le_trans ?_ (ih (by omega))
      rw [pow_succ, ← Nat.add_assoc]
      have : (0 : ℝ) < 2 ^ k := by positivity
      nlinarith
  have h := key (⌈a⌉₊ + 99) le_rfl
  rw [show ⌈a⌉₊ + (⌈a⌉₊ + 99) = 2 * ⌈a⌉₊ + 99 by ring, pow_add] at h
  have h2 : (⌈a⌉₊ : ℝ) < 2 ^ ⌈a⌉₊ := by exact_mod_cast Nat.lt_two_pow_self
  set e := cfE a x (2 * ⌈a⌉₊ + 99)
  set w : ℝ := 2 ^ ⌈a⌉₊ with hw
  by_contra hcon
  push Not at hcon
  have h3 : a * (2 ^ 99 * e) ≤ w * 2 ^ 99 * e := by
    have : 0 ≤ 2 ^ 99 * e := by
      have : (0 : ℝ) < 0.000000000000001 := by norm_num
      have : 0 < e := by linarith
      positivity
    nlinarith
  norm_num at hcon h3 h
  nlinarith

/-! ## moderate `a` -/

theorem cfE_step_mid {a x : ℝ} (ha : 1 ≤ a) (hxa : a < x) (n j : ℕ) (hn : a ≤ n + 2) (hj : n + 3 ≤ j ^ 2)
    (hj3 : 3 ≤ n) :
    cfE a x (n + 1) ≤ ((j + 1 : ℝ) / (j + 2)) ^ 2 * cfE a x n := by
  have hn3 : (3 : ℝ) ≤ n := by exact_mod_cast hj3
  have hj' : (n : ℝ) + 3 ≤ (j : ℝ) ^ 2 := by exact_mod_cast hj
  have hj0 : (0 : ℝ) ≤ j := Nat.cast_nonneg j
  have hj1 : (1 : ℝ) ≤ j := by nlinarith
  have key : ∀ y : ℝ, 2 ≤ y → y ≤ (j : ℝ) ^ 2 → y ≤ (j + 1) * √(a * (y - 1)) := by
    intro y h2 hy
    have h1 : y / (j + 1) ≤ √(a * (y - 1)) := by
      refine Real.le_sqrt_of_sq_le ?_
      rw [div_pow, div_le_iff₀ (by positivity)]
      have : y ^ 2 ≤ (y - 1) * (j + 1 : ℝ) ^ 2 := by nlinarith
      have h3 : 0 ≤ (y - 1) * (j + 1 : ℝ) ^ 2 := mul_nonneg (by linarith) (by positivity)
      nlinarith
    rw [div_le_iff₀ (by positivity)] at h1
    linarith
  have k1 := key (n + 2) (by linarith) (by linarith)
  have k2 := key (n + 3) (by linarith) hj'
  rw [show (n : ℝ) + 2 - 1 = n + 1 by ring] at k1
  rw [show (n : ℝ) + 3 - 1 = n + 2 by ring] at k2
  refine cfE_step_late ha hxa n hn ?_ ?_
  · rw [div_mul_eq_mul_div, le_div_iff₀ (by positivity)]
    linarith
  · rw [div_mul_eq_mul_div, le_div_iff₀ (by positivity)]
    linarith

theorem cfE_block_mid {a x : ℝ} (ha : 1 ≤ a) (hxa : a < x) (n i j : ℕ) (hn : a ≤ n + 2) (hj3 : 3 ≤ n)
    (hj : n + i + 2 ≤ j ^ 2) : cfE a x (n + i) ≤ ((j + 1 : ℝ) / (j + 2)) ^ (2 * i) * cfE a x n := by
  induction i with
  | zero => simp
  | succ i ih =>
    have hi : (0 : ℝ) ≤ i := Nat.cast_nonneg i
    have h1 := cfE_step_mid ha hxa (n + i) j (by push_cast; linarith) (by omega) (by omega)
    have h2 := ih (by omega)
    have hj0 : (0 : ℝ) ≤ ((j + 1 : ℝ) / (j + 2)) ^ 2 := by positivity
    calc cfE a x (n + (i + 1)) ≤ ((j + 1 : ℝ) / (j + 2)) ^ 2 * cfE a x (n + i) := h1
      _ ≤ ((j + 1 : ℝ) / (j + 2)) ^ 2 * (((j + 1 : ℝ) / (j + 2)) ^ (2 * i) * cfE a x n) :=
          mul_le_mul_of_nonneg_left h2 hj0
      _ = _ := by rw [← mul_assoc, ← pow_add]; congr 2; ring

theorem cfE_mid {a x : ℝ} (ha : 1 ≤ a) (ha' : a ≤ 100) (hxa : a < x) : cfE a x 439 ≤ 0.000000000000001 := by
  have b0 := cfE_le ha hxa 98
  have b11 := cfE_block_mid ha hxa 98 21 11 (by norm_num; linarith) (by norm_num) (by norm_num)
  have b12 := cfE_block_mid ha hxa 119 23 12 (by norm_num; linarith) (by norm_num) (by norm_num)
  have b13 := cfE_block_mid ha hxa 142 25 13 (by norm_num; linarith) (by norm_num) (by norm_num)
  have b14 := cfE_block_mid ha hxa 167 27 14 (by norm_num; linarith) (by norm_num) (by norm_num)
  have b15 := cfE_block_mid ha hxa 194 29 15 (by norm_num; linarith) (by norm_num) (by norm_num)
  have b16 := cfE_block_mid ha hxa 223 31 16 (by norm_num; linarith) (by norm_num) (by norm_num)
  have b17 := cfE_block_mid ha hxa 254 33 17 (by norm_num; linarith) (by norm_num) (by norm_num)
  have b18 := cfE_block_mid ha hxa 287 35 18 (by norm_num; linarith) (by norm_num) (by norm_num)
  have b19 := cfE_block_mid ha hxa 322 37 19 (by norm_num; linarith) (by norm_num) (by norm_num)
  have b20 := cfE_block_mid ha hxa 359 39 20 (by norm_num; linarith) (by norm_num) (by norm_num)
  have b21 := cfE_block_mid ha hxa 398 41 21 (by norm_num; linarith) (by norm_num) (by norm_num)
  norm_num at b11 b12 b13 b14 b15 b16 b17 b18 b19 b20 b21 ⊢
  linarith

theorem cf_rounds {a x : ℝ} (ha : 0 < a) (hx : 1 < x) (hxa : a < x) :
    ∃ N : ℕ, N ≤ 2 * ⌈a⌉₊ + 499 ∧ cfE a x N ≤ 0.000000000000001 := by
  rcases le_or_gt a 1 with h | h
  · exact ⟨142, by omega, cfE_142 ha h hx.le⟩
  · rcases le_or_gt a 100 with h2 | h2
    · exact ⟨439, by omega, cfE_mid h.le h2 hxa⟩
    · exact ⟨2 * ⌈a⌉₊ + 99, by omega, cfE_large h2.le hxa⟩

/-- **C49**, number of rounds of the continued fraction: `2⌈a⌉ + 500` rounds always suffice. -/
theorem C49_rounds_all (a x : ℝ) (ha : 0 < a) (hx : 1 < x) (hxa : a < x) :
    ∃ v, gammaLr (2 * ⌈a⌉₊ + 500) a x = some v := by
  obtain ⟨N, hN, hE⟩ := cf_rounds ha hx hxa
  have hx0 : 0 < x := by linarith
  obtain ⟨lg, hlg⟩ := lnGamma_of_pos ha
  have key : ∃ v, gammaLr (N + 1) a x = some v := by
    unfold gammaLr
    simp only [not_le.2 hx0, if_false, ha.ne', hx0.ne', hlg, Option.bind_eq_bind, Option.bind_some]
    split_ifs with h2 h3
    · exact ⟨1, rfl⟩
    · rcases h3 with h3 | h3 <;> linarith
    · obtain ⟨s, hs, hinv⟩ := lrFracInit_inv hxa hx0
      obtain ⟨v, hv⟩ := lrFrac_terminates_aux hxa hx0 N hinv (by rw [zero_add]; exact hE)
      exact ⟨1 - Real.exp (a * Real.log x - x - lg) * v, by rw [hs, Option.bind_some, hv, Option.bind_some]⟩
  obtain ⟨v, hv⟩ := key
  exact ⟨v, gammaLr_mono hv _ (by omega)⟩

example : ∃ v, gammaLr (2 * ⌈(1000 : ℝ)⌉₊ + 500) 1000 1001 = some v :=
  C49_rounds_all 1000 1001 (by norm_num) (by norm_num) (by norm_num)

/-- **C49**, error bound in the continued fraction branch, without the number of rounds: the value returned for the
regularised upper function is the true one up to a relative error of `1.1e-12 + 6e-15 a` (and `2.2e-200` when the
factor in front underflows). -/
theorem C49_accuracy_frac (n : ℕ) (a x v : ℝ) (ha : 0 < a) (hx : 1 < x) (hxa : a < x) (hv : gammaLr n a x = some v) :
    |(1 - v) * Real.Gamma a - ∫ t in Ioi x, Real.exp (-t) * t ^ (a - 1)|
      ≤ (1.1e-12 + 6e-15 * a) * |(1 - v) * Real.Gamma a| + 2.2e-200 * Real.Gamma a := by
  obtain ⟨w, hw⟩ := C49_rounds_all a x ha hx hxa
  have hvw : v = w := by
    have e1 := gammaLr_mono hv (max n (2 * ⌈a⌉₊ + 500)) (le_max_left _ _)
    have e2 := gammaLr_mono hw (max n (2 * ⌈a⌉₊ + 500)) (le_max_right _ _)
    rw [e1] at e2
    exact Option.some.inj e2
  rw [← hvw] at hw
  have h := (C49_accuracy _ a x v ha (by linarith) hw).2 ⟨hx, hxa⟩
  refine h.trans ?_
  have hc' : (⌈a⌉₊ : ℝ) < a + 1 := Nat.ceil_lt_add_one ha.le
  have hc0 : (0 : ℝ) ≤ ⌈a⌉₊ := Nat.cast_nonneg _
  have h2 : 2e-15 * (a + ((2 * ⌈a⌉₊ + 500 : ℕ) : ℝ) + 2) ≤ 1.1e-12 + 6e-15 * a := by
    push_cast
    norm_num
    linarith
  have h3 := le_abs_self ((1 - v) * Real.Gamma a)
  have h4 := abs_nonneg ((1 - v) * Real.Gamma a)
  have h5 : 2e-15 * (a + ((2 * ⌈a⌉₊ + 500 : ℕ) : ℝ) + 2) * ((1 - v) * Real.Gamma a)
      ≤ (1.1e-12 + 6e-15 * a) * |(1 - v) * Real.Gamma a| :=
    (mul_le_mul_of_nonneg_left h3 (by positivity)).trans (mul_le_mul_of_nonneg_right h2 h4)
  linarith

example (n : ℕ) (v : ℝ) (hv : gammaLr n 3 7 = some v) :
    |(1 - v) * Real.Gamma 3 - ∫ t in Ioi (7 : ℝ), Real.exp (-t) * t ^ ((3 : ℝ) - 1)|
      ≤ (1.1e-12 + 6e-15 * 3) * |(1 - v) * Real.Gamma 3| + 2.2e-200 * Real.Gamma 3 :=
  C49_accuracy_frac n 3 7 v (by norm_num) (by norm_num) (by norm_num) hv

/-- **C49**, absolute error of the regularised lower incomplete gamma function in all branches, for `a ≤ 10⁹`. -/
theorem C49_accuracy_abs (n : ℕ) (a x v : ℝ) (ha : 0 < a) (ha9 : a ≤ 10 ^ 9) (hx : 0 < x)
    (hv : gammaLr n a x = some v) :
    |v - (∫ t in (0 : ℝ)..x, t ^ (a - 1) * Real.exp (-t)) / Real.Gamma a|
      ≤ 1.2e-12 + 7e-15 * a + 1.2e-200 / max a x := by
  change |v - gInt a x / Real.Gamma a| ≤ 1.2e-12 + 7e-15 * a + 1.2e-200 / max a x
  have hG := Real.Gamma_pos_of_pos ha
  have hsum := gInt_add_uInt ha hx
  have g0 := gInt_nonneg (a := a) hx.le
  have u0 := uInt_nonneg (a := a) hx
  have hm : 0 < max a x := lt_max_of_lt_left ha
  set P := gInt a x / Real.Gamma a with hP
  have hgP : gInt a x = P * Real.Gamma a := by rw [hP]; field_simp
  have huP : uInt a x = (1 - P) * Real.Gamma a := by rw [hgP] at hsum; linarith
  have hP0 : 0 ≤ P := by positivity
  have hP1 : P ≤ 1 := by rw [hP, div_le_one hG]; linarith
  by_cases hb : x ≤ 1 ∨ x ≤ a
  · have h := (C49_accuracy n a x v ha hx hv).1 hb
    change |v * Real.Gamma a - gInt a x| ≤ 1e-15 * (x + 1) * gInt a x
      + 1.1e-200 * ((1 + x) / max a x) * Real.Gamma a at h
    rw [hgP, ← sub_mul, abs_mul, abs_of_pos hG, show 1e-15 * (x + 1) * (P * Real.Gamma a)
      + 1.1e-200 * ((1 + x) / max a x) * Real.Gamma a
      = (1e-15 * (x + 1) * P + 1.1e-200 * ((1 + x) / max a x)) * Real.Gamma a by ring] at h
    have h1 := le_of_mul_le_mul_right h hG
    refine h1.trans ?_
    have hx1 : x ≤ 1 + a := by rcases hb with hb | hb <;> linarith
    have h2 : 1e-15 * (x + 1) * P ≤ 1e-15 * (x + 1) * 1 := by gcongr
    have h3 : 1.1e-200 * ((1 + x) / max a x) ≤ 1.2e-200 / max a x + 1.1e-200 := by
      have e : (1 + x) / max a x ≤ 1 / max a x + 1 := by
        rw [add_div]
        gcongr
        rw [div_le_one hm]
        exact le_max_right _ _
      have e2 : 1.1e-200 * (1 / max a x) ≤ 1.2e-200 / max a x := by
        rw [mul_one_div]
        gcongr
        norm_num
      calc 1.1e-200 * ((1 + x) / max a x) ≤ 1.1e-200 * (1 / max a x + 1) := by gcongr
        _ = 1.1e-200 * (1 / max a x) + 1.1e-200 := by ring
        _ ≤ _ := by linarith
    have h4 : 1e-15 * (x + 1) + 1.1e-200 ≤ 1.2e-12 + 7e-15 * a := by norm_num; linarith
    linarith
  · push Not at hb
    have h := C49_accuracy_frac n a x v ha hb.1 hb.2 hv
    change |(1 - v) * Real.Gamma a - uInt a x| ≤ (1.1e-12 + 6e-15 * a) * |(1 - v) * Real.Gamma a|
      + 2.2e-200 * Real.Gamma a at h
    rw [huP, ← sub_mul, abs_mul, abs_mul, abs_of_pos hG, show (1.1e-12 + 6e-15 * a) * (|1 - v| * Real.Gamma a)
      + 2.2e-200 * Real.Gamma a = ((1.1e-12 + 6e-15 * a) * |1 - v| + 2.2e-200) * Real.Gamma a by ring] at h
    have h1 := le_of_mul_le_mul_right h hG
    rw [show (1 : ℝ) - v - (1 - P) = -(v - P) by ring, abs_neg] at h1
    have h2 : |1 - v| ≤ 1 + |v - P| := by
      rw [show 1 - v = (1 - P) + -(v - P) by ring]
      refine (abs_add_le _ _).trans ?_
      rw [abs_neg, abs_of_nonneg (by linarith : 0 ≤ 1 - P)]
      linarith
    have h3 : 0 ≤ 1.2e-200 / max a x := by positivity
    have h0 := abs_nonneg (v - P)
    have h5 : (1.1e-12 + 6e-15 * a) * |1 - v| ≤ (1.1e-12 + 6e-15 * a) * (1 + |v - P|) :=
      mul_le_mul_of_nonneg_left h2 (by positivity)
    have h6 : 1.1e-12 + 6e-15 * a ≤ (1e-4 : ℝ) := by norm_num at ha9 ⊢; linarith
    have h7 : (1.1e-12 + 6e-15 * a) * |v - P| ≤ 1e-4 * |v - P| := mul_le_mul_of_nonneg_right h6 h0
    norm_num at h1 h5 h7 h3 ⊢
    nlinarith

/-- `P(2, 3) = 1 - 4 e⁻³` up to `1.3e-12` -/
example (n : ℕ) (v : ℝ) (hv : gammaLr n 2 3 = some v) :
    |v - (∫ t in (0 : ℝ)..3, t ^ ((2 : ℝ) - 1) * Real.exp (-t)) / Real.Gamma 2| ≤ 1.3e-12 :=
  (C49_accuracy_abs n 2 3 v (by norm_num) (by norm_num) (by norm_num) hv).trans (by norm_num)

end Special
end Verif
