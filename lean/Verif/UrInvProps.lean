import Verif.IncGammaProps

/-!
# C49: the iteration of `gamma_ur_inv`
-/

namespace Verif
namespace Special

/-- the correction of one round for the value `x`: `t` is the Newton correction of `P(a, x) = 1 - q` (relative to `x`), and
the second-order term `w t²` is added if `t` and `w t` are small -/
noncomputable def urCorr (a q g l x : ℝ) : ℝ :=
  let t := (l - (1 - q)) / (x ^ a * Real.exp (-x) / g)
  if |t| ≤ 0.1 ∧ |(a - 1 - x) / 2 * t| ≤ 0.1 then t + (a - 1 - x) / 2 * t ^ 2 else t

theorem urInvStep_some {n : ℕ} {a q x : ℝ} {r : ℝ × Bool} (h : urInvStep n a q x = some r) :
    ∃ g l, gamma a = some g ∧ gammaLr n a x = some l ∧ r.1 = x * (1 - urCorr a q g l x) ∧
      x ^ a * Real.exp (-x) / g ≠ 0 ∧ (r.2 = true → |urCorr a q g l x| ≤ 1.1e-5) := by
  unfold urInvStep at h
  simp only [Option.bind_eq_bind] at h
  rw [Option.bind_eq_some_iff] at h
  obtain ⟨ρ, hρ, h⟩ := h
  have hg : ∃ g, gamma a = some g ∧ ρ = x ^ a * Real.exp (-x) / g := by
    unfold urInvR at hρ
    split_ifs at hρ
    simp only [Option.bind_eq_bind] at hρ
    rw [Option.bind_eq_some_iff] at hρ
    obtain ⟨g, hg, h2⟩ := hρ
    unfold R.div at h2
    split_ifs at h2
    exact ⟨g, hg, (Option.some.inj h2).symm⟩
  obtain ⟨g, hg, rfl⟩ := hg
  obtain ⟨l, t, hl, ht, hne, h⟩ : ∃ l t, gammaLr n a x = some l ∧ t = (l - (1 - q)) / (x ^ a * Real.exp (-x) / g) ∧
      x ^ a * Real.exp (-x) / g ≠ 0 ∧
      (if |t| ≤ 0.1 ∧ |(a - 1 - x) / 2 * t| ≤ 0.1 then
        if |(a - 1 - x) / 2| ≥ 1 ∧ |(a - 1 - x) / 2 * t * t| ≤ 1.0e-10 then
          some (x * (1 - (t + (a - 1 - x) / 2 * t * t)), true)
        else some (x * (1 - (t + (a - 1 - x) / 2 * t * t)), false)
      else if |t| < 1.0e-10 then some (x * (1 - t), true)
      else if |t| ≤ 1.0e-5 then
        if 1 - q ≤ 0.5 then
          (gammaLr n a x).bind fun l =>
            if |l - (1 - q)| < 1.0e-5 * (1 - q) then some (x * (1 - t), true) else some (x * (1 - t), false)
        else
          (gammaUr n a x).bind fun u =>
            if |q - u| ≤ 1.0e-5 * q then some (x * (1 - t), true) else some (x * (1 - t), false)
      else some (x * (1 - t), false)) = some r := by
    by_cases cp : 1 - q ≤ 0.5
    · rw [if_pos cp, Option.bind_eq_some_iff] at h
      obtain ⟨l, hl, h⟩ := h
      rw [Option.bind_eq_some_iff] at h
      obtain ⟨t, ht, h⟩ := h
      unfold R.div at ht
      split_ifs at ht with h0
      exact ⟨l, t, hl, (Option.some.inj ht).symm, h0, h⟩
    · rw [if_neg cp, Option.bind_eq_some_iff] at h
      obtain ⟨u, hu, h⟩ := h
      unfold gammaUr at hu
      simp only [Option.bind_eq_bind] at hu
      rw [Option.bind_eq_some_iff] at hu
      obtain ⟨l, hl, h3⟩ := hu
      rw [Option.bind_eq_some_iff] at h
      obtain ⟨t, ht, h⟩ := h
      unfold R.div at ht
      split_ifs at ht with h0
      refine ⟨l, t, hl, ?_, h0, h⟩
      rw [← Option.some.inj ht, ← Option.some.inj h3]
      congr 1; ring
  refine ⟨g, l, hg, hl, ?_⟩
  unfold urCorr
  simp only
  rw [← ht]
  clear ht
  by_cases c : |t| ≤ 0.1 ∧ |(a - 1 - x) / 2 * t| ≤ 0.1
  · rw [if_pos c] at h ⊢
    have e : (a - 1 - x) / 2 * t * t = (a - 1 - x) / 2 * t ^ 2 := by ring
    rw [e] at h
    by_cases c2 : |(a - 1 - x) / 2| ≥ 1 ∧ |(a - 1 - x) / 2 * t ^ 2| ≤ 1.0e-10
    · rw [if_pos c2] at h
      rw [← Option.some.inj h]
      refine ⟨rfl, hne, fun _ => ?_⟩
      have h1 : |t| ^ 2 ≤ 1e-10 := by
        have h2 := c2.2
        rw [abs_mul, abs_pow] at h2
        have h3 : 0 ≤ |t| ^ 2 := by positivity
        have h4 := c2.1
        norm_num at h2 ⊢
        nlinarith
      have h2 : |t| ≤ 1e-5 := le_of_sq_le_sq (h1.trans (by norm_num)) (by norm_num)
      calc |t + (a - 1 - x) / 2 * t ^ 2| ≤ |t| + |(a - 1 - x) / 2 * t ^ 2| := abs_add_le _ _
        _ ≤ 1e-5 + 1e-10 := add_le_add h2 (by have := c2.2; norm_num at this ⊢; exact this)
        _ ≤ 1.1e-5 := by norm_num
    · rw [if_neg c2] at h
      rw [← Option.some.inj h]
      exact ⟨rfl, hne, fun h => by simp at h⟩
  · rw [if_neg c] at h ⊢
    by_cases c1 : |t| < 1.0e-10
    · rw [if_pos c1] at h
      rw [← Option.some.inj h]
      exact ⟨rfl, hne, fun _ => c1.le.trans (by norm_num)⟩
    · rw [if_neg c1] at h
      by_cases c2 : |t| ≤ 1.0e-5
      · rw [if_pos c2] at h
        have hb : |t| ≤ 1.1e-5 := c2.trans (by norm_num)
        split_ifs at h
        · rw [Option.bind_eq_some_iff] at h
          obtain ⟨l', -, h⟩ := h
          split_ifs at h <;> rw [← Option.some.inj h] <;> exact ⟨rfl, hne, fun _ => hb⟩
        · rw [Option.bind_eq_some_iff] at h
          obtain ⟨l', -, h⟩ := h
          split_ifs at h <;> rw [← Option.some.inj h] <;> exact ⟨rfl, hne, fun _ => hb⟩
      · rw [if_neg c2] at h
        rw [← Option.some.inj h]
        exact ⟨rfl, hne, fun h => by simp at h⟩

theorem urInvLoop_some {n : ℕ} {a q : ℝ} : ∀ (m : ℕ) {x0 y : ℝ}, urInvLoop n a q m x0 = some y →
    ∃ (k : ℕ) (x : ℕ → ℝ), k ≤ m ∧ x 0 = x0 ∧ x k = y ∧
      (∀ i < k, ∃ g l, gamma a = some g ∧ gammaLr n a (x i) = some l ∧
        x i ^ a * Real.exp (-x i) / g ≠ 0 ∧ x (i + 1) = x i * (1 - urCorr a q g l (x i))) ∧
      (k < m → 0 < k ∧ |x k - x (k - 1)| ≤ 1.1e-5 * |x (k - 1)|)
  | 0, x0, y, h => by
    refine ⟨0, fun _ => x0, le_rfl, rfl, Option.some.inj h, fun i hi => absurd hi (by omega), fun h => absurd h (by omega)⟩
  | m + 1, x0, y, h => by
    rw [urInvLoop] at h
    simp only [Option.bind_eq_bind] at h
    rw [Option.bind_eq_some_iff] at h
    obtain ⟨r, hr, h⟩ := h
    obtain ⟨g, l, hg, hl, e1, hne, e2⟩ := urInvStep_some hr
    by_cases c : r.2 = true
    · rw [if_pos c] at h
      refine ⟨1, fun i => if i = 0 then x0 else y, by omega, rfl, rfl, fun i hi => ?_, fun _ => ⟨one_pos, ?_⟩⟩
      · obtain rfl : i = 0 := by omega
        refine ⟨g, l, hg, hl, hne, ?_⟩
        simp only [if_true, zero_add, one_ne_zero, if_false]
        rw [← e1]; exact (Option.some.inj h).symm
      · simp only [one_ne_zero, if_false, Nat.sub_self, if_true]
        rw [← Option.some.inj h, e1, show x0 * (1 - urCorr a q g l x0) - x0 = -(urCorr a q g l x0 * x0) by ring, abs_neg, abs_mul]
        exact mul_le_mul_of_nonneg_right (e2 c) (abs_nonneg _)
    · rw [if_neg c] at h
      obtain ⟨k, x, hk, h0, hy, hs, hl2⟩ := urInvLoop_some m h
      refine ⟨k + 1, fun i => if i = 0 then x0 else x (i - 1), by omega, rfl, by simpa using hy, fun i hi => ?_, fun hlt => ?_⟩
      · rcases Nat.eq_zero_or_pos i with rfl | hi0
        · refine ⟨g, l, hg, hl, hne, ?_⟩
          simp only [if_true, zero_add, one_ne_zero, if_false, Nat.sub_self]
          rw [h0, e1]
        · obtain ⟨g', l', a1, a2, a4, a3⟩ := hs (i - 1) (by omega)
          have e3 : (if i = 0 then x0 else x (i - 1)) = x (i - 1) := if_neg (by omega)
          refine ⟨g', l', a1, by simp only [e3]; exact a2, by simp only [e3]; exact a4, ?_⟩
          simp only [Nat.add_eq_zero_iff, one_ne_zero, and_false, if_false, Nat.add_sub_cancel, e3]
          rw [show i - 1 + 1 = i by omega] at a3
          exact a3
      · obtain ⟨b1, b2⟩ := hl2 (by omega)
        refine ⟨by omega, ?_⟩
        simp only [Nat.add_eq_zero_iff, one_ne_zero, and_false, if_false, Nat.add_sub_cancel]
        rw [if_neg (by omega)]
        exact b2

/-- C49: `gamma_ur_inv` (for `a ≠ 1`) returns the last element of a sequence of at most 20 Newton or second-order corrections
of the equation `gamma_lr a x = 1 - q`, starting at the start value; if it stops before the 20th round, the last two
elements differ by at most the fraction `1.1 · 10⁻⁵`. -/
theorem C49_ur_inv_steps {n : ℕ} {a q y : ℝ} (ha : a ≠ 1) (h : gammaUrInv n a q = some y) :
    ∃ (k : ℕ) (x : ℕ → ℝ), k ≤ 20 ∧ urInvStart a q = some (x 0) ∧ x k = y ∧
      (∀ i < k, ∃ g l t, gamma a = some g ∧ gammaLr n a (x i) = some l ∧
        t * (x i ^ a * Real.exp (-x i) / g) = l - (1 - q) ∧
        (x (i + 1) = x i * (1 - t) ∨ x (i + 1) = x i * (1 - (t + (a - 1 - x i) / 2 * t ^ 2)))) ∧
      (k < 20 → 0 < k ∧ |x k - x (k - 1)| ≤ 1.1e-5 * |x (k - 1)|) := by
  rw [gammaUrInv, if_neg ha] at h
  simp only [Option.bind_eq_bind] at h
  rw [Option.bind_eq_some_iff] at h
  obtain ⟨x0, h0, h⟩ := h
  obtain ⟨k, x, hk, e0, ey, hs, hl⟩ := urInvLoop_some 20 h
  refine ⟨k, x, hk, by rw [e0]; exact h0, ey, fun i hi => ?_, hl⟩
  obtain ⟨g, l, hg, hl1, hne, e⟩ := hs i hi
  refine ⟨g, l, _, hg, hl1, div_mul_cancel₀ (l - (1 - q)) hne, ?_⟩
  unfold urCorr at e
  simp only at e
  split_ifs at e
  · exact Or.inr e
  · exact Or.inl e

example {n : ℕ} {y : ℝ} (h : gammaUrInv n 2 0.5 = some y) : ∃ x0, urInvStart 2 0.5 = some x0 := by
  obtain ⟨k, x, -, h0, -⟩ := C49_ur_inv_steps (by norm_num) h
  exact ⟨_, h0⟩

end Special
end Verif
