import Verif.BetaProps
import Verif.BetaIncLemmas
import Mathlib.Tactic.IntervalCases

/-!
# C51: the loop of `beta_inc_reg` ends and computes the incomplete beta integral
-/

namespace Verif
namespace Special
open Filter Topology Finset

theorem betaLoop_mono {lo : ℤ} {pp qq xx : ℝ} {n : ℕ} {term value temp ai rx psq w : ℝ} {ns : ℤ}
    (h : betaLoop lo pp qq xx n term value temp ai rx psq ns = some w) (m : ℕ) (hm : n ≤ m) :
    betaLoop lo pp qq xx m term value temp ai rx psq ns = some w := by
  induction n generalizing m term value temp ai rx psq ns with
  | zero => simp [betaLoop] at h
  | succ n ih =>
    obtain ⟨m, rfl⟩ : ∃ k, m = k + 1 := ⟨m - 1, by omega⟩
    simp only [betaLoop, Option.bind_eq_bind] at h ⊢
    cases h1 : R.div (term * temp * rx) (pp + ai) with
    | none => rw [h1] at h; simp at h
    | some t =>
      rw [h1] at h
      simp only [Option.bind_some] at h ⊢
      by_cases h2 : |t| ≤ 0.1e-14 ∧ |t| ≤ 0.1e-14 * (value + t)
      · simp only [h2, and_self, if_true] at h ⊢; exact h
      · simp only [h2, if_false] at h ⊢
        by_cases h3 : ns - 1 < lo
        · simp only [h3, if_true] at h; exact absurd h (by simp)
        · simp only [h3, if_false] at h ⊢
          by_cases h4 : 0 ≤ ns - 1
          · simp only [h4, if_true] at h ⊢; exact ih h m (by omega)
          · simp only [h4, if_false] at h ⊢; exact ih h m (by omega)

/-- one round of the loop -/
theorem betaLoop_step (lo : ℤ) (pp qq xx : ℝ) (n : ℕ) (term value temp ai rx psq : ℝ) (ns : ℤ) (h : pp + ai ≠ 0) :
    betaLoop lo pp qq xx (n + 1) term value temp ai rx psq ns =
      let t := term * temp * rx / (pp + ai)
      if |t| ≤ 0.1e-14 ∧ |t| ≤ 0.1e-14 * (value + t) then some (value + t)
      else if ns - 1 < lo then none
      else if 0 ≤ ns - 1 then
        betaLoop lo pp qq xx n t (value + t) (qq - (ai + 1)) (ai + 1) (if ns - 1 = 0 then xx else rx) psq (ns - 1)
      else betaLoop lo pp qq xx n t (value + t) psq (ai + 1) rx (psq + 1) (ns - 1) := by
  rw [betaLoop, div_of_ne h]
  rfl

/-! ## what the loop returns -/

/-- the second part of the loop -/
theorem betaLoop_value2 {lo : ℤ} {p q x Q V C : ℝ} (hx0 : 0 < x) (hx1 : x < 1) (hp : 0 < p)
    (hC : ∀ P, p ≤ P → 0 < P + Q → |Mq x P Q - 1| ≤ C) (n : ℕ) :
    ∀ {term value P w : ℝ} {ns : ℤ}, p ≤ P → 0 < P + Q → ns < 0 →
    V = value + term * (Mq x P Q - 1) →
    betaLoop lo p q x n term value (P + Q) (P + 1 - p) x (P + Q + 1) ns = some w →
    |V - w| ≤ 0.1e-14 * C * w ∧ 0 ≤ w := by
  induction n with
  | zero => intro term value P w ns _ _ _ _ h; simp [betaLoop] at h
  | succ n ih =>
    intro term value P w ns hP hPQ hns hV h
    have hP0 : 0 < P := lt_of_lt_of_le hp hP
    have hne : p + (P + 1 - p) ≠ 0 := by
      have : p + (P + 1 - p) = P + 1 := by ring
      rw [this]; positivity
    rw [betaLoop_step _ _ _ _ _ _ _ _ _ _ _ _ hne] at h
    simp only [show p + (P + 1 - p) = P + 1 by ring] at h
    set t := term * (P + Q) * x / (P + 1) with ht
    have hV' : V = value + t + t * (Mq x (P + 1) Q - 1) := by
      rw [hV, mq_rec hx0 hx1 hP0 Q, ht]
      have : P + 1 ≠ 0 := by positivity
      field_simp
      ring
    by_cases h2 : |t| ≤ 0.1e-14 ∧ |t| ≤ 0.1e-14 * (value + t)
    · rw [if_pos h2] at h
      injection h with h
      have hc := hC (P + 1) (by linarith) (by linarith)
      have hw : 0 ≤ w := by
        rw [← h]
        have h3 := (abs_nonneg t).trans h2.2
        by_contra hcon
        push Not at hcon
        have : (0.1e-14 : ℝ) * (value + t) < 0 := mul_neg_of_pos_of_neg (by norm_num) hcon
        linarith
      refine ⟨?_, hw⟩
      have e : V - w = t * (Mq x (P + 1) Q - 1) := by rw [← h]; linarith
      rw [e, abs_mul]
      calc |t| * |Mq x (P + 1) Q - 1| ≤ (0.1e-14 * w) * C := by
            apply mul_le_mul _ hc (abs_nonneg _) (by positivity)
            rw [← h]; exact h2.2
        _ = _ := by ring
    · rw [if_neg h2] at h
      by_cases h3 : ns - 1 < lo
      · rw [if_pos h3] at h; exact absurd h (by simp)
      · rw [if_neg h3, if_neg (by omega)] at h
        refine ih (P := P + 1) (by linarith) (by linarith) (by omega : ns - 1 < 0) hV' ?_
        rw [show P + 1 + Q = P + Q + 1 by ring, show P + 1 + 1 - p = P + 1 - p + 1 by ring]
        exact h

/-- the first part of the loop; `k` is the round -/
theorem betaLoop_value1 {lo : ℤ} {p q x Q V C : ℝ} (hx0 : 0 < x) (hx1 : x < 1) (hp : 0 < p) (hq : 0 < q)
    (hC : ∀ P, p ≤ P → 0 < P + Q → |Mq x P Q - 1| ≤ C)
    (hC' : ∀ k : ℕ, |Nq x (p + k) (q - k) - 1| ≤ C) (n : ℕ) :
    ∀ {term value w : ℝ} {ns k : ℕ}, Q = q - (k + ns + 1) →
    V = value + term * (Nq x (p + k) (q - k) - 1) →
    betaLoop lo p q x n term value (q - (k + 1)) (k + 1) (if (ns : ℤ) = 0 then x else x / (1 - x)) (p + q) ns = some w →
    |V - w| ≤ 0.1e-14 * C * w ∧ 0 ≤ w := by
  have hc : (0 : ℝ) < 1 - x := sub_pos.2 hx1
  induction n with
  | zero => intro term value w ns k _ _ h; simp [betaLoop] at h
  | succ n ih =>
    intro term value w ns k hQ hV h
    have hk : (0 : ℝ) ≤ k := Nat.cast_nonneg k
    have hne : p + ((k : ℝ) + 1) ≠ 0 := by positivity
    rw [betaLoop_step _ _ _ _ _ _ _ _ _ _ _ _ hne] at h
    simp only at h
    set t := term * (q - (k + 1)) * (if (ns : ℤ) = 0 then x else x / (1 - x)) / (p + (k + 1)) with ht
    have hrec := nq_rec hx0 hx1 (by positivity : 0 < p + (k : ℝ)) (q - k)
    have fin : ∀ (E : ℝ), |E - 1| ≤ C → V = value + t + t * (E - 1) →
        (|t| ≤ 0.1e-14 ∧ |t| ≤ 0.1e-14 * (value + t)) → value + t = w → |V - w| ≤ 0.1e-14 * C * w ∧ 0 ≤ w := by
      intro E hE hV' h2 h
      have hw : 0 ≤ w := by
        rw [← h]
        have h3 := (abs_nonneg t).trans h2.2
        by_contra hcon
        push Not at hcon
        have : (0.1e-14 : ℝ) * (value + t) < 0 := mul_neg_of_pos_of_neg (by norm_num) hcon
        linarith
      refine ⟨?_, hw⟩
      have e : V - w = t * (E - 1) := by rw [← h]; linarith
      rw [e, abs_mul]
      calc |t| * |E - 1| ≤ (0.1e-14 * w) * C := by
            apply mul_le_mul _ hE (abs_nonneg _) (by positivity)
            rw [← h]; exact h2.2
        _ = _ := by ring
    rcases Nat.eq_zero_or_pos ns with hns | hns
    · -- the last round with the old factor
      subst hns
      have eQ : q - (k : ℝ) - 1 = Q := by rw [hQ]; push_cast; ring
      have hV' : V = value + t + t * (Mq x (p + (k + 1)) Q - 1) := by
        rw [hV, hrec, show p + (k : ℝ) + 1 = p + (k + 1) by ring, eQ, nq_mq hx0 hx1, ht, hQ]
        simp only [Nat.cast_zero, if_true]
        field_simp
        ring
      have hPQ : 0 < p + (k + 1) + Q := by rw [hQ]; push_cast; linarith
      by_cases h2 : |t| ≤ 0.1e-14 ∧ |t| ≤ 0.1e-14 * (value + t)
      · rw [if_pos h2] at h
        injection h with h
        exact fin _ (hC _ (by linarith) hPQ) hV' h2 h
      · rw [if_neg h2] at h
        by_cases h3 : ((0 : ℕ) : ℤ) - 1 < lo
        · rw [if_pos h3] at h; exact absurd h (by simp)
        · rw [if_neg h3, if_neg (by norm_num)] at h
          refine betaLoop_value2 (lo := lo) (q := q) hx0 hx1 hp hC n (P := p + (k + 1)) (ns := ((0 : ℕ) : ℤ) - 1)
            (by linarith) hPQ (by norm_num) hV' ?_
          have e1 : p + ((k : ℝ) + 1) + Q = p + q := by rw [hQ]; push_cast; ring
          rw [e1, show p + ((k : ℝ) + 1) + 1 - p = k + 1 + 1 by ring]
          simpa using h
    · have hns0 : ¬ (ns : ℤ) = 0 := by omega
      have hV' : V = value + t + t * (Nq x (p + (k + 1 : ℕ)) (q - (k + 1 : ℕ)) - 1) := by
        rw [hV, hrec, ht]
        simp only [hns0, if_false]
        push_cast
        rw [show p + (k : ℝ) + 1 = p + (k + 1) by ring, show q - (k : ℝ) - 1 = q - (k + 1) by ring]
        field_simp
        ring
      by_cases h2 : |t| ≤ 0.1e-14 ∧ |t| ≤ 0.1e-14 * (value + t)
      · rw [if_pos h2] at h
        injection h with h
        exact fin _ (hC' (k + 1)) hV' h2 h
      · rw [if_neg h2] at h
        by_cases h3 : (ns : ℤ) - 1 < lo
        · rw [if_pos h3] at h; exact absurd h (by simp)
        · rw [if_neg h3, if_pos (by omega)] at h
          refine ih (ns := ns - 1) (k := k + 1) ?_ hV' ?_
          · rw [hQ]; push_cast [hns]; ring
          · have e : (((ns - 1 : ℕ) : ℕ) : ℤ) = (ns : ℤ) - 1 := by omega
            rw [e]
            simp only [hns0, if_false] at h
            push_cast
            exact h

/-- `beta_inc_reg` in the tail that is summed: the value times `beta a b` is the incomplete beta integral up to a
relative error of `10^-15 (q + 1 + p / q)`.  Here `x` is at most the mean `p / (p + q)`, which the choice of the tail
ensures, and the number of Soper's rounds is not cut off at the largest `i32`. -/
theorem betaTail_accuracy {lo : ℤ} {n : ℕ} {a b x p q v : ℝ} (hx0 : 0 < x) (hx1 : x < 1) (hp : 0 < p) (hq : 0 < q)
    (hab : a + b = p + q) (hm : x * q ≤ p * (1 - x)) (hsat : q + (1 - x) * (p + q) < 2 ^ 31 - 1)
    (hv : betaTail lo n a b x (1 - x) p q = some v) :
    ∃ B, beta a b = some B ∧ 0 < B ∧ |v * B - Bx x p q| ≤ 1e-15 * (q + 1 + p / q) * (v * B) := by
  have hc : (0 : ℝ) < 1 - x := sub_pos.2 hx1
  set ns := toI32 (q + (1 - x) * (a + b)) with hnsdef
  have hfl : ns = ⌊q + (1 - x) * (p + q)⌋ := by
    rw [hnsdef, toI32, hab]
    apply min_eq_left
    have : ⌊q + (1 - x) * (p + q)⌋ < 2 ^ 31 - 1 := by
      rw [Int.floor_lt]; push_cast; norm_num at hsat ⊢; exact hsat
    omega
  have hns0 : 0 ≤ ns := by
    rw [hfl]; apply Int.floor_nonneg.2; positivity
  obtain ⟨m, hm'⟩ : ∃ m : ℕ, ns = m := ⟨ns.toNat, by omega⟩
  have hmlt : q + (1 - x) * (p + q) < m + 1 := by
    have := Int.lt_floor_add_one (q + (1 - x) * (p + q))
    rw [← hfl, hm'] at this
    exact_mod_cast this
  unfold betaTail at hv
  simp only [div_of_ne hc.ne', ln_of_pos hx0, ln_of_pos hc, Option.bind_eq_bind, Option.bind_some, ← hnsdef, hm'] at hv
  cases hl : betaLoop lo p q x n 1 1 (q - 1) 1 (if (m : ℤ) = 0 then x else x / (1 - x)) (a + b) m with
  | none => rw [hl] at hv; simp at hv
  | some w =>
    rw [hl] at hv
    simp only [Option.bind_some] at hv
    cases hB : beta a b with
    | none => rw [hB] at hv; simp at hv
    | some B =>
      rw [hB] at hv
      simp only [Option.bind_some] at hv
      by_cases hB0 : B ≤ 0
      · simp [R.ln, hB0] at hv
      push Not at hB0
      rw [ln_of_pos hB0, Option.bind_some, div_of_ne hp.ne'] at hv
      injection hv with hv
      refine ⟨B, rfl, hB0, ?_⟩
      set C := q + 1 + p / q with hCdef
      have hCpos : 0 < p / q := by positivity
      have hratio : x / (1 - x) ≤ p / q := by
        rw [div_le_div_iff₀ hc hq]; exact hm
      have hQneg : q - ((0 : ℕ) + m + 1 : ℝ) < 0 := by
        have : 0 ≤ (1 - x) * (p + q) := by positivity
        simp only [Nat.cast_zero]
        linarith
      have hCM : ∀ P, p ≤ P → 0 < P + (q - ((0 : ℕ) + m + 1 : ℝ)) →
          |Mq x P (q - ((0 : ℕ) + m + 1 : ℝ)) - 1| ≤ C := by
        intro P hP hPQ
        set Q := q - ((0 : ℕ) + m + 1 : ℝ)
        have hP0 : 0 < P := lt_of_lt_of_le hp hP
        have h1 : 1 ≤ Mq x P Q := by
          rw [mq_rec hx0 hx1 hP0]
          have := mq_pos hx0 hx1 (by linarith : 0 < P + 1) Q
          have : 0 ≤ (P + Q) / (P + 1) * x * Mq x (P + 1) Q := by positivity
          linarith
        have h2 : Mq x P Q ≤ 1 / (1 - x) := by
          rw [le_div_iff₀ hc, mul_comm, ← nq_mq hx0 hx1]
          exact nq_le_one hx0 hx1 hP0 (by linarith)
        rw [abs_of_nonneg (by linarith)]
        have h3 : 1 / (1 - x) - 1 = x / (1 - x) := by field_simp; ring
        linarith
      have hCN : ∀ k : ℕ, |Nq x (p + k) (q - k) - 1| ≤ C := by
        intro k
        have hk : (0 : ℝ) ≤ k := Nat.cast_nonneg k
        have h0 := nq_pos hx0 hx1 (by positivity : 0 < p + (k : ℝ)) (q - k)
        obtain ⟨N, hN⟩ := exists_nat_ge (q - k)
        have h1 := nq_le hx0 hx1 hp hq hm N (p + k) (q - k) (by linarith) (by linarith) hN
        have h2 : max (q - (k : ℝ)) 0 ≤ q := max_le (by linarith) hq.le
        rw [abs_le]
        constructor <;> linarith
      obtain ⟨h1, h2⟩ := betaLoop_value1 (lo := lo) (p := p) (q := q) (x := x)
        (Q := q - ((0 : ℕ) + m + 1 : ℝ)) (V := Nq x p q) (C := C) hx0 hx1 hp hq hCM hCN n
        (term := 1) (value := 1) (w := w) (ns := m) (k := 0) rfl (by simp) (by rw [hab] at hl; simpa using hl)
      set A := x ^ p * (1 - x) ^ (q - 1) / p with hA
      have hx1' := Real.rpow_pos_of_pos hx0 p
      have hx2' := Real.rpow_pos_of_pos hc (q - 1)
      have hApos : 0 < A := by positivity
      have e1 : v * B = w * A := by
        rw [← hv, Real.exp_sub, Real.exp_add, mul_comm p, mul_comm (q - 1), Real.exp_log hB0]
        rw [← Real.rpow_def_of_pos hx0, ← Real.rpow_def_of_pos hc, hA]
        field_simp
      have e2 : Bx x p q = Nq x p q * A := by
        rw [Nq, hA]; field_simp
      rw [e1, e2, ← sub_mul, abs_mul, abs_of_pos hApos, abs_sub_comm]
      calc |Nq x p q - w| * A ≤ (0.1e-14 * C * w) * A := mul_le_mul_of_nonneg_right h1 hApos.le
        _ = _ := by norm_num; ring

/-! ## the loop ends -/

/-- a small term ends the loop -/
theorem beta_stop {V value t M K : ℝ} (hM0 : 0 < M) (hM : M ≤ K) (hV : V = value + t * (M - 1))
    (h1 : |t| ≤ 0.1e-14) (h2 : |t| * (1 + 0.1e-14 * (K + 1)) ≤ 0.1e-14 * V) : |t| ≤ 0.1e-14 ∧ |t| ≤ 0.1e-14 * value := by
  refine ⟨h1, ?_⟩
  have h3 : |M - 1| ≤ K + 1 := by rw [abs_le]; constructor <;> linarith
  have h4 : t * (M - 1) ≤ |t| * (K + 1) := by
    calc t * (M - 1) ≤ |t * (M - 1)| := le_abs_self _
      _ = |t| * |M - 1| := abs_mul _ _
      _ ≤ _ := mul_le_mul_of_nonneg_left h3 (abs_nonneg _)
  nlinarith

/-- the factor between the first and the `j`th term -/
noncomputable def tProd (x Q P : ℝ) (j : ℕ) : ℝ := ∏ i ∈ range j, ((P + i + Q) * x / (P + i + 1))

theorem tProd_succ' (x Q P : ℝ) (j : ℕ) : tProd x Q P (j + 1) = (P + Q) * x / (P + 1) * tProd x Q (P + 1) j := by
  rw [tProd, prod_range_succ', tProd, mul_comm]
  congr 1
  · simp
  · apply prod_congr rfl
    intro i _
    push_cast
    rw [show P + (↑i + 1) = P + 1 + ↑i by ring]

theorem tProd_tendsto {x Q P : ℝ} (hx0 : 0 < x) (hx1 : x < 1) (hP : 0 < P) (hPQ : 0 < P + Q) :
    Tendsto (tProd x Q P) atTop (𝓝 0) := by
  have hpos : ∀ i : ℕ, 0 < (P + i + Q) * x / (P + i + 1) := by
    intro i
    have hi : (0 : ℝ) ≤ i := Nat.cast_nonneg i
    have : 0 < P + i + Q := by linarith
    positivity
  have hne : ∀ j, tProd x Q P j ≠ 0 := fun j => (prod_pos fun i _ => hpos i).ne'
  apply Summable.tendsto_atTop_zero
  refine summable_of_ratio_test_tendsto_lt_one hx1 (Eventually.of_forall hne) ?_
  have e : ∀ j, ‖tProd x Q P (j + 1)‖ / ‖tProd x Q P j‖ = (P + j + Q) * x / (P + j + 1) := by
    intro j
    have e' : tProd x Q P (j + 1) = tProd x Q P j * ((P + j + Q) * x / (P + j + 1)) := prod_range_succ _ _
    rw [← norm_div, e', mul_div_assoc, mul_comm, div_mul_cancel₀ _ (hne j), Real.norm_of_nonneg (hpos j).le]
  simp_rw [e]
  have h1 : Tendsto (fun j : ℕ => (j : ℝ) + (P + 1)) atTop atTop :=
    tendsto_atTop_add_const_right _ _ tendsto_natCast_atTop_atTop
  have h2 : Tendsto (fun j : ℕ => x + ((Q - 1) * x) / ((j : ℝ) + (P + 1))) atTop (𝓝 (x + 0)) :=
    tendsto_const_nhds.add (tendsto_const_nhds.div_atTop h1)
  rw [add_zero] at h2
  refine h2.congr fun j => ?_
  have hj : (0 : ℝ) ≤ j := Nat.cast_nonneg j
  have : (j : ℝ) + (P + 1) ≠ 0 := by positivity
  have : P + (j : ℝ) + 1 ≠ 0 := by positivity
  field_simp
  ring

theorem betaLoop_ends2 {p q x Q V K δ : ℝ} (hx0 : 0 < x) (hx1 : x < 1) (hp : 0 < p)
    (hK : ∀ P, 0 < P → Mq x P Q ≤ K)
    (hδ : ∀ t : ℝ, |t| ≤ δ → |t| ≤ 0.1e-14 ∧ |t| * (1 + 0.1e-14 * (K + 1)) ≤ 0.1e-14 * V) (j : ℕ) :
    ∀ {term value P : ℝ} {ns : ℤ}, p ≤ P → ns < 0 →
    V = value + term * (Mq x P Q - 1) → |term * tProd x Q P (j + 1)| ≤ δ →
    ∃ v, ∀ lo ≤ ns - j, ∀ n ≥ j + 1,
      betaLoop lo p q x n term value (P + Q) (P + 1 - p) x (P + Q + 1) ns = some v := by
  induction j with
  | zero =>
    intro term value P ns hP hns hV ht
    have hP0 : 0 < P := lt_of_lt_of_le hp hP
    refine ⟨value + term * (P + Q) * x / (P + 1), fun lo hlo n hn => ?_⟩
    have e0 : p + (P + 1 - p) = P + 1 := by ring
    refine betaLoop_mono (n := 1) ?_ n hn
    rw [betaLoop_step _ _ _ _ _ _ _ _ _ _ _ _ (by rw [e0]; positivity)]
    simp only [e0]
    set t := term * (P + Q) * x / (P + 1) with htd
    have et : term * tProd x Q P (0 + 1) = t := by rw [tProd_succ', tProd]; simp [htd]; ring
    rw [et] at ht
    have hV' : V = value + t + t * (Mq x (P + 1) Q - 1) := by
      rw [hV, mq_rec hx0 hx1 hP0 Q, htd]
      have : P + 1 ≠ 0 := by positivity
      field_simp
      ring
    rw [if_pos (beta_stop (mq_pos hx0 hx1 (by linarith) Q) (hK _ (by linarith)) hV' (hδ t ht).1 (hδ t ht).2)]
  | succ j ih =>
    intro term value P ns hP hns hV ht
    have hP0 : 0 < P := lt_of_lt_of_le hp hP
    have e0 : p + (P + 1 - p) = P + 1 := by ring
    set t := term * (P + Q) * x / (P + 1) with htd
    have et : term * tProd x Q P (j + 1 + 1) = t * tProd x Q (P + 1) (j + 1) := by
      rw [tProd_succ']; simp only [htd]; ring
    have hV' : V = value + t + t * (Mq x (P + 1) Q - 1) := by
      rw [hV, mq_rec hx0 hx1 hP0 Q, htd]
      have : P + 1 ≠ 0 := by positivity
      field_simp
      ring
    rw [et] at ht
    obtain ⟨v, hv⟩ := ih (P := P + 1) (by linarith) (by omega : ns - 1 < 0) hV' ht
    by_cases h2 : |t| ≤ 0.1e-14 ∧ |t| ≤ 0.1e-14 * (value + t)
    · refine ⟨value + t, fun lo hlo n hn => ?_⟩
      obtain ⟨n, rfl⟩ : ∃ k, n = k + 1 := ⟨n - 1, by omega⟩
      rw [betaLoop_step _ _ _ _ _ _ _ _ _ _ _ _ (by rw [e0]; positivity)]
      simp only [e0, ← htd]
      rw [if_pos h2]
    · refine ⟨v, fun lo hlo n hn => ?_⟩
      obtain ⟨n, rfl⟩ : ∃ k, n = k + 1 := ⟨n - 1, by omega⟩
      rw [betaLoop_step _ _ _ _ _ _ _ _ _ _ _ _ (by rw [e0]; positivity)]
      simp only [e0, ← htd]
      push_cast at hlo
      rw [if_neg h2, if_neg (by omega), if_neg (by omega)]
      have := hv lo (by omega) n (by omega)
      rw [show P + 1 + Q = P + Q + 1 by ring, show P + 1 + 1 - p = P + 1 - p + 1 by ring] at this
      exact this

theorem betaLoop_ends1 {p q x Q V K : ℝ} (hx0 : 0 < x) (hx1 : x < 1) (hp : 0 < p) (hq : 0 < q)
    (hV0 : 0 < V) (hK0 : 0 < K) (hK : ∀ P, 0 < P → Mq x P Q ≤ K) (ns : ℕ) :
    ∀ {term value : ℝ} {k : ℕ}, Q = q - (k + ns + 1) →
    V = value + term * (Nq x (p + k) (q - k) - 1) →
    ∃ N : ℕ, ∃ v, ∀ lo : ℤ, lo ≤ -N → ∀ n ≥ N,
      betaLoop lo p q x n term value (q - (k + 1)) (k + 1) (if (ns : ℤ) = 0 then x else x / (1 - x)) (p + q) ns
        = some v := by
  have hc : (0 : ℝ) < 1 - x := sub_pos.2 hx1
  induction ns with
  | zero =>
    intro term value k hQ hV
    have hk : (0 : ℝ) ≤ k := Nat.cast_nonneg k
    have hne : p + ((k : ℝ) + 1) ≠ 0 := by positivity
    have hrec := nq_rec hx0 hx1 (by positivity : 0 < p + (k : ℝ)) (q - k)
    set t := term * (q - (k + 1)) * x / (p + (k + 1)) with ht
    have eQ : q - (k : ℝ) - 1 = Q := by rw [hQ]; push_cast; ring
    have hV' : V = value + t + t * (Mq x (p + (k + 1)) Q - 1) := by
      rw [hV, hrec, show p + (k : ℝ) + 1 = p + (k + 1) by ring, eQ, nq_mq hx0 hx1, ht, hQ]
      simp only [Nat.cast_zero]
      field_simp
      ring
    have e1 : p + ((k : ℝ) + 1) + Q = p + q := by rw [hQ]; push_cast; ring
    by_cases h2 : |t| ≤ 0.1e-14 ∧ |t| ≤ 0.1e-14 * (value + t)
    · refine ⟨1, value + t, fun lo hlo n hn => ?_⟩
      obtain ⟨n, rfl⟩ : ∃ k, n = k + 1 := ⟨n - 1, by omega⟩
      rw [betaLoop_step _ _ _ _ _ _ _ _ _ _ _ _ hne]
      simp only [Nat.cast_zero, if_true, ← ht]
      rw [if_pos h2]
    · -- how small a term has to be
      set δ := min (0.1e-14 : ℝ) (0.1e-14 * V / (1 + 0.1e-14 * (K + 1))) with hδd
      have hδ0 : 0 < δ := by rw [hδd]; apply lt_min <;> positivity
      have hδ : ∀ t : ℝ, |t| ≤ δ → |t| ≤ 0.1e-14 ∧ |t| * (1 + 0.1e-14 * (K + 1)) ≤ 0.1e-14 * V := by
        intro t ht
        refine ⟨ht.trans (min_le_left _ _), ?_⟩
        rw [← le_div_iff₀ (by positivity)]
        exact ht.trans (min_le_right _ _)
      have hlim := (tProd_tendsto hx0 hx1 (by positivity : 0 < p + ((k : ℝ) + 1)) (by rw [e1]; positivity)
        : Tendsto (tProd x Q (p + (k + 1))) atTop (𝓝 0)).const_mul t
      rw [mul_zero] at hlim
      obtain ⟨J, hJ⟩ := (Metric.tendsto_atTop.1 hlim) δ hδ0
      have hJ' := hJ (J + 1) (by omega)
      rw [Real.dist_eq, sub_zero] at hJ'
      obtain ⟨v, hv⟩ := betaLoop_ends2 (q := q) hx0 hx1 hp hK hδ J (P := p + (k + 1)) (ns := -1)
        (by linarith) (by norm_num) hV' hJ'.le
      refine ⟨J + 2, v, fun lo hlo n hn => ?_⟩
      obtain ⟨n, rfl⟩ : ∃ k, n = k + 1 := ⟨n - 1, by omega⟩
      rw [betaLoop_step _ _ _ _ _ _ _ _ _ _ _ _ hne]
      simp only [Nat.cast_zero, if_true, ← ht]
      push_cast at hlo
      rw [if_neg h2, if_neg (by omega), if_neg (by norm_num)]
      have := hv lo (by omega) n (by omega)
      rw [e1, show p + ((k : ℝ) + 1) + 1 - p = k + 1 + 1 by ring] at this
      simpa using this
  | succ ns ih =>
    intro term value k hQ hV
    have hk : (0 : ℝ) ≤ k := Nat.cast_nonneg k
    have hne : p + ((k : ℝ) + 1) ≠ 0 := by positivity
    have hrec := nq_rec hx0 hx1 (by positivity : 0 < p + (k : ℝ)) (q - k)
    have hns0 : ¬ ((ns + 1 : ℕ) : ℤ) = 0 := by omega
    set t := term * (q - (k + 1)) * (x / (1 - x)) / (p + (k + 1)) with ht
    have hV' : V = value + t + t * (Nq x (p + (k + 1 : ℕ)) (q - (k + 1 : ℕ)) - 1) := by
      rw [hV, hrec, ht]
      push_cast
      rw [show p + (k : ℝ) + 1 = p + (k + 1) by ring, show q - (k : ℝ) - 1 = q - (k + 1) by ring]
      field_simp
      ring
    by_cases h2 : |t| ≤ 0.1e-14 ∧ |t| ≤ 0.1e-14 * (value + t)
    · refine ⟨1, value + t, fun lo hlo n hn => ?_⟩
      obtain ⟨n, rfl⟩ : ∃ k, n = k + 1 := ⟨n - 1, by omega⟩
      rw [betaLoop_step _ _ _ _ _ _ _ _ _ _ _ _ hne]
      simp only [hns0, if_false, ← ht]
      rw [if_pos h2]
    · obtain ⟨N, v, hv⟩ := ih (k := k + 1) (by rw [hQ]; push_cast; ring) hV'
      refine ⟨N + 1, v, fun lo hlo n hn => ?_⟩
      obtain ⟨n, rfl⟩ : ∃ k, n = k + 1 := ⟨n - 1, by omega⟩
      rw [betaLoop_step _ _ _ _ _ _ _ _ _ _ _ _ hne]
      simp only [hns0, if_false, ← ht]
      push_cast at hlo ⊢
      rw [if_neg h2, if_neg (by omega), if_pos (by omega)]
      have := hv lo (by omega) n (by omega)
      push_cast at this
      simpa using this

theorem betaTail_ends {a b x p q : ℝ} (ha : 0 < a) (hb : 0 < b) (hx0 : 0 < x) (hx1 : x < 1) (hp : 0 < p) (hq : 0 < q)
    (hab : a + b = p + q) :
    ∃ N : ℕ, ∃ v, ∀ lo : ℤ, lo ≤ -N → ∀ n ≥ N, betaTail lo n a b x (1 - x) p q = some v := by
  have hc : (0 : ℝ) < 1 - x := sub_pos.2 hx1
  set ns := toI32 (q + (1 - x) * (a + b)) with hnsdef
  have hns0 : 0 ≤ ns := by
    rw [hnsdef, toI32]
    apply le_min _ (by norm_num)
    apply Int.floor_nonneg.2; positivity
  obtain ⟨m, hm'⟩ : ∃ m : ℕ, ns = m := ⟨ns.toNat, by omega⟩
  obtain ⟨K, hK0, hK⟩ := mq_le hx0 hx1 (q - ((0 : ℕ) + m + 1 : ℝ))
  obtain ⟨N, v, hv⟩ := betaLoop_ends1 (p := p) (q := q) (V := Nq x p q) hx0 hx1 hp hq (nq_pos hx0 hx1 hp q) hK0 hK m
    (term := 1) (value := 1) (k := 0) rfl (by simp)
  obtain ⟨B, hB, hB0⟩ : ∃ B, beta a b = some B ∧ 0 < B := by
    obtain ⟨gx, gy, g, -, -, -, h4, h5⟩ := (C48_beta a b).2 ha hb
    exact ⟨_, h4, h5⟩
  refine ⟨N, v * Real.exp (p * Real.log x + (q - 1) * Real.log (1 - x) - Real.log B) / p, fun lo hlo n hn => ?_⟩
  have h := hv lo hlo n hn
  unfold betaTail
  simp only [div_of_ne hc.ne', ln_of_pos hx0, ln_of_pos hc, Option.bind_eq_bind, Option.bind_some, ← hnsdef, hm']
  have h' : betaLoop lo p q x n 1 1 (q - 1) 1 (if (m : ℤ) = 0 then x else x / (1 - x)) (a + b) m = some v := by
    rw [hab]; simpa using h
  rw [h', Option.bind_some, hB, Option.bind_some, ln_of_pos hB0, Option.bind_some, div_of_ne hp.ne']

/-- `beta_inc_reg` has a value for all `x` in `[0, 1]` and all positive parameters, if the counter `ns` may become as
small as it needs to. -/
theorem C51_terminates (x a b : ℝ) (ha : 0 < a) (hb : 0 < b) (hx0 : 0 ≤ x) (hx1 : x ≤ 1) :
    ∃ N : ℕ, ∃ v, ∀ lo : ℤ, lo ≤ -N → ∀ n ≥ N, betaIncReg lo n x a b = some v := by
  rcases eq_or_lt_of_le hx0 with rfl | h0
  · exact ⟨0, 0, fun lo _ n _ => ((C51_domain lo n 0 a b).2 ha hb).1⟩
  rcases eq_or_lt_of_le hx1 with rfl | h1
  · exact ⟨0, 1, fun lo _ n _ => ((C51_domain lo n 0 a b).2 ha hb).2⟩
  have c1 : ¬ (a ≤ 0 ∨ b ≤ 0) := by simp [ha, hb]
  have c2 : ¬ (0 > x ∨ x > 1) := by simp [hx0, hx1]
  have c3 : ¬ (x = 0 ∨ x = 1) := by simp [h0.ne', h1.ne]
  by_cases h : a < (a + b) * x
  · obtain ⟨N, v, hv⟩ := betaTail_ends (x := 1 - x) ha hb (by linarith) (by linarith) hb ha (add_comm a b)
    rw [sub_sub_cancel] at hv
    refine ⟨N, 1 - v, fun lo hlo n hn => ?_⟩
    simp only [betaIncReg, c1, c2, c3, h, if_true, if_false, hv lo hlo n hn, Option.bind_eq_bind, Option.bind_some]
  · obtain ⟨N, v, hv⟩ := betaTail_ends ha hb h0 h1 ha hb rfl
    refine ⟨N, v, fun lo hlo n hn => ?_⟩
    simp only [betaIncReg, c1, c2, c3, h, if_false, hv lo hlo n hn]

example : ∃ N : ℕ, ∃ v, ∀ lo : ℤ, lo ≤ -N → ∀ n ≥ N, betaIncReg lo n (3 / 4) (1 / 2) 7 = some v :=
  C51_terminates _ _ _ (by norm_num) (by norm_num) (by norm_num) (by norm_num)

/-- The other tail of the beta integral is the one with the parameters exchanged. -/
theorem bx_compl (x a b : ℝ) : Bx (1 - x) b a = ∫ t in x..1, t ^ (a - 1) * (1 - t) ^ (b - 1) := by
  have h := intervalIntegral.integral_comp_sub_left (fun t : ℝ => t ^ (a - 1) * (1 - t) ^ (b - 1)) (1 : ℝ)
    (a := 0) (b := 1 - x)
  simp only [sub_zero, sub_sub_cancel] at h
  rw [← h, Bx]
  apply intervalIntegral.integral_congr
  intro t _
  simp only [mul_comm]

/-- A value `v` of `beta_inc_reg x a b` is the incomplete beta integral over the computed `beta a b`, up to a relative
error of `10^-15 (b + 1 + a / b)`, or one minus the other tail of the integral over `beta a b`, up to such an error.
Which one is computed depends on the side of the mean `a / (a + b)` on which `x` lies.  The number of rounds of
Soper's reduction must not be cut off at the largest `i32`. -/
theorem C51_accuracy (lo : ℤ) (n : ℕ) (x a b v : ℝ) (ha : 0 < a) (hb : 0 < b) (hx0 : 0 < x) (hx1 : x < 1)
    (hsat : a + b < 2 ^ 30 - 1) (hv : betaIncReg lo n x a b = some v) :
    ∃ B, beta a b = some B ∧ 0 < B ∧
      (x ≤ a / (a + b) →
        |v * B - ∫ t in (0 : ℝ)..x, t ^ (a - 1) * (1 - t) ^ (b - 1)| ≤ 1e-15 * (b + 1 + a / b) * (v * B)) ∧
      (a / (a + b) < x →
        |(1 - v) * B - ∫ t in x..1, t ^ (a - 1) * (1 - t) ^ (b - 1)| ≤ 1e-15 * (a + 1 + b / a) * ((1 - v) * B)) := by
  have c1 : ¬ (a ≤ 0 ∨ b ≤ 0) := by simp [ha, hb]
  have c2 : ¬ (0 > x ∨ x > 1) := by simp [hx0.le, hx1.le]
  have c3 : ¬ (x = 0 ∨ x = 1) := by simp [hx0.ne', hx1.ne]
  have hab : 0 < a + b := by linarith
  have hdiv : a / (a + b) < x ↔ a < (a + b) * x := by rw [div_lt_iff₀ hab, mul_comm]
  norm_num at hsat
  by_cases h : a < (a + b) * x
  · simp only [betaIncReg, c1, c2, c3, h, if_true, if_false, Option.bind_eq_bind] at hv
    cases ht : betaTail lo n a b (1 - x) x b a with
    | none => rw [ht] at hv; simp at hv
    | some w =>
      rw [ht, Option.bind_some] at hv
      injection hv with hv
      have ht' : betaTail lo n a b (1 - x) (1 - (1 - x)) b a = some w := by rw [sub_sub_cancel]; exact ht
      obtain ⟨B, h1, h2, h3⟩ := betaTail_accuracy (by linarith : 0 < 1 - x) (by linarith) hb ha (add_comm a b)
        (by nlinarith) (by norm_num; nlinarith) ht'
      refine ⟨B, h1, h2, fun hle => absurd hle (not_le.2 (hdiv.2 h)), fun _ => ?_⟩
      rw [← bx_compl, show 1 - v = w by linarith]
      exact h3
  · simp only [betaIncReg, c1, c2, c3, h, if_false] at hv
    obtain ⟨B, h1, h2, h3⟩ := betaTail_accuracy hx0 hx1 ha hb rfl (by nlinarith) (by norm_num; nlinarith) hv
    exact ⟨B, h1, h2, fun _ => h3, fun hlt => absurd (hdiv.1 hlt) h⟩

example (lo : ℤ) (n : ℕ) (v : ℝ) (hv : betaIncReg lo n (1 / 4) 2 3 = some v) :
    ∃ B, beta 2 3 = some B ∧ |v * B - ∫ t in (0 : ℝ)..(1 / 4), t ^ ((2 : ℝ) - 1) * (1 - t) ^ ((3 : ℝ) - 1)| ≤ 1e-14 * (v * B) := by
  obtain ⟨B, h1, h2, h3, -⟩ := C51_accuracy lo n (1 / 4) 2 3 v (by norm_num) (by norm_num) (by norm_num) (by norm_num)
    (by norm_num) hv
  have h4 := h3 (by norm_num)
  refine ⟨B, h1, h4.trans ?_⟩
  have h5 : (0 : ℝ) ≤ 1e-15 * (3 + 1 + 2 / 3) * (v * B) := (abs_nonneg _).trans h4
  have h6 : 0 ≤ v * B := by
    by_contra hn
    push Not at hn
    have : (1e-15 : ℝ) * (3 + 1 + 2 / 3) * (v * B) < 0 := mul_neg_of_pos_of_neg (by norm_num) hn
    linarith
  exact mul_le_mul_of_nonneg_right (by norm_num) h6

/-! ## the counter underflows -/

theorem betaLoop_underflow (n : ℕ) : ∀ {t value : ℝ} (j : ℕ), (j : ℤ) < 2 ^ 31 →
    7e-13 * (1 - 4e-12 * j) ≤ t →
    betaLoop (-2 ^ 31) (10 ^ 12) (1 / 2) (1 - 1e-12) n t value (10 ^ 12 + 1 / 2 + j) (3 + j) (1 - 1e-12)
      (10 ^ 12 + 1 / 2 + j + 1) (-1 - j) = none := by
  induction n with
  | zero => intros; rfl
  | succ n ih =>
    intro t value j hj ht
    have hj0 : (0 : ℝ) ≤ j := Nat.cast_nonneg j
    have hj1 : (j : ℝ) < 2147483648 := by
      have : j < 2147483648 := by omega
      exact_mod_cast this
    rw [betaLoop_step _ _ _ _ _ _ _ _ _ _ _ _ (by positivity)]
    simp only
    set t' := t * (10 ^ 12 + 1 / 2 + j) * (1 - 1e-12) / (10 ^ 12 + (3 + j)) with ht'
    have hd : (0 : ℝ) < 10 ^ 12 + (3 + j) := by positivity
    norm_num at ht
    have h1 : 7e-13 * (1 - 4e-12 * ((j : ℝ) + 1)) ≤ t' := by
      rw [ht', le_div_iff₀ hd]
      have hf : (1 - 3.6e-12) * (10 ^ 12 + (3 + (j : ℝ))) ≤ (10 ^ 12 + 1 / 2 + j) * (1 - 1e-12) := by
        have : (0 : ℝ) ≤ 2.6e-12 * j := by positivity
        norm_num at this ⊢
        linarith
      have ht0 : (0 : ℝ) ≤ t := by nlinarith
      have := mul_le_mul_of_nonneg_left hf ht0
      have h5 : 7e-13 * (1 - 4e-12 * ((j : ℝ) + 1)) ≤ t * (1 - 3.6e-12) := by
        norm_num; nlinarith
      have := mul_le_mul_of_nonneg_right h5 hd.le
      nlinarith
    have h2 : ¬ (|t'| ≤ 0.1e-14 ∧ |t'| ≤ 0.1e-14 * (value + t')) := by
      intro h
      have h3 := (le_abs_self t').trans h.1
      have h4 : (7e-13 : ℝ) * (1 - 4e-12 * (2147483648 + 1)) ≤ 7e-13 * (1 - 4e-12 * ((j : ℝ) + 1)) := by
        apply mul_le_mul_of_nonneg_left _ (by norm_num)
        apply sub_le_sub_left
        apply mul_le_mul_of_nonneg_left _ (by norm_num)
        linarith
      have h6 := (h4.trans h1).trans h3
      norm_num at h6
    rw [if_neg h2]
    by_cases h3 : (-1 - (j : ℤ) - 1) < -2 ^ 31
    · rw [if_pos h3]
    · rw [if_neg h3, if_neg (by omega)]
      have := ih (t := t') (value := value + t') (j + 1) (by omega) (by push_cast; exact h1)
      push_cast at this
      rw [show (10 ^ 12 + 1 / 2 + (j : ℝ) + 1) = 10 ^ 12 + 1 / 2 + (j + 1) by ring,
        show (3 + (j : ℝ) + 1) = 3 + (j + 1) by ring, show (-1 - (j : ℤ) - 1) = -1 - (j + 1) by ring]
      exact this

/-- With the smallest `i32` as the bound of the counter there are arguments in the domain for which `beta_inc_reg` has
no value: the terms of the second sum decrease so slowly that `ns -= 1` underflows (a panic, or without overflow checks
a wrong factor in the following rounds). -/
theorem C51_underflow_violated (n : ℕ) : betaIncReg (-2 ^ 31) n (1 - 1e-12) (10 ^ 12) (1 / 2) = none := by
  have c3 : ¬ ((1 : ℝ) - 1e-12 = 0 ∨ (1 : ℝ) - 1e-12 = 1) := by norm_num
  have c1 : ¬ ((10 : ℝ) ^ 12 ≤ 0 ∨ (1 / 2 : ℝ) ≤ 0) := by norm_num
  have c2 : ¬ (0 > (1 : ℝ) - 1e-12 ∨ (1 : ℝ) - 1e-12 > 1) := by norm_num
  have c4 : ¬ ((10 : ℝ) ^ 12 < (10 ^ 12 + 1 / 2) * (1 - 1e-12)) := by norm_num
  rw [betaIncReg, if_neg c1, if_neg c2, if_neg c3, if_neg c4, sub_sub_cancel]
  have hns : toI32 (1 / 2 + 1e-12 * (10 ^ 12 + 1 / 2)) = 1 := by
    rw [toI32]
    have : ⌊(1 / 2 + 1e-12 * (10 ^ 12 + 1 / 2) : ℝ)⌋ = 1 := by rw [Int.floor_eq_iff]; norm_num
    rw [this]; norm_num
  have key : betaLoop (-2 ^ 31) (10 ^ 12) (1 / 2) (1 - 1e-12) n 1 1 (1 / 2 - 1) 1 ((1 - 1e-12) / 1e-12)
      (10 ^ 12 + 1 / 2) 1 = none := by
    match n with
    | 0 => rfl
    | 1 =>
      rw [betaLoop_step _ _ _ _ _ _ _ _ _ _ _ _ (by positivity)]
      simp only
      split_ifs with h <;> first | rfl | skip
      exact absurd h.1 (by norm_num [abs_le])
    | n + 2 =>
      rw [betaLoop_step _ _ _ _ _ _ _ _ _ _ _ _ (by positivity)]
      simp only
      rw [if_neg (by norm_num [abs_le]), if_neg (by norm_num), if_pos (by norm_num)]
      rw [betaLoop_step _ _ _ _ _ _ _ _ _ _ _ _ (by positivity)]
      simp only
      rw [if_neg (by norm_num [abs_le]), if_neg (by norm_num), if_neg (by norm_num)]
      have := betaLoop_underflow n (t := 1 * (1 / 2 - 1) * ((1 - 1e-12) / 1e-12) / (10 ^ 12 + 1) * (1 / 2 - (1 + 1)) *
        (1 - 1e-12) / (10 ^ 12 + (1 + 1)))
        (value := 1 + 1 * (1 / 2 - 1) * ((1 - 1e-12) / 1e-12) / (10 ^ 12 + 1) + 1 * (1 / 2 - 1) *
          ((1 - 1e-12) / 1e-12) / (10 ^ 12 + 1) * (1 / 2 - (1 + 1)) * (1 - 1e-12) / (10 ^ 12 + (1 + 1)))
        0 (by norm_num) (by norm_num)
      norm_num at this ⊢
      exact this
  unfold betaTail
  simp only [hns, div_of_ne (by norm_num : (1e-12 : ℝ) ≠ 0), Option.bind_eq_bind, Option.bind_some,
    show ¬ ((1 : ℤ) = 0) by norm_num, if_false, key, Option.bind_none]

end Special
end Verif
