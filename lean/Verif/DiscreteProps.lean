import Verif.DiscreteModel
import Mathlib.RingTheory.Polynomial.Bernstein
import Mathlib.Data.Nat.Choose.Sum
import Mathlib.Data.Nat.Choose.Bounds
import Mathlib.Tactic.Linarith
import Mathlib.Tactic.IntervalCases
import Mathlib.Tactic.Positivity

/-! # Factorials, binomial coefficients, Bernoulli and binomial distributions: C53 and C54 -/

namespace Verif
namespace Stat
open Finset

/-! ## C53 -/

theorem factLoop_eq (n : ℕ) : ∀ r : ℕ, 0 < r → r < 2 ^ 64 →
    factLoop n r = if r * n.factorial < 2 ^ 64 then some (r * n.factorial) else none := by
  induction n with
  | zero =>
    intro r hr hr2
    simp only [factLoop, Nat.factorial_zero, mul_one, if_pos hr2]
  | succ n ih =>
    intro r hr hr2
    have e : r * (n + 1) * n.factorial = r * (n + 1).factorial := by rw [Nat.factorial_succ]; ring
    simp only [factLoop]
    split_ifs with h1 h2 h2
    · rw [ih _ (by positivity) h1, e, if_pos h2]
    · rw [ih _ (by positivity) h1, e, if_neg h2]
    · exfalso
      apply h1
      calc r * (n + 1) ≤ r * (n + 1) * n.factorial := Nat.le_mul_of_pos_right _ n.factorial_pos
        _ < _ := by rw [e]; exact h2
    · rfl

/-- C53: `factorial n` is `n!` if `n! < 2^64`, and it panics otherwise. -/
theorem C53_factorial (n : ℕ) :
    factorial n = if n.factorial < 2 ^ 64 then some n.factorial else none := by
  rw [factorial, factLoop_eq n 1 (by norm_num) (by norm_num), one_mul]

example : factorial 5 = some 120 ∧ factorial 21 = none := by decide +kernel

theorem factorial_lt_iff (n : ℕ) : n.factorial < 2 ^ 64 ↔ n ≤ 20 := by
  constructor
  · intro h
    by_contra hc
    have := Nat.factorial_le (show 21 ≤ n by omega)
    have h2 : (2 : ℕ) ^ 64 ≤ Nat.factorial 21 := by decide +kernel
    omega
  · intro h
    have := Nat.factorial_le h
    have h2 : Nat.factorial 20 < 2 ^ 64 := by decide +kernel
    omega

/-- C53: the threshold of the panic: `factorial n` returns a value exactly for `n ≤ 20`. -/
theorem C53_threshold (n : ℕ) : (∃ r, factorial n = some r) ↔ n ≤ 20 := by
  rw [C53_factorial, ← factorial_lt_iff]
  split_ifs with h
  · exact ⟨fun _ => h, fun _ => ⟨_, rfl⟩⟩
  · exact ⟨fun ⟨_, hr⟩ => by simp at hr, fun hc => absurd hc h⟩

example : ¬ ∃ r, factorial 100 = some r := by rw [C53_threshold]; norm_num

theorem factorial_of_le {n : ℕ} (h : n ≤ 20) : factorial n = some n.factorial := by
  rw [C53_factorial, if_pos ((factorial_lt_iff n).2 h)]

theorem factorial_of_lt {n : ℕ} (h : 20 < n) : factorial n = none := by
  rw [C53_factorial, if_neg (fun hc => by have := (factorial_lt_iff n).1 hc; omega)]

/-- C53: `binom n k` is the binomial coefficient for `k ≤ n ≤ 20` and panics in every other case. -/
theorem C53_binom (n k : ℕ) : binom n k = if k ≤ n ∧ n ≤ 20 then some (n.choose k) else none := by
  unfold binom
  by_cases hn : n ≤ 20
  · by_cases hk : k ≤ n
    · rw [if_pos ⟨hk, hn⟩, factorial_of_le hn, factorial_of_le (hk.trans hn),
        factorial_of_le ((Nat.sub_le n k).trans hn)]
      simp only [Option.bind_eq_bind, Option.bind_some, if_pos hk]
      have h0 := Nat.choose_mul_factorial_mul_factorial hk
      have h1 := (factorial_lt_iff n).2 hn
      have h2 : k.factorial * (n - k).factorial ≤ n.factorial :=
        Nat.le_of_dvd n.factorial_pos (Nat.factorial_mul_factorial_dvd_factorial hk)
      have h3 : k.factorial * (n - k).factorial ≠ 0 := by positivity
      have h4 : n.choose k < 2 ^ 32 := by
        have := Nat.choose_le_two_pow n k
        have : (2 : ℕ) ^ n ≤ 2 ^ 20 := Nat.pow_le_pow_right (by norm_num) hn
        omega
      rw [if_pos (by omega), if_neg h3, ← Nat.choose_eq_factorial_div_factorial hk, Nat.mod_eq_of_lt h4]
    · rw [if_neg (by tauto), factorial_of_le hn]
      simp only [Option.bind_eq_bind, Option.bind_some, if_neg hk]
      cases factorial k <;> rfl
  · rw [if_neg (by tauto), factorial_of_lt (by omega)]; rfl

example : binom 5 2 = some 10 ∧ binom 20 10 = some 184756 ∧ binom 2 5 = none := by decide +kernel

/-- C53 is violated: `binom n k` panics for every `n ≥ 21`, although e.g. `binom 21 0 = 1` and
`binom 30 15 = 155117520` fit into `u32`. -/
theorem C53_binom_violated : (∀ n k, 21 ≤ n → binom n k = none) ∧ (21).choose 0 < 2 ^ 32 ∧
    (30).choose 15 < 2 ^ 32 :=
  ⟨fun n k h => by rw [C53_binom, if_neg (by omega)], by decide +kernel, by decide +kernel⟩

theorem factorialWrap_eq (n : ℕ) : ∀ r : ℕ, r < 2 ^ 64 →
    factorialWrap n r = r * n.factorial % 2 ^ 64 := by
  induction n with
  | zero => intro r hr; rw [factorialWrap, Nat.factorial_zero, mul_one, Nat.mod_eq_of_lt hr]
  | succ n ih =>
    intro r hr
    rw [factorialWrap, ih _ (Nat.mod_lt _ (by norm_num)), Nat.factorial_succ, Nat.mod_mul_mod, mul_assoc]

/-- C53 is violated in release builds (no overflow checks): `factorial n` silently returns `n! mod 2^64`, which is
wrong for every `n ≥ 21` and is `0` for every `n ≥ 66`. -/
theorem C53_release_violated :
    (∀ n, factorialWrap n 1 = n.factorial % 2 ^ 64) ∧ (∀ n, 21 ≤ n → factorialWrap n 1 ≠ n.factorial) ∧
      ∀ n, 66 ≤ n → factorialWrap n 1 = 0 := by
  have h0 : ∀ n, factorialWrap n 1 = n.factorial % 2 ^ 64 := fun n => by
    rw [factorialWrap_eq n 1 (by norm_num), one_mul]
  refine ⟨h0, fun n hn h => ?_, fun n hn => ?_⟩
  · rw [h0] at h
    have h1 := Nat.mod_lt n.factorial (show 2 ^ 64 > 0 by norm_num)
    rw [h, factorial_lt_iff] at h1
    omega
  · rw [h0]
    have h1 : (2 : ℕ) ^ 64 ∣ Nat.factorial 66 := by decide +kernel
    exact Nat.mod_eq_zero_of_dvd (h1.trans (Nat.factorial_dvd_factorial hn))

example : factorialWrap 21 1 = 14197454024290336768 := by decide +kernel

/-! ## C54 -/

variable {K : Type} [Field K] [LinearOrder K] [IsStrictOrderedRing K]

omit [IsStrictOrderedRing K] in
/-- C54: `Bernoulli::new` panics exactly for `p` outside `[0, 1]`. -/
theorem C54_bernoulli_new (p : K) : bernoulliNew p = none ↔ ¬ (0 ≤ p ∧ p ≤ 1) := by
  unfold bernoulliNew
  split_ifs with h
  · simp only [true_iff]; rintro ⟨h1, h2⟩
    rcases h with h | h
    · exact absurd h (not_lt.2 h1)
    · exact absurd h (not_lt.2 h2)
  · push Not at h
    simp [h]

omit [IsStrictOrderedRing K] in
theorem bernoulliNew_some {p q : K} (h : bernoulliNew p = some q) : q = p ∧ 0 ≤ p ∧ p ≤ 1 := by
  unfold bernoulliNew at h
  split_ifs at h with h1
  push Not at h1
  exact ⟨(Option.some.inj h).symm, h1⟩

/-- C54: the Bernoulli mass function is defined exactly on `{0, 1}`, nonnegative and sums to one; `mean` and
`variance` are its first moment and second central moment. -/
theorem C54_bernoulli {p q : K} (h : bernoulliNew p = some q) :
    (∀ x, bernoulliPmf q x = none ↔ 1 < x) ∧
    ∃ f : ℕ → K, (∀ x ≤ 1, bernoulliPmf q x = some (f x)) ∧ (∀ x ≤ 1, 0 ≤ f x) ∧ f 1 = p ∧
      ∑ x ∈ range 2, f x = 1 ∧ ∑ x ∈ range 2, (x : K) * f x = bernoulliMean q ∧
      ∑ x ∈ range 2, ((x : K) - bernoulliMean q) ^ 2 * f x = bernoulliVariance q := by
  obtain ⟨rfl, h0, h1⟩ := bernoulliNew_some h
  refine ⟨fun x => ?_, fun x => if x = 0 then 1 - q else q, fun x hx => ?_, fun x hx => ?_, by simp,
    by simp [sum_range_succ], by simp [sum_range_succ, bernoulliMean], ?_⟩
  · unfold bernoulliPmf
    split_ifs <;> simp <;> omega
  · unfold bernoulliPmf
    rw [if_pos (by omega)]
    dsimp only
    split_ifs <;> rfl
  · simp only []
    split_ifs
    · linarith
    · exact h0
  · simp [sum_range_succ, bernoulliMean, bernoulliVariance]
    ring

example : bernoulliNew (1 / 5 : ℚ) = some (1 / 5) ∧ bernoulliPmf (1 / 5 : ℚ) 0 = some (4 / 5) ∧
    bernoulliPmf (1 / 5 : ℚ) 1 = some (1 / 5) ∧ bernoulliVariance (1 / 5 : ℚ) = 4 / 25 := by decide +kernel

/-- C54 (partial): for every real `x ≠ 0` the Bernoulli `cdf` is the sum of the mass over the values `≤ x`.  Missing:
`x = 0`, where it is false (`C54_bernoulli_cdf_violated`). -/
theorem C54_bernoulli_cdf_partial {p q : K} (h : bernoulliNew p = some q) (x : K) (hx : x ≠ 0) (f : ℕ → K)
    (hf : ∀ j ≤ 1, bernoulliPmf q j = some (f j)) :
    bernoulliCdf q x = ∑ j ∈ range 2 with ((j : ℕ) : K) ≤ x, f j := by
  obtain ⟨rfl, h0, h1⟩ := bernoulliNew_some h
  have f0 : f 0 = 1 - q := by have := hf 0 (by omega); simpa [bernoulliPmf] using this.symm
  have f1 : f 1 = q := by have := hf 1 le_rfl; simpa [bernoulliPmf] using this.symm
  rw [sum_filter, sum_range_succ, sum_range_succ, sum_range_zero]
  simp only [f0, f1, Nat.cast_zero, Nat.cast_one]
  unfold bernoulliCdf
  split_ifs with a b c d <;> first | (exfalso; linarith) | skip
  · ring
  · exact absurd (le_antisymm c d) hx
  · ring
  · ring

/-- C54 is violated: the Bernoulli `cdf` returns `0` at `x = 0`, where it should be `1 - p`. -/
theorem C54_bernoulli_cdf_violated (q : K) :
    bernoulliCdf q 0 = 0 ∧ bernoulliPmf q 0 = some (1 - q) ∧ (q < 1 → bernoulliCdf q 0 ≠ 1 - q) := by
  have h : bernoulliCdf q 0 = 0 := by
    simp [bernoulliCdf, not_le.2 (zero_lt_one (α := K))]
  refine ⟨h, by simp [bernoulliPmf], fun hq => ?_⟩
  rw [h]
  exact (by linarith : (0 : K) < 1 - q).ne

omit [LinearOrder K] [IsStrictOrderedRing K] in
/-- C54: for up to 20 trials the binomial mass function is `C(n, x) p^x (1 - p)^(n - x)`. -/
theorem C54_binomial_pmf {n : ℕ} (hn : n ≤ 20) (p : K) (x : ℕ) :
    binomialPmf n p x = some ((n.choose x : K) * p ^ x * (1 - p) ^ (n - x)) := by
  unfold binomialPmf
  split_ifs with h
  · rw [Nat.choose_eq_zero_of_lt h]; simp
  · rw [C53_binom, if_pos ⟨by omega, hn⟩]; rfl

example : binomialPmf 3 (1 / 2 : ℚ) 1 = some (3 / 8) := by decide +kernel

/-- C54: for up to 20 trials the binomial mass function is nonnegative and sums to one; `mean` and `variance` are its
first moment and second central moment. -/
theorem C54_binomial {n : ℕ} (hn : n ≤ 20) {p : K} (h0 : 0 ≤ p) (h1 : p ≤ 1) (f : ℕ → K)
    (hf : ∀ x, binomialPmf n p x = some (f x)) :
    (∀ x, 0 ≤ f x) ∧ (∀ x, n < x → f x = 0) ∧ ∑ x ∈ range (n + 1), f x = 1 ∧
      ∑ x ∈ range (n + 1), (x : K) * f x = binomialMean n p ∧
      ∑ x ∈ range (n + 1), ((x : K) - binomialMean n p) ^ 2 * f x = binomialVariance n p := by
  have e : ∀ x, f x = (bernsteinPolynomial K n x).eval p := fun x => by
    have := hf x
    rw [C54_binomial_pmf hn] at this
    rw [← Option.some.inj this]
    simp [bernsteinPolynomial]
  refine ⟨fun x => ?_, fun x hx => ?_, ?_, ?_, ?_⟩
  · have := hf x
    rw [C54_binomial_pmf hn] at this
    rw [← Option.some.inj this]
    have : 0 ≤ 1 - p := by linarith
    positivity
  · rw [e, bernsteinPolynomial.eq_zero_of_lt K hx, Polynomial.eval_zero]
  · have := congrArg (Polynomial.eval p) (bernsteinPolynomial.sum K n)
    simp only [Polynomial.eval_finsetSum, Polynomial.eval_one] at this
    simp only [e, this]
  · have := congrArg (Polynomial.eval p) (bernsteinPolynomial.sum_smul K n)
    simp only [Polynomial.eval_finsetSum, nsmul_eq_mul, Polynomial.eval_mul, Polynomial.eval_natCast,
      Polynomial.eval_X] at this
    simp only [e, this, binomialMean]
  · have := congrArg (Polynomial.eval p) (bernsteinPolynomial.variance K n)
    simp only [Polynomial.eval_finsetSum, nsmul_eq_mul, Polynomial.eval_mul, Polynomial.eval_natCast,
      Polynomial.eval_X, Polynomial.eval_pow, Polynomial.eval_sub, Polynomial.eval_one] at this
    simp only [e, binomialVariance, binomialMean]
    rw [← this]
    exact sum_congr rfl fun x _ => by ring

omit [IsStrictOrderedRing K] in
/-- C54 (partial): for up to 20 trials (where `pmf` returns values, `C54_binomial_pmf`) and `0 ≤ x < 2^32 - 1` the binomial `cdf` is the sum of the mass over the values
`≤ x`.  Missing: negative `x`, where it is false, and more trials, where it panics (`C54_binomial_violated`). -/
theorem C54_binomial_cdf_partial [FloorRing K] {n : ℕ} (p : K) {x : K} (hx : 0 ≤ x)
    (hx2 : x < 2 ^ 32 - 1) (f : ℕ → K) (hf : ∀ x, binomialPmf n p x = some (f x)) :
    binomialCdf n p x = some (∑ j ∈ range (n + 1) with ((j : ℕ) : K) ≤ x, f j) := by
  have hfl : 0 ≤ ⌊x⌋ := Int.floor_nonneg.2 hx
  have hfl2 : ⌊x⌋ < 2 ^ 32 - 1 := by
    rw [Int.floor_lt]; push_cast; norm_num at hx2 ⊢; exact hx2
  obtain ⟨m, hm⟩ := Int.eq_ofNat_of_zero_le hfl
  have hm2 : m < 2 ^ 32 - 1 := by have := hm ▸ hfl2; omega
  have hu : floorU32 x = m := by
    unfold floorU32; rw [hm]
    simp only [Int.toNat_natCast]
    omega
  have hz : ∀ j, n < j → f j = 0 := fun j hj => by
    have := hf j
    rw [binomialPmf, if_pos hj] at this
    exact (Option.some.inj this).symm
  unfold binomialCdf
  rw [hu, if_pos (by omega)]
  have hl : ∀ N : ℕ, forRange 0 N (fun (prob : K) k => do
      let q ← binomialPmf n p k
      some (prob + q)) 0 = some (∑ j ∈ range N, f j) := by
    intro N
    induction N with
    | zero => rw [forRange_empty le_rfl]; simp
    | succ N ih =>
      rw [forRange_succ (Nat.zero_le _), ih]
      simp [hf, sum_range_succ]
  rw [hl, Option.some.injEq]
  have hj : ∀ j : ℕ, (j : K) ≤ x ↔ j < m + 1 := fun j => by
    have : ((j : ℤ) ≤ ⌊x⌋) ↔ ((j : ℤ) : K) ≤ x := Int.le_floor
    rw [hm] at this
    push_cast at this
    rw [← this]
    simp only [Nat.cast_le]
    omega
  rw [sum_filter]
  simp only [hj]
  rw [← sum_filter]
  symm
  apply sum_subset
  · intro j; simp only [mem_filter, mem_range]; tauto
  · intro j h1 h2
    simp only [mem_filter, mem_range] at h1 h2
    exact hz j (by omega)

example : binomialCdf 3 (1 / 2 : ℚ) (3 / 2) = some (1 / 2) := by decide +kernel

omit [IsStrictOrderedRing K] in
/-- C54 is violated: at negative `x` the binomial `cdf` returns the mass of `0` instead of `0`; with more than 20
trials `pmf` panics for every value of the support; and `new` accepts every `p`, e.g. `p = 2`, where the "mass" of 1
in one trial is 2, although the documentation announces a panic. -/
theorem C54_binomial_violated [FloorRing K] :
    (∀ (n : ℕ) (p x : K), n ≤ 20 → x < 0 → binomialCdf n p x = some ((1 - p) ^ n)) ∧
    (∀ (n : ℕ) (p : K) (x : ℕ), 20 < n → x ≤ n → binomialPmf n p x = none) ∧
    (∀ (n : ℕ) (p : K), binomialNew n p = some (n, p)) ∧ binomialPmf 1 (2 : K) 1 = some 2 := by
  refine ⟨fun n p x hn hx => ?_, fun n p x hn hx => ?_, fun _ _ => rfl, ?_⟩
  · have h0 : floorU32 x = 0 := by
      unfold floorU32
      have : ⌊x⌋ < 0 := by rw [Int.floor_lt]; simpa using hx
      rw [Int.toNat_eq_zero.2 this.le]; rfl
    unfold binomialCdf
    rw [h0, if_pos (by norm_num), forRange_step (by norm_num), C54_binomial_pmf hn]
    simp [forRange_empty]
  · unfold binomialPmf
    rw [if_neg (by omega), C53_binom, if_neg (by omega)]; rfl
  · rw [C54_binomial_pmf (by norm_num)]; simp

example : binomialCdf 3 (1 / 2 : ℚ) (-7) = some (1 / 8) ∧ binomialPmf 25 (1 / 2 : ℚ) 3 = none := by decide +kernel

end Stat
end Verif
