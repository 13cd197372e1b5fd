import Verif.FloatOdeLemmas
import Verif.FixedProps

/-!
# Property C91: the times of the fixed stepper with rounding
-/

set_option linter.unusedSectionVars false

namespace Verif
namespace Ode
open Finset
variable {K : Type} [Field K] [LinearOrder K] [IsStrictOrderedRing K] {R : Rounding K}

theorem Fl.min_val (x y : Fl R) : (min x y).val = min x.val y.val := by
  rcases le_total x y with h | h
  · rw [min_eq_left h, min_eq_left ((Fl.le_iff _ _).1 h)]
  · rw [min_eq_right h, min_eq_right ((Fl.le_iff _ _).1 h)]

/-- one step of the time: `S` bounds the times -/
theorem time_step {τ h t₁ S : K} (hh : 0 < h) (hu : R.u ≤ 1 / 8) (h1 : |t₁ - τ| ≤ 2 * S) (h2 : |τ| ≤ 2 * S) (h3 : |t₁| ≤ S) :
    |R.rnd (τ + min h (R.rnd (t₁ - τ))) - (τ + min h (R.rnd (t₁ - τ)))| ≤ 4 * R.u * S ∧
    |min h (R.rnd (t₁ - τ)) - min h (t₁ - τ)| ≤ 2 * R.u * S ∧
    (τ ≤ t₁ → 0 ≤ min h (R.rnd (t₁ - τ))) ∧
    (t₁ ≤ τ → - (2 * (τ - t₁)) ≤ min h (R.rnd (t₁ - τ))) := by
  have hS : 0 ≤ S := (abs_nonneg _).trans h3
  have u0 := R.u_nonneg
  have e1 := R.err (t₁ - τ)
  have e2 : |R.rnd (t₁ - τ) - (t₁ - τ)| ≤ 2 * R.u * S :=
    e1.trans (by have := mul_le_mul_of_nonneg_left h1 u0; linarith)
  have e3 : |min h (R.rnd (t₁ - τ)) - min h (t₁ - τ)| ≤ 2 * R.u * S := by
    refine (abs_min_sub_min_le_max _ _ _ _).trans ?_
    rw [sub_self, abs_zero]
    exact max_le (by positivity) e2
  have uS : R.u * S ≤ S / 8 := by nlinarith
  have bound : |τ + min h (R.rnd (t₁ - τ))| ≤ 4 * S := by
    have a := abs_le.1 h1
    have b := abs_le.1 h2
    have c := abs_le.1 h3
    have d := abs_le.1 e2
    rw [abs_le]
    constructor
    · rcases le_total h (R.rnd (t₁ - τ)) with hm | hm
      · rw [min_eq_left hm]; linarith
      · rw [min_eq_right hm]; linarith [d.1]
    · have := min_le_right h (R.rnd (t₁ - τ))
      linarith [d.2]
  refine ⟨(R.err _).trans (by have := mul_le_mul_of_nonneg_left bound u0; linarith), e3, ?_, ?_⟩
  · intro hle
    rw [abs_of_nonneg (by linarith : 0 ≤ t₁ - τ)] at e1
    have := (abs_le.1 e1).1
    refine le_min hh.le ?_
    nlinarith [mul_le_mul_of_nonneg_right hu (by linarith : 0 ≤ t₁ - τ)]
  · intro hle
    rw [abs_of_nonpos (by linarith : t₁ - τ ≤ 0)] at e1
    have := (abs_le.1 e1).1
    refine le_min (by linarith) ?_
    nlinarith [mul_le_mul_of_nonneg_right hu (by linarith : 0 ≤ τ - t₁)]

/-- the times of the fixed stepper: close to the exact grid, inside of the (slightly enlarged) time span -/
theorem times_fl {n : ℕ} (F : Fl R → (Fin n → Fl R) → Fl R → (Fin n → Fl R)) {h t₀ t₁ : Fl R} (hh : 0 < h.val)
    (ht : t₀.val ≤ t₁.val) (x₀ : Fin n → Fl R) {N : ℕ} (hN : 8 * N * R.u ≤ 1) {ω : K}
    (hω : ω = 8 * R.u * (|t₀.val| + |t₁.val|)) : ∀ k ≤ N,
    (t₀.val - k * ω ≤ (iterSeq F h t₀ t₁ x₀ k).1.val ∧ (iterSeq F h t₀ t₁ x₀ k).1.val ≤ t₁.val + ω) ∧
    |(iterSeq F h t₀ t₁ x₀ k).1.val - grid h.val t₀.val t₁.val k| ≤ k * ω := by
  set S := |t₀.val| + |t₁.val| with hS
  have u0 := R.u_nonneg
  have S0 : 0 ≤ S := by positivity
  have a0 : |t₀.val| ≤ S := by rw [hS]; linarith [abs_nonneg t₁.val]
  have a1 : |t₁.val| ≤ S := by rw [hS]; linarith [abs_nonneg t₀.val]
  have uS : 0 ≤ R.u * S := by positivity
  intro k
  induction k with
  | zero =>
    intro _
    simp only [iterSeq, Nat.cast_zero, zero_mul, sub_zero, grid, zero_mul, add_zero, min_eq_left ht, sub_self, abs_zero]
    refine ⟨⟨le_rfl, ?_⟩, le_rfl⟩
    rw [hω]; linarith
  | succ k ih =>
    intro hk
    obtain ⟨⟨i1, i2⟩, i3⟩ := ih (by omega)
    have hkN : ((k : K) + 1) ≤ N := by exact_mod_cast hk
    have k0 : (0 : K) ≤ k := Nat.cast_nonneg k
    have hku : 8 * (((k : K) + 1) * R.u) ≤ 1 := by
      have := mul_le_mul_of_nonneg_right hkN u0
      linarith
    have hu : R.u ≤ 1 / 8 := by nlinarith
    have kω : ((k : K) + 1) * ω ≤ S := by
      rw [hω]
      have := mul_le_mul_of_nonneg_right hku S0
      linarith
    have ω0 : 0 ≤ ω := by rw [hω]; positivity
    have kω' : (k : K) * ω ≤ S := by linarith
    have ω1 : ω ≤ S := by nlinarith
    set τ := (iterSeq F h t₀ t₁ x₀ k).1.val with hτ
    have b0 := abs_le.1 a0
    have b1 := abs_le.1 a1
    have t0 : t₀.val ≤ S := b0.2
    have c1 : |t₁.val - τ| ≤ 2 * S := by
      rw [abs_le]
      constructor
      · linarith
      · have : t₁.val - t₀.val ≤ S := by rw [hS]; linarith [neg_abs_le t₀.val, le_abs_self t₁.val]
        linarith
    have c2 : |τ| ≤ 2 * S := by rw [abs_le]; constructor <;> linarith
    obtain ⟨s1, s2, s3, s4⟩ := time_step (R := R) hh hu c1 c2 a1
    have e : (iterSeq F h t₀ t₁ x₀ (k + 1)).1.val = R.rnd (τ + min h.val (R.rnd (t₁.val - τ))) := by
      simp only [iterSeq, Fl.add_val, Fl.min_val, Fl.sub_val, hτ]
    rw [e]
    have s1' := abs_le.1 s1
    have s2' := abs_le.1 s2
    have hm : min h.val (t₁.val - τ) ≤ t₁.val - τ := min_le_right _ _
    rw [hω] at *
    refine ⟨⟨?_, ?_⟩, ?_⟩
    · push_cast
      rcases le_total τ t₁.val with hle | hle
      · have := s3 hle
        linarith [s1'.1, mul_nonneg k0 uS]
      · have hm2 : min h.val (t₁.val - τ) = t₁.val - τ := min_eq_right (by linarith)
        linarith [s1'.1, s2'.1, mul_nonneg k0 uS]
    · linarith [s1'.2, s2'.2]
    · push_cast
      rw [← grid_succ hh k]
      have lip : |(τ + min h.val (t₁.val - τ)) - (grid h.val t₀.val t₁.val k +
          min h.val (t₁.val - grid h.val t₀.val t₁.val k))| ≤ k * (8 * R.u * S) := by
        refine le_trans ?_ i3
        set G := grid h.val t₀.val t₁.val k
        have e1 : ∀ z : K, z + min h.val (t₁.val - z) = min (z + h.val) t₁.val := by
          intro z
          rcases le_total h.val (t₁.val - z) with hz | hz
          · rw [min_eq_left hz, min_eq_left (by linarith)]
          · rw [min_eq_right hz, min_eq_right (by linarith)]; ring
        rw [e1, e1]
        refine (abs_min_sub_min_le_max _ _ _ _).trans ?_
        rw [sub_self, abs_zero]
        refine max_le (le_of_eq ?_) (abs_nonneg _)
        congr 1; ring
      have := abs_le.1 lip
      rw [abs_le]
      constructor
      · linarith [s1'.1, s2'.1, this.1]
      · linarith [s1'.2, s2'.2, this.2]

/-- the number of steps with rounding -/
theorem steps_fl [FloorRing K] {h t₀ t₁ : Fl R} (hh : 0 < h.val) (ht : t₀.val ≤ t₁.val) (hu : R.u ≤ 1 / 8) {N : ℕ}
    (hN : N = ⌈((t₁ - t₀) / h).val⌉.toNat) :
    (HasCeil.ceilZ ((t₁ - t₀) / h) + 1).toNat = N + 1 ∧
    (1 - R.u) ^ 2 * (t₁.val - t₀.val) ≤ N * h.val ∧ N * h.val ≤ (1 + R.u) ^ 2 * (t₁.val - t₀.val) + h.val := by
  have u0 := R.u_nonneg
  set D := t₁.val - t₀.val with hD
  have D0 : 0 ≤ D := by rw [hD]; linarith
  have e1 := abs_le.1 (R.err D)
  rw [abs_of_nonneg D0] at e1
  have r1 : (1 - R.u) * D ≤ R.rnd D := by linarith [e1.1]
  have r2 : R.rnd D ≤ (1 + R.u) * D := by linarith [e1.2]
  have r0 : 0 ≤ R.rnd D := le_trans (mul_nonneg (by linarith) D0) r1
  have q0 : 0 ≤ R.rnd D / h.val := div_nonneg r0 hh.le
  have e2 := abs_le.1 (R.err (R.rnd D / h.val))
  rw [abs_of_nonneg q0] at e2
  have eq : ((t₁ - t₀) / h).val = R.rnd (R.rnd D / h.val) := by rw [Fl.div_val, Fl.sub_val]
  set q := R.rnd (R.rnd D / h.val) with hq
  have q1 : (1 - R.u) * (R.rnd D / h.val) ≤ q := by linarith [e2.1]
  have q2 : q ≤ (1 + R.u) * (R.rnd D / h.val) := by linarith [e2.2]
  have q3 : 0 ≤ q := le_trans (mul_nonneg (by linarith) q0) q1
  rw [eq] at hN
  have c0 : (0 : ℤ) ≤ ⌈q⌉ := Int.ceil_nonneg q3
  have cN : ((N : ℤ) : K) = ⌈q⌉ := by rw [hN, Int.toNat_of_nonneg c0]
  rw [Int.cast_natCast] at cN
  refine ⟨?_, ?_, ?_⟩
  · rw [Fl.ceilZ_val, eq]
    omega
  · have a := Int.le_ceil q
    rw [← cN] at a
    have b := mul_le_mul_of_nonneg_right (q1.trans a) hh.le
    have c : (1 - R.u) * (R.rnd D / h.val) * h.val = (1 - R.u) * R.rnd D := by field_simp
    rw [c] at b
    have d := mul_le_mul_of_nonneg_left r1 (by linarith : 0 ≤ 1 - R.u)
    calc (1 - R.u) ^ 2 * D = (1 - R.u) * ((1 - R.u) * D) := by ring
      _ ≤ _ := d.trans b
  · have a := (Int.ceil_lt_add_one q).le
    rw [← cN] at a
    have b := mul_le_mul_of_nonneg_right (a.trans (add_le_add_left q2 1)) hh.le
    have c : ((1 + R.u) * (R.rnd D / h.val) + 1) * h.val = (1 + R.u) * R.rnd D + h.val := by field_simp
    rw [c] at b
    have d := mul_le_mul_of_nonneg_left r2 (by linarith : 0 ≤ 1 + R.u)
    calc N * h.val ≤ (1 + R.u) * R.rnd D + h.val := b
      _ ≤ (1 + R.u) * ((1 + R.u) * D) + h.val := by linarith
      _ = _ := by ring

/-- **C91** the fixed stepper with rounding, for any method: `solve` returns `N + 1` times and states, where `N` is the
    computed quotient rounded up.  The time number `k` differs from `t₀ + k h`, cut off at `t₁`, by at most
    `8 k u (|t₀| + |t₁|)`, and the last time from `t₁` by at most `8 (N + 1) u (|t₀| + |t₁|)`.  (The number of steps must
    not exceed `1 / (8 u)`, about `10^15` for `f64`.) -/
theorem C91_times [FloorRing K] {n : ℕ} {step : Fl R → Mat (Fl R) → Fl R → Option (Mat (Fl R))}
    (hstep : ∀ t (x : Fin n → Fl R) h, ∃ y : Fin n → Fl R, step t (col x) h = some (col y))
    {h t₀ t₁ : Fl R} (hh : 0 < h.val) (ht : t₀.val ≤ t₁.val) (x₀ : Fin n → Fl R) {N : ℕ}
    (hN : N = ⌈((t₁ - t₀) / h).val⌉.toNat) (hu : 8 * (N + 1) * R.u ≤ 1) :
    ∃ ts xs, fixedSolve step h t₀ t₁ (col x₀) = some (ts, xs) ∧ ts.length = N + 1 ∧ xs.length = N + 1 ∧
      ts.head? = some t₀ ∧
      (∀ (k : ℕ) t, ts[k]? = some t →
        |t.val - min (t₀.val + k * h.val) t₁.val| ≤ 8 * k * R.u * (|t₀.val| + |t₁.val|)) ∧
      (∀ t, ts.getLast? = some t → |t.val - t₁.val| ≤ 8 * (N + 1) * R.u * (|t₀.val| + |t₁.val|)) ∧
      N * h.val ≤ (1 + R.u) ^ 2 * (t₁.val - t₀.val) + h.val := by
  choose F hF using hstep
  have u0 := R.u_nonneg
  have N0 : (0 : K) ≤ N := Nat.cast_nonneg N
  have hu8 : R.u ≤ 1 / 8 := by nlinarith [mul_nonneg N0 u0]
  have huN : 8 * N * R.u ≤ 1 := by linarith
  obtain ⟨n1, n2, n3⟩ := steps_fl hh ht hu8 hN
  have tm := times_fl F hh ht x₀ huN rfl
  have hs := fixedSolve_ops hF ((Fl.le_iff _ _).2 ht) x₀ (h := h)
  rw [n1] at hs
  refine ⟨_, _, hs, by simp, by simp, ?_, ?_, ?_, n3⟩
  · rw [List.head?_map, List.head?_range]
    simp [iterSeq]
  · intro k t hk
    rw [List.getElem?_map, Option.map_eq_some_iff] at hk
    obtain ⟨i, hi, rfl⟩ := hk
    rw [List.getElem?_eq_some_iff] at hi
    obtain ⟨hi1, rfl⟩ := hi
    rw [List.length_range] at hi1
    simp only [List.getElem_range]
    refine ((tm k (by omega)).2).trans (le_of_eq ?_)
    ring
  · intro t hk
    rw [List.range_succ, List.map_append] at hk
    simp only [List.map_cons, List.map_nil, List.getLast?_append, List.getLast?_singleton, Option.some_or,
      Option.some.injEq] at hk
    subst hk
    have a := (tm N le_rfl).2
    set S := |t₀.val| + |t₁.val| with hS
    have DS : t₁.val - t₀.val ≤ S := by rw [hS]; linarith [neg_abs_le t₀.val, le_abs_self t₁.val]
    have b : |grid h.val t₀.val t₁.val N - t₁.val| ≤ 8 * R.u * S := by
      rw [grid, abs_of_nonpos (by linarith [min_le_right (t₀.val + N * h.val) t₁.val])]
      have : t₁.val - 2 * R.u * (t₁.val - t₀.val) ≤ min (t₀.val + N * h.val) t₁.val := by
        have hD : 0 ≤ t₁.val - t₀.val := by linarith
        refine le_min ?_ (by nlinarith)
        nlinarith [mul_nonneg (mul_nonneg u0 u0) hD]
      nlinarith [mul_le_mul_of_nonneg_left DS u0, mul_nonneg u0 (by positivity : 0 ≤ S)]
    have := abs_sub_le (iterSeq F h t₀ t₁ x₀ N).1.val (grid h.val t₀.val t₁.val N) t₁.val
    linarith

/-- **C91** (what does not hold): the last time need not be the end of the time span.  With `f64`, the step size `0.1` and
    the time span `[0, 1]` the last of the 11 times is `1 - 2^-53`, for every method. -/
theorem C91_last_violated (step : Fl f64 → Mat (Fl f64) → Fl f64 → Option (Mat (Fl f64))) {n : ℕ}
    (hstep : ∀ t (x : Fin n → Fl f64) h, ∃ y : Fin n → Fl f64, step t (col x) h = some (col y)) (x₀ : Fin n → Fl f64) :
    ∃ ts xs, fixedSolve step ⟨f64.rnd (1 / 10)⟩ 0 1 (col x₀) = some (ts, xs) ∧
      ts.getLast? = some ⟨1 - 1 / 2 ^ 53⟩ := by
  choose F hF using hstep
  have hs := fixedSolve_ops hF (by decide +kernel : (0 : Fl f64) ≤ 1) x₀ (h := ⟨f64.rnd (1 / 10)⟩)
  rw [show (HasCeil.ceilZ ((1 - 0 : Fl f64) / ⟨f64.rnd (1 / 10)⟩) + 1).toNat = 11 by decide +kernel] at hs
  refine ⟨_, _, hs, ?_⟩
  have e : ∀ k, (iterSeq F ⟨f64.rnd (1 / 10)⟩ 0 1 x₀ k).1 =
      Nat.rec (motive := fun _ => Fl f64) 0 (fun _ t => t + min ⟨f64.rnd (1 / 10)⟩ (1 - t)) k := by
    intro k
    induction k with
    | zero => rfl
    | succ k ih => simp only [iterSeq, ih]
  simp only [e]
  decide +kernel

/-- **C91** (what does not hold): the times need not be strictly increasing.  With `f64`, the step size `0.1` and the time
    span `[1, 1.3]` the quotient `0.30000000000000004 / 0.1` is rounded up to 4 steps, and the last two times are both
    `1.3`, for every method. -/
theorem C91_increasing_violated (step : Fl f64 → Mat (Fl f64) → Fl f64 → Option (Mat (Fl f64))) {n : ℕ}
    (hstep : ∀ t (x : Fin n → Fl f64) h, ∃ y : Fin n → Fl f64, step t (col x) h = some (col y)) (x₀ : Fin n → Fl f64) :
    ∃ ts xs, fixedSolve step ⟨f64.rnd (1 / 10)⟩ 1 ⟨f64.rnd (13 / 10)⟩ (col x₀) = some (ts, xs) ∧
      ts.length = 5 ∧ ts[3]? = some ⟨f64.rnd (13 / 10)⟩ ∧ ts[4]? = some ⟨f64.rnd (13 / 10)⟩ := by
  choose F hF using hstep
  have hs := fixedSolve_ops hF (by decide +kernel : (1 : Fl f64) ≤ ⟨f64.rnd (13 / 10)⟩) x₀ (h := ⟨f64.rnd (1 / 10)⟩)
  rw [show (HasCeil.ceilZ ((⟨f64.rnd (13 / 10)⟩ - 1 : Fl f64) / ⟨f64.rnd (1 / 10)⟩) + 1).toNat = 5 by
    decide +kernel] at hs
  refine ⟨_, _, hs, by simp, ?_⟩
  have e : ∀ k, (iterSeq F ⟨f64.rnd (1 / 10)⟩ 1 ⟨f64.rnd (13 / 10)⟩ x₀ k).1 =
      Nat.rec (motive := fun _ => Fl f64) 1 (fun _ t => t + min ⟨f64.rnd (1 / 10)⟩ (⟨f64.rnd (13 / 10)⟩ - t)) k := by
    intro k
    induction k with
    | zero => rfl
    | succ k ih => simp only [iterSeq, ih]
  simp only [e]
  decide +kernel

/-- explicit Euler for `x' = x` in `f64` with the step size `0.1` on `[0, 0.3]` -/
example : fixedSolve (K := Fl f64) (doStep ⟨[], [1], []⟩ fun _ x => some x) ⟨f64.rnd (1 / 10)⟩ 0 ⟨f64.rnd (3 / 10)⟩
    (col ![1]) = some ([0, ⟨f64.rnd (1 / 10)⟩, ⟨f64.rnd (2 / 10)⟩, ⟨f64.rnd (3 / 10)⟩],
      [col ![1], col ![⟨f64.rnd (11 / 10)⟩], col ![⟨5449355549118301 / 2 ^ 52⟩], col ![⟨5994291104030131 / 2 ^ 52⟩]]) := by
  decide +kernel

end Ode
end Verif
