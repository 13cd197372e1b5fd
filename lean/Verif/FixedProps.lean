import Verif.OdeModel
import Verif.ColLemmas
import Mathlib.Algebra.Order.Floor.Ring
import Mathlib.Algebra.Order.Floor.Semiring
import Mathlib.Data.Rat.Floor
import Mathlib.Tactic.Linarith
import Mathlib.Tactic.FieldSimp

/-! # Fixed step size stepper: C40 -/

namespace Verif
namespace Ode
variable {K : Type} [Field K] [LinearOrder K] [IsStrictOrderedRing K]

/-- the grid of the fixed stepper: `t₀ + k h`, cut off at `t₁` -/
def grid (h t₀ t₁ : K) (k : ℕ) : K := min (t₀ + k * h) t₁

theorem grid_succ {h t₀ t₁ : K} (hh : 0 < h) (k : ℕ) :
    grid h t₀ t₁ k + min h (t₁ - grid h t₀ t₁ k) = grid h t₀ t₁ (k + 1) := by
  unfold grid
  push_cast
  rcases le_total (t₀ + k * h) t₁ with h1 | h1
  · rw [min_eq_left h1]
    rcases le_total h (t₁ - (t₀ + k * h)) with h2 | h2
    · rw [min_eq_left h2, min_eq_left (by linarith)]; ring
    · rw [min_eq_right h2, min_eq_right (by linarith)]; ring
  · rw [min_eq_right h1, sub_self, min_eq_right hh.le, min_eq_right (by linarith), add_zero]

theorem grid_diff {h t₀ t₁ : K} (hh : 0 < h) (k : ℕ) :
    min h (t₁ - grid h t₀ t₁ k) = grid h t₀ t₁ (k + 1) - grid h t₀ t₁ k := by
  rw [← grid_succ hh k]; ring

variable [FloorRing K]

/-- the number of steps -/
theorem steps_eq {h t₀ t₁ : K} (hh : 0 < h) (ht : t₀ ≤ t₁) :
    (⌈(t₁ - t₀) / h⌉ + 1).toNat = ⌈(t₁ - t₀) / h⌉₊ + 1 := by
  have h0 : 0 ≤ (t₁ - t₀) / h := div_nonneg (by linarith) hh.le
  have h1 : (0 : ℤ) ≤ ⌈(t₁ - t₀) / h⌉ := Int.ceil_nonneg h0
  have h2 : ((⌈(t₁ - t₀) / h⌉₊ : ℕ) : ℤ) = ⌈(t₁ - t₀) / h⌉ := Int.natCast_ceil_eq_ceil h0
  omega

/-- C40: the grid ends at `t₁`, is strictly increasing, and its points are `h` apart except for the last -/
theorem C40_grid {h t₀ t₁ : K} (hh : 0 < h) (ht : t₀ ≤ t₁) :
    grid h t₀ t₁ 0 = t₀ ∧ grid h t₀ t₁ ⌈(t₁ - t₀) / h⌉₊ = t₁ ∧
    (∀ k < ⌈(t₁ - t₀) / h⌉₊, grid h t₀ t₁ k < grid h t₀ t₁ (k + 1)) ∧
    (∀ k, k + 1 < ⌈(t₁ - t₀) / h⌉₊ → grid h t₀ t₁ (k + 1) - grid h t₀ t₁ k = h) ∧
    ∀ k, t₀ ≤ grid h t₀ t₁ k ∧ grid h t₀ t₁ k ≤ t₁ := by
  have lt_of : ∀ k : ℕ, k < ⌈(t₁ - t₀) / h⌉₊ → t₀ + k * h < t₁ := by
    intro k hk
    rw [Nat.lt_ceil, lt_div_iff₀ hh] at hk
    linarith
  refine ⟨by simp [grid, ht], ?_, ?_, ?_, ?_⟩
  · have := Nat.le_ceil ((t₁ - t₀) / h)
    rw [div_le_iff₀ hh] at this
    exact min_eq_right (by linarith)
  · intro k hk
    have := lt_of k hk
    unfold grid
    rw [min_eq_left this.le, lt_min_iff]
    push_cast
    exact ⟨by linarith, this⟩
  · intro k hk
    have h1 := lt_of (k + 1) hk
    have h2 := lt_of k (by omega)
    unfold grid
    rw [min_eq_left h1.le, min_eq_left h2.le]
    push_cast
    ring
  · intro k
    refine ⟨le_min ?_ ht, min_le_right _ _⟩
    have : (0 : K) ≤ k * h := by positivity
    linarith

/-- C40: `solve` returns the grid and as states the successive results of `do_step`, which is called with the length of
    the interval between the grid points. -/
theorem C40_fixed_solve (step : K → Mat K → K → Option (Mat K)) {h t₀ t₁ : K} (hh : 0 < h) (ht : t₀ ≤ t₁)
    (init : Mat K) {ts : List K} {xs : List (Mat K)} (hs : fixedSolve step h t₀ t₁ init = some (ts, xs)) :
    ∃ X : ℕ → Mat K, X 0 = init ∧
      ts = (List.range (⌈(t₁ - t₀) / h⌉₊ + 1)).map (grid h t₀ t₁) ∧
      xs = (List.range (⌈(t₁ - t₀) / h⌉₊ + 1)).map X ∧
      ∀ k < ⌈(t₁ - t₀) / h⌉₊,
        step (grid h t₀ t₁ k) (X k) (grid h t₀ t₁ (k + 1) - grid h t₀ t₁ k) = some (X (k + 1)) := by
  unfold fixedSolve at hs
  rw [if_neg (by simpa using ht), ceilZ_eq, steps_eq hh ht] at hs
  simp only [Option.bind_eq_bind, Option.bind_eq_some_iff] at hs
  obtain ⟨r, hr, he⟩ := hs
  have key := forRange_inv_of_some
    (fun i s => ∃ X : ℕ → Mat K, X 0 = init ∧ s.1 = grid h t₀ t₁ i ∧ s.2.1 = X i ∧
      s.2.2.1 = (List.range i).map (grid h t₀ t₁) ∧ s.2.2.2 = (List.range i).map X ∧
      ∀ k < i, step (grid h t₀ t₁ k) (X k) (grid h t₀ t₁ (k + 1) - grid h t₀ t₁ k) = some (X (k + 1)))
    ⟨fun _ => init, rfl, by simp [grid, ht], rfl, by simp, by simp, by simp⟩
    (by
      intro i u u' _ _ ⟨X, h0, h1, h2, h3, h4, h5⟩ hu
      simp only [fixedIter, Option.bind_eq_bind, Option.bind_eq_some_iff] at hu
      obtain ⟨x', hx', hu⟩ := hu
      have hu := Option.some.inj hu
      refine ⟨Function.update X (i + 1) x', by simp [Function.update, h0], ?_, ?_, ?_, ?_, ?_⟩
      · rw [← hu, h1, grid_succ hh]
      · rw [← hu]; simp
      · rw [← hu, h3, h1]; simp [List.range_succ]
      · rw [← hu, h4, h2]
        simp only [List.range_succ, List.map_append, List.map_cons, List.map_nil]
        congr 1
        · apply List.map_congr_left
          intro k hk
          rw [List.mem_range] at hk
          simp [Function.update, show k ≠ i + 1 by omega]
        · simp
      · intro k hk
        rcases Nat.lt_or_ge k i with hlt | hge
        · have := h5 k hlt
          simpa [Function.update, show k ≠ i + 1 by omega, show k ≠ i by omega] using this
        · obtain rfl : k = i := by omega
          rw [h1, h2, grid_diff hh] at hx'
          simpa [Function.update] using hx') hr
  simp only [Nat.zero_max] at key
  obtain ⟨X, h0, _, _, h3, h4, h5⟩ := key
  have he := Option.some.inj he
  have e1 := congrArg Prod.fst he
  have e2 := congrArg Prod.snd he
  simp only at e1 e2
  exact ⟨X, h0, by rw [← e1, h3], by rw [← e2, h4], fun k hk => h5 k (by omega)⟩

/-- C40: `solve` does not panic when `do_step` does not (on the states that satisfy some property `P`). -/
theorem C40_fixed_total (step : K → Mat K → K → Option (Mat K)) (P : Mat K → Prop)
    (hP : ∀ t x h, P x → ∃ x', step t x h = some x' ∧ P x') {h t₀ t₁ : K} (ht : t₀ ≤ t₁)
    (init : Mat K) (hi : P init) : ∃ ts xs, fixedSolve step h t₀ t₁ init = some (ts, xs) := by
  unfold fixedSolve
  rw [if_neg (by simpa using ht), ceilZ_eq]
  obtain ⟨r, hr, _⟩ := forRange_inv' (a := 0) (b := (⌈(t₁ - t₀) / h⌉ + 1).toNat)
    (f := fun s _ => fixedIter step h t₁ s) (s := ((t₀, init, [], []) : K × Mat K × List K × List (Mat K)))
    (fun _ s => P s.2.1) hi
    (by
      intro i s _ _ hs
      obtain ⟨x', hx', hp⟩ := hP s.1 s.2.1 (min h (t₁ - s.1)) hs
      refine ⟨(s.1 + min h (t₁ - s.1), x', s.2.2.1 ++ [s.1], s.2.2.2 ++ [s.2.1]), ?_, hp⟩
      simp [fixedIter, hx'])
  refine ⟨r.2.2.1, r.2.2.2, ?_⟩
  simp only [Option.bind_eq_bind]
  rw [hr]; rfl

/-- C40: an empty time span is rejected only when it is reversed; the step size has to be positive -/
theorem C40_panics (step : K → Mat K → K → Option (Mat K)) {h t₀ t₁ : K} (init : Mat K) :
    (t₁ < t₀ → fixedSolve step h t₀ t₁ init = none) ∧ (newStepper h = none ↔ h ≤ 0) := by
  constructor
  · intro ht; simp [fixedSolve, ht]
  · simp [newStepper]

/-- explicit Euler for `x' = x` with step size `2/5` on `[0, 1]`: times `0, 2/5, 4/5, 1` -/
example : fixedSolve (doStep (K := ℚ) explicitEuler (fun _ x => some x)) (2/5) 0 1 (col ![1]) =
    some ([0, 2/5, 4/5, 1], [col ![1], col ![7/5], col ![49/25], col ![294/125]]) := by decide +kernel

/-- an empty span gives a single point -/
example : fixedSolve (doStep (K := ℚ) explicitEuler (fun _ x => some x)) (2/5) 1 1 (col ![1]) =
    some ([1], [col ![1]]) := by decide +kernel

end Ode
end Verif
