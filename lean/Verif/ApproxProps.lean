import Verif.ApproxModel
import Mathlib.Algebra.Order.Ring.Rat
import Mathlib.Algebra.Order.Ring.Abs
import Mathlib.Algebra.Order.Ring.Int
import Mathlib.Tactic.Linarith

/-!
# C39 scalar approximate equality
-/

namespace Verif
open Approx

/-- Unsigned integers of any width: never panics, and holds exactly when the distance is at most `eps`. -/
theorem C39_unsigned (a b eps : Nat) :
    absDiffEqU a b eps = some (decide (|(a : Int) - b| ≤ (eps : Int))) := by
  unfold absDiffEqU usub
  by_cases h : a > b
  · have h1 : ¬ a < b := by omega
    have h2 : |(a : Int) - b| = a - b := abs_of_nonneg (by omega)
    simp only [h, if_true, h1, if_false, h2, Option.map_some, Option.some.injEq,
      decide_eq_decide]
    omega
  · have h1 : ¬ b < a := by omega
    have h2 : |(a : Int) - b| = b - a := by rw [abs_of_nonpos (by omega)]; omega
    simp only [h, h1, if_false, h2, Option.map_some, Option.some.injEq,
      decide_eq_decide]
    omega

example : absDiffEqU 3 250 247 = some true ∧ absDiffEqU 250 3 246 = some false := by decide

/-- Signed integers: correct whenever the difference and its negation are representable.
    Missing: distant operands, where the subtraction overflows (`C39_signed_violated`). -/
theorem C39_signed_partial (w : Nat) (a b eps : Int) (h : |a - b| < 2 ^ (w - 1)) :
    absDiffEqS w a b eps = some (decide (|a - b| ≤ eps)) := by
  have h1 := abs_lt.1 h
  have h2 := abs_nonneg (a - b)
  have i1 : inRange w (a - b) := ⟨by omega, by omega⟩
  have i2 : inRange w |a - b| := ⟨by omega, h⟩
  simp [absDiffEqS, chk, i1, i2]

/-- Signed integers: it panics exactly when the distance is not representable. -/
theorem C39_signed_panic_iff (w : Nat) (a b eps : Int) :
    absDiffEqS w a b eps = none ↔ 2 ^ (w - 1) ≤ |a - b| := by
  constructor
  · intro h
    by_contra hc
    rw [C39_signed_partial w a b eps (by omega)] at h
    cases h
  · intro h
    by_cases i1 : inRange w (a - b)
    · have i2 : ¬ inRange w |a - b| := fun h' => by have := h'.2; omega
      simp [absDiffEqS, chk, i1, i2]
    · simp [absDiffEqS, chk, i1]

/-- `100_i8` and `-100_i8` cannot be compared. -/
theorem C39_signed_violated :
    ∃ a b : Int, inRange 8 a ∧ inRange 8 b ∧ ∀ eps, absDiffEqS 8 a b eps = none :=
  ⟨100, -100, by decide, by decide, fun eps => (C39_signed_panic_iff 8 _ _ eps).2 (by decide)⟩

example : absDiffEqS 8 (-3) 100 103 = some true := by decide

section
variable {K : Type} [Field K] [LinearOrder K] [IsStrictOrderedRing K]

omit [IsStrictOrderedRing K] in
/-- Finite floats: exactly `|a-b| ≤ eps`. -/
theorem C39_absdiff (a b eps : K) : absDiffEqF (.fin a) (.fin b) eps = true ↔ |a - b| ≤ eps := by
  simp [absDiffEqF, Fl.fsub, Fl.fabs, Fl.fle]

/-- Reflexive for `eps ≥ 0`, symmetric (also for infinities and NaN), monotone in `eps`. -/
theorem C39_absdiff_laws :
    (∀ a eps : K, 0 ≤ eps → absDiffEqF (.fin a) (.fin a) eps = true) ∧
    (∀ (x y : Fl K) (eps : K), absDiffEqF x y eps = absDiffEqF y x eps) ∧
    (∀ (x y : Fl K) (eps eps' : K), eps ≤ eps' → absDiffEqF x y eps = true → absDiffEqF x y eps' = true) := by
  refine ⟨?_, ?_, ?_⟩
  · intro a eps h; rw [C39_absdiff]; simpa using h
  · intro x y eps
    cases x <;> cases y <;> simp [absDiffEqF, Fl.fsub, Fl.fabs, Fl.fle, abs_sub_comm]
  · intro x y eps eps' h
    cases x <;> cases y <;> simp [absDiffEqF, Fl.fsub, Fl.fabs, Fl.fle]
    intro h'; exact h'.trans h

/-- Finite floats: `relative_eq` is equality, absolute closeness or relative closeness. -/
theorem C39_relative (a b eps r : K) : relativeEqF (.fin a) (.fin b) eps r = true ↔
    a = b ∨ |a - b| ≤ eps ∨ |a - b| ≤ max |a| |b| * r := by
  by_cases h : a = b
  · simp [relativeEqF, Fl.feq, h]
  · by_cases h2 : |a - b| ≤ eps
    · simp [relativeEqF, Fl.feq, h, Fl.isInfinite, Fl.fsub, Fl.fabs, Fl.fle, h2]
    · by_cases h3 : |b| > |a|
      · simp only [relativeEqF, Fl.feq, h, Fl.isInfinite, Fl.fsub, Fl.fabs, Fl.fle, h2, Fl.fgt, h3, Fl.fmul,
          max_eq_right (le_of_lt h3)]
        simp
      · simp only [relativeEqF, Fl.feq, h, Fl.isInfinite, Fl.fsub, Fl.fabs, Fl.fle, h2, Fl.fgt, h3, Fl.fmul,
          max_eq_left (not_lt.1 h3)]
        simp

/-- `relative_eq` is reflexive on everything but NaN (for any tolerances) and symmetric on everything. -/
theorem C39_relative_laws :
    (∀ (x : Fl K) (eps r : K), relativeEqF x x eps r = true ↔ x ≠ .nan) ∧
    (∀ (x y : Fl K) (eps r : K), relativeEqF x y eps r = relativeEqF y x eps r) := by
  constructor
  · intro x eps r
    cases x <;> simp [relativeEqF, Fl.feq, Fl.isInfinite, Fl.fsub, Fl.fabs, Fl.fle, Fl.fgt, Fl.fmul]
  · intro x y eps r
    have hff : ∀ a b : K, relativeEqF (.fin a) (.fin b) eps r = relativeEqF (.fin b) (.fin a) eps r := by
      intro a b
      rw [Bool.eq_iff_iff, C39_relative, C39_relative, abs_sub_comm a b, max_comm |a| |b|, eq_comm]
    cases x <;> cases y <;>
      first
      | exact hff _ _
      | simp [relativeEqF, Fl.feq, Fl.isInfinite, Fl.fsub, Fl.fabs, Fl.fle, Fl.fgt, Fl.fmul]

omit [IsStrictOrderedRing K] in
/-- Infinities: `relative_eq` holds only for the same infinity; `abs_diff_eq` not even then. -/
theorem C39_infinite (y : Fl K) (eps r : K) :
    (relativeEqF .pinf y eps r = true ↔ y = .pinf) ∧ (relativeEqF .ninf y eps r = true ↔ y = .ninf) ∧
    absDiffEqF .pinf y eps = false ∧ absDiffEqF .ninf y eps = false := by
  cases y <;> simp [relativeEqF, absDiffEqF, Fl.feq, Fl.isInfinite, Fl.fsub, Fl.fabs, Fl.fle]

end

example : relativeEqF (.fin (100 : ℚ)) (.fin 101) (1/10) (1/100) = true ∧
    relativeEqF (.fin (1 : ℚ)) (.fin 2) (1/10) (1/100) = false ∧
    absDiffEqF (.fin (1 : ℚ)) (.fin 2) 1 = true := by decide +kernel

end Verif
