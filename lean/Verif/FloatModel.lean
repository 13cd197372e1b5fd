import Mathlib.Algebra.Order.Field.Basic
import Mathlib.Algebra.Order.Round
import Mathlib.Data.Int.Log
import Mathlib.Data.Rat.Floor
import Mathlib.Tactic.Ring
import Mathlib.Tactic.Linarith
import Mathlib.Tactic.Positivity
import Mathlib.Tactic.FieldSimp
import Mathlib.Tactic.LinearCombination

/-!
# Model of floating-point arithmetic

The element types `f32` and `f64` of the library (`/repo/src/algebra/abstr/magma.rs`, `ring.rs`, `field.rs` give them the
operators of the core language) round every result.  `Rounding` is the standard model of such an arithmetic: each
operation returns its exact result changed by a relative error of at most `u`.  `Fl R` is the number type with the
rounded operations.  The models of the matrix and polynomial functions are polymorphic in their number type, so
`Mat (Fl R)` runs the very same definitions with rounding, in the order of operations of the code.

`binary p` is the concrete arithmetic with a `p`-bit significand, rounding to nearest with ties to even (`p = 53` for
`f64`, `p = 24` for `f32`).  Simplification: the exponent is unbounded, there is no overflow, underflow, NaN or infinity.
-/

set_option linter.unusedSectionVars false

namespace Verif

/-- A rounding with relative error `u` (in both of the usual forms); rounded numbers are not changed again. -/
structure Rounding (K : Type) [Field K] [LinearOrder K] where
  /-- rounds to a representable number -/
  rnd : K → K
  /-- the unit roundoff -/
  u : K
  u_nonneg : 0 ≤ u
  err : ∀ x, |rnd x - x| ≤ u * |x|
  err' : ∀ x, |rnd x - x| ≤ u * |rnd x|
  idem : ∀ x, rnd (rnd x) = rnd x

/-- `f32` and `f64` as the number types of the library: a number of `K`, with rounded operations.
    `/repo/src/algebra/abstr/field.rs:34-37`, `impl_field` for the two types. -/
structure Fl {K : Type} [Field K] [LinearOrder K] (R : Rounding K) where
  /-- the number -/
  val : K
deriving DecidableEq

namespace Fl
variable {K : Type} [Field K] [LinearOrder K] {R : Rounding K}

theorem ext {x y : Fl R} (h : x.val = y.val) : x = y := by
  cases x; cases y; simp_all

instance : Zero (Fl R) := ⟨⟨0⟩⟩
instance : One (Fl R) := ⟨⟨1⟩⟩
instance : Add (Fl R) := ⟨fun x y => ⟨R.rnd (x.val + y.val)⟩⟩
instance : Sub (Fl R) := ⟨fun x y => ⟨R.rnd (x.val - y.val)⟩⟩
instance : Mul (Fl R) := ⟨fun x y => ⟨R.rnd (x.val * y.val)⟩⟩
instance : Div (Fl R) := ⟨fun x y => ⟨R.rnd (x.val / y.val)⟩⟩
/-- the sign is changed without an error -/
instance : Neg (Fl R) := ⟨fun x => ⟨-x.val⟩⟩
/-- conversion of an integer, rounded -/
instance : NatCast (Fl R) := ⟨fun n => ⟨R.rnd n⟩⟩
instance : LinearOrder (Fl R) := LinearOrder.lift' val (fun _ _ h => ext h)

theorem zero_val : (0 : Fl R).val = 0 := rfl
theorem one_val : (1 : Fl R).val = 1 := rfl
theorem add_val (x y : Fl R) : (x + y).val = R.rnd (x.val + y.val) := rfl
theorem sub_val (x y : Fl R) : (x - y).val = R.rnd (x.val - y.val) := rfl
theorem mul_val (x y : Fl R) : (x * y).val = R.rnd (x.val * y.val) := rfl
theorem div_val (x y : Fl R) : (x / y).val = R.rnd (x.val / y.val) := rfl
theorem neg_val (x : Fl R) : (-x).val = -x.val := rfl
theorem natCast_val (n : ℕ) : (n : Fl R).val = R.rnd n := rfl
theorem le_iff (x y : Fl R) : x ≤ y ↔ x.val ≤ y.val := Iff.rfl
theorem eq_zero_iff (x : Fl R) : x = 0 ↔ x.val = 0 := ⟨fun h => by rw [h, zero_val], fun h => ext h⟩

end Fl

/-! ### Rounding to nearest, ties to even, with `p` significant bits -/

section Binary
variable {K : Type} [Field K] [LinearOrder K] [IsStrictOrderedRing K] [FloorRing K]

/-- the integer nearest to `y`, the even one if there are two -/
def nearestEven (y : K) : ℤ :=
  if y - ⌊y⌋ < 1 / 2 then ⌊y⌋
  else if 1 / 2 < y - ⌊y⌋ then ⌊y⌋ + 1
  else if Even ⌊y⌋ then ⌊y⌋ else ⌊y⌋ + 1

/-- the spacing of the `p`-bit numbers around `x` -/
def ulp (p : ℕ) (x : K) : K := 2 ^ (Int.log 2 |x| + 1 - p)

/-- `x` rounded to `p` significant bits -/
def roundBits (p : ℕ) (x : K) : K := nearestEven (x / ulp p x) * ulp p x

theorem nearestEven_err (y : K) : |(nearestEven y : K) - y| ≤ 1 / 2 := by
  have h1 := Int.floor_le y
  have h2 := Int.lt_floor_add_one y
  unfold nearestEven
  split_ifs with a b c <;> push_cast <;> rw [abs_le] <;> constructor <;> linarith

theorem nearestEven_int (n : ℤ) : nearestEven (n : K) = n := by
  simp [nearestEven]

theorem le_nearestEven {y : K} {n : ℤ} (h : (n : K) ≤ y) : n ≤ nearestEven y := by
  have := Int.le_floor.2 h
  unfold nearestEven
  split_ifs <;> omega

theorem nearestEven_le {y : K} {n : ℤ} (h : y ≤ (n : K)) : nearestEven y ≤ n := by
  rcases h.lt_or_eq with h | h
  · have := Int.floor_lt.2 h
    unfold nearestEven
    split_ifs <;> omega
  · rw [h, nearestEven_int]

theorem ulp_pos (p : ℕ) (x : K) : 0 < ulp p x := by exact zpow_pos (by norm_num) _

/-- a number lies between two powers of two -/
theorem log_bounds {x : K} (hx : x ≠ 0) : (2 : K) ^ Int.log 2 |x| ≤ |x| ∧ |x| < 2 ^ (Int.log 2 |x| + 1) := by
  have h := abs_pos.2 hx
  exact ⟨by simpa using Int.zpow_log_le_self (b := 2) (by norm_num) h,
    by simpa using Int.lt_zpow_succ_log_self (b := 2) (by norm_num) |x|⟩

theorem log_unique {x : K} {e : ℤ} (h1 : (2 : K) ^ e ≤ |x|) (h2 : |x| < 2 ^ (e + 1)) : Int.log 2 |x| = e := by
  have hx : 0 < |x| := lt_of_lt_of_le (zpow_pos (by norm_num) _) h1
  have a := (Int.zpow_le_iff_le_log (b := 2) (by norm_num) hx).1 (by simpa using h1)
  have b := (Int.lt_zpow_iff_log_lt (b := 2) (by norm_num) hx).1 (by simpa using h2)
  omega

theorem roundBits_zero (p : ℕ) : roundBits p (0 : K) = 0 := by
  simp [roundBits, nearestEven]

theorem ulp_split (p : ℕ) (x : K) : (2 : K) ^ Int.log 2 |x| = 2 ^ ((p : ℤ) - 1) * ulp p x := by
  rw [ulp, ← zpow_add₀ (by norm_num)]; congr 1; ring

theorem ulp_split' (p : ℕ) (x : K) : (2 : K) ^ (Int.log 2 |x| + 1) = 2 ^ p * ulp p x := by
  rw [ulp, ← zpow_natCast, ← zpow_add₀ (by norm_num)]; congr 1; ring

/-- rounding does not cross the powers of two -/
theorem roundBits_bounds {p : ℕ} (hp : 1 ≤ p) {x : K} (hx : x ≠ 0) :
    (2 : K) ^ Int.log 2 |x| ≤ |roundBits p x| ∧ |roundBits p x| ≤ 2 ^ (Int.log 2 |x| + 1) := by
  obtain ⟨h1, h2⟩ := log_bounds hx
  have hu := ulp_pos p x
  rw [ulp_split p] at h1 ⊢
  rw [ulp_split' p] at h2 ⊢
  obtain ⟨q, rfl⟩ : ∃ q, p = q + 1 := ⟨p - 1, by omega⟩
  have e : ((q + 1 : ℕ) : ℤ) - 1 = (q : ℕ) := by push_cast; ring
  rw [e, zpow_natCast] at h1 ⊢
  have c1 : (2 : K) ^ q = ((2 ^ q : ℤ) : K) := by push_cast; rfl
  have c2 : (2 : K) ^ (q + 1) = ((2 ^ (q + 1) : ℤ) : K) := by push_cast; rfl
  set y := x / ulp (q + 1) x with hy
  have hxy : x = y * ulp (q + 1) x := by rw [hy]; field_simp
  have habs : |x| = |y| * ulp (q + 1) x := by
    conv_lhs => rw [hxy]
    rw [abs_mul, abs_of_pos hu]
  rw [habs] at h1 h2
  have g1 := le_of_mul_le_mul_right h1 hu
  have g2 := lt_of_mul_lt_mul_right h2 hu.le
  rw [roundBits, ← hy, abs_mul, abs_of_pos hu]
  have key : (2 : K) ^ q ≤ |(nearestEven y : K)| ∧ |(nearestEven y : K)| ≤ 2 ^ (q + 1) := by
    rw [c1, c2] at *
    rcases le_total 0 y with h | h
    · rw [abs_of_nonneg h] at g1 g2
      have a := le_nearestEven g1
      have b := nearestEven_le g2.le
      have : (0 : ℤ) ≤ nearestEven y := le_trans (by positivity) a
      rw [← Int.cast_abs, abs_of_nonneg this]
      exact ⟨by exact_mod_cast a, by exact_mod_cast b⟩
    · rw [abs_of_nonpos h] at g1 g2
      have a := nearestEven_le (y := y) (n := -(2 ^ q : ℤ)) (by push_cast at g1 ⊢; linarith)
      have b := le_nearestEven (y := y) (n := -(2 ^ (q + 1) : ℤ)) (by push_cast at g2 ⊢; linarith)
      have : nearestEven y ≤ (0 : ℤ) := a.trans (by simp)
      rw [← Int.cast_abs, abs_of_nonpos this]
      have a' : (2 : ℤ) ^ q ≤ -nearestEven y := by linarith
      have b' : -nearestEven y ≤ (2 : ℤ) ^ (q + 1) := by linarith
      exact ⟨by exact_mod_cast a', by exact_mod_cast b'⟩
  exact ⟨mul_le_mul_of_nonneg_right key.1 hu.le, mul_le_mul_of_nonneg_right key.2 hu.le⟩

/-- the error is at most half of the spacing -/
theorem roundBits_err (p : ℕ) (x : K) : |roundBits p x - x| ≤ ulp p x / 2 := by
  have hu := ulp_pos p x
  have e : roundBits p x - x = (nearestEven (x / ulp p x) - x / ulp p x) * ulp p x := by
    rw [roundBits]; field_simp
  rw [e, abs_mul, abs_of_pos hu]
  have := mul_le_mul_of_nonneg_right (nearestEven_err (x / ulp p x)) hu.le
  linarith

/-- half of the spacing in terms of the power of two below `x` -/
theorem ulp_half {p : ℕ} (x : K) : ulp p x / 2 = (2 ^ p)⁻¹ * 2 ^ Int.log 2 |x| := by
  have h := ulp_split' p x
  rw [zpow_add_one₀ (by norm_num)] at h
  field_simp
  linarith

/-- multiples of the spacing are not changed -/
theorem roundBits_of_int {p : ℕ} {x : K} {n : ℤ} (h : x = n * ulp p x) : roundBits p x = x := by
  have hu := ulp_pos p x
  have e : x / ulp p x = (n : K) := by rw [div_eq_iff hu.ne']; exact h
  rw [roundBits, e, nearestEven_int, ← h]

theorem roundBits_idem {p : ℕ} (hp : 1 ≤ p) (x : K) : roundBits p (roundBits p x) = roundBits p x := by
  by_cases hx : x = 0
  · rw [hx, roundBits_zero, roundBits_zero]
  obtain ⟨h1, h2⟩ := roundBits_bounds hp hx
  set r := roundBits p x with hr
  rcases h2.lt_or_eq with h2 | h2
  · have hl := log_unique h1 h2
    have e : ulp p r = ulp p x := by rw [ulp, ulp, hl]
    exact roundBits_of_int (n := nearestEven (x / ulp p x)) (by rw [e, hr]; rfl)
  · have hl : Int.log 2 |r| = Int.log 2 |x| + 1 :=
      log_unique h2.ge (by rw [h2]; exact zpow_lt_zpow_right₀ (by norm_num) (by omega))
    obtain ⟨q, rfl⟩ : ∃ q, p = q + 1 := ⟨p - 1, by omega⟩
    have e : |r| = 2 ^ q * ulp (q + 1) r := by
      rw [ulp, hl, h2, ← zpow_natCast, ← zpow_add₀ (by norm_num)]
      congr 1; push_cast; ring
    rcases abs_choice r with a | a
    · exact roundBits_of_int (n := 2 ^ q) (by rw [← a]; push_cast; rw [a]; rw [a] at e; exact e)
    · rw [a] at e
      exact roundBits_of_int (n := -2 ^ q) (by push_cast; linarith)

/-- integers of at most `p` bits are representable -/
theorem roundBits_intCast {p : ℕ} (hp1 : 1 ≤ p) {n : ℤ} (hn : |n| ≤ 2 ^ p) : roundBits p (n : K) = n := by
  by_cases h0 : n = 0
  · rw [h0, Int.cast_zero, roundBits_zero]
  have hne : (n : K) ≠ 0 := by exact_mod_cast h0
  obtain ⟨h1, h2⟩ := log_bounds hne
  have hn1 : (1 : K) ≤ |(n : K)| := by
    rw [← Int.cast_abs]; exact_mod_cast Int.one_le_abs h0
  have hn2 : |(n : K)| ≤ 2 ^ (p : ℤ) := by
    rw [← Int.cast_abs, zpow_natCast]; exact_mod_cast hn
  set e := Int.log 2 |(n : K)| with he
  have e0 : 0 ≤ e := by
    by_contra h
    have : (2 : K) ^ (e + 1) ≤ 2 ^ (0 : ℤ) := zpow_le_zpow_right₀ (by norm_num) (by omega)
    rw [zpow_zero] at this
    linarith
  have ep : e ≤ p := (zpow_le_zpow_iff_right₀ (by norm_num : (1 : K) < 2)).1 (h1.trans hn2)
  rcases ep.lt_or_eq with ep | ep
  · -- the spacing is `2^-j`
    obtain ⟨j, hj⟩ : ∃ j : ℕ, (p : ℤ) - 1 - e = j := ⟨((p : ℤ) - 1 - e).toNat, by omega⟩
    refine roundBits_of_int (n := n * 2 ^ j) ?_
    rw [ulp, ← he, show e + 1 - p = -(j : ℤ) by omega, zpow_neg, zpow_natCast]
    push_cast
    field_simp
  · -- `|n| = 2^p`, the spacing is 2
    have hp : |(n : K)| = 2 ^ (p : ℤ) := le_antisymm hn2 (by rw [← ep]; exact h1)
    rw [zpow_natCast] at hp
    have hu : ulp p (n : K) = 2 := by
      rw [ulp, ← he, ep, show (p : ℤ) + 1 - p = 1 by ring, zpow_one]
    obtain ⟨q, rfl⟩ : ∃ q, p = q + 1 := ⟨p - 1, by omega⟩
    rcases abs_choice (n : K) with a | a
    · refine roundBits_of_int (n := 2 ^ q) ?_
      rw [hu, ← a, hp, pow_succ]; push_cast; ring
    · refine roundBits_of_int (n := -2 ^ q) ?_
      rw [hu]; rw [a] at hp; push_cast; rw [pow_succ] at hp; linarith

/-- Arithmetic with `p` significant bits, rounding to nearest, ties to even. -/
def binary (K : Type) [Field K] [LinearOrder K] [IsStrictOrderedRing K] [FloorRing K] (p : ℕ) (hp : 1 ≤ p) :
    Rounding K where
  rnd := roundBits p
  u := (2 ^ p)⁻¹
  u_nonneg := by positivity
  err x := by
    by_cases hx : x = 0
    · simp [hx, roundBits_zero]
    refine (roundBits_err p x).trans ?_
    rw [ulp_half]
    exact mul_le_mul_of_nonneg_left (log_bounds hx).1 (by positivity)
  err' x := by
    by_cases hx : x = 0
    · simp [hx, roundBits_zero]
    refine (roundBits_err p x).trans ?_
    rw [ulp_half]
    exact mul_le_mul_of_nonneg_left (roundBits_bounds hp hx).1 (by positivity)
  idem := roundBits_idem hp

/-- the arithmetic of `f64`, on rational numbers -/
def f64 : Rounding ℚ := binary ℚ 53 (by norm_num)

/-- the arithmetic of `f32`, on rational numbers -/
def f32 : Rounding ℚ := binary ℚ 24 (by norm_num)

end Binary
end Verif
