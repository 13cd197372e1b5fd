import Verif.HouseholderProps
import Mathlib.Analysis.SpecialFunctions.Pow.Real

/-!
# C22: vector norms

Model of `p_norm` and `eucl_norm`, `/repo/src/algebra/linear/vector/vector.rs:131-144, 180-185`, and their
properties.
-/

namespace Verif
open Finset

/-- `f64::powf`, the float instance of `Power::pow`: a negative base with a non-integer exponent is a NaN, here
    `none`. -/
noncomputable def fpow (x p : ℝ) : Option ℝ :=
  open Classical in if x < 0 ∧ ¬ ∃ k : ℤ, p = k then none else some (x ^ p)

namespace Mat

/-- `vector.rs:131-144`, `p_norm`. -/
noncomputable def pNorm (v : Mat ℝ) (p : ℝ) : Option ℝ :=
  open Classical in
  if 1 ≤ p then do
    let sum ← forRange 0 (v.m * v.n) (fun sum i => do
      let b ← v.vget i
      let t ← fpow b p
      some (sum + t)) (0 : ℝ)
    fpow sum (1 / p)
  else none

/-- `vector.rs:180-185`, `eucl_norm`. -/
noncomputable def euclNorm (v : Mat ℝ) : Option ℝ := v.pNorm 2

end Mat

theorem fpow_nonneg {x : ℝ} (hx : 0 ≤ x) (p : ℝ) : fpow x p = some (x ^ p) := by
  unfold fpow
  rw [if_neg]
  rintro ⟨h, _⟩
  exact absurd hx (not_le.mpr h)

theorem fpow_int (x : ℝ) (k : ℤ) : fpow x k = some (x ^ k) := by
  unfold fpow
  rw [if_neg, Real.rpow_intCast]
  rintro ⟨_, h⟩
  exact h ⟨k, rfl⟩

/-- the vector entries of a row or column -/
def VecRepr {n : Nat} (v : Mat ℝ) (x : Fin n → ℝ) : Prop := ColRepr v x ∨ RowRepr v x

theorem VecRepr.len {n : Nat} {v : Mat ℝ} {x : Fin n → ℝ} (h : VecRepr v x) : v.m * v.n = n := by
  rcases h with h | h <;> simp [h.is.hm, h.is.hn]

theorem VecRepr.vget {n : Nat} {v : Mat ℝ} {x : Fin n → ℝ} (h : VecRepr v x) {i : Nat} (hi : i < n) :
    v.vget i = some (extV x i) := by
  rcases h with h | h
  · exact h.is.vget_col hi
  · exact h.is.vget_row hi

theorem pNorm_sum {n : Nat} {v : Mat ℝ} {x : Fin n → ℝ} (hv : VecRepr v x) {p : ℝ} (hp : 1 ≤ p)
    {t : Fin n → ℝ} (ht : ∀ i, fpow (x i) p = some (t i)) :
    v.pNorm p = fpow (∑ i, t i) (1 / p) := by
  unfold Mat.pNorm
  rw [if_pos hp, hv.len]
  rw [Mat.sumLoop (extV t)]
  · simp only [Option.bind_eq_bind, Option.bind_some, zero_add]
    rw [Nat.Ico_zero_eq_range, ← Fin.sum_univ_eq_sum_range (extV t)]
    rw [sum_congr rfl (fun i _ => extV_apply t i)]
  · intro s k _ hk
    have := ht ⟨k, hk⟩
    simp only [hv.vget hk, Option.bind_eq_bind, Option.bind_some, extV_lt x hk, this, extV_lt t hk]

/-- For nonnegative entries `p_norm` is the p-norm. Missing: negative entries (see `C22_even`, `C22_violated`). -/
theorem C22_nonneg_partial {n : Nat} {v : Mat ℝ} {x : Fin n → ℝ} (hv : VecRepr v x) {p : ℝ} (hp : 1 ≤ p)
    (hx : ∀ i, 0 ≤ x i) : v.pNorm p = some ((∑ i, |x i| ^ p) ^ (1 / p)) := by
  rw [pNorm_sum hv hp (t := fun i => |x i| ^ p) (fun i => by rw [fpow_nonneg (hx i), abs_of_nonneg (hx i)])]
  exact fpow_nonneg (sum_nonneg (fun i _ => Real.rpow_nonneg (abs_nonneg _) _)) _

/-- For an even exponent `p_norm` is the p-norm of every vector. Missing: other exponents. -/
theorem C22_even_partial {n : Nat} {v : Mat ℝ} {x : Fin n → ℝ} (hv : VecRepr v x) (k : ℕ) (hk : 0 < k) :
    v.pNorm (2 * k) = some ((∑ i, |x i| ^ (2 * k)) ^ ((1 : ℝ) / (2 * k))) := by
  have hk1 : (1 : ℝ) ≤ k := by exact_mod_cast hk
  rw [pNorm_sum hv (by linarith) (t := fun i => |x i| ^ (2 * k)) (fun i => ?_)]
  · exact fpow_nonneg (sum_nonneg (fun i _ => pow_nonneg (abs_nonneg _) _)) _
  · have := fpow_int (x i) (2 * k : ℕ)
    push_cast at this
    rw [this]
    congr 1
    rw [show (2 * (k : ℤ)) = ((2 * k : ℕ) : ℤ) by push_cast; rfl, zpow_natCast, pow_mul, pow_mul, sq_abs]

/-- `eucl_norm` is the 2-norm -/
theorem C22_eucl {n : Nat} {v : Mat ℝ} {x : Fin n → ℝ} (hv : VecRepr v x) :
    v.euclNorm = some (Real.sqrt (∑ i, x i ^ 2)) := by
  have := C22_even_partial hv 1 one_pos
  simp only [Nat.cast_one, mul_one, sq_abs] at this
  rw [Mat.euclNorm, this, Real.sqrt_eq_rpow]

example : (⟨2, 1, [3, -4]⟩ : Mat ℝ).euclNorm = some 5 := by
  rw [C22_eucl (x := ![3, -4]) (Or.inl (by simp [ColRepr]))]
  simp only [Fin.sum_univ_two]
  norm_num
  rw [show (25 : ℝ) = 5 ^ 2 by norm_num, Real.sqrt_sq (by norm_num)]

/-- the norm axioms for `eucl_norm`: nonnegative, zero only at zero, absolutely homogeneous, triangle inequality -/
theorem C22_eucl_norm {n : Nat} {u v w s : Mat ℝ} {x y : Fin n → ℝ} (c : ℝ) (hu : VecRepr u x) (hv : VecRepr v y)
    (hw : VecRepr w (fun i => x i + y i)) (hs : VecRepr s (fun i => c * x i)) :
    ∃ a b d e, u.euclNorm = some a ∧ v.euclNorm = some b ∧ w.euclNorm = some d ∧ s.euclNorm = some e ∧
      0 ≤ a ∧ (a = 0 ↔ x = 0) ∧ e = |c| * a ∧ d ≤ a + b := by
  refine ⟨_, _, _, _, C22_eucl hu, C22_eucl hv, C22_eucl hw, C22_eucl hs, Real.sqrt_nonneg _, ?_, ?_, ?_⟩
  · rw [Real.sqrt_eq_zero (sum_nonneg (fun i _ => sq_nonneg _)), sum_eq_zero_iff_of_nonneg (fun i _ => sq_nonneg _)]
    constructor
    · intro h; funext i; exact pow_eq_zero_iff (two_ne_zero) |>.mp (h i (mem_univ _))
    · intro h i _; rw [h]; simp
  · rw [← Real.sqrt_sq_eq_abs, ← Real.sqrt_mul (sq_nonneg c), mul_sum]
    congr 1
    exact sum_congr rfl (fun i _ => by ring)
  · rw [Real.sqrt_le_left (add_nonneg (Real.sqrt_nonneg _) (Real.sqrt_nonneg _))]
    have hcs := Finset.sum_mul_sq_le_sq_mul_sq univ x y
    have ha := Real.sq_sqrt (sum_nonneg (fun i (_ : i ∈ univ) => sq_nonneg (x i)))
    have hb := Real.sq_sqrt (sum_nonneg (fun i (_ : i ∈ univ) => sq_nonneg (y i)))
    set a := Real.sqrt (∑ i, x i ^ 2)
    set b := Real.sqrt (∑ i, y i ^ 2)
    have h0 : ∑ i, x i * y i ≤ a * b := by
      refine le_of_sq_le_sq ?_ (mul_nonneg (Real.sqrt_nonneg _) (Real.sqrt_nonneg _))
      rw [mul_pow, ha, hb]; exact hcs
    have : ∑ i, (x i + y i) ^ 2 = ∑ i, x i ^ 2 + 2 * ∑ i, x i * y i + ∑ i, y i ^ 2 := by
      rw [mul_sum, ← sum_add_distrib, ← sum_add_distrib]
      exact sum_congr rfl (fun i _ => by ring)
    rw [this, ← ha, ← hb]
    nlinarith

/-- the root of the sum of squares used by the Householder model is this `p_norm` -/
theorem C22_norm2 {n : Nat} {v : Mat ℝ} {x : Fin n → ℝ} (hv : ColRepr v x) :
    v.norm2 Real.sqrt = v.pNorm 2 := by
  have := C22_eucl (Or.inl hv)
  rw [Mat.euclNorm] at this
  rw [this, norm2_is hv.is, ← Fin.sum_univ_eq_sum_range (fun i => extV x i * extV x i)]
  congr 2
  exact sum_congr rfl (fun i _ => by rw [extV_apply]; ring)

/-- `p < 1` panics -/
theorem C22_small (v : Mat ℝ) {p : ℝ} (hp : p < 1) : v.pNorm p = none := by
  unfold Mat.pNorm
  rw [if_neg (not_le.mpr hp)]

/-- with `p = 1` the nonzero vector `(1, -1)` gets norm zero: the absolute value is not taken -/
theorem C22_violated : ∃ v : Mat ℝ, v = ⟨2, 1, [1, -1]⟩ ∧ v.pNorm 1 = some 0 := by
  refine ⟨_, rfl, ?_⟩
  rw [pNorm_sum (x := ![1, -1]) (t := ![1, -1]) (Or.inl (by simp [ColRepr])) le_rfl]
  · simp [Fin.sum_univ_two, fpow]
  · intro i
    have := fpow_int ((![1, -1] : Fin 2 → ℝ) i) 1
    simp only [Int.cast_one, zpow_one] at this
    rw [this]

/-- with `p = 3` the vector `(-1)` has no norm (NaN) -/
theorem C22_violated_odd : ∃ v : Mat ℝ, v = ⟨1, 1, [-1]⟩ ∧ v.pNorm 3 = none := by
  refine ⟨_, rfl, ?_⟩
  rw [pNorm_sum (x := ![-1]) (t := ![-1]) (Or.inl (by simp [ColRepr])) (by norm_num)]
  · simp only [Fin.sum_univ_one, fpow]
    rw [if_pos]
    refine ⟨by simp, ?_⟩
    rintro ⟨k, hk⟩
    have h3 : (3 * k : ℝ) = 1 := by rw [← hk]; norm_num
    have h4 : 3 * k = 1 := by exact_mod_cast h3
    omega
  · intro i
    have := fpow_int ((![-1] : Fin 1 → ℝ) i) 3
    simp only [Int.cast_ofNat] at this
    rw [this]
    fin_cases i
    norm_num

end Verif
