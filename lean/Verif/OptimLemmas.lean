import Verif.OptimModel
import Verif.NewtonProps

/-! # Lemmas about the optimisation methods -/

namespace Verif
namespace Opt
open Finset Matrix
variable {K : Type} [Field K]

theorem dotp_col {n : ℕ} (hn : 0 < n) (x y : Fin n → K) : (col x).dotp (col y) = some (x ⬝ᵥ y) := by
  rw [Mat.dotp_is (col_is x) (col_is y) hn, ← Mat.sum_fin]
  simp only [extV_apply, dotProduct]

theorem mulVec_col {m n : ℕ} {A : Mat K} {M : Matrix (Fin m) (Fin n) K} (hA : Repr A M) (x : Fin n → K) :
    A.mulVec (col x) = some (col (M *ᵥ x)) := by
  obtain ⟨w, h1, h2⟩ := Mat.mulVec_is hA.is (col_is x)
  rw [h1]
  refine congrArg some (h2.colRepr_of (fun i => ?_))
  rw [← Mat.sum_fin]
  simp only [mulVec, dotProduct, extM_apply, extV_apply]

/-- Specification: the first component of `eval` is the objective `φ` -/
def ObjRepr {n : ℕ} (eval : Mat K → Option (Mat K)) (φ : (Fin n → K) → K) : Prop :=
  ∀ x, ∃ v, eval (col x) = some v ∧ v.vget 0 = some (φ x)

/-- Specification: the first row of the matrix `jac` is `g` -/
def GradRepr {n : ℕ} (jac : Mat K → Option (Mat K)) (g : (Fin n → K) → (Fin n → K)) : Prop :=
  ∀ x, ∃ J, ∃ m : ℕ, ∃ M : Matrix (Fin (m + 1)) (Fin n) K, jac (col x) = some J ∧ Repr J M ∧ M 0 = g x

variable [LinearOrder K]

omit [LinearOrder K] in
theorem neg_col {n : ℕ} (x : Fin n → K) : neg (col x) = col (-x) :=
  (Mat.apply_is (col_is x) _).colRepr_of (fun i => by simp [extV_apply])

omit [LinearOrder K] in
theorem obj_col {n : ℕ} {eval : Mat K → Option (Mat K)} {φ : (Fin n → K) → K} (h : ObjRepr eval φ) (x : Fin n → K) :
    obj eval (col x) = some (φ x) := by
  obtain ⟨v, h1, h2⟩ := h x
  simp only [obj, h1, h2, Option.bind_eq_bind, Option.bind_some]

omit [LinearOrder K] in
theorem gradAt_col {n : ℕ} {jac : Mat K → Option (Mat K)} {g : (Fin n → K) → (Fin n → K)} (h : GradRepr jac g)
    (x : Fin n → K) : gradAt jac (col x) = some (col (g x)) := by
  obtain ⟨J, m, M, h1, h2, h3⟩ := h x
  obtain ⟨v, v1, v2⟩ := Mat.getRow_is h2.is (i := 0) (by omega)
  obtain ⟨w, w1, w2⟩ := Mat.transpose_is v2 (Or.inr (Or.inl rfl)) (Or.inl (by omega))
  simp only [gradAt, h1, v1, w1, Option.bind_eq_bind, Option.bind_some]
  refine congrArg some (w2.colRepr_of (fun i => ?_))
  rw [← h3]
  exact extM_apply M 0 i

/-- The successive states of a loop -/
theorem forRange_traj {σ : Type} (f : σ → Option σ) (N : ℕ) (s t : σ) :
    forRange 0 N (fun s _ => f s) s = some t ↔
      ∃ xs : ℕ → σ, xs 0 = s ∧ xs N = t ∧ ∀ k < N, f (xs k) = some (xs (k + 1)) := by
  induction N generalizing t with
  | zero =>
    rw [forRange_empty (le_refl 0)]
    constructor
    · intro h
      exact ⟨fun _ => s, rfl, Option.some.inj h, fun k hk => absurd hk (by omega)⟩
    · rintro ⟨xs, h1, h2, _⟩
      rw [← h1, h2]
  | succ N ih =>
    rw [forRange_succ (Nat.zero_le N), Option.bind_eq_some_iff]
    constructor
    · rintro ⟨u, h1, h2⟩
      obtain ⟨xs, a1, a2, a3⟩ := (ih u).mp h1
      refine ⟨fun k => if k ≤ N then xs k else t, by simp [a1], by simp, fun k hk => ?_⟩
      rcases Nat.lt_or_ge k N with h | h
      · simp only [show k ≤ N by omega, show k + 1 ≤ N by omega, if_true]
        exact a3 k h
      · obtain rfl : k = N := by omega
        simp only [le_refl, if_true, show ¬ k + 1 ≤ k by omega, if_false, a2, h2]
    · rintro ⟨xs, h1, h2, h3⟩
      exact ⟨xs N, (ih _).mpr ⟨xs, h1, rfl, fun k hk => h3 k (by omega)⟩, by rw [← h2]; exact h3 N (by omega)⟩

/-- Halving from `a` until `c` holds -/
def bt (c : K → Bool) : ℕ → K → Option K
  | 0, _ => none
  | fuel + 1, a => if c a then some a else bt c fuel (a / 2)

omit [LinearOrder K] in
theorem bt_iff (c : K → Bool) (fuel : ℕ) (a b : K) :
    bt c fuel a = some b ↔ ∃ j < fuel, b = a / 2 ^ j ∧ c b ∧ ∀ i < j, ¬ c (a / 2 ^ i) := by
  induction fuel generalizing a with
  | zero => simp [bt]
  | succ fuel ih =>
    rw [bt]
    by_cases h : c a
    · rw [if_pos h]
      constructor
      · intro e
        cases e
        exact ⟨0, by omega, by simp, h, by simp⟩
      · rintro ⟨j, _, h2, _, h4⟩
        rcases Nat.eq_zero_or_pos j with rfl | hj
        · simp [h2]
        · exact absurd (by simpa using h) (h4 0 hj)
    · rw [if_neg h, ih]
      constructor
      · rintro ⟨j, h1, h2, h3, h4⟩
        refine ⟨j + 1, by omega, by rw [h2, pow_succ', div_div], h3, fun i hi => ?_⟩
        rcases Nat.eq_zero_or_pos i with rfl | hi0
        · simpa using h
        · have := h4 (i - 1) (by omega)
          rwa [div_div, ← pow_succ', Nat.sub_add_cancel hi0] at this
      · rintro ⟨j, h1, h2, h3, h4⟩
        rcases Nat.eq_zero_or_pos j with rfl | hj
        · simp only [pow_zero, div_one] at h2
          exact absurd (h2 ▸ h3) h
        · refine ⟨j - 1, by omega, by rw [div_div, ← pow_succ', Nat.sub_add_cancel hj, h2], h3, fun i hi => ?_⟩
          have := h4 (i + 1) (by omega)
          rwa [pow_succ', ← div_div] at this

theorem gradientSearch_eq {n : ℕ} (hn : 0 < n) {eval : Mat K → Option (Mat K)} {φ : (Fin n → K) → K}
    (h : ObjRepr eval φ) (sigma : K) (x ag : Fin n → K) (fuel : ℕ) (a : K) :
    gradientSearch eval sigma (col x) (col ag) fuel a =
      bt (fun a => decide (φ (x + a • ag) ≤ φ x - sigma * (a * (ag ⬝ᵥ ag)))) fuel a := by
  induction fuel generalizing a with
  | zero => rfl
  | succ fuel ih =>
    rw [gradientSearch, bt]
    simp only [col_mulScalar, col_add, obj_col h, dotp_col hn, smul_dotProduct, smul_eq_mul,
      Option.bind_eq_bind, Option.bind_some, ih, decide_eq_true_eq]

theorem newtonSearch_eq {n : ℕ} {eval : Mat K → Option (Mat K)} {φ : (Fin n → K) → K}
    (h : ObjRepr eval φ) (sigma : K) (x d : Fin n → K) (fx temp : K) (fuel : ℕ) (a : K) :
    newtonSearch eval sigma (col x) (col d) fx temp fuel a =
      bt (fun a => decide (φ (x + a • d) ≤ fx + temp * (sigma * a))) fuel a := by
  induction fuel generalizing a with
  | zero => rfl
  | succ fuel ih =>
    rw [newtonSearch, bt]
    simp only [col_mulScalar, col_add, obj_col h, Option.bind_eq_bind, Option.bind_some, ih, decide_eq_true_eq]
    by_cases hc : φ (x + a • d) ≤ fx + temp * (sigma * a)
    · rw [if_pos hc, if_neg (not_lt.mpr hc)]
    · rw [if_neg hc, if_pos (not_le.mp hc)]

variable [IsStrictOrderedRing K]

theorem solveV_col {n : ℕ} {A : Mat K} {M : Matrix (Fin n) (Fin n) K} (hA : Repr A M) (y : Fin n → K) :
    ∃ x : Fin n → K, A.solveV (col y) = some (col x) := by
  obtain ⟨l, u, p, L, U, σ, e1, e2, e3, e4, e5, e6, e7, e8⟩ := C11_lu_exact hA
  obtain ⟨w, w1, w2⟩ := repr_perm_mulVec e4 (colRepr_iff.mpr rfl : ColRepr (col y) y)
  obtain ⟨z, zx, z1, z2, z3⟩ := C14_forward_vector e2 w2 e6 (fun i => by rw [e5]; exact one_ne_zero)
  obtain ⟨v, x, v1, v2, -⟩ := C14_backward_vector_zero_diag e3 z2
  refine ⟨x, ?_⟩
  simp only [Mat.solveV, Mat.luSolveV, e1, w1, z1, v1, Option.bind_eq_bind, Option.bind_some, colRepr_iff.mp v2]

end Opt
end Verif
