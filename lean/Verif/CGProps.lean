import Verif.OptimLemmas
import Verif.OptimProps
import Mathlib.LinearAlgebra.Dimension.StrongRankCondition
import Mathlib.LinearAlgebra.Dimension.Constructions

/-! # Conjugate gradient method: C66 -/

namespace Verif
namespace Opt
open Finset Matrix
variable {K : Type} [Field K] [LinearOrder K]

/-- The text book recurrence: `α = r·r / d·Ad`, `x ← x + α d`, `r' = r - α A d`, `β = r'·r' / r·r`, `d ← r' + β d` -/
def cgNext {n : ℕ} (A : Matrix (Fin n) (Fin n) K) (s : (Fin n → K) × (Fin n → K) × (Fin n → K)) :
    (Fin n → K) × (Fin n → K) × (Fin n → K) :=
  let (x, r, d) := s
  let α := (r ⬝ᵥ r) / (d ⬝ᵥ A *ᵥ d)
  let r' := r - α • A *ᵥ d
  let β := (r' ⬝ᵥ r') / (r ⬝ᵥ r)
  (x + α • d, r', r' + β • d)

theorem cgStep_col {n : ℕ} (hn : 0 < n) {jac : Mat K → Option (Mat K)} {A : Matrix (Fin n) (Fin n) K}
    (hJ : MatFunRepr (n := n) jac (fun _ => A)) (x r d : Fin n → K) (hr : r ⬝ᵥ r ≠ 0) (hd : d ⬝ᵥ A *ᵥ d ≠ 0) :
    cgStep jac (col x) (col r) (col d) =
      some (col (cgNext A (x, r, d)).1, col (cgNext A (x, r, d)).2.1, col (cgNext A (x, r, d)).2.2) := by
  obtain ⟨J, h1, h2⟩ := hJ x
  obtain ⟨dt, a1, a2⟩ := Mat.transpose_is (col_is d) (Or.inr (Or.inr rfl)) (Or.inl hn)
  obtain ⟨w, b1, b2⟩ := Mat.vecMul_is h2.is a2
  obtain ⟨wt, c1, c2⟩ := Mat.transpose_is b2 (Or.inr (Or.inl rfl)) (Or.inl (by omega))
  have c3 : wt = col (d ᵥ* A) := c2.colRepr_of (fun i => by
    rw [← Mat.sum_fin]
    simp only [vecMul, dotProduct, extM_apply, extV_apply])
  have e : d ᵥ* A ⬝ᵥ d = d ⬝ᵥ A *ᵥ d := (dotProduct_mulVec _ _ _).symm
  simp only [cgStep, h1, a1, b1, c1, c3, dotp_col hn, e, Mat.fdiv, if_neg hr, if_neg hd, mulVec_col h2, col_mulScalar,
    col_add, col_sub, Option.bind_eq_bind, Option.bind_some, cgNext]

theorem cgStep_none {n : ℕ} (hn : 0 < n) {jac : Mat K → Option (Mat K)} {A : Matrix (Fin n) (Fin n) K}
    (hJ : MatFunRepr (n := n) jac (fun _ => A)) (x r d : Fin n → K) (hd : d ⬝ᵥ A *ᵥ d = 0) :
    cgStep jac (col x) (col r) (col d) = none := by
  obtain ⟨J, h1, h2⟩ := hJ x
  obtain ⟨dt, a1, a2⟩ := Mat.transpose_is (col_is d) (Or.inr (Or.inr rfl)) (Or.inl hn)
  obtain ⟨w, b1, b2⟩ := Mat.vecMul_is h2.is a2
  obtain ⟨wt, c1, c2⟩ := Mat.transpose_is b2 (Or.inr (Or.inl rfl)) (Or.inl (by omega))
  have c3 : wt = col (d ᵥ* A) := c2.colRepr_of (fun i => by
    rw [← Mat.sum_fin]
    simp only [vecMul, dotProduct, extM_apply, extV_apply])
  have e : d ᵥ* A ⬝ᵥ d = d ⬝ᵥ A *ᵥ d := (dotProduct_mulVec _ _ _).symm
  simp only [cgStep, h1, a1, b1, c1, c3, dotp_col hn, e, Mat.fdiv, if_pos hd, Option.bind_eq_bind, Option.bind_some,
    Option.bind_none]

/-- the sequence of the states -/
def cgSeq {n : ℕ} (A : Matrix (Fin n) (Fin n) K) (x₀ r₀ : Fin n → K) : ℕ → (Fin n → K) × (Fin n → K) × (Fin n → K)
  | 0 => (x₀, r₀, r₀)
  | k + 1 => cgNext A (cgSeq A x₀ r₀ k)

section inv
variable [IsStrictOrderedRing K] {n : ℕ} {A : Matrix (Fin n) (Fin n) K} (hsym : A.transpose = A)
  (hpos : ∀ z, z ≠ 0 → 0 < z ⬝ᵥ A *ᵥ z) (x₀ b : Fin n → K)

include hsym in
omit [LinearOrder K] [IsStrictOrderedRing K] in
theorem symm_dot (u w : Fin n → K) : u ⬝ᵥ A *ᵥ w = w ⬝ᵥ A *ᵥ u := by
  rw [dotProduct_mulVec, ← mulVec_transpose, hsym, dotProduct_comm]

include hsym hpos in
/-- The invariants of the method up to the first vanishing residual -/
theorem cg_inv (k : ℕ) (hk : ∀ i < k, (cgSeq A x₀ (b - A *ᵥ x₀) i).2.1 ≠ 0) :
    (cgSeq A x₀ (b - A *ᵥ x₀) k).2.1 = b - A *ᵥ (cgSeq A x₀ (b - A *ᵥ x₀) k).1 ∧
    (∀ i < k, (cgSeq A x₀ (b - A *ᵥ x₀) k).2.1 ⬝ᵥ (cgSeq A x₀ (b - A *ᵥ x₀) i).2.1 = 0 ∧
      (cgSeq A x₀ (b - A *ᵥ x₀) k).2.2 ⬝ᵥ A *ᵥ (cgSeq A x₀ (b - A *ᵥ x₀) i).2.2 = 0 ∧
      (cgSeq A x₀ (b - A *ᵥ x₀) k).2.1 ⬝ᵥ (cgSeq A x₀ (b - A *ᵥ x₀) i).2.2 = 0) ∧
    (cgSeq A x₀ (b - A *ᵥ x₀) k).2.1 ⬝ᵥ (cgSeq A x₀ (b - A *ᵥ x₀) k).2.2 =
      (cgSeq A x₀ (b - A *ᵥ x₀) k).2.1 ⬝ᵥ (cgSeq A x₀ (b - A *ᵥ x₀) k).2.1 := by
  set S := cgSeq A x₀ (b - A *ᵥ x₀) with hS
  induction k using Nat.strong_induction_on with
  | _ k ih =>
  obtain _ | k := k
  · refine ⟨rfl, fun i hi => absurd hi (by omega), rfl⟩
  -- abbreviations
  set α : ℕ → K := fun i => ((S i).2.1 ⬝ᵥ (S i).2.1) / ((S i).2.2 ⬝ᵥ A *ᵥ (S i).2.2) with hα
  set β : ℕ → K := fun i => ((S (i + 1)).2.1 ⬝ᵥ (S (i + 1)).2.1) / ((S i).2.1 ⬝ᵥ (S i).2.1) with hβ
  have ex : ∀ i, (S (i + 1)).1 = (S i).1 + α i • (S i).2.2 := fun i => rfl
  have er : ∀ i, (S (i + 1)).2.1 = (S i).2.1 - α i • A *ᵥ (S i).2.2 := fun i => rfl
  have ed : ∀ i, (S (i + 1)).2.2 = (S (i + 1)).2.1 + β i • (S i).2.2 := fun i => rfl
  have ed0 : (S 0).2.2 = (S 0).2.1 := rfl
  have hrr : ∀ i < k + 1, 0 < (S i).2.1 ⬝ᵥ (S i).2.1 := fun i hi => dot_self_pos (hk i hi)
  have hdA : ∀ i < k + 1, 0 < (S i).2.2 ⬝ᵥ A *ᵥ (S i).2.2 := by
    intro i hi
    refine hpos _ (fun h0 => ?_)
    have h1 := (ih i (by omega) (fun j hj => hk j (by omega))).2.2
    rw [h0, dotProduct_zero] at h1
    exact (hrr i hi).ne' h1.symm
  have hα0 : ∀ i < k + 1, α i ≠ 0 := fun i hi => (div_pos (hrr i hi) (hdA i hi)).ne'
  have hαd : ∀ i < k + 1, α i * ((S i).2.2 ⬝ᵥ A *ᵥ (S i).2.2) = (S i).2.1 ⬝ᵥ (S i).2.1 := fun i hi =>
    div_mul_cancel₀ _ (hdA i hi).ne'
  obtain ⟨p1, p2, p3⟩ := ih k (by omega) (fun j hj => hk j (by omega))
  -- `d_k · A r_i`
  have hdr : ∀ i ≤ k, (S k).2.2 ⬝ᵥ A *ᵥ (S i).2.1 = if i = k then (S k).2.2 ⬝ᵥ A *ᵥ (S k).2.2 else 0 := by
    intro i hi
    have hlt : ∀ j < k, (S k).2.2 ⬝ᵥ A *ᵥ (S j).2.2 = 0 := fun j hj => (p2 j hj).2.1
    obtain _ | i := i
    · rw [← ed0]
      split_ifs with h
      · rw [← h]
      · exact hlt 0 (by omega)
    · have e : (S (i + 1)).2.1 = (S (i + 1)).2.2 - β i • (S i).2.2 := by rw [ed i]; abel
      rw [e, mulVec_sub, mulVec_smul, dotProduct_sub, dotProduct_smul, hlt i (by omega), smul_zero, sub_zero]
      split_ifs with h
      · rw [h]
      · exact hlt _ (by omega)
  have r1 : ∀ i < k + 1, (S (k + 1)).2.1 ⬝ᵥ (S i).2.1 = 0 := by
    intro i hi
    have e1 : A *ᵥ (S k).2.2 ⬝ᵥ (S i).2.1 = (S k).2.2 ⬝ᵥ A *ᵥ (S i).2.1 := by
      rw [dotProduct_comm, symm_dot hsym]
    rw [er k, sub_dotProduct, smul_dotProduct, e1, hdr i (by omega), smul_eq_mul]
    split_ifs with h
    · rw [h, hαd k (by omega), sub_self]
    · rw [mul_zero, sub_zero, (p2 i (by omega)).1]
  have r2 : ∀ i < k + 1, (S (k + 1)).2.1 ⬝ᵥ (S i).2.2 = 0 := by
    intro i hi
    have e1 : A *ᵥ (S k).2.2 ⬝ᵥ (S i).2.2 = (S k).2.2 ⬝ᵥ A *ᵥ (S i).2.2 := by
      rw [dotProduct_comm, symm_dot hsym]
    rw [er k, sub_dotProduct, smul_dotProduct, e1, smul_eq_mul]
    rcases Nat.lt_or_ge i k with h | h
    · rw [(p2 i h).2.1, (p2 i h).2.2, mul_zero, sub_zero]
    · obtain rfl : i = k := by omega
      rw [hαd i (by omega), p3, sub_self]
  refine ⟨?_, fun i hi => ⟨r1 i hi, ?_, r2 i hi⟩, ?_⟩
  · rw [er k, ex k, p1, mulVec_add, mulVec_smul]; abel
  · rw [ed k, add_dotProduct, smul_dotProduct, smul_eq_mul]
    -- `A d_i = (r_i - r_{i+1}) / α_i`
    have e : A *ᵥ (S i).2.2 = (α i)⁻¹ • ((S i).2.1 - (S (i + 1)).2.1) := by
      rw [er i, sub_sub_cancel, smul_smul, inv_mul_cancel₀ (hα0 i hi), one_smul]
    rcases Nat.lt_or_ge i k with h | h
    · rw [(p2 i h).2.1, mul_zero, add_zero, e, dotProduct_smul, dotProduct_sub, r1 i hi, r1 (i + 1) (by omega), sub_zero,
        smul_zero]
    · obtain rfl : i = k := by omega
      have h1 := hαd i hi
      have h2 : (S i).2.2 ⬝ᵥ A *ᵥ (S i).2.2 = (α i)⁻¹ * ((S i).2.1 ⬝ᵥ (S i).2.1) := by
        rw [← h1, ← mul_assoc, inv_mul_cancel₀ (hα0 i hi), one_mul]
      rw [h2, e, dotProduct_smul, dotProduct_sub, r1 i hi, zero_sub, smul_eq_mul, hβ]
      have := (hrr i hi).ne'
      field_simp
      ring
  · rw [ed k, dotProduct_add, dotProduct_smul, r2 k (by omega), smul_zero, add_zero]

include hsym hpos in
/-- the residual vanishes after at most `n` steps -/
theorem cg_finite : ∃ m ≤ n, (cgSeq A x₀ (b - A *ᵥ x₀) m).2.1 = 0 := by
  by_contra hc
  push Not at hc
  set S := cgSeq A x₀ (b - A *ᵥ x₀) with hS
  have hli : LinearIndependent K (fun i : Fin (n + 1) => (S i).2.1) := by
    rw [Fintype.linearIndependent_iff]
    intro c hsum i
    have horth : ∀ j : Fin (n + 1), j ≠ i → (S i).2.1 ⬝ᵥ (S j).2.1 = 0 := by
      intro j hj
      have hj' : (j : ℕ) ≠ i := fun h => hj (Fin.ext h)
      rcases Nat.lt_or_gt_of_ne hj' with h | h
      · exact ((cg_inv hsym hpos x₀ b i (fun l hl => hc l (by omega))).2.1 j h).1
      · rw [dotProduct_comm]
        exact ((cg_inv hsym hpos x₀ b j (fun l hl => hc l (by omega))).2.1 i h).1
    have h1 := congrArg (fun v => (S i).2.1 ⬝ᵥ v) hsum
    simp only [dotProduct_zero, dotProduct_sum, dotProduct_smul] at h1
    rw [Finset.sum_eq_single i (fun j _ hj => by rw [horth j hj, smul_zero]) (fun h => absurd (mem_univ i) h),
      smul_eq_mul] at h1
    rcases mul_eq_zero.mp h1 with h | h
    · exact h
    · exact absurd h (dot_self_pos (hc i (by omega))).ne'
  have := hli.fintype_card_le_finrank
  rw [Fintype.card_fin, Module.finrank_fin_fun] at this
  omega

end inv

/-- C66: for `f(x) = b - A x` with a symmetric positive definite `A` and a start point that is not the solution, `minimize`
    follows the recurrence of the method and stops at iterate `j ≤ min(iters, n)`: the residuals are the true ones, they are
    mutually orthogonal, the directions are mutually conjugate, the residual is below `ε` or `iters` steps have been done, and
    no earlier residual is below `ε`. -/
theorem C66_cg [IsStrictOrderedRing K] {n : ℕ} (hn : 0 < n) {sqrt : K → K} (hs0 : sqrt 0 = 0) {epsilon : K}
    (he : 0 < epsilon) {eval jac : Mat K → Option (Mat K)} {A : Matrix (Fin n) (Fin n) K} {b : Fin n → K}
    (hsym : A.transpose = A) (hpos : ∀ z, z ≠ 0 → 0 < z ⬝ᵥ A *ᵥ z)
    (hf : FunRepr eval (fun x => b - A *ᵥ x)) (hJ : MatFunRepr (n := n) jac (fun _ => A)) (iters : ℕ)
    (x₀ : Fin n → K) (h0 : A *ᵥ x₀ ≠ b) :
    ∃ (j : ℕ) (x r d : ℕ → (Fin n → K)), j ≤ iters ∧ j ≤ n ∧
      cgMinimize sqrt epsilon eval jac iters (col x₀) = some (col (x j)) ∧
      x 0 = x₀ ∧ d 0 = r 0 ∧
      (∀ i < j, r i ⬝ᵥ r i ≠ 0 ∧ d i ⬝ᵥ A *ᵥ d i ≠ 0 ∧
        x (i + 1) = x i + ((r i ⬝ᵥ r i) / (d i ⬝ᵥ A *ᵥ d i)) • d i ∧
        d (i + 1) = r (i + 1) + ((r (i + 1) ⬝ᵥ r (i + 1)) / (r i ⬝ᵥ r i)) • d i) ∧
      (∀ i ≤ j, r i = b - A *ᵥ x i) ∧
      (∀ i ≤ j, ∀ l < i, r i ⬝ᵥ r l = 0 ∧ d i ⬝ᵥ A *ᵥ d l = 0 ∧ r i ⬝ᵥ d l = 0) ∧
      (j = iters ∨ sqrt (r j ⬝ᵥ r j) < epsilon) ∧ (∀ i, 0 < i → i < j → epsilon ≤ sqrt (r i ⬝ᵥ r i)) := by
  set S := cgSeq A x₀ (b - A *ᵥ x₀) with hS
  have hr0 : (S 0).2.1 ≠ 0 := fun h => h0 (sub_eq_zero.mp h).symm
  obtain ⟨m, hm, hmz⟩ := cg_finite hsym hpos x₀ b
  -- a nonzero residual allows the next step
  have hstep : ∀ k, (∀ i ≤ k, (S i).2.1 ≠ 0) → (S k).2.1 ⬝ᵥ (S k).2.1 ≠ 0 ∧ (S k).2.2 ⬝ᵥ A *ᵥ (S k).2.2 ≠ 0 := by
    intro k hk
    have h1 := (dot_self_pos (hk k le_rfl)).ne'
    refine ⟨h1, (hpos _ (fun hz => ?_)).ne'⟩
    have h2 := (cg_inv hsym hpos x₀ b k (fun i hi => hk i hi.le)).2.2
    rw [← hS, hz, dotProduct_zero] at h2
    exact h1 h2.symm
  -- the loop
  have loop : ∀ N k, (∀ i ≤ k, (S i).2.1 ≠ 0) → ∃ j, k ≤ j ∧ j ≤ k + N ∧ (0 < N → k < j) ∧ (∀ i < j, (S i).2.1 ≠ 0) ∧
      cgLoop sqrt epsilon jac N (col (S k).1) (col (S k).2.1) (col (S k).2.2) = some (col (S j).1) ∧
      (j = k + N ∨ sqrt ((S j).2.1 ⬝ᵥ (S j).2.1) < epsilon) ∧
      ∀ i, k < i → i < j → epsilon ≤ sqrt ((S i).2.1 ⬝ᵥ (S i).2.1) := by
    intro N
    induction N with
    | zero =>
      intro k hk
      exact ⟨k, le_rfl, by omega, fun h => absurd h (by omega), fun i hi => hk i hi.le, rfl, Or.inl rfl,
        fun i h1 h2 => absurd h2 (by omega)⟩
    | succ N ih =>
      intro k hk
      obtain ⟨a1, a2⟩ := hstep k hk
      have e : cgStep jac (col (S k).1) (col (S k).2.1) (col (S k).2.2) =
          some (col (S (k + 1)).1, col (S (k + 1)).2.1, col (S (k + 1)).2.2) :=
        cgStep_col hn hJ _ _ _ a1 a2
      by_cases hc : sqrt ((S (k + 1)).2.1 ⬝ᵥ (S (k + 1)).2.1) < epsilon
      · refine ⟨k + 1, by omega, by omega, fun _ => by omega, fun i hi => hk i (by omega), ?_, Or.inr hc,
          fun i h1 h2 => absurd h2 (by omega)⟩
        rw [cgLoop]
        simp only [e, dotp_col hn, Option.bind_eq_bind, Option.bind_some, if_pos hc]
      · have hne : (S (k + 1)).2.1 ≠ 0 := fun hz => hc (by rw [hz, dotProduct_zero, hs0]; exact he)
        obtain ⟨j, b1, b2, b3, b4, b5, b6, b7⟩ := ih (k + 1) (fun i hi => by
          rcases Nat.lt_or_ge i (k + 1) with h | h
          · exact hk i (by omega)
          · obtain rfl : i = k + 1 := by omega
            exact hne)
        refine ⟨j, by omega, by omega, fun _ => by omega, b4, ?_, ?_, fun i h1 h2 => ?_⟩
        · rw [cgLoop]
          simp only [e, dotp_col hn, Option.bind_eq_bind, Option.bind_some, if_neg hc, b5]
        · rcases b6 with h | h
          · exact Or.inl (by omega)
          · exact Or.inr h
        · rcases Nat.lt_or_ge (k + 1) i with h | h
          · exact b7 i h h2
          · obtain rfl : i = k + 1 := by omega
            exact not_lt.mp hc
  obtain ⟨j, b1, b2, b3, b4, b5, b6, b7⟩ := loop iters 0 (fun i hi => by
    obtain rfl : i = 0 := by omega
    exact hr0)
  have hjm : j ≤ m := by
    by_contra h
    exact b4 m (by omega) hmz
  refine ⟨j, fun i => (S i).1, fun i => (S i).2.1, fun i => (S i).2.2, by omega, by omega, ?_, rfl, rfl, ?_, ?_, ?_, ?_, ?_⟩
  · rw [cgMinimize, hf x₀]
    exact b5
  · intro i hi
    obtain ⟨a1, a2⟩ := hstep i (fun l hl => b4 l (by omega))
    exact ⟨a1, a2, rfl, rfl⟩
  · intro i hi
    exact (cg_inv hsym hpos x₀ b i (fun l hl => b4 l (by omega))).1
  · intro i hi l hl
    exact (cg_inv hsym hpos x₀ b i (fun l hl => b4 l (by omega))).2.1 l hl
  · simpa using b6
  · exact b7

/-- C66: with `iters ≥ n` the result solves the system exactly, or its residual is below `ε`. Missing: a start point that is
    the solution (`C66_violated`). -/
theorem C66_solution_partial [IsStrictOrderedRing K] {n : ℕ} (hn : 0 < n) {sqrt : K → K} (hs0 : sqrt 0 = 0) {epsilon : K}
    (he : 0 < epsilon) {eval jac : Mat K → Option (Mat K)} {A : Matrix (Fin n) (Fin n) K} {b : Fin n → K}
    (hsym : A.transpose = A) (hpos : ∀ z, z ≠ 0 → 0 < z ⬝ᵥ A *ᵥ z)
    (hf : FunRepr eval (fun x => b - A *ᵥ x)) (hJ : MatFunRepr (n := n) jac (fun _ => A)) {iters : ℕ} (hi : n ≤ iters)
    (x₀ : Fin n → K) (h0 : A *ᵥ x₀ ≠ b) :
    ∃ x, cgMinimize sqrt epsilon eval jac iters (col x₀) = some (col x) ∧
      (A *ᵥ x = b ∨ sqrt ((b - A *ᵥ x) ⬝ᵥ (b - A *ᵥ x)) < epsilon) := by
  obtain ⟨j, x, r, d, h1, h2, h3, h4, h5, h6, h7, h8, h9, h10⟩ := C66_cg hn hs0 he hsym hpos hf hJ iters x₀ h0
  refine ⟨x j, h3, ?_⟩
  rcases h9 with h | h
  · left
    -- `r_j` is orthogonal to `n` independent residuals
    have hjn : j = n := by omega
    by_contra hne
    have hrj : r j ≠ 0 := by rw [h7 j le_rfl]; exact fun hz => hne (sub_eq_zero.mp hz).symm
    have hall : ∀ i ≤ j, r i ⬝ᵥ r i ≠ 0 := fun i hij => by
      rcases Nat.lt_or_ge i j with hl | hl
      · exact (h6 i hl).1
      · obtain rfl : i = j := by omega
        exact (dot_self_pos hrj).ne'
    have hli : LinearIndependent K (fun i : Fin (n + 1) => r i) := by
      rw [Fintype.linearIndependent_iff]
      intro c hsum i
      have horth : ∀ l : Fin (n + 1), l ≠ i → r i ⬝ᵥ r l = 0 := by
        intro l hl
        have hl' : (l : ℕ) ≠ i := fun h => hl (Fin.ext h)
        rcases Nat.lt_or_gt_of_ne hl' with h | h
        · exact (h8 i (by omega) l h).1
        · rw [dotProduct_comm]
          exact (h8 l (by omega) i h).1
      have q := congrArg (fun v => r i ⬝ᵥ v) hsum
      simp only [dotProduct_zero, dotProduct_sum, dotProduct_smul] at q
      rw [Finset.sum_eq_single i (fun l _ hl => by rw [horth l hl, smul_zero]) (fun h => absurd (mem_univ i) h),
        smul_eq_mul] at q
      rcases mul_eq_zero.mp q with h | h
      · exact h
      · exact absurd h (hall i (by omega))
    have := hli.fintype_card_le_finrank
    rw [Fintype.card_fin, Module.finrank_fin_fun] at this
    omega
  · right
    rwa [h7 j le_rfl] at h

/-- C66: every step strictly decreases the energy `½ xᵀA x - bᵀx`. -/
theorem C66_energy [IsStrictOrderedRing K] {n : ℕ} {A : Matrix (Fin n) (Fin n) K} (hsym : A.transpose = A)
    (hpos : ∀ z, z ≠ 0 → 0 < z ⬝ᵥ A *ᵥ z) (b x r d : Fin n → K) (hr : r = b - A *ᵥ x) (hr0 : r ≠ 0)
    (hrd : r ⬝ᵥ d = r ⬝ᵥ r) :
    let y := (cgNext A (x, r, d)).1
    (y ⬝ᵥ A *ᵥ y) / 2 - b ⬝ᵥ y = (x ⬝ᵥ A *ᵥ x) / 2 - b ⬝ᵥ x - (r ⬝ᵥ r) ^ 2 / (2 * (d ⬝ᵥ A *ᵥ d)) ∧
    (y ⬝ᵥ A *ᵥ y) / 2 - b ⬝ᵥ y < (x ⬝ᵥ A *ᵥ x) / 2 - b ⬝ᵥ x := by
  have hrr := dot_self_pos hr0
  have hd0 : d ≠ 0 := fun h => by rw [h, dotProduct_zero] at hrd; exact hrr.ne hrd
  have hdd := hpos d hd0
  have hb : b = r + A *ᵥ x := by rw [hr]; abel
  have hc : x ⬝ᵥ A *ᵥ d = d ⬝ᵥ A *ᵥ x := symm_dot hsym _ _
  have hAd : A *ᵥ x ⬝ᵥ d = d ⬝ᵥ A *ᵥ x := dotProduct_comm _ _
  intro y
  have key : (y ⬝ᵥ A *ᵥ y) / 2 - b ⬝ᵥ y =
      (x ⬝ᵥ A *ᵥ x) / 2 - b ⬝ᵥ x - (r ⬝ᵥ r) ^ 2 / (2 * (d ⬝ᵥ A *ᵥ d)) := by
    simp only [y, cgNext]
    rw [hb]
    simp only [mulVec_add, mulVec_smul, dotProduct_add, add_dotProduct, dotProduct_smul, smul_dotProduct, smul_eq_mul, hc,
      hAd, hrd]
    field_simp
    ring
  refine ⟨key, ?_⟩
  rw [key]
  have : 0 < (r ⬝ᵥ r) ^ 2 / (2 * (d ⬝ᵥ A *ᵥ d)) := by positivity
  linarith

/-- C66 is violated: starting at the exact solution the code divides `0 / 0` (result NaN), for every system. -/
theorem C66_violated [IsStrictOrderedRing K] {n : ℕ} (hn : 0 < n) (sqrt : K → K) (epsilon : K)
    {eval jac : Mat K → Option (Mat K)} {A : Matrix (Fin n) (Fin n) K} {b : Fin n → K}
    (hf : FunRepr eval (fun x => b - A *ᵥ x)) (hJ : MatFunRepr (n := n) jac (fun _ => A)) (iters : ℕ) (hi : 0 < iters)
    (x₀ : Fin n → K) (h0 : A *ᵥ x₀ = b) : cgMinimize sqrt epsilon eval jac iters (col x₀) = none := by
  obtain ⟨k, rfl⟩ : ∃ k, iters = k + 1 := ⟨iters - 1, by omega⟩
  rw [cgMinimize, hf x₀]
  simp only [h0, sub_self, Option.bind_eq_bind, Option.bind_some]
  rw [cgLoop, cgStep_none hn hJ _ _ _ (by simp)]
  rfl

/-- `[4 1; 1 3] x = (1, 2)` from `(2, 1)`: the solution `(1/11, 7/11)` after two steps, NaN when started there -/
example : let eval := fun v => do
      let w ← (⟨2, 2, [4, 1, 1, 3]⟩ : Mat ℚ).mulVec v
      (col ![(1 : ℚ), 2]).sub w
    cgMinimize Rat.sqrt (1 / 1000) eval (fun _ => some ⟨2, 2, [4, 1, 1, 3]⟩) 10 (col ![2, 1]) =
      some (col ![1 / 11, 7 / 11]) ∧
    cgMinimize Rat.sqrt (1 / 1000) eval (fun _ => some ⟨2, 2, [4, 1, 1, 3]⟩) 10 (col ![1 / 11, 7 / 11]) = none := by
  decide +kernel

end Opt
end Verif
