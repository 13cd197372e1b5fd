import Verif.LapackProps
import Mathlib.LinearAlgebra.Matrix.Block

/-!
# Routines with the documented behaviour of BLAS and of the LU part of LAPACK exist

The theorems about the backend hold for every `Blas` and every `LapackLU`; here is one of each, over every field.
-/

namespace Verif
namespace Lapack
open Finset Matrix

variable {K : Type} [Field K]

/-- the buffer `b` with the `m × n` block of leading dimension `ld` overwritten by `g` -/
def fill (b : List K) (ld m n : Nat) (g : Nat → Nat → K) : List K :=
  (List.range b.length).map fun t => if t % ld < m ∧ t / ld < n then g (t % ld) (t / ld) else b.getD t 0

theorem fill_length (b : List K) (ld m n : Nat) (g : Nat → Nat → K) : (fill b ld m n g).length = b.length := by
  simp [fill]

theorem fill_el {b : List K} {ld m n : Nat} (g : Nat → Nat → K) (h1 : m ≤ ld) (h2 : ld * n ≤ b.length) {i j : Nat}
    (hi : i < m) (hj : j < n) : el (fill b ld m n g) ld i j = g i j := by
  have hlt : j * ld + i < b.length := by
    have : (j + 1) * ld ≤ n * ld := Nat.mul_le_mul_right _ hj
    rw [Nat.add_mul, one_mul] at this
    rw [Nat.mul_comm] at h2
    omega
  have e1 : (j * ld + i) % ld = i := by
    rw [Nat.mul_comm, Nat.mul_add_mod, Nat.mod_eq_of_lt (by omega)]
  have e2 : (j * ld + i) / ld = j := by
    rw [Nat.mul_comm, Nat.mul_add_div (by omega), Nat.div_eq_of_lt (by omega), add_zero]
  rw [el, getD_lt _ _ (by rw [fill_length]; exact hlt)]
  simp only [fill, List.getElem_map, List.getElem_range, e1, e2, if_pos (And.intro hi hj)]

/-- the solution of a square system, by the inverse matrix -/
noncomputable def solveBy (m n : Nat) (T : Matrix (Fin m) (Fin m) K) (Y : Nat → Nat → K) : Nat → Nat → K :=
  extM (T⁻¹ * mx m n Y)

theorem solveBy_spec {m n : Nat} {T : Matrix (Fin m) (Fin m) K} (hT : T.det ≠ 0) (Y : Nat → Nat → K) (i : Fin m)
    {j : Nat} (hj : j < n) : ∑ l : Fin m, T i l * solveBy m n T Y l j = Y i j := by
  have h : T * (T⁻¹ * mx m n Y) = mx m n Y := by
    rw [← Matrix.mul_assoc, Matrix.mul_nonsing_inv _ (isUnit_iff_ne_zero.2 hT), Matrix.one_mul]
  have := congrFun (congrFun h i) ⟨j, hj⟩
  rw [mul_apply] at this
  rw [mx_apply] at this
  rw [← this]
  refine sum_congr rfl fun l _ => ?_
  rw [solveBy, extM_lt _ l.2 hj]

/-- the lower triangle of a buffer -/
def loT (m : Nat) (a : List K) (lda : Nat) : Matrix (Fin m) (Fin m) K := fun i l => if (l : ℕ) ≤ i then el a lda i l else 0

/-- the upper triangle of a buffer -/
def upT (m : Nat) (a : List K) (lda : Nat) : Matrix (Fin m) (Fin m) K := fun i l => if (i : ℕ) ≤ l then el a lda i l else 0

theorem loT_det (m : Nat) (a : List K) (lda : Nat) : (loT m a lda).det = ∏ i : Fin m, el a lda i i := by
  rw [det_of_lowerTriangular _ (fun i j (hij : i < j) => ?_)]
  · simp [loT]
  · rw [loT, if_neg (by rw [Fin.lt_def] at hij; omega)]

theorem upT_det (m : Nat) (a : List K) (lda : Nat) : (upT m a lda).det = ∏ i : Fin m, el a lda i i := by
  rw [det_of_upperTriangular (fun i j (hij : j < i) => ?_)]
  · simp [upT]
  · rw [upT, if_neg (by rw [Fin.lt_def] at hij; omega)]

/-- BLAS routines with the documented behaviour -/
noncomputable def blas : Blas K where
  axpy n alpha x y := some ((List.range y.length).map fun i => if i < n then alpha * x.getD i 0 + y.getD i 0 else y.getD i 0)
  scal n alpha x := some ((List.range x.length).map fun i => if i < n then alpha * x.getD i 0 else x.getD i 0)
  gemm m n k alpha a lda b ldb beta c ldc :=
    if lda < max 1 m ∨ ldb < max 1 k ∨ ldc < max 1 m then none
    else some (fill c ldc m n fun i j => alpha * (∑ l ∈ range k, el a lda i l * el b ldb l j) + beta * el c ldc i j)
  trsm u m n alpha a lda b ldb :=
    if lda < max 1 m ∨ ldb < max 1 m then none
    else some (fill b ldb m n (solveBy m n (if u = 'L' then loT m a lda else upT m a lda) fun i j => alpha * el b ldb i j))
  axpy_doc n alpha x y h1 h2 := ⟨_, rfl, by simp, fun i hi => by
    rw [getD_lt _ _ (by simp; omega)]
    simp [hi]⟩
  scal_doc n alpha x h1 := ⟨_, rfl, by simp, fun i hi => by
    rw [getD_lt _ _ (by simp; omega)]
    simp [hi]⟩
  gemm_doc m n k alpha a lda b ldb beta c ldc h1 h2 h3 h4 h5 h6 := by
    rw [if_neg (by omega)]
    exact ⟨_, rfl, fill_length .., fun i hi j hj => fill_el _ (by omega) h6 hi hj⟩
  gemm_arg m n k alpha a lda b ldb beta c ldc h := if_pos h
  trsm_lower m n alpha a lda b ldb h1 h2 h3 h4 h5 := by
    rw [if_neg (by omega), if_pos rfl]
    refine ⟨_, rfl, fill_length .., fun i hi j hj => ?_⟩
    have hd : (loT m a lda).det ≠ 0 := by
      rw [loT_det]
      exact prod_ne_zero_iff.2 fun i _ => h5 i i.2
    rw [← solveBy_spec hd (fun i j => alpha * el b ldb i j) ⟨i, hi⟩ hj]
    have e : ∀ l : Fin m, loT m a lda ⟨i, hi⟩ l * solveBy m n (loT m a lda) (fun i j => alpha * el b ldb i j) l j =
        (fun l => if l ≤ i then el a lda i l * solveBy m n (loT m a lda) (fun i j => alpha * el b ldb i j) l j else 0)
          (l : ℕ) := fun l => by
      simp only [loT, ite_mul, zero_mul]
    rw [sum_congr rfl fun l _ => e l, Fin.sum_univ_eq_sum_range (fun l => if l ≤ i then el a lda i l *
      solveBy m n (loT m a lda) (fun i j => alpha * el b ldb i j) l j else 0), ← sum_filter]
    refine sum_congr ?_ fun l hl => ?_
    · ext l
      simp only [mem_range, mem_filter]
      omega
    · rw [mem_filter, mem_range] at hl
      rw [fill_el _ (by omega) h4 hl.1 hj]
  trsm_upper m n alpha a lda b ldb h1 h2 h3 h4 h5 := by
    rw [if_neg (by omega), if_neg (by decide)]
    refine ⟨_, rfl, fill_length .., fun i hi j hj => ?_⟩
    have hd : (upT m a lda).det ≠ 0 := by
      rw [upT_det]
      exact prod_ne_zero_iff.2 fun i _ => h5 i i.2
    rw [← solveBy_spec hd (fun i j => alpha * el b ldb i j) ⟨i, hi⟩ hj]
    have e : ∀ l : Fin m, upT m a lda ⟨i, hi⟩ l * solveBy m n (upT m a lda) (fun i j => alpha * el b ldb i j) l j =
        (fun l => if i ≤ l then el a lda i l * solveBy m n (upT m a lda) (fun i j => alpha * el b ldb i j) l j else 0)
          (l : ℕ) := fun l => by
      simp only [upT, ite_mul, zero_mul]
    rw [sum_congr rfl fun l _ => e l, Fin.sum_univ_eq_sum_range (fun l => if i ≤ l then el a lda i l *
      solveBy m n (upT m a lda) (fun i j => alpha * el b ldb i j) l j else 0), ← sum_filter]
    refine sum_congr ?_ fun l hl => ?_
    · ext l
      simp only [mem_range, mem_filter, mem_Ico]
      omega
    · rw [mem_filter, mem_range] at hl
      rw [fill_el _ (by omega) h4 hl.1 hj]
  trsm_arg u m n alpha a lda b ldb h := if_pos h

/-! ### LU -/

/-- unit lower part -/
def loF (g : Nat → Nat → K) (i k : Nat) : K := if k < i then g i k else if k = i then 1 else 0

/-- upper part -/
def upF (g : Nat → Nat → K) (k j : Nat) : K := if k ≤ j then g k j else 0

theorem getD_append_lt (p : List ℤ) (q : ℤ) {i : Nat} (h : i < p.length) : (p ++ [q]).getD i 0 = p.getD i 0 := by
  rw [getD_lt _ _ (by simp; omega), getD_lt _ _ h, List.getElem_append_left]

theorem pivPerm_append (p : List ℤ) (q : ℤ) {k : Nat} (h : k ≤ p.length) : pivPerm (p ++ [q]) k = pivPerm p k := by
  unfold pivPerm
  congr 1
  refine List.map_congr_left fun i hi => ?_
  rw [List.mem_range] at hi
  rw [getD_append_lt _ _ (by omega)]

/-- `k` steps of Gaussian elimination with row interchanges -/
theorem lu_steps (m n : Nat) (a : Nat → Nat → K) (k : Nat) (hk : k ≤ min m n) :
    ∃ (p : List ℤ) (g : Nat → Nat → K), p.length = k ∧
      (∀ i < k, (i : ℤ) + 1 ≤ p.getD i 0 ∧ p.getD i 0 ≤ m) ∧
      ∀ i < m, ∀ j, a (pivPerm p k i) j = ∑ l ∈ range k, loF g i l * upF g l j + if k ≤ i ∧ k ≤ j then g i j else 0 := by
  classical
  induction k with
  | zero => exact ⟨[], a, rfl, fun i hi => by omega, fun i _ j => by simp [pivPerm]⟩
  | succ k ih =>
    obtain ⟨p, g, h1, h2, h3⟩ := ih (by omega)
    obtain ⟨q, hq1, hq2, hq3⟩ : ∃ q, k ≤ q ∧ q < m ∧ (g q k = 0 → ∀ i, k ≤ i → i < m → g i k = 0) := by
      by_cases h : ∃ q, k ≤ q ∧ q < m ∧ g q k ≠ 0
      · obtain ⟨q, a1, a2, a3⟩ := h
        exact ⟨q, a1, a2, fun h => absurd h a3⟩
      · push Not at h
        exact ⟨k, le_rfl, by omega, fun _ i => h i⟩
    set s := Equiv.swap k q with hs
    have hs1 : ∀ i, i < k → s i = i := fun i hi => Equiv.swap_apply_of_ne_of_ne (by omega) (by omega)
    have hs2 : ∀ i, k ≤ i → k ≤ s i := fun i hi => by
      rw [hs, Equiv.swap_apply_def]
      split_ifs <;> omega
    have hs3 : ∀ i, i < m → s i < m := fun i hi => by
      rw [hs, Equiv.swap_apply_def]
      split_ifs <;> omega
    set g1 : Nat → Nat → K := fun i j => g (s i) j with hg1
    set g2 : Nat → Nat → K := fun i j => if k < i then if j = k then g1 i k / g1 k k else if k < j then
      g1 i j - g1 i k / g1 k k * g1 k j else g1 i j else g1 i j with hg2
    refine ⟨p ++ [(q : ℤ) + 1], g2, by simp [h1], fun i hi => ?_, fun i hi j => ?_⟩
    · by_cases e : i < k
      · rw [getD_append_lt _ _ (by omega)]
        exact h2 i e
      · obtain rfl : i = k := by omega
        rw [getD_lt _ _ (by simp [h1]), List.getElem_append_right (by omega)]
        simp
        omega
    · have e0 : pivPerm (p ++ [(q : ℤ) + 1]) (k + 1) i = pivPerm p k (s i) := by
        rw [pivPerm_succ, pivPerm_append _ _ (by omega), getD_lt _ _ (by simp [h1]), List.getElem_append_right (by omega)]
        simp only [h1, Nat.sub_self, List.getElem_cons_zero]
        rw [show ((q : ℤ) + 1).toNat - 1 = q by omega]
        rfl
      have hzero : g1 k k = 0 → k < i → g1 i k = 0 := fun hz hki => by
        simp only [hg1, hs, Equiv.swap_apply_left] at hz
        exact hq3 hz _ (hs2 i (by omega)) (hs3 i hi)
      rw [e0, h3 _ (hs3 i hi), sum_range_succ]
      have e1 : ∑ l ∈ range k, loF g2 i l * upF g2 l j = ∑ l ∈ range k, loF g (s i) l * upF g l j := by
        refine sum_congr rfl fun l hl => ?_
        rw [mem_range] at hl
        have u : upF g2 l j = upF g l j := by
          simp only [upF, hg2, hg1, if_neg (show ¬ k < l by omega), hs1 l hl]
        have v : loF g2 i l = loF g (s i) l := by
          by_cases hik : i < k
          · simp only [loF, hg2, hg1, if_neg (show ¬ k < i by omega), hs1 i hik]
          · have := hs2 i (by omega)
            simp only [loF, hg2, hg1, if_neg (show ¬ l = k by omega), if_neg (show ¬ k < l by omega), ite_self,
              if_pos (show l < i by omega), if_pos (show l < s i by omega)]
        rw [u, v]
      rw [e1, add_assoc]
      congr 1
      rcases lt_trichotomy i k with hik | hik | hik
      · rw [hs1 i hik, if_neg (by omega), if_neg (by omega), loF, if_neg (by omega), if_neg (by omega)]
        ring
      · subst hik
        rw [loF, if_neg (lt_irrefl i), if_pos rfl, if_neg (show ¬ (i + 1 ≤ i ∧ i + 1 ≤ j) by omega), one_mul, add_zero]
        have := hs2 i le_rfl
        simp only [upF, hg2, hg1, if_neg (lt_irrefl _)]
        exact if_congr (by omega) rfl rfl
      · have := hs2 i hik.le
        rw [loF, if_pos hik]
        have l1 : g2 i k = g1 i k / g1 k k := by simp only [hg2, if_pos hik, if_true]
        have u1 : upF g2 k j = if k ≤ j then g1 k j else 0 := by
          simp only [upF, hg2, if_neg (lt_irrefl k)]
        rw [l1, u1]
        rcases lt_trichotomy j k with hj | hj | hj
        · rw [if_neg (by omega), if_neg (by omega), if_neg (by omega)]
          ring
        · subst hj
          rw [if_pos (by omega), if_pos le_rfl, if_neg (show ¬ (j + 1 ≤ i ∧ j + 1 ≤ j) by omega), add_zero]
          by_cases hz : g1 j j = 0
          · rw [hz, mul_zero]
            exact hzero hz hik
          · rw [div_mul_cancel₀ _ hz]
        · rw [if_pos (by omega), if_pos (by omega), if_pos (by omega)]
          have : g2 i j = g1 i j - g1 i k / g1 k k * g1 k j := by
            simp only [hg2, if_pos hik, if_neg (show ¬ j = k by omega), if_pos hj]
          rw [this]
          simp only [hg1]
          ring

/-- the factorisation that `xgetrf` promises exists -/
theorem getrf_exists (m n : Nat) (a : List K) (lda : Nat) (h1 : max 1 m ≤ lda) (h2 : lda * n ≤ a.length) :
    ∃ r : List K × List ℤ × ℤ, ∃ f p info, r = (f, p, info) ∧
      f.length = a.length ∧ p.length = min m n ∧ (∀ i < min m n, (i : ℤ) + 1 ≤ p.getD i 0 ∧ p.getD i 0 ≤ m) ∧
      (∀ i < m, ∀ j < n, el a lda (pivPerm p (min m n) i) j =
        ∑ k ∈ range (min m n), lowOf f lda i k * uppOf f lda k j) ∧
      0 ≤ info ∧ (info = 0 ↔ ∀ k < min m n, el f lda k k ≠ 0) ∧
      (∀ k : ℕ, info = k + 1 → k < min m n ∧ el f lda k k = 0) := by
  classical
  obtain ⟨p, g, p1, p2, p3⟩ := lu_steps m n (el a lda) (min m n) le_rfl
  have hel : ∀ i < m, ∀ j < n, el (fill a lda m n g) lda i j = g i j := fun i hi j hj => fill_el g (by omega) h2 hi hj
  have hfac : ∀ i < m, ∀ j < n, el a lda (pivPerm p (min m n) i) j =
        ∑ k ∈ range (min m n), lowOf (fill a lda m n g) lda i k * uppOf (fill a lda m n g) lda k j := fun i hi j hj => by
    rw [p3 i hi j, if_neg (by omega), add_zero]
    refine sum_congr rfl fun k hk => ?_
    rw [mem_range] at hk
    rw [loF, upF, lowOf, uppOf, hel i hi k (by omega), hel k (by omega) j hj]
  by_cases hz : ∃ k, k < min m n ∧ el (fill a lda m n g) lda k k = 0
  · obtain ⟨k, hk1, hk2⟩ := hz
    refine ⟨_, fill a lda m n g, p, (k : ℤ) + 1, rfl, fill_length .., p1, p2, hfac, by omega, ?_, fun k' h' => ?_⟩
    · exact ⟨fun h => by omega, fun h => absurd hk2 (h k hk1)⟩
    · obtain rfl : k' = k := by omega
      exact ⟨hk1, hk2⟩
  · push Not at hz
    exact ⟨_, fill a lda m n g, p, 0, rfl, fill_length .., p1, p2, hfac, le_rfl, ⟨fun _ => hz, fun _ => rfl⟩,
      fun k' h' => by omega⟩

/-- the product of the stored factors -/
def luOf (n : Nat) (a : List K) (lda : Nat) : Matrix (Fin n) (Fin n) K :=
  fun i k => ∑ l ∈ range n, lowOf a lda i l * uppOf a lda l k

theorem luOf_det {n : Nat} {a : List K} {lda : Nat} (h : ∀ k < n, el a lda k k ≠ 0) : (luOf n a lda).det ≠ 0 := by
  have e : luOf n a lda = mx n n (lowOf a lda) * mx n n (uppOf a lda) := by
    ext i j
    rw [mul_apply, luOf, ← Fin.sum_univ_eq_sum_range (fun l => lowOf a lda i l * uppOf a lda l j)]
    rfl
  rw [e, det_mul, det_of_lowerTriangular _ (fun i j (hij : i < j) => ?_), det_of_upperTriangular (fun i j (hij : j < i) => ?_)]
  · refine mul_ne_zero (prod_ne_zero_iff.2 fun i _ => ?_) (prod_ne_zero_iff.2 fun i _ => ?_)
    · simp [lowOf]
    · simpa [uppOf] using h i i.2
  · rw [Fin.lt_def] at hij
    simp only [mx_apply, uppOf, if_neg (show ¬ (i : ℕ) ≤ j by omega)]
  · rw [Fin.lt_def] at hij
    simp only [mx_apply, lowOf, if_neg (show ¬ (j : ℕ) < i by omega), if_neg (show ¬ (j : ℕ) = i by omega)]

/-- LAPACK routines with the documented behaviour -/
noncomputable def lapackLU : LapackLU K where
  getrf m n a lda :=
    haveI := Classical.propDecidable
    if h : max 1 m ≤ lda ∧ lda * n ≤ a.length then (getrf_exists m n a lda h.1 h.2).choose else (a, [], -4)
  getrs n nrhs a lda p b ldb :=
    (some (fill b ldb n nrhs (solveBy n nrhs (luOf n a lda) fun i j => el b ldb (pivPerm p n i) j)),
      if lda < max 1 n then -5 else if ldb < max 1 n then -8 else 0)
  getri n a lda p :=
    (fill a lda n n (solveBy n n (luOf n a lda) fun i j => if pivPerm p n i = j then 1 else 0),
      if lda < max 1 n then -3 else 0)
  getrf_arg m n a lda h := by rw [dif_neg (by omega)]
  getrf_doc m n a lda h1 h2 := by
    rw [dif_pos ⟨h1, h2⟩]
    exact (getrf_exists m n a lda h1 h2).choose_spec
  getrs_lda n nrhs a lda p b ldb h := if_pos h
  getrs_ldb n nrhs a lda p b ldb h1 h2 := by
    simp only [if_neg (not_lt.2 h1), if_pos h2]
  getrs_doc n nrhs a lda p b ldb h1 h2 h3 h4 h5 h6 := by
    refine ⟨by simp only [if_neg (not_lt.2 h1), if_neg (not_lt.2 h2)], fun h7 => ⟨_, rfl, fill_length .., fun i hi j hj => ?_⟩⟩
    rw [← solveBy_spec (luOf_det h7) (fun i j => el b ldb (pivPerm p n i) j) ⟨i, hi⟩ hj, ← Fin.sum_univ_eq_sum_range
      (fun k => (∑ l ∈ range n, lowOf a lda i l * uppOf a lda l k) * el (fill b ldb n nrhs _) ldb k j)]
    refine sum_congr rfl fun k _ => ?_
    rw [fill_el _ (by omega) h4 k.2 hj]
    rfl
  getri_arg n a lda p h := if_pos h
  getri_doc n a lda p h1 h2 h3 h4 h5 := by
    refine ⟨_, by rw [if_neg (not_lt.2 h1)], fill_length .., fun i hi j hj => ?_⟩
    rw [← solveBy_spec (luOf_det h5) (fun i j => if pivPerm p n i = j then 1 else 0) ⟨i, hi⟩ hj, ← Fin.sum_univ_eq_sum_range
      (fun k => (∑ l ∈ range n, lowOf a lda i l * uppOf a lda l k) * el (fill a lda n n _) lda k j)]
    refine sum_congr rfl fun k _ => ?_
    rw [fill_el _ (by omega) h2 k.2 hj]
    rfl

end Lapack
end Verif
