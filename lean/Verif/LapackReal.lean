import Verif.LapackProps
import Mathlib.LinearAlgebra.Matrix.Charpoly.Coeff
import Mathlib.LinearAlgebra.Matrix.ToLinearEquiv
import Mathlib.Data.Complex.BigOperators

/-!
# The LAPACK backend: Cholesky, QR and Hessenberg decompositions (C95), eigenvalues (C96)
-/

namespace Verif
namespace Lapack
open Finset Matrix

/-! ## C95 Cholesky -/

theorem decChol_lapack (P : LapackR) {n : Nat} (hn : n ≠ 0) {A : Mat ℝ} {M : Matrix (Fin n) (Fin n) ℝ} (hA : Repr A M) :
    ∃ f info l, P.potrf n A.data n = (f, info) ∧ decChol P A = some (.ok l) ∧
      l.Is n n (fun i j => if i < j then 0 else el f n i j) := by
  obtain ⟨f, info, h1, h2, h3, _, _⟩ := P.potrf_doc n A.data n (by omega) (by rw [hA.len])
  have hl : f.length = n * n := by rw [h2, hA.len]
  have hF : (⟨n, n, f⟩ : Mat ℝ).Is n n (fun i j => el f n i j) := is_of_el hl fun _ _ _ _ => rfl
  obtain ⟨l, l1, l2⟩ := setLoop hF 0 (fun i => i + 1) (fun _ => n) (fun _ _ => le_rfl) 0
  refine ⟨f, info, l, h1, ?_, l2.congr fun i j hi hj => if_congr (by omega) rfl rfl⟩
  simp only [decChol, hA.rows, hA.cols, if_true, h1, if_neg (not_lt.2 h3), new_of_len hl, Option.bind_eq_bind,
    Option.bind_some, l1]

/-- C95: the Cholesky decomposition of a symmetric positive definite matrix is returned.
    Missing: other matrices, for which no error is returned either (`C95_cholesky_violated`). -/
theorem C95_cholesky_partial (P : LapackR) {n : Nat} (hn : n ≠ 0) {A : Mat ℝ} {M : Matrix (Fin n) (Fin n) ℝ}
    (hA : Repr A M) (hsym : ∀ i j, M i j = M j i) (hpd : ∀ x : Fin n → ℝ, x ≠ 0 → 0 < x ⬝ᵥ (M *ᵥ x)) :
    ∃ l, ∃ L : Matrix (Fin n) (Fin n) ℝ, decChol P A = some (.ok l) ∧ Repr l L ∧ (∀ i j, i < j → L i j = 0) ∧
      (∀ i, 0 < L i i) ∧ L * Lᵀ = M := by
  obtain ⟨f, info, l, h1, h2, h3⟩ := decChol_lapack P hn hA
  obtain ⟨f', info', g1, g2, g3, g4, g5⟩ := P.potrf_doc n A.data n (by omega) (by rw [hA.len])
  obtain ⟨rfl, rfl⟩ : f = f' ∧ info = info' := by
    rw [h1] at g1
    exact Prod.mk.inj g1
  have hent : ∀ i j : Fin n, el A.data n (max (i : ℕ) j) (min (i : ℕ) j) = M i j := fun i j => by
    rw [el_of_is hA.is (by omega) (by omega)]
    rcases le_total (i : ℕ) j with h | h
    · rw [max_eq_right h, min_eq_left h, extM_apply, hsym]
    · rw [max_eq_left h, min_eq_right h, extM_apply]
  have hi : info = 0 := g4.2 fun x hx => by
    have := hpd x hx
    simp only [dotProduct, mulVec, mul_sum] at this
    refine lt_of_lt_of_eq this (sum_congr rfl fun i _ => sum_congr rfl fun j _ => ?_)
    rw [hent, mul_assoc]
  obtain ⟨d1, d2⟩ := g5 hi
  have key : ∀ i j : Fin n, j ≤ i →
      ∑ k : Fin n, (if (i : ℕ) < k then 0 else el f n i k) * (if (j : ℕ) < k then 0 else el f n j k) = M i j := by
    intro i j hij
    rw [Fin.le_def] at hij
    have := d2 i i.2 j hij
    rw [el_of_is hA.is i.2 j.2, extM_apply] at this
    rw [← this, Fin.sum_univ_eq_sum_range (fun k => (if (i : ℕ) < k then 0 else el f n i k) *
      (if (j : ℕ) < k then 0 else el f n j k)), range_eq_Ico,
      ← sum_Ico_consecutive _ (Nat.zero_le (j + 1)) (show (j : ℕ) + 1 ≤ n by omega), sum_eq_zero (s := Ico ((j : ℕ) + 1) n),
      add_zero]
    · refine sum_congr (range_eq_Ico _).symm fun k hk => ?_
      rw [mem_range] at hk
      rw [if_neg (by omega), if_neg (by omega)]
    · intro k hk
      rw [mem_Ico] at hk
      rw [if_pos (show (j : ℕ) < k by omega), mul_zero]
  refine ⟨l, _, h2, h3.repr, fun i j hij => ?_, fun i => ?_, ?_⟩
  · rw [Fin.lt_def] at hij
    simp only [mx_apply, if_pos hij]
  · simp only [mx_apply, lt_irrefl, if_false]
    exact d1 i i.2
  · ext i j
    rw [mul_apply]
    simp only [mx_apply, transpose_apply]
    rcases le_total j i with h | h
    · exact key i j h
    · rw [hsym i j, ← key j i h]
      exact sum_congr rfl fun k _ => mul_comm _ _

example (P : LapackR) : ∃ l, ∃ L : Matrix (Fin 1) (Fin 1) ℝ, decChol P ⟨1, 1, [9]⟩ = some (.ok l) ∧ Repr l L ∧ L 0 0 = 3 := by
  obtain ⟨l, L, h1, h2, _, h4, h5⟩ := C95_cholesky_partial P (by omega) (A := ⟨1, 1, [9]⟩) (M := !![9])
    ⟨rfl, rfl, rfl, fun i j => by rw [Subsingleton.elim i 0, Subsingleton.elim j 0]; rfl⟩
    (fun i j => by rw [Subsingleton.elim i j]) (fun x hx => by
      have : x 0 ≠ 0 := fun h => hx (funext fun i => by rw [Subsingleton.elim i 0]; exact h)
      simp [dotProduct, mulVec]
      nlinarith [mul_self_pos.2 this])
  have := congrFun (congrFun h5 0) 0
  simp [mul_apply] at this
  exact ⟨l, L, h1, h2, by nlinarith [h4 0]⟩

/-- C95 is false for matrices that are not positive definite: `Ok` is returned for every square matrix, for instance for
    `[[-1]]`, which has no Cholesky decomposition. -/
theorem C95_cholesky_violated (P : LapackR) :
    (∀ (n : Nat) (A : Mat ℝ) (M : Matrix (Fin n) (Fin n) ℝ), n ≠ 0 → Repr A M → ∃ l, decChol P A = some (.ok l)) ∧
    ∃ (A l : Mat ℝ) (M : Matrix (Fin 1) (Fin 1) ℝ), Repr A M ∧ decChol P A = some (.ok l) ∧
      ∀ L : Matrix (Fin 1) (Fin 1) ℝ, L * Lᵀ ≠ M := by
  have key : ∀ (n : Nat) (A : Mat ℝ) (M : Matrix (Fin n) (Fin n) ℝ), n ≠ 0 → Repr A M →
      ∃ l, decChol P A = some (.ok l) := fun n A M hn hA => by
    obtain ⟨_, _, l, _, h, _⟩ := decChol_lapack P hn hA
    exact ⟨l, h⟩
  refine ⟨key, ?_⟩
  have hA : Repr (⟨1, 1, [-1]⟩ : Mat ℝ) !![-1] := ⟨rfl, rfl, rfl, fun i j => by
    rw [Subsingleton.elim i 0, Subsingleton.elim j 0]; rfl⟩
  obtain ⟨l, hl⟩ := key 1 _ _ (by omega) hA
  refine ⟨_, l, _, hA, hl, fun L h => ?_⟩
  have := congrFun (congrFun h 0) 0
  simp [mul_apply] at this
  nlinarith [mul_self_nonneg (L 0 0)]

/-! ## C95 QR -/

/-- C95: the QR decomposition of a matrix with at least as many rows as columns: `q` has orthonormal columns, `r` is upper
    triangular, and `A` is `q` times the first rows of `r`. -/
theorem C95_qr_thin (P : LapackR) {m n : Nat} (hm : m ≠ 0) (hmn : n ≤ m) {A : Mat ℝ} {M : Matrix (Fin m) (Fin n) ℝ}
    (hA : Repr A M) :
    ∃ q r, ∃ Q R : Matrix (Fin m) (Fin n) ℝ, decQR P A = some (q, r) ∧ Repr q Q ∧ Repr r R ∧ Qᵀ * Q = 1 ∧
      (∀ (i : Fin m) (j : Fin n), (j : ℕ) < i → R i j = 0) ∧
      ∀ (i : Fin m) (j : Fin n), M i j = ∑ k : Fin n, Q i k * R (Fin.castLE hmn k) j := by
  obtain ⟨f, tau, h1, h2, h3, h4, h5⟩ := P.geqrf_doc m n A.data m (by omega) (by rw [hA.len])
  rw [min_eq_right hmn] at h3 h4 h5
  have hl : f.length = m * n := by rw [h2, hA.len]
  obtain ⟨q, q1, q2, q3⟩ := P.orgqr_doc m n n f m tau hmn le_rfl (by omega) (by rw [hl]) h3
  set Q := prodOf m 0 n f m tau with hQ
  have hF : (⟨m, n, f⟩ : Mat ℝ).Is m n (fun i j => el f m i j) := is_of_el hl fun _ _ _ _ => rfl
  obtain ⟨r, r1, r2⟩ := setLoop hF 1 (fun _ => 0) (fun i => min i n) (fun _ _ => min_le_right _ _) 0
  have hr : qrR ⟨m, n, f⟩ = some r := r1
  refine ⟨⟨m, n, q⟩, r, mx m n (fun i j => el q m i j), mx m n (fun i j => if i ≤ j then el f m i j else 0), ?_,
    (is_of_el (q2.trans hl) fun _ _ _ _ => rfl).repr, (r2.congr fun i j hi hj => ?_).repr, ?_, fun i j hij => ?_,
    fun i j => ?_⟩
  · simp only [decQR, hA.rows, hA.cols, if_pos hmn, h1, ne_eq, not_true_eq_false, if_false, new_of_len hl,
      Option.bind_eq_bind, Option.bind_some, hr, min_eq_right hmn, h3, q1, new_of_len (q2.trans hl)]
  · by_cases h : i ≤ j
    · rw [if_neg (by omega), if_pos h]
    · rw [if_pos (by omega), if_neg h]
  · have h6 : Qᵀ * Q = 1 := mul_eq_one_comm.1 h4
    ext i j
    have := congrFun (congrFun h6 (Fin.castLE hmn i)) (Fin.castLE hmn j)
    rw [mul_apply] at this ⊢
    simp only [transpose_apply, mx_apply] at this ⊢
    rw [sum_congr rfl fun k _ => by
      rw [show el q m k i = Q k (Fin.castLE hmn i) from q3 k (Fin.castLE hmn i) i.2,
        show el q m k j = Q k (Fin.castLE hmn j) from q3 k (Fin.castLE hmn j) j.2], this]
    simp only [one_apply, Fin.ext_iff, Fin.val_castLE]
  · simp only [mx_apply, if_neg (not_le.2 hij)]
  · have e1 : M i j = matOf m n A.data m i j := by
      rw [matOf, el_of_is hA.is i.2 j.2, extM_apply]
    rw [e1, h5, mul_apply]
    have e2 : ∀ g : ℕ → ℝ, (∀ k, n ≤ k → g k = 0) → ∑ k : Fin m, g k = ∑ k : Fin n, g k := by
      intro g hg
      rw [Fin.sum_univ_eq_sum_range, Fin.sum_univ_eq_sum_range, range_eq_Ico, range_eq_Ico,
        ← sum_Ico_consecutive _ (Nat.zero_le n) hmn, sum_eq_zero (s := Ico n m), add_zero]
      intro k hk
      exact hg k (mem_Ico.1 hk).1
    have e3 := e2 (fun k => extM Q i k * (if k ≤ (j : ℕ) then el f m k j else 0)) (fun k hk => by
      rw [if_neg (by omega), mul_zero])
    simp only [extM_apply] at e3
    simp only [upOf, add_zero]
    refine e3.trans (sum_congr rfl fun k _ => ?_)
    simp only [mx_apply, Fin.val_castLE]
    rw [show el q m i k = Q i (Fin.castLE hmn k) from q3 i (Fin.castLE hmn k) k.2,
      show extM Q i k = extM Q i (Fin.castLE hmn k) from rfl, extM_apply]

/-- C95, partial: the QR decomposition of a square matrix.  For more rows than columns see `C95_qr_violated`. -/
theorem C95_qr_partial (P : LapackR) {n : Nat} (hn : n ≠ 0) {A : Mat ℝ} {M : Matrix (Fin n) (Fin n) ℝ} (hA : Repr A M) :
    ∃ q r, ∃ Q R : Matrix (Fin n) (Fin n) ℝ, decQR P A = some (q, r) ∧ Repr q Q ∧ Repr r R ∧ Qᵀ * Q = 1 ∧ Q * Qᵀ = 1 ∧
      (∀ i j, j < i → R i j = 0) ∧ Q * R = M := by
  obtain ⟨q, r, Q, R, h1, h2, h3, h4, h5, h6⟩ := C95_qr_thin P hn le_rfl hA
  refine ⟨q, r, Q, R, h1, h2, h3, h4, mul_eq_one_comm.1 h4, fun i j h => h5 i j h, ?_⟩
  ext i j
  rw [mul_apply, h6]
  rfl

example (P : LapackR) : ∃ q r, ∃ Q R : Matrix (Fin 2) (Fin 2) ℝ, decQR P ⟨2, 2, [3, 4, 1, 2]⟩ = some (q, r) ∧ Repr q Q ∧
    Repr r R ∧ R 0 0 ^ 2 = 25 := by
  obtain ⟨q, r, Q, R, h1, h2, h3, h4, _, h5, h6⟩ := C95_qr_partial P (by omega) (A := ⟨2, 2, [3, 4, 1, 2]⟩)
    (M := !![3, 1; 4, 2]) ⟨rfl, rfl, rfl, fun i j => by fin_cases i <;> fin_cases j <;> rfl⟩
  refine ⟨q, r, Q, R, h1, h2, h3, ?_⟩
  have e1 := congrFun (congrFun h4 0) 0
  have e2 := congrFun (congrFun h6 0) 0
  have e3 := congrFun (congrFun h6 1) 0
  simp [mul_apply, Fin.sum_univ_two, h5 1 0 (by decide)] at e1 e2 e3
  have : R 0 0 ^ 2 = (Q 0 0 * R 0 0) ^ 2 + (Q 1 0 * R 0 0) ^ 2 := by
    linear_combination (-(R 0 0) ^ 2) * e1
  rw [this, e2, e3]
  norm_num

/-- C95 is false for more rows than columns: `q` and `r` both have the shape of `A`, so that they cannot be multiplied. -/
theorem C95_qr_violated (P : LapackR) {m n : Nat} (hmn : n < m) {A : Mat ℝ} {M : Matrix (Fin m) (Fin n) ℝ}
    (hA : Repr A M) : ∃ q r, decQR P A = some (q, r) ∧ q.mul r = none := by
  obtain ⟨q, r, Q, R, h1, h2, h3, _⟩ := C95_qr_thin P (by omega) hmn.le hA
  refine ⟨q, r, h1, ?_⟩
  simp only [Mat.mul, h2.cols, h3.rows, if_neg (show ¬ n = m by omega)]

/-- C95: fewer rows than columns panic. -/
theorem C95_qr_panic (P : LapackR) {A : Mat ℝ} (h : A.m < A.n) : decQR P A = none := by
  simp only [decQR, if_neg (not_le.2 h)]

/-! ## C95 Hessenberg -/

/-- C95: the Hessenberg decomposition of every square matrix. -/
theorem C95_hessenberg (P : LapackR) {n : Nat} (hn : n ≠ 0) {A : Mat ℝ} {M : Matrix (Fin n) (Fin n) ℝ} (hA : Repr A M) :
    ∃ q h, ∃ Q H : Matrix (Fin n) (Fin n) ℝ, decHessenberg P A = some (q, h) ∧ Repr q Q ∧ Repr h H ∧ Qᵀ * Q = 1 ∧
      Q * Qᵀ = 1 ∧ (∀ i j : Fin n, (j : ℕ) + 1 < i → H i j = 0) ∧ Q * H * Qᵀ = M := by
  obtain ⟨f, tau, h1, h2, h3, h4, h5⟩ := P.gehrd_doc n A.data n (by omega) (by rw [hA.len])
  have hl : f.length = n * n := by rw [h2, hA.len]
  obtain ⟨q, q1, q2, q3⟩ := P.orghr_doc n f n tau (by omega) (by rw [hl]) h3
  have hF : (⟨n, n, f⟩ : Mat ℝ).Is n n (fun i j => el f n i j) := is_of_el hl fun _ _ _ _ => rfl
  obtain ⟨r, r1, r2⟩ := setLoop hF 2 (fun _ => 0) (fun i => i - 1) (fun _ _ => by omega) 0
  have hr : hesH ⟨n, n, f⟩ = some r := r1
  refine ⟨⟨n, n, q⟩, r, prodOf n 1 (n - 1) f n tau, upOf n n 1 f n, ?_,
    (is_of_el (f := fun i j => el q n i j) (q2.trans hl) fun _ _ _ _ => rfl).repr_of fun i j => q3 i j,
    (r2.congr (g := fun i j => if i ≤ j + 1 then el f n i j else 0) fun i j hi hj => ?_).repr_of fun i j => rfl,
    mul_eq_one_comm.1 h4, h4, fun i j hij => ?_, ?_⟩
  · simp only [decHessenberg, hA.rows, hA.cols, ne_eq, hn, not_false_eq_true, and_self, if_true, h1, not_true_eq_false,
      if_false, new_of_len hl, Option.bind_eq_bind, Option.bind_some, hr, q1, new_of_len (q2.trans hl)]
  · by_cases h : i ≤ j + 1
    · rw [if_neg (by omega), if_pos h]
    · rw [if_pos (by omega), if_neg h]
  · rw [upOf, if_neg (by omega)]
  · rw [← h5]
    ext i j
    rw [matOf, el_of_is hA.is i.2 j.2, extM_apply]

example (P : LapackR) : ∃ q h, decHessenberg P ⟨3, 3, [1, 2, 3, 4, 5, 6, 7, 8, 9]⟩ = some (q, h) ∧ h.get 2 0 = some 0 := by
  obtain ⟨q, h, Q, H, h1, _, h3, _, _, h6, _⟩ := C95_hessenberg P (by omega) (A := ⟨3, 3, [1, 2, 3, 4, 5, 6, 7, 8, 9]⟩)
    (M := !![1, 4, 7; 2, 5, 8; 3, 6, 9]) ⟨rfl, rfl, rfl, fun i j => by fin_cases i <;> fin_cases j <;> rfl⟩
  refine ⟨q, h, h1, ?_⟩
  rw [h3.is.get (by omega) (by omega), extM_lt H (by omega) (by omega), h6 _ _ (by simp)]

/-! ## C96 eigenvalues and eigenvectors -/

/-- what `dec_eigen` returns: the real parts of the eigenvalues and eigenvectors of the transposed matrix -/
theorem C96_exact (P : LapackR) {n : Nat} {A w v : Mat ℝ} {M : Matrix (Fin n) (Fin n) ℝ} (hA : Repr A M)
    (h : decEigen P A = some (w, v)) :
    ∃ (x y : Fin n → ℝ) (V : Matrix (Fin n) (Fin n) ℝ), ColRepr w x ∧ Repr v V ∧
      (M.map ((↑) : ℝ → ℂ)).charpoly = ∏ j, (Polynomial.X - Polynomial.C (⟨x j, y j⟩ : ℂ)) ∧
      ∀ j, y j = 0 → (fun i => V i j) ≠ 0 ∧ Mᵀ *ᵥ (fun i => V i j) = x j • fun i => V i j := by
  by_cases hn : n = 0
  · simp [decEigen, hA.rows, hn] at h
  obtain ⟨At, t1, t2⟩ := C05_transpose_partial (fun _ => 0) hA (Or.inl rfl) (by omega)
  have t1' : A.transpose = some At := t1
  obtain ⟨wr, wi, vr, info, g1, g2, g3, g4, g5, g6⟩ := P.geev_doc n At.data n 1 n (by omega) le_rfl le_rfl (by rw [t2.len])
  have hmat : matOf n n At.data n = Mᵀ := by
    ext i j
    rw [matOf, el_of_is t2.is i.2 j.2, extM_apply]
  simp only [decEigen, hA.rows, hA.cols, ne_eq, hn, not_false_eq_true, and_self, if_true, t1', g1, Option.bind_eq_bind,
    Option.bind_some] at h
  by_cases hi : info = 0
  · simp only [hi, not_true_eq_false, if_false, Mat.newColumn, new_of_len g4, Option.bind_some] at h
    rw [new_of_len (show wr.length = n * 1 by omega)] at h
    simp only [g2, if_true, Option.bind_some, Option.some.injEq, Prod.mk.injEq] at h
    obtain ⟨rfl, rfl⟩ := h
    obtain ⟨c1, c2⟩ := g6 hi
    rw [hmat] at c1 c2
    refine ⟨fun j => wr.getD j 0, fun j => wi.getD j 0, mx n n (el vr n), (is_of_el (f := fun i _ => wr.getD i 0) (by omega)
      fun i hi j hj => by rw [el, show j = 0 by omega]; simp).colRepr_of fun _ => rfl,
      (is_of_el g4 fun _ _ _ _ => rfl).repr, ?_, fun j hj => ⟨fun hz => ?_, ?_⟩⟩
    · rw [← c1, transpose_map, charpoly_transpose]
    · obtain ⟨i, hi⟩ := (c2 j hj).1
      exact hi (congrFun hz i)
    · exact (c2 j hj).2
  · simp [hi] at h

theorem charpoly_real (n : Nat) (M : Matrix (Fin n) (Fin n) ℝ) :
    (M.map ((↑) : ℝ → ℂ)).charpoly = M.charpoly.map Complex.ofRealHom := by
  rw [← charpoly_map]; rfl

/-- C96: for a matrix with real eigenvalues the values are right.  Missing: complex eigenvalues
    (`C96_complex_violated`), and that the routine converges. -/
theorem C96_values_partial (P : LapackR) {n : Nat} {A w v : Mat ℝ} {M : Matrix (Fin n) (Fin n) ℝ} (hA : Repr A M)
    (hreal : ∀ z : ℂ, (M.map ((↑) : ℝ → ℂ)).charpoly.eval z = 0 → z.im = 0) (h : decEigen P A = some (w, v)) :
    ∃ x : Fin n → ℝ, ColRepr w x ∧ M.charpoly = ∏ j, (Polynomial.X - Polynomial.C (x j)) := by
  obtain ⟨x, y, V, h1, h2, h3, h4⟩ := C96_exact P hA h
  have hy : ∀ j, y j = 0 := fun j => hreal ⟨x j, y j⟩ (by
    rw [h3, Polynomial.eval_prod]
    exact prod_eq_zero (mem_univ j) (by simp))
  refine ⟨x, h1, Polynomial.map_injective Complex.ofRealHom Complex.ofRealHom.injective ?_⟩
  rw [← charpoly_real n M, h3, Polynomial.map_prod]
  refine prod_congr rfl fun j _ => ?_
  rw [Polynomial.map_sub, Polynomial.map_X, Polynomial.map_C, hy j]
  rfl

/-- a real symmetric matrix has real eigenvalues -/
theorem symm_real {n : Nat} {M : Matrix (Fin n) (Fin n) ℝ} (hsym : ∀ i j, M i j = M j i) (z : ℂ)
    (hz : (M.map ((↑) : ℝ → ℂ)).charpoly.eval z = 0) : z.im = 0 := by
  rw [eval_charpoly] at hz
  obtain ⟨x, hx, hz⟩ := exists_mulVec_eq_zero_iff.2 hz
  have hz' : M.map ((↑) : ℝ → ℂ) *ᵥ x = z • x := by
    rw [sub_mulVec, sub_eq_zero] at hz
    rw [← hz]
    ext i
    simp [scalar_apply, mulVec_diagonal]
  have e1 : star x ⬝ᵥ (M.map ((↑) : ℝ → ℂ) *ᵥ x) = z * (star x ⬝ᵥ x) := by
    rw [hz', dotProduct_smul, smul_eq_mul]
  have e2 : star (star x ⬝ᵥ (M.map ((↑) : ℝ → ℂ) *ᵥ x)) = star x ⬝ᵥ (M.map ((↑) : ℝ → ℂ) *ᵥ x) := by
    simp only [dotProduct, mulVec, star_sum, mul_sum, map_apply, star_mul', Pi.star_apply, star_star]
    rw [sum_comm]
    refine sum_congr rfl fun i _ => sum_congr rfl fun j _ => ?_
    rw [show star ((M j i : ℝ) : ℂ) = (M i j : ℂ) by rw [hsym i j]; exact Complex.conj_ofReal _]
    ring
  have e3 : star x ⬝ᵥ x = ((∑ i, Complex.normSq (x i) : ℝ) : ℂ) := by
    simp only [dotProduct, Pi.star_apply, Complex.ofReal_sum]
    refine sum_congr rfl fun i _ => ?_
    rw [mul_comm]
    exact Complex.mul_conj _
  have hpos : 0 < ∑ i, Complex.normSq (x i) := by
    obtain ⟨i, hi⟩ := Function.ne_iff.1 hx
    exact sum_pos' (fun i _ => Complex.normSq_nonneg _) ⟨i, mem_univ i, Complex.normSq_pos.2 hi⟩
  rw [e1, e3] at e2
  have := congrArg Complex.im e2
  rw [Complex.star_def, Complex.conj_im, Complex.im_mul_ofReal] at this
  have h0 : z.im * ∑ i, Complex.normSq (x i) = 0 := by linarith
  exact (mul_eq_zero.1 h0).resolve_right hpos.ne'

/-- C96: the decomposition of a symmetric matrix is right: the values are the eigenvalues with their multiplicities, and
    the columns are eigenvectors to these values.  Missing: that the routine converges, and matrices that are not symmetric
    (`C96_vectors_violated`). -/
theorem C96_symmetric_partial (P : LapackR) {n : Nat} {A w v : Mat ℝ} {M : Matrix (Fin n) (Fin n) ℝ} (hA : Repr A M)
    (hsym : ∀ i j, M i j = M j i) (h : decEigen P A = some (w, v)) :
    ∃ (x : Fin n → ℝ) (V : Matrix (Fin n) (Fin n) ℝ), ColRepr w x ∧ Repr v V ∧
      M.charpoly = ∏ j, (Polynomial.X - Polynomial.C (x j)) ∧
      ∀ j, (fun i => V i j) ≠ 0 ∧ M *ᵥ (fun i => V i j) = x j • fun i => V i j := by
  obtain ⟨x, y, V, h1, h2, h3, h4⟩ := C96_exact P hA h
  obtain ⟨x', h1', h5⟩ := C96_values_partial P hA (symm_real hsym) h
  have hx : x' = x := by
    funext i
    have a := h1.is.get i.2 (show 0 < 1 by omega)
    have b := h1'.is.get i.2 (show 0 < 1 by omega)
    rw [a] at b
    simpa [extV_apply] using b.symm
  rw [hx] at h5
  have hy : ∀ j, y j = 0 := fun j => symm_real hsym ⟨x j, y j⟩ (by
    rw [h3, Polynomial.eval_prod]
    exact prod_eq_zero (mem_univ j) (by simp))
  have ht : Mᵀ = M := by
    ext i j
    exact hsym j i
  refine ⟨x, V, h1, h2, h5, fun j => ?_⟩
  have := h4 j (hy j)
  rwa [ht] at this

example (P : LapackR) {w v : Mat ℝ} (h : decEigen P ⟨2, 2, [2, 1, 1, 2]⟩ = some (w, v)) :
    ∃ x : Fin 2 → ℝ, ColRepr w x ∧ x 0 + x 1 = 4 ∧ x 0 * x 1 = 3 := by
  obtain ⟨x, _, h1, _, h3, _⟩ := C96_symmetric_partial P (M := !![2, 1; 1, 2])
    ⟨rfl, rfl, rfl, fun i j => by fin_cases i <;> fin_cases j <;> rfl⟩
    (fun i j => by fin_cases i <;> fin_cases j <;> rfl) h
  have e0 := congrArg (Polynomial.eval 0) h3
  have e1 := congrArg (Polynomial.eval 1) h3
  rw [charpoly_fin_two] at e0 e1
  simp [trace_fin_two, det_fin_two, Fin.prod_univ_two] at e0 e1
  exact ⟨x, h1, by linarith, by linarith⟩

theorem charpoly_two (M : Matrix (Fin 2) (Fin 2) ℝ) (z : ℂ) : (M.map ((↑) : ℝ → ℂ)).charpoly.eval z =
    z ^ 2 - (M 0 0 + M 1 1) * z + (M 0 0 * M 1 1 - M 0 1 * M 1 0) := by
  rw [charpoly_fin_two]
  simp [trace_fin_two, det_fin_two]

/-- C96 is false for the eigenvectors of matrices that are not symmetric: for `[[1, 1], [0, 2]]` no returned column is an
    eigenvector to its value, whatever the LAPACK (the matrix is transposed before the call). -/
theorem C96_vectors_violated (P : LapackR) : ∃ (A : Mat ℝ) (M : Matrix (Fin 2) (Fin 2) ℝ), Repr A M ∧
    ∀ w v, decEigen P A = some (w, v) → ∃ (x : Fin 2 → ℝ) (V : Matrix (Fin 2) (Fin 2) ℝ), ColRepr w x ∧ Repr v V ∧
      ∀ j, M *ᵥ (fun i => V i j) ≠ x j • fun i => V i j := by
  have hA : Repr (⟨2, 2, [1, 0, 1, 2]⟩ : Mat ℝ) !![1, 1; 0, 2] := ⟨rfl, rfl, rfl, fun i j => by
    fin_cases i <;> fin_cases j <;> rfl⟩
  refine ⟨_, _, hA, fun w v h => ?_⟩
  obtain ⟨x, y, V, h1, h2, h3, h4⟩ := C96_exact P hA h
  refine ⟨x, V, h1, h2, fun j hj => ?_⟩
  have hz := charpoly_two !![1, 1; 0, 2] ⟨x j, y j⟩
  rw [h3, Polynomial.eval_prod, prod_eq_zero (mem_univ j) (by simp)] at hz
  have hy : y j = 0 := by
    have e1 : ((⟨x j, y j⟩ : ℂ) - 1) * (⟨x j, y j⟩ - 2) = 0 := by
      rw [eq_comm] at hz
      simp at hz
      linear_combination hz
    rcases mul_eq_zero.1 e1 with e | e
    · have := congrArg Complex.im e
      simpa using this
    · have := congrArg Complex.im e
      simpa using this
  obtain ⟨c1, c2⟩ := h4 j hy
  rw [← hj] at c2
  apply c1
  have a0 := congrFun c2 0
  have a1 := congrFun c2 1
  simp [mulVec, dotProduct, Fin.sum_univ_two] at a0 a1
  funext i
  fin_cases i
  · simp; linarith
  · simp; linarith

/-- C96 is false for complex eigenvalues: for the rotation `[[0, -1], [1, 0]]` the values returned are 0 and 0, and 0 is
    not an eigenvalue. -/
theorem C96_complex_violated (P : LapackR) : ∃ (A : Mat ℝ) (M : Matrix (Fin 2) (Fin 2) ℝ), Repr A M ∧
    (∀ w v, decEigen P A = some (w, v) → ColRepr w (0 : Fin 2 → ℝ)) ∧ ∀ x : Fin 2 → ℝ, M *ᵥ x = 0 → x = 0 := by
  have hA : Repr (⟨2, 2, [0, 1, -1, 0]⟩ : Mat ℝ) !![0, -1; 1, 0] := ⟨rfl, rfl, rfl, fun i j => by
    fin_cases i <;> fin_cases j <;> rfl⟩
  refine ⟨_, _, hA, fun w v h => ?_, fun x hx => ?_⟩
  · obtain ⟨x, y, V, h1, h2, h3, h4⟩ := C96_exact P hA h
    have : x = 0 := by
      funext j
      have hz := charpoly_two !![0, -1; 1, 0] ⟨x j, y j⟩
      rw [h3, Polynomial.eval_prod, prod_eq_zero (mem_univ j) (by simp)] at hz
      have e1 : ((⟨x j, y j⟩ : ℂ) - Complex.I) * (⟨x j, y j⟩ + Complex.I) = 0 := by
        rw [eq_comm] at hz
        simp at hz
        linear_combination hz - Complex.I_sq
      rcases mul_eq_zero.1 e1 with e | e
      · have := congrArg Complex.re e
        simpa using this
      · have := congrArg Complex.re e
        simpa using this
    rwa [this] at h1
  · have a0 := congrFun hx 0
    have a1 := congrFun hx 1
    simp [mulVec, dotProduct, Fin.sum_univ_two] at a0 a1
    funext i
    fin_cases i
    · exact a1
    · exact a0

end Lapack
end Verif
