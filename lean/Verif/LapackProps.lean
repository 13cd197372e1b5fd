import Verif.LapackLemmas
import Verif.VecProps

/-!
# The BLAS/LAPACK backend: arithmetic and substitution (C93), LU decomposition, determinant, solve and inverse (C94)
-/

namespace Verif
namespace Lapack
open Finset Matrix

variable {K : Type} [Field K]

/-! ## C93 arithmetic and substitution -/

/-- C93: with every BLAS that does what is documented, `+`, `-` and scalar `*` are those of matrices. -/
theorem C93_entrywise (B : Blas K) {m n : Nat} {A C : Mat K} {M N : Matrix (Fin m) (Fin n) K} (hA : Repr A M)
    (hC : Repr C N) (s : K) :
    (∃ D, add B A C = some D ∧ Repr D (M + N)) ∧ (∃ D, sub B A C = some D ∧ Repr D (M - N)) ∧
    ∃ D, mulScalar B A s = some D ∧ Repr D (s • M) := by
  have hl : A.data.length = m * n := hA.len
  have hl' : C.data.length = m * n := hC.len
  have hel : ∀ (z : List K) i j, el z m i j = z.getD (j * m + i) 0 := fun _ _ _ => rfl
  have eA : ∀ i < m, ∀ j < n, A.data.getD (j * m + i) 0 = extM M i j := fun i hi j hj => el_of_is hA.is hi hj
  have eC : ∀ i < m, ∀ j < n, C.data.getD (j * m + i) 0 = extM N i j := fun i hi j hj => el_of_is hC.is hi hj
  refine ⟨?_, ?_, ?_⟩
  · obtain ⟨z, h1, h2, h3⟩ := B.axpy_doc (m * n) 1 A.data C.data (by omega) (by omega)
    refine ⟨⟨m, n, z⟩, ?_, (is_of_el (f := fun i j => extM M i j + extM N i j) (by omega) fun i hi j hj => ?_).repr_of
      fun i j => by simp [extM_apply]⟩
    · simp only [add, hA.rows, hA.cols, hC.rows, hC.cols, and_self, if_true, h1, Option.bind_eq_bind, Option.bind_some]
    · rw [hel, h3 _ (idx_lt hi hj), eA i hi j hj, eC i hi j hj, one_mul]
  · obtain ⟨z, h1, h2, h3⟩ := B.axpy_doc (m * n) (-1) C.data A.data (by omega) (by omega)
    refine ⟨⟨m, n, z⟩, ?_, (is_of_el (f := fun i j => extM M i j - extM N i j) (by omega) fun i hi j hj => ?_).repr_of
      fun i j => by simp [extM_apply]⟩
    · simp only [sub, hA.rows, hA.cols, hC.rows, hC.cols, and_self, if_true, h1, Option.bind_eq_bind, Option.bind_some]
    · rw [hel, h3 _ (idx_lt hi hj), eA i hi j hj, eC i hi j hj]
      ring
  · obtain ⟨z, h1, h2, h3⟩ := B.scal_doc (m * n) s A.data (by omega)
    refine ⟨⟨m, n, z⟩, ?_, (is_of_el (f := fun i j => s * extM M i j) (by omega) fun i hi j hj => ?_).repr_of
      fun i j => by simp [extM_apply]⟩
    · simp only [mulScalar, hA.rows, hA.cols, h1, Option.bind_eq_bind, Option.bind_some]
    · rw [hel, h3 _ (idx_lt hi hj), eA i hi j hj]

example (B : Blas ℚ) : ∃ D, sub B ⟨2, 2, [1, 3, 2, 4]⟩ ⟨2, 2, [5, 5, 5, 7]⟩ = some D ∧ Repr D !![-4, -3; -2, -3] := by
  obtain ⟨_, ⟨D, h1, h2⟩, _⟩ := C93_entrywise B (A := ⟨2, 2, [1, 3, 2, 4]⟩) (C := ⟨2, 2, [5, 5, 5, 7]⟩)
    (M := !![1, 2; 3, 4]) (N := !![5, 5; 5, 7]) ⟨rfl, rfl, rfl, by decide +kernel⟩ ⟨rfl, rfl, rfl, by decide +kernel⟩ 1
  have e : (!![1, 2; 3, 4] - !![5, 5; 5, 7] : Matrix (Fin 2) (Fin 2) ℚ) = !![-4, -3; -2, -3] := by decide +kernel
  exact ⟨D, h1, e ▸ h2⟩

/-- C93: `*` is the matrix product when the left operand has a row and a column. -/
theorem C93_mul_partial (B : Blas K) {m k n : Nat} (hm : m ≠ 0) (hk : k ≠ 0) {A C : Mat K} {M : Matrix (Fin m) (Fin k) K}
    {N : Matrix (Fin k) (Fin n) K} (hA : Repr A M) (hC : Repr C N) : ∃ D, mul B A C = some D ∧ Repr D (M * N) := by
  obtain ⟨z, h1, h2, h3⟩ := B.gemm_doc m n k 1 A.data m C.data k 0 (Mat.zero (K := K) m n).data m (by omega) (by omega)
    (by omega) (by rw [hA.len]) (by rw [hC.len]) (by simp [Mat.zero])
  refine ⟨⟨m, n, z⟩, ?_, (is_of_el (f := fun i j => ∑ l ∈ range k, extM M i l * extM N l j) (by simpa [Mat.zero] using h2)
    fun i hi j hj => ?_).repr_of fun i j => ?_⟩
  · simp only [mul, hA.rows, hA.cols, hC.rows, hC.cols, if_true, h1, Option.bind_eq_bind, Option.bind_some]
  · rw [h3 i hi j hj, zero_mul, add_zero, one_mul]
    refine sum_congr rfl fun l hl => ?_
    rw [mem_range] at hl
    rw [el_of_is hA.is hi hl, el_of_is hC.is hl hj]
  · rw [← Fin.sum_univ_eq_sum_range (fun l => extM M i l * extM N l j), mul_apply]
    simp only [extM_apply]

example (B : Blas ℚ) : ∃ D, mul B ⟨2, 2, [1, 3, 2, 4]⟩ ⟨2, 1, [5, 6]⟩ = some D ∧ Repr D !![17; 39] := by
  obtain ⟨D, h1, h2⟩ := C93_mul_partial B (by omega) (by omega) (A := ⟨2, 2, [1, 3, 2, 4]⟩) (C := ⟨2, 1, [5, 6]⟩)
    (M := !![1, 2; 3, 4]) (N := !![5; 6]) ⟨rfl, rfl, rfl, by decide +kernel⟩ ⟨rfl, rfl, rfl, by decide +kernel⟩
  have e : (!![1, 2; 3, 4] : Matrix (Fin 2) (Fin 2) ℚ) * (!![5; 6] : Matrix (Fin 2) (Fin 1) ℚ) = !![17; 39] := by decide +kernel
  exact ⟨D, h1, e ▸ h2⟩

/-- C93 is false for empty matrices: a product whose left operand has no rows or no columns is refused by `xgemm`, because
    the leading dimension 0 is not allowed; the native backend returns the empty (or zero) product. -/
theorem C93_empty_violated (B : Blas K) {A C : Mat K} (h : A.m = 0 ∨ A.n = 0) : mul B A C = none := by
  unfold mul
  split
  · rw [B.gemm_arg _ _ _ _ _ _ _ _ _ _ _ (by rcases h with h | h <;> rw [h] <;> simp)]
    rfl
  · rfl

example (B : Blas ℚ) : mul B ⟨0, 2, []⟩ ⟨2, 1, [5, 6]⟩ = none ∧
    (⟨0, 2, []⟩ : Mat ℚ).mul ⟨2, 1, [5, 6]⟩ = some ⟨0, 1, []⟩ :=
  ⟨C93_empty_violated B (Or.inl rfl), by decide +kernel⟩

/-- C93: dimensions that do not match panic. -/
theorem C93_panic (B : Blas K) (A C : Mat K) : (¬ (A.m = C.m ∧ A.n = C.n) → add B A C = none ∧ sub B A C = none) ∧
    (A.n ≠ C.m → mul B A C = none) :=
  ⟨fun h => by simp only [add, sub, if_neg h, and_self], fun h => by simp only [mul, if_neg h]⟩

example (B : Blas ℚ) : add B ⟨1, 2, [1, 2]⟩ ⟨2, 1, [1, 2]⟩ = none := ((C93_panic B _ _).1 (by decide)).1

/-- C93: forward substitution solves with the lower triangle of a matrix without zero on its diagonal, for vectors and
    matrices. -/
theorem C93_forward (B : Blas K) {n q : Nat} (hn : n ≠ 0) {A b c : Mat K} {T : Matrix (Fin n) (Fin n) K} {y : Fin n → K}
    {Y : Matrix (Fin n) (Fin q) K} (hA : Repr A T) (hb : ColRepr b y) (hc : Repr c Y) (hlow : ∀ i j, i < j → T i j = 0)
    (hd : ∀ i, T i i ≠ 0) :
    (∃ v x, substV B 'L' A b = some v ∧ ColRepr v x ∧ T *ᵥ x = y) ∧
    ∃ v X, substM B 'L' A c = some v ∧ Repr v X ∧ T * X = Y := by
  have hdiag : ∀ i < n, el A.data n i i ≠ 0 := fun i hi => by
    rw [el_of_is hA.is hi hi, extM_lt T hi hi]; exact hd _
  have hsum : ∀ (x : Nat → K) (i : Fin n), ∑ l ∈ range (i + 1), el A.data n i l * x l = ∑ l : Fin n, T i l * x l := by
    intro x i
    have : ∀ l ∈ range (i + 1), el A.data n i l * x l = extM T i l * x l := fun l hl => by
      rw [mem_range] at hl
      rw [el_of_is hA.is i.2 (by omega)]
    rw [sum_congr rfl this, sum_range_succ, ← lower_sum (n := n) (extM T) x i.2 (fun l h1 h => by
      rw [extM_lt T i.2 h]; exact hlow _ _ (by rw [Fin.lt_def]; exact h1)),
      ← Fin.sum_univ_eq_sum_range (fun l => extM T i l * x l)]
    simp only [extM_apply]
  constructor
  · have hbl : b.data.length = n * 1 := hb.is.hlen
    obtain ⟨z, h1, h2, h3⟩ := B.trsm_lower n 1 1 A.data n b.data n (by omega) (by omega) (by rw [hA.len]) (by omega) hdiag
    refine ⟨⟨n, 1, z⟩, fun i => el z n i 0, ?_, (is_of_el (f := fun i _ => el z n i 0) (by omega) fun i hi j hj => by
      rw [show j = 0 by omega]).colRepr_of fun _ => rfl, ?_⟩
    · simp only [substV, hA.rows, hb.is.hm, hb.is.hn, h1, Option.bind_eq_bind, Option.bind_some, Mat.newColumn]
      rw [if_pos (by omega), new_of_len (by omega)]
    · funext i
      have := h3 i i.2 0 (by omega)
      rw [hsum (fun l => el z n l 0), one_mul, el_of_is hb.is i.2 (by omega), extV_apply] at this
      exact this
  · have hcl : c.data.length = n * q := hc.len
    obtain ⟨z, h1, h2, h3⟩ := B.trsm_lower n q 1 A.data n c.data n (by omega) (by omega) (by rw [hA.len]) (by omega) hdiag
    refine ⟨⟨n, q, z⟩, mx n q (fun i j => el z n i j), ?_, (is_of_el (f := fun i j => el z n i j) (by omega)
      fun i hi j hj => rfl).repr, ?_⟩
    · simp only [substM, hA.rows, hc.rows, hc.cols, h1, Option.bind_eq_bind, Option.bind_some]
    · ext i j
      have := h3 i i.2 j j.2
      rw [hsum (fun l => el z n l j), one_mul, el_of_is hc.is i.2 j.2, extM_apply] at this
      rw [mul_apply]
      exact this

example (B : Blas ℚ) : ∃ v x, substV B 'L' ⟨2, 2, [2, 3, 0, 5]⟩ ⟨2, 1, [2, 13]⟩ = some v ∧ ColRepr v x ∧
    (!![2, 0; 3, 5] : Matrix (Fin 2) (Fin 2) ℚ) *ᵥ x = ![2, 13] :=
  (C93_forward B (n := 2) (q := 0) (by omega) (c := ⟨2, 0, []⟩) (Y := fun _ j => j.elim0)
    ⟨rfl, rfl, rfl, by decide +kernel⟩ (by unfold ColRepr; decide +kernel) ⟨rfl, rfl, rfl, fun _ j => j.elim0⟩
    (by intro i j h; fin_cases i <;> fin_cases j <;> first | rfl | simp at h) (by decide +kernel)).1

/-- C93: backward substitution solves with the upper triangle of a matrix without zero on its diagonal. -/
theorem C93_backward (B : Blas K) {n q : Nat} (hn : n ≠ 0) {A b c : Mat K} {T : Matrix (Fin n) (Fin n) K} {y : Fin n → K}
    {Y : Matrix (Fin n) (Fin q) K} (hA : Repr A T) (hb : ColRepr b y) (hc : Repr c Y) (hup : ∀ i j, j < i → T i j = 0)
    (hd : ∀ i, T i i ≠ 0) :
    (∃ v x, substV B 'U' A b = some v ∧ ColRepr v x ∧ T *ᵥ x = y) ∧
    ∃ v X, substM B 'U' A c = some v ∧ Repr v X ∧ T * X = Y := by
  have hdiag : ∀ i < n, el A.data n i i ≠ 0 := fun i hi => by
    rw [el_of_is hA.is hi hi, extM_lt T hi hi]; exact hd _
  have hsum : ∀ (x : Nat → K) (i : Fin n), ∑ l ∈ Ico (i : ℕ) n, el A.data n i l * x l = ∑ l : Fin n, T i l * x l := by
    intro x i
    have : ∀ l ∈ Ico (i : ℕ) n, el A.data n i l * x l = extM T i l * x l := fun l hl => by
      rw [mem_Ico] at hl
      rw [el_of_is hA.is i.2 (by omega)]
    rw [sum_congr rfl this]
    have hz : ∑ l : Fin n, T i l * x l = ∑ l ∈ range n, extM T i l * x l := by
      rw [← Fin.sum_univ_eq_sum_range (fun l => extM T i l * x l)]
      simp only [extM_apply]
    rw [hz, range_eq_Ico, ← sum_Ico_consecutive _ (Nat.zero_le i) i.2.le, sum_eq_zero (s := Ico 0 (i : ℕ)), zero_add]
    intro l hl
    rw [mem_Ico] at hl
    rw [extM_lt T i.2 (by omega), hup _ _ (by rw [Fin.lt_def]; exact hl.2), zero_mul]
  constructor
  · have hbl : b.data.length = n * 1 := hb.is.hlen
    obtain ⟨z, h1, h2, h3⟩ := B.trsm_upper n 1 1 A.data n b.data n (by omega) (by omega) (by rw [hA.len]) (by omega) hdiag
    refine ⟨⟨n, 1, z⟩, fun i => el z n i 0, ?_, (is_of_el (f := fun i _ => el z n i 0) (by omega) fun i hi j hj => by
      rw [show j = 0 by omega]).colRepr_of fun _ => rfl, ?_⟩
    · simp only [substV, hA.rows, hb.is.hm, hb.is.hn, h1, Option.bind_eq_bind, Option.bind_some, Mat.newColumn]
      rw [if_pos (by omega), new_of_len (by omega)]
    · funext i
      have := h3 i i.2 0 (by omega)
      rw [hsum (fun l => el z n l 0), one_mul, el_of_is hb.is i.2 (by omega), extV_apply] at this
      exact this
  · have hcl : c.data.length = n * q := hc.len
    obtain ⟨z, h1, h2, h3⟩ := B.trsm_upper n q 1 A.data n c.data n (by omega) (by omega) (by rw [hA.len]) (by omega) hdiag
    refine ⟨⟨n, q, z⟩, mx n q (fun i j => el z n i j), ?_, (is_of_el (f := fun i j => el z n i j) (by omega)
      fun i hi j hj => rfl).repr, ?_⟩
    · simp only [substM, hA.rows, hc.rows, hc.cols, h1, Option.bind_eq_bind, Option.bind_some]
    · ext i j
      have := h3 i i.2 j j.2
      rw [hsum (fun l => el z n l j), one_mul, el_of_is hc.is i.2 j.2, extM_apply] at this
      rw [mul_apply]
      exact this

example (B : Blas ℚ) : ∃ v x, substV B 'U' ⟨2, 2, [2, 0, 3, 5]⟩ ⟨2, 1, [13, 5]⟩ = some v ∧ ColRepr v x ∧
    (!![2, 3; 0, 5] : Matrix (Fin 2) (Fin 2) ℚ) *ᵥ x = ![13, 5] :=
  (C93_backward B (n := 2) (q := 0) (by omega) (c := ⟨2, 0, []⟩) (Y := fun _ j => j.elim0)
    ⟨rfl, rfl, rfl, by decide +kernel⟩ (by unfold ColRepr; decide +kernel) ⟨rfl, rfl, rfl, fun _ j => j.elim0⟩
    (by intro i j h; fin_cases i <;> fin_cases j <;> first | rfl | simp at h) (by decide +kernel)).1

/-! ## C94 LU decomposition, determinant, solve, inverse -/

/-- what `xgetrf` returns for a square matrix -/
theorem getrf_square (P : LapackLU K) {n : Nat} (hn : n ≠ 0) {A : Mat K} {M : Matrix (Fin n) (Fin n) K} (hA : Repr A M) :
    ∃ f p info, ∃ σ : Equiv.Perm (Fin n), P.getrf n n A.data n = (f, p, info) ∧ f.length = n * n ∧ p.length = n ∧
      (∀ i < n, (i : ℤ) + 1 ≤ p.getD i 0 ∧ p.getD i 0 ≤ n) ∧ (∀ i : Fin n, pivPerm p n i = σ i) ∧
      σ.permMatrix K * M = mx n n (lowOf f n) * mx n n (uppOf f n) ∧ 0 ≤ info ∧ (info = 0 ↔ M.det ≠ 0) ∧
      (info = 0 ↔ ∀ k < n, el f n k k ≠ 0) := by
  obtain ⟨f, p, info, h1, h2, h3, h4, h5, h6, h7, h8⟩ := P.getrf_doc n n A.data n (by omega) (by rw [hA.len])
  rw [min_self] at h3 h4 h5 h7
  obtain ⟨σ, hσ⟩ := pivPerm_fin n le_rfl h4
  have hmul : σ.permMatrix K * M = mx n n (lowOf f n) * mx n n (uppOf f n) := by
    ext i j
    have := h5 i i.2 j j.2
    rw [hσ, el_of_is hA.is (σ i).2 j.2, extM_apply, ← Fin.sum_univ_eq_sum_range
      (fun k => lowOf f n i k * uppOf f n k j)] at this
    rw [permMatrix_mul_apply, this, mul_apply]
    rfl
  refine ⟨f, p, info, σ, h1, by rw [h2, hA.len], h3, h4, hσ, hmul, h6, ?_, h7⟩
  have hdet := det_of_lu (L := mx n n (lowOf f n)) (U := mx n n (uppOf f n)) (fun i => by simp [lowOf])
    (fun i j hij => by
      rw [Fin.lt_def] at hij
      simp only [mx_apply, lowOf, if_neg (show ¬ (j : ℕ) < i by omega), if_neg (show ¬ (j : ℕ) = i by omega)])
    (fun i j hij => by
      rw [Fin.lt_def] at hij
      simp only [mx_apply, uppOf, if_neg (show ¬ (i : ℕ) ≤ j by omega)]) hmul
  rw [h7]
  have hs : ((Equiv.Perm.sign σ : ℤ) : K) ≠ 0 := by
    intro h
    have := sign_sq (K := K) σ
    rw [h, zero_mul] at this
    exact zero_ne_one this
  constructor
  · intro h hz
    rw [hz, mul_zero] at hdet
    obtain ⟨i, _, hi⟩ := prod_eq_zero_iff.1 hdet.symm
    exact h i i.2 (by simpa [uppOf] using hi)
  · intro h k hk hz
    have : ∏ i, mx n n (uppOf f n) i i = 0 := prod_eq_zero (mem_univ ⟨k, hk⟩) (by simpa [uppOf] using hz)
    rw [this] at hdet
    exact (mul_ne_zero hs h) hdet

/-- C94: `dec_lu` of a regular matrix returns `P A = L U` with a permutation matrix, a unit lower and an upper triangular
    matrix; of a singular matrix it returns an error. -/
theorem C94_lu (P : LapackLU K) {n : Nat} (hn : n ≠ 0) {A : Mat K} {M : Matrix (Fin n) (Fin n) K} (hA : Repr A M) :
    (M.det ≠ 0 → ∃ l u p, ∃ L U : Matrix (Fin n) (Fin n) K, ∃ σ : Equiv.Perm (Fin n),
      decLU P A = some (.ok (l, u, p)) ∧ Repr l L ∧ Repr u U ∧ Repr p (σ.permMatrix K) ∧
      (∀ i, L i i = 1) ∧ (∀ i j, i < j → L i j = 0) ∧ (∀ i j, j < i → U i j = 0) ∧ σ.permMatrix K * M = L * U) ∧
    (M.det = 0 → decLU P A = some (.error ())) := by
  obtain ⟨f, p, info, σ, h1, h2, h3, h4, h5, h6, h7, h8, h9⟩ := getrf_square P hn hA
  constructor
  · intro hd
    have hi : info = 0 := h8.2 hd
    have hF : (⟨n, n, f⟩ : Mat K).Is n n (fun i j => el f n i j) := is_of_el h2 fun _ _ _ _ => rfl
    obtain ⟨l, l1, l2⟩ := luL_is hF
    obtain ⟨u, u1, u2⟩ := luU_is hF
    obtain ⟨q, q1, q2⟩ := luP_is (K := K) hn h3 h4 h5
    refine ⟨l, u, q, mx n n (lowOf f n), mx n n (uppOf f n), σ, ?_, l2.repr_of fun i j => rfl, u2.repr_of fun i j => rfl, q2,
      fun i => by simp [lowOf], fun i j hij => ?_, fun i j hij => ?_, h6⟩
    · simp only [decLU, hA.rows, hA.cols, if_true, h1, hi, ne_eq, not_true_eq_false, if_false, new_of_len h2,
        Option.bind_eq_bind, Option.bind_some, l1, u1, q1]
    · rw [Fin.lt_def] at hij
      simp only [mx_apply, lowOf, if_neg (show ¬ (j : ℕ) < i by omega), if_neg (show ¬ (j : ℕ) = i by omega)]
    · rw [Fin.lt_def] at hij
      simp only [mx_apply, uppOf, if_neg (show ¬ (i : ℕ) ≤ j by omega)]
  · intro hd
    have hi : info ≠ 0 := fun h => h8.1 h hd
    simp only [decLU, hA.rows, hA.cols, if_true, h1, ne_eq, hi, not_false_eq_true]

example (P : LapackLU ℚ) : decLU P ⟨2, 2, [1, 2, 2, 4]⟩ = some (.error ()) :=
  (C94_lu P (by omega) (M := !![1, 2; 2, 4]) ⟨rfl, rfl, rfl, by decide +kernel⟩).2 (by rw [det_fin_two]; decide +kernel)

/-- C94: a matrix that is not square panics, the empty matrix is an error. -/
theorem C94_shape (P : LapackLU K) (A : Mat K) :
    (A.m ≠ A.n → decLU P A = none) ∧ (A.m = 0 → A.n = 0 → decLU P A = some (.error ())) := by
  refine ⟨fun h => by simp only [decLU, if_neg h], fun h1 h2 => ?_⟩
  have := P.getrf_arg 0 0 A.data 0 (by simp)
  simp [decLU, h1, h2, this]

example (P : LapackLU ℚ) : decLU P ⟨1, 2, [1, 2]⟩ = none := (C94_shape P _).1 (by decide)

/-- C94: `inv` returns the inverse of a regular matrix and an error for a singular one. -/
theorem C94_inv (P : LapackLU K) {n : Nat} (hn : n ≠ 0) {A : Mat K} {M : Matrix (Fin n) (Fin n) K} (hA : Repr A M) :
    (M.det ≠ 0 → ∃ v X, inv P A = some (.ok v) ∧ Repr v X ∧ M * X = 1 ∧ X * M = 1) ∧
    (M.det = 0 → inv P A = some (.error ())) := by
  obtain ⟨At, t1, t2⟩ := C05_transpose_partial (fun _ => 0) hA (Or.inl rfl) (by omega)
  obtain ⟨f, p, info, σ, h1, h2, h3, h4, h5, h6, h7, h8, h9⟩ := getrf_square P hn t2
  rw [det_transpose] at h8
  have t1' : A.transpose = some At := t1
  constructor
  · intro hd
    have hi : info = 0 := h8.2 hd
    obtain ⟨x, x1, x2, x3⟩ := P.getri_doc n f n p (by omega) (by omega) h3 h4 (h9.1 hi)
    have hX : Repr (⟨n, n, x⟩ : Mat K) (mx n n (el x n)) := (is_of_el (by omega) fun _ _ _ _ => rfl).repr
    obtain ⟨Y, y1, y2⟩ := C05_transpose_partial (fun _ => 0) hX (Or.inl rfl) (by omega)
    have y1' : (⟨n, n, x⟩ : Mat K).transpose = some Y := y1
    have key : Mᵀ * mx n n (el x n) = 1 := by
      apply permMatrix_mul_cancel σ
      rw [← Matrix.mul_assoc, h6, Matrix.mul_one]
      ext i j
      have := x3 i i.2 j j.2
      rw [← Fin.sum_univ_eq_sum_range (fun k => (∑ l ∈ range n, lowOf f n i l * uppOf f n l k) * el x n k j)] at this
      simp only [← Fin.sum_univ_eq_sum_range (fun l => lowOf f n i l * uppOf f n l _)] at this
      rw [mul_apply]
      simp only [mul_apply, mx_apply]
      rw [this, h5 i]
      simp only [Equiv.Perm.permMatrix, PEquiv.toMatrix_apply, Equiv.toPEquiv_apply, Option.mem_some_iff]
      exact if_congr ⟨fun h => Fin.ext h, fun h => by rw [h]⟩ rfl rfl
    refine ⟨Y, (mx n n (el x n))ᵀ, ?_, y2, ?_, ?_⟩
    · simp only [inv, hA.rows, hA.cols, t1', h1, hi, ne_eq, not_true_eq_false, if_false, x1, new_of_len (x2.trans h2), y1',
        Option.bind_eq_bind, Option.bind_some]
    · rw [← Matrix.transpose_transpose M, ← Matrix.transpose_mul, mul_eq_one_comm.1 key, transpose_one]
    · rw [← Matrix.transpose_transpose M, ← Matrix.transpose_mul, key, transpose_one]
  · intro hd
    have hi : info ≠ 0 := fun h => h8.1 h hd
    simp only [inv, hA.rows, hA.cols, t1', h1, ne_eq, hi, not_false_eq_true, if_true, Option.bind_eq_bind, Option.bind_some]

example (P : LapackLU ℚ) : ∃ v, inv P ⟨2, 2, [0, -1, 1, 0]⟩ = some (.ok v) ∧ Repr v !![0, -1; 1, 0] := by
  obtain ⟨v, X, h1, h2, h3, h4⟩ := (C94_inv P (by omega) (A := ⟨2, 2, [0, -1, 1, 0]⟩) (M := !![0, 1; -1, 0])
    ⟨rfl, rfl, rfl, by decide +kernel⟩).1 (by rw [det_fin_two]; decide +kernel)
  have e : X = !![0, -1; 1, 0] := by
    have h5 : (!![0, 1; -1, 0] : Matrix (Fin 2) (Fin 2) ℚ) * !![0, -1; 1, 0] = 1 := by decide +kernel
    rw [← Matrix.one_mul !![0, -1; 1, 0], ← h4, Matrix.mul_assoc, h5, Matrix.mul_one]
  exact ⟨v, h1, e ▸ h2⟩

/-- C94: `solve` with a column vector returns the solution of a regular system. -/
theorem C94_solve_vector (P : LapackLU K) {n : Nat} (hn : n ≠ 0) {A b : Mat K} {M : Matrix (Fin n) (Fin n) K}
    {y : Fin n → K} (hA : Repr A M) (hb : ColRepr b y) (hd : M.det ≠ 0) :
    ∃ v x, solveV P A b = some (.ok v) ∧ ColRepr v x ∧ M *ᵥ x = y := by
  obtain ⟨f, p, info, σ, h1, h2, h3, h4, h5, h6, h7, h8, h9⟩ := getrf_square P hn hA
  have hi : info = 0 := h8.2 hd
  have hbl : b.data.length = n * 1 := hb.is.hlen
  obtain ⟨s1, s2⟩ := P.getrs_doc n 1 f n p b.data n (by omega) (by omega) (by omega) (by omega) h3 h4
  obtain ⟨x, x1, x2, x3⟩ := s2 (h9.1 hi)
  refine ⟨⟨n, 1, x⟩, fun i => el x n i 0, ?_, (is_of_el (f := fun i _ => el x n i 0) (by omega) fun i hi j hj => by
      rw [show j = 0 by omega]).colRepr_of fun _ => rfl, ?_⟩
  · simp only [solveV, hA.rows, hA.cols, hb.is.hm, h1, hi, lt_irrefl, if_false, s1, x1, ne_eq, not_true_eq_false,
      Option.bind_eq_bind, Option.bind_some, Mat.newColumn]
    rw [if_pos (by omega), new_of_len (by omega)]
    rfl
  · have key : σ.permMatrix K * (M * mx n 1 (el x n)) = σ.permMatrix K * mx n 1 (fun i _ => extV y i) := by
      rw [← Matrix.mul_assoc, h6]
      ext i j
      have := x3 i i.2 j j.2
      rw [← Fin.sum_univ_eq_sum_range (fun k => (∑ l ∈ range n, lowOf f n i l * uppOf f n l k) * el x n k j)] at this
      simp only [← Fin.sum_univ_eq_sum_range (fun l => lowOf f n i l * uppOf f n l _)] at this
      rw [permMatrix_mul_apply, mul_apply]
      simp only [mul_apply, mx_apply]
      rw [this, h5 i, el_of_is hb.is (σ i).2 j.2]
    funext i
    have := congrFun (congrFun (permMatrix_mul_cancel σ key) i) 0
    rw [mul_apply] at this
    simpa [mulVec, dotProduct, extV_apply] using this

example (P : LapackLU ℚ) : ∃ v x, solveV P ⟨2, 2, [0, -1, 1, 0]⟩ ⟨2, 1, [1, 1]⟩ = some (.ok v) ∧ ColRepr v x ∧
    (!![0, 1; -1, 0] : Matrix (Fin 2) (Fin 2) ℚ) *ᵥ x = ![1, 1] :=
  C94_solve_vector P (by omega) ⟨rfl, rfl, rfl, by decide +kernel⟩ (by unfold ColRepr; decide +kernel)
    (by rw [det_fin_two]; decide +kernel)

/-- C94 is false for singular matrices: `solve` does not report an error for a singular system (only a negative `info` of
    `xgetrf` is checked), whatever the right-hand side. -/
theorem C94_singular_violated (P : LapackLU K) {n : Nat} (hn : n ≠ 0) {A b : Mat K} {M : Matrix (Fin n) (Fin n) K}
    {y : Fin n → K} (hA : Repr A M) (hb : ColRepr b y) (_hd : M.det = 0) : solveV P A b ≠ some (.error ()) := by
  obtain ⟨f, p, info, σ, h1, h2, h3, h4, h5, h6, h7, h8, h9⟩ := getrf_square P hn hA
  have hbl : b.data.length = n * 1 := hb.is.hlen
  obtain ⟨s1, _⟩ := P.getrs_doc n 1 f n p b.data n (by omega) (by omega) (by omega) (by omega) h3 h4
  simp only [solveV, hA.rows, hA.cols, hb.is.hm, h1, if_neg (not_lt.2 h7), s1, ne_eq, not_true_eq_false, if_false,
    Option.bind_eq_bind]
  intro h
  obtain ⟨x, _, h⟩ := Option.bind_eq_some_iff.1 h
  obtain ⟨v, _, h⟩ := Option.bind_eq_some_iff.1 h
  cases h

/-- C94, partial: `solve` with a square matrix on the right-hand side returns the solution of a regular system.  For other
    right-hand sides see `C94_solve_matrix_violated`. -/
theorem C94_solve_matrix_partial (P : LapackLU K) {n : Nat} (hn : n ≠ 0) {A b : Mat K} {M Y : Matrix (Fin n) (Fin n) K}
    (hA : Repr A M) (hb : Repr b Y) (hd : M.det ≠ 0) :
    ∃ v X, solveM P A b = some (.ok v) ∧ Repr v X ∧ M * X = Y := by
  obtain ⟨f, p, info, σ, h1, h2, h3, h4, h5, h6, h7, h8, h9⟩ := getrf_square P hn hA
  have hi : info = 0 := h8.2 hd
  have hbl : b.data.length = n * n := hb.len
  obtain ⟨s1, s2⟩ := P.getrs_doc n n f n p b.data n (by omega) (by omega) (by omega) (by omega) h3 h4
  obtain ⟨x, x1, x2, x3⟩ := s2 (h9.1 hi)
  refine ⟨⟨n, n, x⟩, mx n n (el x n), ?_, (is_of_el (by omega) fun _ _ _ _ => rfl).repr, ?_⟩
  · simp only [solveM, hA.rows, hA.cols, hb.rows, hb.cols, h1, hi, lt_irrefl, if_false, s1, x1, ne_eq, not_true_eq_false,
      Option.bind_eq_bind, Option.bind_some, new_of_len (x2.trans hbl)]
  · apply permMatrix_mul_cancel σ
    rw [← Matrix.mul_assoc, h6]
    ext i j
    have := x3 i i.2 j j.2
    rw [← Fin.sum_univ_eq_sum_range (fun k => (∑ l ∈ range n, lowOf f n i l * uppOf f n l k) * el x n k j)] at this
    simp only [← Fin.sum_univ_eq_sum_range (fun l => lowOf f n i l * uppOf f n l _)] at this
    rw [permMatrix_mul_apply, mul_apply]
    simp only [mul_apply, mx_apply]
    rw [this, h5 i, el_of_is hb.is (σ i).2 j.2, extM_apply]

/-- C94 is false for right-hand sides with fewer columns than rows: every system, regular or not, is refused with an error,
    because the number of columns is passed as leading dimension.  (With more columns than rows the routine is told to
    access memory beyond the buffer.) -/
theorem C94_solve_matrix_violated (P : LapackLU K) {n q : Nat} (hq : q < n) {A b : Mat K} {M : Matrix (Fin n) (Fin n) K}
    {Y : Matrix (Fin n) (Fin q) K} (hA : Repr A M) (hb : Repr b Y) : solveM P A b = some (.error ()) := by
  obtain ⟨f, p, info, σ, h1, h2, h3, h4, h5, h6, h7, h8, h9⟩ := getrf_square P (by omega) hA
  have := P.getrs_ldb n q f n p b.data q (by omega) (by omega)
  simp only [solveM, hA.rows, hA.cols, hb.cols, h1, if_neg (not_lt.2 h7), this, ne_eq]
  rfl

example (P : LapackLU ℚ) : solveM P ⟨2, 2, [1, 0, 0, 1]⟩ ⟨2, 1, [1, 1]⟩ = some (.error ()) :=
  C94_solve_matrix_violated P (by omega) (M := 1) (Y := !![1; 1]) ⟨rfl, rfl, rfl, by decide +kernel⟩
    ⟨rfl, rfl, rfl, by decide +kernel⟩

section Det
variable {K : Type} [Field K] [LinearOrder K]

theorem det_lapack_of_lu (P : LapackLU K) {n : Nat} {A l u p : Mat K} {M U : Matrix (Fin n) (Fin n) K}
    {σ : Equiv.Perm (Fin n)} (hA : Repr A M) (h1 : n ≠ 1) (h2 : n ≠ 2) (e1 : decLU P A = some (.ok (l, u, p)))
    (e3 : Repr u U) (e4 : Repr p (σ.permMatrix K)) : det P A = some (codeSign σ * ∏ i, U i i) := by
  obtain ⟨d1, d2⟩ := hA.dims
  have p1 := prodLoop (n := n) (fun i => extM U i i) (fun (d : K) i => do
        let x ← u.get i i
        some (d * x)) 1 (by
      intro s k hk
      rw [e3.is.get hk hk]; rfl)
  have hcnt : forRange 0 n (fun (c : Nat) i => do
        let x ← p.get i i
        some (if x ≠ 1 then c + 1 else c)) 0 = some σ.support.card := by
    obtain ⟨c, q1, q2⟩ := forRange_inv (a := 0) (b := n) (s := 0) (f := fun (c : Nat) i => do
        let x ← p.get i i
        some (if x ≠ 1 then c + 1 else c))
      (fun k c => c = (σ.support.filter (fun i : Fin n => (i : Nat) < k)).card) (by omega) (by simp) (by
        intro i c _ hi h
        refine ⟨if extM (σ.permMatrix K) i i ≠ 1 then c + 1 else c, by rw [e4.is.get hi hi]; rfl, ?_⟩
        rw [extM_lt _ hi hi]
        have hval : (σ.permMatrix K) ⟨i, hi⟩ ⟨i, hi⟩ ≠ 1 ↔ (⟨i, hi⟩ : Fin n) ∈ σ.support := by
          rw [Equiv.Perm.mem_support]
          simp only [Equiv.Perm.permMatrix, PEquiv.toMatrix_apply, Equiv.toPEquiv_apply, Option.mem_some_iff]
          by_cases hs : σ ⟨i, hi⟩ = ⟨i, hi⟩ <;> simp [hs]
        by_cases hm : (⟨i, hi⟩ : Fin n) ∈ σ.support
        · rw [if_pos (hval.2 hm), h]
          have : σ.support.filter (fun j : Fin n => (j : Nat) < i + 1) =
              insert ⟨i, hi⟩ (σ.support.filter (fun j : Fin n => (j : Nat) < i)) := by
            ext j
            simp only [Finset.mem_filter, Finset.mem_insert]
            constructor
            · rintro ⟨q1, q2⟩
              by_cases e : (j : Nat) = i
              · left; exact Fin.ext e
              · right; exact ⟨q1, by omega⟩
            · rintro (rfl | ⟨q1, q2⟩)
              · exact ⟨hm, by simp⟩
              · exact ⟨q1, by omega⟩
          rw [this, Finset.card_insert_of_notMem (by simp)]
        · rw [if_neg (fun hh => hm (hval.1 hh)), h]
          congr 1
          ext j
          simp only [Finset.mem_filter]
          constructor
          · rintro ⟨q1, q2⟩; exact ⟨q1, by omega⟩
          · rintro ⟨q1, q2⟩
            refine ⟨q1, ?_⟩
            by_contra hc
            have : j = ⟨i, hi⟩ := Fin.ext (by simp; omega)
            exact hm (this ▸ q1))
    rw [q1, q2]
    congr 2
    ext j; simp
  simp only [det, d1, d2, h1, h2, if_true, if_false, e1, Option.bind_eq_bind, Option.bind_some] at p1 hcnt ⊢
  rw [p1]
  simp only [Option.bind_some]
  rw [hcnt]
  simp only [Option.bind_some, codeSign, one_mul, Option.some.injEq]
  congr 1
  rw [← Fin.prod_univ_eq_prod_range (fun i => extM U i i)]
  simp only [extM_apply]

/-- C94: `det` is right up to the sign for every matrix, 0 exactly for the singular matrices, and right for the sizes 1, 2
    and 3. -/
theorem C94_det_partial (P : LapackLU K) {n : Nat} (hn : n ≠ 0) {A : Mat K} {M : Matrix (Fin n) (Fin n) K}
    (hA : Repr A M) : ∃ d, det P A = some d ∧ (d = M.det ∨ d = - M.det) ∧ (n ≤ 3 → d = M.det) := by
  obtain ⟨d1, d2⟩ := hA.dims
  by_cases h1 : n = 1
  · subst h1
    refine ⟨M 0 0, ?_, ?_, ?_⟩
    · simp only [det, d1, d2, if_true]
      rw [hA.is.get (by omega) (by omega)]
      exact congrArg some (extM_apply M 0 0)
    · simp
    · simp
  by_cases h2 : n = 2
  · subst h2
    refine ⟨M 0 0 * M 1 1 - M 0 1 * M 1 0, ?_, Or.inl (det_fin_two M).symm, fun _ => (det_fin_two M).symm⟩
    simp only [det, d1, d2, if_true, if_neg (show ¬ (2 : ℕ) = 1 by omega)]
    rw [hA.is.get (by omega) (by omega), hA.is.get (by omega) (by omega), hA.is.get (by omega) (by omega),
      hA.is.get (by omega) (by omega)]
    simp only [Option.bind_eq_bind, Option.bind_some]
    rw [extM_lt M (by omega) (by omega), extM_lt M (by omega) (by omega), extM_lt M (by omega) (by omega),
      extM_lt M (by omega) (by omega)]
    rfl
  by_cases hd : M.det = 0
  · refine ⟨0, ?_, Or.inl hd.symm, fun _ => hd.symm⟩
    simp only [det, d1, d2, h1, h2, if_true, if_false, (C94_lu P hn hA).2 hd, Option.bind_eq_bind, Option.bind_some]
  · obtain ⟨l, u, p, L, U, σ, e1, e2, e3, e4, e5, e6, e7, e8⟩ := (C94_lu P hn hA).1 hd
    refine ⟨_, det_lapack_of_lu P hA h1 h2 e1 e3 e4, ?_, fun h3 => ?_⟩
    · rw [← det_of_lu e5 e6 e7 e8, ← mul_assoc]
      have hs : (codeSign σ * ((Equiv.Perm.sign σ : ℤ) : K)) * (codeSign σ * ((Equiv.Perm.sign σ : ℤ) : K)) = 1 := by
        rw [mul_mul_mul_comm, codeSign_sq, sign_sq, one_mul]
      rcases mul_self_eq_one_iff.1 hs with h | h
      · exact Or.inl (by rw [h, one_mul])
      · exact Or.inr (by rw [h, neg_one_mul])
    · obtain rfl : n = 3 := by omega
      rw [← det_of_lu e5 e6 e7 e8, ← mul_assoc]
      have : (codeSign σ : K) = ((Equiv.Perm.sign σ : ℤ) : K) := by
        rw [sign_fin_three, codeSign]
        split <;> simp
      rw [this, sign_sq, one_mul]

example (P : LapackLU ℚ) : det P ⟨3, 3, [0, -1, 0, 1, 0, 0, 0, 0, 1]⟩ = some 1 := by
  obtain ⟨d, h1, _, h2⟩ := C94_det_partial P (by omega) (M := !![0, 1, 0; -1, 0, 0; 0, 0, 1])
    (A := ⟨3, 3, [0, -1, 0, 1, 0, 0, 0, 0, 1]⟩) ⟨rfl, rfl, rfl, by decide +kernel⟩
  rw [h1, h2 le_rfl]
  simp [det_fin_three]

omit [LinearOrder K] in
/-- a permutation matrix that is the product of a unit lower and an upper triangular matrix is the identity -/
theorem perm_of_lu {n : Nat} (π : Equiv.Perm (Fin n)) {L U : Matrix (Fin n) (Fin n) K} (h1 : ∀ i, L i i = 1)
    (h2 : ∀ i j, i < j → L i j = 0) (h3 : ∀ i j, j < i → U i j = 0) (h : π.permMatrix K = L * U) : π = 1 := by
  have hent : ∀ i j, (L * U) i j = if π i = j then 1 else 0 := fun i j => by
    rw [← h]
    simp only [Equiv.Perm.permMatrix, PEquiv.toMatrix_apply, Equiv.toPEquiv_apply, Option.mem_some_iff]
  have hu : ∀ i, U i i ≠ 0 := by
    intro i hi
    have hd := det_of_lu (σ := (1 : Equiv.Perm (Fin n))) (M := π.permMatrix K) h1 h2 h3 (by
      ext i j
      rw [permMatrix_mul_apply, h]
      rfl)
    rw [prod_eq_zero (f := fun i => U i i) (mem_univ i) hi, det_permutation] at hd
    have h' := sign_sq (K := K) π
    simp only [Equiv.Perm.sign_one, Units.val_one, Int.cast_one, one_mul] at hd
    rw [hd, zero_mul] at h'
    exact zero_ne_one h'
  have key : ∀ m : Nat, ∀ i : Fin n, (i : ℕ) = m → π i = i ∧ ∀ r, i < r → L r i = 0 := by
    intro m
    induction m using Nat.strong_induction_on with
    | _ m ih =>
      intro i hi
      have hsum : ∀ r, i ≤ r → (L * U) r i = L r i * U i i := by
        intro r hr
        rw [mul_apply, sum_eq_single i]
        · intro k _ hk
          rcases lt_or_gt_of_ne hk with hk | hk
          · rw [(ih k (by rw [Fin.lt_def] at hk; omega) k rfl).2 r (lt_of_lt_of_le hk hr), zero_mul]
          · rw [h3 _ _ hk, mul_zero]
        · simp
      have hi1 : π i = i := by
        have := hsum i le_rfl
        rw [hent, h1, one_mul] at this
        by_contra hne
        rw [if_neg hne] at this
        exact hu i this.symm
      refine ⟨hi1, fun r hr => ?_⟩
      have := hsum r hr.le
      rw [hent, if_neg (fun e => (ne_of_gt hr) (π.injective (e.trans hi1.symm)))] at this
      exact (mul_eq_zero.1 this.symm).resolve_right (hu i)
  ext i
  rw [(key i i rfl).1]
  rfl

/-- what `det` returns for a permutation matrix, whatever the LAPACK: it only depends on the number of moved points. -/
theorem C94_det_permutation (P : LapackLU K) {n : Nat} (hn : 3 ≤ n) {A : Mat K} (τ : Equiv.Perm (Fin n))
    (hA : Repr A (τ.permMatrix K)) : det P A = some (codeSign τ) := by
  have hd : (τ.permMatrix K).det ≠ 0 := by
    rw [det_permutation]
    intro h
    have h' := sign_sq (K := K) τ
    rw [h, zero_mul] at h'
    exact zero_ne_one h'
  obtain ⟨l, u, p, L, U, σ, e1, e2, e3, e4, e5, e6, e7, e8⟩ := (C94_lu P (by omega) hA).1 hd
  rw [det_lapack_of_lu P hA (by omega) (by omega) e1 e3 e4]
  have e9 : (τ * σ).permMatrix K = L * U := by
    rw [← e8]
    ext i j
    rw [permMatrix_mul_apply]
    rfl
  have h1 := perm_of_lu (τ * σ) e5 e6 e7 e9
  rw [h1] at e9
  have hprod := det_of_lu (σ := (1 : Equiv.Perm (Fin n))) (M := (1 : Matrix (Fin n) (Fin n) K)) e5 e6 e7 (by
    rw [Matrix.mul_one]; exact e9)
  rw [← hprod, eq_inv_of_mul_eq_one_right h1]
  simp [codeSign]

end Det

/-- C94 is false from size 4 on: for two disjoint row swaps, determinant 1, `det` returns -1 with every LAPACK. -/
theorem C94_det_violated (P : LapackLU ℚ) : ∃ (A : Mat ℚ) (M : Matrix (Fin 4) (Fin 4) ℚ), Repr A M ∧
    det P A = some (-1) ∧ M.det = 1 := by
  have hA : Repr (⟨4, 4, [0, 1, 0, 0, 1, 0, 0, 0, 0, 0, 0, 1, 0, 0, 1, 0]⟩ : Mat ℚ)
      ((Equiv.swap (0 : Fin 4) 1 * Equiv.swap 2 3).permMatrix ℚ) := ⟨rfl, rfl, rfl, by decide +kernel⟩
  refine ⟨_, _, hA, ?_, ?_⟩
  · rw [C94_det_permutation P (by omega) _ hA]
    have : (Equiv.swap (0 : Fin 4) 1 * Equiv.swap 2 3).support.card = 4 := by decide
    simp [codeSign, this]
    norm_num
  · rw [det_permutation]
    have : Equiv.Perm.sign (Equiv.swap (0 : Fin 4) 1 * Equiv.swap 2 3) = 1 := by decide
    rw [this]; simp

end Lapack
end Verif
