import Verif.SubstLemmas
import Verif.MatProps
import Mathlib.GroupTheory.Perm.Sign
import Mathlib.GroupTheory.Perm.Cycle.Type
import Mathlib.LinearAlgebra.Matrix.Determinant.Basic
import Mathlib.Tactic.FinCases

/-!
# Properties of LU decomposition, determinant, solve, inverse and substitution: C10 to C14
-/

namespace Verif
open Matrix
variable {K : Type} [Field K] [LinearOrder K]

/-! ## C14 triangular substitution -/

omit [LinearOrder K] in
theorem lower_sum (f : Nat → Nat → K) (y : Nat → K) {n k : Nat} (hk : k < n)
    (h : ∀ l, k < l → l < n → f k l = 0) :
    ∑ l ∈ Finset.range n, f k l * y l = ∑ l ∈ Finset.range k, f k l * y l + f k k * y k := by
  obtain ⟨d, rfl⟩ : ∃ d, n = (k + 1) + d := ⟨n - k - 1, by omega⟩
  rw [Finset.sum_range_add, Finset.sum_range_succ, Finset.sum_eq_zero (s := Finset.range d), add_zero]
  intro l hl
  have := Finset.mem_range.1 hl
  rw [h _ (by omega) (by omega), zero_mul]

omit [LinearOrder K] in
theorem upper_sum (f : Nat → Nat → K) (y : Nat → K) {n k : Nat} (hk : k < n)
    (h : ∀ l, l < k → f k l = 0) :
    ∑ l ∈ Finset.range n, f k l * y l = f k k * y k + ∑ l ∈ Finset.Ico (k + 1) n, f k l * y l := by
  rw [Finset.range_eq_Ico, ← Finset.sum_Ico_consecutive _ (Nat.zero_le k) hk.le,
    Finset.sum_eq_sum_Ico_succ_bot hk, Finset.sum_eq_zero, zero_add]
  intro l hl
  have := Finset.mem_Ico.1 hl
  rw [h _ (by omega), zero_mul]

/-- Forward substitution, vector right-hand side. -/
theorem C14_forward_vector {n : Nat} {A b : Mat K} {T : Matrix (Fin n) (Fin n) K} {y : Fin n → K}
    (hA : Repr A T) (hb : ColRepr b y) (hlow : ∀ i j, i < j → T i j = 0) (hd : ∀ i, T i i ≠ 0) :
    ∃ v x, A.substFwdV b = some v ∧ ColRepr v x ∧ T *ᵥ x = y := by
  obtain ⟨v, g, h1, h2, h3, _⟩ := Mat.substFwdV_is hA.is hb.is (le_refl n) (le_refl n)
    (fun k hk => by rw [extM_lt T hk hk]; exact hd _)
  refine ⟨v, fun i => g i 0, h1, h2.colRepr_of (fun _ => rfl), ?_⟩
  funext k
  have := h3 k k.2
  rw [extV_apply] at this
  rw [← this, ← lower_sum (n := n) (extM T) (fun l => g l 0) k.2 (fun l h1 h2 => by
    rw [extM_lt T k.2 h2]; exact hlow _ _ h1), ← Mat.sum_fin]
  simp only [mulVec, dotProduct, extM_apply]

/-- Forward substitution, matrix right-hand side. -/
theorem C14_forward_matrix {n p : Nat} {A b : Mat K} {T : Matrix (Fin n) (Fin n) K}
    {Y : Matrix (Fin n) (Fin p) K} (hA : Repr A T) (hb : Repr b Y) (hlow : ∀ i j, i < j → T i j = 0)
    (hd : ∀ i, T i i ≠ 0) : ∃ v X, A.substFwdM b = some v ∧ Repr v X ∧ T * X = Y := by
  obtain ⟨v, g, h1, h2, h3, _⟩ := Mat.substFwdM_is hA.is hb.is (by omega)
    (fun k hk => by rw [extM_lt T (by omega) (by omega)]; exact hd _)
  refine ⟨v, mx n p g, h1, h2.repr, ?_⟩
  ext k c
  have := h3 k c (by simp) c.2
  rw [extM_apply Y] at this
  rw [← this, ← lower_sum (n := n) (extM T) (fun l => g l c) k.2 (fun l h1 h2 => by
    rw [extM_lt T k.2 h2]; exact hlow _ _ h1), ← Mat.sum_fin]
  simp only [mul_apply, extM_apply, mx]

/-- Backward substitution, vector right-hand side. -/
theorem C14_backward_vector {n : Nat} {A b : Mat K} {T : Matrix (Fin n) (Fin n) K} {y : Fin n → K}
    (hA : Repr A T) (hb : ColRepr b y) (hup : ∀ i j, j < i → T i j = 0) (hd : ∀ i, T i i ≠ 0) :
    ∃ v x, A.substBwdV b = some v ∧ ColRepr v x ∧ T *ᵥ x = y := by
  obtain ⟨v, g, h1, h2, h3, _⟩ := Mat.substBwdV_is hA.is hb.is (le_refl n) (le_refl n)
  refine ⟨v, fun i => g i 0, h1, h2.colRepr_of (fun _ => rfl), ?_⟩
  funext k
  have := h3 k k.2 (by rw [extM_apply]; exact hd k)
  rw [extV_apply] at this
  rw [← this, ← upper_sum (n := n) (extM T) (fun l => g l 0) k.2 (fun l h1 => by
    rw [extM_lt T k.2 (by omega)]; exact hup _ _ h1), ← Mat.sum_fin]
  simp only [mulVec, dotProduct, extM_apply]

/-- The zero-diagonal case of the vector version: the result is still returned, with component 1 there. -/
theorem C14_backward_vector_zero_diag {n : Nat} {A b : Mat K} {T : Matrix (Fin n) (Fin n) K} {y : Fin n → K}
    (hA : Repr A T) (hb : ColRepr b y) :
    ∃ v x, A.substBwdV b = some v ∧ ColRepr v x ∧ ∀ i, T i i = 0 → x i = 1 := by
  obtain ⟨v, g, h1, h2, _, h4, _⟩ := Mat.substBwdV_is hA.is hb.is (le_refl n) (le_refl n)
  refine ⟨v, fun i => g i 0, h1, h2.colRepr_of (fun _ => rfl), ?_⟩
  intro i hi
  exact h4 i i.2 (by rw [extM_apply]; exact hi)

/-- Backward substitution, matrix right-hand side. -/
theorem C14_backward_matrix {n p : Nat} {A b : Mat K} {T : Matrix (Fin n) (Fin n) K}
    {Y : Matrix (Fin n) (Fin p) K} (hA : Repr A T) (hb : Repr b Y) (hup : ∀ i j, j < i → T i j = 0)
    (hd : ∀ i, T i i ≠ 0) : ∃ v X, A.substBwdM b = some v ∧ Repr v X ∧ T * X = Y := by
  obtain ⟨v, g, h1, h2, h3, _⟩ := Mat.substBwdM_is hA.is hb.is (by omega)
    (fun k hk => by rw [extM_lt T (by omega) (by omega)]; exact hd _)
  refine ⟨v, mx n p g, h1, h2.repr, ?_⟩
  ext k c
  have := h3 k c (by simp) c.2
  rw [extM_apply Y, min_self] at this
  rw [← this, ← upper_sum (n := n) (extM T) (fun l => g l c) k.2 (fun l h1 => by
    rw [extM_lt T k.2 (by omega)]; exact hup _ _ h1), ← Mat.sum_fin]
  simp only [mul_apply, extM_apply, mx]

example : Mat.substFwdV (⟨2, 2, [2, 3, 0, 4]⟩ : Mat ℚ) ⟨2, 1, [2, 11]⟩ = some ⟨2, 1, [1, 2]⟩ ∧
    Mat.substBwdV (⟨2, 2, [2, 0, 3, 4]⟩ : Mat ℚ) ⟨2, 1, [8, 8]⟩ = some ⟨2, 1, [1, 2]⟩ ∧
    Mat.substFwdM (⟨2, 2, [2, 3, 0, 4]⟩ : Mat ℚ) ⟨2, 2, [2, 11, 4, 6]⟩ = some ⟨2, 2, [1, 2, 2, 0]⟩ ∧
    Mat.substBwdM (⟨2, 2, [2, 0, 3, 4]⟩ : Mat ℚ) ⟨2, 2, [8, 8, 2, 0]⟩ = some ⟨2, 2, [1, 2, 1, 0]⟩ := by
  decide +kernel

/-! ## C11 LU decomposition -/

omit [LinearOrder K] in
theorem permMatrix_mul_apply {n p : Nat} (σ : Equiv.Perm (Fin n)) (M : Matrix (Fin n) (Fin p) K) (i j) :
    (σ.permMatrix K * M) i j = M (σ i) j := by
  rw [Equiv.Perm.permMatrix, PEquiv.toMatrix_toPEquiv_mul]; rfl

omit [LinearOrder K] in
theorem permMatrix_mul_cancel {n p : Nat} (σ : Equiv.Perm (Fin n)) {M N : Matrix (Fin n) (Fin p) K}
    (h : σ.permMatrix K * M = σ.permMatrix K * N) : M = N := by
  ext i j
  have := congrFun (congrFun h (σ.symm i)) j
  rwa [permMatrix_mul_apply, permMatrix_mul_apply, Equiv.apply_symm_apply] at this

/-- `dec_lu` on every square matrix: it returns; `L` is unit lower triangular, `U` upper triangular, `P` a
    permutation matrix, and `P A = L U` up to exactly the entries `L r c` with `c < r` in columns where the
    pivot `U c c` is zero. -/
theorem C11_lu_exact {n : Nat} {A : Mat K} {M : Matrix (Fin n) (Fin n) K} (hA : Repr A M) :
    ∃ l u p, ∃ L U : Matrix (Fin n) (Fin n) K, ∃ σ : Equiv.Perm (Fin n), A.decLU = some (l, u, p) ∧
      Repr l L ∧ Repr u U ∧ Repr p (σ.permMatrix K) ∧
      (∀ i, L i i = 1) ∧ (∀ i j, i < j → L i j = 0) ∧ (∀ i j, j < i → U i j = 0) ∧
      σ.permMatrix K * M = L * U + Matrix.of fun r c => if c < r ∧ U c c = 0 then L r c else 0 := by
  obtain ⟨l, u, p, f, σ, h1, h2, h3, h4, h5⟩ := Mat.decLU_is hA.is
  refine ⟨l, u, p, _, _, σ, h1, h2.repr, h3.repr, h4, ?_, ?_, ?_, ?_⟩
  · intro i; simp [mx]
  · intro i j hij
    simp only [mx]
    rw [if_neg (by rw [Fin.lt_def] at hij; omega), if_neg (by rw [Fin.lt_def] at hij; omega)]
  · intro i j hij
    simp only [mx]
    rw [if_neg (by rw [Fin.lt_def] at hij; omega)]
  · ext r c
    rw [permMatrix_mul_apply, ← extM_apply M, h5 r c c.2, Matrix.add_apply, Mat.luval_eq_sum f r.2,
      mul_apply, ← Mat.sum_fin]
    congr 1
    simp only [Mat.luerr, mx, Fin.lt_def, le_refl, if_true, Matrix.of_apply]
    by_cases hc : (c : Nat) < r
    · simp [hc]
    · simp [hc]

/-- `P A = L U` holds exactly when every column with a zero pivot has zero multipliers. -/
theorem C11_lu_iff {n : Nat} {A : Mat K} {M : Matrix (Fin n) (Fin n) K} (hA : Repr A M) :
    ∃ l u p, ∃ L U P : Matrix (Fin n) (Fin n) K, A.decLU = some (l, u, p) ∧
      Repr l L ∧ Repr u U ∧ Repr p P ∧
      (P * M = L * U ↔ ∀ r c, c < r → U c c = 0 → L r c = 0) := by
  obtain ⟨l, u, p, L, U, σ, h1, h2, h3, h4, _, _, _, h5⟩ := C11_lu_exact hA
  refine ⟨l, u, p, L, U, _, h1, h2, h3, h4, ?_, ?_⟩
  · intro h r c hrc hz
    rw [h] at h5
    have := congrFun (congrFun (left_eq_add.1 h5) r) c
    rwa [Matrix.of_apply, if_pos ⟨hrc, hz⟩] at this
  · intro h
    rw [h5]
    have : (Matrix.of fun r c => if c < r ∧ U c c = 0 then L r c else 0 : Matrix (Fin n) (Fin n) K) = 0 := by
      ext r c
      by_cases hh : c < r ∧ U c c = 0
      · simp only [Matrix.of_apply, hh, and_self, if_true]; exact h r c hh.1 hh.2
      · simp only [Matrix.of_apply, hh, if_false]; rfl
    rw [this, add_zero]

/-- If no pivot but possibly the last is zero (checkable on the returned `u`), the decomposition is right.
    Missing: zero pivots with nonzero entries below, where it is wrong (`C11_lu_violated`). -/
theorem C11_lu_partial {n : Nat} {A l u p : Mat K} {M : Matrix (Fin n) (Fin n) K} (hA : Repr A M)
    (h : A.decLU = some (l, u, p)) (hu : ∀ i, i + 1 < n → u.get i i ≠ some 0) :
    ∃ L U : Matrix (Fin n) (Fin n) K, ∃ σ : Equiv.Perm (Fin n),
      Repr l L ∧ Repr u U ∧ Repr p (σ.permMatrix K) ∧
      (∀ i, L i i = 1) ∧ (∀ i j, i < j → L i j = 0) ∧ (∀ i j, j < i → U i j = 0) ∧
      σ.permMatrix K * M = L * U := by
  obtain ⟨l', u', p', L, U, σ, h1, h2, h3, h4, h5, h6, h7, h8⟩ := C11_lu_exact hA
  rw [h1] at h
  cases h
  refine ⟨L, U, σ, h2, h3, h4, h5, h6, h7, ?_⟩
  rw [h8]
  have : (Matrix.of fun r c => if c < r ∧ U c c = 0 then L r c else 0 : Matrix (Fin n) (Fin n) K) = 0 := by
    ext r c
    by_cases hh : c < r ∧ U c c = 0
    · exfalso
      apply hu c (by have := r.2; have := hh.1; rw [Fin.lt_def] at this; omega)
      rw [h3.is.get c.2 c.2, extM_apply, hh.2]
    · simp only [Matrix.of_apply, hh, if_false]; rfl
  rw [this, add_zero]

omit [LinearOrder K] in
theorem Repr.dims {m n : Nat} {A : Mat K} {M : Matrix (Fin m) (Fin n) K} (h : Repr A M) : A.m = m ∧ A.n = n :=
  ⟨h.is.hm, h.is.hn⟩

/-- A non-square matrix panics. -/
theorem C11_lu_nonsquare {A : Mat K} (h : A.m ≠ A.n) : A.decLU = none := by simp [Mat.decLU, h]

/-- `[[0,1],[-1,0]]` is decomposed wrongly: `P A ≠ L U`. -/
theorem C11_lu_violated :
    ∃ A l u p pa lu : Mat ℚ, A.decLU = some (l, u, p) ∧ p.mul A = some pa ∧ l.mul u = some lu ∧ pa ≠ lu :=
  ⟨⟨2, 2, [0, -1, 1, 0]⟩, ⟨2, 2, [1, -1, 0, 1]⟩, ⟨2, 2, [0, 0, 1, 1]⟩, ⟨2, 2, [1, 0, 0, 1]⟩,
    ⟨2, 2, [0, -1, 1, 0]⟩, ⟨2, 2, [0, 0, 1, 0]⟩, by decide +kernel⟩

example : (⟨2, 2, [1, 3, 2, 4]⟩ : Mat ℚ).decLU =
    some (⟨2, 2, [1, 1/3, 0, 1]⟩, ⟨2, 2, [3, 0, 4, 2/3]⟩, ⟨2, 2, [0, 1, 1, 0]⟩) := by decide +kernel

/-! ## C10 determinant -/

omit [LinearOrder K] in
theorem prodLoop {n : Nat} (g : Nat → K) (F : K → Nat → Option K) (s : K)
    (hF : ∀ s k, k < n → F s k = some (s * g k)) :
    forRange 0 n F s = some (s * ∏ k ∈ Finset.range n, g k) := by
  obtain ⟨t, h1, h2⟩ := forRange_inv (a := 0) (b := n) (s := s) (f := F)
    (fun k t => t = s * ∏ i ∈ Finset.range k, g i) (by omega) (by simp) (by
      intro i t _ hi h
      exact ⟨_, hF t i hi, by rw [h, Finset.prod_range_succ, mul_assoc]⟩)
  rw [h1, h2]

/-- the sign the code derives from the number of points moved by the row permutation -/
def codeSign {n : Nat} (σ : Equiv.Perm (Fin n)) : K :=
  if σ.support.card ≠ 0 then (-1) ^ (σ.support.card - 1) else 1

theorem det_eq_of_lu {n : Nat} {A l u p : Mat K} {M U : Matrix (Fin n) (Fin n) K} {σ : Equiv.Perm (Fin n)}
    (hA : Repr A M) (h1 : n ≠ 1) (h2 : n ≠ 2) (e1 : A.decLU = some (l, u, p)) (e3 : Repr u U)
    (e4 : Repr p (σ.permMatrix K)) : A.det = some (codeSign σ * ∏ i, U i i) := by
  obtain ⟨d1, d2⟩ := hA.dims
  have p1 := prodLoop (n := n) (fun i => extM U i i) (fun (d : K) i => do
        let x ← u.get i i
        some (d * x)) 1 (by
      intro s k hk
      rw [e3.is.get hk hk]; rfl)
  have hcnt : forRange 0 n (fun (c : Nat) i => do
        let x ← p.get i i
        some (if x ≠ 1 then c + 1 else c)) 0 = some σ.support.card := by
    obtain ⟨c, q1, q2⟩ := forRange_inv (a := 0) (b := n) (s := 0) (f := fun (c : Nat) i => do
        let x ← p.get i i
        some (if x ≠ 1 then c + 1 else c))
      (fun k c => c = (σ.support.filter (fun i : Fin n => (i : Nat) < k)).card) (by omega) (by simp) (by
        intro i c _ hi h
        refine ⟨if extM (σ.permMatrix K) i i ≠ 1 then c + 1 else c, by rw [e4.is.get hi hi]; rfl, ?_⟩
        rw [extM_lt _ hi hi]
        have hval : (σ.permMatrix K) ⟨i, hi⟩ ⟨i, hi⟩ ≠ 1 ↔ (⟨i, hi⟩ : Fin n) ∈ σ.support := by
          rw [Equiv.Perm.mem_support]
          simp only [Equiv.Perm.permMatrix, PEquiv.toMatrix_apply, Equiv.toPEquiv_apply, Option.mem_some_iff]
          by_cases hs : σ ⟨i, hi⟩ = ⟨i, hi⟩ <;> simp [hs]
        by_cases hm : (⟨i, hi⟩ : Fin n) ∈ σ.support
        · rw [if_pos (hval.2 hm), h]
          have : σ.support.filter (fun j : Fin n => (j : Nat) < i + 1) =
              insert ⟨i, hi⟩ (σ.support.filter (fun j : Fin n => (j : Nat) < i)) := by
            ext j
            simp only [Finset.mem_filter, Finset.mem_insert]
            constructor
            · rintro ⟨q1, q2⟩
              by_cases e : (j : Nat) = i
              · left; exact Fin.ext e
              · right; exact ⟨q1, by omega⟩
            · rintro (rfl | ⟨q1, q2⟩)
              · exact ⟨hm, by simp⟩
              · exact ⟨q1, by omega⟩
          rw [this, Finset.card_insert_of_notMem (by simp)]
        · rw [if_neg (fun hh => hm (hval.1 hh)), h]
          congr 1
          ext j
          simp only [Finset.mem_filter]
          constructor
          · rintro ⟨q1, q2⟩; exact ⟨q1, by omega⟩
          · rintro ⟨q1, q2⟩
            refine ⟨q1, ?_⟩
            by_contra hc
            have : j = ⟨i, hi⟩ := Fin.ext (by simp; omega)
            exact hm (this ▸ q1))
    rw [q1, q2]
    congr 2
    ext j; simp
  simp only [Mat.det, d1, d2, h1, h2, if_true, if_false, e1, Option.bind_eq_bind, Option.bind_some] at p1 hcnt ⊢
  rw [p1]
  simp only [Option.bind_some]
  rw [hcnt]
  simp only [Option.bind_some, codeSign, one_mul, Option.some.injEq]
  congr 1
  rw [← Fin.prod_univ_eq_prod_range (fun i => extM U i i)]
  simp only [extM_apply]

/-- What `det` computes for `n = 0` or `n ≥ 3`: the product of the pivots times `codeSign`. -/
theorem C10_det_formula {n : Nat} {A : Mat K} {M : Matrix (Fin n) (Fin n) K} (hA : Repr A M) (h1 : n ≠ 1)
    (h2 : n ≠ 2) :
    ∃ L U : Matrix (Fin n) (Fin n) K, ∃ σ : Equiv.Perm (Fin n),
      A.det = some (codeSign σ * ∏ i, U i i) ∧
      (∀ i, L i i = 1) ∧ (∀ i j, i < j → L i j = 0) ∧ (∀ i j, j < i → U i j = 0) ∧
      σ.permMatrix K * M = L * U + Matrix.of fun r c => if c < r ∧ U c c = 0 then L r c else 0 := by
  obtain ⟨l, u, p, L, U, σ, e1, e2, e3, e4, e5, e6, e7, e8⟩ := C11_lu_exact hA
  exact ⟨L, U, σ, det_eq_of_lu hA h1 h2 e1 e3 e4, e5, e6, e7, e8⟩

omit [LinearOrder K] in
theorem det_of_lu {n : Nat} {M L U : Matrix (Fin n) (Fin n) K} {σ : Equiv.Perm (Fin n)} (h5 : ∀ i, L i i = 1)
    (h6 : ∀ i j, i < j → L i j = 0) (h7 : ∀ i j, j < i → U i j = 0) (h : σ.permMatrix K * M = L * U) :
    ((Equiv.Perm.sign σ : ℤ) : K) * M.det = ∏ i, U i i := by
  have h1 := congrArg Matrix.det h
  rw [det_mul, det_mul, Matrix.det_permutation] at h1
  rw [h1, Matrix.det_of_upperTriangular (M := U) (fun i j hij => h7 i j hij),
    Matrix.det_of_lowerTriangular L (fun i j hij => h6 i j hij)]
  simp [h5]

omit [LinearOrder K] in
theorem sign_sq {n : Nat} (σ : Equiv.Perm (Fin n)) :
    ((Equiv.Perm.sign σ : ℤ) : K) * ((Equiv.Perm.sign σ : ℤ) : K) = 1 := by
  rcases Int.units_eq_one_or (Equiv.Perm.sign σ) with h | h <;> simp [h]

omit [LinearOrder K] in
theorem no_defect {n : Nat} {M L U : Matrix (Fin n) (Fin n) K} {σ : Equiv.Perm (Fin n)}
    [DecidableEq K] (hU : ∀ i, U i i ≠ 0)
    (h : σ.permMatrix K * M = L * U + Matrix.of fun r c => if c < r ∧ U c c = 0 then L r c else 0) :
    σ.permMatrix K * M = L * U := by
  rw [h]
  have : (Matrix.of fun r c => if c < r ∧ U c c = 0 then L r c else 0 : Matrix (Fin n) (Fin n) K) = 0 := by
    ext r c
    simp [hU c]
  rw [this, add_zero]

/-- Sizes 1 and 2 (and 0) are exact. -/
theorem C10_det_small {n : Nat} {A : Mat K} {M : Matrix (Fin n) (Fin n) K} (hA : Repr A M) (hn : n ≤ 2) :
    A.det = some M.det := by
  have hn' : n = 0 ∨ n = 1 ∨ n = 2 := by omega
  rcases hn' with rfl | rfl | rfl
  · obtain ⟨L, U, σ, h, _⟩ := C10_det_formula hA (by omega) (by omega)
    rw [h]
    have : σ = 1 := Subsingleton.elim _ _
    simp [this, codeSign]
  · obtain ⟨d1, d2⟩ := hA.dims
    simp only [Mat.det, d1, d2, if_true]
    rw [hA.is.get (by omega) (by omega), extM_lt M (by omega) (by omega)]
    simp
  · obtain ⟨d1, d2⟩ := hA.dims
    simp only [Mat.det, d1, d2]
    rw [hA.is.get (i := 0) (j := 0) (by omega) (by omega), hA.is.get (i := 0) (j := 1) (by omega) (by omega),
      hA.is.get (i := 1) (j := 0) (by omega) (by omega), hA.is.get (i := 1) (j := 1) (by omega) (by omega)]
    rw [extM_lt M (by omega) (by omega), extM_lt M (by omega) (by omega), extM_lt M (by omega) (by omega),
      extM_lt M (by omega) (by omega), det_fin_two]
    simp

omit [LinearOrder K] in
theorem codeSign_sq {n : Nat} (σ : Equiv.Perm (Fin n)) : (codeSign σ : K) * codeSign σ = 1 := by
  unfold codeSign
  split
  · rw [← mul_pow]; simp
  · simp

/-- For every square matrix: the result is never off in absolute value when it is nonzero, and it is zero on
    singular matrices. -/
theorem C10_det_abs {n : Nat} {A : Mat K} {M : Matrix (Fin n) (Fin n) K} (hA : Repr A M) :
    ∃ d, A.det = some d ∧ (d ≠ 0 → d = M.det ∨ d = - M.det) ∧ (M.det = 0 → d = 0) := by
  by_cases hn : n ≤ 2
  · exact ⟨_, C10_det_small hA hn, fun _ => Or.inl rfl, id⟩
  · obtain ⟨L, U, σ, h1, h2, h3, h4, h5⟩ := C10_det_formula hA (by omega) (by omega)
    have key : codeSign σ * ∏ i, U i i ≠ 0 →
        ((Equiv.Perm.sign σ : ℤ) : K) * M.det = ∏ i, U i i := by
      intro hd
      have hU : ∀ i, U i i ≠ 0 := fun i =>
        Finset.prod_ne_zero_iff.1 (right_ne_zero_of_mul hd) i (Finset.mem_univ i)
      exact det_of_lu h2 h3 h4 (no_defect hU h5)
    refine ⟨_, h1, ?_, ?_⟩
    · intro hd
      rw [← key hd, ← mul_assoc]
      have hs : (codeSign σ * ((Equiv.Perm.sign σ : ℤ) : K)) * (codeSign σ * ((Equiv.Perm.sign σ : ℤ) : K)) = 1 := by
        rw [mul_mul_mul_comm, codeSign_sq, sign_sq, one_mul]
      rcases mul_self_eq_one_iff.1 hs with h | h <;> rw [h]
      · left; ring
      · right; ring
    · intro hz
      by_contra hd
      have := key hd
      rw [hz, mul_zero] at this
      exact hd (by rw [← this, mul_zero])

omit [LinearOrder K] in
/-- The sign formula is right for the identity and for every single cycle. -/
theorem codeSign_eq_sign {n : Nat} {σ : Equiv.Perm (Fin n)} (h : σ = 1 ∨ σ.IsCycle) :
    codeSign σ = ((Equiv.Perm.sign σ : ℤ) : K) := by
  rcases h with rfl | h
  · simp [codeSign]
  · have h2 := h.two_le_card_support
    rw [codeSign, if_pos (by omega), h.sign]
    obtain ⟨k, hk⟩ : ∃ k, σ.support.card = k + 1 := ⟨σ.support.card - 1, by omega⟩
    rw [hk, Nat.add_sub_cancel, pow_succ]
    simp

/-- `det` is right whenever the pivots are nonzero and the row permutation is the identity or a single cycle;
    in general it is right up to the factor `codeSign σ * sign σ`.
    Missing: zero pivots and products of disjoint cycles, where it is wrong (`C10_det_violated_*`). -/
theorem C10_det_partial {n : Nat} {A l u p : Mat K} {M : Matrix (Fin n) (Fin n) K} (hA : Repr A M) (hn : 3 ≤ n)
    (h : A.decLU = some (l, u, p)) (hu : ∀ i, i < n → u.get i i ≠ some 0) :
    ∃ σ : Equiv.Perm (Fin n), Repr p (σ.permMatrix K) ∧
      A.det = some (codeSign σ * ((Equiv.Perm.sign σ : ℤ) : K) * M.det) ∧
      (σ = 1 ∨ σ.IsCycle → A.det = some M.det) := by
  obtain ⟨L, U, σ, a1, a2, a3, a4, a5, a6, a7⟩ := C11_lu_partial hA h (fun i hi => hu i (by omega))
  have hdet := det_of_lu a4 a5 a6 a7
  have hdet2 := det_eq_of_lu hA (by omega) (by omega) h a2 a3
  have hmain : A.det = some (codeSign σ * ((Equiv.Perm.sign σ : ℤ) : K) * M.det) := by
    rw [hdet2, ← hdet, mul_assoc]
  refine ⟨σ, a3, hmain, ?_⟩
  intro hc
  rw [hmain, codeSign_eq_sign hc, sign_sq, one_mul]

theorem sign_fin_three : ∀ σ : Equiv.Perm (Fin 3), (Equiv.Perm.sign σ : ℤ) =
    if σ.support.card ≠ 0 then (-1) ^ (σ.support.card - 1) else 1 := by decide

/-- Size 3: right whenever no pivot is zero. -/
theorem C10_det_three_partial {A l u p : Mat K} {M : Matrix (Fin 3) (Fin 3) K} (hA : Repr A M)
    (h : A.decLU = some (l, u, p)) (hu : ∀ i, i < 3 → u.get i i ≠ some 0) : A.det = some M.det := by
  obtain ⟨σ, _, h2, _⟩ := C10_det_partial hA (le_refl 3) h hu
  have : (codeSign σ : K) = ((Equiv.Perm.sign σ : ℤ) : K) := by
    rw [sign_fin_three, codeSign]
    split <;> simp
  rw [h2, this, sign_sq, one_mul]

/-- A non-square matrix panics. -/
theorem C10_det_nonsquare {A : Mat K} (h : A.m ≠ A.n) : A.det = none := by simp [Mat.det, h]

/-- A zero pivot: the code returns 0 for an invertible matrix of determinant 1. -/
theorem C10_det_violated_pivot : ∃ (A : Mat ℚ) (M : Matrix (Fin 3) (Fin 3) ℚ), Repr A M ∧
    A.det = some 0 ∧ M.det = 1 :=
  ⟨⟨3, 3, [0, -1, 0, 1, 0, 0, 0, 0, 1]⟩, !![0, 1, 0; -1, 0, 0; 0, 0, 1],
    ⟨rfl, rfl, rfl, by decide +kernel⟩, by decide +kernel, by simp [det_fin_three]⟩

/-- Two disjoint row swaps: the code returns -1 for a matrix of determinant 1. -/
theorem C10_det_violated_sign : ∃ (A : Mat ℚ) (M : Matrix (Fin 4) (Fin 4) ℚ), Repr A M ∧
    A.det = some (-1) ∧ M.det = 1 :=
  ⟨⟨4, 4, [0, 1, 0, 0, 1, 0, 0, 0, 0, 0, 0, 1, 0, 0, 1, 0]⟩,
    !![0, 1, 0, 0; 1, 0, 0, 0; 0, 0, 0, 1; 0, 0, 1, 0],
    ⟨rfl, rfl, rfl, by decide +kernel⟩, by decide +kernel, by
      simp [det_succ_row_zero, Fin.sum_univ_succ, Fin.succAbove]⟩

example : (⟨3, 3, [2, 4, 6, 1, 5, 0, 3, 1, 7]⟩ : Mat ℚ).det = some (-42) := by decide +kernel

/-! ## C12 solve -/

omit [LinearOrder K] in
theorem solve_of_lu {n q : Nat} {M L U : Matrix (Fin n) (Fin n) K} {σ : Equiv.Perm (Fin n)}
    {X Y B : Matrix (Fin n) (Fin q) K} (h : σ.permMatrix K * M = L * U) (h1 : L * Y = σ.permMatrix K * B)
    (h2 : U * X = Y) : M * X = B := by
  apply permMatrix_mul_cancel σ
  rw [← Matrix.mul_assoc, h, Matrix.mul_assoc, h2, h1]

omit [LinearOrder K] in
theorem repr_perm_mulVec {n : Nat} {p b : Mat K} {P : Matrix (Fin n) (Fin n) K} {y : Fin n → K}
    (hp : Repr p P) (hb : ColRepr b y) : ∃ w, p.mulVec b = some w ∧ ColRepr w (P *ᵥ y) := by
  obtain ⟨w, h1, h2⟩ := Mat.mulVec_is hp.is hb.is
  refine ⟨w, h1, h2.colRepr_of ?_⟩
  intro i
  rw [← Mat.sum_fin]
  simp only [mulVec, dotProduct, extM_apply, extV_apply]

/-- Vector right-hand side: if no pivot of the decomposition is zero, `solve` returns the solution.
    Missing: zero pivots, where a wrong vector is returned (`C12_solve_violated_*`). -/
theorem C12_solve_vector_partial {n : Nat} {A b l u p : Mat K} {M : Matrix (Fin n) (Fin n) K} {y : Fin n → K}
    (hA : Repr A M) (hb : ColRepr b y) (h : A.decLU = some (l, u, p))
    (hu : ∀ i, i < n → u.get i i ≠ some 0) :
    ∃ v x, A.solveV b = some v ∧ ColRepr v x ∧ M *ᵥ x = y := by
  obtain ⟨L, U, σ, a1, a2, a3, a4, a5, a6, a7⟩ := C11_lu_partial hA h (fun i hi => hu i (by omega))
  obtain ⟨w, w1, w2⟩ := repr_perm_mulVec a3 hb
  obtain ⟨z, zx, z1, z2, z3⟩ := C14_forward_vector a1 w2 a5 (fun i => by rw [a4]; exact one_ne_zero)
  obtain ⟨v, x, v1, v2, v3⟩ := C14_backward_vector a2 z2 a6 (fun i hi => hu i i.2 (by
    rw [a2.is.get i.2 i.2, extM_apply, hi]))
  refine ⟨v, x, ?_, v2, ?_⟩
  · simp only [Mat.solveV, Mat.luSolveV, h, w1, z1, v1, Option.bind_eq_bind, Option.bind_some]
  · have h1 : σ.permMatrix K *ᵥ (M *ᵥ x) = σ.permMatrix K *ᵥ y := by
      rw [mulVec_mulVec, a7, ← mulVec_mulVec, v3, z3]
    funext i
    have := congrFun h1 (σ.symm i)
    rw [Matrix.permMatrix_mulVec, Matrix.permMatrix_mulVec] at this
    simpa using this

/-- Matrix right-hand side: whenever finite values are returned they solve the system, and this happens
    exactly when no pivot is zero. -/
theorem C12_solve_matrix {n q : Nat} {A b : Mat K} {M : Matrix (Fin n) (Fin n) K} {B : Matrix (Fin n) (Fin q) K}
    (hA : Repr A M) (hb : Repr b B) :
    (∀ v, A.solveM b = some v → ∃ X, Repr v X ∧ M * X = B) ∧
    (∀ l u p, A.decLU = some (l, u, p) → (∀ i, i < n → u.get i i ≠ some 0) →
      ∃ v, A.solveM b = some v) := by
  obtain ⟨l, u, p, L, U, σ, e1, e2, e3, e4, e5, e6, e7, e8⟩ := C11_lu_exact hA
  obtain ⟨w, w1, w2⟩ := repr_mul e4 hb
  obtain ⟨z, Z, z1, z2, z3⟩ := C14_forward_matrix e2 w2 e6 (fun i => by rw [e5]; exact one_ne_zero)
  have hunf : A.solveM b = u.substBwdM z := by
    simp only [Mat.solveM, Mat.luSolveM, e1, w1, z1, Option.bind_eq_bind, Option.bind_some]
  constructor
  · intro v hv
    rw [hunf] at hv
    have hd : ∀ i, U i i ≠ 0 := by
      intro i
      have := Mat.substBwdM_some e3.is z2.is (by omega) hv i (by simp)
      rwa [extM_apply] at this
    obtain ⟨v', X, v1, v2, v3⟩ := C14_backward_matrix e3 z2 e7 hd
    rw [v1] at hv
    cases hv
    exact ⟨X, v2, solve_of_lu (no_defect hd e8) z3 v3⟩
  · intro l' u' p' h hu
    rw [e1] at h
    cases h
    obtain ⟨v', X, v1, v2, v3⟩ := C14_backward_matrix e3 z2 e7 (fun i hi => hu i i.2 (by
      rw [e3.is.get i.2 i.2, extM_apply, hi]))
    exact ⟨v', by rw [hunf, v1]⟩

/-- An invertible system gets a wrong answer. -/
theorem C12_solve_violated_regular : ∃ A b v w : Mat ℚ, A.det = some 1 ∧ A.solveV b = some v ∧
    A.mulVec v = some w ∧ w ≠ b :=
  ⟨⟨2, 2, [0, -1, 1, 0]⟩, ⟨2, 1, [1, 1]⟩, ⟨2, 1, [1, 2]⟩, ⟨2, 1, [2, -1]⟩, by decide +kernel⟩

/-- A singular system without solution gets an answer instead of an error. -/
theorem C12_solve_violated_singular : ∃ A b v w : Mat ℚ, A.det = some 0 ∧ A.solveV b = some v ∧
    A.mulVec v = some w ∧ w ≠ b :=
  ⟨⟨2, 2, [1, 1, 1, 1]⟩, ⟨2, 1, [0, 1]⟩, ⟨2, 1, [-1, 1]⟩, ⟨2, 1, [0, 0]⟩, by decide +kernel⟩

example : (⟨2, 2, [1, 3, 2, 4]⟩ : Mat ℚ).solveV ⟨2, 1, [5, 11]⟩ = some ⟨2, 1, [1, 2]⟩ ∧
    (⟨2, 2, [1, 3, 2, 4]⟩ : Mat ℚ).solveM ⟨2, 1, [5, 11]⟩ = some ⟨2, 1, [1, 2]⟩ := by decide +kernel

/-! ## C13 inverse -/

/-- Whatever finite matrix `inv` returns is the two-sided inverse; finite values are returned exactly when no
    pivot is zero.  Missing: invertible matrices with a zero pivot get no inverse (`C13_inv_violated`), and
    singular ones are not reported as `Err` (the code has no `Err` path; the values are infinite or NaN). -/
theorem C13_inv_partial {n : Nat} {A : Mat K} {M : Matrix (Fin n) (Fin n) K} (hA : Repr A M) :
    (∀ B, A.inv = some B → ∃ N, Repr B N ∧ M * N = 1 ∧ N * M = 1) ∧
    (∀ l u p, A.decLU = some (l, u, p) → (∀ i, i < n → u.get i i ≠ some 0) → ∃ B, A.inv = some B) := by
  obtain ⟨l, u, p, L, U, σ, e1, e2, e3, e4, _⟩ := C11_lu_exact hA
  have hone := repr_one (K := K) n
  have hinv : A.inv = A.solveM (Mat.one n) := by
    simp only [Mat.inv, Mat.solveM, e1, Option.bind_eq_bind, Option.bind_some, e4.dims.1]
  obtain ⟨h1, h2⟩ := C12_solve_matrix hA hone
  constructor
  · intro B hB
    obtain ⟨N, n1, n2⟩ := h1 B (hinv ▸ hB)
    exact ⟨N, n1, n2, mul_eq_one_comm.1 n2⟩
  · intro l' u' p' h hu
    rw [hinv]
    exact h2 l' u' p' h hu

/-- A singular matrix never gets a finite "inverse". -/
theorem C13_inv_singular {n : Nat} {A : Mat K} {M : Matrix (Fin n) (Fin n) K} (hA : Repr A M)
    (h : M.det = 0) : A.inv = none := by
  cases hB : A.inv with
  | none => rfl
  | some B =>
    exfalso
    obtain ⟨N, _, h1, _⟩ := (C13_inv_partial hA).1 B hB
    have := congrArg Matrix.det h1
    rw [det_mul, h, zero_mul, det_one] at this
    -- an empty matrix has determinant 1
    exact zero_ne_one this

/-- An invertible matrix without a (finite) inverse. -/
theorem C13_inv_violated : ∃ A : Mat ℚ, A.det = some 1 ∧ A.inv = none :=
  ⟨⟨2, 2, [0, -1, 1, 0]⟩, by decide +kernel⟩

example : (⟨2, 2, [1, 3, 2, 4]⟩ : Mat ℚ).inv = some ⟨2, 2, [-2, 3/2, 1, -1/2]⟩ := by decide +kernel

end Verif
