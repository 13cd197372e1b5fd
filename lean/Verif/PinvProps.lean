import Verif.SpectralModel
import Verif.QRProps
import Verif.LUProps
import Verif.ColLemmas

/-!
# C78: pseudo-inverse, C79: Gauss-Newton
-/

namespace Verif
open Finset Matrix

section
variable {K : Type} [Field K] [LinearOrder K] [IsStrictOrderedRing K] {sqrt : K → K}

omit [IsStrictOrderedRing K] in
/-- forward substitution only returns when no diagonal entry is zero -/
theorem substFwdM_nz {A b x : Mat K} (h : A.substFwdM b = some x) {k : Nat} (hk : k < min A.m A.n) {d : K}
    (hd : A.get k k = some d) : d ≠ 0 := by
  have := forRange_inv_of_some (P := fun i _ => ∀ k, k < i → ∀ d, A.get k k = some d → d ≠ 0)
    (by intro k hk; omega) (by
      intro i s s' _ _ hs hf k hk d hd
      rcases Nat.lt_or_ge k i with h1 | h1
      · exact hs k h1 d hd
      · have e : k = i := by omega
        subst e
        simp only [Option.bind_eq_bind, Option.bind_eq_some_iff] at hf
        obtain ⟨b', -, d', h2, h3⟩ := hf
        rw [hd] at h2
        cases h2
        exact Mat.rowDiv_zero h3) h
  exact this k (by omega) d hd

/-- For square matrices and columns `pinv` returns the least-squares inverse `(AᵀA)⁻¹Aᵀ`, or nothing. -/
theorem pinv_inv (hs : IsSqrt sqrt) {m n : Nat} {A : Mat K} {M : Matrix (Fin m) (Fin n) K} (hA : Repr A M)
    (hn : 0 < n) (hmn : n ≤ m) (hsh : m = n ∨ n = 1) :
    ∃ (q r : Mat K) (R : Matrix (Fin m) (Fin n) K), A.decQR sqrt = some (q, r) ∧ Repr r R ∧
      ((∃ k : Fin n, R ⟨k, by omega⟩ k = 0) → A.pinv sqrt = none) ∧
      ((∀ k : Fin n, R ⟨k, by omega⟩ k ≠ 0) → ∃ p X, A.pinv sqrt = some p ∧ Repr p X ∧
        (M.transpose * M) * X = M.transpose ∧ IsUnit (M.transpose * M).det) := by
  obtain ⟨q, r, Q, R, h1, h2, h3, h4, h5, h6, h7⟩ := decQR_inv hs hA hmn (by omega)
  refine ⟨q, r, R, h1, h3, ?_, ?_⟩
  · rintro ⟨k, hk⟩
    obtain ⟨rt, t1, t2⟩ := Mat.transpose_is h3.is (by omega) (Or.inr hn)
    obtain ⟨at', t3, t4⟩ := Mat.transpose_is hA.is (by omega) (Or.inr hn)
    unfold Mat.pinv
    simp only [h1, t1, t3, Option.bind_eq_bind, Option.bind_some]
    cases hx : rt.substFwdM at' with
    | none => rfl
    | some x =>
      exfalso
      refine substFwdM_nz hx (k := k) (d := 0) (by rw [t2.hm, t2.hn]; omega) ?_ rfl
      rw [t2.get k.2 (by omega), extM_lt R (by omega) k.2, ← hk]
  · intro hd
    have hup : ∀ (i : Fin m) (k : Fin n), (k : Nat) < i → R i k = 0 := fun i k hi =>
      h7 k ⟨k, by omega⟩ i rfl hi (Or.inl k.2) (hd k)
    obtain ⟨rt, t1, t2⟩ := Mat.transpose_is h3.is (by omega) (Or.inr hn)
    obtain ⟨at', t3, t4⟩ := Mat.transpose_is hA.is (by omega) (Or.inr hn)
    have hmin : min n m = n := by omega
    have hmin' : min m n = n := by omega
    obtain ⟨x, g, x1, x2, x3, -⟩ := Mat.substFwdM_is t2 t4 (by omega) (by
      intro k hk
      rw [extM_lt R (by omega) (by omega)]
      exact hd ⟨k, by omega⟩)
    obtain ⟨p, g', p1, p2, p3, -⟩ := Mat.substBwdM_is h3.is x2 (by omega) (by
      intro k hk
      rw [extM_lt R (by omega) (by omega)]
      exact hd ⟨k, by omega⟩)
    rw [hmin] at x3
    rw [hmin'] at p3
    set R1 : Matrix (Fin n) (Fin n) K := Matrix.of fun i j => R ⟨i, by omega⟩ j with hR1
    have hext : ∀ i j, i < n → j < n → extM R i j = extM R1 i j := by
      intro i j hi hj
      rw [extM_lt R (by omega) hj, extM_lt R1 hi hj]
      rfl
    have e1 : R1.transpose * mx n m g = M.transpose := by
      ext k c
      have := x3 k c k.2 c.2
      rw [extM_apply] at this
      rw [Matrix.transpose_apply, ← this]
      rw [← lower_sum (n := n) (fun k l => extM R l k) (fun l => g l c) k.2 (fun l h1 h2 => by
        rw [extM_lt R (by omega) k.2]; exact hup _ _ h1), ← Mat.sum_fin, Matrix.mul_apply]
      refine sum_congr rfl fun l _ => ?_
      rw [hext l k l.2 k.2, extM_apply]
      rfl
    have e2 : R1 * mx n m g' = mx n m g := by
      ext k c
      have := p3 k c k.2 c.2
      rw [mx_apply, ← this]
      rw [← upper_sum (n := n) (extM R) (fun l => g' l c) k.2 (fun l h1 => by
        rw [extM_lt R (by omega) (by omega)]; exact hup _ _ h1), ← Mat.sum_fin, Matrix.mul_apply]
      refine sum_congr rfl fun l _ => ?_
      rw [hext k l k.2 l.2, extM_apply]
      rfl
    have e3 : M.transpose * M = R1.transpose * R1 := by
      rw [← h6, Matrix.transpose_mul, Matrix.mul_assoc, ← Matrix.mul_assoc _ Q, h5, Matrix.one_mul]
      ext i j
      simp only [Matrix.mul_apply, Matrix.transpose_apply, hR1, Matrix.of_apply]
      rw [show (∑ x, R x i * R x j) = ∑ x ∈ range m, extM R x i * extM R x j by
        rw [← Mat.sum_fin]; simp only [extM_apply]]
      rw [show (∑ x : Fin n, R ⟨x, by omega⟩ i * R ⟨x, by omega⟩ j) = ∑ x ∈ range n, extM R x i * extM R x j by
        rw [← Mat.sum_fin]
        refine sum_congr rfl fun l _ => ?_
        rw [extM_lt R (by omega) i.2, extM_lt R (by omega) j.2]]
      symm
      refine sum_subset (fun l hl => by simp at hl ⊢; omega) fun l hl hl' => ?_
      simp at hl hl'
      rw [extM_lt R hl i.2, hup _ _ (show (i : Nat) < l by omega), zero_mul]
    refine ⟨p, mx n m g', ?_, p2.repr, ?_, ?_⟩
    · unfold Mat.pinv
      simp only [h1, t1, t3, x1, p1, Option.bind_eq_bind, Option.bind_some]
    · rw [e3, Matrix.mul_assoc, e2, e1]
    · rw [e3, Matrix.det_mul, Matrix.det_transpose, det_of_isUpperTriangular (M := R1) (fun i j hij => hup _ _ hij)]
      have : ∏ i, R1 i i ≠ 0 := prod_ne_zero_iff.2 fun i _ => hd i
      exact (mul_ne_zero this this).isUnit

/-- a rotation of the QR decomposition keeps a non-zero diagonal entry non-zero -/
theorem qrStep_diag (hs : IsSqrt sqrt) {m n : Nat} {j i : Nat} {st st' : Mat K × Mat K} {Q : Matrix (Fin m) (Fin m) K}
    {R : Matrix (Fin m) (Fin n) K} (hj : j < n) (hi : i < m) (hji : j < i) (hQ : Repr st.1 Q) (hR : Repr st.2 R)
    (h0 : R ⟨j, by omega⟩ ⟨j, hj⟩ ≠ 0) (h : Mat.qrStep sqrt j st i = some st') :
    ∃ (Q' : Matrix (Fin m) (Fin m) K) (R' : Matrix (Fin m) (Fin n) K), Repr st'.1 Q' ∧ Repr st'.2 R' ∧
      R' ⟨j, by omega⟩ ⟨j, hj⟩ ≠ 0 := by
  have hjm : j < m := by omega
  set fi : Fin m := ⟨i, hi⟩ with hfi
  set fj : Fin m := ⟨j, hjm⟩ with hfj
  set cj : Fin n := ⟨j, hj⟩ with hcj
  have e1 : st.2.get j j = some (R fj cj) := hR.entry fj cj
  have e2 : st.2.get i j = some (R fi cj) := hR.entry fi cj
  have hne : fi ≠ fj := by simp [hfi, hfj]; omega
  unfold Mat.qrStep at h
  simp only [e1, e2, Option.bind_eq_bind, Option.bind_some] at h
  set x := R fj cj with hx
  set y := R fi cj with hy
  have hpos : 0 ≤ x * x + y * y := add_nonneg (mul_self_nonneg x) (mul_self_nonneg y)
  obtain ⟨hp0, hpp⟩ := hs _ hpos
  set p := sqrt (x * x + y * y) with hp
  by_cases hc : p ≠ 0 ∧ x ≠ 0 ∧ y ≠ 0
  · rw [if_pos hc] at h
    obtain ⟨hp1, hx1, hy1⟩ := hc
    obtain ⟨g, hg, hG⟩ := repr_givens hne (x / p) (-y / p)
    obtain ⟨r', hr', hR'⟩ := repr_mul hG hR
    obtain ⟨q', hq', hQ'⟩ := repr_mul hG hQ
    have hg' : Mat.givens st.2.m i j (x / p) (-y / p) = some g := by
      rw [hR.rows]; exact hg
    rw [hg', Option.bind_some, hr', Option.bind_some, hq', Option.bind_some] at h
    cases h
    refine ⟨_, _, hQ', hR', ?_⟩
    rw [givensM_mul, if_neg (Ne.symm hne), if_pos rfl, ← hx, ← hy]
    have : -(-y / p) * y + x / p * x = p := by
      field_simp
      linear_combination -hpp
    rw [this]
    exact hp1
  · rw [if_neg hc] at h
    cases h
    exact ⟨Q, R, hQ, hR, h0⟩

theorem decQR_column (hs : IsSqrt sqrt) {m : Nat} {A q r : Mat K} {M : Matrix (Fin m) (Fin 1) K} (hA : Repr A M)
    (hm : 0 < m) (h0 : M ⟨0, hm⟩ 0 ≠ 0) (h : A.decQR sqrt = some (q, r)) {R : Matrix (Fin m) (Fin 1) K} (hR : Repr r R) :
    R ⟨0, hm⟩ 0 ≠ 0 := by
  unfold Mat.decQR at h
  rw [hA.rows, hA.cols, if_pos (by omega), forRange_step (by norm_num)] at h
  simp only [forRange_empty (le_refl 1), zero_add, Option.bind_eq_bind, Option.bind_eq_some_iff, Option.some.injEq,
    Prod.mk.injEq] at h
  obtain ⟨st, ⟨st', h1, rfl⟩, q', h2, rfl, rfl⟩ := h
  have := forRange_inv_of_some (P := fun _ (st : Mat K × Mat K) => ∃ (Q' : Matrix (Fin m) (Fin m) K)
    (R' : Matrix (Fin m) (Fin 1) K), Repr st.1 Q' ∧ Repr st.2 R' ∧ R' ⟨0, hm⟩ 0 ≠ 0) ⟨1, M, repr_one m, hA, h0⟩ (by
      rintro t s s' - ht ⟨Q', R', a1, a2, a3⟩ hf
      exact qrStep_diag hs (by norm_num) (by omega) (by omega) a1 a2 a3 hf) h1
  obtain ⟨Q', R', a1, a2, a3⟩ := this
  have e : R' = R := by
    ext i j
    have := a2.entry i j
    rw [hR.entry i j] at this
    exact (Option.some.inj this).symm
  rw [← e]
  exact a3

end

/-! ### C78 -/

section
variable {m n : Nat} {A p : Mat ℝ} {M : Matrix (Fin m) (Fin n) ℝ}

/-- Square matrices and columns: whatever `pinv` returns is `(AᵀA)⁻¹Aᵀ`. Missing from C78: the other shapes
(`C78_tall_violated`) and inputs of full rank for which nothing finite is returned (`C78_column_violated`). -/
theorem C78_pinv_partial (hA : Repr A M) (hn : 0 < n) (hsh : m = n ∨ n = 1) (h : A.pinv Real.sqrt = some p) :
    ∃ X, Repr p X ∧ X = (M.transpose * M)⁻¹ * M.transpose ∧ X * M = 1 := by
  have hmn : n ≤ m := by
    by_contra hc
    have := C15_qr_wide (A := A) (by rw [hA.rows, hA.cols]; omega)
    unfold Mat.pinv at h
    rw [this] at h
    cases h
  obtain ⟨q, r, R, -, -, h1, h2⟩ := pinv_inv isSqrt_real hA hn hmn hsh
  obtain ⟨p', X, e1, e2, e3, e4⟩ := h2 (fun k hk => by rw [h1 ⟨k, hk⟩] at h; cases h)
  rw [e1] at h
  cases h
  have hX : X = (M.transpose * M)⁻¹ * M.transpose := by
    have := congrArg (fun Y => (M.transpose * M)⁻¹ * Y) e3
    rwa [← Matrix.mul_assoc, Matrix.nonsing_inv_mul _ e4, Matrix.one_mul] at this
  refine ⟨X, e2, hX, ?_⟩
  rw [hX, Matrix.mul_assoc, Matrix.nonsing_inv_mul _ e4]

/-- Square matrices: whatever `pinv` returns is the two-sided inverse, and it returns exactly when the factor `R` of the
QR decomposition has no zero on its diagonal. -/
theorem C78_square {A p : Mat ℝ} {M : Matrix (Fin n) (Fin n) ℝ} (hA : Repr A M) (hn : 0 < n) :
    (∀ p, A.pinv Real.sqrt = some p → ∃ X, Repr p X ∧ X * M = 1 ∧ M * X = 1) ∧
    ∃ q r, A.decQR Real.sqrt = some (q, r) ∧ (A.pinv Real.sqrt = none ↔ ∃ k < n, r.get k k = some 0) := by
  constructor
  · intro p h
    obtain ⟨X, h1, -, h2⟩ := C78_pinv_partial hA hn (Or.inl rfl) h
    exact ⟨X, h1, h2, mul_eq_one_comm.1 h2⟩
  · obtain ⟨q, r, R, h0, hR, h1, h2⟩ := pinv_inv isSqrt_real hA hn le_rfl (Or.inl rfl)
    refine ⟨q, r, h0, fun h => ?_, ?_⟩
    · by_contra hc
      push Not at hc
      obtain ⟨p, X, e, -⟩ := h2 (fun k hk => hc k k.2 (by
        have := hR.entry k k
        rw [this]
        exact congrArg some hk))
      rw [h] at e
      cases e
    · rintro ⟨k, hk, hz⟩
      refine h1 ⟨⟨k, hk⟩, ?_⟩
      have := hR.entry ⟨k, hk⟩ ⟨k, hk⟩
      simp only at this
      rw [hz] at this
      exact (Option.some.inj this).symm

/-- A column whose first entry is not zero: the result is the row `aᵀ / ‖a‖²`. -/
theorem C78_column {A : Mat ℝ} {M : Matrix (Fin m) (Fin 1) ℝ} (hA : Repr A M) (hm : 0 < m) (h0 : M ⟨0, hm⟩ 0 ≠ 0) :
    ∃ (p : Mat ℝ) (X : Matrix (Fin 1) (Fin m) ℝ), A.pinv Real.sqrt = some p ∧ Repr p X ∧ ∀ i, X 0 i = M i 0 / ∑ l, M l 0 * M l 0 := by
  obtain ⟨q, r, R, e0, hR, h1, h2⟩ := pinv_inv isSqrt_real hA (by norm_num) hm (Or.inr rfl)
  obtain ⟨p, X, e1, e2, e3, e4⟩ := h2 (fun k => by
    rw [Subsingleton.elim k 0]
    exact decQR_column isSqrt_real hA hm h0 e0 hR)
  refine ⟨p, X, e1, e2, fun i => ?_⟩
  have h3 := congrFun (congrFun e3 0) i
  rw [Matrix.mul_apply, Fin.sum_univ_one, Matrix.mul_apply, Matrix.transpose_apply] at h3
  simp only [Matrix.transpose_apply] at h3
  have hne : ∑ l, M l 0 * M l 0 ≠ 0 := by
    have : 0 < ∑ l, M l 0 * M l 0 := sum_pos' (fun l _ => mul_self_nonneg _) ⟨⟨0, hm⟩, mem_univ _, mul_self_pos.2 h0⟩
    exact this.ne'
  rw [eq_div_iff hne, ← h3]
  ring

/-- more columns than rows panics -/
theorem C78_wide {A : Mat ℝ} (h : A.m < A.n) : A.pinv Real.sqrt = none := by
  unfold Mat.pinv
  rw [C15_qr_wide h]
  rfl

end

example : (⟨2, 2, [3, 4, 1, 2]⟩ : Mat ℚ).pinv Rat.sqrt = some ⟨2, 2, [1, -2, -1/2, 3/2]⟩ ∧
    (⟨2, 1, [3, 4]⟩ : Mat ℚ).pinv Rat.sqrt = some ⟨1, 2, [3/25, 4/25]⟩ := by decide +kernel

/-- The column `[0, 1]` has the pseudo-inverse `[0, 1]`; the code divides by zero. -/
theorem C78_column_violated : (⟨2, 1, [0, 1]⟩ : Mat ℚ).pinv Rat.sqrt = none := by decide +kernel

/-- Matrices with more rows than columns: for the `5×2` matrix with the columns `[3,4,0,0,0]` and `[1,2,0,0,0]` the result
is far from a left inverse (the factor `R` and `A` are transposed wrongly); for the `3×2` matrix with the columns `[1,0,0]`
and `[1,1,0]` nothing finite is returned. Both have full rank. -/
theorem C78_tall_violated :
    (⟨5, 2, [3, 4, 0, 0, 0, 1, 2, 0, 0, 0]⟩ : Mat ℚ).pinv Rat.sqrt =
      some ⟨2, 5, [3/25, 0, -11/2, 25/2, -11, 25, -11/4, 25/4, 0, 0]⟩ ∧
    (⟨2, 5, [3/25, 0, -11/2, 25/2, -11, 25, -11/4, 25/4, 0, 0]⟩ : Mat ℚ).mul ⟨5, 2, [3, 4, 0, 0, 0, 1, 2, 0, 0, 0]⟩ =
      some ⟨2, 2, [-541/25, 50, -272/25, 25]⟩ ∧
    (⟨3, 2, [1, 0, 0, 1, 1, 0]⟩ : Mat ℚ).pinv Rat.sqrt = none := by decide +kernel

/-! ### C79 -/

section
variable {m n : Nat} {eval jac : Mat ℝ → Option (Mat ℝ)} {f : (Fin n → ℝ) → (Fin m → ℝ)}
  {J : (Fin n → ℝ) → Matrix (Fin m) (Fin n) ℝ}

/-- One iteration subtracts the solution `d` of the normal equations `JᵀJ d = Jᵀ f(x)`, for a square Jacobian or a single
parameter. Missing from C79: more residuals than parameters with at least two parameters, where `pinv` is wrong. -/
theorem C79_step_partial (he : ∀ x : Fin n → ℝ, eval (col x) = some (col (f x)))
    (hj : ∀ x : Fin n → ℝ, ∃ a, jac (col x) = some a ∧ Repr a (J x)) (hn : 0 < n) (hsh : m = n ∨ n = 1)
    {x : Fin n → ℝ} {v : Mat ℝ} (h : Opt.gaussNewtonStep Real.sqrt eval jac (col x) = some v) :
    ∃ d, v = col (x - d) ∧ ((J x).transpose * J x) *ᵥ d = (J x).transpose *ᵥ f x ∧ IsUnit ((J x).transpose * J x).det := by
  obtain ⟨a, a1, a2⟩ := hj x
  unfold Opt.gaussNewtonStep at h
  simp only [a1, he, Option.bind_eq_bind, Option.bind_some, Option.bind_eq_some_iff] at h
  obtain ⟨p, h1, d, h2, h3⟩ := h
  obtain ⟨X, e1, e2, e3⟩ := C78_pinv_partial a2 hn hsh h1
  have hu : IsUnit ((J x).transpose * J x).det := by
    by_contra hc
    rw [Matrix.nonsing_inv_apply_not_isUnit _ hc, Matrix.zero_mul] at e2
    rw [e2, Matrix.zero_mul] at e3
    have := congrFun (congrFun e3 ⟨0, hn⟩) ⟨0, hn⟩
    simp at this
  obtain ⟨w, w1, w2⟩ := Mat.mulVec_is e1.is (col_is (f x))
  obtain rfl : w = d := by simpa [w1] using h2
  have hw : w = col (X *ᵥ f x) := w2.colRepr_of fun i => by
    rw [← Mat.sum_fin]
    simp only [extM_apply, extV_apply]
    rfl
  rw [hw, col_sub] at h3
  cases h3
  refine ⟨X *ᵥ f x, rfl, ?_, hu⟩
  rw [mulVec_mulVec, e2, ← Matrix.mul_assoc, Matrix.mul_nonsing_inv _ hu, Matrix.one_mul]

/-- a solution of the normal equations minimises the residual -/
theorem normal_min {B : Matrix (Fin m) (Fin n) ℝ} {y : Fin m → ℝ} {d : Fin n → ℝ}
    (h : (B.transpose * B) *ᵥ d = B.transpose *ᵥ y) (e : Fin n → ℝ) :
    (y - B *ᵥ d) ⬝ᵥ (y - B *ᵥ d) ≤ (y - B *ᵥ e) ⬝ᵥ (y - B *ᵥ e) := by
  have h0 : B.transpose *ᵥ (y - B *ᵥ d) = 0 := by
    rw [mulVec_sub, mulVec_mulVec, h, sub_self]
  have key : y - B *ᵥ e = (y - B *ᵥ d) + B *ᵥ (d - e) := by
    rw [mulVec_sub]
    abel
  have horth : (y - B *ᵥ d) ⬝ᵥ (B *ᵥ (d - e)) = 0 := by
    rw [dotProduct_mulVec, ← mulVec_transpose, h0, zero_dotProduct]
  rw [key, add_dotProduct, dotProduct_add, dotProduct_add, horth, dotProduct_comm (B *ᵥ (d - e)), horth]
  have : 0 ≤ (B *ᵥ (d - e)) ⬝ᵥ (B *ᵥ (d - e)) := sum_nonneg fun i _ => mul_self_nonneg _
  linarith

/-- The step minimises the linearised residual `‖f(x) + J(x)(z - x)‖` over all `z`. -/
theorem C79_linearised_partial (he : ∀ x : Fin n → ℝ, eval (col x) = some (col (f x)))
    (hj : ∀ x : Fin n → ℝ, ∃ a, jac (col x) = some a ∧ Repr a (J x)) (hn : 0 < n) (hsh : m = n ∨ n = 1)
    {x : Fin n → ℝ} {v : Mat ℝ} (h : Opt.gaussNewtonStep Real.sqrt eval jac (col x) = some v) :
    ∃ y, v = col y ∧ ∀ z, (f x + J x *ᵥ (y - x)) ⬝ᵥ (f x + J x *ᵥ (y - x)) ≤
      (f x + J x *ᵥ (z - x)) ⬝ᵥ (f x + J x *ᵥ (z - x)) := by
  obtain ⟨d, h1, h2, -⟩ := C79_step_partial he hj hn hsh h
  refine ⟨x - d, h1, fun z => ?_⟩
  have := normal_min h2 (x - z)
  rw [show x - d - x = -d by abel, show z - x = -(x - z) by abel, mulVec_neg, mulVec_neg, ← sub_eq_add_neg, ← sub_eq_add_neg]
  exact this

/-- Linear least squares `f(x) = B x - y`: from any start and after any positive number of iterations the result, if there
is one, minimises `‖f‖`; for a square `B` it solves `B x = y`. -/
theorem C79_linear_partial {B : Matrix (Fin m) (Fin n) ℝ} {y : Fin m → ℝ} (he : ∀ x : Fin n → ℝ, eval (col x) = some (col (B *ᵥ x - y)))
    (hj : ∀ x : Fin n → ℝ, ∃ a, jac (col x) = some a ∧ Repr a B) (hn : 0 < n) (hsh : m = n ∨ n = 1) {iters : Nat}
    (hi : 0 < iters) {x₀ : Fin n → ℝ} {v : Mat ℝ} (h : Opt.gaussNewtonMinimize Real.sqrt eval jac iters (col x₀) = some v) :
    ∃ x, v = col x ∧ (∀ z, (B *ᵥ x - y) ⬝ᵥ (B *ᵥ x - y) ≤ (B *ᵥ z - y) ⬝ᵥ (B *ᵥ z - y)) ∧ (m = n → B *ᵥ x = y) := by
  have step : ∀ (x : Fin n → ℝ) w, Opt.gaussNewtonStep Real.sqrt eval jac (col x) = some w →
      ∃ z, w = col z ∧ (B.transpose * B) *ᵥ z = B.transpose *ᵥ y ∧ IsUnit (B.transpose * B).det := by
    intro x w hw
    obtain ⟨d, h1, h2, h3⟩ := C79_step_partial he hj hn hsh hw
    refine ⟨x - d, h1, ?_, h3⟩
    rw [mulVec_sub, h2, mulVec_sub, mulVec_mulVec]
    abel
  have inv := forRange_inv_of_some (P := fun k w => (∃ x : Fin n → ℝ, w = col x) ∧ (0 < k → ∃ z : Fin n → ℝ, w = col z ∧
      (B.transpose * B) *ᵥ z = B.transpose *ᵥ y ∧ IsUnit (B.transpose * B).det)) ⟨⟨x₀, rfl⟩, fun h => by omega⟩ (by
        rintro k w w' - - ⟨⟨x, rfl⟩, -⟩ hw
        obtain ⟨z, h1, h2⟩ := step x w' hw
        exact ⟨⟨z, h1⟩, fun _ => ⟨z, h1, h2⟩⟩) h
  obtain ⟨z, h1, h2, h3⟩ := inv.2 (by omega)
  refine ⟨z, h1, fun e => ?_, fun hmn => ?_⟩
  · have := normal_min h2 e
    have sw : ∀ a b : Fin m → ℝ, (a - b) ⬝ᵥ (a - b) = (b - a) ⬝ᵥ (b - a) := fun a b => by
      rw [← neg_sub b a, neg_dotProduct_neg]
    rw [sw, sw (B *ᵥ e)]
    exact this
  · subst hmn
    have hB : IsUnit B.transpose.det := by
      rw [Matrix.det_mul] at h3
      exact isUnit_of_mul_isUnit_left h3
    rw [← mulVec_mulVec] at h2
    have := congrArg (fun u => B.transpose⁻¹ *ᵥ u) h2
    simpa [mulVec_mulVec, Matrix.nonsing_inv_mul _ hB, ← Matrix.mul_assoc] using this

end

/-- Three residuals `a + b - 3, b - 2, 0` of two parameters, with the exact solution `a = 1, b = 2`: no finite result, because
`pinv` of the `3×2` Jacobian fails. -/
theorem C79_tall_violated :
    Opt.gaussNewtonMinimize (K := ℚ) Rat.sqrt
      (fun x => do let a ← x.vget 0; let b ← x.vget 1; some ⟨3, 1, [a + b - 3, b - 2, 0]⟩)
      (fun _ => some ⟨3, 2, [1, 0, 0, 1, 1, 0]⟩) 1 ⟨2, 1, [0, 0]⟩ = none := by decide +kernel

example : Opt.gaussNewtonMinimize (K := ℚ) Rat.sqrt
      (fun x => do let a ← x.vget 0; some ⟨2, 1, [3 * a - 1, 4 * a - 2]⟩)
      (fun _ => some ⟨2, 1, [3, 4]⟩) 2 ⟨1, 1, [7]⟩ = some ⟨1, 1, [11/25]⟩ := by decide +kernel

end Verif
