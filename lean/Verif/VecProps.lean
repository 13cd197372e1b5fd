import Verif.MatProps

/-!
# Properties of vectors: C21, C23, C24, C25
-/

namespace Verif
variable {K : Type}

section Field
variable [Field K]

/-! ## C21 inner and outer products -/

/-- `dotp` of column vectors is the sum of products. -/
theorem C21_dotp {n : Nat} {u v : Mat K} {x y : Fin n → K} (hu : ColRepr u x) (hv : ColRepr v y)
    (hn : 0 < n) : u.dotp v = some (∑ i, x i * y i) := by
  rw [Mat.dotp_is hu.is hv.is hn, ← Mat.sum_fin]
  simp [extV_apply]

/-- `dotp` is symmetric and linear in the first (hence in each) argument. -/
theorem C21_dotp_laws {n : Nat} {u u' v : Mat K} {x x' y : Fin n → K} (hu : ColRepr u x)
    (hu' : ColRepr u' x') (hv : ColRepr v y) (hn : 0 < n) (s : K) :
    u.dotp v = v.dotp u ∧
    ((u.add u').bind fun w => w.dotp v) = (u.dotp v).bind (fun a => (u'.dotp v).map (fun b => a + b)) ∧
    (u.mulScalar s).dotp v = (u.dotp v).map (fun a => s * a) := by
  obtain ⟨w, h1, h2⟩ := Mat.add_is hu.is hu'.is
  have e1 := Mat.dotp_is h2 hv.is hn
  have e2 := Mat.dotp_is (Mat.mulScalar_is hu.is s) hv.is hn
  have a := Mat.dotp_is hu.is hv.is hn
  have b := Mat.dotp_is hu'.is hv.is hn
  have c := Mat.dotp_is hv.is hu.is hn
  refine ⟨?_, ?_, ?_⟩
  · rw [a, c]; simp only [mul_comm]
  · rw [h1, Option.bind_some, e1, a, b]
    simp [add_mul, Finset.sum_add_distrib]
  · rw [e2, a]
    simp only [Option.map_some, Finset.mul_sum, Option.some.injEq]
    exact Finset.sum_congr rfl (fun _ _ => by ring)

/-- Every shape misuse of `dotp` panics. -/
theorem C21_dotp_panic (u v : Mat K) (h : ¬ (u.m ≠ 0 ∧ u.n = 1 ∧ v.n = 1 ∧ u.m = v.m)) :
    u.dotp v = none := by
  unfold Mat.dotp
  rw [if_neg]
  rintro ⟨h1, h2, h3, h4⟩
  exact h ⟨h1, h2, h4 ▸ h2, h3⟩

/-- `dyadp` of column vectors is the outer product. -/
theorem C21_dyadp {m n : Nat} {u v : Mat K} {x : Fin m → K} {y : Fin n → K} (hu : ColRepr u x)
    (hv : ColRepr v y) : ∃ C, u.dyadp v = some C ∧ Repr C (fun i j => x i * y j) := by
  obtain ⟨C, h1, h2⟩ := Mat.dyadp_is hu.is hv.is
  exact ⟨C, h1, h2.repr_of (fun i j => by simp [extV_apply])⟩

/-- The "panics on shape misuse" part fails for `dyadp`: two row vectors of length 3 are accepted and yield a
    1×1 matrix. -/
theorem C21_dyadp_violated :
    (⟨1, 3, [2, 3, 4]⟩ : Mat ℚ).dyadp ⟨1, 3, [5, 6, 7]⟩ = some ⟨1, 1, [10]⟩ := by decide +kernel

example : (⟨3, 1, [1, 2, 3]⟩ : Mat ℚ).dotp ⟨3, 1, [4, 5, -6]⟩ = some (-4) ∧
    (⟨3, 1, [1, 2, 3]⟩ : Mat ℚ).dyadp ⟨2, 1, [4, 5]⟩ = some ⟨3, 2, [4, 8, 12, 5, 10, 15]⟩ := by
  decide +kernel
example : (⟨3, 1, [1, 2, 3]⟩ : Mat ℚ).dotp ⟨3, 1, [4, 5, -6]⟩ =
    some (∑ i, (![1, 2, 3] : Fin 3 → ℚ) i * (![4, 5, -6] : Fin 3 → ℚ) i) :=
  C21_dotp (by simp [ColRepr]) (by simp [ColRepr]) (by norm_num)

/-! ## C25 matrix-vector products -/

/-- `A * x` for a column vector. -/
theorem C25_mulVec {m n : Nat} {A v : Mat K} {M : Matrix (Fin m) (Fin n) K} {x : Fin n → K}
    (hA : Repr A M) (hv : ColRepr v x) : ∃ w, A.mulVec v = some w ∧ ColRepr w (M.mulVec x) := by
  obtain ⟨w, h1, h2⟩ := Mat.mulVec_is hA.is hv.is
  refine ⟨w, h1, h2.colRepr_of ?_⟩
  intro i
  rw [← Mat.sum_fin]
  simp [Matrix.mulVec, dotProduct, extM_apply, extV_apply]

/-- `x * A` for a row vector. -/
theorem C25_vecMul {m n : Nat} {A v : Mat K} {M : Matrix (Fin m) (Fin n) K} {x : Fin m → K}
    (hA : Repr A M) (hv : RowRepr v x) : ∃ w, v.vecMul A = some w ∧ RowRepr w (Matrix.vecMul x M) := by
  obtain ⟨w, h1, h2⟩ := Mat.vecMul_is hA.is hv.is
  refine ⟨w, h1, h2.rowRepr_of ?_⟩
  intro i
  rw [← Mat.sum_fin]
  simp [Matrix.vecMul, dotProduct, extM_apply, extV_apply]

/-- Mismatching dimensions panic. -/
theorem C25_panic (A v : Mat K) :
    (A.n ≠ v.m → A.mulVec v = none) ∧ (v.n ≠ A.m → v.vecMul A = none) := by
  constructor
  · intro h; simp [Mat.mulVec, h]
  · intro h; simp [Mat.vecMul, h]

/-- `(A * B) * x = A * (B * x)`. -/
theorem C25_assoc {m n p : Nat} {A B v : Mat K} {M : Matrix (Fin m) (Fin n) K}
    {N : Matrix (Fin n) (Fin p) K} {x : Fin p → K} (hA : Repr A M) (hB : Repr B N)
    (hv : ColRepr v x) :
    ((A.mul B).bind fun C => C.mulVec v) = ((B.mulVec v).bind fun w => A.mulVec w) ∧
    ((B.mulVec v).bind fun w => A.mulVec w) ≠ none := by
  obtain ⟨C, h1, r1⟩ := repr_mul hA hB
  obtain ⟨w, h2, r2⟩ := C25_mulVec r1 hv
  obtain ⟨u, h3, r3⟩ := C25_mulVec hB hv
  obtain ⟨w', h4, r4⟩ := C25_mulVec hA r3
  rw [h1, h3, Option.bind_some, Option.bind_some, h2, h4]
  refine ⟨?_, by simp⟩
  rw [r2, r4, Matrix.mulVec_mulVec]

example : exB.mulVec ⟨3, 1, [1, 2, 3]⟩ = some ⟨2, 1, [5, 22]⟩ ∧
    (⟨1, 2, [1, 2]⟩ : Mat ℚ).vecMul exB = some ⟨1, 3, [0, 8, 11]⟩ ∧
    exB.mulVec ⟨2, 1, [1, 2]⟩ = none := by decide +kernel

/-! ## C24 vector slices -/

/-- `get_slice(s,e)` of a row or column vector returns the entries `s..=e` as a column vector. -/
theorem C24_get {n s e : Nat} {v : Mat K} {x : Fin n → K} (hv : ColRepr v x ∨ RowRepr v x)
    (hse : s ≤ e) (he : e < n) :
    ∃ w, v.vgetSlice s e = some w ∧
      ColRepr w (fun i : Fin (e - s + 1) => x ⟨s + i, by omega⟩) := by
  have hg : ∀ i, i < n → v.vget i = some (extV x i) := by
    intro i hi
    rcases hv with h | h
    · exact h.is.vget_col hi
    · exact h.is.vget_row hi
  have hd : (if v.m = 1 then v.n else v.m) = n := by
    rcases hv with h | h
    · rw [h]; simp only; split <;> omega
    · rw [h]; simp
  obtain ⟨w, h1, h2⟩ := Mat.vgetSlice_of hg hd hse he
  exact ⟨w, h1, h2.colRepr_of (fun i => extV_lt x _)⟩

/-- Out-of-range or reversed ranges panic. -/
theorem C24_get_panic {n s e : Nat} {v : Mat K} {x : Fin n → K} (hv : ColRepr v x ∨ RowRepr v x)
    (h : ¬ (s ≤ e ∧ e < n)) : v.vgetSlice s e = none := by
  unfold Mat.vgetSlice
  rw [if_neg]
  rintro ⟨h1, h2⟩
  rcases hv with hv | hv
  · rw [hv] at h1
    simp only at h1
    split at h1 <;> omega
  · rw [hv] at h1
    simp only [if_true] at h1
    omega

/-- `set_slice(w,s)` on column vectors overwrites exactly the entries `s .. s+len`; reading back returns `w`.
    Partial: column vectors only, see `C24_row_violated`. -/
theorem C24_set_partial {n p s : Nat} {v w : Mat K} {x : Fin n → K} {y : Fin p → K}
    (hv : ColRepr v x) (hw : ColRepr w y) (hs : s + p ≤ n) :
    ∃ u, v.vsetSlice w s = some u ∧
      ColRepr u (fun i => if h : s ≤ i ∧ i < s + p then y ⟨i - s, by omega⟩ else x i) ∧
      (0 < p → u.vgetSlice s (s + p - 1) = some w) := by
  obtain ⟨u, h1, h2⟩ := Mat.vsetSlice_is hv.is hw.is hs
  have h3 : ColRepr u (fun i : Fin n => if h : s ≤ i ∧ i < s + p then y ⟨i - s, by omega⟩ else x i) := by
    apply h2.colRepr_of
    intro i
    by_cases h : s ≤ i ∧ (i : Nat) < s + p
    · rw [if_pos h, dif_pos h, extV_lt]
    · rw [if_neg h, dif_neg h, extV_apply]
  refine ⟨u, h1, h3, ?_⟩
  intro hp
  obtain ⟨w', h4, h5⟩ := C24_get (Or.inl h3) (s := s) (e := s + p - 1) (by omega) (by omega)
  rw [h4]; congr 1
  have hlen : s + p - 1 - s + 1 = p := by omega
  refine h5.is.ext (g := fun i _ => extV y i) (by rw [hlen]; exact hw.is) ?_
  intro i j hi hj
  rw [extV_lt _ hi, extV_lt y (by omega)]
  simp only
  rw [dif_pos (by omega)]
  congr 2
  omega

omit [Field K] in
/-- A slice that does not fit panics. -/
theorem C24_set_panic (v w : Mat K) (s : Nat) (h : v.m < s + w.m) : v.vsetSlice w s = none := by
  simp [Mat.vsetSlice, Nat.not_le.2 h]

/-- The property fails for row vectors: `set_slice` on a row vector of length 3 rejects a valid position and
    copies only one entry of a two-entry slice. -/
theorem C24_row_violated :
    (⟨1, 3, [1, 2, 3]⟩ : Mat ℚ).vsetSlice ⟨1, 2, [8, 9]⟩ 1 = none ∧
    (⟨1, 3, [1, 2, 3]⟩ : Mat ℚ).vsetSlice ⟨1, 2, [8, 9]⟩ 0 = some ⟨1, 3, [8, 2, 3]⟩ := by
  decide +kernel

example : (⟨4, 1, [1, 2, 3, 4]⟩ : Mat ℚ).vgetSlice 1 2 = some ⟨2, 1, [2, 3]⟩ ∧
    (⟨4, 1, [1, 2, 3, 4]⟩ : Mat ℚ).vsetSlice ⟨2, 1, [8, 9]⟩ 2 = some ⟨4, 1, [1, 2, 8, 9]⟩ ∧
    (⟨1, 4, [1, 2, 3, 4]⟩ : Mat ℚ).vgetSlice 2 1 = none := by decide +kernel

end Field

/-! ## C23 argmax / argmin -/

/-- `argmax` returns the first index of a largest entry, `argmin` the first index of a smallest one, for row and
    column vectors. -/
theorem C23_arg [Field K] [LinearOrder K] {n : Nat} {v : Mat K} {x : Fin n → K}
    (hv : ColRepr v x ∨ RowRepr v x) (hn : 0 < n) :
    (∃ k : Fin n, v.argmax = some k ∧ (∀ i, x i ≤ x k) ∧ ∀ i, i < k → x i < x k) ∧
    (∃ k : Fin n, v.argmin = some k ∧ (∀ i, x k ≤ x i) ∧ ∀ i, i < k → x k < x i) := by
  have hg : ∀ i, i < n → v.vget i = some (extV x i) := by
    intro i hi
    rcases hv with h | h
    · exact h.is.vget_col hi
    · exact h.is.vget_row hi
  have hd : max v.m v.n = n := by
    rcases hv with h | h <;> rw [h] <;> simp only <;> omega
  constructor
  · obtain ⟨k, h1, h2, h3, h4⟩ := Mat.argmax_of hg hd hn
    refine ⟨⟨k, h2⟩, h1, ?_, ?_⟩
    · intro i
      have := h3 i i.2
      rwa [extV_apply, extV_lt x h2] at this
    · intro i hi
      have := h4 i hi
      rwa [extV_apply, extV_lt x h2] at this
  · obtain ⟨k, h1, h2, h3, h4⟩ := Mat.argmin_of hg hd hn
    refine ⟨⟨k, h2⟩, h1, ?_, ?_⟩
    · intro i
      have := h3 i i.2
      rwa [extV_apply, extV_lt x h2] at this
    · intro i hi
      have := h4 i hi
      rwa [extV_apply, extV_lt x h2] at this

/-- The empty vector panics. -/
theorem C23_empty [LT K] [DecidableLT K] (v : Mat K) (hv : v.m = 0 ∨ v.n = 0) :
    v.argmax = none ∧ v.argmin = none := by
  have : v.vget 0 = none := by
    unfold Mat.vget
    rcases hv with h | h
    · simp [h]
    · by_cases h1 : v.m = 1
      · simp [h, h1]
      · simp [h, h1]
  simp [Mat.argmax, Mat.argmin, this]

example : (⟨4, 1, [1, 7, -2, 7]⟩ : Mat ℚ).argmax = some 1 ∧
    (⟨1, 4, [1, -2, 7, -2]⟩ : Mat ℚ).argmin = some 1 := by decide +kernel

end Verif
