import Verif.NewtonConv
import Mathlib.Algebra.Order.BigOperators.Group.Finset
import Mathlib.Algebra.Order.Ring.Abs
import Mathlib.Tactic.FieldSimp

/-! # Classes of matrices on which the LU decomposition works

The pivot of `dec_lu` is the largest entry of the column by value, which may be zero.  Two classes of matrices are closed
under elimination and have the pivots on the diagonal: strictly column diagonally dominant matrices with positive
diagonal, and M-matrices.  For them `dec_lu`, `det`, `solve` and `inv` are right. -/

namespace Verif
open Finset Matrix

namespace Mat
variable {K : Type} [Field K] [LinearOrder K]

/-- the array after the elimination step `i` without interchange -/
def elim (i : ℕ) (f : ℕ → ℕ → K) (r c : ℕ) : K :=
  if i < r ∧ c = i then fac f i r else if i < r ∧ i < c then f r c - fac f i r * f i c else f r c

/-- Elimination with a property `Q i` of the array that holds before step `i` and puts the strict maximum of the column on
    the diagonal: no rows are interchanged and no pivot is zero. -/
theorem decLU_of_invariant {n : ℕ} {A : Mat K} {A0 : ℕ → ℕ → K} (hA : A.Is n n A0) (Q : ℕ → (ℕ → ℕ → K) → Prop)
    (h0 : Q 0 A0) (hmax : ∀ i < n, ∀ f, Q i f → f i i ≠ 0 ∧ ∀ r, i < r → r < n → f r i < f i i)
    (hstep : ∀ i < n, ∀ f, Q i f → Q (i + 1) (elim i f)) :
    ∃ l u, A.decLU = some (l, u, one n) ∧ ∀ i < n, u.get i i ≠ some 0 := by
  obtain ⟨s, e1, f, hf, hs, -, hd⟩ := forRange_inv (a := 0) (b := n) (s := (A, one n)) (f := luStep)
    (fun i s => ∃ f, s.1.Is n n f ∧ s.2 = one n ∧ Q i f ∧ ∀ c < i, f c c ≠ 0) (by omega)
    ⟨A0, hA, rfl, h0, by simp⟩ (by
      rintro i ⟨a, P⟩ _ hi ⟨f, hf, hP, hQ, hd⟩
      obtain ⟨h1, h2⟩ := hmax i hi f hQ
      obtain ⟨pm, p1, p2, p3, -, p4⟩ := pivotLoop_is hf hi
      have hpm : pm.2 = i := by
        by_contra hne
        exact absurd (h2 pm.2 (by omega) p3) (not_lt.mpr (p4 i le_rfl hi))
      obtain ⟨b, b1, b2⟩ := elimAll_is hf hi
      refine ⟨(b, P), ?_, elim i f, b2, hP, hstep i hi f hQ, fun c hc => ?_⟩
      · simp only at p1
        simp only [luStep, p1, pivotSwap, hpm, ne_eq, not_true_eq_false, if_false, Option.bind_eq_bind,
          Option.bind_some]
        rw [show a.n = n from hf.hn, b1]
        rfl
      · rw [elim, if_neg (by omega), if_neg (by omega)]
        rcases Nat.lt_succ_iff_lt_or_eq.mp hc with h | rfl
        · exact hd c h
        · exact h1)
  obtain ⟨L, l1, l2⟩ := regionLoop (m := n) (n := n) (a := 1) (b := n) (fun _ => 0) (fun i => i) f
    (one_is (K := K) n) (le_refl n) (by intro i _ h; exact h.le)
    (fun l i j => do
      let x ← s.1.get i j
      l.set i j x) (by
      intro B i j _ h3 _ h4 _
      rw [hf.get h3 (by omega)]; rfl)
  obtain ⟨U, u1, u2⟩ := regionLoop (m := n) (n := n) (a := 0) (b := n) (fun i => i) (fun _ => n) f
    (one_is (K := K) n) (le_refl n) (by intro i _ _; exact le_refl n)
    (fun l i j => do
      let x ← s.1.get i j
      l.set i j x) (by
      intro B i j _ h3 _ h4 _
      rw [hf.get h3 h4]; rfl)
  refine ⟨L, U, ?_, fun i hi hu => ?_⟩
  · simp only [decLU, hA.hm, hA.hn, if_true, e1, hf.hn, Option.bind_eq_bind, Option.bind_some] at l1 u1 ⊢
    rw [l1]
    simp only [Option.bind_some]
    rw [u1, hs]
    rfl
  · rw [u2.get hi hi, if_pos ⟨Nat.zero_le _, hi, le_rfl, hi⟩] at hu
    exact hd i hi (Option.some.inj hu)

variable [IsStrictOrderedRing K]

/-- column dominance of the part that is still to be eliminated -/
def DomInv (n i : ℕ) (f : ℕ → ℕ → K) : Prop :=
  ∀ c, i ≤ c → c < n → ∑ r ∈ (Ico i n).erase c, |f r c| < f c c

theorem DomInv.max {n i : ℕ} (hi : i < n) {f : ℕ → ℕ → K} (h : DomInv n i f) :
    f i i ≠ 0 ∧ ∀ r, i < r → r < n → f r i < f i i := by
  have h1 := h i le_rfl hi
  refine ⟨(lt_of_le_of_lt (sum_nonneg fun r _ => abs_nonneg _) h1).ne', fun r hr hrn => ?_⟩
  refine (le_abs_self _).trans_lt (lt_of_le_of_lt ?_ h1)
  exact single_le_sum (f := fun r => |f r i|) (fun r _ => abs_nonneg _)
    (mem_erase.mpr ⟨by omega, mem_Ico.mpr ⟨by omega, hrn⟩⟩)

theorem DomInv.step {n i : ℕ} (hi : i < n) {f : ℕ → ℕ → K} (h : DomInv n i f) : DomInv n (i + 1) (elim i f) := by
  intro c hc hcn
  have hi0 : 0 < f i i := lt_of_le_of_lt (sum_nonneg fun r _ => abs_nonneg _) (h i le_rfl hi)
  have hfac : ∀ r, fac f i r = f r i / f i i := fun r => by rw [fac, if_pos hi0.ne']
  set S := (Ico (i + 1) n).erase c with hS
  have hmem : ∀ r ∈ S, i < r := fun r hr => by
    have := (mem_Ico.mp (mem_erase.mp hr).2).1
    omega
  have hiS : i ∉ S := fun hh => lt_irrefl _ (hmem i hh)
  -- column `c`
  have e1 : (Ico i n).erase c = insert i S := by
    ext r
    simp only [hS, mem_erase, mem_Ico, mem_insert]
    omega
  have h1 := h c (by omega) hcn
  rw [e1, sum_insert hiS] at h1
  -- column `i`
  have hcS : c ∉ S := by simp [hS]
  have e2 : (Ico i n).erase i = insert c S := by
    ext r
    simp only [hS, mem_erase, mem_Ico, mem_insert]
    omega
  have h2 := h i le_rfl hi
  rw [e2, sum_insert hcS] at h2
  rw [show elim i f c c = f c c - fac f i c * f i c by rw [elim, if_neg (by omega), if_pos (by omega)]]
  have h3 : ∑ r ∈ S, |elim i f r c| ≤ ∑ r ∈ S, |f r c| + |f i c| / f i i * ∑ r ∈ S, |f r i| := by
    rw [mul_sum, ← sum_add_distrib]
    refine sum_le_sum fun r hr => ?_
    rw [show elim i f r c = f r c - fac f i r * f i c by
      have := hmem r hr
      rw [elim, if_neg (by omega), if_pos (by omega)], hfac]
    refine (abs_sub _ _).trans (le_of_eq ?_)
    rw [abs_mul, abs_div, abs_of_pos hi0]
    ring
  have h4 : |f i c| / f i i * ∑ r ∈ S, |f r i| ≤ |f i c| / f i i * (f i i - |f c i|) :=
    mul_le_mul_of_nonneg_left (by linarith) (div_nonneg (abs_nonneg _) hi0.le)
  have h5 : |f i c| / f i i * (f i i - |f c i|) = |f i c| - |f c i| / f i i * |f i c| := by
    field_simp
  have h6 : fac f i c * f i c ≤ |f c i| / f i i * |f i c| := by
    rw [hfac]
    refine (le_abs_self _).trans (le_of_eq ?_)
    rw [abs_mul, abs_div, abs_of_pos hi0]
  linarith

/-- M-matrix property of the part that is still to be eliminated -/
def MInv (n : ℕ) (w : ℕ → K) (i : ℕ) (f : ℕ → ℕ → K) : Prop :=
  (∀ r c, i ≤ r → r < n → i ≤ c → c < n → r ≠ c → f r c ≤ 0) ∧ ∀ r, i ≤ r → r < n → 0 < ∑ c ∈ Ico i n, f r c * w c

theorem MInv.pos {n i : ℕ} (hi : i < n) {w : ℕ → K} (hw : ∀ c < n, 0 < w c) {f : ℕ → ℕ → K} (h : MInv n w i f) :
    0 < f i i := by
  have h1 := h.2 i le_rfl hi
  rw [Finset.sum_eq_sum_Ico_succ_bot hi] at h1
  have h2 : ∑ c ∈ Ico (i + 1) n, f i c * w c ≤ 0 := sum_nonpos fun c hc => by
    have := mem_Ico.mp hc
    exact mul_nonpos_of_nonpos_of_nonneg (h.1 i c le_rfl hi (by omega) (by omega) (by omega)) (hw c (by omega)).le
  have h3 : 0 < f i i * w i := by linarith
  exact (mul_pos_iff_of_pos_right (hw i hi)).mp h3

theorem MInv.max {n i : ℕ} (hi : i < n) {w : ℕ → K} (hw : ∀ c < n, 0 < w c) {f : ℕ → ℕ → K} (h : MInv n w i f) :
    f i i ≠ 0 ∧ ∀ r, i < r → r < n → f r i < f i i :=
  ⟨(h.pos hi hw).ne', fun r hr hrn => lt_of_le_of_lt (h.1 r i hr.le hrn le_rfl hi (by omega)) (h.pos hi hw)⟩

theorem MInv.step {n i : ℕ} (hi : i < n) {w : ℕ → K} (hw : ∀ c < n, 0 < w c) {f : ℕ → ℕ → K} (h : MInv n w i f) :
    MInv n w (i + 1) (elim i f) := by
  have hi0 := h.pos hi hw
  have hfac : ∀ r, fac f i r = f r i / f i i := fun r => by rw [fac, if_pos hi0.ne']
  have he : ∀ r c, i < r → i < c → elim i f r c = f r c - f r i / f i i * f i c := fun r c hr hc => by
    rw [elim, if_neg (by omega), if_pos (by omega), hfac]
  constructor
  · intro r c hr hrn hc hcn hne
    rw [he r c hr hc]
    have h1 := h.1 r c (by omega) hrn (by omega) hcn hne
    have h2 := h.1 r i (by omega) hrn le_rfl hi (by omega)
    have h3 := h.1 i c le_rfl hi (by omega) hcn (by omega)
    have := mul_nonneg_of_nonpos_of_nonpos (div_nonpos_of_nonpos_of_nonneg h2 hi0.le) h3
    linarith
  · intro r hr hrn
    have h1 := h.2 r (by omega) hrn
    have h2 := h.2 i le_rfl hi
    rw [Finset.sum_eq_sum_Ico_succ_bot hi] at h1 h2
    have e : ∑ c ∈ Ico (i + 1) n, elim i f r c * w c =
        ∑ c ∈ Ico (i + 1) n, f r c * w c - f r i / f i i * ∑ c ∈ Ico (i + 1) n, f i c * w c := by
      rw [mul_sum, ← sum_sub_distrib]
      refine sum_congr rfl fun c hc => ?_
      have := mem_Ico.mp hc
      rw [he r c (by omega) (by omega)]
      ring
    rw [e]
    have h3 := h.1 r i (by omega) hrn le_rfl hi (by omega)
    have h4 := mul_nonneg_of_nonpos_of_nonpos (div_nonpos_of_nonpos_of_nonneg h3 hi0.le) (neg_nonpos.mpr h2.le)
    have h5 : f r i / f i i * (f i i * w i) = f r i * w i := by field_simp
    nlinarith

end Mat

variable {K : Type} [Field K] [LinearOrder K] [IsStrictOrderedRing K]

/-- Strictly column diagonally dominant with positive diagonal -/
def ColDominant {n : ℕ} (M : Matrix (Fin n) (Fin n) K) : Prop := ∀ c, ∑ r ∈ univ.erase c, |M r c| < M c c

/-- M-matrix: no positive entry off the diagonal, and `M w > 0` for some `w > 0` -/
def MMatrix {n : ℕ} (M : Matrix (Fin n) (Fin n) K) : Prop :=
  (∀ r c, r ≠ c → M r c ≤ 0) ∧ ∃ w : Fin n → K, (∀ i, 0 < w i) ∧ ∀ i, 0 < (M *ᵥ w) i

theorem decLU_good {n : ℕ} {A : Mat K} {M : Matrix (Fin n) (Fin n) K} (hA : Repr A M) (h : ColDominant M ∨ MMatrix M) :
    ∃ l u, A.decLU = some (l, u, Mat.one n) ∧ ∀ i < n, u.get i i ≠ some 0 := by
  rcases h with h | ⟨h, w, hw, hMw⟩
  · refine Mat.decLU_of_invariant hA.is (Mat.DomInv n) (fun c _ hc => ?_) (fun i hi f hf => hf.max hi)
      (fun i hi f hf => hf.step hi)
    have := h ⟨c, hc⟩
    rw [extM_lt M hc hc]
    refine lt_of_le_of_lt (le_of_eq ?_) this
    have hc' : c ∈ Ico 0 n := by simp [hc]
    have hc'' : (⟨c, hc⟩ : Fin n) ∈ (univ : Finset (Fin n)) := mem_univ _
    rw [sum_erase_eq_sub hc', sum_erase_eq_sub hc'', ← range_eq_Ico, ← Mat.sum_fin n (fun r => |extM M r c|), extM_lt M hc hc]
    congr 1
    exact sum_congr rfl fun r _ => by rw [extM_lt M r.2 hc]
  · refine Mat.decLU_of_invariant hA.is (Mat.MInv n (extV w)) ⟨fun r c _ hr _ hc hne => ?_, fun r _ hr => ?_⟩
      (fun i hi f hf => hf.max hi (fun c hc => ?_)) (fun i hi f hf => hf.step hi (fun c hc => ?_))
    · rw [extM_lt M hr hc]
      exact h _ _ (fun e => hne (congrArg Fin.val e))
    · rw [← range_eq_Ico, ← Mat.sum_fin]
      have := hMw ⟨r, hr⟩
      simp only [mulVec, dotProduct] at this
      simpa only [extM_lt M hr (Fin.is_lt _), extV_apply] using this
    · have := hw ⟨c, hc⟩
      rwa [← extV_apply w ⟨c, hc⟩] at this
    · have := hw ⟨c, hc⟩
      rwa [← extV_apply w ⟨c, hc⟩] at this

/-- C11: for strictly column diagonally dominant matrices with positive diagonal and for M-matrices `dec_lu` performs no
    interchange and returns `P = 1`, unit lower triangular `L` and upper triangular `U` with `M = L U`. -/
theorem C11_lu_dominant {n : ℕ} {A : Mat K} {M : Matrix (Fin n) (Fin n) K} (hA : Repr A M) (h : ColDominant M ∨ MMatrix M) :
    ∃ l u, ∃ L U : Matrix (Fin n) (Fin n) K, A.decLU = some (l, u, Mat.one n) ∧ Repr l L ∧ Repr u U ∧
      (∀ i, L i i = 1) ∧ (∀ i j, i < j → L i j = 0) ∧ (∀ i j, j < i → U i j = 0) ∧ (∀ i, U i i ≠ 0) ∧ M = L * U := by
  obtain ⟨l, u, h1, h2⟩ := decLU_good hA h
  obtain ⟨L, U, σ, a1, a2, a3, a4, a5, a6, a7⟩ := C11_lu_partial hA h1 (fun i hi => h2 i (by omega))
  refine ⟨l, u, L, U, h1, a1, a2, a4, a5, a6, fun i hi => h2 i i.2 ?_, ?_⟩
  · rw [a2.is.get i.2 i.2, extM_apply, hi]
  · have : σ.permMatrix K = 1 := a3.inj (repr_one n)
    rwa [this, Matrix.one_mul] at a7

/-- The matrices of both classes are `Regular`. -/
theorem regular_dominant {n : ℕ} {M : Matrix (Fin n) (Fin n) K} (h : ColDominant M ∨ MMatrix M) : Regular M := by
  intro A l u p hA h1
  obtain ⟨l', u', h2, h3⟩ := decLU_good hA h
  rw [h1] at h2
  cases h2
  exact h3

/-- C12: `solve` returns the solution for every right-hand side. -/
theorem C12_solve_dominant {n : ℕ} {A : Mat K} {M : Matrix (Fin n) (Fin n) K} (hA : Repr A M) (h : ColDominant M ∨ MMatrix M)
    (y : Fin n → K) : ∃ x, A.solveV (col y) = some (col x) ∧ M *ᵥ x = y :=
  solveV_regular hA (regular_dominant h) y

/-- C13: `inv` returns the inverse. -/
theorem C13_inv_dominant {n : ℕ} {A : Mat K} {M : Matrix (Fin n) (Fin n) K} (hA : Repr A M) (h : ColDominant M ∨ MMatrix M) :
    ∃ B N, A.inv = some B ∧ Repr B N ∧ M * N = 1 ∧ N * M = 1 := by
  obtain ⟨l, u, h1, h2⟩ := decLU_good hA h
  obtain ⟨a, b⟩ := C13_inv_partial hA
  obtain ⟨B, hB⟩ := b l u _ h1 h2
  obtain ⟨N, h3⟩ := a B hB
  exact ⟨B, N, hB, h3⟩

/-- C10: `det` is the determinant. -/
theorem C10_det_dominant {n : ℕ} {A : Mat K} {M : Matrix (Fin n) (Fin n) K} (hA : Repr A M) (h : ColDominant M ∨ MMatrix M) :
    A.det = some M.det := by
  rcases Nat.lt_or_ge n 3 with hn | hn
  · exact C10_det_small hA (by omega)
  · obtain ⟨l, u, h1, h2⟩ := decLU_good hA h
    obtain ⟨σ, a1, -, a2⟩ := C10_det_partial hA hn h1 h2
    refine a2 (Or.inl ?_)
    have : σ.permMatrix K = 1 := a1.inj (repr_one n)
    ext i
    by_contra hne
    have hne : σ i ≠ i := fun e => hne (by rw [e]; rfl)
    have h1 : (σ.permMatrix K * (1 : Matrix (Fin n) (Fin n) K)) i i = (1 : Matrix (Fin n) (Fin n) K) i i := by rw [this, Matrix.one_mul]
    rw [permMatrix_mul_apply, Matrix.one_apply_ne hne, Matrix.one_apply_eq] at h1
    exact zero_ne_one h1

/-- the discrete Laplacian is an M-matrix (but not strictly dominant): `solve`, `det` and `inv` work -/
example : MMatrix (!![2, -1, 0; -1, 2, -1; 0, -1, 2] : Matrix (Fin 3) (Fin 3) ℚ) ∧
    ¬ ColDominant (!![2, -1, 0; -1, 2, -1; 0, -1, 2] : Matrix (Fin 3) (Fin 3) ℚ) ∧
    (⟨3, 3, [2, -1, 0, -1, 2, -1, 0, -1, 2]⟩ : Mat ℚ).solveV ⟨3, 1, [1, 0, 1]⟩ = some ⟨3, 1, [1, 1, 1]⟩ ∧
    (⟨3, 3, [2, -1, 0, -1, 2, -1, 0, -1, 2]⟩ : Mat ℚ).det = some 4 :=
  ⟨⟨fun r c h => by fin_cases r <;> fin_cases c <;> first | exact absurd rfl h | decide +kernel, ![3, 4, 3], by decide +kernel, by decide +kernel⟩, fun h => absurd (h 1) (by decide +kernel),
    by decide +kernel, by decide +kernel⟩

/-- a dominant matrix with entries of both signs -/
example : ColDominant (!![4, -2, 1; 1, 5, -3; -2, 2, 6] : Matrix (Fin 3) (Fin 3) ℚ) ∧
    (⟨3, 3, [4, 1, -2, -2, 5, 2, 1, -3, 6]⟩ : Mat ℚ).decLU.map (fun r => r.2.2) = some (Mat.one 3) ∧
    (⟨3, 3, [4, 1, -2, -2, 5, 2, 1, -3, 6]⟩ : Mat ℚ).det = some 156 := by
  refine ⟨?_, by decide +kernel, by decide +kernel⟩
  unfold ColDominant
  decide +kernel

end Verif
