import Verif.FloatLU
import Verif.LUProps

/-!
# Properties C89, C90: rounding errors of triangular substitution, LU decomposition, `solve` and `inv`

Everything is stated as a backward error: what is computed is the exact result for a slightly different matrix.
-/

set_option linter.unusedSectionVars false

namespace Verif
open Finset

section
variable {K : Type} [Field K] [LinearOrder K] [IsStrictOrderedRing K] {R : Rounding K}

/-- a small residual is a small change of the coefficients -/
theorem perturb_row {n : Nat} (a x : Fin n → K) {r g : K} (hg : 0 ≤ g) (h : |r| ≤ g * ∑ i, |a i * x i|) :
    ∃ d : Fin n → K, (∀ i, |d i| ≤ g * |a i|) ∧ ∑ i, d i * x i = r := by
  set T := ∑ i, |a i * x i| with hT
  have hT0 : 0 ≤ T := sum_nonneg fun _ _ => abs_nonneg _
  rcases hT0.eq_or_lt with h0 | h0
  · rw [← h0, mul_zero] at h
    have hr := abs_eq_zero.1 (le_antisymm h (abs_nonneg _))
    exact ⟨fun _ => 0, fun i => by simpa using mul_nonneg hg (abs_nonneg _), by simp [hr]⟩
  · refine ⟨fun i => r / T * |a i| * (if 0 ≤ x i then 1 else -1), ?_, ?_⟩
    · intro i
      have h1 : |r / T| ≤ g := by rw [abs_div, abs_of_pos h0, div_le_iff₀ h0]; exact h
      have h2 : |(if 0 ≤ x i then 1 else -1 : K)| = 1 := by split_ifs <;> simp
      rw [abs_mul, h2, mul_one, abs_mul, abs_abs]
      exact mul_le_mul_of_nonneg_right h1 (abs_nonneg _)
    · have : ∀ i, r / T * |a i| * (if 0 ≤ x i then 1 else -1) * x i = r / T * |a i * x i| := by
        intro i
        rw [abs_mul]
        split_ifs with hx
        · rw [abs_of_nonneg hx]; ring
        · rw [abs_of_neg (not_le.1 hx)]; ring
      rw [sum_congr rfl fun i _ => this i, ← mul_sum, ← hT]
      field_simp

/-- residual bounds for all rows give a perturbed system -/
theorem perturb {n : Nat} (T : Matrix (Fin n) (Fin n) K) (x y : Fin n → K) {g : K} (hg : 0 ≤ g)
    (h : ∀ i, |y i - ∑ j, T i j * x j| ≤ g * ∑ j, |T i j * x j|) :
    ∃ D : Matrix (Fin n) (Fin n) K, (∀ i j, |D i j| ≤ g * |T i j|) ∧ ∀ i, ∑ j, (T i j + D i j) * x j = y i := by
  choose d h1 h2 using fun i => perturb_row (T i) x hg (h i)
  refine ⟨d, h1, ?_⟩
  intro i
  simp only [add_mul, sum_add_distrib, h2]
  ring

/-- one row of the forward substitution -/
theorem fwd_row {b d q : Fl R} {a x : Nat → Fl R} {t : Nat → Fl R} {k : Nat} (hd : d.val ≠ 0)
    (ht : ∀ l, (t l).val = R.rnd ((a l).val * (x l).val)) (hq : q = Mat.subAccum b t k / d) :
    |b.val - (∑ l ∈ range k, (a l).val * (x l).val + d.val * q.val)| ≤
      R.gam (k + 1) * (∑ l ∈ range k, |(a l).val * (x l).val| + |d.val * q.val|) := by
  have h1 := R.subAccum_err b t (fun l => (a l).val * (x l).val) ht k
  have h2 := R.div_step (q := q.val) hd (R.gam_nonneg k) (sum_nonneg fun _ _ => abs_nonneg _) (by rw [hq, Fl.div_val]) h1
  rwa [← R.gam_succ, sub_sub] at h2

/-- the same with multiplication by the reciprocal -/
theorem fwd_row' {b d q : Fl R} {a x : Nat → Fl R} {t : Nat → Fl R} {k : Nat} (hd : d.val ≠ 0)
    (ht : ∀ l, (t l).val = R.rnd ((a l).val * (x l).val)) (hq : q = Mat.subAccum b t k * (1 / d)) :
    |b.val - (∑ l ∈ range k, (a l).val * (x l).val + d.val * q.val)| ≤
      R.gam (k + 2) * (∑ l ∈ range k, |(a l).val * (x l).val| + |d.val * q.val|) := by
  have h1 := R.subAccum_err b t (fun l => (a l).val * (x l).val) ht k
  have h2 := R.recip_step (q := q.val) hd (R.gam_nonneg k) (sum_nonneg fun _ _ => abs_nonneg _)
    (by rw [hq, Fl.mul_val, Fl.div_val, Fl.one_val]) h1
  rwa [← R.gam_succ, ← R.gam_succ, sub_sub] at h2

/-- sum over a row of a lower triangular matrix -/
theorem sum_low {n : Nat} (φ : Nat → K) (k : Fin n) (h : ∀ l : Fin n, k < l → φ l = 0) :
    ∑ l : Fin n, φ l = ∑ l ∈ range k, φ l + φ k := by
  rw [Fin.sum_univ_eq_sum_range]
  obtain ⟨k, hk⟩ := k
  obtain ⟨d, rfl⟩ : ∃ d, n = (k + 1) + d := ⟨n - k - 1, by omega⟩
  rw [sum_range_add, sum_range_succ, sum_eq_zero (s := range d), add_zero]
  intro l hl
  have := mem_range.1 hl
  exact h ⟨k + 1 + l, by omega⟩ (by simp [Fin.lt_def]; omega)

/-- sum over a row of an upper triangular matrix, from the right -/
theorem sum_up {n : Nat} (φ : Nat → K) (k : Fin n) (h : ∀ l : Fin n, l < k → φ l = 0) :
    ∑ l : Fin n, φ l = ∑ s ∈ range (n - (k + 1)), φ (n - 1 - s) + φ k := by
  rw [Fin.sum_univ_eq_sum_range, Mat.sum_rev_Ico n (n - (k + 1)) (by omega) φ, show n - (n - (k + 1)) = k + 1 by omega]
  rw [range_eq_Ico, ← sum_Ico_consecutive _ (Nat.zero_le k) k.2.le, sum_eq_sum_Ico_succ_bot k.2, sum_eq_zero, zero_add,
    add_comm]
  intro l hl
  have := mem_Ico.1 hl
  exact h ⟨l, by omega⟩ (by simp [Fin.lt_def]; omega)

/-- **C89** forward substitution: the computed vector solves exactly a lower triangular system whose coefficients
    differ by at most `(1 + u)^n - 1` relative to the given ones -/
theorem C89_forward_vector {n : Nat} {A b : Mat (Fl R)} {T : Matrix (Fin n) (Fin n) (Fl R)} {y : Fin n → Fl R}
    (hA : Repr A T) (hb : ColRepr b y) (hlow : ∀ i j, i < j → T i j = 0) (hd : ∀ i, T i i ≠ 0) :
    ∃ v x, A.substFwdV b = some v ∧ ColRepr v x ∧ ∃ D : Matrix (Fin n) (Fin n) K,
      (∀ i j, |D i j| ≤ ((1 + R.u) ^ n - 1) * |(T i j).val|) ∧
      ∀ i, ∑ j, ((T i j).val + D i j) * (x j).val = (y i).val := by
  obtain ⟨v, g, h1, h2, h3, _⟩ := Mat.substFwdV_ops hA.is hb.is (le_refl n) (le_refl n)
    (fun k hk => by rw [extM_lt T hk hk]; exact hd _)
  refine ⟨v, fun i => g i 0, h1, h2.colRepr_of (fun _ => rfl), ?_⟩
  refine perturb (fun i j => (T i j).val) _ _ (R.gam_nonneg n) ?_
  intro k
  have e := fwd_row (a := fun l => extM T k l) (x := fun l => g l 0) (b := extV y k) (q := g k 0) (k := k)
    (t := fun l => extM T k l * g l 0) (d := extM T k k)
    (by rw [extM_apply]; exact fun h => hd k ((Fl.eq_zero_iff _).2 h)) (fun _ => rfl) (h3 k k.2)
  have s1 := sum_low (n := n) (fun l => (extM T k l).val * (g l 0).val) k (fun l hl => by
    rw [extM_apply, hlow k l hl, Fl.zero_val, zero_mul])
  have s2 := sum_low (n := n) (fun l => |(extM T k l).val * (g l 0).val|) k (fun l hl => by
    rw [extM_apply, hlow k l hl, Fl.zero_val, zero_mul, abs_zero])
  rw [← s1, ← s2] at e
  simp only [extM_apply, extV_apply] at e
  exact e.trans (mul_le_mul_of_nonneg_right (R.gam_mono (by omega)) (sum_nonneg fun _ _ => abs_nonneg _))

/-- **C89** backward substitution -/
theorem C89_backward_vector {n : Nat} {A b : Mat (Fl R)} {T : Matrix (Fin n) (Fin n) (Fl R)} {y : Fin n → Fl R}
    (hA : Repr A T) (hb : ColRepr b y) (hup : ∀ i j, j < i → T i j = 0) (hd : ∀ i, T i i ≠ 0) :
    ∃ v x, A.substBwdV b = some v ∧ ColRepr v x ∧ ∃ D : Matrix (Fin n) (Fin n) K,
      (∀ i j, |D i j| ≤ ((1 + R.u) ^ n - 1) * |(T i j).val|) ∧
      ∀ i, ∑ j, ((T i j).val + D i j) * (x j).val = (y i).val := by
  obtain ⟨v, g, h1, h2, h3, _⟩ := Mat.substBwdV_ops hA.is hb.is (le_refl n) (le_refl n)
  refine ⟨v, fun i => g i 0, h1, h2.colRepr_of (fun _ => rfl), ?_⟩
  refine perturb (fun i j => (T i j).val) _ _ (R.gam_nonneg n) ?_
  intro k
  have hq := h3 k k.2
  rw [if_pos (by rw [extM_apply]; exact hd k)] at hq
  have e := fwd_row (a := fun l => extM T k (n - 1 - l)) (x := fun l => g (n - 1 - l) 0) (b := extV y k) (q := g k 0)
    (k := n - (k + 1)) (t := fun l => extM T k (n - 1 - l) * g (n - 1 - l) 0) (d := extM T k k)
    (by rw [extM_apply]; exact fun h => hd k ((Fl.eq_zero_iff _).2 h)) (fun _ => rfl) hq
  have s1 := sum_up (n := n) (fun l => (extM T k l).val * (g l 0).val) k (fun l hl => by
    rw [extM_apply, hup k l hl, Fl.zero_val, zero_mul])
  have s2 := sum_up (n := n) (fun l => |(extM T k l).val * (g l 0).val|) k (fun l hl => by
    rw [extM_apply, hup k l hl, Fl.zero_val, zero_mul, abs_zero])
  rw [← s1, ← s2] at e
  simp only [extM_apply, extV_apply] at e
  exact e.trans (mul_le_mul_of_nonneg_right (R.gam_mono (by omega)) (sum_nonneg fun _ _ => abs_nonneg _))

/-- **C89** forward substitution with a matrix on the right-hand side (rows are multiplied by `1 / d` instead of
    divided, one more rounding): every column solves its own perturbed system -/
theorem C89_forward_matrix {n p : Nat} {A b : Mat (Fl R)} {T : Matrix (Fin n) (Fin n) (Fl R)}
    {Y : Matrix (Fin n) (Fin p) (Fl R)} (hA : Repr A T) (hb : Repr b Y) (hlow : ∀ i j, i < j → T i j = 0)
    (hd : ∀ i, T i i ≠ 0) : ∃ v X, A.substFwdM b = some v ∧ Repr v X ∧ ∀ c, ∃ D : Matrix (Fin n) (Fin n) K,
      (∀ i j, |D i j| ≤ ((1 + R.u) ^ (n + 1) - 1) * |(T i j).val|) ∧
      ∀ i, ∑ j, ((T i j).val + D i j) * (X j c).val = (Y i c).val := by
  obtain ⟨v, g, h1, h2, h3, _⟩ := Mat.substFwdM_ops hA.is hb.is (by omega)
    (fun k hk => by rw [extM_lt T (by omega) (by omega)]; exact hd _)
  refine ⟨v, mx n p g, h1, h2.repr, ?_⟩
  intro c
  refine perturb (fun i j => (T i j).val) _ _ (R.gam_nonneg (n + 1)) ?_
  intro k
  have hq := h3 k c (by simp) c.2
  have e := fwd_row' (a := fun l => extM T k l) (x := fun l => g l c) (b := extM Y k c) (q := g k c) (k := k)
    (t := fun l => g l c * extM T k l) (d := extM T k k)
    (by rw [extM_apply]; exact fun h => hd k ((Fl.eq_zero_iff _).2 h))
    (fun l => by rw [Fl.mul_val, mul_comm]) hq
  have s1 := sum_low (n := n) (fun l => (extM T k l).val * (g l c).val) k (fun l hl => by
    rw [extM_apply, hlow k l hl, Fl.zero_val, zero_mul])
  have s2 := sum_low (n := n) (fun l => |(extM T k l).val * (g l c).val|) k (fun l hl => by
    rw [extM_apply, hlow k l hl, Fl.zero_val, zero_mul, abs_zero])
  rw [← s1, ← s2] at e
  simp only [extM_apply] at e
  simp only [mx_apply]
  exact e.trans (mul_le_mul_of_nonneg_right (R.gam_mono (by omega)) (sum_nonneg fun _ _ => abs_nonneg _))

/-- **C89** backward substitution with a matrix on the right-hand side -/
theorem C89_backward_matrix {n p : Nat} {A b : Mat (Fl R)} {T : Matrix (Fin n) (Fin n) (Fl R)}
    {Y : Matrix (Fin n) (Fin p) (Fl R)} (hA : Repr A T) (hb : Repr b Y) (hup : ∀ i j, j < i → T i j = 0)
    (hd : ∀ i, T i i ≠ 0) : ∃ v X, A.substBwdM b = some v ∧ Repr v X ∧ ∀ c, ∃ D : Matrix (Fin n) (Fin n) K,
      (∀ i j, |D i j| ≤ ((1 + R.u) ^ (n + 1) - 1) * |(T i j).val|) ∧
      ∀ i, ∑ j, ((T i j).val + D i j) * (X j c).val = (Y i c).val := by
  obtain ⟨v, g, h1, h2, h3, _⟩ := Mat.substBwdM_ops hA.is hb.is (by omega)
    (fun k hk => by rw [extM_lt T (by omega) (by omega)]; exact hd _)
  refine ⟨v, mx n p g, h1, h2.repr, ?_⟩
  intro c
  refine perturb (fun i j => (T i j).val) _ _ (R.gam_nonneg (n + 1)) ?_
  intro k
  have hq := h3 k c (by simp) c.2
  rw [min_self] at hq
  have e := fwd_row' (a := fun l => extM T k (n - 1 - l)) (x := fun l => g (n - 1 - l) c) (b := extM Y k c)
    (q := g k c) (k := n - (k + 1)) (t := fun l => g (n - 1 - l) c * extM T k (n - 1 - l)) (d := extM T k k)
    (by rw [extM_apply]; exact fun h => hd k ((Fl.eq_zero_iff _).2 h))
    (fun l => by rw [Fl.mul_val, mul_comm]) hq
  have s1 := sum_up (n := n) (fun l => (extM T k l).val * (g l c).val) k (fun l hl => by
    rw [extM_apply, hup k l hl, Fl.zero_val, zero_mul])
  have s2 := sum_up (n := n) (fun l => |(extM T k l).val * (g l c).val|) k (fun l hl => by
    rw [extM_apply, hup k l hl, Fl.zero_val, zero_mul, abs_zero])
  rw [← s1, ← s2] at e
  simp only [extM_apply] at e
  simp only [mx_apply]
  exact e.trans (mul_le_mul_of_nonneg_right (R.gam_mono (by omega)) (sum_nonneg fun _ _ => abs_nonneg _))

/-! ## C90 LU decomposition, `solve`, `inv` -/

/-- **C90** the LU decomposition with rounding: `L` is unit lower triangular, `U` upper triangular, and `L U` differs
    from the row-permuted matrix by at most `(1 + u)^n - 1` times `|L| |U|`, up to the entries `D` that the code loses
    below zero pivots (as it does in exact arithmetic, C11) -/
theorem C90_lu {n : Nat} {A : Mat (Fl R)} {M : Matrix (Fin n) (Fin n) (Fl R)} (hA : Repr A M) :
    ∃ l u p, ∃ L U : Matrix (Fin n) (Fin n) (Fl R), ∃ σ : Equiv.Perm (Fin n), ∃ D : Matrix (Fin n) (Fin n) K,
      A.decLU = some (l, u, p) ∧ Repr l L ∧ Repr u U ∧ Repr p (σ.permMatrix (Fl R)) ∧
      (∀ i, L i i = 1) ∧ (∀ i j, i < j → L i j = 0) ∧ (∀ i j, j < i → U i j = 0) ∧
      (∀ i j, D i j ≠ 0 → j < i ∧ U j j = 0) ∧
      ∀ i j, |(M (σ i) j).val - ∑ k, (L i k).val * (U k j).val - D i j| ≤
        ((1 + R.u) ^ n - 1) * (∑ k, |(L i k).val| * |(U k j).val| + |D i j|) := by
  obtain ⟨l, u, p, f, σ, h1, h2, h3, h4, h5⟩ := Mat.decLU_fl hA.is
  refine ⟨l, u, p, _, _, σ, fun i j => Mat.luerr (Mat.vals f) n i j, h1, h2.repr, h3.repr, h4, ?_, ?_, ?_, ?_, ?_⟩
  · intro i; simp [mx_apply]
  · intro i j hij
    have h : (i : Nat) < j := hij
    simp [mx_apply, show ¬ (j : Nat) < i by omega, show ¬ (i : Nat) = j by omega]
  · intro i j hij
    have h : (j : Nat) < i := hij
    simp [mx_apply, show ¬ (i : Nat) ≤ j by omega]
  · intro i j hD
    simp only [Mat.luerr] at hD
    split_ifs at hD with hc
    · refine ⟨hc.2.1, ?_⟩
      rw [mx_apply, if_pos (le_refl _)]
      exact (Fl.eq_zero_iff _).2 hc.2.2
    · exact absurd rfl hD
  · intro i j
    have e := h5 i j j.2
    rw [extM_apply, Mat.luval_eq_sum _ i.2, Mat.luval_eq_sum _ i.2, ← Mat.sum_fin, ← Mat.sum_fin] at e
    have e1 : ∀ k : Fin n, (if (k : Nat) < i then Mat.vals f i k else if (i : Nat) = k then 1 else 0) *
        (if (k : Nat) ≤ j then Mat.vals f k j else 0) =
        (mx n n (fun r c => if c < r then f r c else if r = c then 1 else 0) i k).val *
        (mx n n (fun r c => if r ≤ c then f r c else 0) k j).val := by
      intro k
      rw [mx_apply, mx_apply]
      split_ifs <;> rfl
    have e2 : ∀ k : Fin n, (if (k : Nat) < i then Mat.absVals f i k else if (i : Nat) = k then 1 else 0) *
        (if (k : Nat) ≤ j then Mat.absVals f k j else 0) =
        |(mx n n (fun r c => if c < r then f r c else if r = c then 1 else 0) i k).val| *
        |(mx n n (fun r c => if r ≤ c then f r c else 0) k j).val| := by
      intro k
      rw [mx_apply, mx_apply]
      split_ifs <;> simp [Mat.absVals, Fl.zero_val, Fl.one_val]
    rw [sum_congr rfl fun k _ => e1 k, sum_congr rfl fun k _ => e2 k] at e
    exact e

/-- the three backward errors together -/
theorem lu_combine {n : Nat} {M L U D1 D2 : Matrix (Fin n) (Fin n) K} {x y b : Fin n → K} {σ : Equiv.Perm (Fin n)}
    {g0 g : K} (hg : 0 ≤ g) (hM : ∀ i j, |M (σ i) j - ∑ k, L i k * U k j| ≤ g0 * ∑ k, |L i k| * |U k j|)
    (h1 : ∀ i j, |D1 i j| ≤ g * |L i j|) (h2 : ∀ i j, |D2 i j| ≤ g * |U i j|)
    (e1 : ∀ i, ∑ j, (L i j + D1 i j) * y j = b (σ i)) (e2 : ∀ i, ∑ j, (U i j + D2 i j) * x j = y i) :
    ∃ E : Matrix (Fin n) (Fin n) K, (∀ i j, |E i j| ≤ (g0 + ((1 + g) ^ 2 - 1)) * ∑ k, |L (σ.symm i) k| * |U k j|) ∧
      ∀ i, ∑ j, (M i j + E i j) * x j = b i := by
  set F : Fin n → Fin n → K := fun i j => ∑ k, (L i k + D1 i k) * (U k j + D2 k j) with hF
  refine ⟨fun i j => F (σ.symm i) j - M i j, ?_, ?_⟩
  · intro i j
    set r := σ.symm i
    have hi : σ r = i := by simp [r]
    have a1 : |F r j - ∑ k, L r k * U k j| ≤ ((1 + g) ^ 2 - 1) * ∑ k, |L r k| * |U k j| := by
      rw [hF, ← sum_sub_distrib, mul_sum]
      refine (abs_sum_le_sum_abs _ _).trans (sum_le_sum fun k _ => ?_)
      have e : (L r k + D1 r k) * (U k j + D2 k j) - L r k * U k j = L r k * D2 k j + D1 r k * U k j + D1 r k * D2 k j := by
        ring
      rw [e]
      refine (abs_add_le _ _).trans ((add_le_add (abs_add_le _ _) (le_refl _)).trans ?_)
      rw [abs_mul, abs_mul, abs_mul]
      have p1 := mul_le_mul_of_nonneg_left (h2 k j) (abs_nonneg (L r k))
      have p2 := mul_le_mul_of_nonneg_right (h1 r k) (abs_nonneg (U k j))
      have p3 := mul_le_mul (h1 r k) (h2 k j) (abs_nonneg _) (mul_nonneg hg (abs_nonneg _))
      nlinarith
    have a2 := hM r j
    rw [hi] at a2
    change |F r j - M i j| ≤ _
    have e : F r j - M i j = (F r j - ∑ k, L r k * U k j) + -(M i j - ∑ k, L r k * U k j) := by ring
    rw [e]
    refine (abs_add_le _ _).trans ?_
    rw [abs_neg]
    linarith
  · intro i
    have : ∀ j, (M i j + ((fun i j => F (σ.symm i) j - M i j) i j)) * x j =
        ∑ k, (L (σ.symm i) k + D1 (σ.symm i) k) * ((U k j + D2 k j) * x j) := by
      intro j
      rw [hF, add_sub_cancel, sum_mul]
      exact sum_congr rfl fun k _ => by ring
    rw [sum_congr rfl fun j _ => this j, sum_comm]
    simp only [← mul_sum, e2]
    rw [e1]
    simp

/-- multiplying with a permutation matrix does not change representable numbers -/
theorem accum_perm {n : Nat} (b : Nat → Fl R) (s : Nat) (P : Nat → Fl R) (hb : ∀ k, k < n → R.rnd (b k).val = (b k).val)
    (hP : ∀ k, k < n → P k = if s = k then 1 else 0) (hs : s < n) :
    Mat.accum (fun k => P k * b k) n = b s := by
  have key : ∀ m, m ≤ n → Mat.accum (fun k => P k * b k) m = if s < m then b s else 0 := by
    intro m
    induction m with
    | zero => intro _; rfl
    | succ m ih =>
      intro hm
      apply Fl.ext
      rw [Mat.accum, ih (by omega), Fl.add_val, Fl.mul_val, hP m (by omega)]
      rcases lt_trichotomy s m with h | h | h
      · rw [if_pos h, if_neg (by omega), if_pos (by omega), Fl.zero_val, zero_mul, R.rnd_zero, add_zero, hb s hs]
      · subst h
        rw [if_neg (by omega), if_pos rfl, if_pos (by omega), Fl.one_val, one_mul, Fl.zero_val, zero_add, hb s hs,
          hb s hs]
      · rw [if_neg (by omega), if_neg (by omega), if_neg (by omega), Fl.zero_val, zero_mul, R.rnd_zero, add_zero,
          R.rnd_zero]
  rw [key n (le_refl n), if_pos hs]

/-- **C90** `solve` with a vector, with rounding, for a matrix whose decomposition meets no zero pivot and a
    representable right-hand side: the computed vector solves exactly a system whose coefficients differ by at most
    `(1 + u)^(3 n) - 1` times `|L| |U|` of the computed factors -/
theorem C90_solve_vector {n : Nat} {A b l u p : Mat (Fl R)} {M L U : Matrix (Fin n) (Fin n) (Fl R)} {y : Fin n → Fl R}
    (hA : Repr A M) (hb : ColRepr b y) (h : A.decLU = some (l, u, p)) (hl : Repr l L) (hu : Repr u U)
    (hd : ∀ i, U i i ≠ 0) (hy : ∀ i, R.rnd (y i).val = (y i).val) :
    ∃ v x, A.solveV b = some v ∧ ColRepr v x ∧ ∃ σ : Equiv.Perm (Fin n), Repr p (σ.permMatrix (Fl R)) ∧
      ∃ E : Matrix (Fin n) (Fin n) K,
        (∀ i j, |E i j| ≤ ((1 + R.u) ^ (3 * n) - 1) * ∑ k, |(L (σ.symm i) k).val| * |(U k j).val|) ∧
        ∀ i, ∑ j, ((M i j).val + E i j) * (x j).val = (y i).val := by
  obtain ⟨l', u', p', L', U', σ, D, a0, a1, a2, a3, a4, a5, a6, a7, a8⟩ := C90_lu hA
  rw [h] at a0
  cases a0
  have eL : L' = L := by
    ext i j
    have e1 := a1.is.get i.2 j.2
    have e2 := hl.is.get i.2 j.2
    rw [e1, extM_apply, extM_apply] at e2
    exact Option.some.inj e2
  have eU : U' = U := by
    ext i j
    have e1 := a2.is.get i.2 j.2
    have e2 := hu.is.get i.2 j.2
    rw [e1, extM_apply, extM_apply] at e2
    exact Option.some.inj e2
  subst eL eU
  have hD : ∀ i j, D i j = 0 := fun i j => by
    by_contra hne
    exact hd j (a7 i j hne).2
  obtain ⟨w, w1, w2⟩ := Mat.mulVec_accum a3.is hb.is
  have w3 : ColRepr w (fun i => y (σ i)) := w2.colRepr_of (fun i => by
    rw [accum_perm (n := n) (fun k => extV y k) (σ i) (fun k => extM (σ.permMatrix (Fl R)) i k)
      (fun k hk => by rw [extV_lt y hk]; exact hy _) (fun k hk => by
        rw [extM_lt _ i.2 hk]
        simp only [Equiv.Perm.permMatrix, PEquiv.toMatrix_apply, Equiv.toPEquiv_apply, Option.mem_some_iff, Fin.eta,
          Fin.ext_iff]) (σ i).2]
    rw [extV_apply])
  obtain ⟨z, zx, z1, z2, D1, z3, z4⟩ := C89_forward_vector a1 w3 a5 (fun i => by
    rw [a4]; intro h0; exact one_ne_zero (α := K) ((Fl.eq_zero_iff _).1 h0))
  obtain ⟨v, x, v1, v2, D2, v3, v4⟩ := C89_backward_vector a2 z2 a6 hd
  refine ⟨v, x, ?_, v2, σ, a3, ?_⟩
  · simp only [Mat.solveV, Mat.luSolveV, h, w1, z1, v1, Option.bind_eq_bind, Option.bind_some]
  · obtain ⟨E, q1, q2⟩ := lu_combine (M := fun i j => (M i j).val) (L := fun i j => (L' i j).val)
      (U := fun i j => (U' i j).val) (b := fun i => (y i).val) (σ := σ) (g0 := R.gam n) (g := R.gam n) (R.gam_nonneg n)
      (fun i j => by simpa [hD, Rounding.gam] using a8 i j) z3 v3 z4 v4
    refine ⟨E, fun i j => (q1 i j).trans ?_, q2⟩
    refine mul_le_mul_of_nonneg_right ?_ (sum_nonneg fun _ _ => mul_nonneg (abs_nonneg _) (abs_nonneg _))
    have hg := R.gam_nonneg n
    have e3 : (1 + R.u) ^ (3 * n) = (1 + R.gam n) ^ 3 := by
      rw [Rounding.gam, add_sub_cancel, mul_comm, pow_mul]
    rw [e3]
    nlinarith [mul_nonneg hg hg, mul_nonneg (mul_nonneg hg hg) hg]

/-- **C90** `solve` with a matrix: the same for every column, with two more roundings -/
theorem C90_solve_matrix {n q : Nat} {A b l u p : Mat (Fl R)} {M L U : Matrix (Fin n) (Fin n) (Fl R)}
    {Y : Matrix (Fin n) (Fin q) (Fl R)}
    (hA : Repr A M) (hb : Repr b Y) (h : A.decLU = some (l, u, p)) (hl : Repr l L) (hu : Repr u U)
    (hd : ∀ i, U i i ≠ 0) (hy : ∀ i c, R.rnd (Y i c).val = (Y i c).val) :
    ∃ v X, A.solveM b = some v ∧ Repr v X ∧ ∃ σ : Equiv.Perm (Fin n), Repr p (σ.permMatrix (Fl R)) ∧
      ∀ c, ∃ E : Matrix (Fin n) (Fin n) K,
        (∀ i j, |E i j| ≤ ((1 + R.u) ^ (3 * n + 2) - 1) * ∑ k, |(L (σ.symm i) k).val| * |(U k j).val|) ∧
        ∀ i, ∑ j, ((M i j).val + E i j) * (X j c).val = (Y i c).val := by
  obtain ⟨l', u', p', L', U', σ, D, a0, a1, a2, a3, a4, a5, a6, a7, a8⟩ := C90_lu hA
  rw [h] at a0
  cases a0
  have eL : L' = L := by
    ext i j
    have e1 := a1.is.get i.2 j.2
    have e2 := hl.is.get i.2 j.2
    rw [e1, extM_apply, extM_apply] at e2
    exact Option.some.inj e2
  have eU : U' = U := by
    ext i j
    have e1 := a2.is.get i.2 j.2
    have e2 := hu.is.get i.2 j.2
    rw [e1, extM_apply, extM_apply] at e2
    exact Option.some.inj e2
  subst eL eU
  have hD : ∀ i j, D i j = 0 := fun i j => by
    by_contra hne
    exact hd j (a7 i j hne).2
  obtain ⟨w, w1, w2⟩ := Mat.mul_accum a3.is hb.is
  have w3 : Repr w (fun i c => Y (σ i) c) := w2.repr_of (fun i c => by
    rw [accum_perm (n := n) (fun k => extM Y k c) (σ i) (fun k => extM (σ.permMatrix (Fl R)) i k)
      (fun k hk => by rw [extM_lt Y hk c.2]; exact hy _ _) (fun k hk => by
        rw [extM_lt _ i.2 hk]
        simp only [Equiv.Perm.permMatrix, PEquiv.toMatrix_apply, Equiv.toPEquiv_apply, Option.mem_some_iff, Fin.eta,
          Fin.ext_iff]) (σ i).2]
    rw [extM_apply])
  obtain ⟨z, zx, z1, z2, z3⟩ := C89_forward_matrix a1 w3 a5 (fun i => by
    rw [a4]; intro h0; exact one_ne_zero (α := K) ((Fl.eq_zero_iff _).1 h0))
  obtain ⟨v, x, v1, v2, v3⟩ := C89_backward_matrix a2 z2 a6 hd
  refine ⟨v, x, ?_, v2, σ, a3, ?_⟩
  · simp only [Mat.solveM, Mat.luSolveM, h, w1, z1, v1, Option.bind_eq_bind, Option.bind_some]
  · intro c
    obtain ⟨D1, z3, z4⟩ := z3 c
    obtain ⟨D2, v3, v4⟩ := v3 c
    obtain ⟨E, q1, q2⟩ := lu_combine (M := fun i j => (M i j).val) (L := fun i j => (L' i j).val)
      (U := fun i j => (U' i j).val) (b := fun i => (Y i c).val) (σ := σ) (g0 := R.gam n) (g := R.gam (n + 1))
      (R.gam_nonneg (n + 1)) (fun i j => by simpa [hD, Rounding.gam] using a8 i j) z3 v3 z4 v4
    refine ⟨E, fun i j => (q1 i j).trans ?_, q2⟩
    refine mul_le_mul_of_nonneg_right ?_ (sum_nonneg fun _ _ => mul_nonneg (abs_nonneg _) (abs_nonneg _))
    have e1 : (1 + R.gam (n + 1)) ^ 2 - 1 = R.gam (2 * n + 2) := by
      rw [Rounding.gam, Rounding.gam, add_sub_cancel, ← pow_mul]; congr 2; ring
    have e2 : (1 + R.u) ^ (3 * n + 2) - 1 = R.gam (n + (2 * n + 2)) := by
      rw [Rounding.gam]; congr 2; ring
    rw [e1, e2, R.gam_add n (2 * n + 2)]
    linarith [mul_nonneg (R.gam_nonneg n) (R.gam_nonneg (2 * n + 2))]

/-- **C90** `inv` with rounding (one must be representable): every column of the computed inverse solves a perturbed
    system with the unit vector on the right-hand side -/
theorem C90_inv {n : Nat} {A l u p : Mat (Fl R)} {M L U : Matrix (Fin n) (Fin n) (Fl R)} (hA : Repr A M)
    (h : A.decLU = some (l, u, p)) (hl : Repr l L) (hu : Repr u U) (hd : ∀ i, U i i ≠ 0) (h1 : R.rnd 1 = 1) :
    ∃ v X, A.inv = some v ∧ Repr v X ∧ ∃ σ : Equiv.Perm (Fin n), Repr p (σ.permMatrix (Fl R)) ∧
      ∀ c, ∃ E : Matrix (Fin n) (Fin n) K,
        (∀ i j, |E i j| ≤ ((1 + R.u) ^ (3 * n + 2) - 1) * ∑ k, |(L (σ.symm i) k).val| * |(U k j).val|) ∧
        ∀ i, ∑ j, ((M i j).val + E i j) * (X j c).val = if i = c then 1 else 0 := by
  have hone : Repr (Mat.one n : Mat (Fl R)) (fun i j : Fin n => if i = j then 1 else 0) :=
    (Mat.one_is n).repr_of (fun i j => by simp [Fin.ext_iff])
  obtain ⟨v, X, e1, e2, σ, e3, e4⟩ := C90_solve_matrix hA hone h hl hu hd (by
    intro i c
    split_ifs
    · exact h1
    · exact R.rnd_zero)
  refine ⟨v, X, ?_, e2, σ, e3, fun c => ?_⟩
  · have hp : p.m = n := e3.rows
    rw [Mat.solveM, h] at e1
    rw [Mat.inv, h]
    simp only [Option.bind_eq_bind, Option.bind_some] at e1 ⊢
    rw [hp]; exact e1
  · obtain ⟨E, q1, q2⟩ := e4 c
    refine ⟨E, q1, fun i => ?_⟩
    rw [q2 i]
    split_ifs <;> rfl

end

/-- `1/3`, rounded, times 3 is 1 again: the substitution `3 x = 1`, `x + y = 1` -/
example : (Mat.substFwdV (K := Fl f64) ⟨2, 2, [⟨3⟩, ⟨1⟩, ⟨0⟩, ⟨1⟩]⟩ ⟨2, 1, [⟨1⟩, ⟨1⟩]⟩).map (fun v => v.data.map Fl.val) =
    some [6004799503160661 / 2 ^ 54, 6004799503160662 * 2 / 2 ^ 54] := by decide +kernel

/-- a solve in `f64`: `4 x + y = 1`, `3 x + 7 y = 2`; the factor `3/4` is exact, `5/25` is not -/
example : (Mat.solveV (K := Fl f64) ⟨2, 2, [⟨4⟩, ⟨3⟩, ⟨1⟩, ⟨7⟩]⟩ ⟨2, 1, [⟨1⟩, ⟨2⟩]⟩).map (fun v => v.data.map Fl.val) =
    some [f64.rnd (1 / 5), f64.rnd (1 / 5)] := by decide +kernel

/-- **C90** (what does not hold): `solve` is not backward stable, because the pivot is the largest entry by value and not
    by absolute value.  In `f64` the system `2^-60 x + y = 1`, `-x + y = 2` has a matrix with entries of at most 1 and an
    inverse with entries of at most 1, so it is as well conditioned as a matrix can be; its solution is close to
    `(-1, 1)`.  The code takes `2^-60` as pivot and returns `(0, 1)`.  No matrix solved by this vector has entries within
    distance 1 of the given ones. -/
theorem C90_solve_violated : ∃ (A b v : Mat (Fl f64)) (M N : Matrix (Fin 2) (Fin 2) (Fl f64)) (x : Fin 2 → Fl f64),
    Repr A M ∧ A.solveV b = some v ∧ ColRepr b (![⟨1⟩, ⟨2⟩] : Fin 2 → Fl f64) ∧ ColRepr v x ∧
    (∀ i j, |(M i j).val| ≤ 1) ∧ (∀ i j, |(N i j).val| ≤ 1) ∧
    (∀ i j, ∑ k, (M i k).val * (N k j).val = if i = j then 1 else 0) ∧
    (∀ y : Fin 2 → ℚ, (∀ i, ∑ j, (M i j).val * y j = if i = 0 then 1 else 2) → |(x 0).val - y 0| > 99 / 100) ∧
    ∀ E : Matrix (Fin 2) (Fin 2) ℚ, (∀ i, ∑ j, ((M i j).val + E i j) * (x j).val = if i = 0 then 1 else 2) →
      ∃ i j, 1 ≤ |E i j| := by
  refine ⟨⟨2, 2, [⟨1 / 2 ^ 60⟩, ⟨-1⟩, ⟨1⟩, ⟨1⟩]⟩, ⟨2, 1, [⟨1⟩, ⟨2⟩]⟩, ⟨2, 1, [⟨0⟩, ⟨1⟩]⟩,
    !![⟨1 / 2 ^ 60⟩, ⟨1⟩; ⟨-1⟩, ⟨1⟩],
    !![⟨1 / (1 + 1 / 2 ^ 60)⟩, ⟨-1 / (1 + 1 / 2 ^ 60)⟩; ⟨1 / (1 + 1 / 2 ^ 60)⟩, ⟨1 / 2 ^ 60 / (1 + 1 / 2 ^ 60)⟩],
    ![⟨0⟩, ⟨1⟩], ⟨rfl, rfl, rfl, by intro i j; fin_cases i <;> fin_cases j <;> rfl⟩, by decide +kernel, rfl, rfl,
    by decide +kernel, by decide +kernel, by decide +kernel, ?_, ?_⟩
  · intro y hy
    have h0 := hy 0
    have h1 := hy 1
    simp [Fin.sum_univ_two] at h0 h1
    have : y 0 * (1 + 1 / 2 ^ 60) = -1 := by norm_num at h0 ⊢; linarith
    have h2 : y 0 = -1 / (1 + 1 / 2 ^ 60) := by rw [eq_div_iff (by norm_num)]; exact this
    simp only [Matrix.cons_val_zero, h2]
    norm_num [abs_of_pos]
  · intro E hE
    refine ⟨1, 1, ?_⟩
    have h1 := hE 1
    simp [Fin.sum_univ_two] at h1
    have : E 1 1 = 1 := by linarith
    rw [this]; norm_num

/-- **C90** (what does not hold): a singular matrix need not be recognised.  The rows of `[49 49; 1 1]` are multiples of
    each other, yet in `f64` the second pivot is computed as `2^-53` and `inv` returns a matrix. -/
theorem C90_singular_violated : ∃ (A v : Mat (Fl f64)) (M : Matrix (Fin 2) (Fin 2) (Fl f64)), Repr A M ∧
    (M 0 0).val * (M 1 1).val - (M 0 1).val * (M 1 0).val = 0 ∧ A.inv = some v := by
  refine ⟨⟨2, 2, [⟨49⟩, ⟨1⟩, ⟨49⟩, ⟨1⟩]⟩,
    ⟨2, 2, [⟨5882252574524729 / 32⟩, ⟨-5882252574524729 / 32⟩, ⟨-9007199254740991⟩, ⟨9007199254740992⟩]⟩,
    !![⟨49⟩, ⟨49⟩; ⟨1⟩, ⟨1⟩], ⟨rfl, rfl, rfl, by intro i j; fin_cases i <;> fin_cases j <;> rfl⟩, by decide +kernel,
    by decide +kernel⟩

end Verif
