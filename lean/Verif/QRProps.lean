import Verif.OrthModel
import Verif.VecLemmas
import Mathlib.Algebra.Order.Field.Basic
import Mathlib.Data.Real.Sqrt
import Mathlib.Data.Rat.Sqrt
import Mathlib.LinearAlgebra.Matrix.NonsingularInverse
import Mathlib.Tactic.Ring
import Mathlib.Tactic.LinearCombination
import Mathlib.Tactic.FieldSimp
import Mathlib.Tactic.Linarith

/-!
# C15: Givens rotations and the QR decomposition
-/

namespace Verif
open Finset

/-- what the proofs need of a square root -/
def IsSqrt {K : Type} [Field K] [LinearOrder K] (sqrt : K → K) : Prop :=
  ∀ x, 0 ≤ x → 0 ≤ sqrt x ∧ sqrt x * sqrt x = x

theorem isSqrt_real : IsSqrt Real.sqrt := fun x hx => ⟨Real.sqrt_nonneg x, Real.mul_self_sqrt hx⟩

section Givens
variable {K : Type} [Field K]

/-- the rotation in rows and columns `i`, `j` -/
def givensM {m : Nat} (i j : Fin m) (c s : K) : Matrix (Fin m) (Fin m) K :=
  Matrix.of fun r l =>
    if r = i then (if l = i then c else 0) + (if l = j then s else 0)
    else if r = j then (if l = i then -s else 0) + (if l = j then c else 0)
    else if l = r then 1 else 0

theorem givensM_mul {m n : Nat} (i j : Fin m) (c s : K) (X : Matrix (Fin m) (Fin n) K) (r : Fin m) (k : Fin n) :
    (givensM i j c s * X) r k =
      if r = i then c * X i k + s * X j k
      else if r = j then -s * X i k + c * X j k
      else X r k := by
  rw [Matrix.mul_apply]
  simp only [givensM, Matrix.of_apply]
  by_cases h1 : r = i
  · simp [h1, add_mul, sum_add_distrib, ite_mul]
  · by_cases h2 : r = j
    · rw [if_neg h1, if_pos h2]
      simp only [if_neg h1, if_pos h2]
      simp [add_mul, sum_add_distrib, ite_mul]
    · simp [h1, h2, ite_mul]

theorem givensM_transpose {m : Nat} {i j : Fin m} (hij : i ≠ j) (c s : K) :
    (givensM i j c s).transpose = givensM i j c (-s) := by
  ext r l
  simp only [Matrix.transpose_apply, givensM, Matrix.of_apply, neg_neg]
  by_cases h1 : r = i <;> by_cases h2 : r = j <;> by_cases h3 : l = i <;> by_cases h4 : l = j <;>
    simp_all [eq_comm]

theorem givensM_orth {m : Nat} {i j : Fin m} (hij : i ≠ j) {c s : K} (h : c * c + s * s = 1) :
    (givensM i j c s).transpose * givensM i j c s = 1 := by
  rw [givensM_transpose hij]
  ext r l
  rw [givensM_mul]
  simp only [givensM, Matrix.of_apply, Matrix.one_apply]
  by_cases h1 : r = i <;> by_cases h2 : r = j <;> by_cases h3 : l = i <;> by_cases h4 : l = j <;>
    simp_all [eq_comm, Ne.symm hij]
  all_goals first | linear_combination h | (ring_nf; try simp)

theorem repr_givens {m : Nat} {i j : Fin m} (hij : i ≠ j) (c s : K) :
    ∃ g, Mat.givens m i j c s = some g ∧ Repr g (givensM i j c s) := by
  have h0 := Mat.one_is (K := K) m
  have h1 := h0.put i.2 i.2 c
  have h2 := h1.put j.2 j.2 c
  have h3 := h2.put i.2 j.2 s
  have h4 := h3.put j.2 i.2 (-s)
  have hc : ¬ (m ≤ (i : Nat) ∨ m ≤ (j : Nat)) := by have := i.2; have := j.2; omega
  refine ⟨_, ?_, h4.repr_of ?_⟩
  · simp [Mat.givens, hc, h0.set i.2 i.2, h1.set j.2 j.2, h2.set i.2 j.2, h3.set j.2 i.2]
  · intro r l
    simp only [upd, givensM, Matrix.of_apply, ← Fin.ext_iff]
    by_cases h1 : r = i <;> by_cases h2 : r = j <;> by_cases h3 : l = i <;> by_cases h4 : l = j <;>
      simp_all [eq_comm]
end Givens

section QR
variable {K : Type} [Field K] [LinearOrder K] [IsStrictOrderedRing K] {sqrt : K → K}

/-- below a nonzero diagonal entry the columns before `j` are zero -/
def ZeroBelow {m n : Nat} (R : Matrix (Fin m) (Fin n) K) (j : Nat) (a : Nat) : Prop :=
  ∀ (c : Fin n) (d i : Fin m), (d : Nat) = c → (c : Nat) < i →
    ((c : Nat) < j ∨ ((c : Nat) = j ∧ a ≤ (i : Nat))) → R d c ≠ 0 → R i c = 0

/-- invariant of the elimination: `q * A = r`, `q` orthogonal, and the zeros made so far -/
def QRInv {m n : Nat} (M : Matrix (Fin m) (Fin n) K) (j a : Nat) (st : Mat K × Mat K) : Prop :=
  ∃ (Q : Matrix (Fin m) (Fin m) K) (R : Matrix (Fin m) (Fin n) K),
    Repr st.1 Q ∧ Repr st.2 R ∧ Q.transpose * Q = 1 ∧ Q * M = R ∧ ZeroBelow R j a

theorem qrStep_inv (hs : IsSqrt sqrt) {m n : Nat} {M : Matrix (Fin m) (Fin n) K} {j i : Nat}
    {st : Mat K × Mat K} (hj : j < n) (hi : i < m) (hji : j < i) (h : QRInv M j (i + 1) st) :
    ∃ st', Mat.qrStep sqrt j st i = some st' ∧ QRInv M j i st' := by
  obtain ⟨Q, R, hQ, hR, horth, hQM, hZ⟩ := h
  have hjm : j < m := by omega
  set fi : Fin m := ⟨i, hi⟩ with hfi
  set fj : Fin m := ⟨j, hjm⟩ with hfj
  set cj : Fin n := ⟨j, hj⟩ with hcj
  have e1 : st.2.get j j = some (R fj cj) := hR.entry fj cj
  have e2 : st.2.get i j = some (R fi cj) := hR.entry fi cj
  have hne : fi ≠ fj := by simp [hfi, hfj]; omega
  unfold Mat.qrStep
  simp only [e1, e2, Option.bind_eq_bind, Option.bind_some]
  set x := R fj cj with hx
  set y := R fi cj with hy
  have hpos : 0 ≤ x * x + y * y := add_nonneg (mul_self_nonneg x) (mul_self_nonneg y)
  obtain ⟨hp0, hpp⟩ := hs _ hpos
  set p := sqrt (x * x + y * y) with hp
  by_cases hc : p ≠ 0 ∧ x ≠ 0 ∧ y ≠ 0
  · rw [if_pos hc]
    obtain ⟨hp1, hx1, hy1⟩ := hc
    obtain ⟨g, hg, hG⟩ := repr_givens hne (x / p) (-y / p)
    obtain ⟨r', hr', hR'⟩ := repr_mul hG hR
    obtain ⟨q', hq', hQ'⟩ := repr_mul hG hQ
    have hg' : Mat.givens st.2.m i j (x / p) (-y / p) = some g := by
      rw [hR.rows]; exact hg
    refine ⟨(q', r'), by simp [hg', hr', hq'], _, _, hQ', hR', ?_, ?_, ?_⟩
    · rw [Matrix.transpose_mul, Matrix.mul_assoc, ← Matrix.mul_assoc _ _ Q,
        givensM_orth hne (by field_simp; linear_combination -hpp), Matrix.one_mul, horth]
    · rw [Matrix.mul_assoc, hQM]
    · intro c d k hd hck hz hnz
      rw [givensM_mul] at hnz ⊢
      rcases hz with hz | ⟨hz, hk⟩
      · have hdi : d ≠ fi := by intro e; rw [e] at hd; simp [hfi] at hd; omega
        have hdj : d ≠ fj := by intro e; rw [e] at hd; simp [hfj] at hd; omega
        rw [if_neg hdi, if_neg hdj] at hnz
        have z1 := hZ c d fi hd (by simp [hfi]; omega) (Or.inl hz) hnz
        have z2 := hZ c d fj hd (by simp [hfj]; omega) (Or.inl hz) hnz
        have z3 := hZ c d k hd hck (Or.inl hz) hnz
        simp [z1, z2, z3]
      · have hc : c = cj := Fin.ext hz
        subst hc
        have hkj : k ≠ fj := by intro e; rw [e] at hck; simp [hfj, hcj] at hck
        by_cases hki : k = fi
        · rw [if_pos hki, ← hx, ← hy]; field_simp; ring
        · rw [if_neg hki, if_neg hkj]
          have : (k : Nat) ≠ i := fun e => hki (Fin.ext e)
          exact hZ cj fj k rfl hck (Or.inr ⟨rfl, by omega⟩) hx1
  · rw [if_neg hc]
    refine ⟨st, rfl, Q, R, hQ, hR, horth, hQM, ?_⟩
    intro c d k hd hck hz hnz
    rcases hz with hz | ⟨hz, hk⟩
    · exact hZ c d k hd hck (Or.inl hz) hnz
    · by_cases hki : (k : Nat) = i
      · have hc' : c = cj := Fin.ext hz
        have hd' : d = fj := Fin.ext (hd.trans hz)
        have hk' : k = fi := Fin.ext hki
        subst hc' hd' hk'
        by_contra hy1
        apply hc
        refine ⟨?_, hnz, hy1⟩
        intro hp1
        rw [hp1] at hpp
        have : 0 < x * x := mul_self_pos.mpr hnz
        have : 0 ≤ y * y := mul_self_nonneg y
        linarith
      · exact hZ c d k hd hck (Or.inr ⟨hz, by omega⟩) hnz

theorem decQR_inv (hs : IsSqrt sqrt) {m n : Nat} {A : Mat K} {M : Matrix (Fin m) (Fin n) K} (hA : Repr A M)
    (hmn : n ≤ m) (hm : 0 < m) :
    ∃ (q r : Mat K) (Q : Matrix (Fin m) (Fin m) K) (R : Matrix (Fin m) (Fin n) K), Mat.decQR sqrt A = some (q, r) ∧ Repr q Q ∧ Repr r R ∧
      Q * Q.transpose = 1 ∧ Q.transpose * Q = 1 ∧ Q * R = M ∧ ZeroBelow R n m := by
  have hloop := forRange_inv (a := 0) (b := n) (s := (Mat.one m, A))
    (f := fun st j => forRange 0 (m - (j + 1)) (fun st t => Mat.qrStep sqrt j st (m - 1 - t)) st)
    (fun j st => QRInv M j m st) (Nat.zero_le _)
    ⟨1, M, repr_one m, hA, by simp, by simp, by
      intro c d i hd hi hz; omega⟩ (by
      intro j st _ hj hst
      have := forRange_inv (a := 0) (b := m - (j + 1)) (s := st)
        (f := fun st t => Mat.qrStep sqrt j st (m - 1 - t))
        (fun t st => QRInv M j (m - t) st) (Nat.zero_le _) hst (by
          intro t st _ ht hst
          obtain ⟨st', h1, h2⟩ := qrStep_inv hs (M := M) (st := st) (i := m - 1 - t) hj (by omega) (by omega)
            (by rwa [show m - 1 - t + 1 = m - t by omega])
          exact ⟨st', h1, by rwa [show m - (t + 1) = m - 1 - t by omega]⟩)
      obtain ⟨st', h1, Q, R, hQ, hR, ho, hM, hZ⟩ := this
      refine ⟨st', h1, Q, R, hQ, hR, ho, hM, ?_⟩
      intro c d i hd hi hz hnz
      refine hZ c d i hd hi ?_ hnz
      have := i.2
      omega)
  obtain ⟨st, h1, Q, R, hQ, hR, ho, hM, hZ⟩ := hloop
  have ho' : Q * Q.transpose = 1 := mul_eq_one_comm.mp ho
  obtain ⟨q, hq, hqi⟩ := Mat.transpose_is hQ.is (Or.inl rfl) (Or.inl hm)
  refine ⟨q, st.2, Q.transpose, R, ?_, hqi.repr_of (fun i j => by rw [extM_apply]; rfl), hR, ?_, ?_, ?_, hZ⟩
  · simp only [Mat.decQR, hA.rows, hA.cols, if_pos hmn]
    rw [h1]; simp [hq]
  · rw [Matrix.transpose_transpose, ho]
  · rw [Matrix.transpose_transpose, ho']
  · rw [← hM, ← Matrix.mul_assoc, ho, Matrix.one_mul]

end QR

/-! ### C15 -/

/-- Whatever the entries, `dec_qr` returns `Q`, `R` with `Q * R = A` and `Q` orthogonal, and column `c` of `R` is
    zero below the diagonal whenever its diagonal entry is not zero. Missing from C15: columns whose diagonal entry
    is zero (see `C15_qr_violated`). -/
theorem C15_qr_partial {m n : Nat} {A : Mat ℝ} {M : Matrix (Fin m) (Fin n) ℝ} (hA : Repr A M)
    (hmn : n ≤ m) (hm : 0 < m) :
    ∃ (q r : Mat ℝ) (Q : Matrix (Fin m) (Fin m) ℝ) (R : Matrix (Fin m) (Fin n) ℝ),
      Mat.decQR Real.sqrt A = some (q, r) ∧ Repr q Q ∧ Repr r R ∧
      Q * R = M ∧ Q * Q.transpose = 1 ∧ Q.transpose * Q = 1 ∧
      ∀ (c : Fin n) (d i : Fin m), (d : Nat) = c → (c : Nat) < i → R d c ≠ 0 → R i c = 0 := by
  obtain ⟨q, r, Q, R, h1, h2, h3, h4, h5, h6, h7⟩ := decQR_inv isSqrt_real hA hmn hm
  exact ⟨q, r, Q, R, h1, h2, h3, h6, h4, h5, fun c d i hd hi hnz => h7 c d i hd hi (Or.inl c.2) hnz⟩

example : Mat.decQR (K := ℚ) Rat.sqrt ⟨2, 2, [3, 4, 1, 2]⟩ =
    some (⟨2, 2, [3/5, 4/5, -4/5, 3/5]⟩, ⟨2, 2, [5, 0, 11/5, 2/5]⟩) := by decide +kernel

/-- If the factor `R` has no zero on its diagonal the decomposition is a QR decomposition. Missing from C15: zero
    diagonal entries. -/
theorem C15_qr_upper_partial {m n : Nat} {A : Mat ℝ} {M : Matrix (Fin m) (Fin n) ℝ} (hA : Repr A M)
    {q r : Mat ℝ} (h : Mat.decQR Real.sqrt A = some (q, r)) (hm : 0 < m)
    (hd : ∀ i x, i < n → r.get i i = some x → x ≠ 0) :
    ∀ i j, i < m → j < n → j < i → r.get i j = some 0 := by
  have hmn : n ≤ m := by
    by_contra hc
    simp [Mat.decQR, hA.rows, hA.cols, hc] at h
  obtain ⟨q', r', Q, R, h1, h2, h3, h6, h4, h5, h7⟩ := C15_qr_partial hA hmn hm
  rw [h1] at h
  simp only [Option.some.injEq, Prod.mk.injEq] at h
  obtain ⟨rfl, rfl⟩ := h
  intro i j hi hj hji
  rw [show r'.get i j = some (R ⟨i, hi⟩ ⟨j, hj⟩) from h3.entry ⟨i, hi⟩ ⟨j, hj⟩]
  rw [h7 ⟨j, hj⟩ ⟨j, by omega⟩ ⟨i, hi⟩ rfl hji]
  exact hd j _ hj (h3.entry ⟨j, by omega⟩ ⟨j, hj⟩)

/-- more columns than rows panics -/
theorem C15_qr_wide {A : Mat ℝ} (h : A.m < A.n) : Mat.decQR Real.sqrt A = none := by
  simp [Mat.decQR, h]

example : Mat.decQR (K := ℚ) Rat.sqrt ⟨1, 2, [3, 4]⟩ = none := by decide +kernel

/-- The exchange matrix is returned as its own `R`, which is not upper triangular: a rotation is skipped when the
    diagonal entry is zero. -/
theorem C15_qr_violated : ∃ (A q r : Mat ℝ), A.m = 2 ∧ A.n = 2 ∧ A.data.length = 4 ∧
    Mat.decQR Real.sqrt A = some (q, r) ∧ r.get 1 0 = some 1 := by
  refine ⟨⟨2, 2, [0, 1, 1, 0]⟩, ⟨2, 2, [1, 0, 0, 1]⟩, ⟨2, 2, [0, 1, 1, 0]⟩, rfl, rfl, rfl, ?_, by simp [Mat.get]⟩
  have h1 : (⟨2, 2, [0, 1, 1, 0]⟩ : Mat ℝ).get 0 0 = some 0 := by simp [Mat.get]
  have h2 : (⟨2, 2, [0, 1, 1, 0]⟩ : Mat ℝ).get 1 0 = some 1 := by simp [Mat.get]
  have h3 : (Mat.one 2 : Mat ℝ) = ⟨2, 2, [1, 0, 0, 1]⟩ := by
    simp [Mat.one, List.range, List.range.loop]
  obtain ⟨B, hB, hB2⟩ := Mat.transpose_is (Mat.one_is (K := ℝ) 2) (Or.inl rfl) (Or.inl (by omega))
  have hB3 : B = Mat.one 2 := hB2.ext (Mat.one_is 2) (by intro i j _ _; simp [eq_comm])
  subst hB3
  simp only [Mat.decQR, forRange, List.range', le_refl, if_true]
  simp [List.range', Mat.qrStep, h1, h2, hB]
  exact h3

/-- the Givens pair is a rotation that annihilates the second entry, as documented -/
theorem C15_givens_pair (a b : ℝ) :
    let cs := Mat.givensPair Real.sqrt a b
    cs.1 * cs.1 + cs.2 * cs.2 = 1 ∧ cs.2 * a + cs.1 * b = 0 := by
  have key : ∀ t : ℝ, (1 / Real.sqrt (1 + t * t)) * (1 / Real.sqrt (1 + t * t)) * (1 + t * t) = 1 := by
    intro t
    have h0 : 0 < 1 + t * t := by have := mul_self_nonneg t; linarith
    have h1 := Real.mul_self_sqrt h0.le
    rw [one_div, ← mul_inv, h1, inv_mul_cancel₀ h0.ne']
  unfold Mat.givensPair
  split
  · simp_all
  · split
    · rename_i h1 h2
      have := key (-a / b)
      refine ⟨by simp only; linear_combination this, ?_⟩
      simp only
      field_simp
      ring
    · rename_i h1 h2
      have ha : a ≠ 0 := by
        intro h; apply h2; rw [h, abs_zero]; exact abs_pos.mpr h1
      have := key (-b / a)
      refine ⟨by simp only; linear_combination this, ?_⟩
      simp only
      field_simp
      ring

example : Mat.givensPair Rat.sqrt 3 4 = (-3/5, 4/5) := by decide +kernel

/-- `rot(f, g) = (c, s, r)` is the rotation with `c f + s g = r` and `c g = s f` -/
theorem C15_rot (f g : ℝ) :
    let o := Mat.rot Real.sqrt f g
    o.1 * o.1 + o.2.1 * o.2.1 = 1 ∧ o.1 * f + o.2.1 * g = o.2.2 ∧ o.1 * g - o.2.1 * f = 0 := by
  have key : ∀ t : ℝ, Real.sqrt (1 + t * t) * Real.sqrt (1 + t * t) = 1 + t * t ∧ Real.sqrt (1 + t * t) ≠ 0 := by
    intro t
    have h0 : 0 < 1 + t * t := by have := mul_self_nonneg t; linarith
    exact ⟨Real.mul_self_sqrt h0.le, (Real.sqrt_pos.mpr h0).ne'⟩
  unfold Mat.rot
  split
  · simp_all
  · split
    · rename_i h1 h2
      obtain ⟨k1, k2⟩ := key (g / f)
      simp only
      set q := Real.sqrt (1 + g / f * (g / f)) with hq
      have k3 : q * q * (f * f) = f * f + g * g := by rw [k1]; field_simp
      refine ⟨by field_simp; linear_combination -k3, by field_simp; linear_combination -k3, by field_simp; ring⟩
    · rename_i h1 h2
      have hg : g ≠ 0 := by
        intro h; apply h2; show |f| > |g|; rw [h, abs_zero]; exact abs_pos.mpr h1
      obtain ⟨k1, k2⟩ := key (f / g)
      simp only
      set q := Real.sqrt (1 + f / g * (f / g)) with hq
      have k3 : q * q * (g * g) = f * f + g * g := by rw [k1]; field_simp; ring
      refine ⟨by field_simp; linear_combination -k3, by field_simp; linear_combination -k3, by field_simp; ring⟩

example : Mat.rot Rat.sqrt 3 4 = (3/5, 4/5, 5) := by decide +kernel

end Verif
