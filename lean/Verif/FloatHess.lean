import Verif.FloatQR
import Verif.FloatStat
import Verif.HouseholderProps
import Mathlib.Analysis.Matrix.Normed

/-!
# C116: Householder reflectors and the Hessenberg decomposition with rounding

`/repo/src/algebra/linear/matrix/matrix.rs:412-478` and `hessenberg/native.rs`, the models `householder` and `decHess` run on the
numbers `Fl R` with rounded operations and a rounded square root.
-/

set_option linter.unusedSectionVars false

namespace Verif
open Finset

/-! ### The Frobenius norm -/

/-- the Frobenius norm of a matrix -/
noncomputable def fro {m n : ℕ} (X : Matrix (Fin m) (Fin n) ℝ) : ℝ := √(∑ i, ∑ j, X i j ^ 2)

section
open scoped Matrix.Norms.Frobenius

theorem fro_eq {m n : ℕ} (X : Matrix (Fin m) (Fin n) ℝ) : fro X = ‖X‖ := by
  rw [fro, Matrix.frobenius_norm_def, Real.sqrt_eq_rpow]
  simp

theorem fro_nonneg {m n : ℕ} (X : Matrix (Fin m) (Fin n) ℝ) : 0 ≤ fro X := Real.sqrt_nonneg _

theorem fro_add {m n : ℕ} (X Y : Matrix (Fin m) (Fin n) ℝ) : fro (X + Y) ≤ fro X + fro Y := by
  rw [fro_eq, fro_eq, fro_eq]; exact norm_add_le _ _

theorem fro_mul {m n p : ℕ} (X : Matrix (Fin m) (Fin n) ℝ) (Y : Matrix (Fin n) (Fin p) ℝ) : fro (X * Y) ≤ fro X * fro Y := by
  rw [fro_eq, fro_eq, fro_eq]; exact Matrix.frobenius_norm_mul _ _

theorem fro_transpose {m n : ℕ} (X : Matrix (Fin m) (Fin n) ℝ) : fro X.transpose = fro X := by
  rw [fro_eq, fro_eq, Matrix.frobenius_norm_transpose]

theorem fro_smul {m n : ℕ} (c : ℝ) (X : Matrix (Fin m) (Fin n) ℝ) : fro (c • X) = |c| * fro X := by
  rw [fro_eq, fro_eq, norm_smul, Real.norm_eq_abs]

theorem fro_sub_comm {m n : ℕ} (X Y : Matrix (Fin m) (Fin n) ℝ) : fro (X - Y) = fro (Y - X) := by
  rw [fro_eq, fro_eq, norm_sub_rev]
end

theorem fro_sq {m n : ℕ} (X : Matrix (Fin m) (Fin n) ℝ) : fro X ^ 2 = ∑ i, ∑ j, X i j ^ 2 :=
  Real.sq_sqrt (sum_nonneg fun _ _ => sum_nonneg fun _ _ => sq_nonneg _)

theorem fro_mono {m n : ℕ} {X Y : Matrix (Fin m) (Fin n) ℝ} (h : ∀ i j, |X i j| ≤ |Y i j|) : fro X ≤ fro Y :=
  Real.sqrt_le_sqrt (sum_le_sum fun i _ => sum_le_sum fun j _ => sq_le_sq.2 (h i j))

theorem fro_le_abs {m n : ℕ} {X Y : Matrix (Fin m) (Fin n) ℝ} (h : ∀ i j, |X i j| ≤ Y i j) : fro X ≤ fro Y :=
  fro_mono fun i j => (h i j).trans (le_abs_self _)

theorem fro_abs {m n : ℕ} (X : Matrix (Fin m) (Fin n) ℝ) : fro (Matrix.of fun i j => |X i j|) = fro X := by
  rw [fro, fro]; simp

theorem abs_le_fro {m n : ℕ} (X : Matrix (Fin m) (Fin n) ℝ) (i : Fin m) (j : Fin n) : |X i j| ≤ fro X := by
  refine Real.abs_le_sqrt ?_
  refine le_trans ?_ (single_le_sum (f := fun i => ∑ j, X i j ^ 2) (fun i _ => sum_nonneg fun _ _ => sq_nonneg _) (mem_univ i))
  exact single_le_sum (f := fun j => X i j ^ 2) (fun j _ => sq_nonneg _) (mem_univ j)

theorem fro_cols {m n : ℕ} (X : Matrix (Fin m) (Fin n) ℝ) : fro X = √(∑ j, n2 (fun i => X i j) ^ 2) := by
  rw [fro, sum_comm]
  simp only [n2_sq]

theorem fro_orth {m n : ℕ} {G : Matrix (Fin m) (Fin m) ℝ} (h : G.transpose * G = 1) (X : Matrix (Fin m) (Fin n) ℝ) :
    fro (G * X) = fro X := by
  rw [fro_cols, fro_cols]
  congr 1
  refine sum_congr rfl fun j _ => ?_
  rw [← n2_orth h fun i => X i j]
  rfl

theorem fro_orth_right {m n : ℕ} {G : Matrix (Fin n) (Fin n) ℝ} (h : G.transpose * G = 1) (X : Matrix (Fin m) (Fin n) ℝ) :
    fro (X * G.transpose) = fro X := by
  rw [← fro_transpose, Matrix.transpose_mul, Matrix.transpose_transpose, fro_orth h, fro_transpose]

theorem fro_one (n : ℕ) : fro (1 : Matrix (Fin n) (Fin n) ℝ) = √n := by
  rw [fro]
  congr 1
  have : ∀ i j : Fin n, (1 : Matrix (Fin n) (Fin n) ℝ) i j ^ 2 = if i = j then 1 else 0 := by
    intro i j
    rw [Matrix.one_apply]
    split <;> simp
  simp [this]

theorem fro_of_orth {n : ℕ} {G : Matrix (Fin n) (Fin n) ℝ} (h : G.transpose * G = 1) : fro G = √n := by
  have := fro_orth h (1 : Matrix (Fin n) (Fin n) ℝ)
  rwa [Matrix.mul_one, fro_one] at this

/-- the matrix `w wᵀ` of a unit vector has norm 1 -/
theorem fro_dyad {n : ℕ} (w : Fin n → ℝ) : fro (Matrix.of fun i j => w i * w j) = ∑ i, w i * w i := by
  rw [fro]
  have : ∑ i, ∑ j, (Matrix.of fun i j => w i * w j) i j ^ 2 = (∑ i, w i * w i) ^ 2 := by
    rw [sq, sum_mul_sum]
    refine sum_congr rfl fun i _ => sum_congr rfl fun j _ => ?_
    rw [Matrix.of_apply]; ring
  rw [this, Real.sqrt_sq (sum_nonneg fun i _ => mul_self_nonneg _)]

/-! ### Relative errors of signed numbers -/

namespace Rounding
variable {R : Rounding ℝ}

/-- `a` is `b` up to `n` relative errors of size `u` -/
def RelN (R : Rounding ℝ) (n : ℕ) (a b : ℝ) : Prop := ∃ θ, R.Near n θ 1 ∧ a = θ * b

namespace RelN

theorem refl (a : ℝ) : R.RelN 0 a a := ⟨1, Near.refl zero_le_one, by ring⟩

theorem zero (n : ℕ) : R.RelN n 0 0 := ⟨1, (Near.refl zero_le_one).mono (Nat.zero_le _), by ring⟩

theorem mono {m n : ℕ} (h : m ≤ n) {a b : ℝ} : R.RelN m a b → R.RelN n a b := fun ⟨θ, h1, h2⟩ => ⟨θ, h1.mono h, h2⟩

theorem mul {m n : ℕ} {a b a' b' : ℝ} : R.RelN m a b → R.RelN n a' b' → R.RelN (m + n) (a * a') (b * b') :=
  fun ⟨θ, h1, h2⟩ ⟨θ', h1', h2'⟩ => ⟨θ * θ', by simpa using h1.mul h1', by rw [h2, h2']; ring⟩

theorem div {m n : ℕ} {a b a' b' : ℝ} : R.RelN m a b → R.RelN n a' b' → R.RelN (m + n) (a / a') (b / b') :=
  fun ⟨θ, h1, h2⟩ ⟨θ', h1', h2'⟩ => ⟨θ / θ', by simpa using h1.div h1' one_pos, by rw [h2, h2']; exact mul_div_mul_comm _ _ _ _⟩

theorem neg {n : ℕ} {a b : ℝ} : R.RelN n a b → R.RelN n (-a) (-b) := fun ⟨θ, h1, h2⟩ => ⟨θ, h1, by rw [h2]; ring⟩

theorem of_near {n : ℕ} {a b : ℝ} (h : R.Near n a b) : R.RelN n a b := by
  rcases h.1.eq_or_lt with hb | hb
  · have ha : a = 0 := le_antisymm (by have := h.2.1; rwa [← hb, mul_zero] at this) h.nonneg
    rw [ha, ← hb]
    exact zero n
  · refine ⟨a / b, ?_, by field_simp⟩
    have := h.div (Near.refl (R := R) hb.le) hb
    rwa [div_self hb.ne', add_zero] at this

theorem near {n : ℕ} {a b : ℝ} (h : R.RelN n a b) (hb : 0 ≤ b) : R.Near n a b := by
  obtain ⟨θ, h1, h2⟩ := h
  have := h1.mul (Near.refl (R := R) hb)
  rwa [one_mul, add_zero, ← h2] at this

theorem of_rnd (hu : R.u < 1) (x : ℝ) : R.RelN 1 (R.rnd x) x := by
  rcases le_total 0 x with hx | hx
  · exact of_near (Near.of_rnd hu hx)
  · have h1 := abs_le.1 (R.err x)
    have h2 := abs_le.1 (R.err' x)
    rw [abs_of_nonpos hx] at h1
    have h3 : R.rnd x ≤ 0 := by nlinarith
    rw [abs_of_nonpos h3] at h2
    have : R.Near 1 (-R.rnd x) (-x) := by
      rw [Near, pow_one]
      exact ⟨by linarith, by linarith, by linarith⟩
    simpa using (of_near this).neg

theorem trans {m n : ℕ} {a b c : ℝ} : R.RelN m a b → R.RelN n b c → R.RelN (m + n) a c :=
  fun ⟨θ, h1, h2⟩ ⟨θ', h1', h2'⟩ => ⟨θ * θ', by simpa using h1.mul h1', by rw [h2, h2']; ring⟩

theorem rnd (hu : R.u < 1) {n : ℕ} {a b : ℝ} (h : R.RelN n a b) : R.RelN (n + 1) (R.rnd a) b := by
  have := (of_rnd hu a).trans h
  rwa [add_comm] at this

theorem abs_sub_le {n : ℕ} {a b : ℝ} (h : R.RelN n a b) : |a - b| ≤ R.gam n * |b| := by
  obtain ⟨θ, h1, h2⟩ := h
  have := h1.abs_sub_le
  rw [mul_one] at this
  rw [h2, show θ * b - b = (θ - 1) * b by ring, abs_mul]
  exact mul_le_mul_of_nonneg_right this (abs_nonneg _)

end RelN

theorem Near.sqrt {n : ℕ} {a b : ℝ} (h : R.Near n a b) : R.Near n √a √b := by
  have key : ∀ {a b : ℝ}, 0 ≤ b → a ≤ (1 + R.u) ^ n * b → √a ≤ (1 + R.u) ^ n * √b := by
    intro a b hb hab
    have h1 : 1 ≤ (1 + R.u) ^ n := one_le_pow₀ R.one_le
    rw [Real.sqrt_le_left (by positivity)]
    rw [mul_pow, Real.sq_sqrt hb]
    refine hab.trans (mul_le_mul_of_nonneg_right ?_ hb)
    nlinarith
  exact ⟨Real.sqrt_nonneg _, key h.1 h.2.1, key h.nonneg h.2.2⟩

/-- a correctly rounded square root of a number that is known up to relative errors -/
theorem Near.flsqrt {sqrt : Fl R → Fl R} (hs : FlSqrt sqrt) (hu : R.u < 1) {n : ℕ} {x : Fl R} {b : ℝ} (h : R.Near n x.val b) :
    R.Near (n + 1) (sqrt x).val √b := by
  obtain ⟨r, h0, h1, h2⟩ := hs x h.nonneg
  rw [h2]
  refine Near.rnd hu ?_
  have : r = √x.val := by rw [← h1, Real.sqrt_mul_self h0]
  rw [this]
  exact h.sqrt

/-- the accumulated sum of rounded squares -/
theorem near_squares (hu : R.u < 1) (d : ℕ → Fl R) (n : ℕ) :
    R.Near (n + 1) (Mat.accum (fun i => d i * d i) n).val (∑ i ∈ range n, (d i).val * (d i).val) := by
  induction n with
  | zero => simp [Mat.accum, Near, Fl.zero_val]
  | succ n ih =>
    rw [sum_range_succ]
    have h2 : R.Near 1 (d n * d n).val ((d n).val * (d n).val) := Near.of_rnd hu (mul_self_nonneg _)
    exact (ih.add (h2.mono (by omega))).rnd hu

end Rounding

/-! ### The reflector -/

section
variable {R : Rounding ℝ}
open Rounding

theorem norm2_accum {sqrt : Fl R → Fl R} {v : Mat (Fl R)} {n : Nat} {f : Nat → Nat → Fl R} (h : v.Is n 1 f) :
    v.norm2 sqrt = some (sqrt (Mat.accum (fun i => f i 0 * f i 0) n)) := by
  unfold Mat.norm2
  have := Mat.accumLoop (n := n) (fun i => f i 0 * f i 0) (fun sum i => do
    let b ← v.vget i
    some (sum + b * b)) (by
      intro s k hk
      simp [h.vget_col hk])
  rw [h.hm, h.hn, mul_one, this]
  simp

theorem two_rel (hu : R.u < 1) : R.RelN 1 (2 : Fl R).val 2 := by
  have := RelN.of_rnd hu (2 : ℝ)
  have e : (2 : Fl R).val = R.rnd ((2 : ℕ) : ℝ) := rfl
  rw [e]
  exact_mod_cast this

theorem half_rel (hu : R.u < 1) : R.RelN 2 (1 / 2 : Fl R).val (1 / 2) :=
  (RelN.div (RelN.refl (1 : ℝ)) (two_rel hu)).rnd hu

/-- the vector of the reflector, entry by entry: the computed one differs from the exact one by relative errors -/
theorem hhW_fl {sqrt : Fl R → Fl R} (hs : FlSqrt sqrt) (hu : R.u < 1) (g : ℕ → Fl R) (k r : ℕ)
    (hS : ∑ i ∈ range (r + 1), (g (k + i)).val * (g (k + i)).val ≠ 0) :
    let nrm := √(∑ i ∈ range (r + 1), (g (k + i)).val * (g (k + i)).val)
    let alpha := if (g k).val ≥ 0 then -nrm else nrm
    let v0 := √(1 / 2 * (1 - (g k).val / alpha))
    let w := hhW (fun i => (g i).val) k v0 (-alpha * v0)
    let nrm' := sqrt (Mat.accum (fun i => g (k + i) * g (k + i)) (r + 1))
    let alpha' := if g k ≥ 0 then -nrm' else nrm'
    let v0' := sqrt (1 / 2 * (1 - g k / alpha'))
    let w' := hhW g k v0' (-alpha' * v0')
    alpha' ≠ 0 ∧ ∀ i, R.RelN (2 * r + 16) (w' i).val (w i) := by
  intro nrm alpha v0 w nrm' alpha' v0' w'
  have hS0 : 0 ≤ ∑ i ∈ range (r + 1), (g (k + i)).val * (g (k + i)).val := sum_nonneg fun i _ => mul_self_nonneg _
  have hnpos : 0 < nrm := Real.sqrt_pos.2 (lt_of_le_of_ne hS0 (Ne.symm hS))
  have n1 : R.Near (r + 3) nrm'.val nrm := (near_squares hu (fun i => g (k + i)) (r + 1)).flsqrt hs hu
  have n1pos := n1.pos hnpos
  have a1 : R.RelN (r + 3) alpha'.val alpha := by
    by_cases h : (g k).val ≥ 0
    · have e1 : alpha = -nrm := if_pos h
      have e2 : alpha' = -nrm' := if_pos h
      rw [e1, e2]
      exact (RelN.of_near n1).neg
    · have e1 : alpha = nrm := if_neg h
      have e2 : alpha' = nrm' := if_neg h
      rw [e1, e2]
      exact RelN.of_near n1
  have a0 : alpha' ≠ 0 := by
    intro h
    have h' : alpha'.val = 0 := by rw [h]; rfl
    by_cases hc : (g k).val ≥ 0
    · have e2 : alpha' = -nrm' := if_pos hc
      rw [e2, Fl.neg_val] at h'
      linarith
    · have e2 : alpha' = nrm' := if_neg hc
      rw [e2] at h'
      linarith
  have had : (g k).val / alpha ≤ 0 := by
    by_cases h : (g k).val ≥ 0
    · have e : alpha = -nrm := if_pos h
      rw [e]
      exact div_nonpos_of_nonneg_of_nonpos h (by linarith)
    · have e : alpha = nrm := if_neg h
      rw [e]
      exact div_nonpos_of_nonpos_of_nonneg (by linarith) hnpos.le
  have t1 : R.RelN (r + 4) (g k / alpha').val ((g k).val / alpha) := by
    have := ((RelN.refl (g k).val).div a1).rnd hu
    rwa [zero_add] at this
  have t2 : R.Near (r + 4) (-(g k / alpha').val) (-((g k).val / alpha)) := t1.neg.near (by linarith)
  have t3 : R.Near (r + 5) (1 - g k / alpha').val (1 - (g k).val / alpha) := by
    have := (((Near.refl (R := R) (zero_le_one (α := ℝ))).mono (Nat.zero_le (r + 4))).add t2).rnd hu
    rw [← sub_eq_add_neg, ← sub_eq_add_neg] at this
    exact this
  have t4 : R.RelN (r + 8) (1 / 2 * (1 - g k / alpha')).val (1 / 2 * (1 - (g k).val / alpha)) :=
    (((half_rel hu).mul (RelN.of_near t3)).rnd hu).mono (by omega)
  have t5 : R.Near (r + 9) v0'.val v0 := (t4.near (by linarith)).flsqrt hs hu
  have p1 : R.RelN (2 * r + 13) (-alpha' * v0').val (-alpha * v0) :=
    ((a1.neg.mul (RelN.of_near t5)).rnd hu).mono (by omega)
  refine ⟨a0, fun i => ?_⟩
  simp only [w', w, hhW]
  split
  · exact RelN.zero _
  · split
    · exact (RelN.of_near t5).mono (by omega)
    · have := ((RelN.refl (g i).val).div (((two_rel hu).mul p1).rnd hu)).rnd hu
      exact this.mono (by omega)

/-- the error of a computed reflector in the Frobenius norm -/
noncomputable def hhErr (R : Rounding ℝ) (n : ℕ) : ℝ := R.u * √n + 2 * (1 + R.u) * R.gam (4 * n + 31)

theorem hhErr_nonneg (R : Rounding ℝ) (n : ℕ) : 0 ≤ hhErr R n := by
  have := R.u_nonneg
  have := R.gam_nonneg (4 * n + 31)
  unfold hhErr
  positivity

/-- the reals of a matrix of rounded numbers -/
def vals {m n : ℕ} (X : Matrix (Fin m) (Fin n) (Fl R)) : Matrix (Fin m) (Fin n) ℝ := Matrix.of fun i j => (X i j).val

/-- the reflector of a vector known up to relative errors -/
theorem hhM_fl (hu : R.u < 1) {n : ℕ} {P : Matrix (Fin n) (Fin n) (Fl R)} {w : Fin n → ℝ} {w' : Fin n → Fl R}
    (h1 : ∑ i, w i * w i = 1) (hw : ∀ i, R.RelN (2 * n + 14) (w' i).val (w i))
    (hP : ∀ i j, P i j = (if i = j then 1 else 0) - w' i * w' j * 2) : fro (vals P - hhM w) ≤ hhErr R n := by
  have u0 := R.u_nonneg
  set g := R.gam (4 * n + 31) with hg
  have g0 : 0 ≤ g := R.gam_nonneg _
  have hent : ∀ i j, |(vals P - hhM w) i j| ≤
      (R.u • (Matrix.of fun i j => |hhM w i j|) + (2 * (1 + R.u) * g) • (Matrix.of fun i j => |(Matrix.of fun i j => w i * w j) i j|)) i j := by
    intro i j
    have hp : R.RelN (4 * n + 31) (w' i * w' j * 2).val (w i * w j * 2) := by
      have := (((((hw i).mul (hw j)).rnd hu).mul (two_rel hu)).rnd hu)
      exact this.mono (by omega)
    have h2 := hp.abs_sub_le
    rw [← hg] at h2
    set p' := (w' i * w' j * 2).val with hp'
    have e1 : vals P i j = R.rnd ((if i = j then 1 else 0) - p') := by
      rw [vals, Matrix.of_apply, hP, Fl.sub_val]
      split <;> rfl
    have e2 : hhM w i j = (if i = j then 1 else 0) - w i * w j * 2 := by
      rw [hhM, Matrix.of_apply]; ring
    have h3 := R.err ((if i = j then 1 else 0) - p')
    simp only [Matrix.sub_apply, Matrix.add_apply, Matrix.smul_apply, Matrix.of_apply, smul_eq_mul]
    rw [e1, e2]
    generalize (if i = j then (1 : ℝ) else 0) = δ at *
    have h4 : |δ - p'| ≤ |δ - w i * w j * 2| + g * |w i * w j * 2| := by
      have := abs_add_le (δ - w i * w j * 2) (w i * w j * 2 - p')
      rw [abs_sub_comm (w i * w j * 2) p'] at this
      rw [show δ - w i * w j * 2 + (w i * w j * 2 - p') = δ - p' by ring] at this
      linarith
    have h5 : |R.rnd (δ - p') - (δ - w i * w j * 2)| ≤ |R.rnd (δ - p') - (δ - p')| + |p' - w i * w j * 2| := by
      have := abs_add_le (R.rnd (δ - p') - (δ - p')) (-(p' - w i * w j * 2))
      rw [abs_neg] at this
      rw [show R.rnd (δ - p') - (δ - p') + -(p' - w i * w j * 2) = R.rnd (δ - p') - (δ - w i * w j * 2) by ring] at this
      exact this
    have h6 : |w i * w j * 2| = 2 * |w i * w j| := by rw [abs_mul, abs_two, mul_comm]
    rw [h6] at h2 h4
    have := mul_le_mul_of_nonneg_left h4 u0
    nlinarith
  refine (fro_le_abs hent).trans ((fro_add _ _).trans ?_)
  rw [fro_smul, fro_smul, fro_abs, fro_abs, fro_dyad, h1, mul_one, abs_of_nonneg u0, abs_of_nonneg (by positivity),
    fro_of_orth (by rw [hhM_transpose]; exact hhM_orth h1), hhErr]

/-- What `householder` returns on a column of rounded numbers of length `n > 1`: the `1 x 1` identity when the tail is zero, and
otherwise a matrix close to an exact reflector, which maps the tail to a multiple of `e_k`. -/
theorem householder_fl {sqrt : Fl R → Fl R} (hs : FlSqrt sqrt) (hu : R.u < 1) {v : Mat (Fl R)} {n k : Nat} {x : Fin n → Fl R}
    (hv : ColRepr v x) (hn : 1 < n) (hk : k < n) :
    (∀ i : Fin n, k ≤ i → (x i).val = 0) ∧ v.householder sqrt k = some (Mat.one 1) ∨
    ∃ (H : Mat (Fl R)) (P : Matrix (Fin n) (Fin n) (Fl R)) (w : Fin n → ℝ), v.householder sqrt k = some H ∧ Repr H P ∧
      ∑ i, w i * w i = 1 ∧ (∀ i : Fin n, (i : Nat) < k → w i = 0) ∧
      (∀ i : Fin n, k < i → (x i).val - 2 * (w i * ∑ l, w l * (x l).val) = 0) ∧
      fro (vals P - hhM w) ≤ hhErr R n := by
  obtain ⟨r, rfl⟩ : ∃ r, n = k + (r + 1) := ⟨n - k - 1, by omega⟩
  have hvi := hv.is
  set g := extV x with hg
  have hgx : ∀ i : Fin (k + (r + 1)), g i = x i := fun i => extV_apply x i
  obtain ⟨d, hd1, hd2⟩ := Mat.vgetSlice_of (v := v) (n := k + (r + 1)) (s := k) (e := k + (r + 1) - 1)
    (x := g) (fun i hi => hvi.vget_col hi) (by rw [hvi.hm, hvi.hn]; split <;> omega) (by omega) (by omega)
  rw [show k + (r + 1) - 1 - k + 1 = r + 1 by omega] at hd2
  have hd0 : d.vget 0 = some (g k) := hd2.vget_col (by omega)
  have hnorm := norm2_accum (sqrt := sqrt) hd2
  have hstart : v.householder sqrt k =
      (let alpha := if g k ≥ 0 then -sqrt (Mat.accum (fun i => g (k + i) * g (k + i)) (r + 1))
        else sqrt (Mat.accum (fun i => g (k + i) * g (k + i)) (r + 1))
      if alpha = 0 then some (Mat.one 1) else Mat.hhBuild sqrt (k + (r + 1)) k d (g k) alpha) := by
    unfold Mat.householder
    rw [hvi.hm, if_neg (by omega), if_neg (by omega), if_neg (by omega), hvi.hn]
    simp only [Option.bind_eq_bind]
    rw [hd1]
    simp only [Option.bind_some]
    rw [hd0]
    simp only [Option.bind_some]
    rw [hnorm]
    simp only [Option.bind_some]
    congr!
  by_cases hS : ∑ i ∈ range (r + 1), (g (k + i)).val * (g (k + i)).val = 0
  · left
    have hz : ∀ i, i < r + 1 → (g (k + i)).val = 0 := fun i hi =>
      mul_self_eq_zero.mp ((sum_eq_zero_iff_of_nonneg (fun i _ => mul_self_nonneg _)).mp hS i (mem_range.mpr hi))
    have hn0 : (sqrt (Mat.accum (fun i => g (k + i) * g (k + i)) (r + 1))).val = 0 := by
      have h1 := (near_squares hu (fun i => g (k + i)) (r + 1)).flsqrt hs hu
      rw [hS, Real.sqrt_zero] at h1
      exact le_antisymm (by simpa using h1.2.1) h1.nonneg
    have hn1 : sqrt (Mat.accum (fun i => g (k + i) * g (k + i)) (r + 1)) = 0 := Fl.ext hn0
    have hneg : -(0 : Fl R) = 0 := Fl.ext (by rw [Fl.neg_val, Fl.zero_val, neg_zero])
    refine ⟨fun i hi => ?_, ?_⟩
    · have := hz (i - k) (by have := i.2; omega)
      rwa [show k + ((i : Nat) - k) = i by omega, hgx] at this
    · rw [hstart, hn1, hneg]
      simp
  · right
    obtain ⟨b1, b2⟩ := hhW_fl hs hu g k r hS
    have hsq : IsSqrt Real.sqrt := fun x hx => ⟨Real.sqrt_nonneg _, Real.mul_self_sqrt hx⟩
    obtain ⟨f1, f2, f3, f4, f5, f6⟩ := hh_facts hsq (fun i => (g i).val) k r hS
    obtain ⟨H, hH1, hH2⟩ := hhBuild_is (sqrt := sqrt) (k := k) (g := g) hd2 (fun i _ => rfl) (g k)
      (if g k ≥ 0 then -sqrt (Mat.accum (fun i => g (k + i) * g (k + i)) (r + 1))
        else sqrt (Mat.accum (fun i => g (k + i) * g (k + i)) (r + 1)))
    rw [hstart]
    set alpha' := (if g k ≥ 0 then -sqrt (Mat.accum (fun i => g (k + i) * g (k + i)) (r + 1))
        else sqrt (Mat.accum (fun i => g (k + i) * g (k + i)) (r + 1))) with halpha'
    set v0' := sqrt (1 / 2 * (1 - g k / alpha')) with hv0'
    set w' := hhW g k v0' (-alpha' * v0') with hw'
    set alpha := (if (g k).val ≥ 0 then -√(∑ i ∈ range (r + 1), (g (k + i)).val * (g (k + i)).val)
        else √(∑ i ∈ range (r + 1), (g (k + i)).val * (g (k + i)).val)) with halpha
    set v0 := √(1 / 2 * (1 - (g k).val / alpha)) with hv0
    set w := hhW (fun i => (g i).val) k v0 (-alpha * v0) with hw
    have hsum : ∀ h : Nat → ℝ, ∑ i : Fin (k + (r + 1)), h i = ∑ i ∈ range (k + (r + 1)), h i := fun h =>
      Fin.sum_univ_eq_sum_range h _
    have hwx : ∑ l : Fin (k + (r + 1)), w l * (x l).val = -alpha * v0 := by
      rw [← f3, ← hsum]
      exact sum_congr rfl (fun i _ => by rw [hgx])
    refine ⟨H, _, fun i => w i, ?_, hH2.repr, ?_, ?_, ?_, ?_⟩
    · simp only [if_neg b1]; exact hH1
    · rw [hsum (fun i => w i * w i), f2]
    · intro i hi; simp [hw, hhW, hi]
    · intro i hi
      simp only
      rw [hwx, ← hgx]
      have : w i = (g i).val / (2 * (-alpha * v0)) := by
        simp only [hw, hhW]; rw [if_neg (by omega), if_neg (by omega)]
      rw [this]
      generalize -alpha * v0 = P at f6
      field_simp
      ring
    · refine hhM_fl hu (w' := fun i => w' i) ?_ (fun i => (b2 i).mono (by omega)) ?_
      · rw [hsum (fun i => w i * w i), f2]
      · intro i j
        simp [Fin.ext_iff]
end

/-! ### The reduction -/

section
variable {R : Rounding ℝ}
open Rounding

/-- the error of a product with a computed reflector, relative to the other factor -/
noncomputable def hessEps (R : Rounding ℝ) (n : ℕ) : ℝ := hhErr R n + R.gam n * (√n + hhErr R n)

theorem hessEps_nonneg (R : Rounding ℝ) (n : ℕ) : 0 ≤ hessEps R n := by
  have := hhErr_nonneg R n
  have := R.gam_nonneg n
  unfold hessEps
  positivity

theorem mul_fro {m n p : ℕ} {A B : Mat (Fl R)} {M : Matrix (Fin m) (Fin n) (Fl R)} {N : Matrix (Fin n) (Fin p) (Fl R)}
    (hA : Repr A M) (hB : Repr B N) :
    ∃ C, ∃ P : Matrix (Fin m) (Fin p) (Fl R), A.mul B = some C ∧ Repr C P ∧
      fro (vals P - vals M * vals N) ≤ R.gam n * (fro (vals M) * fro (vals N)) := by
  obtain ⟨C, P, h1, h2, h3⟩ := C88_mul hA hB
  refine ⟨C, P, h1, h2, ?_⟩
  have g0 := R.gam_nonneg n
  have : ∀ i j, |(vals P - vals M * vals N) i j| ≤
      (R.gam n • ((Matrix.of fun i j => |vals M i j|) * (Matrix.of fun i j => |vals N i j|))) i j := by
    intro i j
    have := h3 i j
    simp only [Matrix.sub_apply, Matrix.smul_apply, Matrix.mul_apply, Matrix.of_apply, vals, smul_eq_mul, ← abs_mul]
    exact this
  refine (fro_le_abs this).trans ?_
  rw [fro_smul, abs_of_nonneg g0]
  refine mul_le_mul_of_nonneg_left ?_ g0
  refine (fro_mul _ _).trans ?_
  rw [fro_abs, fro_abs]

/-- the norm of a computed reflector -/
theorem fro_refl {n : ℕ} {P H : Matrix (Fin n) (Fin n) ℝ} {c : ℝ} (hH : H.transpose * H = 1) (h : fro (P - H) ≤ c) :
    fro P ≤ √n + c := by
  have := fro_add (P - H) H
  rw [sub_add_cancel, fro_of_orth hH] at this
  linarith

theorem mul_left_fl {n p : ℕ} {A B : Mat (Fl R)} {P : Matrix (Fin n) (Fin n) (Fl R)} {X : Matrix (Fin n) (Fin p) (Fl R)}
    {H : Matrix (Fin n) (Fin n) ℝ} (hA : Repr A P) (hB : Repr B X) (hH : H.transpose * H = 1)
    (h : fro (vals P - H) ≤ hhErr R n) :
    ∃ C, ∃ Y : Matrix (Fin n) (Fin p) (Fl R), A.mul B = some C ∧ Repr C Y ∧
      fro (vals Y - H * vals X) ≤ hessEps R n * fro (vals X) := by
  obtain ⟨C, Y, h1, h2, h3⟩ := mul_fro hA hB
  refine ⟨C, Y, h1, h2, ?_⟩
  have e : vals Y - H * vals X = (vals Y - vals P * vals X) + (vals P - H) * vals X := by
    rw [Matrix.sub_mul]; abel
  rw [e]
  have h4 := fro_refl hH h
  have h5 := fro_mul (vals P - H) (vals X)
  have h6 := mul_le_mul_of_nonneg_right h (fro_nonneg (vals X))
  have h7 := mul_le_mul_of_nonneg_left (mul_le_mul_of_nonneg_right h4 (fro_nonneg (vals X))) (R.gam_nonneg n)
  have h8 := fro_add (vals Y - vals P * vals X) ((vals P - H) * vals X)
  rw [hessEps]
  nlinarith

theorem mul_right_fl {n p : ℕ} {A B : Mat (Fl R)} {P : Matrix (Fin n) (Fin n) (Fl R)} {X : Matrix (Fin p) (Fin n) (Fl R)}
    {H : Matrix (Fin n) (Fin n) ℝ} (hA : Repr A X) (hB : Repr B P) (hH : H.transpose * H = 1)
    (h : fro (vals P - H) ≤ hhErr R n) :
    ∃ C, ∃ Y : Matrix (Fin p) (Fin n) (Fl R), A.mul B = some C ∧ Repr C Y ∧
      fro (vals Y - vals X * H) ≤ hessEps R n * fro (vals X) := by
  obtain ⟨C, Y, h1, h2, h3⟩ := mul_fro hA hB
  refine ⟨C, Y, h1, h2, ?_⟩
  have e : vals Y - vals X * H = (vals Y - vals X * vals P) + vals X * (vals P - H) := by
    rw [Matrix.mul_sub]; abel
  rw [e]
  have h4 := fro_refl hH h
  have h5 := fro_mul (vals X) (vals P - H)
  have h6 := mul_le_mul_of_nonneg_left h (fro_nonneg (vals X))
  have h7 := mul_le_mul_of_nonneg_left (mul_le_mul_of_nonneg_left h4 (fro_nonneg (vals X))) (R.gam_nonneg n)
  have h8 := fro_add (vals Y - vals X * vals P) (vals X * (vals P - H))
  rw [hessEps]
  nlinarith

/-- the entries below the subdiagonal of the first `j` columns -/
def lowPart {n : ℕ} (j : ℕ) (X : Matrix (Fin n) (Fin n) ℝ) : Matrix (Fin n) (Fin n) ℝ :=
  Matrix.of fun i c => if (c : ℕ) < j ∧ (c : ℕ) + 1 < i then X i c else 0

theorem lowPart_sub {n : ℕ} (j : ℕ) (X Y : Matrix (Fin n) (Fin n) ℝ) : lowPart j (X - Y) = lowPart j X - lowPart j Y := by
  ext i c
  simp only [lowPart, Matrix.of_apply, Matrix.sub_apply]
  split <;> simp

theorem fro_lowPart {n : ℕ} (j : ℕ) (X : Matrix (Fin n) (Fin n) ℝ) : fro (lowPart j X) ≤ fro X := by
  refine fro_mono fun i c => ?_
  simp only [lowPart, Matrix.of_apply]
  split <;> simp

/-- multiplication with the reflector on both sides clears one more column and rotates the rest of what should be zero -/
theorem lowPart_step {n j : ℕ} {w : Fin n → ℝ} {X : Matrix (Fin n) (Fin n) ℝ} (hw : ∀ i : Fin n, (i : ℕ) < j + 1 → w i = 0)
    (hx : ∀ i c : Fin n, (c : ℕ) = j → j + 1 < i → X i c - 2 * (w i * ∑ l, w l * X l c) = 0) :
    lowPart (j + 1) (hhM w * X * hhM w) = hhM w * lowPart j X := by
  have hright : ∀ (Y : Matrix (Fin n) (Fin n) ℝ) (i c : Fin n), (c : ℕ) < j + 1 → (Y * hhM w) i c = Y i c := by
    intro Y i c hc
    rw [Matrix.mul_apply]
    have : ∀ l, Y i l * hhM w l c = if l = c then Y i l else 0 := by
      intro l
      simp only [hhM, Matrix.of_apply, hw c hc, mul_zero, sub_zero]
      split <;> simp
    rw [sum_congr rfl (fun l _ => this l)]
    simp
  ext i c
  rw [hhM_mul]
  by_cases hc : (c : ℕ) < j
  · have hs : ∑ l, w l * lowPart j X l c = ∑ l, w l * X l c := by
      refine sum_congr rfl fun l _ => ?_
      by_cases hl : (l : ℕ) < j + 1
      · rw [hw l hl, zero_mul, zero_mul]
      · rw [lowPart, Matrix.of_apply, if_pos ⟨hc, by omega⟩]
    rw [hs]
    simp only [lowPart, Matrix.of_apply]
    by_cases hi : (c : ℕ) + 1 < i
    · rw [if_pos ⟨by omega, hi⟩, if_pos ⟨hc, hi⟩, hright _ _ _ (by omega), hhM_mul]
    · rw [if_neg (fun h => hi h.2), if_neg (fun h => hi h.2), hw i (by omega), zero_mul, mul_zero, sub_zero]
  · have hz : ∀ l, lowPart j X l c = 0 := fun l => by
      rw [lowPart, Matrix.of_apply, if_neg (fun h => hc h.1)]
    simp only [hz, mul_zero, sum_const_zero, sub_zero]
    simp only [lowPart, Matrix.of_apply]
    split
    · rename_i h
      rw [hright _ _ _ h.1, hhM_mul]
      exact hx i c (by omega) (by omega)
    · rfl

/-- invariant of the reduction with rounding after `j` steps -/
def HessInvFl {n : ℕ} (A : Matrix (Fin n) (Fin n) (Fl R)) (j : ℕ) (st : Mat (Fl R) × Mat (Fl R)) : Prop :=
  ∃ (Q H : Matrix (Fin n) (Fin n) (Fl R)) (W : Matrix (Fin n) (Fin n) ℝ), Repr st.1 Q ∧ Repr st.2 H ∧ W.transpose * W = 1 ∧
    fro (vals H - W * vals A * W.transpose) ≤ ((1 + hessEps R n) ^ (2 * j) - 1) * fro (vals A) ∧
    fro (vals Q - W) ≤ ((1 + hessEps R n) ^ j - 1) * √n ∧
    fro (lowPart j (vals H)) ≤ ((1 + hessEps R n) ^ (2 * j) - 1) * fro (vals A)

theorem hessStep_fl {sqrt : Fl R → Fl R} (hs : FlSqrt sqrt) (hu : R.u < 1) {n j : ℕ} {A : Matrix (Fin n) (Fin n) (Fl R)}
    {st st' : Mat (Fl R) × Mat (Fl R)} (hj : j + 1 < n) (h : HessInvFl A j st)
    (hr : Mat.hessStep sqrt st (j + 1) = some st') : HessInvFl A (j + 1) st' := by
  obtain ⟨Q, H, W, hQ, hH, hW, e1, e2, e3⟩ := h
  have hcol : j < n := by omega
  obtain ⟨v, hv1, hv2⟩ := Mat.getColumn_is hH.is hcol
  set fc : Fin n := ⟨j, hcol⟩ with hfc
  have hvx : ColRepr v (fun i => H i fc) := hv2.colRepr_of (fun i => by rw [extM_lt H i.2 hcol])
  unfold Mat.hessStep at hr
  simp only [Option.bind_eq_bind, Nat.add_sub_cancel] at hr
  rw [hv1] at hr
  simp only [Option.bind_some] at hr
  rcases householder_fl hs hu hvx (by omega) hj with ⟨_, hno⟩ | ⟨P, P', w, hP, hPr, hw1, hw2, hw3, hw4⟩
  · have : (Mat.one 1 : Mat (Fl R)).mul st.2 = none := by
      unfold Mat.mul
      rw [if_neg]
      rw [hH.rows]
      show ¬ (1 = n)
      omega
    rw [hno] at hr
    simp only [Option.bind_some] at hr
    rw [this] at hr
    cases hr
  · have hG : (hhM w).transpose * hhM w = 1 := by rw [hhM_transpose]; exact hhM_orth hw1
    have hT := hhM_transpose w
    obtain ⟨h1, H1, hh1, hh2, hh3⟩ := mul_left_fl hPr hH hG hw4
    obtain ⟨q1, Q1, hq1, hq2, hq3⟩ := mul_left_fl hPr hQ hG hw4
    obtain ⟨pt, hp1, hp2⟩ := Mat.transpose_is hPr.is (Or.inl rfl) (Or.inl (by omega))
    have hp3 : Repr pt P'.transpose := hp2.repr_of (fun i j => by rw [extM_apply]; rfl)
    have hp4 : fro (vals P'.transpose - hhM w) ≤ hhErr R n := by
      have e : vals P'.transpose - hhM w = (vals P' - hhM w).transpose := by
        rw [Matrix.transpose_sub, hT]; rfl
      rw [e, fro_transpose]
      exact hw4
    obtain ⟨h2, H2, hg1, hg2, hg3⟩ := mul_right_fl hh2 hp3 hG hp4
    rw [hP] at hr
    simp only [Option.bind_some] at hr
    rw [hh1] at hr
    simp only [Option.bind_some] at hr
    rw [hq1] at hr
    simp only [Option.bind_some] at hr
    rw [hp1] at hr
    simp only [Option.bind_some] at hr
    rw [hg1] at hr
    simp only [Option.bind_some, Option.some.injEq] at hr
    subst hr
    set ε := hessEps R n with hε
    have ε0 : 0 ≤ ε := hessEps_nonneg R n
    set α := fro (vals A) with hα
    have α0 : 0 ≤ α := fro_nonneg _
    -- the size of the matrix so far
    have sH : fro (vals H) ≤ (1 + ε) ^ (2 * j) * α := by
      have := fro_add (vals H - W * vals A * W.transpose) (W * vals A * W.transpose)
      rw [sub_add_cancel, fro_orth_right hW, fro_orth hW] at this
      linarith
    have sQ : fro (vals Q) ≤ (1 + ε) ^ j * √n := by
      have := fro_add (vals Q - W) W
      rw [sub_add_cancel, fro_of_orth hW] at this
      linarith
    -- the error of the step
    have sH1 : fro (vals H1) ≤ (1 + ε) * fro (vals H) := by
      have := fro_add (vals H1 - hhM w * vals H) (hhM w * vals H)
      rw [sub_add_cancel, fro_orth hG] at this
      linarith
    have step : fro (vals H2 - hhM w * vals H * hhM w) ≤ ((1 + ε) ^ 2 - 1) * fro (vals H) := by
      have e : vals H2 - hhM w * vals H * hhM w = (vals H2 - vals H1 * hhM w) + (vals H1 - hhM w * vals H) * hhM w := by
        rw [Matrix.sub_mul]; abel
      have h5 : fro ((vals H1 - hhM w * vals H) * hhM w) = fro (vals H1 - hhM w * vals H) := by
        have := fro_orth_right hG (vals H1 - hhM w * vals H)
        rwa [hT] at this
      rw [e]
      refine (fro_add _ _).trans ?_
      rw [h5]
      have := mul_le_mul_of_nonneg_left sH1 ε0
      nlinarith
    have step' : fro (vals H2 - hhM w * vals H * hhM w) ≤ ((1 + ε) ^ 2 - 1) * ((1 + ε) ^ (2 * j) * α) :=
      step.trans (mul_le_mul_of_nonneg_left sH (by nlinarith))
    have hpow : (1 + ε) ^ (2 * (j + 1)) = (1 + ε) ^ 2 * (1 + ε) ^ (2 * j) := by ring
    refine ⟨Q1, H2, hhM w * W, hq2, hg2, ?_, ?_, ?_, ?_⟩
    · rw [Matrix.transpose_mul, Matrix.mul_assoc, ← Matrix.mul_assoc _ _ W, hG, Matrix.one_mul, hW]
    · have e : vals H2 - hhM w * W * vals A * (hhM w * W).transpose =
          (vals H2 - hhM w * vals H * hhM w) + hhM w * (vals H - W * vals A * W.transpose) * (hhM w).transpose := by
        rw [Matrix.transpose_mul, hT, Matrix.mul_sub, Matrix.sub_mul]
        simp only [Matrix.mul_assoc]
        abel
      rw [e]
      refine (fro_add _ _).trans ?_
      rw [fro_orth_right hG, fro_orth hG, hpow]
      linarith
    · have e : vals Q1 - hhM w * W = (vals Q1 - hhM w * vals Q) + hhM w * (vals Q - W) := by
        rw [Matrix.mul_sub]; abel
      rw [e]
      refine (fro_add _ _).trans ?_
      rw [fro_orth hG]
      have := mul_le_mul_of_nonneg_left sQ ε0
      rw [pow_succ]
      nlinarith
    · have e : lowPart (j + 1) (vals H2) =
          lowPart (j + 1) (vals H2 - hhM w * vals H * hhM w) + hhM w * lowPart j (vals H) := by
        rw [lowPart_sub, lowPart_step (X := vals H) (fun i hi => hw2 i hi)]
        · abel
        · intro i c hc hi
          have : c = fc := Fin.ext hc
          rw [this]
          exact hw3 i hi
      rw [e]
      refine (fro_add _ _).trans ?_
      rw [fro_orth hG, hpow]
      have := fro_lowPart (j + 1) (vals H2 - hhM w * vals H * hhM w)
      linarith

/-- **C116, the Hessenberg decomposition.** When `dec_hessenberg` returns `(q, h)` for an `n x n` matrix, there is an exactly
orthogonal matrix `W` such that, with `ε = hessEps R n` and in the Frobenius norm,

* `h` is within `((1 + ε)^(2 (n - 1)) - 1) ‖A‖` of `Wᵀ A W`;
* `q` is within `((1 + ε)^(n - 1) - 1) √n` of `W`;
* the entries of `h` below the subdiagonal, which the code does not set to zero, have together a norm of at most
  `((1 + ε)^(2 (n - 1)) - 1) ‖A‖`. -/
theorem C116_hessenberg {sqrt : Fl R → Fl R} (hs : FlSqrt sqrt) (hu : R.u < 1) {n : ℕ} {A q h : Mat (Fl R)}
    {M : Matrix (Fin n) (Fin n) (Fl R)} (hA : Repr A M) (hr : A.decHess sqrt = some (q, h)) :
    ∃ (Q H : Matrix (Fin n) (Fin n) (Fl R)) (W : Matrix (Fin n) (Fin n) ℝ), Repr q Q ∧ Repr h H ∧
      W.transpose * W = 1 ∧ W * W.transpose = 1 ∧
      fro (vals H - W.transpose * vals M * W) ≤ ((1 + hessEps R n) ^ (2 * (n - 1)) - 1) * fro (vals M) ∧
      fro (vals Q - W) ≤ ((1 + hessEps R n) ^ (n - 1) - 1) * √n ∧
      √(∑ i : Fin n, ∑ c : Fin n, if (c : ℕ) + 1 < i then (H i c).val ^ 2 else 0) ≤
        ((1 + hessEps R n) ^ (2 * (n - 1)) - 1) * fro (vals M) := by
  unfold Mat.decHess at hr
  rw [hA.rows, hA.cols] at hr
  by_cases hn : n = n ∧ n ≠ 0
  · rw [if_pos hn] at hr
    simp only [Option.bind_eq_bind, Option.bind_eq_some_iff] at hr
    obtain ⟨st, hst, q', hq', hres⟩ := hr
    simp only [Option.some.injEq, Prod.mk.injEq] at hres
    obtain ⟨rfl, rfl⟩ := hres
    have h0 : HessInvFl M 0 (Mat.one n, A) := by
      refine ⟨mx n n fun i j => if i = j then 1 else 0, M, 1, (Mat.one_is n).repr, hA, by simp, ?_, ?_, ?_⟩
      · simp [fro]
      · have : vals (mx n n fun i j => if i = j then (1 : Fl R) else 0) = 1 := by
          ext i j
          simp only [vals, mx, Matrix.of_apply, Matrix.one_apply, Fin.ext_iff]
          split <;> rfl
        rw [this]
        simp [fro]
      · simp [fro, lowPart]
    have := forRange_inv_of_some (fun k st => HessInvFl M (k - 1) st) (a := 1) (b := n) h0 (by
        intro k u u' h1 h2 hu' hf
        obtain ⟨j, rfl⟩ : ∃ j, k = j + 1 := ⟨k - 1, by omega⟩
        exact hessStep_fl hs hu h2 hu' hf) hst
    rw [Nat.max_eq_right (by omega)] at this
    obtain ⟨Q, H, W, hQ, hH, hW, e1, e2, e3⟩ := this
    obtain ⟨B, hB1, hB2⟩ := Mat.transpose_is hQ.is (Or.inl rfl) (Or.inl (by omega))
    rw [hB1] at hq'; cases hq'
    have hW' : W * W.transpose = 1 := mul_eq_one_comm.mp hW
    refine ⟨Q.transpose, H, W.transpose, hB2.repr_of (fun i j => by rw [extM_apply]; rfl), hH, ?_, ?_, ?_, ?_, ?_⟩
    · rw [Matrix.transpose_transpose, hW']
    · rw [Matrix.transpose_transpose, hW]
    · rw [Matrix.transpose_transpose]
      exact e1
    · have : vals Q.transpose - W.transpose = (vals Q - W).transpose := by
        rw [Matrix.transpose_sub]; rfl
      rw [this, fro_transpose]
      exact e2
    · refine le_trans (le_of_eq ?_) e3
      rw [fro]
      congr 1
      refine sum_congr rfl fun i _ => sum_congr rfl fun c _ => ?_
      simp only [lowPart, Matrix.of_apply, vals]
      by_cases hc : (c : ℕ) + 1 < i
      · rw [if_pos hc, if_pos ⟨by have := i.2; omega, hc⟩]
      · rw [if_neg hc, if_neg (fun h => hc h.2)]
        norm_num
  · rw [if_neg hn] at hr; cases hr

end

section
variable {R : Rounding ℝ}
open Rounding

/-- **C116, the product.** `Q H Qᵀ` is `A` up to a small relative error in the Frobenius norm. -/
theorem C116_product {sqrt : Fl R → Fl R} (hs : FlSqrt sqrt) (hu : R.u < 1) {n : ℕ} {A q h : Mat (Fl R)}
    {M : Matrix (Fin n) (Fin n) (Fl R)} (hA : Repr A M) (hr : A.decHess sqrt = some (q, h)) :
    ∃ Q H : Matrix (Fin n) (Fin n) (Fl R), Repr q Q ∧ Repr h H ∧
      fro (vals Q * vals H * (vals Q).transpose - vals M) ≤
        ((1 + ((1 + hessEps R n) ^ (n - 1) - 1) * √n) ^ 2 * (1 + hessEps R n) ^ (2 * (n - 1)) - 1) * fro (vals M) := by
  obtain ⟨Q, H, W, hQ, hH, hW, hW', e1, e2, -⟩ := C116_hessenberg hs hu hA hr
  refine ⟨Q, H, hQ, hH, ?_⟩
  have hε := hessEps_nonneg R n
  have ha : 0 ≤ ((1 + hessEps R n) ^ (n - 1) - 1) * √n :=
    mul_nonneg (by linarith [one_le_pow₀ (n := n - 1) (by linarith : 1 ≤ 1 + hessEps R n)]) (Real.sqrt_nonneg _)
  generalize ((1 + hessEps R n) ^ (n - 1) - 1) * √n = d at *
  generalize (1 + hessEps R n) ^ (2 * (n - 1)) = E at *
  have sH : fro (vals H) ≤ E * fro (vals M) := by
    have h1 := fro_add (vals H - W.transpose * vals M * W) (W.transpose * vals M * W)
    have hWt : W.transpose.transpose * W.transpose = 1 := by rw [Matrix.transpose_transpose, hW']
    have h2 := fro_orth_right hWt (W.transpose * vals M)
    rw [Matrix.transpose_transpose, fro_orth hWt] at h2
    rw [sub_add_cancel, h2] at h1
    linarith
  set D := vals Q - W with hD
  have hQD : vals Q = W + D := by rw [hD]; abel
  have e : vals Q * vals H * (vals Q).transpose - vals M =
      W * (vals H - W.transpose * vals M * W) * W.transpose +
        (D * (vals H * W.transpose) + (W * (vals H * D.transpose) + D * (vals H * D.transpose))) := by
    have e3 : W * (W.transpose * vals M * W) * W.transpose = vals M := by
      calc W * (W.transpose * vals M * W) * W.transpose = (W * W.transpose) * vals M * (W * W.transpose) := by
            simp only [Matrix.mul_assoc]
        _ = vals M := by rw [hW']; simp
    rw [Matrix.mul_sub, Matrix.sub_mul, e3, hQD, Matrix.transpose_add]
    simp only [Matrix.add_mul, Matrix.mul_add, Matrix.mul_assoc]
    abel
  have f1 : fro (W * (vals H - W.transpose * vals M * W) * W.transpose) ≤ (E - 1) * fro (vals M) := by
    rw [fro_orth_right hW, fro_orth hW]; exact e1
  have f2 : fro (D * (vals H * W.transpose)) ≤ d * fro (vals H) := by
    refine (fro_mul _ _).trans ?_
    rw [fro_orth_right hW]
    exact mul_le_mul_of_nonneg_right e2 (fro_nonneg _)
  have f0 : fro (vals H * D.transpose) ≤ fro (vals H) * d := by
    refine (fro_mul _ _).trans ?_
    rw [fro_transpose]
    exact mul_le_mul_of_nonneg_left e2 (fro_nonneg _)
  have f3 : fro (W * (vals H * D.transpose)) ≤ fro (vals H) * d := by
    rw [fro_orth hW]; exact f0
  have f4 : fro (D * (vals H * D.transpose)) ≤ d * (fro (vals H) * d) :=
    (fro_mul _ _).trans (mul_le_mul e2 f0 (fro_nonneg _) ha)
  rw [e]
  have g1 := fro_add (W * (vals H - W.transpose * vals M * W) * W.transpose)
    (D * (vals H * W.transpose) + (W * (vals H * D.transpose) + D * (vals H * D.transpose)))
  have g2 := fro_add (D * (vals H * W.transpose)) (W * (vals H * D.transpose) + D * (vals H * D.transpose))
  have g3 := fro_add (W * (vals H * D.transpose)) (D * (vals H * D.transpose))
  have g4 := mul_le_mul_of_nonneg_left sH (by positivity : 0 ≤ 2 * d + d ^ 2)
  nlinarith

/-- **C116, orthogonality.** `Qᵀ Q` is the identity up to `2 d + d²`, with `d = ((1 + ε)^(n - 1) - 1) √n`. -/
theorem C116_orthogonal {sqrt : Fl R → Fl R} (hs : FlSqrt sqrt) (hu : R.u < 1) {n : ℕ} {A q h : Mat (Fl R)}
    {M : Matrix (Fin n) (Fin n) (Fl R)} (hA : Repr A M) (hr : A.decHess sqrt = some (q, h)) :
    ∃ Q : Matrix (Fin n) (Fin n) (Fl R), Repr q Q ∧
      fro ((vals Q).transpose * vals Q - 1) ≤
        2 * (((1 + hessEps R n) ^ (n - 1) - 1) * √n) + (((1 + hessEps R n) ^ (n - 1) - 1) * √n) ^ 2 := by
  obtain ⟨Q, H, W, hQ, hH, hW, hW', -, e2, -⟩ := C116_hessenberg hs hu hA hr
  refine ⟨Q, hQ, ?_⟩
  generalize ((1 + hessEps R n) ^ (n - 1) - 1) * √n = d at *
  set D := vals Q - W with hD
  have hQD : vals Q = W + D := by rw [hD]; abel
  have e : (vals Q).transpose * vals Q - 1 = W.transpose * D + (D.transpose * W + D.transpose * D) := by
    rw [hQD, Matrix.transpose_add, Matrix.add_mul, Matrix.mul_add, Matrix.mul_add, hW]
    abel
  have hWt : W.transpose.transpose * W.transpose = 1 := by rw [Matrix.transpose_transpose, hW']
  have d0 : 0 ≤ d := (fro_nonneg _).trans e2
  have f1 : fro (W.transpose * D) ≤ d := by rw [fro_orth hWt]; exact e2
  have f2 : fro (D.transpose * W) ≤ d := by
    have := fro_transpose (D.transpose * W)
    rw [Matrix.transpose_mul, Matrix.transpose_transpose] at this
    rw [← this]
    exact f1
  have f3 : fro (D.transpose * D) ≤ d * d := by
    refine (fro_mul _ _).trans ?_
    rw [fro_transpose]
    exact mul_le_mul e2 e2 (fro_nonneg _) d0
  rw [e]
  have g1 := fro_add (W.transpose * D) (D.transpose * W + D.transpose * D)
  have g2 := fro_add (D.transpose * W) (D.transpose * D)
  nlinarith

/-- **C116, the reflector.** `householder` of a column with a nonzero tail returns a matrix within `hhErr R n` of the exact reflector
`1 - 2 w wᵀ` of the column, in the Frobenius norm: `w` is a unit vector that vanishes before `k`, and the reflector maps the
entries of the column after `k` to zero. -/
theorem C116_householder {sqrt : Fl R → Fl R} (hs : FlSqrt sqrt) (hu : R.u < 1) {v : Mat (Fl R)} {n k : Nat} {x : Fin n → Fl R}
    (hv : ColRepr v x) (hn : 1 < n) (hk : k < n) (hx : ∃ i : Fin n, k ≤ i ∧ (x i).val ≠ 0) :
    ∃ (H : Mat (Fl R)) (P : Matrix (Fin n) (Fin n) (Fl R)) (w : Fin n → ℝ), v.householder sqrt k = some H ∧ Repr H P ∧
      ∑ i, w i * w i = 1 ∧ (∀ i : Fin n, (i : Nat) < k → w i = 0) ∧
      (∀ i : Fin n, k < i → ((Matrix.of fun i j => (if i = j then 1 else 0) - 2 * (w i * w j) : Matrix (Fin n) (Fin n) ℝ).mulVec
        fun l => (x l).val) i = 0) ∧
      √(∑ i, ∑ j, ((P i j).val - ((if i = j then 1 else 0) - 2 * (w i * w j))) ^ 2) ≤
        R.u * √n + 2 * (1 + R.u) * ((1 + R.u) ^ (4 * n + 31) - 1) := by
  rcases householder_fl hs hu hv hn hk with ⟨h0, -⟩ | ⟨H, P, w, h1, h2, h3, h4, h5, h6⟩
  · obtain ⟨i, hi, hne⟩ := hx
    exact absurd (h0 i hi) hne
  · refine ⟨H, P, w, h1, h2, h3, h4, fun i hi => ?_, h6⟩
    have := hhM_mul w (Matrix.of fun l (_ : Fin 1) => (x l).val) i 0
    simp only [Matrix.of_apply] at this
    rw [h5 i hi] at this
    exact this

/-- the size of the bounds: as long as `100 n³ u ≤ 1` the relative error of the Hessenberg decomposition is at most `100 n³ u` -/
theorem C116_size {n : ℕ} (hn : 2 ≤ n) (h : 100 * (n : ℝ) ^ 3 * R.u ≤ 1) :
    (1 + hessEps R n) ^ (2 * (n - 1)) - 1 ≤ 100 * (n : ℝ) ^ 3 * R.u := by
  have u0 := R.u_nonneg
  have hn' : (2 : ℝ) ≤ n := by exact_mod_cast hn
  set N : ℝ := (n : ℝ) with hN
  have hgam : ∀ m : ℕ, (m : ℝ) * R.u ≤ 1 / 20 → R.gam m ≤ 1.05 * (m * R.u) := by
    intro m hm
    have h1 : (1 + R.u) ^ m ≤ Real.exp (m * R.u) := by
      rw [mul_comm, Real.exp_mul, Real.rpow_natCast]
      refine pow_le_pow_left₀ (by linarith) ?_ m
      linarith [Real.add_one_le_exp R.u]
    have h0 : 0 ≤ (m : ℝ) * R.u := by positivity
    have h2 := Real.exp_bound_div_one_sub_of_interval h0 (by linarith)
    rw [Rounding.gam]
    generalize (m : ℝ) * R.u = t at *
    have h3 : 1 / (1 - t) ≤ 1 + 1.06 * t := by
      rw [div_le_iff₀ (by linarith)]
      nlinarith
    have h4 : Real.exp t ≤ 1 + t + t ^ 2 := by
      have := Real.abs_exp_sub_one_sub_id_le (x := t) (by rw [abs_of_nonneg h0]; linarith)
      have := (abs_le.1 this).2
      linarith
    nlinarith
  have hNu : N * R.u ≤ 1 / 400 := by
    have : 4 * (N * R.u) ≤ N ^ 3 * R.u := by
      have : 4 * N ≤ N ^ 3 := by
        have : 4 ≤ N ^ 2 := by nlinarith
        nlinarith
      nlinarith
    linarith
  have hu1 : R.u ≤ 1 / 800 := by nlinarith
  have g1 := hgam (4 * n + 31) (by push_cast; rw [← hN]; nlinarith)
  have g2 := hgam n (by rw [← hN]; linarith)
  push_cast at g1
  rw [← hN] at g1 g2
  have hsq : √N ≤ N := by
    rw [Real.sqrt_le_left (by linarith)]
    nlinarith
  have sq0 := Real.sqrt_nonneg N
  have gg0 := R.gam_nonneg (4 * n + 31)
  have gn0 := R.gam_nonneg n
  have hH : hhErr R n ≤ 42.5 * (N * R.u) := by
    rw [hhErr, ← hN]
    have a1 := mul_le_mul_of_nonneg_left hsq u0
    have a2 : 2 * (1 + R.u) * R.gam (4 * n + 31) ≤ 2.0025 * (1.05 * ((4 * N + 31) * R.u)) :=
      mul_le_mul (by linarith) g1 gg0 (by norm_num)
    have a3 : R.u ≤ N * R.u / 2 := by nlinarith
    nlinarith
  have hH0 := hhErr_nonneg R n
  have hE : hessEps R n ≤ 23 * (N ^ 2 * R.u) := by
    rw [hessEps, ← hN]
    have a1 : R.gam n * (√N + hhErr R n) ≤ 1.05 * (N * R.u) * (N + 0.11) :=
      mul_le_mul g2 (by linarith) (by positivity) (by positivity)
    have a2 : N * R.u ≤ N ^ 2 * R.u / 2 := by nlinarith
    nlinarith
  have hE0 := hessEps_nonneg R n
  set ε := hessEps R n with hε
  have hK : ((2 * (n - 1) : ℕ) : ℝ) ≤ 2 * N := by
    have : 2 * (n - 1) ≤ 2 * n := by omega
    rw [hN]
    exact_mod_cast this
  have hx : ((2 * (n - 1) : ℕ) : ℝ) * ε ≤ 46 * (N ^ 3 * R.u) := by
    have := mul_le_mul hK hE hE0 (by positivity)
    nlinarith
  have h1 : (1 + ε) ^ (2 * (n - 1)) ≤ Real.exp (((2 * (n - 1) : ℕ) : ℝ) * ε) := by
    rw [mul_comm _ ε, Real.exp_mul, Real.rpow_natCast]
    refine pow_le_pow_left₀ (by linarith) ?_ _
    linarith [Real.add_one_le_exp ε]
  have hx0 : 0 ≤ ((2 * (n - 1) : ℕ) : ℝ) * ε := by positivity
  generalize ((2 * (n - 1) : ℕ) : ℝ) * ε = t at *
  have h4 : Real.exp t ≤ 1 + t + t ^ 2 := by
    have := Real.abs_exp_sub_one_sub_id_le (x := t) (by rw [abs_of_nonneg hx0]; linarith)
    have := (abs_le.1 this).2
    linarith
  nlinarith

/-- in `f64` a matrix with 50 rows and columns: at most `2e-9` -/
example (h : R.u = 1 / 2 ^ 53) : (1 + hessEps R 50) ^ (2 * (50 - 1)) - 1 ≤ (2 : ℝ) / 10 ^ 9 := by
  refine (C116_size (by norm_num) ?_).trans ?_
  · rw [h]; norm_num
  · rw [h]; norm_num

/-- with 53 bits: the reflector of `(3, 4)` is within `10^-13` of an exact one -/
example (p : ℕ) (hp : 1 ≤ p) (h53 : p = 53) :
    ∃ (H : Mat (Fl (binary ℝ p hp))) (P : Matrix (Fin 2) (Fin 2) (Fl (binary ℝ p hp))) (w : Fin 2 → ℝ),
      Mat.householder (flSqrt _) (⟨2, 1, [⟨3⟩, ⟨4⟩]⟩ : Mat (Fl (binary ℝ p hp))) 0 = some H ∧ Repr H P ∧ ∑ i, w i * w i = 1 ∧
        √(∑ i, ∑ j, ((P i j).val - ((if i = j then 1 else 0) - 2 * (w i * w j))) ^ 2) ≤ 1 / 10 ^ 13 := by
  have hu : (binary ℝ p hp).u = 1 / 2 ^ 53 := by subst h53; norm_num [binary]
  obtain ⟨H, P, w, h1, h2, h3, -, -, h4⟩ := C116_householder (flSqrt_spec (binary ℝ p hp)) (by rw [hu]; norm_num)
    (v := ⟨2, 1, [⟨3⟩, ⟨4⟩]⟩) (k := 0) (x := ![⟨3⟩, ⟨4⟩])
    (by constructor <;> simp [Mat.get, Fin.forall_fin_two]) (by norm_num) (by norm_num) ⟨0, by simp, by simp⟩
  have : √((2 : ℕ) : ℝ) ≤ 2 := by rw [Real.sqrt_le_left] <;> norm_num
  refine ⟨H, P, w, h1, h2, h3, h4.trans
    ((add_le_add (mul_le_mul_of_nonneg_left this (binary ℝ p hp).u_nonneg) le_rfl).trans ?_)⟩
  rw [hu]
  norm_num
/-- with 53 bits: whatever is returned for the matrix with the rows `(1, 2, 3)`, `(7, 1, 0)` and `(24, 0, 1)`, the entry below the
subdiagonal is at most `10^-11` -/
example (p : ℕ) (hp : 1 ≤ p) (h53 : p = 53) (q h : Mat (Fl (binary ℝ p hp)))
    (hr : Mat.decHess (flSqrt _) (⟨3, 3, [⟨1⟩, ⟨7⟩, ⟨24⟩, ⟨2⟩, ⟨1⟩, ⟨0⟩, ⟨3⟩, ⟨0⟩, ⟨1⟩]⟩ : Mat (Fl (binary ℝ p hp))) = some (q, h)) :
    ∃ H : Matrix (Fin 3) (Fin 3) (Fl (binary ℝ p hp)), Repr h H ∧ |(H 2 0).val| ≤ 1 / 10 ^ 11 := by
  have hu : (binary ℝ p hp).u = 1 / 2 ^ 53 := by subst h53; norm_num [binary]
  obtain ⟨Q, H, W, -, h2, -, -, -, -, h3⟩ := C116_hessenberg (flSqrt_spec (binary ℝ p hp)) (by rw [hu]; norm_num)
    (n := 3) (M := !![⟨1⟩, ⟨2⟩, ⟨3⟩; ⟨7⟩, ⟨1⟩, ⟨0⟩; ⟨24⟩, ⟨0⟩, ⟨1⟩])
    (by constructor <;> simp [Mat.get, Fin.forall_fin_succ]) hr
  refine ⟨H, h2, ?_⟩
  have h4 : |(H 2 0).val| ≤ √(∑ i : Fin 3, ∑ c : Fin 3, if (c : ℕ) + 1 < i then (H i c).val ^ 2 else 0) :=
    Real.abs_le_sqrt (by simp [Fin.sum_univ_three])
  refine (h4.trans h3).trans ?_
  have h5 := C116_size (R := binary ℝ p hp) (n := 3) (by norm_num) (by rw [hu]; norm_num)
  have h6 : fro (vals (!![⟨1⟩, ⟨2⟩, ⟨3⟩; ⟨7⟩, ⟨1⟩, ⟨0⟩; ⟨24⟩, ⟨0⟩, ⟨1⟩] : Matrix (Fin 3) (Fin 3) (Fl (binary ℝ p hp)))) ≤ 26 := by
    rw [fro, Real.sqrt_le_left (by norm_num)]
    simp [Fin.sum_univ_three, vals]
    norm_num
  have h7 := mul_le_mul h5 h6 (fro_nonneg _) (by rw [hu]; norm_num)
  refine h7.trans ?_
  rw [hu]
  norm_num
end

/-- the matrix with the rows `(1, 2, 3)`, `(7, 1, 0)` and `(24, 0, 1)` -/
def hessWit : Mat (Fl f64) := ⟨3, 3, [⟨1⟩, ⟨7⟩, ⟨24⟩, ⟨2⟩, ⟨1⟩, ⟨0⟩, ⟨3⟩, ⟨0⟩, ⟨1⟩]⟩

/-- the roots that are taken: `√625 = 25`, the number closest to the root of `0.64`, `√(9 / 2^108) = 3 / 2^54` and `√1 = 1` -/
def hessRoot (x : Fl f64) : Fl f64 :=
  if x = ⟨625⟩ then ⟨25⟩ else if x = ⟨1⟩ then ⟨1⟩ else if x = ⟨9 / 2 ^ 108⟩ then ⟨3 / 2 ^ 54⟩
  else ⟨3602879701896397 / 2 ^ 52⟩

/-- what the first step returns for this matrix -/
def hessMid : Mat (Fl f64) × Mat (Fl f64) :=
  (⟨3, 3, [⟨1⟩, ⟨0⟩, ⟨0⟩, ⟨0⟩, ⟨-315251973915935 / 2 ^ 50⟩, ⟨-1080863910568919 / 2 ^ 50⟩, ⟨0⟩, ⟨-1080863910568919 / 2 ^ 50⟩,
    ⟨1261007895663739 / 2 ^ 52⟩]⟩,
   ⟨3, 3, [⟨1⟩, ⟨-25⟩, ⟨1 / 2 ^ 50⟩, ⟨-3873095679538627 / 2 ^ 50⟩, ⟨1⟩, ⟨3 / 2 ^ 54⟩, ⟨-4863887597560135 / 2 ^ 52⟩, ⟨3 / 2 ^ 54⟩,
    ⟨1⟩]⟩)

/-- the value for `0.64` is correctly rounded: half a unit to either side is too small or too large -/
example : ((3602879701896397 - 1 / 2) / 2 ^ 52 : ℚ) ^ 2 < 5764607523034235 / 2 ^ 53 ∧
    (5764607523034235 / 2 ^ 53 : ℚ) < ((3602879701896397 + 1 / 2) / 2 ^ 52) ^ 2 := by norm_num

/-- **C116** is violated in that `h` is not a Hessenberg matrix: the annihilated entries are computed by the matrix product instead of being
set to zero.  In `f64`, for the matrix with the rows `(1, 2, 3)`, `(7, 1, 0)` and `(24, 0, 1)` and the correctly rounded roots, the
entry in the last row and first column is `-2^-50`. -/
theorem C116_hessenberg_violated (sqrt : Fl f64 → Fl f64)
    (h1 : sqrt ⟨625⟩ = ⟨25⟩) (h2 : sqrt ⟨5764607523034235 / 2 ^ 53⟩ = ⟨3602879701896397 / 2 ^ 52⟩)
    (h3 : sqrt ⟨9 / 2 ^ 108⟩ = ⟨3 / 2 ^ 54⟩) (h4 : sqrt ⟨1⟩ = ⟨1⟩) :
    ∃ q h : Mat (Fl f64), Mat.decHess sqrt hessWit = some (q, h) ∧ h.get 2 0 = some ⟨-(2 ^ 50 : ℚ)⁻¹⟩ := by
  have key : ∀ (d : Mat (Fl f64)) (vm k : ℕ) (d0 s S t T : Fl f64), Mat.norm2 id d = some s → 1 / 2 * (1 - d0 / (if d0 ≥ 0 then -S else S)) = t →
      sqrt s = S → hessRoot s = S → sqrt t = T → hessRoot t = T →
      ∀ o, ((Mat.norm2 sqrt d).bind fun nrm => if (if d0 ≥ 0 then -nrm else nrm) = 0 then o else
        Mat.hhBuild sqrt vm k d d0 (if d0 ≥ 0 then -nrm else nrm)) =
      ((Mat.norm2 hessRoot d).bind fun nrm => if (if d0 ≥ 0 then -nrm else nrm) = 0 then o else
        Mat.hhBuild hessRoot vm k d d0 (if d0 ≥ 0 then -nrm else nrm)) := by
    intro d vm k d0 s S t T hn ht e1 e2 e3 e4 o
    have hg : ∀ f : Fl f64 → Fl f64, Mat.norm2 f d = (Mat.norm2 id d).map f := by
      intro f
      unfold Mat.norm2
      cases forRange 0 (d.m * d.n) (fun sum i => do
        let b ← d.vget i
        some (sum + b * b)) (0 : Fl f64) <;> rfl
    rw [hg sqrt, hg hessRoot, hn]
    simp only [Option.map_some, Option.bind_some, e1, e2]
    congr 1
    simp only [Mat.hhBuild, ht, e3, e4]
  have house : ∀ (v d : Mat (Fl f64)) (k : ℕ) (d0 s S t T : Fl f64), v.vgetSlice k (v.m - 1) = some d → d.vget 0 = some d0 →
      Mat.norm2 id d = some s → 1 / 2 * (1 - d0 / (if d0 ≥ 0 then -S else S)) = t →
      sqrt s = S → hessRoot s = S → sqrt t = T → hessRoot t = T → v.householder sqrt k = v.householder hessRoot k := by
    intro v d k d0 s S t T hd h0 hn ht e1 e2 e3 e4
    unfold Mat.householder
    simp only [hd, h0, Option.bind_eq_bind, Option.bind_some]
    congr 3
    convert key d v.m k d0 s S t T hn ht e1 e2 e3 e4 (some (Mat.one v.n))
  have c1 : Mat.getColumn hessWit 0 = some ⟨3, 1, [⟨1⟩, ⟨7⟩, ⟨24⟩]⟩ := by decide +kernel
  have c2 : (⟨3, 1, [⟨1⟩, ⟨7⟩, ⟨24⟩]⟩ : Mat (Fl f64)).householder sqrt 1 = Mat.householder hessRoot ⟨3, 1, [⟨1⟩, ⟨7⟩, ⟨24⟩]⟩ 1 :=
    house _ ⟨2, 1, [⟨7⟩, ⟨24⟩]⟩ 1 ⟨7⟩ ⟨625⟩ ⟨25⟩ ⟨5764607523034235 / 2 ^ 53⟩ ⟨3602879701896397 / 2 ^ 52⟩ (by decide +kernel) (by decide +kernel)
      (by decide +kernel) (by decide +kernel) h1 (by decide +kernel) h2 (by decide +kernel)
  have s1 : Mat.hessStep sqrt (Mat.one 3, hessWit) 1 = Mat.hessStep hessRoot (Mat.one 3, hessWit) 1 := by
    simp only [Mat.hessStep, c1, Option.bind_eq_bind, Option.bind_some, c2]
  have s2 : Mat.hessStep hessRoot (Mat.one 3, hessWit) 1 = some (hessMid.1, hessMid.2) := by decide +kernel
  have c3 : Mat.getColumn hessMid.2 1 = some ⟨3, 1, [⟨-3873095679538627 / 2 ^ 50⟩, ⟨1⟩, ⟨3 / 2 ^ 54⟩]⟩ := by decide +kernel
  have c4 : (⟨3, 1, [⟨-3873095679538627 / 2 ^ 50⟩, ⟨1⟩, ⟨3 / 2 ^ 54⟩]⟩ : Mat (Fl f64)).householder sqrt 2 =
      Mat.householder hessRoot ⟨3, 1, [⟨-3873095679538627 / 2 ^ 50⟩, ⟨1⟩, ⟨3 / 2 ^ 54⟩]⟩ 2 :=
    house _ ⟨1, 1, [⟨3 / 2 ^ 54⟩]⟩ 2 ⟨3 / 2 ^ 54⟩ ⟨9 / 2 ^ 108⟩ ⟨3 / 2 ^ 54⟩ ⟨1⟩ ⟨1⟩ (by decide +kernel) (by decide +kernel)
      (by decide +kernel) (by decide +kernel) h3 (by decide +kernel) h4 (by decide +kernel)
  have s3 : Mat.hessStep sqrt hessMid 2 = Mat.hessStep hessRoot hessMid 2 := by
    simp only [Mat.hessStep, c3, Option.bind_eq_bind, Option.bind_some, c4]
  have run : Mat.decHess sqrt hessWit = Mat.decHess hessRoot hessWit := by
    have hm : hessWit.m = 3 := rfl
    simp only [Mat.decHess, hm, forRange, show (3 : ℕ) - 1 = 2 from rfl, show List.range' 1 2 = [1, 2] from rfl, List.foldlM_cons,
      List.foldlM_nil, s1, s2, Option.bind_eq_bind, Option.bind_some, s3]
  have fin : ((Mat.decHess hessRoot hessWit).bind fun o => o.2.get 2 0) = some ⟨-(2 ^ 50 : ℚ)⁻¹⟩ := by decide +kernel
  rw [run]
  cases h : Mat.decHess hessRoot hessWit with
  | none => rw [h] at fin; simp at fin
  | some o =>
    rw [h] at fin
    exact ⟨o.1, o.2, rfl, by simpa using fin⟩

end Verif
