import Verif.FloatChol
import Verif.QRProps
import Mathlib.Analysis.InnerProductSpace.PiL2

/-!
# C107: the QR decomposition with rounding

`/repo/src/algebra/linear/matrix/qr/native.rs`, the model `decQR` run on the numbers `Fl R` with rounded operations and a rounded
square root.
-/

set_option linter.unusedSectionVars false

namespace Verif
open Finset

/-! ### Lengths of vectors -/

/-- the length of a vector -/
noncomputable def n2 {m : ℕ} (v : Fin m → ℝ) : ℝ := √(∑ i, v i ^ 2)

theorem n2_eq {m : ℕ} (v : Fin m → ℝ) : n2 v = ‖WithLp.toLp 2 v‖ := by
  rw [n2, EuclideanSpace.norm_eq]
  congr 1
  exact sum_congr rfl fun i _ => by simp

theorem n2_nonneg {m : ℕ} (v : Fin m → ℝ) : 0 ≤ n2 v := Real.sqrt_nonneg _

theorem n2_add {m : ℕ} (v w : Fin m → ℝ) : n2 (v + w) ≤ n2 v + n2 w := by
  rw [n2_eq, n2_eq, n2_eq]
  exact norm_add_le _ _

theorem n2_add_sub {m : ℕ} (v w : Fin m → ℝ) : n2 v ≤ n2 (v - w) + n2 w := by
  have := n2_add (v - w) w
  rwa [sub_add_cancel] at this

theorem abs_le_n2 {m : ℕ} (v : Fin m → ℝ) (i : Fin m) : |v i| ≤ n2 v := by
  rw [n2]
  refine Real.abs_le_sqrt ?_
  exact single_le_sum (f := fun i => v i ^ 2) (fun j _ => sq_nonneg _) (mem_univ i)

theorem n2_mono {m : ℕ} {v w : Fin m → ℝ} (h : ∀ i, |v i| ≤ |w i|) : n2 v ≤ n2 w := by
  refine Real.sqrt_le_sqrt (sum_le_sum fun i _ => ?_)
  exact sq_le_sq.2 (h i)

theorem n2_sq {m : ℕ} (v : Fin m → ℝ) : n2 v ^ 2 = ∑ i, v i ^ 2 :=
  Real.sq_sqrt (sum_nonneg fun _ _ => sq_nonneg _)

theorem n2_orth {m : ℕ} {G : Matrix (Fin m) (Fin m) ℝ} (h : G.transpose * G = 1) (v : Fin m → ℝ) : n2 (G.mulVec v) = n2 v := by
  rw [n2, n2]
  congr 1
  have e : ∀ w : Fin m → ℝ, ∑ i, w i ^ 2 = w ⬝ᵥ w := fun w => sum_congr rfl fun i _ => by ring
  rw [e, e, Matrix.dotProduct_mulVec, Matrix.vecMul_mulVec, h, Matrix.vecMul_one]

theorem n2_single {m : ℕ} (i : Fin m) (x : ℝ) : n2 (fun r => if r = i then x else 0) = |x| := by
  rw [n2, ← Real.sqrt_sq_eq_abs]
  congr 1
  rw [sum_eq_single i]
  · simp
  · intro j _ hj; simp [hj]
  · simp

/-- a vector that differs from a rotated one in the two rotated entries, by a relative error of `γ` of the summands -/
theorem rot_col {m : ℕ} {i j : Fin m} (hij : i ≠ j) {c s γ : ℝ} (h1 : c * c + s * s = 1) (hγ : 0 ≤ γ) {x x' : Fin m → ℝ}
    (hi : |x' i - (c * x i + s * x j)| ≤ γ * (|s * x j| + |c * x i|))
    (hj : |x' j - (-s * x i + c * x j)| ≤ γ * (|c * x j| + |-s * x i|))
    (hr : ∀ r, r ≠ i → r ≠ j → x' r = x r) :
    n2 (x' - (givensM i j c s).mulVec x) ≤ √2 * γ * n2 x := by
  have hG : ∀ r, (givensM i j c s).mulVec x r =
      if r = i then c * x i + s * x j else if r = j then -s * x i + c * x j else x r := by
    intro r
    have := givensM_mul i j c s (Matrix.of fun r (_ : Fin 1) => x r) r 0
    rw [Matrix.mul_apply] at this
    simpa [Matrix.mulVec, dotProduct] using this
  have hsq : n2 (x' - (givensM i j c s).mulVec x) ^ 2 ≤ (√2 * γ * n2 x) ^ 2 := by
    rw [n2_sq, mul_pow, mul_pow, n2_sq, Real.sq_sqrt (by norm_num)]
    have e1 : ∑ r, (x' - (givensM i j c s).mulVec x) r ^ 2 =
        (x' i - (c * x i + s * x j)) ^ 2 + (x' j - (-s * x i + c * x j)) ^ 2 := by
      rw [← Finset.sum_subset (subset_univ {i, j})]
      · rw [sum_pair hij]
        simp only [Pi.sub_apply, hG, if_true, if_neg hij.symm]
      · intro r _ hr'
        simp only [mem_insert, mem_singleton, not_or] at hr'
        simp only [Pi.sub_apply, hG, if_neg hr'.1, if_neg hr'.2, hr r hr'.1 hr'.2, sub_self]
        norm_num
    have e2 : x i ^ 2 + x j ^ 2 ≤ ∑ r, x r ^ 2 := by
      rw [← sum_pair hij (f := fun r => x r ^ 2)]
      exact sum_le_sum_of_subset_of_nonneg (subset_univ _) fun _ _ _ => sq_nonneg _
    rw [e1]
    have hi' := pow_le_pow_left₀ (abs_nonneg _) hi 2
    have hj' := pow_le_pow_left₀ (abs_nonneg _) hj 2
    rw [sq_abs] at hi' hj'
    have hb : (γ * (|s * x j| + |c * x i|)) ^ 2 + (γ * (|c * x j| + |-s * x i|)) ^ 2 ≤ γ ^ 2 * (2 * (x i ^ 2 + x j ^ 2)) := by
      rw [mul_pow, mul_pow, ← mul_add]
      refine mul_le_mul_of_nonneg_left ?_ (sq_nonneg _)
      rw [abs_mul, abs_mul, abs_mul, abs_mul, abs_neg]
      have a1 : |c| * |c| + |s| * |s| = 1 := by rw [abs_mul_abs_self, abs_mul_abs_self, h1]
      rw [← sq_abs (x i), ← sq_abs (x j)]
      generalize |c| = C at *
      generalize |s| = S at *
      generalize |x i| = X at *
      generalize |x j| = Y at *
      nlinarith [mul_nonneg (sq_nonneg (C - S)) (sq_nonneg (X + Y)), mul_nonneg (sq_nonneg (C + S)) (sq_nonneg (X - Y)), sq_nonneg (X - Y), sq_nonneg (C - S)]
    have hfin := mul_le_mul_of_nonneg_left e2 (by positivity : 0 ≤ 2 * γ ^ 2)
    nlinarith
  exact le_of_sq_le_sq hsq (by have := n2_nonneg x; positivity)
where
  le_of_sq_le_sq {a b : ℝ} (h : a ^ 2 ≤ b ^ 2) (hb : 0 ≤ b) : a ≤ b := by
    exact le_trans (le_abs_self a) (by rw [← abs_of_nonneg hb]; exact sq_le_sq.1 h)

/-! ### Roundings -/

namespace Rounding
variable (R : Rounding ℝ)

theorem rnd_nonneg (hu : R.u < 1) {x : ℝ} (hx : 0 ≤ x) : 0 ≤ R.rnd x := by
  have h := R.err x
  rw [abs_of_nonneg hx, abs_le] at h
  nlinarith [h.1]

theorem rnd_le {x : ℝ} (hx : 0 ≤ x) : R.rnd x ≤ (1 + R.u) * x := by
  have h := R.err x
  rw [abs_of_nonneg hx, abs_le] at h
  linarith [h.2]

theorem le_rnd (hu : R.u < 1) {x : ℝ} (hx : 0 ≤ x) : x ≤ (1 + R.u) * R.rnd x := by
  have h := R.err' x
  rw [abs_of_nonneg (R.rnd_nonneg hu hx), abs_le] at h
  linarith [h.1]

end Rounding

section
variable {R : Rounding ℝ}

/-- the computed length of a pair, up to two roundings -/
theorem hyp_fl {sqrt : Fl R → Fl R} (hs : FlSqrt sqrt) (hu : R.u < 1) (a b : Fl R) :
    (sqrt (a * a + b * b)).val ≤ (1 + R.u) ^ 2 * √(a.val ^ 2 + b.val ^ 2) ∧
      √(a.val ^ 2 + b.val ^ 2) ≤ (1 + R.u) ^ 2 * (sqrt (a * a + b * b)).val := by
  have u0 := R.u_nonneg
  have ha : 0 ≤ a.val * a.val := mul_self_nonneg _
  have hb : 0 ≤ b.val * b.val := mul_self_nonneg _
  have h1 := R.rnd_nonneg hu ha
  have h2 := R.rnd_nonneg hu hb
  have h3 : 0 ≤ (a * a + b * b).val := R.rnd_nonneg hu (add_nonneg h1 h2)
  obtain ⟨r, hr0, hr, hrv⟩ := hs _ h3
  have k1 := R.rnd_le ha
  have k2 := R.rnd_le hb
  have k3 : (a * a + b * b).val ≤ _ := R.rnd_le (add_nonneg h1 h2)
  have l1 := R.le_rnd hu ha
  have l2 := R.le_rnd hu hb
  have l3 : _ ≤ (1 + R.u) * (a * a + b * b).val := R.le_rnd hu (add_nonneg h1 h2)
  rw [Fl.mul_val, Fl.mul_val] at k3 l3
  have m1 : r * r ≤ (1 + R.u) ^ 2 * (a.val ^ 2 + b.val ^ 2) := by
    rw [hr]
    have := mul_le_mul_of_nonneg_left (add_le_add k1 k2) (by linarith : 0 ≤ 1 + R.u)
    nlinarith
  have m2 : a.val ^ 2 + b.val ^ 2 ≤ (1 + R.u) ^ 2 * (r * r) := by
    rw [hr]
    have := mul_le_mul_of_nonneg_left l3 (by linarith : 0 ≤ 1 + R.u)
    nlinarith
  set ρ := √(a.val ^ 2 + b.val ^ 2) with hρ
  have hρ0 : 0 ≤ ρ := Real.sqrt_nonneg _
  have hρ2 : ρ * ρ = a.val ^ 2 + b.val ^ 2 := Real.mul_self_sqrt (by positivity)
  rw [← hρ2] at m1 m2
  have n1 : r ≤ (1 + R.u) * ρ := by
    refine abs_le_of_sq_le_sq' ?_ (by positivity) |>.2
    nlinarith
  have n2 : ρ ≤ (1 + R.u) * r := by
    refine abs_le_of_sq_le_sq' ?_ (by positivity) |>.2
    nlinarith
  have o1 := R.rnd_le hr0
  have o2 := R.le_rnd hu hr0
  rw [hrv]
  have := mul_le_mul_of_nonneg_left n1 (by linarith : 0 ≤ 1 + R.u)
  have := mul_le_mul_of_nonneg_left o2 (by linarith : 0 ≤ 1 + R.u)
  constructor <;> nlinarith

/-- a quotient by a length known up to two roundings -/
theorem quot_fl {a p : Fl R} {ρ : ℝ} (hρ : 0 < ρ) (h1 : p.val ≤ (1 + R.u) ^ 2 * ρ) (h2 : ρ ≤ (1 + R.u) ^ 2 * p.val) :
    |(a / p).val - a.val / ρ| ≤ R.gam 3 * |a.val / ρ| := by
  have u0 := R.u_nonneg
  have hp : 0 < p.val := by
    by_contra h
    have : (1 + R.u) ^ 2 * p.val ≤ 0 := mul_nonpos_of_nonneg_of_nonpos (by positivity) (not_lt.1 h)
    linarith
  have e : |a.val / p.val - a.val / ρ| ≤ R.gam 2 * |a.val / ρ| := by
    have : a.val / p.val - a.val / ρ = (ρ / p.val - 1) * (a.val / ρ) := by field_simp
    rw [this, abs_mul]
    refine mul_le_mul_of_nonneg_right ?_ (abs_nonneg _)
    have q1 : ρ / p.val ≤ (1 + R.u) ^ 2 := by rw [div_le_iff₀ hp]; exact h2
    have q2 : 1 - R.gam 2 ≤ ρ / p.val := by
      rw [le_div_iff₀ hp, Rounding.gam]
      have t : 1 ≤ (1 + R.u) ^ 2 := one_le_pow₀ R.one_le
      set U := (1 + R.u) ^ 2
      have hU : 0 < U := by linarith
      rcases le_total (1 - (U - 1)) 0 with h | h
      · have := mul_nonpos_of_nonpos_of_nonneg h hp.le
        linarith
      · have := mul_le_mul_of_nonneg_left h1 h
        nlinarith [mul_nonneg (sq_nonneg (U - 1)) hρ.le]
    rw [abs_le]
    constructor
    · linarith
    · rw [Rounding.gam]; linarith
  have := R.rnd_near e
  rw [Fl.div_val]
  refine this.trans (le_of_eq ?_)
  rw [Rounding.gam, Rounding.gam]; ring

/-- a sum of two products with inexact factors -/
theorem lin_fl {c s x y : Fl R} {c₀ s₀ : ℝ} (hc : |c.val - c₀| ≤ R.gam 3 * |c₀|) (hs : |s.val - s₀| ≤ R.gam 3 * |s₀|) :
    |(s * x + c * y).val - (s₀ * x.val + c₀ * y.val)| ≤ R.gam 5 * (|s₀ * x.val| + |c₀ * y.val|) := by
  have key : ∀ {d : Fl R} {d₀ : ℝ} (z : Fl R), |d.val - d₀| ≤ R.gam 3 * |d₀| →
      |(d * z).val - d₀ * z.val| ≤ R.gam 4 * |d₀ * z.val| := by
    intro d d₀ z h
    have e : |d.val * z.val - d₀ * z.val| ≤ R.gam 3 * |d₀ * z.val| := by
      rw [← sub_mul, abs_mul, abs_mul, ← mul_assoc]
      exact mul_le_mul_of_nonneg_right h (abs_nonneg _)
    refine (R.rnd_near e).trans (le_of_eq ?_)
    rw [Rounding.gam, Rounding.gam]; ring
  have h1 := key x hs
  have h2 := key y hc
  have h3 : |(s * x).val + (c * y).val - (s₀ * x.val + c₀ * y.val)| ≤ R.gam 4 * (|s₀ * x.val| + |c₀ * y.val|) := by
    rw [add_sub_add_comm]
    refine (abs_add_le _ _).trans ?_
    linarith
  refine (R.rnd_near h3).trans ?_
  have := mul_le_mul_of_nonneg_left (abs_add_le (s₀ * x.val) (c₀ * y.val)) R.u_nonneg
  have e : R.gam 5 = R.gam 4 * (1 + R.u) + R.u := R.gam_succ 4
  rw [e]
  linarith

/-! ### Sums with few terms -/

theorem Fl.zero_mul' (x : Fl R) : (0 : Fl R) * x = 0 :=
  Fl.ext (by rw [Fl.mul_val, Fl.zero_val, zero_mul, R.rnd_zero])

theorem Fl.zero_add' {x : Fl R} (h : R.rnd x.val = x.val) : (0 : Fl R) + x = x :=
  Fl.ext (by rw [Fl.add_val, Fl.zero_val, zero_add, h])

theorem Fl.add_zero' {x : Fl R} (h : R.rnd x.val = x.val) : x + (0 : Fl R) = x :=
  Fl.ext (by rw [Fl.add_val, Fl.zero_val, add_zero, h])

theorem accum_one {g : ℕ → Fl R} {n i : ℕ} (hi : i < n) (h0 : ∀ k < n, k ≠ i → g k = 0) (hr : R.rnd (g i).val = (g i).val) :
    Mat.accum g n = g i := by
  have : ∀ k ≤ n, Mat.accum g k = if k ≤ i then 0 else g i := by
    intro k
    induction k with
    | zero => intro _; simp [Mat.accum]
    | succ k ih =>
      intro hk
      rw [Mat.accum, ih (by omega)]
      rcases lt_trichotomy k i with h | h | h
      · rw [if_pos (by omega), if_pos (by omega), h0 k (by omega) (by omega)]
        exact Fl.zero_add' R.rnd_zero
      · subst h
        rw [if_pos le_rfl, if_neg (by omega)]
        exact Fl.zero_add' hr
      · rw [if_neg (by omega), if_neg (by omega), h0 k (by omega) (by omega)]
        exact Fl.add_zero' hr
  rw [this n le_rfl, if_neg (by omega)]

theorem accum_two {g : ℕ → Fl R} {n i j : ℕ} (hj : j < i) (hi : i < n) (h0 : ∀ k < n, k ≠ i → k ≠ j → g k = 0)
    (hr : R.rnd (g j).val = (g j).val) : Mat.accum g n = g j + g i := by
  have h1 : Mat.accum g i = g j := accum_one hj (fun k hk hkj => h0 k (by omega) (by omega) hkj) hr
  have : ∀ k ≤ n, i < k → Mat.accum g k = g j + g i := by
    intro k
    induction k with
    | zero => intro _ h; omega
    | succ k ih =>
      intro hk hik
      rw [Mat.accum]
      rcases Nat.lt_or_ge i k with h | h
      · rw [ih (by omega) h, h0 k (by omega) (by omega) (by omega)]
        exact Fl.add_zero' (R.idem _)
      · have : k = i := by omega
        rw [this, h1]
  exact this n le_rfl hi

/-- a rotation of two rows: the other rows are not changed -/
theorem givens_mul_fl {m : ℕ} {i j : Fin m} (hji : j < i) (c s : Fl R) (h1 : R.rnd 1 = 1) :
    ∃ g, Mat.givens m i j c s = some g ∧ ∀ {n : ℕ} {A : Mat (Fl R)} {X : Matrix (Fin m) (Fin n) (Fl R)}, Repr A X →
      (∀ r k, R.rnd (X r k).val = (X r k).val) →
      ∃ B, g.mul A = some B ∧ Repr B (Matrix.of fun r k => if r = i then s * X j k + c * X i k
        else if r = j then c * X j k + (-s) * X i k else X r k) := by
  have g0 := Mat.one_is (K := Fl R) m
  have g1 := g0.put i.2 i.2 c
  have g2 := g1.put j.2 j.2 c
  have g3 := g2.put i.2 j.2 s
  have g4 := g3.put j.2 i.2 (-s)
  have hc : ¬ (m ≤ (i : Nat) ∨ m ≤ (j : Nat)) := by have := i.2; have := j.2; omega
  have hji' : (j : ℕ) < i := hji
  refine ⟨((((Mat.one m).put i i c).put j j c).put i j s).put j i (-s), by simp [Mat.givens, hc, g0.set i.2 i.2, g1.set j.2 j.2, g2.set i.2 j.2, g3.set j.2 i.2], ?_⟩
  intro n A X hA hrep
  obtain ⟨B, hB, hB'⟩ := Mat.mul_accum g4 hA.is
  refine ⟨B, hB, hB'.repr_of fun r k => ?_⟩
  have e : ∀ l : Fin m, extM X (l : ℕ) k = X l k := fun l => extM_apply X l k
  simp only [Matrix.of_apply]
  by_cases hri : r = i
  · subst hri
    rw [if_pos rfl, accum_two hji' r.2]
    · rw [e, e]
      congr 2 <;> simp [upd, hji'.ne, hji'.ne', -Fin.val_fin_le]
    · intro l hl h2 h3
      have : upd (upd (upd (upd (fun i j => if i = j then (1 : Fl R) else 0) ↑r ↑r c) ↑j ↑j c) ↑r ↑j s) ↑j ↑r (-s) r l = 0 := by
        simp [upd, h2, h3, hji'.ne', Ne.symm h2]
      rw [this]
      exact Fl.zero_mul' _
    · exact R.idem _
  · rw [if_neg hri]
    have hri' : (r : ℕ) ≠ i := fun h => hri (Fin.ext h)
    by_cases hrj : r = j
    · subst hrj
      rw [if_pos rfl, accum_two hji' i.2]
      · rw [e, e]
        congr 2 <;> simp [upd, hji'.ne, hji'.ne']
      · intro l hl h2 h3
        have : upd (upd (upd (upd (fun i j => if i = j then (1 : Fl R) else 0) ↑i ↑i c) ↑r ↑r c) ↑i ↑r s) ↑r ↑i (-s) r l = 0 := by
          simp [upd, h2, h3, hji'.ne, Ne.symm h3]
        rw [this]
        exact Fl.zero_mul' _
      · exact R.idem _
    · rw [if_neg hrj]
      have hrj' : (r : ℕ) ≠ j := fun h => hrj (Fin.ext h)
      have hone : upd (upd (upd (upd (fun i j => if i = j then (1 : Fl R) else 0) ↑i ↑i c) ↑j ↑j c) ↑i ↑j s) ↑j ↑i (-s) r r = 1 := by
        simp [upd, hri', hrj']
      have h1x : (1 : Fl R) * X r k = X r k := Fl.ext (by rw [Fl.mul_val, Fl.one_val, one_mul, hrep])
      rw [accum_one r.2]
      · rw [e, hone, h1x]
      · intro l hl h2
        have : upd (upd (upd (upd (fun i j => if i = j then (1 : Fl R) else 0) ↑i ↑i c) ↑j ↑j c) ↑i ↑j s) ↑j ↑i (-s) r l = 0 := by
          simp [upd, hri', hrj', Ne.symm h2]
        rw [this]
        exact Fl.zero_mul' _
      · exact R.idem _

/-! ### The elimination -/

/-- the relative error of one rotation of a column -/
noncomputable def qrKap (R : Rounding ℝ) : ℝ := √2 * R.gam 5

theorem qrKap_nonneg (R : Rounding ℝ) : 0 ≤ qrKap R := mul_nonneg (Real.sqrt_nonneg _) (R.gam_nonneg _)

/-- growth over `N` rotations -/
noncomputable def qrEps (R : Rounding ℝ) (N : ℕ) : ℝ := (1 + qrKap R) ^ N - 1

theorem qrEps_nonneg (R : Rounding ℝ) (N : ℕ) : 0 ≤ qrEps R N := by
  have := one_le_pow₀ (n := N) (by linarith [qrKap_nonneg R] : 1 ≤ 1 + qrKap R)
  rw [qrEps]; linarith

theorem qrEps_mono (R : Rounding ℝ) {M N : ℕ} (h : M ≤ N) : qrEps R M ≤ qrEps R N := by
  have := pow_le_pow_right₀ (by linarith [qrKap_nonneg R] : 1 ≤ 1 + qrKap R) h
  rw [qrEps, qrEps]; linarith

theorem qrEps_succ (R : Rounding ℝ) (N : ℕ) : qrEps R (N + 1) = qrKap R * (1 + qrEps R N) + qrEps R N := by
  rw [qrEps, qrEps, pow_succ]; ring

/-- the column `k` -/
def fcol {m n : ℕ} (X : Matrix (Fin m) (Fin n) (Fl R)) (k : Fin n) : Fin m → ℝ := fun r => (X r k).val

/-- the entries of the column `c` that have been annihilated so far: all below the diagonal in the columns before `j`, those from
row `a` on in the column `j` -/
def ftail {m n : ℕ} (X : Matrix (Fin m) (Fin n) (Fl R)) (j a : ℕ) (c : Fin n) : Fin m → ℝ :=
  fun r => if (c : ℕ) < r ∧ ((c : ℕ) < j ∨ (c : ℕ) = j ∧ a ≤ r) then (X r c).val else 0

/-- invariant: up to the errors of `N` rotations, `q` and `r` are an exactly orthogonal matrix `G` and `G A` -/
def QRInvFl {m n : ℕ} (A : Matrix (Fin m) (Fin n) (Fl R)) (j a N : ℕ) (st : Mat (Fl R) × Mat (Fl R)) : Prop :=
  ∃ (Q : Matrix (Fin m) (Fin m) (Fl R)) (X : Matrix (Fin m) (Fin n) (Fl R)) (G : Matrix (Fin m) (Fin m) ℝ),
    Repr st.1 Q ∧ Repr st.2 X ∧ (∀ r k, R.rnd (Q r k).val = (Q r k).val) ∧ (∀ r k, R.rnd (X r k).val = (X r k).val) ∧
    G.transpose * G = 1 ∧
    (∀ k, n2 (fcol X k - G.mulVec (fcol A k)) ≤ qrEps R N * n2 (fcol A k)) ∧
    (∀ k, n2 (fcol Q k - G.mulVec (Pi.single k 1)) ≤ qrEps R N) ∧
    ∀ (c : Fin n) (d : Fin m), (d : ℕ) = c → X d c ≠ 0 → n2 (ftail X j a c) ≤ qrEps R N * n2 (fcol A c)

theorem QRInvFl.mono {m n : ℕ} {A : Matrix (Fin m) (Fin n) (Fl R)} {j a N N' : ℕ} {st : Mat (Fl R) × Mat (Fl R)}
    (h : QRInvFl A j a N st) (hN : N ≤ N') : QRInvFl A j a N' st := by
  obtain ⟨Q, X, G, h1, h2, h3, h4, h5, h6, h7, h8⟩ := h
  have e := qrEps_mono R hN
  refine ⟨Q, X, G, h1, h2, h3, h4, h5, fun k => (h6 k).trans ?_, fun k => (h7 k).trans e, fun c d hd hx => (h8 c d hd hx).trans ?_⟩
  · exact mul_le_mul_of_nonneg_right e (n2_nonneg _)
  · exact mul_le_mul_of_nonneg_right e (n2_nonneg _)

/-- the error after one more rotation -/
theorem near_step {m : ℕ} {G G₁ : Matrix (Fin m) (Fin m) ℝ} (h : G.transpose * G = 1) (h₁ : G₁.transpose * G₁ = 1) {x x' a : Fin m → ℝ}
    {N : ℕ} (hx : n2 (x - G.mulVec a) ≤ qrEps R N * n2 a) (hx' : n2 (x' - G₁.mulVec x) ≤ qrKap R * n2 x) :
    n2 (x' - (G₁ * G).mulVec a) ≤ qrEps R (N + 1) * n2 a := by
  have e : x' - (G₁ * G).mulVec a = (x' - G₁.mulVec x) + G₁.mulVec (x - G.mulVec a) := by
    rw [Matrix.mulVec_sub, Matrix.mulVec_mulVec]; abel
  have h2 := n2_add (x' - G₁.mulVec x) (G₁.mulVec (x - G.mulVec a))
  rw [n2_orth h₁] at h2
  have h3 := n2_add_sub x (G.mulVec a)
  rw [n2_orth h] at h3
  have h4 := mul_le_mul_of_nonneg_left (h3.trans (add_le_add_left hx _)) (qrKap_nonneg R)
  rw [e, qrEps_succ]
  nlinarith

theorem qrStep_fl {sqrt : Fl R → Fl R} (hs : FlSqrt sqrt) (hu : R.u < 1) (hone : R.rnd 1 = 1) {m n : ℕ}
    {A : Matrix (Fin m) (Fin n) (Fl R)} {j i N : ℕ} {st : Mat (Fl R) × Mat (Fl R)} (hj : j < n) (hi : i < m) (hji : j < i)
    (h : QRInvFl A j (i + 1) N st) : ∃ st', Mat.qrStep sqrt j st i = some st' ∧ QRInvFl A j i (N + 1) st' := by
  obtain ⟨Q, X, G, hQ, hX, hQr, hXr, horth, hXG, hQG, hZ⟩ := h
  have hjm : j < m := by omega
  set fi : Fin m := ⟨i, hi⟩ with hfi
  set fj : Fin m := ⟨j, hjm⟩ with hfj
  set cj : Fin n := ⟨j, hj⟩ with hcj
  have e1 : st.2.get j j = some (X fj cj) := hX.entry fj cj
  have e2 : st.2.get i j = some (X fi cj) := hX.entry fi cj
  have hne : fi ≠ fj := by simp [hfi, hfj]; omega
  unfold Mat.qrStep
  simp only [e1, e2, Option.bind_eq_bind, Option.bind_some]
  set x := X fj cj with hx
  set y := X fi cj with hy
  obtain ⟨hp1, hp2⟩ := hyp_fl hs hu x y
  set p := sqrt (x * x + y * y) with hp
  set ρ := √(x.val ^ 2 + y.val ^ 2) with hρ
  have hεs := qrEps_mono R (Nat.le_succ N)
  by_cases hc : p ≠ 0 ∧ x ≠ 0 ∧ y ≠ 0
  · rw [if_pos hc]
    obtain ⟨-, hx1, hy1⟩ := hc
    have hxv : x.val ≠ 0 := fun e => hx1 (Fl.ext e)
    have hρ0 : 0 < ρ := Real.sqrt_pos.2 (by positivity)
    have hρ2 : ρ * ρ = x.val ^ 2 + y.val ^ 2 := Real.mul_self_sqrt (by positivity)
    have hc := quot_fl (a := x) hρ0 hp1 hp2
    have hsn := quot_fl (a := -y) hρ0 hp1 hp2
    rw [Fl.neg_val] at hsn
    set c := x / p with hcd
    set s := -y / p with hsd
    set c₀ := x.val / ρ with hc₀
    set s₀ := -y.val / ρ with hs₀
    have h1 : c₀ * c₀ + s₀ * s₀ = 1 := by
      rw [hc₀, hs₀]; field_simp; linear_combination -hρ2
    have hG₁ := givensM_orth hne h1
    obtain ⟨g, hg, hmul⟩ := givens_mul_fl (show fj < fi from hji) c s hone
    obtain ⟨r', hr', hR'⟩ := hmul hX hXr
    obtain ⟨q', hq', hQ'⟩ := hmul hQ hQr
    have hg' : Mat.givens st.2.m i j c s = some g := by rw [hX.rows]; exact hg
    have hsn' : |(-s).val - -s₀| ≤ R.gam 3 * |-s₀| := by
      rw [Fl.neg_val, abs_neg, ← neg_sub_neg, neg_neg, neg_neg, abs_sub_comm]; exact hsn
    -- one column
    have hcolumn : ∀ (v v' : Fin m → ℝ), (∃ a b : Fl R, v fj = a.val ∧ v fi = b.val ∧ v' fi = (s * a + c * b).val ∧
        v' fj = (c * a + (-s) * b).val) → (∀ r, r ≠ fi → r ≠ fj → v' r = v r) →
        n2 (v' - (givensM fi fj c₀ s₀).mulVec v) ≤ qrKap R * n2 v := by
      rintro v v' ⟨a, b, ha, hb, ha', hb'⟩ hr
      refine rot_col hne h1 (R.gam_nonneg 5) ?_ ?_ hr
      · rw [ha', ha, hb, add_comm (c₀ * _)]
        exact lin_fl hc hsn
      · rw [hb', ha, hb, add_comm (-s₀ * _)]
        exact lin_fl hsn' hc
    have hcolX : ∀ k, n2 (fcol (Matrix.of fun r k => if r = fi then s * X fj k + c * X fi k
        else if r = fj then c * X fj k + (-s) * X fi k else X r k) k - (givensM fi fj c₀ s₀).mulVec (fcol X k)) ≤
        qrKap R * n2 (fcol X k) := fun k =>
      hcolumn _ _ ⟨X fj k, X fi k, rfl, rfl, by simp [fcol], by simp [fcol, hne.symm]⟩ (fun r h1 h2 => by simp [fcol, h1, h2])
    have hcolQ : ∀ k, n2 (fcol (Matrix.of fun r k => if r = fi then s * Q fj k + c * Q fi k
        else if r = fj then c * Q fj k + (-s) * Q fi k else Q r k) k - (givensM fi fj c₀ s₀).mulVec (fcol Q k)) ≤
        qrKap R * n2 (fcol Q k) := fun k =>
      hcolumn _ _ ⟨Q fj k, Q fi k, rfl, rfl, by simp [fcol], by simp [fcol, hne.symm]⟩ (fun r h1 h2 => by simp [fcol, h1, h2])
    have hrep : ∀ {n : ℕ} {Y : Matrix (Fin m) (Fin n) (Fl R)}, (∀ r k, R.rnd (Y r k).val = (Y r k).val) →
        ∀ r k, R.rnd ((Matrix.of fun r k => if r = fi then s * Y fj k + c * Y fi k
        else if r = fj then c * Y fj k + (-s) * Y fi k else Y r k) r k).val =
        ((Matrix.of fun r k => if r = fi then s * Y fj k + c * Y fi k
        else if r = fj then c * Y fj k + (-s) * Y fi k else Y r k) r k).val := by
      intro n Y hY r k
      simp only [Matrix.of_apply]
      split_ifs
      · exact R.idem _
      · exact R.idem _
      · exact hY r k
    refine ⟨(q', r'), by simp [hg', hr', hq'], _, _, givensM fi fj c₀ s₀ * G, hQ', hR', hrep hQr, hrep hXr, ?_,
      fun k => near_step horth hG₁ (hXG k) (hcolX k), fun k => ?_, ?_⟩
    · rw [Matrix.transpose_mul, Matrix.mul_assoc, ← Matrix.mul_assoc _ _ G, hG₁, Matrix.one_mul, horth]
    · have e : n2 (Pi.single k (1 : ℝ) : Fin m → ℝ) = 1 := by
        have := n2_single k (1 : ℝ)
        rw [abs_one] at this
        refine Eq.trans ?_ this
        congr 1
        funext r
        rw [Pi.single_apply]
      have := near_step horth hG₁ (a := Pi.single k 1) (N := N) (by rw [e, mul_one]; exact hQG k) (hcolQ k)
      rwa [e, mul_one] at this
    · intro k d hd hnz
      by_cases hkj : (k : ℕ) < j
      · -- a column to the left: both rows belong to the tail
        have hdi : d ≠ fi := by intro e; rw [e] at hd; simp [hfi] at hd; omega
        have hdj : d ≠ fj := by intro e; rw [e] at hd; simp [hfj] at hd; omega
        have hnz' : X d k ≠ 0 := by simpa [hdi, hdj] using hnz
        have hold := hZ k d hd hnz'
        have hnew := hcolumn (ftail X j (i + 1) k) (ftail (Matrix.of fun r k => if r = fi then s * X fj k + c * X fi k
          else if r = fj then c * X fj k + (-s) * X fi k else X r k) j i k)
          ⟨X fj k, X fi k, by simp [ftail, hfj, hkj], by simp [ftail, hfi, hkj]; omega,
            by simp [ftail, hfi, hkj]; omega, by
              have : ¬ j = i := by omega
              simp [ftail, hfj, hfi, hkj, this]⟩
          (fun r h1 h2 => by simp [ftail, h1, h2, hkj])
        have := n2_add_sub (ftail (Matrix.of fun r k => if r = fi then s * X fj k + c * X fi k
          else if r = fj then c * X fj k + (-s) * X fi k else X r k) j i k) ((givensM fi fj c₀ s₀).mulVec (ftail X j (i + 1) k))
        rw [n2_orth hG₁] at this
        have hkap := qrKap_nonneg R
        have h5 := mul_le_mul_of_nonneg_left hold hkap
        have h6 := mul_nonneg hkap (n2_nonneg (fcol A k))
        rw [qrEps_succ]
        nlinarith
      · by_cases hkj' : (k : ℕ) = j
        · have hk' : k = cj := Fin.ext hkj'
          subst hk'
          have hold := hZ cj fj rfl hx1
          set X' : Matrix (Fin m) (Fin n) (Fl R) := Matrix.of fun r k => if r = fi then s * X fj k + c * X fi k
            else if r = fj then c * X fj k + (-s) * X fi k else X r k with hX'
          have e : ftail X' j i cj = ftail X j (i + 1) cj + fun r => if r = fi then (X' fi cj).val else 0 := by
            funext r
            simp only [ftail, Pi.add_apply, hcj, lt_irrefl, false_or, true_and]
            by_cases hr : r = fi
            · subst hr
              simp [hfi, hji]
            · have hr' : (r : ℕ) ≠ i := fun h => hr (Fin.ext h)
              by_cases hrj : r = fj
              · subst hrj
                rw [if_neg hr, if_neg (by simp [hfj]), if_neg (by simp [hfj])]; simp
              · simp only [if_neg hr, add_zero, hX', Matrix.of_apply, if_neg hrj]
                have : (i ≤ (r : ℕ)) ↔ (i + 1 ≤ (r : ℕ)) := by omega
                simp only [this]
          have hz : (givensM fi fj c₀ s₀).mulVec (fcol X cj) fi = 0 := by
            have := givensM_mul fi fj c₀ s₀ (Matrix.of fun r (_ : Fin 1) => fcol X cj r) fi 0
            rw [Matrix.mul_apply] at this
            have e' : (givensM fi fj c₀ s₀).mulVec (fcol X cj) fi = c₀ * y.val + s₀ * x.val := by
              simpa [Matrix.mulVec, dotProduct, fcol] using this
            rw [e', hc₀, hs₀]; ring
          have hval : |(X' fi cj).val| ≤ qrKap R * n2 (fcol X cj) := by
            have := (abs_le_n2 (fcol X' cj - (givensM fi fj c₀ s₀).mulVec (fcol X cj)) fi).trans (hcolX cj)
            rwa [Pi.sub_apply, hz, sub_zero] at this
          have h3 := n2_add_sub (fcol X cj) (G.mulVec (fcol A cj))
          rw [n2_orth horth] at h3
          have h4 := mul_le_mul_of_nonneg_left (h3.trans (add_le_add_left (hXG cj) _)) (qrKap_nonneg R)
          have h5 := n2_add (ftail X j (i + 1) cj) (fun r => if r = fi then (X' fi cj).val else 0)
          rw [n2_single] at h5
          rw [e, qrEps_succ]
          nlinarith
        · have e : ∀ Y : Matrix (Fin m) (Fin n) (Fl R), n2 (ftail Y j i k) = 0 := by
            intro Y
            simp [n2, ftail, hkj, hkj']
          rw [e]
          exact mul_nonneg (qrEps_nonneg R _) (n2_nonneg _)
  · rw [if_neg hc]
    refine ⟨st, rfl, Q, X, G, hQ, hX, hQr, hXr, horth, fun k => (hXG k).trans (mul_le_mul_of_nonneg_right hεs (n2_nonneg _)),
      fun k => (hQG k).trans hεs, ?_⟩
    intro k d hd hnz
    refine le_trans (le_trans (n2_mono fun r => ?_) (hZ k d hd hnz)) (mul_le_mul_of_nonneg_right hεs (n2_nonneg _))
    simp only [ftail]
    by_cases hkr : (k : ℕ) = j ∧ (r : ℕ) = i
    · obtain ⟨hkj, hri⟩ := hkr
      have hk' : k = cj := Fin.ext hkj
      have hd' : d = fj := Fin.ext (hd.trans hkj)
      have hr' : r = fi := Fin.ext hri
      subst hk' hd' hr'
      have hy0 : y = 0 := by
        by_contra hy1
        apply hc
        refine ⟨?_, hnz, hy1⟩
        intro hp0
        have hxv : x.val ≠ 0 := fun e => hnz (Fl.ext e)
        have hρ0 : 0 < ρ := Real.sqrt_pos.2 (by positivity)
        rw [hp0, Fl.zero_val, mul_zero] at hp2
        linarith
      rw [← hy, hy0, Fl.zero_val]
      simp
    · have : ((k : ℕ) < r ∧ ((k : ℕ) < j ∨ (k : ℕ) = j ∧ i ≤ r)) ↔ ((k : ℕ) < r ∧ ((k : ℕ) < j ∨ (k : ℕ) = j ∧ i + 1 ≤ r)) := by
        omega
      simp only [this, le_refl]

theorem decQR_fl {sqrt : Fl R → Fl R} (hs : FlSqrt sqrt) (hu : R.u < 1) (hone : R.rnd 1 = 1) {m n : ℕ} {A : Mat (Fl R)}
    {M : Matrix (Fin m) (Fin n) (Fl R)} (hA : Repr A M) (hrep : ∀ r k, R.rnd (M r k).val = (M r k).val) (hmn : n ≤ m) (hm : 0 < m) :
    ∃ q r st, Mat.decQR sqrt A = some (q, r) ∧ st.1.transpose = some q ∧ st.2 = r ∧ QRInvFl M n m (n * m) st := by
  have hloop := forRange_inv (a := 0) (b := n) (s := (Mat.one m, A))
    (f := fun st j => forRange 0 (m - (j + 1)) (fun st t => Mat.qrStep sqrt j st (m - 1 - t)) st)
    (fun j st => QRInvFl M j m (j * m) st) (Nat.zero_le _)
    ⟨Matrix.of fun i j => if i = j then 1 else 0, M, 1, (Mat.one_is m).repr_of (fun i j => by simp [Fin.ext_iff]), hA, by
        intro r k
        simp only [Matrix.of_apply]
        split_ifs
        · rw [Fl.one_val, hone]
        · rw [Fl.zero_val, R.rnd_zero], hrep, by simp, by
        intro k
        simp [n2, qrEps], by
        intro k
        simp only [n2, qrEps, Matrix.one_mulVec, Nat.zero_mul, pow_zero, sub_self, Real.sqrt_le_iff, le_refl, true_and]
        refine le_of_eq ?_
        rw [sum_eq_zero]
        · norm_num
        · intro r _
          simp only [Pi.sub_apply, fcol, Matrix.of_apply, Pi.single_apply]
          split_ifs
          · rw [Fl.one_val]; norm_num
          · rw [Fl.zero_val]; norm_num, by
        intro c d hd _
        have e : n2 (ftail M 0 m c) = 0 := by
          rw [n2, sum_eq_zero, Real.sqrt_zero]
          intro r _
          have : ¬ ((c : ℕ) < r ∧ ((c : ℕ) < 0 ∨ (c : ℕ) = 0 ∧ m ≤ r)) := by have := r.2; omega
          rw [ftail, if_neg this]; norm_num
        rw [e]
        exact mul_nonneg (qrEps_nonneg R _) (n2_nonneg _)⟩ (by
      intro j st _ hj hst
      have := forRange_inv (a := 0) (b := m - (j + 1)) (s := st)
        (f := fun st t => Mat.qrStep sqrt j st (m - 1 - t))
        (fun t st => QRInvFl M j (m - t) (j * m + t) st) (Nat.zero_le _) hst (by
          intro t st _ ht hst
          obtain ⟨st', h1, h2⟩ := qrStep_fl hs hu hone (A := M) (st := st) (i := m - 1 - t) (N := j * m + t) hj (by omega) (by omega)
            (by rwa [show m - 1 - t + 1 = m - t by omega])
          exact ⟨st', h1, by rwa [show m - (t + 1) = m - 1 - t by omega]⟩)
      obtain ⟨st', h1, h2⟩ := this
      refine ⟨st', h1, ?_⟩
      have h3 : j * m + (m - (j + 1)) ≤ (j + 1) * m := by rw [Nat.succ_mul]; omega
      obtain ⟨Q, X, G, a1, a2, a3, a4, a5, a6, a7, a8⟩ := h2.mono h3
      refine ⟨Q, X, G, a1, a2, a3, a4, a5, a6, a7, fun c d hd hx => le_trans (n2_mono fun r => ?_) (a8 c d hd hx)⟩
      simp only [ftail]
      have : ((c : ℕ) < r ∧ ((c : ℕ) < j + 1 ∨ (c : ℕ) = j + 1 ∧ m ≤ r)) ↔
          ((c : ℕ) < r ∧ ((c : ℕ) < j ∨ (c : ℕ) = j ∧ m - (m - (j + 1)) ≤ r)) := by
        have := r.2; omega
      simp only [this, le_refl])
  obtain ⟨st, h1, hinv⟩ := hloop
  obtain ⟨Q, X, G, hQ, -⟩ := id hinv
  obtain ⟨q, hq, hqi⟩ := Mat.transpose_is hQ.is (Or.inl rfl) (Or.inl hm)
  refine ⟨q, st.2, st, ?_, hq, rfl, hinv⟩
  simp only [Mat.decQR, hA.rows, hA.cols, if_pos hmn]
  rw [h1]; simp [hq]

/-- **C107**: in floating-point arithmetic with unit roundoff `u` (and a correctly rounded square root) `dec_qr` returns for every matrix
with at least as many rows as columns.  With `ε = (1 + √2 ((1 + u)^5 - 1))^(n m) - 1`, there is an exactly orthogonal matrix `W` such that
every column of `R` is the column of `Wᵀ A` up to `ε` times the length of the column of `A`, every row of `Q` is the row of
`W` up to `ε`, and the entries of `R` below a nonzero diagonal entry are at most `ε` times the length of the column of `A`. -/
theorem C107_qr {sqrt : Fl R → Fl R} (hs : FlSqrt sqrt) (hu : R.u < 1) (hone : R.rnd 1 = 1) {m n : ℕ} {A : Mat (Fl R)}
    {M : Matrix (Fin m) (Fin n) (Fl R)} (hA : Repr A M) (hrep : ∀ r k, R.rnd (M r k).val = (M r k).val) (hmn : n ≤ m) (hm : 0 < m)
    {ε : ℝ} (hε : ε = (1 + √2 * ((1 + R.u) ^ 5 - 1)) ^ (n * m) - 1) :
    ∃ (q r : Mat (Fl R)) (Q : Matrix (Fin m) (Fin m) (Fl R)) (X : Matrix (Fin m) (Fin n) (Fl R)) (W : Matrix (Fin m) (Fin m) ℝ),
      Mat.decQR sqrt A = some (q, r) ∧ Repr q Q ∧ Repr r X ∧ W.transpose * W = 1 ∧ W * W.transpose = 1 ∧
      (∀ k, √(∑ i, ((X i k).val - ∑ l, W l i * (M l k).val) ^ 2) ≤ ε * √(∑ i, (M i k).val ^ 2)) ∧
      (∀ i, √(∑ k, ((Q i k).val - W i k) ^ 2) ≤ ε) ∧
      ∀ (k : Fin n) (d i : Fin m), (d : ℕ) = k → d < i → X d k ≠ 0 → |(X i k).val| ≤ ε * √(∑ i, (M i k).val ^ 2) := by
  obtain ⟨q, r, st, h1, hq, rfl, Q, X, G, hQ, hX, -, -, horth, hXG, hQG, hZ⟩ := decQR_fl hs hu hone hA hrep hmn hm
  obtain ⟨q', hq', hqi⟩ := Mat.transpose_is hQ.is (Or.inl rfl) (Or.inl hm)
  rw [hq] at hq'
  obtain rfl := Option.some.inj hq'
  have hε' : ε = qrEps R (n * m) := hε
  have horth' : G * G.transpose = 1 := mul_eq_one_comm.mp horth
  refine ⟨q, st.2, Q.transpose, X, G.transpose, h1, hqi.repr_of (fun i j => by rw [extM_apply]; rfl), hX, ?_, ?_, ?_, ?_, ?_⟩
  · rw [Matrix.transpose_transpose, horth']
  · rw [Matrix.transpose_transpose, horth]
  · intro k
    rw [hε']
    exact hXG k
  · intro i
    rw [hε']
    refine le_trans (le_of_eq ?_) (hQG i)
    rw [n2]
    congr 1
    refine sum_congr rfl fun k _ => ?_
    simp [fcol]
  · intro k d i hd hi hx
    rw [hε']
    refine le_trans (le_of_eq ?_) ((abs_le_n2 _ i).trans (hZ k d hd hx))
    rw [ftail, if_pos ⟨by rw [← hd]; exact hi, Or.inl k.2⟩]

/-- **C107**: the computed factors reproduce every column of `A` up to `ε + √m ε (1 + ε)` times its length, and the rows of `Q` are
orthonormal up to `2 ε + ε²`. -/
theorem C107_product {sqrt : Fl R → Fl R} (hs : FlSqrt sqrt) (hu : R.u < 1) (hone : R.rnd 1 = 1) {m n : ℕ} {A : Mat (Fl R)}
    {M : Matrix (Fin m) (Fin n) (Fl R)} (hA : Repr A M) (hrep : ∀ r k, R.rnd (M r k).val = (M r k).val) (hmn : n ≤ m) (hm : 0 < m)
    {ε : ℝ} (hε : ε = (1 + √2 * ((1 + R.u) ^ 5 - 1)) ^ (n * m) - 1) :
    ∃ (q r : Mat (Fl R)) (Q : Matrix (Fin m) (Fin m) (Fl R)) (X : Matrix (Fin m) (Fin n) (Fl R)),
      Mat.decQR sqrt A = some (q, r) ∧ Repr q Q ∧ Repr r X ∧
      (∀ k, √(∑ i, (∑ l, (Q i l).val * (X l k).val - (M i k).val) ^ 2) ≤ (ε + √m * ε * (1 + ε)) * √(∑ i, (M i k).val ^ 2)) ∧
      ∀ i i', |∑ k, (Q i k).val * (Q i' k).val - if i = i' then 1 else 0| ≤ 2 * ε + ε ^ 2 := by
  obtain ⟨q, r, Q, X, W, h1, hQ, hX, hW, hW', hcol, hrow, -⟩ := C107_qr hs hu hone hA hrep hmn hm hε
  have hε' : ε = qrEps R (n * m) := hε
  have hε0 : 0 ≤ ε := by rw [hε']; exact qrEps_nonneg R _
  set F : Matrix (Fin m) (Fin m) ℝ := fun i k => (Q i k).val - W i k with hF
  have hQF : ∀ i k, (Q i k).val = W i k + F i k := fun i k => by simp [hF]
  have hrow' : ∀ i, n2 (F i) ≤ ε := hrow
  refine ⟨q, r, Q, X, h1, hQ, hX, fun k => ?_, fun i i' => ?_⟩
  · set a : Fin m → ℝ := fun i => (M i k).val with ha
    set x : Fin m → ℝ := fun i => (X i k).val with hx
    have hx' : n2 (x - W.transpose.mulVec a) ≤ ε * n2 a := hcol k
    have e : (fun i => ∑ l, (Q i l).val * (X l k).val - (M i k).val) = W.mulVec (x - W.transpose.mulVec a) + F.mulVec x := by
      rw [Matrix.mulVec_sub, Matrix.mulVec_mulVec, hW', Matrix.one_mulVec]
      funext i
      simp only [Pi.add_apply, Pi.sub_apply, Matrix.mulVec, dotProduct, hQF, add_mul, sum_add_distrib, ha, hx]
      ring
    have hFx : n2 (F.mulVec x) ≤ √m * ε * n2 x := by
      have hb : ∀ i, F.mulVec x i ^ 2 ≤ (ε * n2 x) ^ 2 := by
        intro i
        have h3 : F.mulVec x i ^ 2 ≤ (∑ l, F i l ^ 2) * ∑ l, x l ^ 2   :=
          sum_mul_sq_le_sq_mul_sq univ (F i) x
        rw [← n2_sq, ← n2_sq, ← mul_pow] at h3
        refine h3.trans (pow_le_pow_left₀ (mul_nonneg (n2_nonneg _) (n2_nonneg _)) ?_ 2)
        exact mul_le_mul_of_nonneg_right (hrow' i) (n2_nonneg _)
      have : n2 (F.mulVec x) ^ 2 ≤ (√m * ε * n2 x) ^ 2 := by
        rw [n2_sq]
        refine (sum_le_sum fun i _ => hb i).trans (le_of_eq ?_)
        rw [sum_const, card_univ, Fintype.card_fin, nsmul_eq_mul, mul_assoc, mul_pow √(m : ℝ), Real.sq_sqrt (Nat.cast_nonneg _)]
      exact rot_col.le_of_sq_le_sq this (by have := n2_nonneg x; positivity)
    have hxa : n2 x ≤ (1 + ε) * n2 a := by
      have := n2_add_sub x (W.transpose.mulVec a)
      rw [n2_orth (by rw [Matrix.transpose_transpose, hW'])] at this
      linarith
    have h4 := n2_add (W.mulVec (x - W.transpose.mulVec a)) (F.mulVec x)
    rw [n2_orth hW] at h4
    have h5 := mul_le_mul_of_nonneg_left hxa (by positivity : 0 ≤ √(m : ℝ) * ε)
    change n2 (fun i => ∑ l, (Q i l).val * (X l k).val - (M i k).val) ≤ (ε + √m * ε * (1 + ε)) * n2 a
    rw [e]
    nlinarith
  · have hWrow : ∀ i i', ∑ k, W i k * W i' k = if i = i' then 1 else 0 := by
      intro i i'
      have := congrFun (congrFun hW' i) i'
      rw [Matrix.mul_apply, Matrix.one_apply] at this
      simpa using this
    have hW1 : ∀ i, n2 (W i) = 1 := by
      intro i
      have := hWrow i i
      rw [if_pos rfl] at this
      rw [n2, Real.sqrt_eq_one]
      rw [← this]
      exact sum_congr rfl fun k _ => by ring
    have hcs : ∀ v w : Fin m → ℝ, |∑ k, v k * w k| ≤ n2 v * n2 w := by
      intro v w
      refine abs_le_of_sq_le_sq ?_ (mul_nonneg (n2_nonneg _) (n2_nonneg _))
      rw [mul_pow, n2_sq, n2_sq]
      exact sum_mul_sq_le_sq_mul_sq _ _ _
    have e : ∑ k, (Q i k).val * (Q i' k).val - (if i = i' then 1 else 0) =
        ∑ k, W i k * F i' k + ∑ k, F i k * W i' k + ∑ k, F i k * F i' k := by
      rw [← hWrow, ← sum_sub_distrib, ← sum_add_distrib, ← sum_add_distrib]
      exact sum_congr rfl fun k _ => by rw [hQF, hQF]; ring
    rw [e]
    have b1 := (hcs (W i) (F i')).trans (by rw [hW1, one_mul])
    have b2 := (hcs (F i) (W i')).trans (by rw [hW1, mul_one])
    have b3 := (hcs (F i) (F i')).trans (mul_le_mul (hrow' i) (hrow' i') (n2_nonneg _) hε0)
    have b4 := hrow' i
    have b5 := hrow' i'
    have := abs_add_three (∑ k, W i k * F i' k) (∑ k, F i k * W i' k) (∑ k, F i k * F i' k)
    nlinarith

/-- **C107**: as long as `10 n m u ≤ 1/2`, the bound `ε` is at most `16 n m u`. -/
theorem C107_size {u : ℝ} (hu : 0 ≤ u) {N : ℕ} (hN : 10 * N * u ≤ 1 / 2) (h1 : u ≤ 1 / 1000) :
    (1 + √2 * ((1 + u) ^ 5 - 1)) ^ N - 1 ≤ 16 * N * u := by
  have h2 : √2 ≤ 1.4143 := by rw [Real.sqrt_le_iff]; norm_num
  have h3 : (1 + u) ^ 5 - 1 ≤ 5.02 * u := by
    have a : u ^ 2 ≤ u / 1000 := by nlinarith
    have b : u ^ 3 ≤ u / 1000000 := by nlinarith
    have c : u ^ 4 ≤ u / 1000000 := by nlinarith [pow_nonneg hu 3]
    have d : u ^ 5 ≤ u / 1000000 := by nlinarith [pow_nonneg hu 4]
    nlinarith
  have h3' : 0 ≤ (1 + u) ^ 5 - 1 := by linarith [one_le_pow₀ (n := 5) (by linarith : 1 ≤ 1 + u)]
  have h4 : √2 * ((1 + u) ^ 5 - 1) ≤ 7.2 * u := by
    have := mul_le_mul h2 h3 h3' (by norm_num : (0 : ℝ) ≤ 1.4143)
    nlinarith
  have hκ0 : 0 ≤ √2 * ((1 + u) ^ 5 - 1) := mul_nonneg (Real.sqrt_nonneg _) h3'
  generalize √2 * ((1 + u) ^ 5 - 1) = κ at *
  have h5 : (1 : ℝ) - N * κ ≤ (1 - κ) ^ N := by
    have := one_add_mul_le_pow (a := -κ) (by linarith) N
    have e : (1 : ℝ) + (N : ℝ) * -κ = 1 - N * κ := by ring
    rw [e, ← sub_eq_add_neg] at this
    exact this
  have h6 : (1 + κ) ^ N * (1 - κ) ^ N ≤ 1 := by
    rw [← mul_pow]
    refine pow_le_one₀ ?_ ?_
    · exact mul_nonneg (by linarith) (by linarith)
    · nlinarith
  have hN0 : (0 : ℝ) ≤ N := Nat.cast_nonneg N
  have h7 : N * κ ≤ 7.2 * (N * u) := by
    have := mul_le_mul_of_nonneg_left h4 hN0
    linarith
  have h8 : (0 : ℝ) ≤ N * u := mul_nonneg hN0 hu
  have h9 : 0 ≤ (1 + κ) ^ N := pow_nonneg (by linarith) N
  have h10 := (mul_le_mul_of_nonneg_left h5 h9).trans h6
  generalize (1 + κ) ^ N = P at *
  have h12 : N * u ≤ 1 / 20 := by linarith
  rw [mul_assoc 16]
  generalize N * u = t at *
  generalize N * κ = w at *
  have h11 : P * (1 - 7.2 * t) ≤ 1 := (mul_le_mul_of_nonneg_left (by linarith) h9).trans h10
  have h13 : (1 + 16 * t) * (1 - 7.2 * t) ≥ 1 := by nlinarith
  by_contra hc
  have := mul_lt_mul_of_pos_right (not_le.1 hc) (by linarith : 0 < 1 - 7.2 * t)
  linarith

/-- in `f64` a matrix with 10 rows and columns: `ε ≤ 2e-13` -/
example (N : ℕ) (hN : N = 10 * 10) : (1 + √2 * ((1 + 1 / 2 ^ 53) ^ 5 - 1)) ^ N - 1 ≤ (2 : ℝ) / 10 ^ 13 := by
  refine (C107_size (N := N) (by positivity) ?_ (by norm_num)).trans ?_
  · rw [hN]; norm_num
  · rw [hN]; norm_num

end

/-- with 53 bits, for the matrix with the rows `(3, 1)` and `(4, 2)`, the entry below the diagonal is at most `64 · 2^-53 · 5` -/
example (p : ℕ) (hp : 1 ≤ p) (h53 : p = 53) :
    ∃ q r, ∃ X : Matrix (Fin 2) (Fin 2) (Fl (binary ℝ p hp)),
      Mat.decQR (flSqrt _) (⟨2, 2, [⟨3⟩, ⟨4⟩, ⟨1⟩, ⟨2⟩]⟩ : Mat (Fl (binary ℝ p hp))) = some (q, r) ∧ Repr r X ∧
        (X 0 0 ≠ 0 → |(X 1 0).val| ≤ 64 / 2 ^ 53 * 5) := by
  have hi : ∀ k : ℤ, |k| ≤ 4 → (binary ℝ p hp).rnd k = k := fun k hk => roundBits_intCast hp (hk.trans (by rw [h53]; norm_num))
  have hu : (binary ℝ p hp).u = 1 / 2 ^ 53 := by subst h53; norm_num [binary]
  obtain ⟨q, r, Q, X, W, h1, -, h2, -, -, -, -, h3⟩ := C107_qr (flSqrt_spec (binary ℝ p hp)) (by rw [hu]; norm_num)
    (by exact_mod_cast hi 1 (by norm_num))
    (A := ⟨2, 2, [⟨3⟩, ⟨4⟩, ⟨1⟩, ⟨2⟩]⟩) (M := !![⟨3⟩, ⟨1⟩; ⟨4⟩, ⟨2⟩])
    (by constructor <;> simp [Mat.get, Fin.forall_fin_two])
    (by
      simp only [Fin.forall_fin_two]
      refine ⟨⟨?_, ?_⟩, ?_, ?_⟩
      · exact_mod_cast hi 3 (by norm_num)
      · exact_mod_cast hi 1 (by norm_num)
      · exact_mod_cast hi 4 (by norm_num)
      · exact_mod_cast hi 2 (by norm_num)) le_rfl (by norm_num) rfl
  refine ⟨q, r, X, h1, h2, fun hx => ?_⟩
  have h4 := h3 0 0 1 rfl (by decide) hx
  have h5 : √(∑ i, ((!![⟨3⟩, ⟨1⟩; ⟨4⟩, ⟨2⟩] : Matrix (Fin 2) (Fin 2) (Fl (binary ℝ p hp))) i 0).val ^ 2) = 5 := by
    rw [Fin.sum_univ_two, Real.sqrt_eq_iff_eq_sq] <;> norm_num
  rw [h5] at h4
  refine h4.trans (mul_le_mul_of_nonneg_right ?_ (by norm_num))
  have h6 := C107_size (u := (binary ℝ p hp).u) (by rw [hu]; positivity) (N := 2 * 2) (by rw [hu]; norm_num) (by rw [hu]; norm_num)
  refine h6.trans ?_
  rw [hu]; norm_num

/-- **C107** is violated in that `R` is not upper triangular: the annihilated entry is computed by the matrix product instead of being set
to zero.  In `f64`, for the matrix with the rows `(3, 1)` and `(4, 2)`, the entry below the diagonal is `-2^-51`. -/
theorem C107_upper_violated (sqrt : Fl f64 → Fl f64) (hs : sqrt ⟨25⟩ = ⟨5⟩) :
    ∃ q r : Mat (Fl f64), Mat.decQR sqrt (⟨2, 2, [⟨3⟩, ⟨4⟩, ⟨1⟩, ⟨2⟩]⟩ : Mat (Fl f64)) = some (q, r) ∧
      r.get 1 0 = some ⟨-(2 ^ 51 : ℚ)⁻¹⟩ := by
  have e1 : (⟨3⟩ * ⟨3⟩ + ⟨4⟩ * ⟨4⟩ : Fl f64) = ⟨25⟩ := by decide +kernel
  have e2 : (⟨5⟩ : Fl f64) ≠ 0 ∧ (⟨3⟩ : Fl f64) ≠ 0 ∧ (⟨4⟩ : Fl f64) ≠ 0 := by decide +kernel
  have key : Mat.qrStep sqrt 0 (Mat.one 2, ⟨2, 2, [⟨3⟩, ⟨4⟩, ⟨1⟩, ⟨2⟩]⟩) 1 =
      Mat.qrStep (fun _ => (⟨5⟩ : Fl f64)) 0 (Mat.one 2, ⟨2, 2, [⟨3⟩, ⟨4⟩, ⟨1⟩, ⟨2⟩]⟩) 1 := by
    have g1 : (⟨2, 2, [⟨3⟩, ⟨4⟩, ⟨1⟩, ⟨2⟩]⟩ : Mat (Fl f64)).get 0 0 = some ⟨3⟩ := by simp [Mat.get]
    have g2 : (⟨2, 2, [⟨3⟩, ⟨4⟩, ⟨1⟩, ⟨2⟩]⟩ : Mat (Fl f64)).get 1 0 = some ⟨4⟩ := by simp [Mat.get]
    simp only [Mat.qrStep, g1, g2, Option.bind_eq_bind, Option.bind_some, e1, hs]
  have run : Mat.decQR sqrt (⟨2, 2, [⟨3⟩, ⟨4⟩, ⟨1⟩, ⟨2⟩]⟩ : Mat (Fl f64)) =
      Mat.decQR (fun _ => (⟨5⟩ : Fl f64)) (⟨2, 2, [⟨3⟩, ⟨4⟩, ⟨1⟩, ⟨2⟩]⟩ : Mat (Fl f64)) := by
    simp only [Mat.decQR, forRange, Nat.sub_zero, show List.range' 0 2 = [0, 1] from rfl, Nat.zero_add,
      show (2 : ℕ) - 1 = 1 from rfl, show List.range' 0 1 = [0] from rfl, show 2 - (1 + 1) = 0 from rfl,
      show List.range' 0 0 = [] from rfl, List.foldlM_cons, List.foldlM_nil, key]
  have fin : ((Mat.decQR (fun _ => (⟨5⟩ : Fl f64)) (⟨2, 2, [⟨3⟩, ⟨4⟩, ⟨1⟩, ⟨2⟩]⟩ : Mat (Fl f64))).bind fun o => o.2.get 1 0) =
      some ⟨-(2 ^ 51 : ℚ)⁻¹⟩ := by decide +kernel
  rw [run]
  cases h : Mat.decQR (fun _ => (⟨5⟩ : Fl f64)) (⟨2, 2, [⟨3⟩, ⟨4⟩, ⟨1⟩, ⟨2⟩]⟩ : Mat (Fl f64)) with
  | none => rw [h] at fin; simp at fin
  | some o =>
    rw [h] at fin
    exact ⟨o.1, o.2, rfl, by simpa using fin⟩

end Verif
