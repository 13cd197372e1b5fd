import Verif.FloatModel
import Verif.SubstLemmas

/-! # Lemmas: the matrix models over any number type, and rounding errors of sums -/

set_option linter.unusedSectionVars false

namespace Verif
open Finset

namespace Mat
section Ops
variable {K : Type} [Zero K] [One K] [Add K] [Sub K] [Mul K] [Div K]

/-- `((0 + g 0) + g 1) + …`, `n` summands, added from the left -/
def accum (g : Nat → K) : Nat → K
  | 0 => 0
  | n + 1 => accum g n + g n

theorem accumLoop {n : Nat} (g : Nat → K) (F : K → Nat → Option K)
    (hF : ∀ s k, k < n → F s k = some (s + g k)) : forRange 0 n F 0 = some (accum g n) := by
  obtain ⟨t, h1, h2⟩ := forRange_inv (a := 0) (b := n) (s := (0 : K)) (f := F)
    (fun k t => t = accum g k) (by omega) rfl (by
      intro i t _ hi ht
      exact ⟨_, hF t i hi, by rw [ht]; rfl⟩)
  rw [h1, h2]

theorem mul_accum {A B : Mat K} {m n p : Nat} {f g} (hA : A.Is m n f) (hB : B.Is n p g) :
    ∃ C, A.mul B = some C ∧ C.Is m p (fun i j => accum (fun k => f i k * g k j) n) := by
  have := fillLoop (fun i j => accum (fun k => f i k * g k j) n) (zero_is (K := K) m p)
    (fun prod i j => do
        let sum ← forRange 0 A.n (fun sum k => do
          let a ← A.get i k
          let b ← B.get k j
          some (sum + a * b)) (0 : K)
        prod.set i j sum) (by
      intro C i j hi hj _
      have := accumLoop (n := n) (fun k => f i k * g k j)
        (fun sum k => do
          let a ← A.get i k
          let b ← B.get k j
          some (sum + a * b)) (by
          intro s k hk
          simp [hA.get hi hk, hB.get hk hj])
      simp only [hA.hn]
      rw [this]
      simp)
  obtain ⟨C, hC, h2⟩ := this
  refine ⟨C, ?_, h2⟩
  simp only [mul, hA.hn, hB.hm, if_true, hA.hm, hB.hn]
  simpa [hA.hn] using hC

theorem dotp_accum {x y : Mat K} {n : Nat} {f g} (hx : x.Is n 1 f) (hy : y.Is n 1 g) (hn : 0 < n) :
    x.dotp y = some (accum (fun i => f i 0 * g i 0) n) := by
  obtain ⟨t, h1, h2⟩ := transpose_is hx (Or.inr (Or.inr rfl)) (Or.inl hn)
  obtain ⟨r, h3, h4⟩ := mul_accum h2 hy
  have := h4.get (i := 0) (j := 0) (by omega) (by omega)
  simp [dotp, hx.hm, hx.hn, hy.hm, hy.hn, h1, h3, this, Nat.ne_of_gt hn]

theorem mulVec_accum {A v : Mat K} {m n : Nat} {f g} (hA : A.Is m n f) (hv : v.Is n 1 g) :
    ∃ w, A.mulVec v = some w ∧ w.Is m 1 (fun i _ => accum (fun k => f i k * g k 0) n) := by
  obtain ⟨w, h1, h2⟩ := newColumn_is (n := m) (fun i => accum (fun k => f i k * g k 0) n)
  refine ⟨w, ?_, h2⟩
  have := pushLoop (n := m) (fun i => accum (fun k => f i k * g k 0) n)
    (fun (data : List K) i => do
      let p ← forRange 0 n (fun p k => do
        let a ← A.data[k * m + i]?
        let b ← v.vget k
        some (p + a * b)) (0 : K)
      some (data ++ [p])) (by
      intro l i hi
      have := accumLoop (n := n) (fun k => f i k * g k 0)
        (fun p k => do
          let a ← A.data[k * m + i]?
          let b ← v.vget k
          some (p + a * b)) (by
          intro s k hk
          simp [hA.hget i k hi hk, hv.vget_col hk])
      simp only [this]
      simp)
  simp only [mulVec, hA.hn, hA.hm, hv.hm, ne_eq, not_true_eq_false, if_false, this]
  simpa using h1

end Ops
end Mat

namespace Rounding
variable {K : Type} [Field K] [LinearOrder K] [IsStrictOrderedRing K] (R : Rounding K)

/-- `(1 + u)^n - 1`, the growth of the relative error over `n` operations -/
def gam (n : ℕ) : K := (1 + R.u) ^ n - 1

theorem one_le : 1 ≤ 1 + R.u := by linarith [R.u_nonneg]

theorem gam_zero : R.gam 0 = 0 := by simp [gam]

theorem gam_one : R.gam 1 = R.u := by simp [gam]

theorem gam_succ (n : ℕ) : R.gam (n + 1) = R.gam n * (1 + R.u) + R.u := by
  rw [gam, gam, pow_succ]; ring

theorem gam_add (m n : ℕ) : R.gam (m + n) = R.gam m + R.gam n + R.gam m * R.gam n := by
  rw [gam, gam, gam, pow_add]; ring

theorem gam_nonneg (n : ℕ) : 0 ≤ R.gam n := by
  rw [gam]; linarith [one_le_pow₀ (n := n) R.one_le]

theorem gam_mono {m n : ℕ} (h : m ≤ n) : R.gam m ≤ R.gam n := by
  rw [gam, gam]; linarith [pow_le_pow_right₀ R.one_le h]

theorem rnd_zero : R.rnd 0 = 0 := by
  have := R.err 0
  rw [abs_zero, mul_zero, sub_zero] at this
  exact abs_eq_zero.1 (le_antisymm this (abs_nonneg _))

/-- the error of an operation whose exact result is itself inexact -/
theorem rnd_near {x y e : K} (h : |x - y| ≤ e) : |R.rnd x - y| ≤ e * (1 + R.u) + R.u * |y| := by
  have h1 := R.err x
  have h2 : |x| ≤ |y| + e := by
    have := abs_sub_abs_le_abs_sub x y
    linarith
  have h3 : R.rnd x - y = (R.rnd x - x) + (x - y) := by ring
  rw [h3]
  have := abs_add_le (R.rnd x - x) (x - y)
  have := mul_le_mul_of_nonneg_left h2 R.u_nonneg
  nlinarith

/-- recursive summation of rounded products -/
theorem accum_err (a b : ℕ → Fl R) (n : ℕ) :
    |(Mat.accum (fun k => a k * b k) n).val - ∑ k ∈ range n, (a k).val * (b k).val| ≤
      R.gam n * ∑ k ∈ range n, |(a k).val * (b k).val| := by
  induction n with
  | zero => simp [Mat.accum, Fl.zero_val]
  | succ n ih =>
    rw [sum_range_succ, sum_range_succ, Mat.accum, Fl.add_val, Fl.mul_val]
    set p := (a n).val * (b n).val
    by_cases hn : n = 0
    · subst hn
      simp only [Mat.accum, Fl.zero_val, zero_add, range_zero, sum_empty, R.idem, R.gam_one]
      exact R.err p
    set s := (Mat.accum (fun k => a k * b k) n).val
    set S := ∑ k ∈ range n, (a k).val * (b k).val
    set T := ∑ k ∈ range n, |(a k).val * (b k).val|
    have hT : |S| ≤ T := abs_sum_le_sum_abs _ _
    have h1 : |s + R.rnd p - (S + p)| ≤ R.gam n * T + R.u * |p| := by
      have : s + R.rnd p - (S + p) = (s - S) + (R.rnd p - p) := by ring
      rw [this]
      exact (abs_add_le _ _).trans (add_le_add ih (R.err p))
    have h2 := R.rnd_near h1
    have h3 : |S + p| ≤ T + |p| := (abs_add_le _ _).trans (by linarith)
    have h4 := mul_le_mul_of_nonneg_left h3 R.u_nonneg
    have h5 : R.gam 1 ≤ R.gam n := R.gam_mono (by omega)
    rw [R.gam_one] at h5
    have h6 := mul_le_mul_of_nonneg_right h5 (mul_nonneg (abs_nonneg p) (zero_le_one.trans R.one_le))
    rw [R.gam_succ]
    nlinarith

/-- recursive summation -/
theorem foldl_err (l : List (Fl R)) :
    |(l.foldl (fun s x => s + x) 0).val - (l.map Fl.val).sum| ≤ R.gam l.length * (l.map fun x => |x.val|).sum := by
  induction l using List.reverseRecOn with
  | nil => simp [Fl.zero_val]
  | append_singleton l x ih =>
    simp only [List.foldl_append, List.foldl_cons, List.foldl_nil, List.map_append, List.sum_append, List.map_cons,
      List.map_nil, List.sum_cons, List.sum_nil, add_zero, List.length_append, List.length_cons, List.length_nil,
      zero_add, Fl.add_val]
    have hT : |(l.map Fl.val).sum| ≤ (l.map fun x => |x.val|).sum := by
      clear ih
      induction l with
      | nil => simp
      | cons a l ih => simp only [List.map_cons, List.sum_cons]; exact (abs_add_le _ _).trans (by linarith)
    set s := (l.foldl (fun s x => s + x) 0).val
    set S := (l.map Fl.val).sum
    set T := (l.map fun x => |x.val|).sum
    have h1 : |s + x.val - (S + x.val)| ≤ R.gam l.length * T := by
      have : s + x.val - (S + x.val) = s - S := by ring
      rw [this]; exact ih
    have h2 := R.rnd_near h1
    have h3 : |S + x.val| ≤ T + |x.val| := (abs_add_le _ _).trans (by linarith)
    have h4 := mul_le_mul_of_nonneg_left h3 R.u_nonneg
    have h5 := mul_nonneg (R.gam_nonneg l.length) (abs_nonneg x.val)
    have h6 := mul_nonneg h5 R.u_nonneg
    rw [R.gam_succ]
    nlinarith

end Rounding
end Verif
