import Verif.FloatSubst
import Verif.PolyModel
import Verif.ContModel

/-!
# Property C88: rounding errors of sums, products, means and polynomial values

All theorems hold for every arithmetic that satisfies the standard model of rounding (`Rounding`), in particular for
`f32` and `f64`, and for all inputs.  `u` is the unit roundoff.
-/

set_option linter.unusedSectionVars false

namespace Verif
open Finset

section
variable {K : Type} [Field K] [LinearOrder K] [IsStrictOrderedRing K] {R : Rounding K}

/-- **C88** the dot product of two vectors of length `n`: the error is at most `(1 + u)^n - 1` times the sum of the
    absolute products -/
theorem C88_dotp {n : Nat} {v w : Mat (Fl R)} {x y : Fin n → Fl R} (hv : ColRepr v x) (hw : ColRepr w y) (hn : 0 < n) :
    ∃ r, v.dotp w = some r ∧
      |r.val - ∑ i, (x i).val * (y i).val| ≤ ((1 + R.u) ^ n - 1) * ∑ i, |(x i).val * (y i).val| := by
  refine ⟨_, Mat.dotp_accum hv.is hw.is hn, ?_⟩
  have := R.accum_err (fun i => extV x i) (fun i => extV y i) n
  rw [← Fin.sum_univ_eq_sum_range (fun i => (extV x i).val * (extV y i).val),
    ← Fin.sum_univ_eq_sum_range (fun i => |(extV x i).val * (extV y i).val|)] at this
  simpa [extV_apply, Rounding.gam] using this

/-- **C88** the matrix product: entry by entry, the error is at most `(1 + u)^n - 1` times the product of the absolute
    values, `n` the inner dimension -/
theorem C88_mul {m n p : Nat} {A B : Mat (Fl R)} {M : Matrix (Fin m) (Fin n) (Fl R)} {N : Matrix (Fin n) (Fin p) (Fl R)}
    (hA : Repr A M) (hB : Repr B N) :
    ∃ C, ∃ P : Matrix (Fin m) (Fin p) (Fl R), A.mul B = some C ∧ Repr C P ∧
      ∀ i j, |(P i j).val - ∑ k, (M i k).val * (N k j).val| ≤
        ((1 + R.u) ^ n - 1) * ∑ k, |(M i k).val * (N k j).val| := by
  obtain ⟨C, h1, h2⟩ := Mat.mul_accum hA.is hB.is
  refine ⟨C, _, h1, h2.repr, ?_⟩
  intro i j
  have := R.accum_err (fun k => extM M i k) (fun k => extM N k j) n
  rw [← Fin.sum_univ_eq_sum_range (fun k => (extM M i k).val * (extM N k j).val),
    ← Fin.sum_univ_eq_sum_range (fun k => |(extM M i k).val * (extM N k j).val|)] at this
  simpa [extM_apply, Rounding.gam] using this

/-- **C88** the product of a matrix and a vector -/
theorem C88_mulVec {m n : Nat} {A v : Mat (Fl R)} {M : Matrix (Fin m) (Fin n) (Fl R)} {x : Fin n → Fl R}
    (hA : Repr A M) (hv : ColRepr v x) :
    ∃ w, ∃ y : Fin m → Fl R, A.mulVec v = some w ∧ ColRepr w y ∧
      ∀ i, |(y i).val - ∑ k, (M i k).val * (x k).val| ≤ ((1 + R.u) ^ n - 1) * ∑ k, |(M i k).val * (x k).val| := by
  obtain ⟨w, h1, h2⟩ := Mat.mulVec_accum hA.is hv.is
  refine ⟨w, _, h1, h2.colRepr, ?_⟩
  intro i
  have := R.accum_err (fun k => extM M i k) (fun k => extV x k) n
  rw [← Fin.sum_univ_eq_sum_range (fun k => (extM M i k).val * (extV x k).val),
    ← Fin.sum_univ_eq_sum_range (fun k => |(extM M i k).val * (extV x k).val|)] at this
  simpa [extM_apply, extV_apply, Rounding.gam] using this

/-- the Horner scheme, one coefficient at a time -/
theorem eval_cons_fl (a : Fl R) (l : List (Fl R)) (x : Fl R) :
    Poly.eval (a :: l) x = a + x * Poly.eval l x := by
  simp [Poly.eval]

/-- value of the polynomial with coefficients `l` (lowest degree first), by powers -/
def polyVal (l : List K) (x : K) : K := ∑ i ∈ range l.length, l.getD i 0 * x ^ i

theorem polyVal_cons (a : K) (l : List K) (x : K) : polyVal (a :: l) x = a + x * polyVal l x := by
  rw [polyVal, List.length_cons, sum_range_succ', polyVal, mul_sum]
  simp only [List.getD_cons_zero, List.getD_cons_succ, pow_zero, mul_one]
  rw [add_comm]
  congr 1
  exact sum_congr rfl fun i _ => by rw [pow_succ]; ring

/-- **C88** evaluation of a polynomial of degree `d` (Horner scheme): the error is at most `(1 + u)^(2d + 1) - 1` times
    the value of the polynomial with absolute coefficients at `|x|` -/
theorem C88_eval (a : Fl R) (l : List (Fl R)) (x : Fl R) :
    |(Poly.eval (a :: l) x).val - polyVal ((a :: l).map Fl.val) x.val| ≤
      ((1 + R.u) ^ (2 * l.length + 1) - 1) * polyVal ((a :: l).map fun c => |c.val|) |x.val| := by
  suffices h : |(Poly.eval (a :: l) x).val - polyVal ((a :: l).map Fl.val) x.val| ≤
      R.gam (2 * l.length + 1) * polyVal ((a :: l).map fun c => |c.val|) |x.val| from h
  induction l generalizing a with
  | nil =>
    simp only [eval_cons_fl, List.map_cons, List.map_nil, polyVal_cons, List.length_nil, mul_zero, zero_add,
      Fl.add_val, Fl.mul_val, R.gam_one]
    simp only [Poly.eval, List.reverse_nil, List.foldl_nil, Fl.zero_val, mul_zero, R.rnd_zero, add_zero, polyVal,
      List.length_nil, range_zero, sum_empty]
    exact R.err _
  | cons b l ih =>
    specialize ih b
    rw [eval_cons_fl, List.map_cons (f := Fl.val) (a := a), List.map_cons (f := fun c : Fl R => |c.val|) (a := a),
      polyVal_cons a.val, polyVal_cons |a.val|, Fl.add_val, Fl.mul_val]
    set s := (Poly.eval (b :: l) x).val
    set S := polyVal ((b :: l).map Fl.val) x.val
    set T := polyVal ((b :: l).map fun c => |c.val|) |x.val|
    have hST : |S| ≤ T := by
      have : ∀ l : List (Fl R), |polyVal (l.map Fl.val) x.val| ≤ polyVal (l.map fun c => |c.val|) |x.val| := by
        intro l
        induction l with
        | nil => simp [polyVal]
        | cons a l ih =>
          rw [List.map_cons, List.map_cons, polyVal_cons, polyVal_cons]
          refine (abs_add_le _ _).trans (add_le_add (le_refl _) ?_)
          rw [abs_mul]
          exact mul_le_mul_of_nonneg_left ih (abs_nonneg _)
      exact this _
    have hT : 0 ≤ T := (abs_nonneg S).trans hST
    set g := R.gam (2 * l.length + 1)
    have hu := R.u_nonneg
    have hg : 0 ≤ g := R.gam_nonneg _
    have hx := abs_nonneg x.val
    have e1 : |x.val * s - x.val * S| ≤ |x.val| * (g * T) := by
      rw [← mul_sub, abs_mul]; exact mul_le_mul_of_nonneg_left ih hx
    have e2 := R.rnd_near e1
    have e3 : |a.val + R.rnd (x.val * s) - (a.val + x.val * S)| ≤
        |x.val| * (g * T) * (1 + R.u) + R.u * |x.val * S| := by
      rwa [add_sub_add_left_eq_sub]
    have e4 := R.rnd_near e3
    have e5 : |a.val + x.val * S| ≤ |a.val| + |x.val| * T := by
      refine (abs_add_le _ _).trans (add_le_add (le_refl _) ?_)
      rw [abs_mul]; exact mul_le_mul_of_nonneg_left hST hx
    have e6 : |x.val * S| ≤ |x.val| * T := by
      rw [abs_mul]; exact mul_le_mul_of_nonneg_left hST hx
    have hl : R.gam (2 * (b :: l).length + 1) = (g * (1 + R.u) + R.u) * (1 + R.u) + R.u := by
      rw [← R.gam_succ, ← R.gam_succ]; rfl
    rw [hl]
    refine e4.trans ?_
    have f1 := mul_le_mul_of_nonneg_left e6 hu
    have f2 := mul_le_mul_of_nonneg_right f1 (zero_le_one.trans R.one_le)
    have f3 := mul_le_mul_of_nonneg_left e5 hu
    have f4 : 0 ≤ ((g * (1 + R.u) + R.u) * (1 + R.u)) * |a.val| := by positivity
    nlinarith

/-- **C88** recursive summation, as in `calc_mean` -/
theorem C88_sum (l : List (Fl R)) : |(Stat.dataSum l).val - (l.map Fl.val).sum| ≤
    ((1 + R.u) ^ l.length - 1) * (l.map fun x => |x.val|).sum := R.foldl_err l

/-- **C88** the mean of `n` numbers: the error is at most `(1 + u)^(n + 2) - 1` times the mean of the absolute values -/
theorem C88_mean (l : List (Fl R)) (hl : l ≠ []) : ∃ m, Stat.calcMean l = some m ∧
    |m.val - (l.map Fl.val).sum / l.length| ≤
      ((1 + R.u) ^ (l.length + 2) - 1) * ((l.map fun x => |x.val|).sum / l.length) := by
  have hn : l.length ≠ 0 := by simpa using hl
  refine ⟨_, by rw [Stat.calcMean, if_neg hn], ?_⟩
  rw [Fl.div_val, Fl.natCast_val]
  have hn' : (l.length : K) ≠ 0 := by exact_mod_cast hn
  have hnp : (0 : K) < l.length := lt_of_le_of_ne (Nat.cast_nonneg _) (Ne.symm hn')
  set n : K := (l.length : K)
  set s := (Stat.dataSum l).val
  set S := (l.map Fl.val).sum
  set T := (l.map fun x => |x.val|).sum
  have hS : |S| ≤ T := by
    have : ∀ l : List (Fl R), |(l.map Fl.val).sum| ≤ (l.map fun x => |x.val|).sum := by
      intro l
      induction l with
      | nil => simp
      | cons a l ih => simp only [List.map_cons, List.sum_cons]; exact (abs_add_le _ _).trans (by linarith)
    exact this l
  have h1 : |s - S| ≤ R.gam l.length * T := C88_sum l
  have hu := R.u_nonneg
  -- the rounded divisor
  set N := R.rnd n
  have hN := R.err' n
  have hN0 : N ≠ 0 := by
    intro h
    have h' : R.rnd n = 0 := h
    rw [h', abs_zero, mul_zero, zero_sub, abs_neg] at hN
    exact hn' (abs_eq_zero.1 (le_antisymm hN (abs_nonneg _)))
  have h2 : |s / N - s / n| ≤ R.u * |s / n| := by
    have e : s / N - s / n = -((N - n) / N * (s / n)) := by field_simp; ring
    rw [e, abs_neg, abs_mul, abs_div]
    refine mul_le_mul_of_nonneg_right ?_ (abs_nonneg _)
    rw [div_le_iff₀ (abs_pos.2 hN0)]
    exact hN
  have h3 : |s / n - S / n| ≤ R.gam l.length * (T / n) := by
    rw [← sub_div, abs_div, abs_of_pos hnp, ← mul_div_assoc]
    exact div_le_div_of_nonneg_right h1 hnp.le
  have hSn : |S / n| ≤ T / n := by
    rw [abs_div, abs_of_pos hnp]; exact div_le_div_of_nonneg_right hS hnp.le
  set g := R.gam l.length
  have hg : 0 ≤ g := R.gam_nonneg _
  have h4 : |s / n| ≤ (1 + g) * (T / n) := by
    have := abs_sub_abs_le_abs_sub (s / n) (S / n)
    linarith
  have h5 : |s / N - S / n| ≤ (g * (1 + R.u) + R.u) * (T / n) := by
    have e : s / N - S / n = (s / N - s / n) + (s / n - S / n) := by ring
    rw [e]
    refine (abs_add_le _ _).trans ?_
    have := mul_le_mul_of_nonneg_left h4 hu
    linarith
  have h6 := R.rnd_near h5
  have h7 := mul_le_mul_of_nonneg_left hSn hu
  have h8 : (1 + R.u) ^ (l.length + 2) - 1 = (g * (1 + R.u) + R.u) * (1 + R.u) + R.u := by
    rw [← R.gam_succ, ← R.gam_succ]; rfl
  rw [h8]
  linarith

end

section Exact
variable {K : Type} [Field K] [LinearOrder K] [IsStrictOrderedRing K] [FloorRing K] {p : ℕ} {hp : 1 ≤ p}

theorem rnd_intCast {n : ℤ} (hn : |n| ≤ 2 ^ p) : (binary K p hp).rnd (n : K) = n := roundBits_intCast hp hn

theorem accum_exact (a b : ℕ → ℤ) (n : ℕ) (hb : ∑ k ∈ range n, |a k * b k| ≤ 2 ^ p)
    (x y : ℕ → Fl (binary K p hp)) (hx : ∀ k, (x k).val = a k) (hy : ∀ k, (y k).val = b k) :
    (Mat.accum (fun k => x k * y k) n).val = ((∑ k ∈ range n, a k * b k : ℤ) : K) := by
  induction n with
  | zero => simp [Mat.accum, Fl.zero_val]
  | succ n ih =>
    rw [sum_range_succ] at hb
    have h0 : (0 : ℤ) ≤ ∑ k ∈ range n, |a k * b k| := sum_nonneg fun _ _ => abs_nonneg _
    rw [Mat.accum, Fl.add_val, ih (by linarith [abs_nonneg (a n * b n)]), Fl.mul_val, hx, hy, ← Int.cast_mul,
      rnd_intCast (by linarith), ← Int.cast_add, ← sum_range_succ, rnd_intCast]
    refine (abs_sum_le_sum_abs _ _).trans ?_
    rw [sum_range_succ]; exact hb

/-- **C88** integer matrices are multiplied exactly as long as the sums of the absolute products have at most `p` bits
    (`p = 53` for `f64`, `p = 24` for `f32`) -/
theorem C88_mul_exact {m n q : Nat} {A B : Mat (Fl (binary K p hp))} {M : Matrix (Fin m) (Fin n) (Fl (binary K p hp))}
    {N : Matrix (Fin n) (Fin q) (Fl (binary K p hp))} (hA : Repr A M) (hB : Repr B N)
    (M' : Matrix (Fin m) (Fin n) ℤ) (N' : Matrix (Fin n) (Fin q) ℤ)
    (hM : ∀ i k, (M i k).val = M' i k) (hN : ∀ k j, (N k j).val = N' k j)
    (hb : ∀ i j, ∑ k, |M' i k * N' k j| ≤ 2 ^ p) :
    ∃ C, ∃ P : Matrix (Fin m) (Fin q) (Fl (binary K p hp)), A.mul B = some C ∧ Repr C P ∧
      ∀ i j, (P i j).val = ((M' * N') i j : ℤ) := by
  obtain ⟨C, h1, h2⟩ := Mat.mul_accum hA.is hB.is
  refine ⟨C, _, h1, h2.repr, ?_⟩
  intro i j
  rw [mx_apply]
  rw [accum_exact (fun k => extM M' i k) (fun k => extM N' k j) n]
  · rw [Matrix.mul_apply, ← Fin.sum_univ_eq_sum_range (fun k => extM M' i k * extM N' k j)]
    simp only [extM_apply]
  · rw [← Fin.sum_univ_eq_sum_range (fun k => |extM M' i k * extM N' k j|)]
    simpa only [extM_apply] using hb i j
  · intro k
    by_cases hk : k < n
    · rw [extM_lt _ i.2 hk, extM_lt _ i.2 hk]; exact hM _ _
    · simp [extM, hk, Fl.zero_val]
  · intro k
    by_cases hk : k < n
    · rw [extM_lt _ hk j.2, extM_lt _ hk j.2]; exact hN _ _
    · simp [extM, hk, Fl.zero_val]

/-- the bound `2^53` cannot be dropped: `(2^53 + 1) · 1` is not representable, `2^52 · 1 + 1 · 1` is -/
example : (Mat.mul (K := Fl f64) ⟨1, 2, [⟨2 ^ 53⟩, ⟨1⟩]⟩ ⟨2, 1, [⟨1⟩, ⟨1⟩]⟩).map (fun C => C.data.map Fl.val) =
      some [2 ^ 53] ∧
    (Mat.mul (K := Fl f64) ⟨1, 2, [⟨2 ^ 52⟩, ⟨1⟩]⟩ ⟨2, 1, [⟨1⟩, ⟨1⟩]⟩).map (fun C => C.data.map Fl.val) =
      some [2 ^ 52 + 1] := by decide +kernel

end Exact

/-- 0.1 as a `f64` -/
example : (f64.rnd (1 / 10)) = 3602879701896397 / 36028797018963968 := by decide +kernel

/-- `0.1 + 0.2` as computed in `f64` is not the `f64` next to `0.3` -/
example : (f64.rnd (f64.rnd (1 / 10) + f64.rnd (2 / 10))) = 5404319552844596 / 2 ^ 54 ∧
    f64.rnd (3 / 10) = 5404319552844595 / 2 ^ 54 := by decide +kernel

/-- a dot product in `f64` with its bound -/
example : ((Mat.dotp (K := Fl f64) ⟨2, 1, [⟨1 / 3⟩, ⟨1 / 7⟩]⟩ ⟨2, 1, [⟨1⟩, ⟨1⟩]⟩).map Fl.val =
    some (4289142502257615 / 2 ^ 53)) ∧
    |(4289142502257615 / 2 ^ 53 : ℚ) - (1 / 3 + 1 / 7)| ≤ ((1 + f64.u) ^ 2 - 1) * (1 / 3 + 1 / 7) := by
  decide +kernel

/-- **C88** (what does not hold): the error of a dot product is not small relative to the exact value.  In `f64` the
    product of `(2^53, 1, -2^53)` with `(1, 1, 1)` is `0`, its exact value is `1`. -/
theorem C88_relative_violated : ∃ v w : Mat (Fl f64), v.dotp w = some 0 ∧ ∃ x y : Fin 3 → Fl f64, ColRepr v x ∧
    ColRepr w y ∧ ∑ i, (x i).val * (y i).val = 1 := by
  exact ⟨⟨3, 1, [⟨2 ^ 53⟩, ⟨1⟩, ⟨-2 ^ 53⟩]⟩, ⟨3, 1, [⟨1⟩, ⟨1⟩, ⟨1⟩]⟩, by decide +kernel,
    ![⟨2 ^ 53⟩, ⟨1⟩, ⟨-2 ^ 53⟩], ![⟨1⟩, ⟨1⟩, ⟨1⟩], rfl, rfl, by decide +kernel⟩

/-- **C88** (what does not hold): the mean need not lie between the smallest and the largest observation.  The mean of
    three equal observations `0.1` is computed in `f64` as a larger number. -/
theorem C88_mean_violated : ∃ (l : List (Fl f64)) (m : Fl f64), Stat.calcMean l = some m ∧ ∀ x ∈ l, x < m :=
  ⟨[⟨f64.rnd (1 / 10)⟩, ⟨f64.rnd (1 / 10)⟩, ⟨f64.rnd (1 / 10)⟩], ⟨7205759403792795 / 2 ^ 56⟩,
    by decide +kernel, by decide +kernel⟩

end Verif
