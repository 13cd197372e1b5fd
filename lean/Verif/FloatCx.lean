import Verif.ComplexModel
import Verif.PolyModel
import Verif.FloatLemmas
import Mathlib.Data.Rat.Floor

/-!
# C103: complex numbers and products of polynomials with rounding

`/repo/src/num/complex.rs:451-591` and `/repo/src/algebra/abstr/polynomial.rs:498-516` run on the numbers `Fl R` with rounded
operations.
-/

set_option linter.unusedSectionVars false

namespace Verif
open Finset

section
variable {K : Type} [Field K] [LinearOrder K] [IsStrictOrderedRing K] {R : Rounding K}

/-! ### Complex numbers -/

/-- two products and a sum or a difference -/
theorem two_products (x y s : K) (hs : s = 1 ∨ s = -1) :
    |R.rnd (R.rnd x + s * R.rnd y) - (x + s * y)| ≤ R.gam 2 * (|x| + |y|) := by
  have hs1 : |s| = 1 := by rcases hs with rfl | rfl <;> simp
  have h1 : |R.rnd x + s * R.rnd y - (x + s * y)| ≤ R.u * (|x| + |y|) := by
    have : R.rnd x + s * R.rnd y - (x + s * y) = (R.rnd x - x) + s * (R.rnd y - y) := by ring
    rw [this, mul_add]
    refine (abs_add_le _ _).trans (add_le_add (R.err x) ?_)
    rw [abs_mul, hs1, one_mul]
    exact R.err y
  have h2 := R.rnd_near h1
  have h3 : |x + s * y| ≤ |x| + |y| := by
    refine (abs_add_le _ _).trans ?_
    rw [abs_mul, hs1, one_mul]
  have h4 := mul_le_mul_of_nonneg_left h3 R.u_nonneg
  rw [Rounding.gam]
  linarith

theorem two_products_sub (x y : K) : |R.rnd (R.rnd x - R.rnd y) - (x - y)| ≤ R.gam 2 * (|x| + |y|) := by
  have := two_products (R := R) x y (-1) (Or.inr rfl)
  simpa only [neg_one_mul, ← sub_eq_add_neg] using this

theorem two_products_add (x y : K) : |R.rnd (R.rnd x + R.rnd y) - (x + y)| ≤ R.gam 2 * (|x| + |y|) := by
  have := two_products (R := R) x y 1 (Or.inl rfl)
  simpa only [one_mul] using this

/-- from bounds of the components to a bound of the absolute value -/
theorem cx_bound {a b c d e f g : K} (hg : 0 ≤ g) (he : |e| ≤ g * (|a * c| + |b * d|)) (hf : |f| ≤ g * (|b * c| + |a * d|)) :
    e ^ 2 + f ^ 2 ≤ 2 * g ^ 2 * ((a ^ 2 + b ^ 2) * (c ^ 2 + d ^ 2)) := by
  have h1 : e ^ 2 ≤ g ^ 2 * (|a * c| + |b * d|) ^ 2 := by
    rw [← sq_abs, ← mul_pow]; exact pow_le_pow_left₀ (abs_nonneg _) he 2
  have h2 : f ^ 2 ≤ g ^ 2 * (|b * c| + |a * d|) ^ 2 := by
    rw [← sq_abs, ← mul_pow]; exact pow_le_pow_left₀ (abs_nonneg _) hf 2
  have h3 : (|a * c| + |b * d|) ^ 2 ≤ 2 * ((a * c) ^ 2 + (b * d) ^ 2) := by
    rw [← sq_abs (a * c), ← sq_abs (b * d)]
    nlinarith [sq_nonneg (|a * c| - |b * d|)]
  have h4 : (|b * c| + |a * d|) ^ 2 ≤ 2 * ((b * c) ^ 2 + (a * d) ^ 2) := by
    rw [← sq_abs (b * c), ← sq_abs (a * d)]
    nlinarith [sq_nonneg (|b * c| - |a * d|)]
  have h5 := mul_le_mul_of_nonneg_left h3 (sq_nonneg g)
  have h6 := mul_le_mul_of_nonneg_left h4 (sq_nonneg g)
  nlinarith

/-- **C103**, addition and subtraction of complex numbers: the error is at most `u` times the absolute value of the exact
result. -/
theorem C103_add_sub (a b : Cx (Fl R)) :
    ((a.add b).re.val - (a.re.val + b.re.val)) ^ 2 + ((a.add b).im.val - (a.im.val + b.im.val)) ^ 2 ≤
      R.u ^ 2 * ((a.re.val + b.re.val) ^ 2 + (a.im.val + b.im.val) ^ 2) ∧
    ((a.sub b).re.val - (a.re.val - b.re.val)) ^ 2 + ((a.sub b).im.val - (a.im.val - b.im.val)) ^ 2 ≤
      R.u ^ 2 * ((a.re.val - b.re.val) ^ 2 + (a.im.val - b.im.val) ^ 2) := by
  have key : ∀ x : K, (R.rnd x - x) ^ 2 ≤ R.u ^ 2 * x ^ 2 := fun x => by
    rw [← sq_abs, ← sq_abs x, ← mul_pow]
    exact pow_le_pow_left₀ (abs_nonneg _) (R.err x) 2
  rw [mul_add, mul_add]
  exact ⟨add_le_add (key _) (key _), add_le_add (key _) (key _)⟩

/-- **C103**, product of complex numbers: the error is at most `√2 ((1+u)² - 1)` times the absolute value of the exact
product (stated with squares). -/
theorem C103_mul (a b : Cx (Fl R)) :
    ((a.mul b).re.val - (a.re.val * b.re.val - a.im.val * b.im.val)) ^ 2 +
      ((a.mul b).im.val - (a.im.val * b.re.val + a.re.val * b.im.val)) ^ 2 ≤
    2 * ((1 + R.u) ^ 2 - 1) ^ 2 * ((a.re.val ^ 2 + a.im.val ^ 2) * (b.re.val ^ 2 + b.im.val ^ 2)) :=
  cx_bound (R.gam_nonneg 2) (two_products_sub _ _) (two_products_add _ _)

/-- **C103**: the rounded product is commutative, and `operate` is the same product. -/
theorem C103_mul_comm (a b : Cx (Fl R)) : a.mul b = b.mul a ∧ a.operate b = a.mul b := by
  have hm : ∀ x y : Fl R, x * y = y * x := fun x y => Fl.ext (by rw [Fl.mul_val, Fl.mul_val, mul_comm])
  have ha : ∀ x y : Fl R, x + y = y + x := fun x y => Fl.ext (by rw [Fl.add_val, Fl.add_val, add_comm])
  constructor
  · simp only [Cx.mul, hm b.re, hm b.im]
    rw [ha (a.im * b.re)]
  · simp only [Cx.mul, Cx.operate]
    rw [ha (a.im * b.re)]

/-- a quotient of a sum of two products by a sum of two squares -/
theorem cx_quot {q e S D D' : K} (hD : 0 < D) (hDD : |D' - D| ≤ R.gam 2 * D') (hq : |q - e| ≤ R.gam 2 * S) (he : |e| ≤ S) :
    0 < D' ∧ |R.rnd (q / D') - e / D| ≤ R.gam 5 * (S / D) := by
  have hS : 0 ≤ S := (abs_nonneg _).trans he
  have hg := R.gam_nonneg 2
  have hD' : 0 < D' := by
    by_contra h
    push Not at h
    have h1 := abs_nonneg (D' - D)
    have h2 := mul_nonpos_of_nonneg_of_nonpos hg h
    have h3 : |D' - D| = 0 := le_antisymm (hDD.trans h2) h1
    have := sub_eq_zero.1 (abs_eq_zero.1 h3)
    linarith
  refine ⟨hD', ?_⟩
  have hle : D ≤ (1 + R.u) ^ 2 * D' := by
    have := (abs_le.1 hDD).1
    rw [Rounding.gam] at this
    linarith
  have hinv : 1 / D' ≤ (1 + R.u) ^ 2 / D := by
    rw [div_le_div_iff₀ hD' hD]
    linarith
  have h1 : |q / D' - e / D| ≤ R.gam 4 * (S / D) := by
    have e1 : q / D' - e / D = (q - e) * (1 / D') - e * ((D' - D) / (D' * D)) := by
      field_simp
      ring
    rw [e1]
    refine (abs_sub _ _).trans ?_
    rw [abs_mul, abs_mul, abs_of_pos (one_div_pos.2 hD'), abs_div, abs_of_pos (mul_pos hD' hD)]
    have h2 : |q - e| * (1 / D') ≤ (R.gam 2 * S) * ((1 + R.u) ^ 2 / D) :=
      mul_le_mul hq hinv (by positivity) (mul_nonneg hg hS)
    have h3 : |e| * (|D' - D| / (D' * D)) ≤ S * (R.gam 2 / D) := by
      refine mul_le_mul he ?_ (by positivity) hS
      rw [div_le_div_iff₀ (mul_pos hD' hD) hD]
      have := mul_le_mul_of_nonneg_right hDD hD.le
      linarith
    refine (add_le_add h2 h3).trans (le_of_eq ?_)
    rw [Rounding.gam, Rounding.gam]
    field_simp
    ring
  have h2 := R.rnd_near h1
  have h3 : |e / D| ≤ S / D := by
    rw [abs_div, abs_of_pos hD]
    exact div_le_div_of_nonneg_right he hD.le
  have h4 := mul_le_mul_of_nonneg_left h3 R.u_nonneg
  have e5 : R.gam 5 = R.gam 4 * (1 + R.u) + R.u := R.gam_succ 4
  rw [e5]
  linarith

/-- the sum of two rounded squares, relative to itself -/
theorem sum_squares (c d : K) : |R.rnd (R.rnd (c * c) + R.rnd (d * d)) - (c * c + d * d)| ≤
    R.gam 2 * R.rnd (R.rnd (c * c) + R.rnd (d * d)) ∨ 1 ≤ R.u := by
  by_cases hu : 1 ≤ R.u
  · exact Or.inr hu
  push Not at hu
  left
  have hn : ∀ x : K, 0 ≤ x → 0 ≤ R.rnd x := fun x hx => by
    have h := (abs_le.1 (R.err x)).1
    rw [abs_of_nonneg hx] at h
    have := mul_le_mul_of_nonneg_right hu.le hx
    linarith
  have hc := hn _ (mul_self_nonneg c)
  have hd := hn _ (mul_self_nonneg d)
  set x := R.rnd (c * c)
  set y := R.rnd (d * d)
  set w := R.rnd (x + y)
  have hw := hn _ (add_nonneg hc hd)
  have h1 : |w - (x + y)| ≤ R.u * |w| := R.err' _
  have h2 : |x - c * c| ≤ R.u * |x| := R.err' _
  have h3 : |y - d * d| ≤ R.u * |y| := R.err' _
  rw [abs_of_nonneg hw] at h1
  rw [abs_of_nonneg hc] at h2
  rw [abs_of_nonneg hd] at h3
  have h4 : x + y ≤ (1 + R.u) * w := by
    have := (abs_le.1 h1).1
    linarith
  have e : w - (c * c + d * d) = (w - (x + y)) + ((x - c * c) + (y - d * d)) := by ring
  rw [e]
  refine (abs_add_le _ _).trans ((add_le_add h1 ((abs_add_le _ _).trans (add_le_add h2 h3))).trans ?_)
  have := mul_le_mul_of_nonneg_left h4 R.u_nonneg
  rw [Rounding.gam]
  linarith

/-- **C103**, quotient of complex numbers: `div` panics exactly for the divisor 0; otherwise the error is at most
`√2 ((1+u)⁵ - 1)` times the absolute value of the exact quotient `a b̄ / |b|²` (stated with squares).  Overflow and underflow
are not part of the arithmetic, see `C103_div_violated`. -/
theorem C103_div (hu : R.u < 1) (a b : Cx (Fl R)) {c d D : K} (hc : c = b.re.val) (hd : d = b.im.val)
    (hD : D = c ^ 2 + d ^ 2) :
    (a.div b = none ↔ D = 0) ∧
    (D ≠ 0 → ∃ q, a.div b = some q ∧
      (q.re.val - (a.re.val * c + a.im.val * d) / D) ^ 2 + (q.im.val - (a.im.val * c - a.re.val * d) / D) ^ 2 ≤
        2 * ((1 + R.u) ^ 5 - 1) ^ 2 * ((a.re.val ^ 2 + a.im.val ^ 2) / D)) := by
  subst hc hd
  set c := b.re.val
  set d := b.im.val
  have hsq := (sum_squares (R := R) c d).resolve_right (not_le.2 hu)
  set D' := R.rnd (R.rnd (c * c) + R.rnd (d * d)) with hD'
  have hDv : (b.re * b.re + b.im * b.im).val = D' := rfl
  have hDe : c * c + d * d = D := by rw [hD]; ring
  rw [hDe] at hsq
  have main : D ≠ 0 → ∃ q, a.div b = some q ∧
      (q.re.val - (a.re.val * c + a.im.val * d) / D) ^ 2 + (q.im.val - (a.im.val * c - a.re.val * d) / D) ^ 2 ≤
        2 * ((1 + R.u) ^ 5 - 1) ^ 2 * ((a.re.val ^ 2 + a.im.val ^ 2) / D) := by
    intro hD0
    have hDpos : 0 < D := lt_of_le_of_ne (by rw [hD]; positivity) (Ne.symm hD0)
    have r1 := two_products_sub (R := R) (a.re.val * c) (a.im.val * -d)
    have r2 := two_products_add (R := R) (a.im.val * c) (a.re.val * -d)
    have b1 : |a.re.val * c - a.im.val * -d| ≤ |a.re.val * c| + |a.im.val * -d| := abs_sub _ _
    have b2 : |a.im.val * c + a.re.val * -d| ≤ |a.im.val * c| + |a.re.val * -d| := abs_add_le _ _
    obtain ⟨p1, q1⟩ := cx_quot hDpos hsq r1 b1
    obtain ⟨-, q2⟩ := cx_quot hDpos hsq r2 b2
    refine ⟨⟨(a.mul ⟨b.re, -b.im⟩).re / (b.re * b.re + b.im * b.im),
      (a.mul ⟨b.re, -b.im⟩).im / (b.re * b.re + b.im * b.im)⟩, ?_, ?_⟩
    · rw [Cx.div]
      simp only
      rw [if_neg]
      intro h
      rw [Fl.eq_zero_iff, hDv] at h
      exact p1.ne' h
    · have h := cx_bound (a := a.re.val) (b := a.im.val) (c := c / D) (d := -d / D) (R.gam_nonneg 5)
        (e := R.rnd (R.rnd (R.rnd (a.re.val * c) - R.rnd (a.im.val * -d)) / D') - (a.re.val * c - a.im.val * -d) / D)
        (f := R.rnd (R.rnd (R.rnd (a.im.val * c) + R.rnd (a.re.val * -d)) / D') - (a.im.val * c + a.re.val * -d) / D)
        (q1.trans (le_of_eq (by
          rw [add_div, ← mul_div_assoc, ← mul_div_assoc, abs_div, abs_div, abs_of_pos hDpos])))
        (q2.trans (le_of_eq (by
          rw [add_div, ← mul_div_assoc, ← mul_div_assoc, abs_div, abs_div, abs_of_pos hDpos])))
      have e1 : (c / D) ^ 2 + (-d / D) ^ 2 = 1 / D := by
        rw [div_pow, div_pow, ← add_div, neg_sq, ← hD]
        field_simp
      rw [e1, mul_one_div] at h
      have e2 : a.re.val * c - a.im.val * -d = a.re.val * c + a.im.val * d := by ring
      have e3 : a.im.val * c + a.re.val * -d = a.im.val * c - a.re.val * d := by ring
      rw [← e2, ← e3]
      exact h
  refine ⟨⟨fun h => ?_, fun h => ?_⟩, main⟩
  · by_contra h0
    obtain ⟨q, h1, -⟩ := main h0
    rw [h1] at h
    exact absurd h (by simp)
  · have hz : D' = 0 := by
      rw [hD] at h
      have hc0 : c = 0 := by nlinarith [sq_nonneg c, sq_nonneg d]
      have hd0 : d = 0 := by nlinarith [sq_nonneg c, sq_nonneg d]
      rw [hD', hc0, hd0, mul_zero, R.rnd_zero, add_zero, R.rnd_zero]
    rw [Cx.div]
    simp only
    rw [if_pos]
    rw [Fl.eq_zero_iff, hDv]
    exact hz

/-! ### Products of polynomials -/

/-- one more rounded product is added to a sum -/
theorem add_product {s p S T : K} {n : ℕ} (h0 : n = 0 → s = 0 ∧ S = 0 ∧ T = 0) (hT : |S| ≤ T) (h : |s - S| ≤ R.gam n * T) :
    |R.rnd (s + R.rnd p) - (S + p)| ≤ R.gam (n + 1) * (T + |p|) := by
  by_cases hn : n = 0
  · obtain ⟨rfl, rfl, rfl⟩ := h0 hn
    subst hn
    simp only [zero_add, R.idem, R.gam_one]
    exact R.err p
  have h1 : |s + R.rnd p - (S + p)| ≤ R.gam n * T + R.u * |p| := by
    have : s + R.rnd p - (S + p) = (s - S) + (R.rnd p - p) := by ring
    rw [this]
    exact (abs_add_le _ _).trans (add_le_add h (R.err p))
  have h2 := R.rnd_near h1
  have h3 : |S + p| ≤ T + |p| := (abs_add_le _ _).trans (by linarith)
  have h4 := mul_le_mul_of_nonneg_left h3 R.u_nonneg
  have h5 : R.gam 1 ≤ R.gam n := R.gam_mono (by omega)
  rw [R.gam_one] at h5
  have h6 := mul_le_mul_of_nonneg_right h5 (mul_nonneg (abs_nonneg p) (zero_le_one.trans R.one_le))
  rw [R.gam_succ]
  nlinarith

/-- the sum of the first `i` terms of coefficient `k` of a product -/
def pconv (p q : ℕ → K) (i k : ℕ) : K := ∑ t ∈ range i, if t ≤ k then p t * q (k - t) else 0

theorem pconv_abs (p q : ℕ → K) (i k : ℕ) : |pconv p q i k| ≤ pconv (fun t => |p t|) (fun t => |q t|) i k := by
  refine (abs_sum_le_sum_abs _ _).trans (sum_le_sum fun t _ => ?_)
  split_ifs
  · exact (abs_mul _ _).le
  · exact abs_zero.le

theorem pconv_nonneg {p q : ℕ → K} (hp : ∀ t, 0 ≤ p t) (hq : ∀ t, 0 ≤ q t) (i k : ℕ) : 0 ≤ pconv p q i k :=
  sum_nonneg fun t _ => by split_ifs; exacts [mul_nonneg (hp _) (hq _), le_rfl]

/-- **C103**, product of polynomials: every coefficient differs from the coefficient `Σ p_t q_(k-t)` of the exact product by
at most `((1+u)^n - 1) Σ |p_t| |q_(k-t)|`, where `n` is the number of coefficients of `p`. -/
theorem C103_poly_mul (p q : List (Fl R)) (hp : p ≠ []) (hq : q ≠ []) :
    ∃ r, Poly.mul p q = some r ∧ r.length = p.length + q.length - 1 ∧ ∀ k, k < r.length →
      |(r.getD k 0).val - ∑ t ∈ range p.length, if t ≤ k then (p.getD t 0).val * (q.getD (k - t) 0).val else 0| ≤
        ((1 + R.u) ^ p.length - 1) *
          ∑ t ∈ range p.length, if t ≤ k then |(p.getD t 0).val| * |(q.getD (k - t) 0).val| else 0 := by
  have lp : p.length ≠ 0 := by simpa using hp
  have lq : q.length ≠ 0 := by simpa using hq
  set P : ℕ → K := fun t => (p.getD t 0).val with hP
  set Q : ℕ → K := fun t => (q.getD t 0).val with hQ
  set N := p.length + q.length - 1 with hN
  let S := fun i k => pconv P Q i k
  let T := fun i k => pconv (fun t => |P t|) (fun t => |Q t|) i k
  have hS0 : ∀ k, S 0 k = 0 := fun k => by simp [S, pconv]
  have hT0 : ∀ k, T 0 k = 0 := fun k => by simp [T, pconv]
  have hSs : ∀ i k, S (i + 1) k = S i k + if i ≤ k then P i * Q (k - i) else 0 := fun i k => by
    simp only [S, pconv, sum_range_succ]
  have hTs : ∀ i k, T (i + 1) k = T i k + if i ≤ k then |P i| * |Q (k - i)| else 0 := fun i k => by
    simp only [T, pconv, sum_range_succ]
  have hTn : ∀ i k, 0 ≤ T i k := fun i k => pconv_nonneg (fun _ => abs_nonneg _) (fun _ => abs_nonneg _) i k
  -- coefficient `k` after `i` rows
  let Good : ℕ → Fl R → ℕ → Prop := fun i v k => (i = 0 → v = 0) ∧ |v.val - S i k| ≤ R.gam i * T i k
  obtain ⟨r, hr, hlen, hgood⟩ := forRange_inv (a := 0) (b := p.length) (s := List.replicate N (0 : Fl R))
    (f := fun res i => forRange 0 q.length (fun (res : List (Fl R)) j => do
      let a ← p[i]?
      let b ← q[j]?
      let x ← res[i + j]?
      Poly.lset res (i + j) (x + a * b)) res)
    (fun i res => res.length = N ∧ ∀ k, k < N → Good i (res.getD k 0) k) (Nat.zero_le _)
    ⟨by simp, fun k hk => ⟨fun _ => by
      simp [List.getD_eq_getElem?_getD, List.getElem?_replicate, hk], by
      rw [hS0, hT0]
      simp [List.getD_eq_getElem?_getD, List.getElem?_replicate, hk, Fl.zero_val]⟩⟩ (by
    intro i res _ hi ⟨hl, hg⟩
    obtain ⟨res', h1, h2, h3⟩ := forRange_inv (a := 0) (b := q.length) (s := res)
      (f := fun (res : List (Fl R)) j => do
        let a ← p[i]?
        let b ← q[j]?
        let x ← res[i + j]?
        Poly.lset res (i + j) (x + a * b))
      (fun j res => res.length = N ∧ ∀ k, k < N →
        (i ≤ k ∧ k < i + j → Good (i + 1) (res.getD k 0) k) ∧ (¬ (i ≤ k ∧ k < i + j) → Good i (res.getD k 0) k))
      (Nat.zero_le _) ⟨hl, fun k hk => ⟨fun h => by omega, fun _ => hg k hk⟩⟩ (by
      intro j w _ hj ⟨hwl, hw⟩
      have hk : i + j < N := by omega
      have e1 : p[i]? = some (p.getD i 0) := by
        rw [List.getD_eq_getElem?_getD, List.getElem?_eq_getElem hi]; rfl
      have e2 : q[j]? = some (q.getD j 0) := by
        rw [List.getD_eq_getElem?_getD, List.getElem?_eq_getElem hj]; rfl
      have e3 : w[i + j]? = some (w.getD (i + j) 0) := by
        rw [List.getD_eq_getElem?_getD, List.getElem?_eq_getElem (by omega)]; rfl
      refine ⟨w.set (i + j) (w.getD (i + j) 0 + p.getD i 0 * q.getD j 0), ?_, by simpa using hwl, ?_⟩
      · simp only [e1, e2, e3, Option.bind_eq_bind, Option.bind_some, Poly.lset]
        rw [if_pos (by omega)]
      · intro k hkN
        by_cases ek : k = i + j
        · subst ek
          have hget : (w.set (i + j) (w.getD (i + j) 0 + p.getD i 0 * q.getD j 0)).getD (i + j) 0 =
              w.getD (i + j) 0 + p.getD i 0 * q.getD j 0 := by
            rw [List.getD_eq_getElem?_getD, List.getElem?_set_self (by omega)]; rfl
          rw [hget]
          refine ⟨fun _ => ⟨fun h => by omega, ?_⟩, fun h => absurd ⟨by omega, by omega⟩ h⟩
          obtain ⟨g1, g2⟩ := (hw (i + j) hkN).2 (by omega)
          have := add_product (R := R) (p := P i * Q j) (fun h => by
            subst h
            exact ⟨by rw [g1 rfl, Fl.zero_val], hS0 _, hT0 _⟩) (pconv_abs P Q i (i + j)) g2
          rw [hSs, hTs, if_pos (by omega), if_pos (by omega), show i + j - i = j by omega, ← abs_mul]
          exact this
        · have hget : (w.set (i + j) (w.getD (i + j) 0 + p.getD i 0 * q.getD j 0)).getD k 0 = w.getD k 0 := by
            rw [List.getD_eq_getElem?_getD, List.getElem?_set_ne (by omega), ← List.getD_eq_getElem?_getD]
          rw [hget]
          exact ⟨fun h => (hw k hkN).1 (by omega), fun h => (hw k hkN).2 (by omega)⟩)
    refine ⟨res', h1, h2, fun k hk => ?_⟩
    by_cases hik : i ≤ k ∧ k < i + q.length
    · exact (h3 k hk).1 hik
    · obtain ⟨g1, g2⟩ := (h3 k hk).2 hik
      refine ⟨fun h => by omega, ?_⟩
      have hz : i ≤ k → Q (k - i) = 0 := fun h => by
        simp only [hQ]
        rw [List.getD_eq_getElem?_getD, List.getElem?_eq_none (by omega)]
        rfl
      have e1 : S (i + 1) k = S i k := by
        rw [hSs]
        split_ifs with h
        · rw [hz h]; ring
        · ring
      have e2 : T (i + 1) k = T i k := by
        rw [hTs]
        split_ifs with h
        · rw [hz h, abs_zero]; ring
        · ring
      rw [e1, e2]
      exact g2.trans (mul_le_mul_of_nonneg_right (R.gam_mono (by omega)) (hTn i k)))
  refine ⟨r, ?_, hlen, fun k hk => (hgood k (by omega)).2⟩
  have eN : p.length - 1 + (q.length - 1) + 1 = N := by omega
  simp only [Poly.mul, Poly.degree, if_neg lp, if_neg lq, Option.bind_eq_bind, Option.bind_some, eN]
  simp only [Option.bind_eq_bind] at hr
  rw [hr]
  simp only [Option.bind_some, Poly.fromCoef]
  rw [if_neg (by omega)]

end

/-! ### Examples and what does not hold -/

/-- `(1/3 + i/7) (3 + 7 i)` in `f64`: the real part is 0 exactly, and computed as 0 -/
example : (Cx.mul (K := Fl f64) ⟨⟨f64.rnd (1 / 3)⟩, ⟨f64.rnd (1 / 7)⟩⟩ ⟨⟨3⟩, ⟨7⟩⟩).re.val = 0 := by decide +kernel

/-- `1 / (3 + 4 i) = 0.12 - 0.16 i` in `f64` -/
example : (Cx.div (K := Fl f64) ⟨⟨1⟩, ⟨0⟩⟩ ⟨⟨3⟩, ⟨4⟩⟩).map (fun q => (q.re.val, q.im.val)) =
    some (f64.rnd (12 / 100), -f64.rnd (16 / 100)) := by decide +kernel

/-- `(1/3 + x) (3 - x)` in `f64` -/
example : (Poly.mul (K := Fl f64) [⟨f64.rnd (1 / 3)⟩, ⟨1⟩] [⟨3⟩, ⟨-1⟩]).map (fun l => l.map Fl.val) =
    some [1, f64.rnd (8 / 3), -1] := by decide +kernel

/-- **C103** (what does not hold): the single components of a product are not accurate.  In `f64` the product of
`(1 + 2⁻⁵²) + i` and `(1 + 2⁻⁵²) + (1 + 2⁻⁵¹) i` has the real part `2⁻¹⁰⁴`, the computed one is 0. -/
theorem C103_component_limit : ∃ a b : Cx (Fl f64), (a.mul b).re.val = 0 ∧
    a.re.val * b.re.val - a.im.val * b.im.val ≠ 0 :=
  ⟨⟨⟨1 + 1 / 2 ^ 52⟩, ⟨1⟩⟩, ⟨⟨1 + 1 / 2 ^ 52⟩, ⟨1 + 1 / 2 ^ 51⟩⟩, by decide +kernel, by decide +kernel⟩

/-- **C103** (what does not hold): the rounded product is not associative. -/
theorem C103_assoc_limit : ∃ a b c : Cx (Fl f64), (a.mul b).mul c ≠ a.mul (b.mul c) :=
  ⟨⟨⟨f64.rnd (1 / 10)⟩, ⟨0⟩⟩, ⟨⟨f64.rnd (2 / 10)⟩, ⟨0⟩⟩, ⟨⟨f64.rnd (3 / 10)⟩, ⟨0⟩⟩, by decide +kernel⟩

/-- numbers of `f64` with the smallest exponent `-1022` and subnormal numbers, the multiples of `2⁻¹⁰⁷⁴`; there is still no
overflow -/
structure F64 where
  /-- the number -/
  val : ℚ
deriving DecidableEq

/-- rounding to nearest with gradual underflow -/
def F64.rnd (x : ℚ) : ℚ := if |x| < 1 / 2 ^ 1022 then nearestEven (x * 2 ^ 1074) / 2 ^ 1074 else f64.rnd x

instance : Zero F64 := ⟨⟨0⟩⟩
instance : One F64 := ⟨⟨1⟩⟩
instance : Neg F64 := ⟨fun x => ⟨-x.val⟩⟩
instance : Add F64 := ⟨fun x y => ⟨F64.rnd (x.val + y.val)⟩⟩
instance : Sub F64 := ⟨fun x y => ⟨F64.rnd (x.val - y.val)⟩⟩
instance : Mul F64 := ⟨fun x y => ⟨F64.rnd (x.val * y.val)⟩⟩
instance : Div F64 := ⟨fun x y => ⟨F64.rnd (x.val / y.val)⟩⟩

/-- **C103** is violated by underflow: `div` squares the components of the divisor.  With the divisor `2⁻⁵⁴⁰` (about
`2.8e-163`), a normal number of `f64`, the sum of squares underflows to 0 and the division panics, although the quotient
`2⁵⁴⁰` of 1 by it is a `f64`. -/
theorem C103_div_violated : Cx.div (K := F64) ⟨⟨1⟩, ⟨0⟩⟩ ⟨⟨1 / 2 ^ 540⟩, ⟨0⟩⟩ = none ∧
    F64.rnd (1 / 2 ^ 540) = 1 / 2 ^ 540 ∧ F64.rnd (2 ^ 540) = 2 ^ 540 := by
  decide +kernel

end Verif
