import Verif.PolyModel
import Mathlib.Algebra.Polynomial.Eval.Defs
import Mathlib.Algebra.Polynomial.Eval.Degree
import Mathlib.Algebra.Polynomial.Derivative
import Mathlib.Algebra.Polynomial.Degree.Lemmas
import Mathlib.Algebra.Polynomial.Roots
import Mathlib.Algebra.Polynomial.BigOperators
import Mathlib.Algebra.BigOperators.Intervals
import Mathlib.Algebra.Order.Field.Basic
import Mathlib.Tactic.Ring
import Mathlib.Tactic.Linarith

/-! # Lemmas about the polynomial model -/

namespace Verif
namespace Poly
open Polynomial Finset
variable {K : Type} [Field K]

/-- Specification: the mathematical polynomial `Σ l_i X^i` of a coefficient list. -/
noncomputable def toPoly (l : List K) : K[X] := ∑ i ∈ range l.length, C (l.getD i 0) * X ^ i

theorem coeff_toPoly (l : List K) (i : Nat) : (toPoly l).coeff i = l.getD i 0 := by
  unfold toPoly
  simp only [finsetSum_coeff, coeff_C_mul, coeff_X_pow, mul_ite, mul_one, mul_zero]
  rw [Finset.sum_ite_eq (range l.length) i]
  by_cases h : i < l.length
  · simp [h]
  · simp [h]

theorem toPoly_ext {l : List K} {p : K[X]} (h : ∀ i, l.getD i 0 = p.coeff i) : toPoly l = p := by
  ext i; rw [coeff_toPoly, h]

theorem list_ext {l l' : List K} (hl : l.length = l'.length) (h : toPoly l = toPoly l') : l = l' := by
  apply List.ext_getElem hl
  intro i h1 h2
  have := congrArg (fun p => p.coeff i) h
  simp only [coeff_toPoly] at this
  simpa [List.getD_eq_getElem?_getD, h1, h2] using this

theorem get_some {l : List K} {i : Nat} (h : i < l.length) : l[i]? = some (l.getD i 0) := by
  simp [List.getD_eq_getElem?_getD, h]

theorem lset_some {l : List K} {i : Nat} (h : i < l.length) (v : K) : lset l i v = some (l.set i v) := by
  simp [lset, h]

theorem getD_set (l : List K) (i j : Nat) (v : K) (h : i < l.length) :
    (l.set i v).getD j 0 = if j = i then v else l.getD j 0 := by
  simp only [List.getD_eq_getElem?_getD, List.getElem?_set]
  by_cases e : i = j
  · subst e; simp [h]
  · have : ¬ j = i := fun h => e h.symm
    simp [e, this]

theorem getD_ge {l : List K} {i : Nat} (h : l.length ≤ i) : l.getD i 0 = 0 := by
  simp [h]

theorem toPoly_set (l : List K) {i : Nat} (v : K) (h : i < l.length) :
    toPoly (l.set i (l.getD i 0 + v)) = toPoly l + C v * X ^ i := by
  apply toPoly_ext
  intro j
  rw [getD_set _ _ _ _ h, coeff_add, coeff_toPoly, coeff_C_mul, coeff_X_pow]
  by_cases e : j = i
  · subst e; simp
  · simp [e]

theorem natDegree_toPoly_lt {l : List K} (h : l ≠ []) : (toPoly l).natDegree < l.length := by
  have hl : 0 < l.length := List.length_pos_iff.2 h
  rw [Nat.lt_iff_le_pred hl, natDegree_le_iff_coeff_eq_zero]
  intro i hi
  rw [coeff_toPoly, getD_ge (by omega)]

theorem eval_eq (p : List K) (x : K) : eval p x = (toPoly p).eval x := by
  unfold eval
  rw [List.foldl_reverse]
  induction p with
  | nil => simp [toPoly]
  | cons a l ih =>
    rw [List.foldr_cons, ih]
    have : toPoly (a :: l) = C a + X * toPoly l := by
      apply toPoly_ext
      intro i
      cases i with
      | zero => simp
      | succ i => simp [coeff_C, coeff_X_mul, coeff_toPoly]
    rw [this]; simp

/-- loop shared by `add` and `sub` -/
theorem zipLoop (op : K → K → K) (p q : List K) :
    ∃ s, forRange 0 (min p.length q.length) (fun (sum : List K) i => do
      let a ← p[i]?
      let b ← q[i]?
      lset sum i (op a b)) (if p.length > q.length then p else q) = some s ∧
      s.length = max p.length q.length ∧
      ∀ i, s.getD i 0 = if i < min p.length q.length then op (p.getD i 0) (q.getD i 0)
        else (if p.length > q.length then p else q).getD i 0 := by
  have hl : (if p.length > q.length then p else q).length = max p.length q.length := by
    split <;> omega
  generalize (if p.length > q.length then p else q) = s0 at hl
  have := forRange_inv (a := 0) (b := min p.length q.length) (s := s0)
    (f := fun (sum : List K) i => do
      let a ← p[i]?
      let b ← q[i]?
      lset sum i (op a b))
    (fun k s => s.length = max p.length q.length ∧
      ∀ i, s.getD i 0 = if i < k then op (p.getD i 0) (q.getD i 0) else s0.getD i 0) (by omega)
    ⟨hl, by simp⟩ (by
      intro i s _ hi ⟨h1, h2⟩
      have hp : i < p.length := by omega
      have hq : i < q.length := by omega
      have hs : i < s.length := by omega
      refine ⟨s.set i (op (p.getD i 0) (q.getD i 0)), ?_, by simp [h1], ?_⟩
      · simp [hp, hq, lset, hs]
      · intro j
        rw [getD_set _ _ _ _ hs]
        by_cases e : j = i
        · subst e
          rw [if_pos rfl, if_pos (by omega)]
        · rw [if_neg e, h2]
          have : j < i ↔ j < i + 1 := by omega
          simp only [this])
  exact this

theorem add_eq {p q : List K} (hp : p ≠ []) :
    ∃ s, add p q = some s ∧ s.length = max p.length q.length ∧
      ∀ i, s.getD i 0 = p.getD i 0 + q.getD i 0 := by
  obtain ⟨s, h1, h2, h3⟩ := zipLoop (· + ·) p q
  have hpl : 0 < p.length := List.length_pos_iff.2 hp
  refine ⟨s, ?_, h2, ?_⟩
  · have : ¬ s.length = 0 := by omega
    simp only [add]
    rw [h1]
    simp [fromCoef]
    intro h; simp [h] at this
  · intro i
    rw [h3]
    split
    · rfl
    · rename_i hi
      by_cases hc : p.length > q.length
      · rw [if_pos hc, getD_ge (l := q) (by omega), add_zero]
      · rw [if_neg hc, getD_ge (l := p) (by omega), zero_add]

theorem sub_eq {p q : List K} (hp : p ≠ []) :
    ∃ s, sub p q = some s ∧ s.length = max p.length q.length ∧
      ∀ i, s.getD i 0 = if i < p.length then p.getD i 0 - q.getD i 0 else q.getD i 0 := by
  obtain ⟨s, h1, h2, h3⟩ := zipLoop (· - ·) p q
  have hpl : 0 < p.length := List.length_pos_iff.2 hp
  refine ⟨s, ?_, h2, ?_⟩
  · have : ¬ s.length = 0 := by omega
    simp only [sub]
    rw [h1]
    simp [fromCoef]
    intro h; simp [h] at this
  · intro i
    rw [h3]
    by_cases hi : i < p.length
    · rw [if_pos hi]
      split
      · rfl
      · rw [if_pos (by omega), getD_ge (l := q) (by omega), sub_zero]
    · rw [if_neg hi, if_neg (by omega)]
      by_cases hc : p.length > q.length
      · rw [if_pos hc, getD_ge (by omega), getD_ge (by omega)]
      · rw [if_neg hc]

theorem mul_eq {p q : List K} (hp : p ≠ []) (hq : q ≠ []) :
    ∃ s, mul p q = some s ∧ s.length = p.length + q.length - 1 ∧
      toPoly s = toPoly p * toPoly q := by
  have hpl : 0 < p.length := List.length_pos_iff.2 hp
  have hql : 0 < q.length := List.length_pos_iff.2 hq
  have key := forRange_inv (a := 0) (b := p.length)
    (s := List.replicate (p.length - 1 + (q.length - 1) + 1) (0 : K))
    (f := fun res i =>
    forRange 0 q.length (fun (res : List K) j => do
      let a ← p[i]?
      let b ← q[j]?
      let x ← res[i + j]?
      lset res (i + j) (x + a * b)) res)
    (fun k s => s.length = p.length + q.length - 1 ∧
      toPoly s = ∑ i ∈ range k, C (p.getD i 0) * X ^ i * toPoly q) (by omega)
    ⟨by simp; omega, by
      apply toPoly_ext; intro i
      simp [List.getD_eq_getElem?_getD, List.getElem?_replicate]
      split <;> rfl⟩ (by
      intro i s _ hi ⟨h1, h2⟩
      have := forRange_inv (a := 0) (b := q.length) (s := s)
        (f := fun (res : List K) j => do
          let a ← p[i]?
          let b ← q[j]?
          let x ← res[i + j]?
          lset res (i + j) (x + a * b))
        (fun k s' => s'.length = p.length + q.length - 1 ∧
          toPoly s' = toPoly s + ∑ j ∈ range k, C (p.getD i 0) * X ^ i * (C (q.getD j 0) * X ^ j))
        (by omega) ⟨h1, by simp⟩ (by
          intro j s' _ hj ⟨h3, h4⟩
          have hij : i + j < s'.length := by omega
          refine ⟨s'.set (i + j) (s'.getD (i + j) 0 + p.getD i 0 * q.getD j 0), ?_, by simp [h3], ?_⟩
          · rw [get_some hi, get_some hj, get_some hij]
            simp [lset, hij]
          · rw [toPoly_set _ _ hij, h4, Finset.sum_range_succ, C_mul, pow_add]
            ring)
      obtain ⟨s', e1, e2, e3⟩ := this
      refine ⟨s', e1, e2, ?_⟩
      rw [e3, h2, Finset.sum_range_succ, ← Finset.mul_sum]
      rfl)
  obtain ⟨s, e1, e2, e3⟩ := key
  refine ⟨s, ?_, e2, ?_⟩
  · have hp0 : ¬ p.length = 0 := by omega
    have hq0 : ¬ q.length = 0 := by omega
    have hs0 : ¬ s.length = 0 := by omega
    simp only [mul, degree, hp0, hq0, if_false]
    simp only [Option.bind_eq_bind, Option.bind_some] at e1 ⊢
    rw [e1]
    simp only [Option.bind_some, fromCoef, hs0, if_false]
  · rw [e3, ← Finset.sum_mul]; rfl

/-- `neg` -/
theorem neg_eq {p : List K} (hp : p ≠ []) :
    ∃ s, neg p = some s ∧ s.length = p.length ∧ toPoly s = - toPoly p := by
  refine ⟨p.map (fun x => -x), ?_, by simp, ?_⟩
  · simp [neg, fromCoef, hp]
  · apply toPoly_ext
    intro i
    rw [coeff_neg, coeff_toPoly]
    by_cases h : i < p.length
    · simp [List.getD_eq_getElem?_getD, h]
    · simp [List.getD_eq_getElem?_getD, Nat.not_lt.1 h]

theorem fromRoot_eq {rs : List K} (h : rs ≠ []) :
    ∃ s, fromRoot rs = some s ∧ s.length = rs.length + 1 ∧
      toPoly s = (rs.map (fun r => X - C r)).prod := by
  have hl : 0 < rs.length := List.length_pos_iff.2 h
  set n := rs.length with hn
  have h0 : toPoly ((List.replicate (n + 1) (0 : K)).set n 1) = X ^ n := by
    apply toPoly_ext
    intro i
    rw [getD_set _ _ _ _ (by simp), coeff_X_pow]
    split
    · rfl
    · simp [List.getD_eq_getElem?_getD, List.getElem?_replicate]
      split <;> rfl
  have key := forRange_inv (a := 1) (b := n + 1)
    (s := (List.replicate (n + 1) (0 : K)).set n 1)
    (f := fun coef i =>
      forRange (n - i) n (fun (coef : List K) j => do
        let c ← coef[j + 1]?
        let r ← rs[i - 1]?
        let x ← coef[j]?
        lset coef j (x + (-1) * r * c)) coef)
    (fun k s => s.length = n + 1 ∧
      toPoly s = X ^ (n + 1 - k) * ((rs.take (k - 1)).map (fun r => X - C r)).prod) (by omega)
    ⟨by simp, by simp [h0]⟩ (by
      intro i s hi1 hi2 ⟨h1, h2⟩
      have hir : i - 1 < rs.length := by omega
      have hdiv : ∀ j, j < n - i → s.getD (j + 1) 0 = 0 := by
        intro j hj
        have := congrArg (fun p => p.coeff (j + 1)) h2
        simp only [coeff_toPoly] at this
        rw [this, coeff_X_pow_mul', if_neg (by omega)]
      have := forRange_inv (a := n - i) (b := n) (s := s)
        (f := fun (coef : List K) j => do
          let c ← coef[j + 1]?
          let r ← rs[i - 1]?
          let x ← coef[j]?
          lset coef j (x + (-1) * r * c))
        (fun k s' => s'.length = n + 1 ∧ ∀ j, s'.getD j 0 =
          if j < k then s.getD j 0 - rs.getD (i - 1) 0 * s.getD (j + 1) 0 else s.getD j 0)
        (by omega) ⟨h1, by
          intro j
          split
          · rename_i hj; rw [hdiv j hj]; simp
          · rfl⟩ (by
          intro j s' hj1 hj2 ⟨h3, h4⟩
          refine ⟨s'.set j (s'.getD j 0 + (-1) * rs.getD (i - 1) 0 * s'.getD (j + 1) 0), ?_,
            by simp [h3], ?_⟩
          · rw [get_some (l := s') (i := j + 1) (by omega), get_some hir,
              get_some (l := s') (i := j) (by omega)]
            simp only [Option.bind_eq_bind, Option.bind_some]
            rw [lset_some (by omega)]
          · intro j'
            rw [getD_set _ _ _ _ (by omega)]
            by_cases e : j' = j
            · subst e
              rw [if_pos rfl, if_pos (by omega), h4, h4, if_neg (by omega), if_neg (by omega)]
              ring
            · rw [if_neg e, h4]
              have : j' < j ↔ j' < j + 1 := by omega
              simp only [this])
      obtain ⟨s', e1, e2, e3⟩ := this
      refine ⟨s', e1, e2, ?_⟩
      have hQ : rs.take (i + 1 - 1) = rs.take (i - 1) ++ [rs.getD (i - 1) 0] := by
        have : i + 1 - 1 = (i - 1) + 1 := by omega
        rw [this, List.take_add_one, get_some hir]
        rfl
      rw [hQ, List.map_append, List.prod_append]
      simp only [List.map_cons, List.map_nil, List.prod_cons, List.prod_nil, mul_one]
      set Q := ((rs.take (i - 1)).map (fun r => (X : K[X]) - C r)).prod
      have hs : toPoly s = X * (X ^ (n - i) * Q) := by
        rw [h2, ← mul_assoc, ← pow_succ']
        congr 2
        omega
      have e4 : ∀ j, s.getD (j + 1) 0 = (X ^ (n - i) * Q).coeff j := by
        intro j
        rw [← coeff_toPoly, hs, coeff_X_mul]
      apply toPoly_ext
      intro j
      have hsj : s.getD j 0 = (X * (X ^ (n - i) * Q)).coeff j := by rw [← hs, coeff_toPoly]
      have e5 : X ^ (n + 1 - (i + 1)) * (Q * (X - C (rs.getD (i - 1) 0))) =
          X * (X ^ (n - i) * Q) - C (rs.getD (i - 1) 0) * (X ^ (n - i) * Q) := by
        rw [show n + 1 - (i + 1) = n - i by omega]; ring
      rw [e5, coeff_sub, coeff_C_mul, ← hsj, ← e4, e3]
      split
      · rfl
      · rename_i hj
        rw [getD_ge (l := s) (i := j + 1) (by omega)]; simp)
  obtain ⟨s, e1, e2, e3⟩ := key
  refine ⟨s, ?_, e2, ?_⟩
  · have hs0 : ¬ s.length = 0 := by omega
    have hr0 : ¬ rs.length = 0 := by omega
    simp only [fromRoot, hr0, if_false]
    rw [lset_some (by simp)]
    simp only [Option.bind_eq_bind, Option.bind_some] at e1 ⊢
    rw [← hn, e1]
    simp only [Option.bind_some, fromCoef, hs0, if_false]
  · rw [e3]
    have : rs.take (n + 1 - 1) = rs := by simp [hn]
    rw [this]; simp

section Order
variable [LinearOrder K]

/-- `reduce_coef` keeps a nonempty prefix; everything it drops is within `eps` of zero and what it keeps ends
    with a coefficient that is not (unless a single coefficient is left). -/
theorem reduceLoop_spec (eps : K) (i : Nat) (coef : List K) (h : coef.length = i + 1) :
    ∃ k, reduceLoop eps i coef = some (coef.take k) ∧ 1 ≤ k ∧ k ≤ coef.length ∧
      (∀ j, k ≤ j → j < coef.length → |coef.getD j 0| ≤ eps) ∧
      (1 < k → eps < |coef.getD (k - 1) 0|) := by
  induction i generalizing coef with
  | zero =>
    refine ⟨1, ?_, le_refl _, by omega, by intro j h1 h2; omega, by omega⟩
    rw [List.take_of_length_le (by omega)]; rfl
  | succ i ih =>
    have hlt : i + 1 < coef.length := by omega
    have hunf : reduceLoop eps (i + 1) coef =
        if |coef.getD (i + 1) 0| ≤ eps then reduceLoop eps i coef.dropLast else some coef := by
      rw [reduceLoop, get_some hlt]; simp only [Option.bind_eq_bind, Option.bind_some, sub_zero]
    rw [hunf]
    by_cases hc : |coef.getD (i + 1) 0| ≤ eps
    · obtain ⟨k, h1, h2, h3, h4, h5⟩ := ih coef.dropLast (by simp [h])
      have hdl : coef.dropLast.length = i + 1 := by simp [h]
      have hg : ∀ j, j < i + 1 → coef.dropLast.getD j 0 = coef.getD j 0 := by
        intro j hj
        have h6 : j < coef.length - 1 := by omega
        have h7 : j < coef.length := by omega
        simp [List.getD_eq_getElem?_getD, h6, h7]
      refine ⟨k, ?_, h2, by omega, ?_, ?_⟩
      · rw [if_pos hc, h1, List.dropLast_eq_take, List.take_take]
        congr 2
        omega
      · intro j h6 h7
        by_cases e : j = i + 1
        · subst e; exact hc
        · rw [← hg j (by omega)]
          exact h4 j h6 (by omega)
      · intro h6
        have := h5 h6
        rwa [hg _ (by omega)] at this
    · refine ⟨coef.length, by rw [if_neg hc]; simp, by omega, le_refl _, by intro j h1 h2; omega, ?_⟩
      intro _
      rw [h]; exact lt_of_not_ge hc

theorem reduce_spec (eps : K) {coef : List K} (h : coef ≠ []) :
    ∃ k, reduce eps coef = some (coef.take k) ∧ 1 ≤ k ∧ k ≤ coef.length ∧
      (∀ j, k ≤ j → j < coef.length → |coef.getD j 0| ≤ eps) ∧
      (1 < k → eps < |coef.getD (k - 1) 0|) := by
  have hl : 0 < coef.length := List.length_pos_iff.2 h
  obtain ⟨k, h1, h2, h3, h4⟩ := reduceLoop_spec eps (coef.length - 1) coef (by omega)
  refine ⟨k, ?_, h2, h3, h4⟩
  have : ¬ (coef.take k).length = 0 := by rw [List.length_take]; omega
  simp only [reduce, reduceCoef, h1, Option.bind_eq_bind, Option.bind_some, fromCoef, this, if_false]

theorem getD_take (l : List K) (k i : Nat) : (l.take k).getD i 0 = if i < k then l.getD i 0 else 0 := by
  simp only [List.getD_eq_getElem?_getD, List.getElem?_take]
  split <;> simp

/-- The long-division loop: exact identity before `reduce_coef`. -/
theorem divLoop_eq {p q : List K} (hq : q ≠ []) (hlen : q.length ≤ p.length)
    (hlead : q.getD (q.length - 1) 0 ≠ 0) :
    ∃ s : List K × List K, forRange 0 (p.length - q.length + 1) (fun (s : List K × List K) t => do
      let i := p.length - q.length - t
      let r ← s.2[q.length - 1 + i]?
      let l ← q[q.length - 1]?
      if l = 0 then none
      else do
        let c := r / l
        let quotient ← lset s.1 i c
        let remainder ← forRange 0 q.length (fun (rem : List K) k => do
          let v ← q[k]?
          let x ← rem[k + i]?
          lset rem (k + i) (x - v * c)) s.2
        some (quotient, remainder)) (List.replicate (p.length - q.length + 1) (0 : K), p) = some s ∧
      s.1.length = p.length - q.length + 1 ∧ s.2.length = p.length ∧
      toPoly p = toPoly q * toPoly s.1 + toPoly s.2 ∧
      ∀ j, q.length - 1 ≤ j → s.2.getD j 0 = 0 := by
  have hql : 0 < q.length := List.length_pos_iff.2 hq
  set N := p.length - q.length with hN
  set d := q.length - 1 with hd
  have := forRange_inv (a := 0) (b := N + 1)
    (s := (List.replicate (N + 1) (0 : K), p))
    (f := fun (s : List K × List K) t => do
      let i := N - t
      let r ← s.2[d + i]?
      let l ← q[d]?
      if l = 0 then none
      else do
        let c := r / l
        let quotient ← lset s.1 i c
        let remainder ← forRange 0 q.length (fun (rem : List K) k => do
          let v ← q[k]?
          let x ← rem[k + i]?
          lset rem (k + i) (x - v * c)) s.2
        some (quotient, remainder))
    (fun t s => s.1.length = N + 1 ∧ s.2.length = p.length ∧
      toPoly p = toPoly q * toPoly s.1 + toPoly s.2 ∧
      (∀ j, j < N + 1 - t → s.1.getD j 0 = 0) ∧
      ∀ j, d + (N + 1 - t) ≤ j → s.2.getD j 0 = 0) (by omega)
    ⟨by simp, rfl, by
      have : toPoly (List.replicate (N + 1) (0 : K)) = 0 := by
        apply toPoly_ext; intro i
        simp [List.getD_eq_getElem?_getD, List.getElem?_replicate]
        split <;> rfl
      simp only [this]; ring,
      by
        intro j _
        simp [List.getD_eq_getElem?_getD, List.getElem?_replicate]
        split <;> rfl,
      by intro j hj; exact getD_ge (by show p.length ≤ j; omega)⟩ (by
      rintro t ⟨quot, rem⟩ _ ht ⟨h1, h2, h3, h4, h5⟩
      simp only at h1 h2 h3 h4 h5
      set i := N - t with hi
      have hdi : d + i < rem.length := by omega
      have hdq : d < q.length := by omega
      set c := rem.getD (d + i) 0 / q.getD d 0 with hc
      have inner := forRange_inv (a := 0) (b := q.length) (s := rem)
        (f := fun (rem : List K) k => do
          let v ← q[k]?
          let x ← rem[k + i]?
          lset rem (k + i) (x - v * c))
        (fun k r => r.length = p.length ∧ ∀ j, r.getD j 0 =
          if i ≤ j ∧ j < i + k then rem.getD j 0 - q.getD (j - i) 0 * c else rem.getD j 0)
        (by omega) ⟨h2, by intro j; rw [if_neg (by omega)]⟩ (by
          intro k r _ hk ⟨e1, e2⟩
          refine ⟨r.set (k + i) (r.getD (k + i) 0 - q.getD k 0 * c), ?_, by simp [e1], ?_⟩
          · rw [get_some hk, get_some (l := r) (i := k + i) (by omega)]
            simp only [Option.bind_eq_bind, Option.bind_some]
            rw [lset_some (by omega)]
          · intro j
            rw [getD_set _ _ _ _ (by omega)]
            by_cases e : j = k + i
            · subst e
              rw [if_pos rfl, if_pos (by omega), e2, if_neg (by omega)]
              congr 3; omega
            · rw [if_neg e, e2]
              have : (i ≤ j ∧ j < i + k) ↔ (i ≤ j ∧ j < i + (k + 1)) := by omega
              simp only [this])
      obtain ⟨r, r1, r2, r3⟩ := inner
      have hr : toPoly r = toPoly rem - C c * X ^ i * toPoly q := by
        apply toPoly_ext
        intro j
        rw [r3, coeff_sub, coeff_toPoly, mul_assoc, coeff_C_mul, coeff_X_pow_mul']
        by_cases hij : i ≤ j
        · rw [if_pos hij, coeff_toPoly]
          split
          · ring
          · rw [getD_ge (l := q) (i := j - i) (by omega)]; ring
        · rw [if_neg hij, if_neg (by omega)]; ring
      have hqt : toPoly (quot.set i c) = toPoly quot + C c * X ^ i := by
        have := toPoly_set quot (i := i) c (by omega)
        rwa [h4 i (by omega), zero_add] at this
      refine ⟨(quot.set i c, r), ?_, by simp [h1], r2, ?_, ?_, ?_⟩
      · simp only
        rw [get_some hdi, get_some hdq]
        simp only [Option.bind_eq_bind, Option.bind_some]
        rw [if_neg hlead, lset_some (by omega)]
        simp only [Option.bind_eq_bind] at r1
        simp only [Option.bind_some]
        rw [← hc, r1]
        rfl
      · simp only
        rw [hqt, hr, h3]; ring
      · intro j hj
        simp only
        rw [getD_set _ _ _ _ (by omega), if_neg (by omega)]
        exact h4 j (by omega)
      · intro j hj
        simp only
        rw [r3]
        split
        · rename_i hij
          by_cases e : j = d + i
          · subst e
            rw [show d + i - i = d by omega, hc]
            rw [mul_div_cancel₀ _ hlead, sub_self]
          · exfalso; omega
        · rename_i hij
          exact h5 j (by omega))
  obtain ⟨s, e1, e2, e3, e4, _, e6⟩ := this
  refine ⟨s, e1, e2, e3, e4, ?_⟩
  intro j hj
  exact e6 j (by omega)

end Order
end Poly
end Verif
