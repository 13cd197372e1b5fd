import Verif.PolyLemmas
import Mathlib.Algebra.Polynomial.RingDivision
import Mathlib.Algebra.Order.Ring.Rat
import Mathlib.Algebra.Order.Ring.Abs
import Mathlib.Data.Rat.Cast.Order
import Mathlib.Tactic.LinearCombination
import Mathlib.Tactic.FieldSimp

/-!
# Properties of polynomials: C26 to C32

`toPoly l` (from `PolyLemmas`) is the Mathlib polynomial `Σ l_i X^i`; all statements are about it.
-/

namespace Verif
open Poly Polynomial
variable {K : Type} [Field K]

/-! ## C26 evaluation -/

/-- Horner's rule computes the sum of `coef_i x^i`. -/
theorem C26_eval (p : List K) (x : K) : eval p x = ∑ i ∈ Finset.range p.length, p.getD i 0 * x ^ i := by
  rw [eval_eq, toPoly, eval_finset_sum]
  simp

/-- The same against Mathlib's evaluation. -/
theorem C26_eval_toPoly (p : List K) (x : K) : eval p x = (toPoly p).eval x := eval_eq p x

/-- `from_coef` keeps the coefficients and panics exactly on the empty vector. -/
theorem C26_from_coef (c : List K) :
    (c = [] → fromCoef c = none) ∧ (c ≠ [] → fromCoef c = some c ∧ Poly.degree c = some (c.length - 1)) := by
  constructor
  · rintro rfl; rfl
  · intro h; simp [fromCoef, Poly.degree, h]

example : eval ([1, -2, 3] : List ℚ) 2 = 9 := by decide +kernel

/-! ## C27 addition and negation -/

/-- The coefficients of the sum are the sums of the coefficients. -/
theorem C27_add_coeff {p q : List K} (hp : p ≠ []) :
    ∃ s, add p q = some s ∧ s.length = max p.length q.length ∧
      ∀ i, s.getD i 0 = p.getD i 0 + q.getD i 0 := add_eq hp

theorem C27_add_eval {p q : List K} (hp : p ≠ []) :
    ∃ s, add p q = some s ∧ toPoly s = toPoly p + toPoly q ∧ ∀ x, eval s x = eval p x + eval q x := by
  obtain ⟨s, h1, _, h3⟩ := add_eq (q := q) hp
  have h : toPoly s = toPoly p + toPoly q := by
    apply toPoly_ext; intro i; rw [h3, coeff_add, coeff_toPoly, coeff_toPoly]
  refine ⟨s, h1, h, fun x => ?_⟩
  rw [eval_eq, eval_eq, eval_eq, h, eval_add]

theorem C27_neg {p : List K} (hp : p ≠ []) :
    ∃ s, neg p = some s ∧ toPoly s = - toPoly p ∧ ∀ x, eval s x = - eval p x := by
  obtain ⟨s, h1, _, h3⟩ := neg_eq hp
  exact ⟨s, h1, h3, fun x => by rw [eval_eq, eval_eq, h3, eval_neg]⟩

/-- Addition is commutative on the coefficient vectors themselves, and `zero()` is neutral. -/
theorem C27_add_laws {p q : List K} (hp : p ≠ []) (hq : q ≠ []) :
    add p q = add q p ∧ add p zero = some p ∧ add zero p = some p := by
  have comm : ∀ {p q : List K}, p ≠ [] → q ≠ [] → add p q = add q p := by
    intro p q hp hq
    obtain ⟨s, h1, h2, h3⟩ := add_eq (q := q) hp
    obtain ⟨t, g1, g2, g3⟩ := add_eq (q := p) hq
    rw [h1, g1]
    congr 1
    apply list_ext (by omega)
    apply toPoly_ext; intro i; rw [coeff_toPoly, h3, g3, add_comm]
  have hz : add p zero = some p := by
    obtain ⟨s, h1, h2, h3⟩ := add_eq (q := (zero : List K)) hp
    have hl : 0 < p.length := List.length_pos_iff.2 hp
    rw [h1]; congr 1
    apply list_ext (by rw [h2]; simp [zero]; omega)
    apply toPoly_ext; intro i; rw [coeff_toPoly, h3]
    cases i <;> simp [zero]
  exact ⟨comm hp hq, hz, by rw [comm (by simp [zero]) hp, hz]⟩

theorem C27_add_assoc {p q r : List K} (hp : p ≠ []) (hq : q ≠ []) :
    ((add p q).bind fun s => add s r) = (add q r).bind fun s => add p s := by
  obtain ⟨s, h1, h2, h3⟩ := add_eq (q := q) hp
  obtain ⟨t, g1, g2, g3⟩ := add_eq (q := r) hq
  have hl : 0 < p.length := List.length_pos_iff.2 hp
  have hs : s ≠ [] := by intro h; subst h; simp at h2; omega
  obtain ⟨u, a1, a2, a3⟩ := add_eq (q := r) hs
  obtain ⟨v, b1, b2, b3⟩ := add_eq (q := t) hp
  rw [h1, g1, Option.bind_some, Option.bind_some, a1, b1]
  congr 1
  apply list_ext (by omega)
  apply toPoly_ext; intro i; rw [coeff_toPoly, a3, b3, h3, g3, add_assoc]

example : add ([1, 2, 3] : List ℚ) [4, 5] = some [5, 7, 3] ∧ add ([1, 2] : List ℚ) [4, 5, -7] = some [5, 7, -7] ∧
    neg ([1, -2] : List ℚ) = some [-1, 2] := by decide +kernel

/-! ## C28 subtraction -/

/-- When the subtrahend has at most as many coefficients as the minuend, `p - q` is the difference.
    Missing: the case of a longer subtrahend, where it is false (`C28_sub_violated`). -/
theorem C28_sub_partial {p q : List K} (hp : p ≠ []) (hlen : q.length ≤ p.length) :
    ∃ s, sub p q = some s ∧ toPoly s = toPoly p - toPoly q ∧ (∀ x, eval s x = eval p x - eval q x) ∧
      add s q = some p := by
  obtain ⟨s, h1, h2, h3⟩ := sub_eq (q := q) hp
  have hl : 0 < p.length := List.length_pos_iff.2 hp
  have h : toPoly s = toPoly p - toPoly q := by
    apply toPoly_ext; intro i; rw [h3, coeff_sub, coeff_toPoly, coeff_toPoly]
    split
    · rfl
    · rw [getD_ge (l := q) (by omega), getD_ge (l := p) (by omega), sub_zero]
  have hs : s ≠ [] := by intro h; subst h; simp at h2; omega
  refine ⟨s, h1, h, fun x => ?_, ?_⟩
  · rw [eval_eq, eval_eq, eval_eq, h, eval_sub]
  · obtain ⟨t, g1, g2, g3⟩ := add_eq (q := q) hs
    rw [g1]; congr 1
    apply list_ext (by omega)
    apply toPoly_ext; intro i
    rw [g3, ← coeff_toPoly s, ← coeff_toPoly q, h, coeff_sub]; ring

/-- `p - p` has only zero coefficients. -/
theorem C28_sub_self {p : List K} (hp : p ≠ []) :
    ∃ s, sub p p = some s ∧ toPoly s = 0 := by
  obtain ⟨s, h1, h2, _⟩ := C28_sub_partial hp (le_refl p.length)
  exact ⟨s, h1, by rw [h2, sub_self]⟩

/-- Exactly when the code is right: the part of `q` beyond the coefficients of `p` must vanish. -/
theorem C28_sub_iff [CharZero K] {p q : List K} (hp : p ≠ []) :
    ∃ s, sub p q = some s ∧
      (toPoly s = toPoly p - toPoly q ↔ ∀ i, p.length ≤ i → q.getD i 0 = 0) := by
  obtain ⟨s, h1, h2, h3⟩ := sub_eq (q := q) hp
  refine ⟨s, h1, ?_, ?_⟩
  · intro h i hi
    have := congrArg (fun p => p.coeff i) h
    simp only [coeff_toPoly, coeff_sub] at this
    rw [h3, if_neg (by omega), getD_ge (l := p) hi, zero_sub] at this
    exact self_eq_neg.1 this
  · intro h
    apply toPoly_ext; intro i; rw [h3, coeff_sub, coeff_toPoly, coeff_toPoly]
    split
    · rfl
    · rw [h i (by omega), getD_ge (l := p) (by omega), sub_zero]

/-- `1 - (x + 1)` evaluates to `x` instead of `-x`. -/
theorem C28_sub_violated :
    ∃ (p q s : List ℚ) (x : ℚ), sub p q = some s ∧ eval s x ≠ eval p x - eval q x :=
  ⟨[1], [1, 1], [0, 1], 1, by decide +kernel⟩

example : sub ([1, 2, 3] : List ℚ) [4, 5] = some [-3, -3, 3] := by decide +kernel

/-! ## C29 multiplication -/

theorem C29_mul {p q : List K} (hp : p ≠ []) (hq : q ≠ []) :
    ∃ s, mul p q = some s ∧ toPoly s = toPoly p * toPoly q ∧ s.length = p.length + q.length - 1 ∧
      ∀ x, eval s x = eval p x * eval q x := by
  obtain ⟨s, h1, h2, h3⟩ := mul_eq hp hq
  exact ⟨s, h1, h3, h2, fun x => by rw [eval_eq, eval_eq, eval_eq, h3, eval_mul]⟩

/-- Commutativity, associativity and distributivity hold on the coefficient vectors. -/
theorem C29_mul_laws {p q r : List K} (hp : p ≠ []) (hq : q ≠ []) (hr : r ≠ []) :
    mul p q = mul q p ∧
    ((mul p q).bind fun s => mul s r) = ((mul q r).bind fun s => mul p s) ∧
    ((add q r).bind fun s => mul p s) =
      (mul p q).bind fun a => (mul p r).bind fun b => add a b := by
  have pl : 0 < p.length := List.length_pos_iff.2 hp
  have ql : 0 < q.length := List.length_pos_iff.2 hq
  have rl : 0 < r.length := List.length_pos_iff.2 hr
  obtain ⟨pq, a1, a2, a3⟩ := mul_eq hp hq
  obtain ⟨qp, b1, b2, b3⟩ := mul_eq hq hp
  obtain ⟨qr, c1, c2, c3⟩ := mul_eq hq hr
  obtain ⟨pr, d1, d2, d3⟩ := mul_eq hp hr
  have ne : ∀ {l : List K}, 0 < l.length → l ≠ [] := fun h => List.length_pos_iff.1 h
  obtain ⟨x, e1, e2, e3⟩ := mul_eq (ne (l := pq) (by omega)) hr
  obtain ⟨y, f1, f2, f3⟩ := mul_eq hp (ne (l := qr) (by omega))
  obtain ⟨s, g1, g2, g3⟩ := add_eq (q := r) hq
  obtain ⟨z, i1, i2, i3⟩ := mul_eq hp (ne (l := s) (by omega))
  obtain ⟨w, j1, j2, j3⟩ := add_eq (q := pr) (ne (l := pq) (by omega))
  refine ⟨?_, ?_, ?_⟩
  · rw [a1, b1]; congr 1
    exact list_ext (by omega) (by rw [a3, b3, mul_comm])
  · rw [a1, c1, Option.bind_some, Option.bind_some, e1, f1]; congr 1
    exact list_ext (by omega) (by rw [e3, f3, a3, c3, mul_assoc])
  · rw [a1, g1, Option.bind_some, Option.bind_some, i1, d1, Option.bind_some, j1]; congr 1
    refine list_ext (by omega) ?_
    have hs : toPoly s = toPoly q + toPoly r := toPoly_ext fun i => by
      rw [g3, coeff_add, coeff_toPoly, coeff_toPoly]
    have hw : toPoly w = toPoly pq + toPoly pr := toPoly_ext fun i => by
      rw [j3, coeff_add, coeff_toPoly, coeff_toPoly]
    rw [i3, hs, hw, a3, d3, mul_add]

example : mul ([1, 2, 3] : List ℚ) [4, 5] = some [4, 13, 22, 15] := by decide +kernel

/-! ## C30 division with remainder -/

section Order
variable [LinearOrder K] [IsStrictOrderedRing K]

omit [IsStrictOrderedRing K] in
theorem toPoly_take_bound (eps : K) (l : List K) (k : Nat) (he : |(0 : K)| ≤ eps)
    (h : ∀ j, k ≤ j → j < l.length → |l.getD j 0| ≤ eps) :
    ∃ d : K[X], toPoly l = toPoly (l.take k) + d ∧ ∀ i, |d.coeff i| ≤ eps := by
  refine ⟨toPoly l - toPoly (l.take k), by ring, ?_⟩
  intro i
  rw [coeff_sub, coeff_toPoly, coeff_toPoly, getD_take]
  split
  · simpa using he
  · rw [sub_zero]
    by_cases hi : i < l.length
    · exact h i (by omega) hi
    · rw [getD_ge (by omega)]; exact he

/-- Division with remainder, up to the coefficients of the remainder that `reduce_coef` discards: these are
    at most `eps` in absolute value.  Missing: exactness for `eps > 0`, which is false (`C30_violated`). -/
theorem C30_division_partial (eps : K) (he : 0 ≤ eps) {p q : List K} (hp : p ≠ []) (hq : q ≠ [])
    (hlead : q.getD (q.length - 1) 0 ≠ 0) :
    ∃ quot rem : List K, ∃ d : K[X], div eps p q = some (quot, rem) ∧
      toPoly p = toPoly q * toPoly quot + toPoly rem + d ∧ (∀ i, |d.coeff i| ≤ eps) ∧
      (toPoly rem = 0 ∨ (toPoly rem).natDegree < (toPoly q).natDegree) ∧
      quot ≠ [] ∧ rem ≠ [] := by
  have pl : 0 < p.length := List.length_pos_iff.2 hp
  have ql : 0 < q.length := List.length_pos_iff.2 hq
  have he' : |(0 : K)| ≤ eps := by simpa using he
  have hdegq : (toPoly q).natDegree = q.length - 1 := by
    apply le_antisymm
    · have := natDegree_toPoly_lt hq; omega
    · apply le_natDegree_of_ne_zero; rwa [coeff_toPoly]
  have hp0 : ¬ p.length = 0 := by omega
  have hq0 : ¬ q.length = 0 := by omega
  by_cases hlt : q.length - 1 > p.length - 1
  · refine ⟨zero, p, 0, ?_, ?_, ?_, ?_, by simp [zero], hp⟩
    · simp [div, Poly.degree, hp, hq, hlt]
    · have : toPoly (zero : List K) = 0 := toPoly_ext fun i => by cases i <;> simp [zero]
      rw [this]; ring
    · intro i; simpa using he
    · right
      have := natDegree_toPoly_lt hp
      omega
  · obtain ⟨s, e1, e2, e3, e4, e5⟩ := divLoop_eq hq (p := p) (by omega) hlead
    have hs1 : ¬ s.1.length = 0 := by omega
    have hs2 : s.2 ≠ [] := by intro h; rw [h] at e3; simp at e3; omega
    obtain ⟨k, r1, r2, r3, r4, r5⟩ := reduce_spec eps hs2
    obtain ⟨d, d1, d2⟩ := toPoly_take_bound eps s.2 k he' r4
    refine ⟨s.1, s.2.take k, d, ?_, ?_, d2, ?_, ?_, ?_⟩
    · have hqd : p.length - 1 - (q.length - 1) = p.length - q.length := by omega
      simp only [div, Poly.degree, hp0, hq0, if_false, Option.bind_eq_bind, Option.bind_some, hlt, hqd] at e1 ⊢
      rw [e1]
      simp only [Option.bind_some, fromCoef, hs1, if_false, r1]
    · rw [e4, d1]; ring
    · by_cases hz : toPoly (s.2.take k) = 0
      · exact Or.inl hz
      · right
        rw [hdegq]
        by_contra hcon
        apply hz
        apply toPoly_ext
        intro i
        rw [coeff_zero, getD_take]
        split
        · rename_i hik
          by_cases hi : q.length - 1 ≤ i
          · exact e5 i hi
          · exfalso
            have h1 : (toPoly (s.2.take k)).natDegree ≤ q.length - 1 - 1 := by
              rw [natDegree_le_iff_coeff_eq_zero]
              intro j hj
              rw [coeff_toPoly, getD_take]
              split
              · exact e5 j (by omega)
              · rfl
            omega
        · rfl
    · intro h; rw [h] at hs1; exact hs1 rfl
    · intro h
      have := congrArg List.length h
      rw [List.length_take] at this
      simp only [List.length_nil] at this
      omega

/-- In exact arithmetic (`eps = 0`) division is exact. -/
theorem C30_division_exact {p q : List K} (hp : p ≠ []) (hq : q ≠ [])
    (hlead : q.getD (q.length - 1) 0 ≠ 0) :
    ∃ quot rem : List K, div 0 p q = some (quot, rem) ∧
      toPoly p = toPoly q * toPoly quot + toPoly rem ∧
      (∀ x, eval p x = eval q x * eval quot x + eval rem x) ∧
      (toPoly rem = 0 ∨ (toPoly rem).natDegree < (toPoly q).natDegree) := by
  obtain ⟨quot, rem, d, h1, h2, h3, h4, _⟩ := C30_division_partial 0 (le_refl 0) hp hq hlead
  have hd : d = 0 := by
    ext i
    have := h3 i
    simpa using this
  subst hd
  rw [add_zero] at h2
  exact ⟨quot, rem, h1, h2, fun x => by simp only [eval_eq, h2, eval_add, eval_mul], h4⟩

/-- In exact arithmetic quotient and remainder are the (unique) Euclidean ones. -/
theorem C30_division_unique {p q : List K} (hp : p ≠ []) (hq : q ≠ [])
    (hlead : q.getD (q.length - 1) 0 ≠ 0) :
    ∃ quot rem : List K, div 0 p q = some (quot, rem) ∧ ∀ a b : K[X],
      toPoly p = toPoly q * a + b → (b = 0 ∨ b.natDegree < (toPoly q).natDegree) →
      toPoly quot = a ∧ toPoly rem = b := by
  obtain ⟨quot, rem, h1, h2, _, h4⟩ := C30_division_exact hp hq hlead
  refine ⟨quot, rem, h1, ?_⟩
  intro a b hab hb
  have hq0 : toPoly q ≠ 0 := by
    intro h
    apply hlead
    rw [← coeff_toPoly, h, coeff_zero]
  have hdiff : toPoly q * (toPoly quot - a) = b - toPoly rem := by
    have := h2.symm.trans hab
    linear_combination this
  have hz : toPoly quot - a = 0 := by
    by_contra hne
    have hbr : b - toPoly rem ≠ 0 := by rw [← hdiff]; exact mul_ne_zero hq0 hne
    have hdeg := congrArg natDegree hdiff
    rw [natDegree_mul hq0 hne] at hdeg
    rcases hb with hb | hb <;> rcases h4 with hr | hr
    · exact hbr (by rw [hb, hr, sub_self])
    · rw [hb, zero_sub, natDegree_neg] at hdeg; omega
    · rw [hr, sub_zero] at hdeg; omega
    · have := natDegree_sub_le b (toPoly rem)
      rw [max_def] at this; split at this <;> omega
  rw [hz, mul_zero] at hdiff
  exact ⟨sub_eq_zero.1 hz, (sub_eq_zero.1 hdiff.symm).symm⟩

/-- For every positive tolerance exactness fails: `x² + eps·x` divided by `x²` gives remainder 0. -/
theorem C30_violated (eps : K) (he : 0 < eps) :
    ∃ p q quot rem : List K, div eps p q = some (quot, rem) ∧
      toPoly p ≠ toPoly q * toPoly quot + toPoly rem := by
  refine ⟨[0, eps, 1], [0, 0, 1], [1], [0], ?_, ?_⟩
  · have habs : |eps| = eps := abs_of_pos he
    simp [div, Poly.degree, forRange, lset, reduce, reduceCoef, reduceLoop, fromCoef, habs, he.le,
      List.range']
  · intro h
    have := congrArg (fun p => p.coeff 1) h
    have hX : toPoly ([0, 0, 1] : List K) = X ^ 2 := toPoly_ext fun i => by
      rw [coeff_X_pow]
      rcases i with _ | _ | _ | i <;> simp
    simp only [hX, coeff_add, coeff_toPoly, coeff_X_pow_mul'] at this
    simp at this
    exact he.ne' this

example : div (0 : ℚ) [-4, 0, -2, 1] [-3, 1] = some ([3, 1, 1], [5]) := by decide +kernel

/-! ## C31 calculus -/

omit [IsStrictOrderedRing K] in
theorem pushMap (f : Nat → K → K) (p : List K) (off n : Nat) (hn : off + n ≤ p.length) (init : List K) :
    forRange 0 n (fun (c : List K) i => do
      let a ← p[i + off]?
      some (c ++ [f i a])) init = some (init ++ (List.range n).map (fun i => f i (p.getD (i + off) 0))) := by
  obtain ⟨s, h1, h2⟩ := forRange_inv (a := 0) (b := n) (s := init)
    (f := fun (c : List K) i => do
      let a ← p[i + off]?
      some (c ++ [f i a]))
    (fun k s => s = init ++ (List.range k).map (fun i => f i (p.getD (i + off) 0))) (by omega)
    (by simp) (by
      intro i s _ hi h
      refine ⟨_, ?_, rfl⟩
      rw [get_some (l := p) (i := i + off) (by omega), h, List.range_succ]
      simp)
  rw [h1, h2]

omit [LinearOrder K] [IsStrictOrderedRing K] in
theorem getD_map_range (n : Nat) (g : Nat → K) (i : Nat) :
    ((List.range n).map g).getD i 0 = if i < n then g i else 0 := by
  by_cases h : i < n
  · simp [List.getD_eq_getElem?_getD, h]
  · simp [List.getD_eq_getElem?_getD, h]

/-- `differentiate` is the formal derivative up to dropped leading coefficients of size at most `eps`.
    Missing: exactness for `eps > 0` (false, `C31_violated`). -/
theorem C31_differentiate_partial (eps : K) (he : 0 ≤ eps) {p : List K} (hp : p ≠ []) :
    ∃ s, ∃ d : K[X], differentiate eps p = some s ∧ s ≠ [] ∧ derivative (toPoly p) = toPoly s + d ∧
      ∀ i, |d.coeff i| ≤ eps := by
  have pl : 0 < p.length := List.length_pos_iff.2 hp
  have he' : |(0 : K)| ≤ eps := by simpa using he
  have hp0 : ¬ p.length = 0 := by omega
  by_cases h1 : p.length - 1 = 0
  · refine ⟨[0], 0, ?_, by simp, ?_, by intro i; simpa using he⟩
    · simp [differentiate, Poly.degree, hp, h1, fromCoef]
    · ext i
      rw [coeff_derivative, coeff_toPoly, getD_ge (by omega), coeff_add, coeff_toPoly]
      cases i <;> simp
  · have hpush := pushMap (fun i a => ((i + 1 : Nat) : K) * a) p 1 (p.length - 1) (by omega) []
    set c := (List.range (p.length - 1)).map (fun i => ((i + 1 : Nat) : K) * p.getD (i + 1) 0) with hc
    have hcl : c.length = p.length - 1 := by simp [hc]
    have hcn : c ≠ [] := by intro h; rw [h] at hcl; simp at hcl; omega
    obtain ⟨k, r1, r2, r3, r4, r5⟩ := reduce_spec eps hcn
    obtain ⟨d, d1, d2⟩ := toPoly_take_bound eps c k he' r4
    refine ⟨c.take k, d, ?_, ?_, ?_, d2⟩
    · simp only [differentiate, Poly.degree, hp0, if_false, Option.bind_eq_bind, Option.bind_some, h1,
        List.nil_append] at hpush ⊢
      rw [hpush]
      simp only [Option.bind_some]; exact r1
    · intro h
      have := congrArg List.length h
      rw [List.length_take] at this
      simp only [List.length_nil] at this
      omega
    · rw [← d1]
      ext i
      rw [coeff_derivative, coeff_toPoly, coeff_toPoly, hc, getD_map_range]
      split
      · push_cast; ring
      · rw [getD_ge (by omega)]; ring

theorem C31_differentiate_exact {p : List K} (hp : p ≠ []) :
    ∃ s, differentiate 0 p = some s ∧ s ≠ [] ∧ toPoly s = derivative (toPoly p) := by
  obtain ⟨s, d, h1, h2, h3, h4⟩ := C31_differentiate_partial 0 (le_refl 0) hp
  have hd : d = 0 := by
    ext i
    simpa using h4 i
  exact ⟨s, h1, h2, by rw [h3, hd, add_zero]⟩

/-- `integrate`: zero constant term, and its formal derivative is `p` up to dropped leading coefficients.
    Missing: exactness for `eps > 0` (false, `C31_violated`). -/
theorem C31_integrate_partial (eps : K) (he : 0 ≤ eps) {p : List K} (hp : p ≠ []) :
    ∃ s, ∃ d : K[X], integrate eps p = some s ∧ s ≠ [] ∧ eval s 0 = 0 ∧
      toPoly p = derivative (toPoly s + d) ∧ ∀ i, |d.coeff i| ≤ eps := by
  have pl : 0 < p.length := List.length_pos_iff.2 hp
  have he' : |(0 : K)| ≤ eps := by simpa using he
  have hpush := pushMap (fun i a => a / ((i + 1 : Nat) : K)) p 0 p.length (by omega) [0]
  simp only [Nat.add_zero] at hpush
  set g := (List.range p.length).map (fun i => p.getD i 0 / ((i + 1 : Nat) : K)) with hg
  have hcn : [0] ++ g ≠ [] := by simp
  have hco : ∀ i, ([0] ++ g).getD i 0 = if i = 0 then 0 else p.getD (i - 1) 0 / (i : K) := by
    intro i
    cases i with
    | zero => simp
    | succ i =>
      rw [if_neg (by omega)]
      have : ([0] ++ g).getD (i + 1) 0 = g.getD i 0 := by simp
      rw [this, hg, getD_map_range]
      split
      · simp
      · rw [Nat.add_sub_cancel, getD_ge (by omega), zero_div]
  obtain ⟨k, r1, r2, r3, r4, r5⟩ := reduce_spec eps hcn
  obtain ⟨d, d1, d2⟩ := toPoly_take_bound eps _ k he' r4
  refine ⟨([0] ++ g).take k, d, ?_, ?_, ?_, ?_, d2⟩
  · simp only [integrate, Option.bind_eq_bind] at hpush ⊢
    rw [hpush]
    simp only [Option.bind_some]; exact r1
  · intro h
    have := congrArg List.length h
    rw [List.length_take] at this
    simp only [List.length_nil] at this
    omega
  · rw [eval_eq, ← coeff_zero_eq_eval_zero, coeff_toPoly, getD_take, hco]; simp
  · rw [← d1]
    ext i
    rw [coeff_derivative, coeff_toPoly, coeff_toPoly, hco, if_neg (by omega), Nat.add_sub_cancel]
    push_cast
    have : ((i : K) + 1) ≠ 0 := by exact_mod_cast Nat.succ_ne_zero i
    field_simp

/-- In exact arithmetic `integrate` is an antiderivative with zero constant term and
    `differentiate(integrate(p))` is `p`. -/
theorem C31_integrate_exact {p : List K} (hp : p ≠ []) :
    ∃ s t, integrate 0 p = some s ∧ eval s 0 = 0 ∧ derivative (toPoly s) = toPoly p ∧
      differentiate 0 s = some t ∧ toPoly t = toPoly p := by
  obtain ⟨s, d, h1, h2, h3, h4, h5⟩ := C31_integrate_partial 0 (le_refl 0) hp
  have hd : d = 0 := by
    ext i
    simpa using h5 i
  rw [hd, add_zero] at h4
  obtain ⟨t, g1, g2, g3⟩ := C31_differentiate_exact h2
  exact ⟨s, t, h1, h3, h4.symm, g1, by rw [g3, h4]⟩

/-- For every positive tolerance the round trip fails on the constant polynomial `eps`. -/
theorem C31_violated (eps : K) (he : 0 < eps) :
    ∃ s t, integrate eps [eps] = some s ∧ differentiate eps s = some t ∧ toPoly t ≠ toPoly [eps] := by
  have habs : |eps| = eps := abs_of_pos he
  refine ⟨[0], [0], ?_, ?_, ?_⟩
  · simp [integrate, forRange, reduce, reduceCoef, reduceLoop, fromCoef, habs]
  · simp [differentiate, Poly.degree, fromCoef]
  · intro h
    have := congrArg (fun p => p.coeff 0) h
    simp [coeff_toPoly] at this
    exact he.ne this

example : differentiate (0 : ℚ) [1, 2, 3, 4] = some [2, 6, 12] ∧
    integrate (0 : ℚ) [1, 2, 3] = some [0, 1, 1, 1] ∧ differentiate (0 : ℚ) [7] = some [0] := by decide +kernel

end Order

/-! ## C32 from_root -/

/-- `from_root` builds the product of `X - r_i`. -/
theorem C32_from_root {rs : List K} (h : rs ≠ []) :
    ∃ s, fromRoot rs = some s ∧ s.length = rs.length + 1 ∧
      toPoly s = (rs.map (fun r => X - C r)).prod := fromRoot_eq h

/-- It is monic of degree `n` and vanishes exactly at the given roots, with multiplicity. -/
theorem C32_from_root_roots [DecidableEq K] {rs : List K} (h : rs ≠ []) :
    ∃ s, fromRoot rs = some s ∧ (toPoly s).Monic ∧ (toPoly s).natDegree = rs.length ∧
      s.getD rs.length 0 = 1 ∧ (toPoly s).roots = (rs : Multiset K) ∧
      ∀ x, eval s x = 0 ↔ x ∈ rs := by
  obtain ⟨s, h1, h2, h3⟩ := fromRoot_eq h
  have hprod : (rs.map (fun r => X - C r)).prod = ((rs : Multiset K).map (fun r => X - C r)).prod := by
    simp
  have hm : (toPoly s).Monic := by
    rw [h3, hprod]; exact monic_multiset_prod_of_monic _ _ (fun r _ => monic_X_sub_C r)
  have hd : (toPoly s).natDegree = rs.length := by
    rw [h3, hprod, natDegree_multiset_prod_X_sub_C_eq_card]; simp
  have hr : (toPoly s).roots = (rs : Multiset K) := by
    rw [h3, hprod, roots_multiset_prod_X_sub_C]
  refine ⟨s, h1, hm, hd, ?_, hr, ?_⟩
  · rw [← coeff_toPoly, ← hd]; exact hm
  · intro x
    have : x ∈ (toPoly s).roots ↔ x ∈ rs := by rw [hr]; simp
    rw [← this, mem_roots hm.ne_zero, eval_eq]; rfl

/-- No roots: panic. -/
theorem C32_from_root_empty : fromRoot ([] : List K) = none := rfl

example : fromRoot ([1, 2, 2] : List ℚ) = some [-4, 8, -5, 1] := by decide +kernel

end Verif
