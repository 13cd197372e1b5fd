import Verif.PolyDivModel
import Verif.PolyLemmas
import Verif.FloatCx

/-!
# Property C127: division, roots, derivative and primitive of polynomials with rounding
-/

set_option linter.unusedSectionVars false

namespace Verif
namespace Poly
open Finset

section
variable {K : Type} [Field K] [LinearOrder K] [IsStrictOrderedRing K] {R : Rounding K}

theorem getElem?_getD {α : Type} {l : List α} {i : ℕ} (h : i < l.length) (d : α) : l[i]? = some (l.getD i d) := by
  rw [List.getD_eq_getElem?_getD, List.getElem?_eq_getElem h]; rfl

theorem getD_setG {α : Type} {l : List α} {i : ℕ} (h : i < l.length) (v d : α) (k : ℕ) :
    (l.set i v).getD k d = if k = i then v else l.getD k d := by
  split_ifs with e
  · subst e
    rw [List.getD_eq_getElem?_getD, List.getElem?_set_self h]; rfl
  · rw [List.getD_eq_getElem?_getD, List.getElem?_set_ne (Ne.symm e), ← List.getD_eq_getElem?_getD]

/-- `reduce` drops the small coefficients at the end -/
theorem reduceLoopG_eq {α : Type} (small : α → Bool) (d : α) : ∀ (n : ℕ) (c : List α), c.length = n + 1 →
    ∃ c', reduceLoopG small n c = some c' ∧ c' ≠ [] ∧ c'.length ≤ c.length ∧ (∀ k < c'.length, c'.getD k d = c.getD k d) ∧
      (∀ k, c'.length ≤ k → k < c.length → small (c.getD k d)) ∧ (1 < c'.length → ¬ small (c'.getD (c'.length - 1) d))
  | 0, c, h => ⟨c, rfl, by rintro rfl; simp at h, le_rfl, fun _ _ => rfl, fun _ h1 h2 => absurd h2 (not_lt.2 h1), by omega⟩
  | n + 1, c, h => by
    simp only [reduceLoopG, getElem?_getD (show n + 1 < c.length by omega) d, Option.bind_eq_bind, Option.bind_some]
    split_ifs with hs
    · obtain ⟨c', h1, h2, h3, h4, h5, h6⟩ := reduceLoopG_eq small d n c.dropLast (by simp [h])
      have hl : c.dropLast.length = n + 1 := by simp [h]
      have hg : ∀ k < n + 1, c.dropLast.getD k d = c.getD k d := fun k hk => by
        rw [List.getD_eq_getElem?_getD, List.getD_eq_getElem?_getD, List.getElem?_dropLast, if_pos (by omega)]
      refine ⟨c', h1, h2, by omega, fun k hk => ?_, fun k hk1 hk2 => ?_, h6⟩
      · rw [h4 k hk, hg k (by omega)]
      · by_cases e : k = n + 1
        · subst e; exact hs
        · rw [← hg k (by omega)]
          exact h5 k hk1 (by omega)
    · refine ⟨c, rfl, by rintro rfl; simp at h, le_rfl, fun _ _ => rfl, fun _ h1 h2 => absurd h2 (not_lt.2 h1), fun _ => ?_⟩
      rw [show c.length - 1 = n + 1 by omega]
      exact hs

theorem reduceG_eq {α : Type} (small : α → Bool) (d : α) {c : List α} (hc : c ≠ []) :
    ∃ c', reduceG small c = some c' ∧ c' ≠ [] ∧ c'.length ≤ c.length ∧ (∀ k < c'.length, c'.getD k d = c.getD k d) ∧
      (∀ k, c'.length ≤ k → k < c.length → small (c.getD k d)) := by
  have hl := List.length_pos_iff.2 hc
  obtain ⟨c', h1, h2, h3, h4, h5, _⟩ := reduceLoopG_eq small d (c.length - 1) c (by omega)
  refine ⟨c', ?_, h2, h3, h4, h5⟩
  have := List.length_pos_iff.2 h2
  simp only [reduceG, h1, Option.bind_eq_bind, Option.bind_some, fromCoef, if_neg this.ne']

/-- after `reduce` every coefficient has moved by at most `ε` -/
theorem reduceG_close {small : Fl R → Bool} {ε : K} (hsm : ∀ v, small v → |v.val| ≤ ε) (hε : 0 ≤ ε) {c : List (Fl R)} (hc : c ≠ []) :
    ∃ c', reduceG small c = some c' ∧ c' ≠ [] ∧ c'.length ≤ c.length ∧
      ∀ k, |(c'.getD k 0).val - (c.getD k 0).val| ≤ ε ∧ |(c'.getD k 0).val| ≤ |(c.getD k 0).val| := by
  obtain ⟨c', h1, h2, h3, h4, h5⟩ := reduceG_eq small 0 hc
  refine ⟨c', h1, h2, h3, fun k => ?_⟩
  by_cases hk : k < c'.length
  · rw [h4 k hk, sub_self, abs_zero]
    exact ⟨hε, le_rfl⟩
  · have e : c'.getD k 0 = 0 := by
      rw [List.getD_eq_getElem?_getD, List.getElem?_eq_none (by omega)]; rfl
    rw [e, Fl.zero_val, zero_sub, abs_neg, abs_zero]
    refine ⟨?_, abs_nonneg _⟩
    by_cases hk2 : k < c.length
    · exact hsm _ (h5 k (by omega) hk2)
    · rw [List.getD_eq_getElem?_getD, List.getElem?_eq_none (by omega)]
      simpa [Fl.zero_val] using hε

/-! ### Division -/

/-- one row of the elimination -/
theorem divRow (q : List (Fl R)) (c : Fl R) (i : ℕ) (rem : List (Fl R)) (hl : q.length + i ≤ rem.length) :
    ∃ rem', forRange 0 q.length (fun (rem : List (Fl R)) k => do
          let v ← q[k]?
          let x ← rem[k + i]?
          lset rem (k + i) (x - v * c)) rem = some rem' ∧ rem'.length = rem.length ∧
      ∀ k, rem'.getD k 0 = if i ≤ k ∧ k < i + q.length then rem.getD k 0 - q.getD (k - i) 0 * c else rem.getD k 0 := by
  obtain ⟨r, h1, h2, h3⟩ := forRange_inv (a := 0) (b := q.length) (s := rem)
    (f := fun (rem : List (Fl R)) k => do
          let v ← q[k]?
          let x ← rem[k + i]?
          lset rem (k + i) (x - v * c))
    (fun j r => r.length = rem.length ∧ ∀ k, r.getD k 0 =
      if i ≤ k ∧ k < i + j then rem.getD k 0 - q.getD (k - i) 0 * c else rem.getD k 0) (Nat.zero_le _)
    ⟨rfl, fun k => by rw [if_neg (by omega)]⟩ (by
      intro j r _ hj ⟨hl', hr⟩
      refine ⟨r.set (j + i) (r.getD (j + i) 0 - q.getD j 0 * c), ?_, by simpa using hl', fun k => ?_⟩
      · simp only [getElem?_getD hj (0 : Fl R), getElem?_getD (show j + i < r.length by omega) (0 : Fl R), Option.bind_eq_bind,
          Option.bind_some, lset]
        rw [if_pos (by omega)]
      · rw [getD_setG (by omega)]
        by_cases e : k = j + i
        · subst e
          rw [if_pos rfl, if_pos (by omega), hr, if_neg (by omega), show j + i - i = j by omega]
        · rw [if_neg e, hr]
          by_cases h : i ≤ k ∧ k < i + j
          · rw [if_pos h, if_pos (by omega)]
          · rw [if_neg h, if_neg (by omega)])
  exact ⟨r, h1, h2, h3⟩

/-- the coefficient `k` of a product -/
def conv (N : ℕ) (c d : ℕ → K) (k : ℕ) : K := ∑ j ∈ range N, if j ≤ k then c j * d (k - j) else 0

theorem conv_update {N i : ℕ} (hi : i < N) {c c' d : ℕ → K} (h0 : c i = 0) (hc : ∀ j, j ≠ i → c' j = c j) (k : ℕ) :
    conv N c' d k = conv N c d k + if i ≤ k then c' i * d (k - i) else 0 := by
  have : conv N c' d k - conv N c d k = if i ≤ k then c' i * d (k - i) else 0 := by
    rw [conv, conv, ← sum_sub_distrib, sum_eq_single i]
    · split_ifs
      · rw [h0]; ring
      · ring
    · intro j _ hj
      rw [hc j hj, sub_self]
    · intro h
      exact absurd (mem_range.2 hi) h
  linarith

theorem conv_abs (N : ℕ) (c d : ℕ → K) (k : ℕ) : |conv N c d k| ≤ conv N (fun j => |c j|) (fun j => |d j|) k := by
  refine (abs_sum_le_sum_abs _ _).trans (sum_le_sum fun j _ => ?_)
  split_ifs
  · rw [abs_mul]
  · rw [abs_zero]

theorem sub_product {s p S T : K} {n : ℕ} (hT : |S| ≤ T) (h : |s - S| ≤ R.gam (n + 1) * T) :
    |R.rnd (s - R.rnd p) - (S - p)| ≤ R.gam (n + 2) * (T + |p|) := by
  have h1 : |s - R.rnd p - (S - p)| ≤ R.gam (n + 1) * T + R.u * |p| := by
    have : s - R.rnd p - (S - p) = (s - S) - (R.rnd p - p) := by ring
    rw [this]
    exact (abs_sub _ _).trans (add_le_add h (R.err p))
  have h2 := R.rnd_near h1
  have h3 : |S - p| ≤ T + |p| := (abs_sub _ _).trans (by linarith)
  have h4 := mul_le_mul_of_nonneg_left h3 R.u_nonneg
  have h5 := R.gam_succ (n + 1)
  have h6 : R.u ≤ R.gam (n + 1) := by
    have := R.gam_mono (show 1 ≤ n + 1 by omega)
    rwa [R.gam_one] at this
  have h7 := mul_le_mul_of_nonneg_right h6 (abs_nonneg p)
  have h8 := mul_le_mul_of_nonneg_right h7 (by linarith [R.u_nonneg] : 0 ≤ 1 + R.u)
  rw [h5]
  nlinarith

theorem lead_small {r l c : K} (hl : l ≠ 0) (hc : c = R.rnd (r / l)) : |R.rnd (r - R.rnd (l * c))| ≤ R.gam 4 * (|l| * |c|) := by
  have h0 := R.u_nonneg
  have e1 : |c - r / l| ≤ R.u * |c| := by rw [hc]; exact R.err' _
  have e2 : |r - l * c| ≤ R.u * (|l| * |c|) := by
    have : r - l * c = -(l * (c - r / l)) := by field_simp; ring
    rw [this, abs_neg, abs_mul]
    have := mul_le_mul_of_nonneg_left e1 (abs_nonneg l)
    linarith
  have e3 := R.err (l * c)
  have e4 : |r - R.rnd (l * c)| ≤ 2 * R.u * (|l| * |c|) := by
    have : r - R.rnd (l * c) = (r - l * c) - (R.rnd (l * c) - l * c) := by ring
    rw [this]
    rw [abs_mul] at e3
    exact (abs_sub _ _).trans (by linarith)
  have e5 := R.err (r - R.rnd (l * c))
  have e6 : |R.rnd (r - R.rnd (l * c))| ≤ (1 + R.u) * |r - R.rnd (l * c)| := by
    have := abs_add_le (R.rnd (r - R.rnd (l * c)) - (r - R.rnd (l * c))) (r - R.rnd (l * c))
    rw [sub_add_cancel] at this
    linarith
  refine e6.trans ((mul_le_mul_of_nonneg_left e4 (by linarith)).trans ?_)
  rw [← mul_assoc]
  refine mul_le_mul_of_nonneg_right ?_ (by positivity)
  rw [Rounding.gam]
  nlinarith [pow_nonneg h0 2, pow_nonneg h0 3, pow_nonneg h0 4]

set_option maxHeartbeats 1000000 in
/-- **C127** (`/repo/src/algebra/abstr/polynomial.rs:552-576`, `div` with rounding): for a divisor `q` with leading coefficient not 0 and
`deg q ≤ deg p`, the computed quotient `c` and remainder `r` satisfy `p = q c + r` in every coefficient `k` up to
`((1+u)^(m+1) - 1) (|p_k| + Σ |c_j| |q_(k-j)|)` with the number `m` of coefficients of `c`, and up to the `ε` discarded by
`reduce_coef`.  The coefficients of the remainder from the degree of `q` on are at most `((1+u)^4 - 1) |l| |c_(k - deg q)|`
with the leading coefficient `l` of `q`; they need not be discarded, see `C127_degree_violated`. -/
theorem C127_div {small : Fl R → Bool} {ε : K} (hsm : ∀ v, small v → |v.val| ≤ ε) (hε : 0 ≤ ε) {p q : List (Fl R)} (hq : q ≠ [])
    (hpq : q.length ≤ p.length) (hlead : q.getD (q.length - 1) 0 ≠ 0) :
    ∃ c r : List (Fl R), divG small p q = some (c, r) ∧ c.length = p.length - q.length + 1 ∧ r ≠ [] ∧ r.length ≤ p.length ∧
      (∀ k < p.length, |(r.getD k 0).val - ((p.getD k 0).val - ∑ j ∈ range c.length,
          if j ≤ k then (c.getD j 0).val * (q.getD (k - j) 0).val else 0)| ≤
        ((1 + R.u) ^ (c.length + 1) - 1) * (|(p.getD k 0).val| + ∑ j ∈ range c.length,
          if j ≤ k then |(c.getD j 0).val| * |(q.getD (k - j) 0).val| else 0) + ε) ∧
      ∀ k, q.length - 1 ≤ k → k < p.length →
        |(r.getD k 0).val| ≤ ((1 + R.u) ^ 4 - 1) * (|(q.getD (q.length - 1) 0).val| * |(c.getD (k - (q.length - 1)) 0).val|) := by
  have lq : 0 < q.length := List.length_pos_iff.2 hq
  set dq := q.length - 1 with hdq
  set qd := p.length - 1 - dq with hqd
  set D : ℕ → K := fun j => (q.getD j 0).val with hD
  have hl0 : (q.getD dq 0).val ≠ 0 := fun h => hlead (Fl.ext h)
  have hD0 : ∀ j, q.length ≤ j → D j = 0 := fun j hj => by
    simp only [hD]
    rw [List.getD_eq_getElem?_getD, List.getElem?_eq_none hj]; rfl
  let C : List (Fl R) → ℕ → K := fun c j => (c.getD j 0).val
  let S : List (Fl R) → ℕ → K := fun c k => (p.getD k 0).val - conv (qd + 1) (C c) D k
  let T : List (Fl R) → ℕ → K := fun c k => |(p.getD k 0).val| + conv (qd + 1) (fun j => |C c j|) (fun j => |D j|) k
  have hST : ∀ c k, |S c k| ≤ T c k := fun c k => (abs_sub _ _).trans (add_le_add le_rfl (conv_abs _ _ _ _))
  have hT0 : ∀ c k, 0 ≤ T c k := fun c k => (abs_nonneg _).trans (hST c k)
  obtain ⟨s, hs, s1, s2, s3, s4, s5⟩ := forRange_inv (a := 0) (b := qd + 1) (s := (List.replicate (qd + 1) (0 : Fl R), p))
    (f := fun (s : List (Fl R) × List (Fl R)) t => do
      let i := qd - t
      let r ← s.2[dq + i]?
      let l ← q[dq]?
      if l = 0 then none
      else do
        let c := r / l
        let quotient ← lset s.1 i c
        let remainder ← forRange 0 q.length (fun (rem : List (Fl R)) k => do
          let v ← q[k]?
          let x ← rem[k + i]?
          lset rem (k + i) (x - v * c)) s.2
        some (quotient, remainder))
    (fun t s => s.1.length = qd + 1 ∧ s.2.length = p.length ∧ (∀ j, j + t < qd + 1 → C s.1 j = 0) ∧
      (∀ k < p.length, |(s.2.getD k 0).val - S s.1 k| ≤ R.gam (t + 1) * T s.1 k) ∧
      ∀ k, dq + (qd + 1) ≤ k + t → k < p.length → |(s.2.getD k 0).val| ≤ R.gam 4 * (|D dq| * |C s.1 (k - dq)|))
    (Nat.zero_le _) (by
      have c0 : ∀ j, C (List.replicate (qd + 1) (0 : Fl R)) j = 0 := fun j => by
        simp only [C, List.getD_eq_getElem?_getD, List.getElem?_replicate]
        split_ifs <;> rfl
      refine ⟨by simp, rfl, fun j _ => c0 j, fun k hk => ?_, fun k h1 h2 => by omega⟩
      have : S (List.replicate (qd + 1) (0 : Fl R)) k = (p.getD k 0).val := by
        simp only [S, conv, c0]
        simp
      rw [this, sub_self, abs_zero]
      exact mul_nonneg (R.gam_nonneg _) (hT0 _ _)) (by
      intro t s _ ht ⟨i1, i2, i3, i4, i5⟩
      set i := qd - t with hi
      have hil : dq + i < s.2.length := by omega
      set r := s.2.getD (dq + i) 0 with hr
      set l := q.getD dq 0 with hl
      set c := r / l with hc
      obtain ⟨rem', h1, h2, h3⟩ := divRow q c i s.2 (by omega)
      have hg : ∀ k, (s.1.set i c).getD k 0 = if k = i then c else s.1.getD k 0 := getD_setG (by omega) c 0
      have hCi : C (s.1.set i c) i = c.val := by simp only [C, hg, if_true]
      have hCj : ∀ j, j ≠ i → C (s.1.set i c) j = C s.1 j := fun j hj => by simp only [C, hg, if_neg hj]
      have hC0 : C s.1 i = 0 := i3 i (by omega)
      have hS : ∀ k, S (s.1.set i c) k = S s.1 k - if i ≤ k then c.val * D (k - i) else 0 := fun k => by
        simp only [S]
        rw [conv_update (by omega) hC0 hCj k, hCi]
        ring
      have hT : ∀ k, T (s.1.set i c) k = T s.1 k + if i ≤ k then |c.val| * |D (k - i)| else 0 := fun k => by
        simp only [T]
        rw [conv_update (c := fun j => |C s.1 j|) (c' := fun j => |C (s.1.set i c) j|) (i := i) (by omega) (by simp [hC0])
          (fun j hj => by simp only [hCj j hj]) k]
        simp only [hCi]
        ring
      refine ⟨(s.1.set i c, rem'), ?_, by simpa using i1, by rw [h2, i2], fun j hj => ?_, fun k hk => ?_, fun k hk1 hk2 => ?_⟩
      · simp only [getElem?_getD hil (0 : Fl R), getElem?_getD (show dq < q.length by omega) (0 : Fl R), Option.bind_eq_bind,
          Option.bind_some]
        rw [if_neg hlead]
        have e : lset s.1 i c = some (s.1.set i c) := if_pos (by omega)
        rw [← hr, ← hl, ← hc, e, Option.bind_some]
        simp only [Option.bind_eq_bind] at h1
        rw [h1]
        rfl
      · rw [hCj j (by omega)]
        exact i3 j (by omega)
      · rw [h3, hS, hT]
        by_cases hik : i ≤ k ∧ k < i + q.length
        · rw [if_pos hik, if_pos hik.1, if_pos hik.1, Fl.sub_val, Fl.mul_val, ← abs_mul, mul_comm c.val]
          exact sub_product (hST _ _) (i4 k hk)
        · rw [if_neg hik]
          have z : ∀ x : K, i ≤ k → x * D (k - i) = 0 := fun x hx => by rw [hD0 _ (by omega), mul_zero]
          have z1 : (if i ≤ k then c.val * D (k - i) else 0) = 0 := by
            split_ifs with h
            · exact z _ h
            · rfl
          have z2 : (if i ≤ k then |c.val| * |D (k - i)| else 0) = 0 := by
            split_ifs with h
            · rw [hD0 _ (by omega), abs_zero, mul_zero]
            · rfl
          rw [z1, z2, sub_zero, add_zero]
          exact (i4 k hk).trans (mul_le_mul_of_nonneg_right (R.gam_mono (by omega)) (hT0 _ _))
      · rw [h3]
        by_cases e : k = dq + i
        · subst e
          rw [if_pos (by omega), show dq + i - i = dq by omega, show dq + i - dq = i by omega, hCi, Fl.sub_val, Fl.mul_val]
          exact lead_small hl0 rfl
        · rw [if_neg (by omega), hCj _ (by omega)]
          exact i5 k (by omega) hk2)
  obtain ⟨r, r1, r2, r3, r4⟩ := reduceG_close hsm hε (c := s.2) (by rintro h; rw [h] at s2; simp at s2; omega)
  refine ⟨s.1, r, ?_, by omega, r2, by omega, fun k hk => ?_, fun k hk1 hk2 => ?_⟩
  · simp only [divG, degree, if_neg lq.ne', if_neg (show ¬ p.length = 0 by omega), Option.bind_eq_bind, Option.bind_some]
    rw [if_neg (by omega)]
    simp only [Option.bind_eq_bind, Option.bind_some] at hs ⊢
    rw [← hdq, ← hqd, hs]
    simp only [Option.bind_some, fromCoef, if_neg (show ¬ s.1.length = 0 by omega), r1]
  · have := s4 k hk
    rw [s1]
    have h2 := (r4 k).1
    have h3 := abs_add_le ((r.getD k 0).val - (s.2.getD k 0).val) ((s.2.getD k 0).val - S s.1 k)
    rw [sub_add_sub_cancel] at h3
    change |(r.getD k 0).val - S s.1 k| ≤ R.gam (qd + 1 + 1) * T s.1 k + ε
    linarith
  · exact (r4 k).2.trans (s5 k (by omega) hk2)

/-! ### The polynomial with given roots -/

/-- one entry of a row of `from_root` -/
theorem root_step {x c S S' T T' r : K} {m : ℕ} (hS : |S| ≤ T) (hS' : |S'| ≤ T') (hx : |x - S| ≤ R.gam m * T)
    (hc : |c - S'| ≤ R.gam m * T') :
    |R.rnd (x + R.rnd (R.rnd (-1 * r) * c)) - (S - r * S')| ≤ R.gam (m + 3) * (T + |r| * T') := by
  have h0 := R.u_nonneg
  have T0 := (abs_nonneg _).trans hS
  have T0' := (abs_nonneg _).trans hS'
  have g0 := R.gam_nonneg m
  have e0 := R.err (-1 * r)
  rw [show |(-1 : K) * r| = |r| by rw [neg_one_mul, abs_neg]] at e0
  set r' := R.rnd (-1 * r)
  have e0' : |r'| ≤ (1 + R.u) * |r| := by
    have := abs_add_le (r' - -1 * r) (-1 * r)
    rw [sub_add_cancel, show |(-1 : K) * r| = |r| by rw [neg_one_mul, abs_neg]] at this
    linarith
  have rT : 0 ≤ |r| * T' := mul_nonneg (abs_nonneg _) T0'
  have e1 : |r' * c - -1 * r * S'| ≤ R.gam (m + 1) * (|r| * T') := by
    have : r' * c - -1 * r * S' = r' * (c - S') + (r' - -1 * r) * S' := by ring
    rw [this]
    refine (abs_add_le _ _).trans ?_
    rw [abs_mul, abs_mul, R.gam_succ]
    have a1 := mul_le_mul e0' hc (abs_nonneg _) (by positivity)
    have a2 := mul_le_mul e0 hS' (abs_nonneg _) (by positivity)
    linarith
  have e2 := R.rnd_near e1
  have e3 : |(-1 : K) * r * S'| ≤ |r| * T' := by
    rw [abs_mul, neg_one_mul, abs_neg]
    exact mul_le_mul_of_nonneg_left hS' (abs_nonneg _)
  have e4 : |R.rnd (r' * c) - -1 * r * S'| ≤ R.gam (m + 2) * (|r| * T') := by
    have := mul_le_mul_of_nonneg_left e3 h0
    have := R.gam_succ (m + 1)
    rw [this]
    linarith
  have e5 : |x + R.rnd (r' * c) - (S - r * S')| ≤ R.gam (m + 2) * (T + |r| * T') := by
    have : x + R.rnd (r' * c) - (S - r * S') = (x - S) + (R.rnd (r' * c) - -1 * r * S') := by ring
    rw [this]
    refine (abs_add_le _ _).trans ?_
    have := mul_le_mul_of_nonneg_right (R.gam_mono (show m ≤ m + 2 by omega)) T0
    linarith
  have e6 : |S - r * S'| ≤ T + |r| * T' := by
    refine (abs_sub _ _).trans (add_le_add hS ?_)
    rw [abs_mul]
    exact mul_le_mul_of_nonneg_left hS' (abs_nonneg _)
  refine (R.rnd_near e5).trans ?_
  have := mul_le_mul_of_nonneg_left e6 h0
  have := R.gam_succ (m + 2)
  rw [this]
  linarith

open Polynomial in
/-- the product of the first `i` factors -/
noncomputable def rootProd (ρ : ℕ → K) (i : ℕ) : K[X] := ∏ m ∈ range i, (X - C (ρ m))

open Polynomial in
theorem rootProd_coeff_zero (ρ : ℕ → K) (i : ℕ) : (rootProd ρ (i + 1)).coeff 0 = -(ρ i * (rootProd ρ i).coeff 0) := by
  rw [rootProd, prod_range_succ, ← rootProd, mul_coeff_zero, coeff_sub, coeff_X_zero, coeff_C_zero]
  ring

open Polynomial in
theorem rootProd_coeff_succ (ρ : ℕ → K) (i k : ℕ) :
    (rootProd ρ (i + 1)).coeff (k + 1) = (rootProd ρ i).coeff k - ρ i * (rootProd ρ i).coeff (k + 1) := by
  rw [rootProd, prod_range_succ, ← rootProd, coeff_mul_X_sub_C]
  ring

open Polynomial in
theorem rootProd_coeff_gt (ρ : ℕ → K) : ∀ i k, i < k → (rootProd ρ i).coeff k = 0
  | 0, k, h => by
    rw [rootProd, range_zero, prod_empty, coeff_one, if_neg (by omega)]
  | i + 1, k + 1, h => by
    rw [rootProd_coeff_succ, rootProd_coeff_gt ρ i k (by omega), rootProd_coeff_gt ρ i (k + 1) (by omega)]
    ring

set_option maxHeartbeats 1000000 in
open Polynomial in
/-- **C127** (`/repo/src/algebra/abstr/polynomial.rs:89-114`, `from_root` with rounding): every coefficient differs from the one of
`∏ (x - r_m)` by at most `((1+u)^(3n) - 1)` times the coefficient of `∏ (x + |r_m|)`. -/
theorem C127_from_root {rs : List (Fl R)} (h : rs ≠ []) :
    ∃ s, fromRoot rs = some s ∧ s.length = rs.length + 1 ∧ ∀ k ≤ rs.length,
      |(s.getD k 0).val - (∏ m ∈ range rs.length, (X - C (rs.getD m 0).val)).coeff k| ≤
        ((1 + R.u) ^ (3 * rs.length) - 1) * (∏ m ∈ range rs.length, (X + C |(rs.getD m 0).val|)).coeff k := by
  have ln : 0 < rs.length := List.length_pos_iff.2 h
  set n := rs.length with hn
  set ρ : ℕ → K := fun m => (rs.getD m 0).val with hρ
  let W : (ℕ → K) → ℕ → ℕ → K := fun ρ i j => if n ≤ j + i then (rootProd ρ i).coeff (j + i - n) else 0
  have W0 : ∀ ρ : ℕ → K, ∀ j, j ≤ n → W ρ 0 j = if j = n then 1 else 0 := fun ρ j hj => by
    simp only [W, rootProd, range_zero, prod_empty]
    by_cases e : j = n
    · subst e; simp
    · rw [if_neg (by omega), if_neg e]
  have Wn : ∀ ρ : ℕ → K, ∀ i, W ρ (i + 1) n = W ρ i n := fun ρ i => by
    simp only [W]
    rw [if_pos (by omega), if_pos (by omega), show n + (i + 1) - n = i + 1 by omega, show n + i - n = i by omega, rootProd_coeff_succ,
      rootProd_coeff_gt _ _ _ (Nat.lt_succ_self i)]
    ring
  have Ws : ∀ ρ : ℕ → K, ∀ i j, W ρ (i + 1) j = W ρ i j - ρ i * W ρ i (j + 1) := fun ρ i j => by
    simp only [W]
    by_cases h1 : n ≤ j + i
    · rw [if_pos (by omega), if_pos h1, if_pos (by omega), show j + (i + 1) - n = (j + i - n) + 1 by omega,
        show j + 1 + i - n = (j + i - n) + 1 by omega, rootProd_coeff_succ]
    · by_cases h2 : n = j + i + 1
      · rw [if_pos (by omega), if_neg h1, if_pos (by omega), show j + (i + 1) - n = 0 by omega, show j + 1 + i - n = 0 by omega,
          rootProd_coeff_zero]
        ring
      · rw [if_neg (by omega), if_neg h1, if_neg (by omega)]
        ring
  set τ : ℕ → K := fun m => -|ρ m| with hτ
  have Wabs : ∀ i j, j ≤ n → |W ρ i j| ≤ W τ i j := by
    intro i
    induction i with
    | zero =>
      intro j hj
      rw [W0 _ j hj, W0 _ j hj]
      split_ifs <;> simp
    | succ i ih =>
      intro j hj
      by_cases e : j = n
      · subst e
        rw [Wn, Wn]
        exact ih _ hj
      · rw [Ws, Ws]
        refine (abs_sub _ _).trans ?_
        rw [abs_mul]
        have := mul_le_mul_of_nonneg_left (ih (j + 1) (by omega)) (abs_nonneg (ρ i))
        have := ih j hj
        simp only [hτ]
        linarith
  have WT : ∀ i j, j ≤ n → 0 ≤ W τ i j := fun i j hj => (abs_nonneg _).trans (Wabs i j hj)
  let Good : ℕ → List (Fl R) → ℕ → Prop := fun i l j => |(l.getD j 0).val - W ρ i j| ≤ R.gam (3 * i) * W τ i j
  have hset : lset (List.replicate (n + 1) (0 : Fl R)) n 1 = some ((List.replicate (n + 1) (0 : Fl R)).set n 1) := by
    simp only [lset]
    rw [if_pos (by simp)]
  obtain ⟨s, h1, h2, h3⟩ := forRange_inv (a := 1) (b := n + 1) (s := (List.replicate (n + 1) (0 : Fl R)).set n 1)
    (f := fun coef i => forRange (n - i) n (fun (coef : List (Fl R)) j => do
        let c ← coef[j + 1]?
        let r ← rs[i - 1]?
        let x ← coef[j]?
        lset coef j (x + (-1) * r * c)) coef)
    (fun i l => l.length = n + 1 ∧ ∀ j ≤ n, Good (i - 1) l j) (by omega) (by
      refine ⟨by simp, fun j hj => ?_⟩
      simp only [Good]
      rw [getD_setG (by simp), show 1 - 1 = 0 from rfl, W0 _ j hj]
      have e : (List.replicate (n + 1) (0 : Fl R)).getD j 0 = 0 := by
        simp only [List.getD_eq_getElem?_getD, List.getElem?_replicate]
        split_ifs <;> rfl
      rw [e, mul_zero, R.gam_zero, zero_mul]
      split_ifs
      · rw [Fl.one_val, sub_self, abs_zero]
      · rw [Fl.zero_val, sub_self, abs_zero]) (by
      intro i l hi1 hi2 ⟨hl, hg⟩
      obtain ⟨i, rfl⟩ : ∃ i', i = i' + 1 := ⟨i - 1, by omega⟩
      rw [Nat.add_sub_cancel] at hg ⊢
      rw [Nat.add_sub_cancel]
      obtain ⟨l', g1, g2, g3⟩ := forRange_inv (a := n - (i + 1)) (b := n) (s := l)
        (f := fun (coef : List (Fl R)) j => do
          let c ← coef[j + 1]?
          let r ← rs[i]?
          let x ← coef[j]?
          lset coef j (x + (-1) * r * c))
        (fun j l => l.length = n + 1 ∧ ∀ k ≤ n, (k < j → Good (i + 1) l k) ∧ (j ≤ k → Good i l k)) (by omega)
        ⟨hl, fun k hk => ⟨fun hkj => by
          have := hg k hk
          simp only [Good] at this ⊢
          have z : ∀ ρ, W ρ (i + 1) k = W ρ i k := fun ρ => by
            simp only [W]
            rw [if_neg (by omega), if_neg (by omega)]
          rw [z, z]
          exact this.trans (mul_le_mul_of_nonneg_right (R.gam_mono (by omega)) (WT _ _ hk)), fun _ => hg k hk⟩⟩ (by
          intro j l hj1 hj2 ⟨hl, hg⟩
          refine ⟨l.set j (l.getD j 0 + (-1) * rs.getD i 0 * l.getD (j + 1) 0), ?_, by simpa using hl, fun k hk => ?_⟩
          · simp only [getElem?_getD (show j + 1 < l.length by omega) (0 : Fl R), getElem?_getD (show i < rs.length by omega) (0 : Fl R),
              getElem?_getD (show j < l.length by omega) (0 : Fl R), Option.bind_eq_bind, Option.bind_some, lset]
            rw [if_pos (by omega)]
          · simp only [Good]
            rw [getD_setG (by omega)]
            by_cases e : k = j
            · subst e
              rw [if_pos rfl]
              refine ⟨fun _ => ?_, fun hk' => by omega⟩
              have a1 := (hg k hk).2 le_rfl
              have a2 := (hg (k + 1) (by omega)).2 (by omega)
              have := root_step (R := R) (r := ρ i) (Wabs i k hk) (Wabs i (k + 1) (by omega)) a1 a2
              rw [Ws, Ws, show W τ i k - τ i * W τ i (k + 1) = W τ i k + |ρ i| * W τ i (k + 1) by simp only [hτ]; ring]
              exact this
            · rw [if_neg e]
              exact ⟨fun hk' => (hg k hk).1 (by omega), fun hk' => (hg k hk).2 (by omega)⟩)
      refine ⟨l', g1, g2, fun j hj => ?_⟩
      by_cases e : j = n
      · subst e
        have := (g3 n le_rfl).2 le_rfl
        simp only [Good] at this ⊢
        rw [Wn, Wn]
        exact this.trans (mul_le_mul_of_nonneg_right (R.gam_mono (by omega)) (WT _ _ hj))
      · exact (g3 j hj).1 (by omega))
  refine ⟨s, ?_, h2, fun k hk => ?_⟩
  · simp only [fromRoot, if_neg ln.ne', ← hn, hset, Option.bind_eq_bind, Option.bind_some]
    simp only [Option.bind_eq_bind] at h1
    rw [h1]
    simp only [Option.bind_some, fromCoef]
    rw [if_neg (by omega)]
  · have := h3 k hk
    simp only [Good, W, Nat.add_sub_cancel] at this
    rw [if_pos (by omega), if_pos (by omega)] at this
    have e : rootProd τ n = ∏ m ∈ range n, (X + C |(rs.getD m 0).val|) := by
      rw [rootProd]
      refine prod_congr rfl fun m _ => ?_
      simp only [hτ, hρ, C_neg, sub_neg_eq_add]
    rw [e] at this
    exact this

/-! ### Derivative and primitive -/

/-- a loop that appends -/
theorem append_loop {α : Type} (g : ℕ → Option α) (d : α) (m : ℕ) (hg : ∀ i < m, (g i).isSome) (l : List α) :
    forRange 0 m (fun (c : List α) i => do
      let a ← g i
      some (c ++ [a])) l = some (l ++ (List.range m).map (fun i => (g i).getD d)) := by
  obtain ⟨r, h1, h2⟩ := forRange_inv (a := 0) (b := m) (s := l) (f := fun (c : List α) i => do
      let a ← g i
      some (c ++ [a])) (fun i c => c = l ++ (List.range i).map (fun i => (g i).getD d)) (Nat.zero_le _) (by simp) (by
    intro i t _ hi ht
    obtain ⟨a, ha⟩ := Option.isSome_iff_exists.1 (hg i hi)
    refine ⟨t ++ [a], by simp [ha], ?_⟩
    rw [ht, List.range_succ, List.map_append, List.append_assoc]
    simp [ha])
  rw [h1, h2]

/-- **C127** (`/repo/src/algebra/abstr/polynomial.rs:629-643`, `differentiate` with rounding): for a polynomial of positive degree the
coefficient `k` of the result is `(k+1) p_(k+1)` up to `((1+u)² - 1) (k+1) |p_(k+1)|`, and up to the `ε` discarded by
`reduce_coef`. -/
theorem C127_differentiate {small : Fl R → Bool} {ε : K} (hsm : ∀ v, small v → |v.val| ≤ ε) (hε : 0 ≤ ε) {p : List (Fl R)}
    (hp : 1 < p.length) :
    ∃ d : List (Fl R), differentiateG small p = some d ∧ d ≠ [] ∧ d.length < p.length ∧ ∀ k, k + 1 < p.length →
      |(d.getD k 0).val - (k + 1) * (p.getD (k + 1) 0).val| ≤ ((1 + R.u) ^ 2 - 1) * ((k + 1) * |(p.getD (k + 1) 0).val|) + ε := by
  have h0 := R.u_nonneg
  set full := (List.range (p.length - 1)).map (fun i => ((i + 1 : ℕ) : Fl R) * p.getD (i + 1) 0) with hfull
  have hl : forRange 0 (p.length - 1) (fun (c : List (Fl R)) i => do
      let a ← p[i + 1]?
      some (c ++ [((i + 1 : ℕ) : Fl R) * a])) [] = some full := by
    have := append_loop (fun i => (p[i + 1]?).map (fun a => ((i + 1 : ℕ) : Fl R) * a)) (0 : Fl R) (p.length - 1) (fun i hi => by
      rw [getElem?_getD (show i + 1 < p.length by omega) (0 : Fl R)]; rfl) []
    rw [List.nil_append] at this
    have e : full = (List.range (p.length - 1)).map (fun i => ((p[i + 1]?).map (fun a => ((i + 1 : ℕ) : Fl R) * a)).getD 0) := by
      refine List.map_congr_left fun i hi => ?_
      rw [getElem?_getD (show i + 1 < p.length by have := List.mem_range.1 hi; omega) (0 : Fl R)]
      rfl
    rw [e, ← this]
    congr 1
    funext c i
    cases p[i + 1]? <;> rfl
  have hlen : full.length = p.length - 1 := by simp [hfull]
  obtain ⟨r, r1, r2, r3, r4⟩ := reduceG_close hsm hε (c := full) (by intro h; rw [h] at hlen; simp at hlen; omega)
  refine ⟨r, ?_, r2, by omega, fun k hk => ?_⟩
  · simp only [differentiateG, degree, if_neg (show ¬ p.length = 0 by omega), Option.bind_eq_bind, Option.bind_some]
    rw [if_neg (by omega)]
    simp only [Option.bind_eq_bind] at hl
    rw [hl, Option.bind_some, r1]
  · have e : full.getD k 0 = ((k + 1 : ℕ) : Fl R) * p.getD (k + 1) 0 := by
      rw [hfull, List.getD_eq_getElem?_getD, List.getElem?_map, List.getElem?_range (by omega)]
      rfl
    have h2 := (r4 k).1
    have h3 := abs_add_le ((r.getD k 0).val - (full.getD k 0).val) ((full.getD k 0).val - (k + 1) * (p.getD (k + 1) 0).val)
    rw [sub_add_sub_cancel] at h3
    have h4 : |(full.getD k 0).val - (k + 1) * (p.getD (k + 1) 0).val| ≤ ((1 + R.u) ^ 2 - 1) * ((k + 1) * |(p.getD (k + 1) 0).val|) := by
      rw [e, Fl.mul_val]
      have k0 : (0 : K) ≤ (k : K) + 1 := by positivity
      have a1 : |(((k + 1 : ℕ) : Fl R)).val - ((k : K) + 1)| ≤ R.u * ((k : K) + 1) := by
        have := R.err (((k + 1 : ℕ) : K))
        rw [Nat.cast_succ, abs_of_nonneg k0] at this
        show |R.rnd ((k + 1 : ℕ) : K) - _| ≤ _
        rwa [Nat.cast_succ]
      have a2 : |(((k + 1 : ℕ) : Fl R)).val * (p.getD (k + 1) 0).val - (k + 1) * (p.getD (k + 1) 0).val| ≤
          R.u * ((k + 1) * |(p.getD (k + 1) 0).val|) := by
        rw [← sub_mul, abs_mul]
        have := mul_le_mul_of_nonneg_right a1 (abs_nonneg (p.getD (k + 1) 0).val)
        linarith
      refine (R.rnd_near a2).trans ?_
      rw [abs_mul, abs_of_nonneg k0]
      apply le_of_eq
      ring
    linarith

/-- **C127** (`/repo/src/algebra/abstr/polynomial.rs:665-676`, `integrate` with rounding): the constant coefficient of the result is 0, the
coefficient `k+1` is `p_k / (k+1)` up to `((1+u)² - 1) |p_k| / (k+1)`, and up to the `ε` discarded by `reduce_coef`. -/
theorem C127_integrate {small : Fl R → Bool} {ε : K} (hsm : ∀ v, small v → |v.val| ≤ ε) (hε : 0 ≤ ε) (p : List (Fl R)) :
    ∃ d : List (Fl R), integrateG small p = some d ∧ d ≠ [] ∧ d.length ≤ p.length + 1 ∧ (d.getD 0 0).val = 0 ∧ ∀ k < p.length,
      |(d.getD (k + 1) 0).val - (p.getD k 0).val / (k + 1)| ≤ ((1 + R.u) ^ 2 - 1) * (|(p.getD k 0).val| / (k + 1)) + ε := by
  have h0 := R.u_nonneg
  set full := [0] ++ (List.range p.length).map (fun i => p.getD i 0 / ((i + 1 : ℕ) : Fl R)) with hfull
  have hl : forRange 0 p.length (fun (c : List (Fl R)) i => do
      let a ← p[i]?
      some (c ++ [a / ((i + 1 : ℕ) : Fl R)])) [0] = some full := by
    have := append_loop (fun i => (p[i]?).map (fun a => a / ((i + 1 : ℕ) : Fl R))) (0 : Fl R) p.length (fun i hi => by
      rw [getElem?_getD hi (0 : Fl R)]; rfl) [0]
    have e : full = [0] ++ (List.range p.length).map (fun i => ((p[i]?).map (fun a => a / ((i + 1 : ℕ) : Fl R))).getD 0) := by
      rw [hfull]
      congr 1
      refine List.map_congr_left fun i hi => ?_
      rw [getElem?_getD (List.mem_range.1 hi) (0 : Fl R)]
      rfl
    rw [e, ← this]
    congr 1
    funext c i
    cases p[i]? <;> rfl
  have hlen : full.length = p.length + 1 := by simp [hfull]
  obtain ⟨r, r1, r2, r3, r4⟩ := reduceG_close hsm hε (c := full) (by intro h; rw [h] at hlen; simp at hlen)
  refine ⟨r, ?_, r2, by omega, ?_, fun k hk => ?_⟩
  · simp only [integrateG, Option.bind_eq_bind]
    simp only [Option.bind_eq_bind] at hl
    rw [hl, Option.bind_some, r1]
  · have := (r4 0).2
    have e : full.getD 0 0 = 0 := rfl
    rw [e, Fl.zero_val, abs_zero] at this
    exact abs_nonpos_iff.1 this
  · have e : full.getD (k + 1) 0 = p.getD k 0 / ((k + 1 : ℕ) : Fl R) := by
      rw [hfull, List.singleton_append, List.getD_cons_succ, List.getD_eq_getElem?_getD, List.getElem?_map, List.getElem?_range hk]
      rfl
    have h2 := (r4 (k + 1)).1
    have h3 := abs_add_le ((r.getD (k + 1) 0).val - (full.getD (k + 1) 0).val) ((full.getD (k + 1) 0).val - (p.getD k 0).val / (k + 1))
    rw [sub_add_sub_cancel] at h3
    have h4 : |(full.getD (k + 1) 0).val - (p.getD k 0).val / (k + 1)| ≤ ((1 + R.u) ^ 2 - 1) * (|(p.getD k 0).val| / (k + 1)) := by
      rw [e, Fl.div_val]
      set a := (p.getD k 0).val
      have k0 : (0 : K) < (k : K) + 1 := by positivity
      set m := (((k + 1 : ℕ) : Fl R)).val with hm
      have a1 : |m - ((k : K) + 1)| ≤ R.u * |m| := by
        have := R.err' (((k + 1 : ℕ) : K))
        rw [hm]
        show |R.rnd ((k + 1 : ℕ) : K) - _| ≤ R.u * |R.rnd ((k + 1 : ℕ) : K)|
        rwa [Nat.cast_succ] at this ⊢
      have m0 : m ≠ 0 := by
        intro h
        rw [h, abs_zero, mul_zero, zero_sub, abs_neg, abs_of_pos k0] at a1
        linarith
      have a2 : |a / m - a / (k + 1)| ≤ R.u * (|a| / (k + 1)) := by
        have : a / m - a / (k + 1) = -(a / (k + 1) * ((m - (k + 1)) / m)) := by field_simp; ring
        rw [this, abs_neg, abs_mul, abs_div, abs_div, abs_of_pos k0, mul_comm]
        refine mul_le_mul_of_nonneg_right ?_ (by positivity)
        rw [div_le_iff₀ (abs_pos.2 m0)]
        exact a1
      refine (R.rnd_near a2).trans ?_
      rw [abs_div, abs_of_pos k0]
      apply le_of_eq
      ring
    linarith

end

/-! ### Examples and what does not hold -/

/-- `abs_diff_eq` with zero in `f64`, `|v| ≤ 2⁻⁵²` -/
def small64 (v : Fl f64) : Bool := |v.val| ≤ 1 / 2 ^ 52

/-- **C127 is violated** (`/repo/src/algebra/abstr/polynomial.rs:552-576`): the remainder of a division in `f64` need not have a smaller
degree than the divisor.  Dividing `3 x` by `47 x + 1` leaves the remainder `2⁻⁵¹ x - 3/47`: the leading coefficient
`3 - 47 fl(3/47)` is computed and not set to zero, and it is larger than the `2⁻⁵²` that `reduce_coef` discards. -/
theorem C127_degree_violated : ∃ p q c r : List (Fl f64), q.getD (q.length - 1) 0 ≠ 0 ∧ divG small64 p q = some (c, r) ∧
    r.length = q.length ∧ r.getD (r.length - 1) 0 ≠ 0 :=
  ⟨[⟨0⟩, ⟨3⟩], [⟨1⟩, ⟨47⟩], [⟨f64.rnd (3 / 47)⟩], [⟨-f64.rnd (3 / 47)⟩, ⟨1 / 2 ^ 51⟩], by decide +kernel, by decide +kernel,
    by decide +kernel, by decide +kernel⟩

/-- `(x² - 1) / (x - 1) = x + 1` in `f64` -/
example : divG small64 [⟨-1⟩, ⟨0⟩, ⟨1⟩] [⟨-1⟩, ⟨1⟩] = some ([⟨1⟩, ⟨1⟩], [⟨0⟩]) := by decide +kernel

/-- `(x - 1) (x - 1/10)` in `f64` -/
example : (fromRoot (K := Fl f64) [⟨1⟩, ⟨f64.rnd (1 / 10)⟩]).map (fun l => l.map Fl.val) =
    some [f64.rnd (1 / 10), -f64.rnd (11 / 10), 1] := by decide +kernel

/-- the derivative of `x³ / 3` in `f64` -/
example : (differentiateG small64 [⟨0⟩, ⟨0⟩, ⟨0⟩, ⟨f64.rnd (1 / 3)⟩]).map (fun l => l.map Fl.val) = some [0, 0, 1] := by decide +kernel

/-- the primitive of `x²` in `f64` -/
example : (integrateG small64 [⟨0⟩, ⟨0⟩, ⟨1⟩]).map (fun l => l.map Fl.val) = some [0, 0, 0, f64.rnd (1 / 3)] := by decide +kernel

end Poly
end Verif
