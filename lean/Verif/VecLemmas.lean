import Verif.VecModel
import Verif.RowColLemmas
import Mathlib.Order.Defs.LinearOrder

/-! # Lemmas about vector operations -/

set_option linter.unusedSectionVars false

namespace Verif
variable {K : Type}
namespace Mat

section Field
variable [Field K]

theorem dotp_is {x y : Mat K} {n : Nat} {f g} (hx : x.Is n 1 f) (hy : y.Is n 1 g) (hn : 0 < n) :
    x.dotp y = some (∑ i ∈ Finset.range n, f i 0 * g i 0) := by
  obtain ⟨t, h1, h2⟩ := transpose_is hx (Or.inr (Or.inr rfl)) (Or.inl hn)
  obtain ⟨r, h3, h4⟩ := mul_is h2 hy
  have := h4.get (i := 0) (j := 0) (by omega) (by omega)
  simp [dotp, hx.hm, hx.hn, hy.hm, hy.hn, h1, h3, this, Nat.ne_of_gt hn]

omit [Field K] in
theorem dyadp_is [Zero K] [One K] [Add K] [Sub K] [Mul K] [Div K] {x y : Mat K} {m n : Nat} {f g} (hx : x.Is m 1 f) (hy : y.Is n 1 g) :
    ∃ C, x.dyadp y = some C ∧ C.Is m n (fun i j => f i 0 * g j 0) := by
  have := fillLoop (fun i j => f i 0 * g j 0) (zero_is (K := K) m n)
    (fun c i j => do
      let a ← x.vget i
      let b ← y.vget j
      c.set i j (a * b)) (by
      intro B i j hi hj _
      simp [hx.vget_col hi, hy.vget_col hj])
  simpa [dyadp, hx.hm, hy.hm] using this

omit [Field K] in
/-- a loop pushing `x i` onto a list -/
theorem pushLoop {n : Nat} (x : Nat → K) (F : List K → Nat → Option (List K))
    (hF : ∀ l i, i < n → F l i = some (l ++ [x i])) :
    forRange 0 n F [] = some ((List.range n).map x) := by
  obtain ⟨t, h1, h2⟩ := forRange_inv (a := 0) (b := n) (s := []) (f := F)
    (fun k l => l = (List.range k).map x) (by omega) (by simp) (by
      intro i l _ hi hl
      exact ⟨_, hF l i hi, by simp [hl, List.range_succ]⟩)
  rw [h1, h2]

omit [Field K] in
theorem newColumn_is {n : Nat} (x : Nat → K) :
    ∃ v, newColumn n ((List.range n).map x) = some v ∧ v.Is n 1 (fun i _ => x i) := by
  refine ⟨⟨n, 1, (List.range n).map x⟩, by simp [newColumn, new], rfl, rfl, by simp, ?_⟩
  intro i j hi hj
  have : j = 0 := by omega
  subst this
  simp [hi]

omit [Field K] in
theorem newRow_is {n : Nat} (x : Nat → K) :
    ∃ v, newRow n ((List.range n).map x) = some v ∧ v.Is 1 n (fun _ i => x i) := by
  refine ⟨⟨1, n, (List.range n).map x⟩, by simp [newRow, new], rfl, rfl, by simp, ?_⟩
  intro i j hi hj
  have : i = 0 := by omega
  subst this
  simp [hj]

theorem mulVec_is {A v : Mat K} {m n : Nat} {f g} (hA : A.Is m n f) (hv : v.Is n 1 g) :
    ∃ w, A.mulVec v = some w ∧ w.Is m 1 (fun i _ => ∑ k ∈ Finset.range n, f i k * g k 0) := by
  obtain ⟨w, h1, h2⟩ := newColumn_is (n := m) (fun i => ∑ k ∈ Finset.range n, f i k * g k 0)
  refine ⟨w, ?_, h2⟩
  have := pushLoop (n := m) (fun i => ∑ k ∈ Finset.range n, f i k * g k 0)
    (fun (data : List K) i => do
      let p ← forRange 0 n (fun p k => do
        let a ← A.data[k * m + i]?
        let b ← v.vget k
        some (p + a * b)) (0 : K)
      some (data ++ [p])) (by
      intro l i hi
      have := sumLoop (a := 0) (b := n) (fun k => f i k * g k 0)
        (fun p k => do
          let a ← A.data[k * m + i]?
          let b ← v.vget k
          some (p + a * b)) (0 : K) (by
          intro s k _ hk
          simp [hA.hget i k hi hk, hv.vget_col hk])
      simp only [this]
      simp)
  simp only [mulVec, hA.hn, hA.hm, hv.hm, ne_eq, not_true_eq_false, if_false, this]
  simpa using h1

theorem vecMul_is {A v : Mat K} {m n : Nat} {f g} (hA : A.Is m n f) (hv : v.Is 1 m g) :
    ∃ w, v.vecMul A = some w ∧ w.Is 1 n (fun _ j => ∑ k ∈ Finset.range m, g 0 k * f k j) := by
  obtain ⟨w, h1, h2⟩ := newRow_is (n := n) (fun j => ∑ k ∈ Finset.range m, g 0 k * f k j)
  refine ⟨w, ?_, h2⟩
  have := pushLoop (n := n) (fun j => ∑ k ∈ Finset.range m, g 0 k * f k j)
    (fun (data : List K) i => do
      let p ← forRange 0 m (fun p k => do
        let b ← v.vget k
        let a ← A.get k i
        some (p + b * a)) (0 : K)
      some (data ++ [p])) (by
      intro l i hi
      have := sumLoop (a := 0) (b := m) (fun k => g 0 k * f k i)
        (fun p k => do
          let b ← v.vget k
          let a ← A.get k i
          some (p + b * a)) (0 : K) (by
          intro s k _ hk
          simp [hA.get hk hi, hv.vget_row hk])
      simp only [this]
      simp)
  simp only [vecMul, hA.hn, hA.hm, hv.hn, ne_eq, not_true_eq_false, if_false, this]
  simpa using h1

omit [Field K] in
/-- `get_slice` of any vector whose entries are `x` -/
theorem vgetSlice_of [Zero K] [One K] [Add K] [Sub K] [Mul K] [Div K] {v : Mat K} {n s e : Nat} {x : Nat → K} (hv : ∀ i, i < n → v.vget i = some (x i))
    (hdim : (if v.m = 1 then v.n else v.m) = n) (hse : s ≤ e) (he : e < n) :
    ∃ w, v.vgetSlice s e = some w ∧ w.Is (e - s + 1) 1 (fun i _ => x (s + i)) := by
  have := fillCol (n := e - s + 1) (fun i => x (s + i)) (vzero_is (K := K) (e - s + 1))
    (fun S i => do
      let x ← v.vget (s + i)
      S.vset i x) (by
      intro w i hi _
      simp [hv (s + i) (by omega)])
  obtain ⟨w, h1, h2⟩ := this
  refine ⟨w, ?_, h2⟩
  unfold vgetSlice
  have hc : (if v.m = 1 then s < v.n ∧ e < v.n else s < v.m ∧ e < v.m) ∧ s ≤ e := by
    refine ⟨?_, hse⟩
    split <;> rename_i hm <;> simp [hm] at hdim <;> omega
  rw [if_pos hc, show e + 1 = s + (e - s + 1) by omega, forRange_shift]
  have e2 : ∀ k, s + k - s = k := by omega
  simp only [e2]
  exact h1

end Field

theorem vsetSlice_is {v w : Mat K} {n p s : Nat} {f g} (hv : v.Is n 1 f) (hw : w.Is p 1 g)
    (hs : s + p ≤ n) :
    ∃ u, v.vsetSlice w s = some u ∧
      u.Is n 1 (fun i j => if s ≤ i ∧ i < s + p then g (i - s) 0 else f i j) := by
  have := forRange_inv (a := s) (b := s + p) (s := v) (f := fun v r => do
      let x ← w.vget (r - s)
      v.vset r x)
    (fun k u => u.Is n 1 (fun i j => if s ≤ i ∧ i < k then g (i - s) 0 else f i j)) (by omega)
    (hv.congr (by
      intro i j hi hj
      have : ¬ (s ≤ i ∧ i < s) := by omega
      simp [this])) (by
      intro r u h1 h2 hu
      refine ⟨u.put r 0 (g (r - s) 0), ?_, (hu.put (by omega) (by omega) _).congr ?_⟩
      · simp [hw.vget_col (i := r - s) (by omega), hu.vset_col (i := r) (by omega)]
      · intro a b ha hb
        have hb0 : b = 0 := by omega
        subst hb0
        by_cases e : a = r
        · subst e
          have : s ≤ a ∧ a < a + 1 := by omega
          rw [upd_same, if_pos this]
        · rw [upd_ne _ _ (fun h => e h.1)]
          have : (s ≤ a ∧ a < r) ↔ (s ≤ a ∧ a < r + 1) := by omega
          simp only [this])
  simpa [vsetSlice, hv.hm, hw.hm, hs] using this

section Order
variable [LinearOrder K]

theorem argmax_of {v : Mat K} {n : Nat} {x : Nat → K} (hv : ∀ i, i < n → v.vget i = some (x i))
    (hdim : max v.m v.n = n) (hn : 0 < n) :
    ∃ k, v.argmax = some k ∧ k < n ∧ (∀ i, i < n → x i ≤ x k) ∧ ∀ i, i < k → x i < x k := by
  have := forRange_inv (a := 0) (b := n) (s := ((0, x 0) : Nat × K))
    (f := fun (s : Nat × K) idx => do
      let element ← v.vget idx
      if element > s.2 then some (idx, element) else some s)
    (fun j s => s.1 < n ∧ s.2 = x s.1 ∧ (∀ i, i < j → x i ≤ x s.1) ∧ ∀ i, i < s.1 → x i < x s.1)
    (by omega) ⟨hn, rfl, by intro i hi; omega, by intro i hi; simp at hi⟩ (by
      rintro j ⟨k, y⟩ _ hj ⟨h1, h2, h3, h4⟩
      simp only at h1 h2 h3 h4
      subst h2
      by_cases hlt : x k < x j
      · refine ⟨(j, x j), by simp [hv j hj, hlt], hj, rfl, ?_, ?_⟩
        · intro i hi
          by_cases e : i = j
          · subst e; exact le_refl _
          · exact (h3 i (by omega)).trans hlt.le
        · intro i hi
          exact lt_of_le_of_lt (h3 i hi) hlt
      · refine ⟨(k, x k), by simp [hv j hj, hlt], h1, rfl, ?_, h4⟩
        intro i hi
        by_cases e : i = j
        · subst e; exact not_lt.1 hlt
        · exact h3 i (by omega))
  obtain ⟨⟨k, y⟩, hr, h1, h2, h3, h4⟩ := this
  refine ⟨k, ?_, h1, h3, h4⟩
  simp [argmax, hv 0 hn, hdim, Nat.ne_of_gt hn] at hr ⊢
  simp [hr]

theorem argmin_of {v : Mat K} {n : Nat} {x : Nat → K} (hv : ∀ i, i < n → v.vget i = some (x i))
    (hdim : max v.m v.n = n) (hn : 0 < n) :
    ∃ k, v.argmin = some k ∧ k < n ∧ (∀ i, i < n → x k ≤ x i) ∧ ∀ i, i < k → x k < x i := by
  have := forRange_inv (a := 0) (b := n) (s := ((0, x 0) : Nat × K))
    (f := fun (s : Nat × K) idx => do
      let element ← v.vget idx
      if element < s.2 then some (idx, element) else some s)
    (fun j s => s.1 < n ∧ s.2 = x s.1 ∧ (∀ i, i < j → x s.1 ≤ x i) ∧ ∀ i, i < s.1 → x s.1 < x i)
    (by omega) ⟨hn, rfl, by intro i hi; omega, by intro i hi; simp at hi⟩ (by
      rintro j ⟨k, y⟩ _ hj ⟨h1, h2, h3, h4⟩
      simp only at h1 h2 h3 h4
      subst h2
      by_cases hlt : x j < x k
      · refine ⟨(j, x j), by simp [hv j hj, hlt], hj, rfl, ?_, ?_⟩
        · intro i hi
          by_cases e : i = j
          · subst e; exact le_refl _
          · exact hlt.le.trans (h3 i (by omega))
        · intro i hi
          exact lt_of_lt_of_le hlt (h3 i hi)
      · refine ⟨(k, x k), by simp [hv j hj, hlt], h1, rfl, ?_, h4⟩
        intro i hi
        by_cases e : i = j
        · subst e; exact not_lt.1 hlt
        · exact h3 i (by omega))
  obtain ⟨⟨k, y⟩, hr, h1, h2, h3, h4⟩ := this
  refine ⟨k, ?_, h1, h3, h4⟩
  simp [argmin, hv 0 hn, hdim, Nat.ne_of_gt hn] at hr ⊢
  simp [hr]

end Order
end Mat
end Verif
