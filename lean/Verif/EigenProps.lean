import Verif.SpectralModel
import Verif.HouseholderProps
import Verif.LUProps

/-!
# C76: eigenvalues and eigenvectors
-/

namespace Verif
open Finset

section
variable {K : Type} [Field K] [LinearOrder K] [IsStrictOrderedRing K] {sqrt : K → K}

omit [LinearOrder K] [IsStrictOrderedRing K] in
/-- A two-sided transformation `P X Pᵀ` of a diagonal block keeps the trace when `PᵀP = 1`. -/
theorem block_trace {d : Nat} {P X : Nat → Nat → K}
    (h : ∀ a b, a < d → b < d → ∑ i ∈ range d, P i a * P i b = if a = b then 1 else 0) :
    ∑ i ∈ range d, ∑ l ∈ range d, (∑ m ∈ range d, P i m * X m l) * P i l = ∑ i ∈ range d, X i i := by
  have e : ∀ i, ∑ l ∈ range d, (∑ m ∈ range d, P i m * X m l) * P i l =
      ∑ l ∈ range d, ∑ m ∈ range d, X m l * (P i m * P i l) := fun i =>
    sum_congr rfl fun l _ => by rw [sum_mul]; exact sum_congr rfl fun m _ => by ring
  simp only [e]
  rw [sum_comm]
  refine sum_congr rfl fun l hl => ?_
  rw [sum_comm]
  simp only [← mul_sum]
  rw [sum_eq_single l]
  · rw [h l l (mem_range.1 hl) (mem_range.1 hl)]; simp
  · intro m hm hml
    rw [h m l (mem_range.1 hm) (mem_range.1 hl), if_neg hml, mul_zero]
  · intro hn; exact absurd hl hn

omit [LinearOrder K] [IsStrictOrderedRing K] in
theorem sum_block {n k d : Nat} (h : k + d ≤ n) (f g : Nat → K) (hf : ∀ i, i < n → ¬ (k ≤ i ∧ i < k + d) → f i = g i)
    (hs : ∑ i ∈ range d, f (k + i) = ∑ i ∈ range d, g (k + i)) : ∑ i ∈ range n, f i = ∑ i ∈ range n, g i := by
  obtain ⟨e, rfl⟩ := Nat.exists_eq_add_of_le h
  rw [sum_range_add, sum_range_add, sum_range_add, sum_range_add, hs]
  congr 1
  · congr 1
    exact sum_congr rfl fun i hi => hf i (by have := mem_range.1 hi; omega) (by have := mem_range.1 hi; omega)
  · exact sum_congr rfl fun i hi => hf _ (by have := mem_range.1 hi; omega) (by omega)

/-- the two slice updates of a sweep: `P` on rows `k..k+d-1` from column `c0` on, `Pᵀ` on the columns `k..k+d-1` down to
row `r1` -/
theorem conj_slices {t h ht : Mat K} {n k d c0 r1 : Nat} {f P : Nat → Nat → K} (hd : 0 < d) (ht0 : t.Is n n f)
    (hh : h.Is d d P) (hht : ht.Is d d (fun i j => P j i)) (hkd : k + d ≤ n) (hc0 : c0 ≤ k) (hr1 : k + d ≤ r1)
    (hr1n : r1 ≤ n)
    (hP : ∀ a b, a < d → b < d → ∑ i ∈ range d, P i a * P i b = if a = b then 1 else 0) :
    ∃ (s s1 t1 s2 s3 t2 : Mat K) (f2 : Nat → Nat → K), t.getSlice k (k + d - 1) c0 (n - 1) = some s ∧
      h.mul s = some s1 ∧ t.setSlice s1 k c0 = some t1 ∧ t1.getSlice 0 (r1 - 1) k (k + d - 1) = some s2 ∧
      s2.mul ht = some s3 ∧ t1.setSlice s3 0 k = some t2 ∧ t2.Is n n f2 ∧
      ∑ i ∈ range n, f2 i i = ∑ i ∈ range n, f i i := by
  obtain ⟨s, e1, i1⟩ := Mat.getSlice_is (r1 := k) (r2 := k + d - 1) (c1 := c0) (c2 := n - 1) ht0 (by omega) (by omega)
    (by omega) (by omega)
  rw [show k + d - 1 - k + 1 = d by omega] at i1
  obtain ⟨s1, e2, i2⟩ := Mat.mul_is hh i1
  obtain ⟨t1, e3, i3⟩ := Mat.setSlice_is (r := k) (c := c0) ht0 i2 hkd (by omega)
  obtain ⟨s2, e4, i4⟩ := Mat.getSlice_is (r1 := 0) (r2 := r1 - 1) (c1 := k) (c2 := k + d - 1) i3 (by omega) (by omega)
    (by omega) (by omega)
  rw [show k + d - 1 - k + 1 = d by omega] at i4
  obtain ⟨s3, e5, i5⟩ := Mat.mul_is i4 hht
  obtain ⟨t2, e6, i6⟩ := Mat.setSlice_is (r := 0) (c := k) i3 i5 (by omega) (by omega)
  refine ⟨s, s1, t1, s2, s3, t2, _, e1, e2, e3, e4, e5, e6, i6, ?_⟩
  refine sum_block hkd _ _ (fun i hi hni => ?_) ?_
  · rw [if_neg (by omega), if_neg (by omega)]
  · rw [← block_trace (P := P) (X := fun a b => f (k + a) (k + b)) hP]
    refine sum_congr rfl fun i hi => ?_
    have hi' := mem_range.1 hi
    rw [if_pos (by omega)]
    refine sum_congr rfl fun l hl => ?_
    have hl' := mem_range.1 hl
    rw [show k + i - k = i by omega, if_pos (by omega)]
    congr 1
    refine sum_congr rfl fun m _ => ?_
    congr 1 <;> [congr 1; congr 1] <;> omega

theorem hhM_cols {d : Nat} {h : Mat K} {w : Fin d → K} (hr : Repr h (hhM w)) (hw : ∑ i, w i * w i = 1) :
    ∀ a b, a < d → b < d → ∑ i ∈ range d, extM (hhM w) i a * extM (hhM w) i b = if a = b then 1 else 0 := by
  intro a b ha hb
  have e := congrFun (congrFun (hhM_orth hw) ⟨a, ha⟩) ⟨b, hb⟩
  rw [Matrix.mul_apply, Matrix.one_apply] at e
  simp only [Fin.mk.injEq] at e
  rw [← e, ← Mat.sum_fin]
  refine sum_congr rfl fun i _ => ?_
  rw [extM_lt (hhM w) i.2 ha, extM_lt (hhM w) i.2 hb]
  congr 1
  have := congrFun (congrFun (hhM_transpose w) ⟨a, ha⟩) i
  rw [← this]; rfl

/-- a reflection of the sweep keeps the size and the trace -/
theorem francisRefl_inv (hs : IsSqrt sqrt) {n p k : Nat} {st st' : Mat K × Mat K × K × K × K} {f : Nat → Nat → K}
    (h0 : st.1.Is n n f) (hp : p ≤ n) (hk : k + 2 < p) (h : Mat.francisRefl sqrt n p st k = some st') :
    ∃ f', st'.1.Is n n f' ∧ ∑ i ∈ range n, f' i i = ∑ i ∈ range n, f i i := by
  unfold Mat.francisRefl at h
  simp only [Option.bind_eq_bind] at h
  obtain ⟨b, hb1, hb2⟩ := Mat.newColumn_is (n := 3) (fun i => [st.2.2.1, st.2.2.2.1, st.2.2.2.2].getD i 0)
  have hb1' : Mat.newColumn 3 [st.2.2.1, st.2.2.2.1, st.2.2.2.2] = some b := hb1
  rw [hb1', Option.bind_some] at h
  obtain ⟨s, hs1, hs2⟩ := Mat.getSlice_is (r1 := k) (r2 := k + 2) (c1 := max k 1 - 1) (c2 := n - 1) h0 (by omega)
    (by omega) (by omega) (by omega)
  rcases householder_is hs (k := 0) hb2.colRepr (by norm_num) (by norm_num) with ⟨-, e⟩ |
    ⟨H, w, al, e, hH, hw, -⟩
  · rw [e, Option.bind_some, hs1, Option.bind_some] at h
    have : (Mat.one 1 : Mat K).mul s = none := by
      unfold Mat.mul
      rw [if_neg]
      rw [hs2.hm]
      show ¬ (1 = k + 2 - k + 1)
      omega
    rw [this] at h
    cases h
  · rw [e, Option.bind_some] at h
    obtain ⟨ht, e2, hht⟩ := Mat.transpose_is hH.is (Or.inl rfl) (Or.inl (by norm_num))
    obtain ⟨s, s1, t1, s2, s3, t2, f2, a1, a2, a3, a4, a5, a6, a7, a8⟩ := conj_slices (d := 3) (k := k)
      (c0 := max k 1 - 1) (r1 := min p (k + 4)) (by norm_num) h0 hH.is hht (by omega) (by omega) (by omega) (by omega)
      (hhM_cols hH hw)
    rw [show k + 3 - 1 = k + 2 by omega] at a1 a4
    rw [a1, Option.bind_some, a2, Option.bind_some, a3, Option.bind_some, e2, Option.bind_some, a4, Option.bind_some, a5,
      Option.bind_some, a6, Option.bind_some] at h
    simp only [Option.bind_eq_some_iff] at h
    obtain ⟨_, -, _, -, _, -, _, -, _, -, h⟩ := h
    split at h
    all_goals
      simp only [Option.bind_eq_some_iff] at h
      obtain ⟨_, -, h⟩ := h
      cases h
      exact ⟨f2, a7, a8⟩

/-- the rotation at the end of the sweep keeps the size and the trace -/
theorem francisRot_inv {n p : Nat} {t u : Mat K} {x y : K} {r : Mat K × Mat K} {f : Nat → Nat → K}
    (hcs : (Mat.givensPair sqrt x y).1 * (Mat.givensPair sqrt x y).1 +
      (Mat.givensPair sqrt x y).2 * (Mat.givensPair sqrt x y).2 = 1)
    (h0 : t.Is n n f) (hp : p ≤ n) (hp2 : 2 < p) (h : Mat.francisRot sqrt n p t u x y = some r) :
    ∃ f', r.1.Is n n f' ∧ ∑ i ∈ range n, f' i i = ∑ i ∈ range n, f i i := by
  unfold Mat.francisRot at h
  simp only [Option.bind_eq_bind] at h
  generalize Mat.givensPair sqrt x y = cs at hcs h
  obtain ⟨g, e, hg⟩ := repr_givens (m := 2) (i := 0) (j := 1) (by decide) cs.1 cs.2
  have e' : Mat.givens 2 0 1 cs.1 cs.2 = some g := e
  rw [e', Option.bind_some] at h
  obtain ⟨gt, e2, hgt⟩ := Mat.transpose_is hg.is (Or.inl rfl) (Or.inl (by norm_num))
  have hP : ∀ a b, a < 2 → b < 2 → ∑ i ∈ range 2, extM (givensM (0 : Fin 2) 1 cs.1 cs.2) i a *
      extM (givensM (0 : Fin 2) 1 cs.1 cs.2) i b = if a = b then 1 else 0 := by
    intro a b ha hb
    interval_cases a <;> interval_cases b <;> simp [sum_range_succ, extM, givensM] <;>
      first | linear_combination hcs | ring
  obtain ⟨s, s1, t1, s2, s3, t2, f2, a1, a2, a3, a4, a5, a6, a7, a8⟩ := conj_slices (d := 2) (k := p - 2)
    (c0 := p - 3) (r1 := p) (by norm_num) h0 hg.is hgt (by omega) (by omega) (by omega) (by omega) hP
  rw [show p - 2 + 2 - 1 = p - 1 by omega] at a1 a4
  rw [a1, Option.bind_some, a2, Option.bind_some, a3, Option.bind_some, e2, Option.bind_some, a4, Option.bind_some, a5,
    Option.bind_some, a6, Option.bind_some] at h
  simp only [Option.bind_eq_some_iff] at h
  obtain ⟨_, -, _, -, _, -, h⟩ := h
  cases h
  exact ⟨f2, a7, a8⟩

omit [IsStrictOrderedRing K] in
/-- the convergence check keeps the diagonal -/
theorem francisDeflate_inv {n p : Nat} {eps : K} {t : Mat K} {r : Mat K × Nat} {f : Nat → Nat → K}
    (h0 : t.Is n n f) (hp : p ≤ n) (hp2 : 2 < p) (h : Mat.francisDeflate eps t p = some r) :
    r.2 < p ∧ ∃ f', r.1.Is n n f' ∧ ∀ i, f' i i = f i i := by
  unfold Mat.francisDeflate at h
  simp only [Option.bind_eq_bind] at h
  rw [h0.get (by omega) (by omega), Option.bind_some, h0.get (by omega) (by omega), Option.bind_some,
    h0.get (by omega) (by omega), Option.bind_some] at h
  split at h
  · rw [h0.set (by omega) (by omega), Option.bind_some] at h
    cases h
    refine ⟨by simp only; omega, _, h0.put (by omega) (by omega) 0, fun i => ?_⟩
    exact upd_ne _ _ (by omega)
  · rw [h0.get (by omega) (by omega), Option.bind_some, h0.get (by omega) (by omega), Option.bind_some] at h
    split at h
    · rw [h0.set (by omega) (by omega), Option.bind_some] at h
      cases h
      refine ⟨by simp only; omega, _, h0.put (by omega) (by omega) 0, fun i => ?_⟩
      exact upd_ne _ _ (by omega)
    · cases h
      exact ⟨by simp only; omega, f, h0, fun _ => rfl⟩

theorem francisBody_inv (hs : IsSqrt sqrt) (hcs : ∀ x y, (Mat.givensPair sqrt x y).1 * (Mat.givensPair sqrt x y).1 +
      (Mat.givensPair sqrt x y).2 * (Mat.givensPair sqrt x y).2 = 1) {eps : K} {n p : Nat} {t u : Mat K}
    {r : Mat K × Mat K × Nat} {f : Nat → Nat → K} (h0 : t.Is n n f) (hp : p ≤ n) (hp2 : 2 < p)
    (h : Mat.francisBody sqrt eps n t u p = some r) :
    r.2.2 < p ∧ ∃ f', r.1.Is n n f' ∧ ∑ i ∈ range n, f' i i = ∑ i ∈ range n, f i i := by
  unfold Mat.francisBody at h
  simp only [Option.bind_eq_bind, Option.bind_eq_some_iff] at h
  obtain ⟨_, -, _, -, _, -, _, -, _, -, _, -, _, -, _, -, _, -, st, e1, tu, e2, tp, e3, h⟩ := h
  cases h
  have i1 := forRange_inv_of_some (P := fun _ (st : Mat K × Mat K × K × K × K) => ∃ f', st.1.Is n n f' ∧
    ∑ i ∈ range n, f' i i = ∑ i ∈ range n, f i i) ⟨f, h0, rfl⟩ (by
      rintro i v v' - hi ⟨f1, a1, a2⟩ hv
      obtain ⟨f2, b1, b2⟩ := francisRefl_inv hs a1 hp (by omega) hv
      exact ⟨f2, b1, b2.trans a2⟩) e1
  obtain ⟨f1, a1, a2⟩ := i1
  obtain ⟨f2, b1, b2⟩ := francisRot_inv (hcs _ _) a1 hp hp2 e2
  obtain ⟨hlt, f3, c1, c2⟩ := francisDeflate_inv b1 hp hp2 e3
  refine ⟨hlt, f3, c1, ?_⟩
  simp only [c2]
  rw [b2, a2]

theorem francisLoop_inv (hs : IsSqrt sqrt) (hcs : ∀ x y, (Mat.givensPair sqrt x y).1 * (Mat.givensPair sqrt x y).1 +
      (Mat.givensPair sqrt x y).2 * (Mat.givensPair sqrt x y).2 = 1) {eps : K} {n : Nat} (fuel : Nat) {p : Nat} {t u : Mat K}
    {r : Mat K × Mat K} {f : Nat → Nat → K} (h0 : t.Is n n f) (hp : p ≤ n)
    (h : Mat.francisLoop sqrt eps n fuel t u p = some r) :
    ∃ f', r.2.Is n n f' ∧ ∑ i ∈ range n, f' i i = ∑ i ∈ range n, f i i := by
  induction fuel generalizing p t u f with
  | zero => cases h
  | succ fuel ih =>
    rw [Mat.francisLoop] at h
    by_cases hp2 : p > 2
    · rw [if_pos hp2] at h
      simp only [Option.bind_eq_bind, Option.bind_eq_some_iff] at h
      obtain ⟨q, e1, e2⟩ := h
      obtain ⟨a1, f1, a2, a3⟩ := francisBody_inv hs hcs h0 hp hp2 e1
      obtain ⟨f2, b1, b2⟩ := ih a2 (by omega) e2
      exact ⟨f2, b1, b2.trans a3⟩
    · rw [if_neg hp2] at h
      cases h
      exact ⟨f, h0, rfl⟩

/-- the fuel of the model never runs out: more of it changes nothing -/
theorem francisLoop_fuel (hs : IsSqrt sqrt) (hcs : ∀ x y, (Mat.givensPair sqrt x y).1 * (Mat.givensPair sqrt x y).1 +
      (Mat.givensPair sqrt x y).2 * (Mat.givensPair sqrt x y).2 = 1) {eps : K} {n : Nat} (fuel m : Nat) {p : Nat}
    {t u : Mat K} {f : Nat → Nat → K} (h0 : t.Is n n f) (hp : p ≤ n) (hf : p < fuel) :
    Mat.francisLoop sqrt eps n (fuel + m) t u p = Mat.francisLoop sqrt eps n fuel t u p := by
  induction fuel generalizing p t u f with
  | zero => omega
  | succ fuel ih =>
    rw [show fuel + 1 + m = fuel + m + 1 by omega, Mat.francisLoop, Mat.francisLoop]
    by_cases hp2 : p > 2
    · rw [if_pos hp2, if_pos hp2]
      cases e : Mat.francisBody sqrt eps n t u p with
      | none => rfl
      | some q =>
        obtain ⟨a1, f1, a2, a3⟩ := francisBody_inv hs hcs h0 hp hp2 e
        exact ih a2 (by omega) (by omega)
    · rw [if_neg hp2, if_neg hp2]

theorem diagLoop {t : Mat K} {n : Nat} {f : Nat → Nat → K} (h : t.Is n n f) :
    ∃ v, forRange 0 n (fun (e : Mat K) i => do
      let x ← t.get i i
      e.vset i x) (Mat.vzero n) = some v ∧ v.Is n 1 (fun i _ => f i i) :=
  Mat.fillCol (fun i => f i i) (Mat.vzero_is n) _ (by
    intro v i hi
    simp [h.get hi hi])

end

section
variable {n : Nat} {A v : Mat ℝ} {M : Matrix (Fin n) (Fin n) ℝ}

theorem givensPair_real (x y : ℝ) : (Mat.givensPair Real.sqrt x y).1 * (Mat.givensPair Real.sqrt x y).1 +
    (Mat.givensPair Real.sqrt x y).2 * (Mat.givensPair Real.sqrt x y).2 = 1 := (C15_givens_pair x y).1

/-- The convergence check: it lowers `p`, it replaces only subdiagonal entries below `eps` times the sum of the neighbouring
diagonal entries, by zero, and it does so for the last one whenever that one is below the bound. -/
theorem C76_deflate {t : Mat ℝ} {T : Matrix (Fin n) (Fin n) ℝ} (hT : Repr t T) (eps : ℝ) {p : Nat} (hp : p ≤ n) (hp2 : 2 < p) :
    ∃ t' p' T', Mat.francisDeflate eps t p = some (t', p') ∧ Repr t' T' ∧ p' < p ∧
      (∀ i j : Fin n, T' i j ≠ T i j → T' i j = 0 ∧ (i : Nat) = j + 1 ∧ |T i j| < eps * (|T j j| + |T i i|)) ∧
      (∀ i j : Fin n, (i : Nat) + 1 = p → (j : Nat) + 2 = p → |T i j| < eps * (|T j j| + |T i i|) → T' i j = 0) := by
  unfold Mat.francisDeflate
  simp only [Option.bind_eq_bind]
  have h0 := hT.is
  rw [h0.get (by omega) (by omega), Option.bind_some, h0.get (by omega) (by omega), Option.bind_some,
    h0.get (by omega) (by omega), Option.bind_some]
  have key : ∀ a : Nat, a + 1 < n → ∀ {b : ℝ}, |extM T (a + 1) a| < b → b = eps * (|extM T a a| + |extM T (a + 1) (a + 1)|) →
      ∀ i j : Fin n, mx n n (upd (extM T) (a + 1) a 0) i j ≠ T i j →
      mx n n (upd (extM T) (a + 1) a 0) i j = 0 ∧ (i : Nat) = j + 1 ∧ |T i j| < eps * (|T j j| + |T i i|) := by
    intro a ha b hb hb' i j hij
    rw [mx_apply] at hij ⊢
    by_cases h : (i : Nat) = a + 1 ∧ (j : Nat) = a
    · obtain ⟨h1, h2⟩ := h
      rw [h1, h2, upd_same]
      refine ⟨rfl, rfl, ?_⟩
      rw [hb'] at hb
      rw [← extM_apply T i j, ← extM_apply T i i, ← extM_apply T j j, h1, h2]
      exact hb
    · rw [upd_ne _ _ h, extM_apply] at hij
      exact absurd rfl hij
  split
  · rename_i hc
    rw [h0.set (by omega) (by omega), Option.bind_some]
    have e : p - 1 = p - 2 + 1 := by omega
    refine ⟨_, _, _, rfl, (h0.put (by omega) (by omega) 0).repr, by omega, ?_, ?_⟩
    · rw [e] at hc ⊢
      exact key (p - 2) (by omega) hc rfl
    · intro i j hi hj _
      rw [mx_apply, show (i : Nat) = p - 1 by omega, show (j : Nat) = p - 2 by omega, upd_same]
  · rename_i hc
    have last : ∀ i j : Fin n, (i : Nat) + 1 = p → (j : Nat) + 2 = p → ¬ |T i j| < eps * (|T j j| + |T i i|) := by
      intro i j hi hj h
      apply hc
      rw [← extM_apply T i j, ← extM_apply T i i, ← extM_apply T j j, show (i : Nat) = p - 1 by omega,
        show (j : Nat) = p - 2 by omega] at h
      exact h
    rw [h0.get (by omega) (by omega), Option.bind_some, h0.get (by omega) (by omega), Option.bind_some]
    split
    · rename_i hc2
      rw [h0.set (by omega) (by omega), Option.bind_some]
      have e : p - 2 = p - 3 + 1 := by omega
      refine ⟨_, _, _, rfl, (h0.put (by omega) (by omega) 0).repr, by omega, ?_, fun i j hi hj h => absurd h (last i j hi hj)⟩
      rw [e] at hc2 ⊢
      exact key (p - 3) (by omega) hc2 rfl
    · exact ⟨_, _, _, rfl, hT, by omega, fun i j h => absurd rfl h, fun i j hi hj h => absurd h (last i j hi hj)⟩

/-- Whenever `eigenvalue_r` returns, its values add up to the trace, as the eigenvalues (with multiplicity) do, for every
size and every threshold. Missing from C76: that each value is an eigenvalue (false, see `C76_two_violated`). -/
theorem C76_trace_partial (hA : Repr A M) {eps : ℝ} (h : A.eigenvalueR Real.sqrt eps = some v) :
    ∃ x : Fin n → ℝ, ColRepr v x ∧ ∑ i, x i = M.trace := by
  unfold Mat.eigenvalueR at h
  simp only [Option.bind_eq_bind, Option.bind_eq_some_iff] at h
  obtain ⟨⟨q, hh⟩, e1, ⟨u, t⟩, e2, e3⟩ := h
  obtain ⟨Q, H, a1, a2, a3, a4, a5, -, -⟩ := decHess_inv isSqrt_real hA e1
  unfold Mat.francis at e2
  rw [a2.rows, a2.cols] at e2
  obtain ⟨f, b1, b2⟩ := francisLoop_inv isSqrt_real givensPair_real (n + 1) a2.is le_rfl e2
  obtain ⟨w, c1, c2⟩ := diagLoop b1
  rw [hA.rows] at e3
  have : w = v := Option.some.inj (c1.symm.trans e3)
  subst this
  refine ⟨fun i => f i i, c2.colRepr_of (fun _ => rfl), ?_⟩
  rw [Mat.sum_fin n (fun i => f i i), b2, ← Mat.sum_fin n (fun i => extM H i i)]
  simp only [extM_apply]
  rw [← a3, Matrix.trace_mul_comm, ← Matrix.mul_assoc, a5, Matrix.one_mul]
  rfl

/-- For every `2×2` matrix the 'eigenvalues' are its diagonal entries. -/
theorem eigenvalue_two {A v : Mat ℝ} {M : Matrix (Fin 2) (Fin 2) ℝ} (hA : Repr A M) {eps : ℝ}
    (h : A.eigenvalueR Real.sqrt eps = some v) : ColRepr v (fun i => M i i) := by
  unfold Mat.eigenvalueR at h
  simp only [Option.bind_eq_bind, Option.bind_eq_some_iff] at h
  obtain ⟨⟨q, hh⟩, e1, ⟨u, t⟩, e2, e3⟩ := h
  unfold Mat.decHess at e1
  rw [hA.rows, hA.cols, if_pos (by simp), forRange_step (by norm_num)] at e1
  simp only [forRange_empty (by norm_num : 2 ≤ 1 + 1), Option.bind_eq_bind, Option.bind_eq_some_iff] at e1
  obtain ⟨st, ⟨st', f1, f2⟩, q', f3, f4⟩ := e1
  cases f2
  cases f4
  unfold Mat.hessStep at f1
  obtain ⟨c, c1, c2⟩ := Mat.getColumn_is hA.is (j := 0) (by omega)
  have hc : ColRepr c (fun i => M i 0) := c2.colRepr_of (fun i => by
    exact extM_apply M i 0)
  simp only [Option.bind_eq_bind, Nat.sub_self] at f1
  rw [c1, Option.bind_some] at f1
  rcases householder_is isSqrt_real hc (k := 1) (by norm_num) (by norm_num) with ⟨-, hz⟩ | ⟨H, w, al, g1, g2, g3, g4, -⟩
  · rw [hz, Option.bind_some, show (Mat.one 1 : Mat ℝ).mul A = none by
      unfold Mat.mul
      rw [if_neg]
      rw [hA.rows]
      show ¬ (1 = 2)
      omega] at f1
    cases f1
  · rw [g1, Option.bind_some] at f1
    obtain ⟨B, b1, b2⟩ := repr_mul g2 hA
    obtain ⟨C, d1, d2⟩ := repr_mul g2 (repr_one (K := ℝ) 2)
    obtain ⟨Ht, i1, i2⟩ := Mat.transpose_is g2.is (Or.inl rfl) (Or.inl (by norm_num))
    have i3 : Repr Ht (hhM w).transpose := i2.repr_of (fun a b => extM_apply _ b a)
    obtain ⟨E, j1, j2⟩ := repr_mul b2 i3
    rw [b1, Option.bind_some, d1, Option.bind_some, i1, Option.bind_some, j1, Option.bind_some] at f1
    cases f1
    unfold Mat.francis at e2
    simp only [j2.rows, j2.cols] at e2
    rw [Mat.francisLoop, if_neg (by norm_num)] at e2
    cases e2
    obtain ⟨w', k1, k2⟩ := diagLoop j2.is
    rw [hA.rows] at e3
    have : w' = v := Option.some.inj (k1.symm.trans e3)
    subst this
    refine k2.colRepr_of (fun i => ?_)
    rw [extM_apply]
    have w0 : w 0 = 0 := g4 0 (by norm_num)
    have w1 : w 1 * w 1 = 1 := by simpa [Fin.sum_univ_two, w0] using g3
    fin_cases i <;> simp [Matrix.mul_apply, Fin.sum_univ_two, hhM, w0, w1] <;> norm_num

/-- No `2×2` matrix with two non-zero off-diagonal entries gets a correct eigenvalue: the result is the diagonal, and
`det (A - λ 1) ≠ 0` for both values. -/
theorem C76_two_violated {A v : Mat ℝ} {M : Matrix (Fin 2) (Fin 2) ℝ} (hA : Repr A M) {eps : ℝ}
    (h01 : M 0 1 ≠ 0) (h10 : M 1 0 ≠ 0) (h : A.eigenvalueR Real.sqrt eps = some v) :
    ∃ x : Fin 2 → ℝ, ColRepr v x ∧ ∀ i, (M - x i • (1 : Matrix (Fin 2) (Fin 2) ℝ)).det ≠ 0 := by
  refine ⟨_, eigenvalue_two hA h, fun i => ?_⟩
  fin_cases i <;> simp [Matrix.det_fin_two, h01, h10]

end

section
variable {K : Type} [Field K] [LinearOrder K] [IsStrictOrderedRing K]
open Matrix

/-- The column computed for one value: solution of `(A - λ 1) v = 0` by LU decomposition. It is the zero vector when no
pivot is zero, and a non-zero solution when the last pivot is the only zero one. -/
theorem solveV_zero {n : Nat} {B : Mat K} {N : Matrix (Fin n) (Fin n) K} (hB : Repr B N) :
    ∃ l u p v x, B.decLU = some (l, u, p) ∧ B.solveV (Mat.vzero n) = some v ∧ ColRepr v x ∧
      ((∀ i, i < n → u.get i i ≠ some 0) → x = 0) ∧
      ((∀ i, i + 1 < n → u.get i i ≠ some 0) → (∃ i, i + 1 = n ∧ u.get i i = some 0) → N *ᵥ x = 0 ∧ x ≠ 0) := by
  obtain ⟨l, u, p, L, U, σ, e1, e2, e3, e4, e5, e6, e7, e8⟩ := C11_lu_exact hB
  have hz : ColRepr (Mat.vzero n : Mat K) (0 : Fin n → K) := (Mat.vzero_is n).colRepr_of (fun i => by simp)
  obtain ⟨w, w1, w2⟩ := repr_perm_mulVec e4 hz
  obtain ⟨z, zx, z1, z2, z3⟩ := C14_forward_vector e2 w2 e6 (fun i => by rw [e5]; exact one_ne_zero)
  rw [mulVec_zero] at z3
  have hdet : L.det ≠ 0 := by
    rw [det_of_isLowerTriangular L (fun i j hij => e6 i j hij)]
    simp [e5]
  have hzx : zx = 0 := Matrix.eq_zero_of_mulVec_eq_zero hdet z3
  obtain ⟨v, g, v1, v2, v3, v4, -⟩ := Mat.substBwdV_is e3.is z2.is (le_refl n) (le_refl n)
  have hsolve : B.solveV (Mat.vzero n) = some v := by
    simp only [Mat.solveV, Mat.luSolveV, e1, w1, z1, v1, Option.bind_eq_bind, Option.bind_some]
  have hget : ∀ i : Fin n, u.get i i = some (U i i) := fun i => by rw [e3.is.get i.2 i.2, extM_apply]
  have hrow : ∀ i : Fin n, U i i ≠ 0 → (U *ᵥ fun i => g i 0) i = 0 := by
    intro k hk
    have := v3 k k.2 (by rwa [extM_apply])
    rw [extV_apply, hzx] at this
    rw [Pi.zero_apply] at this
    rw [← this, ← upper_sum (n := n) (extM U) (fun l => g l 0) k.2 (fun l h1 => by
      rw [extM_lt U k.2 (by omega)]; exact e7 _ _ h1), ← Mat.sum_fin]
    simp only [extM_apply]
    rfl
  refine ⟨l, u, p, v, fun i => g i 0, e1, hsolve, v2.colRepr_of (fun _ => rfl), fun h => ?_, fun h1 h2 => ?_⟩
  · have hU : ∀ i : Fin n, U i i ≠ 0 := fun i hi => h i i.2 (by rw [hget, hi])
    refine Matrix.eq_zero_of_mulVec_eq_zero (M := U) ?_ (funext fun i => hrow i (hU i))
    rw [det_of_isUpperTriangular (fun i j hij => e7 i j hij)]
    exact prod_ne_zero_iff.2 fun i _ => hU i
  · obtain ⟨i, rfl, hi⟩ := h2
    have hl : U (Fin.last i) (Fin.last i) = 0 := by
      have := hget (Fin.last i)
      rw [Fin.val_last, hi] at this
      exact (Option.some.inj this).symm
    have hgl : g i 0 = 1 := v4 i (by omega) (by
      have := extM_apply U (Fin.last i) (Fin.last i)
      rw [Fin.val_last] at this
      rw [this, hl])
    constructor
    · obtain ⟨L', U', σ', a1, a2, a3, a4, a5, a6, a7⟩ := C11_lu_partial hB e1 h1
      have eU : U' = U := by
        ext a b
        have := a2.is.get a.2 b.2
        rw [e3.is.get a.2 b.2, extM_apply, extM_apply] at this
        exact (Option.some.inj this).symm
      subst eU
      have hUx : U' *ᵥ (fun i => g i 0) = 0 := by
        funext k
        by_cases hk : U' k k = 0
        · have : k = Fin.last i := by
            by_contra hne
            have hlt := Fin.val_lt_last hne
            exact h1 k (by omega) (by rw [hget, hk])
          subst this
          rw [Matrix.mulVec, dotProduct]
          refine sum_eq_zero fun j _ => ?_
          rcases Fin.lt_or_eq_of_le (Fin.le_last j) with hj | hj
          · rw [e7 _ _ hj, zero_mul]
          · rw [hj, hl, zero_mul]
        · exact hrow k hk
      have h3 : σ'.permMatrix K *ᵥ (N *ᵥ fun i => g i 0) = 0 := by
        rw [mulVec_mulVec, a7, ← mulVec_mulVec, hUx, mulVec_zero]
      funext k
      have := congrFun h3 (σ'.symm k)
      rw [Matrix.permMatrix_mulVec] at this
      simpa using this
    · intro h0
      have := congrFun h0 (Fin.last i)
      simp [hgl] at this

/-- `eigenvector_r` returns for every square matrix and every list of values. In column `c` it puts an eigenvector for the
`c`-th value `λ` when the LU decomposition of `A - λ 1` has a zero pivot in the last place and nowhere else (the usual
case of a simple eigenvalue); it puts the zero vector when no pivot is zero. Missing from C76: the remaining pivot
patterns, see `C76_eigenvector_violated`. -/
theorem C76_eigenvector_partial {n : Nat} {A value : Mat K} {M : Matrix (Fin n) (Fin n) K} {x : Fin n → K}
    (hA : Repr A M) (hx : ColRepr value x) :
    ∃ V W, A.eigenvectorR value = some V ∧ Repr V W ∧ ∀ c : Fin n, ∃ B l u p, Repr B (M - x c • (1 : Matrix (Fin n) (Fin n) K)) ∧
      B.decLU = some (l, u, p) ∧
      ((∀ i, i < n → u.get i i ≠ some 0) → ∀ i, W i c = 0) ∧
      ((∀ i, i + 1 < n → u.get i i ≠ some 0) → (∃ i, i + 1 = n ∧ u.get i i = some 0) →
        (M *ᵥ (fun i => W i c)) = x c • (fun i => W i c) ∧ (fun i => W i c) ≠ 0) := by
  have hcol : ∀ c : Fin n, ∃ B l u p v y, A.sub ((Mat.one n : Mat K).mulScalar (x c)) = some B ∧
      B.solveV (Mat.vzero n) = some v ∧ ColRepr v y ∧ Repr B (M - x c • (1 : Matrix (Fin n) (Fin n) K)) ∧ B.decLU = some (l, u, p) ∧
      ((∀ i, i < n → u.get i i ≠ some 0) → y = 0) ∧
      ((∀ i, i + 1 < n → u.get i i ≠ some 0) → (∃ i, i + 1 = n ∧ u.get i i = some 0) →
        (M - x c • (1 : Matrix (Fin n) (Fin n) K)) *ᵥ y = 0 ∧ y ≠ 0) := by
    intro c
    obtain ⟨B, h1, h2⟩ := repr_sub hA (repr_mulScalar (repr_one (K := K) n) (x c))
    obtain ⟨l, u, p, v, y, h3, h4, h5, h6, h7⟩ := solveV_zero h2
    exact ⟨B, l, u, p, v, y, h1, h4, h5, h2, h3, h6, h7⟩
  choose B l u p v y h1 h2 h3 h4 h5 h6 h7 using hcol
  have hlen : value.data.length = n := by rw [hx.is.hlen]; omega
  have hdat : ∀ c : Fin n, value.data[(c : Nat)]? = some (x c) := fun c => by
    have := hx.is.get c.2 (j := 0) (by omega)
    rw [extV_apply] at this
    simpa [Mat.get, hx.is.hm, hx.is.hn] using this
  obtain ⟨V, e1, e2⟩ := forRange_inv (a := 0) (b := n) (s := (Mat.zero n n : Mat K))
    (f := fun (vs : Mat K) c => do
      let val ← value.data[c]?
      let diff ← A.sub ((Mat.one n).mulScalar val)
      let v ← diff.solveV (Mat.vzero n)
      vs.setColumn v c)
    (fun k V => V.Is n n (fun i j => if h : j < n then (if j < k then extV (y ⟨j, h⟩) i else 0) else 0)) (by omega)
    ((Mat.zero_is n n).congr (by intro i j hi hj; simp)) (by
      intro k V _ hk hV
      have hk' : value.data[k]? = some (x ⟨k, hk⟩) := hdat ⟨k, hk⟩
      obtain ⟨V', a1, a2⟩ := Mat.setColumn_is hV (h3 ⟨k, hk⟩).is hk
      refine ⟨V', ?_, a2.congr ?_⟩
      · simp only [hk', h1, h2, a1, Option.bind_eq_bind, Option.bind_some]
      · intro i j hi hj
        by_cases e : j = k
        · subst e; simp [hj]
        · have : j < k ↔ j < k + 1 := by omega
          simp only [e, if_false, this])
  refine ⟨V, mx n n (fun i j => if h : j < n then (if j < n then extV (y ⟨j, h⟩) i else 0) else 0), ?_, e2.repr, fun c => ?_⟩
  · unfold Mat.eigenvectorR
    rw [hlen, hA.rows]
    exact e1
  · have hW : ∀ i, mx n n (fun i j => if h : j < n then (if j < n then extV (y ⟨j, h⟩) i else 0) else 0) i c = y c i := by
      intro i
      simp [mx, extV_apply]
    simp only [hW]
    refine ⟨B c, l c, u c, p c, h4 c, h5 c, fun h i => by rw [h6 c h]; rfl, fun ha hb => ?_⟩
    obtain ⟨q1, q2⟩ := h7 c ha hb
    refine ⟨?_, q2⟩
    rw [sub_mulVec, smul_mulVec, one_mulVec, sub_eq_zero] at q1
    exact q1

/-- A `1×1` matrix: the value is the entry and the vector is not zero. -/
theorem C76_one {A : Mat ℝ} {M : Matrix (Fin 1) (Fin 1) ℝ} (hA : Repr A M) (eps : ℝ) :
    ∃ v V, ∃ W : Matrix (Fin 1) (Fin 1) ℝ, A.decEigen Real.sqrt eps = some (v, V) ∧ ColRepr v (fun i => M i i) ∧
      Repr V W ∧ W 0 0 ≠ 0 := by
  obtain ⟨q, q1, -⟩ := Mat.transpose_is (Mat.one_is (K := ℝ) 1) (Or.inl rfl) (Or.inl (by norm_num))
  obtain ⟨v, v1, v2⟩ := diagLoop hA.is
  have hval : A.eigenvalueR Real.sqrt eps = some v := by
    unfold Mat.eigenvalueR Mat.decHess
    rw [hA.rows, hA.cols, if_pos (by norm_num), forRange_empty (by norm_num)]
    simp only [Option.bind_eq_bind, Option.bind_some, q1, Mat.francis, hA.cols, hA.rows]
    rw [Mat.francisLoop, if_neg (by norm_num)]
    simp only [Option.bind_some]
    exact v1
  have hv : ColRepr v (fun i : Fin 1 => M i i) := v2.colRepr_of (fun i => by rw [extM_apply])
  obtain ⟨V, W, h1, h2, h3⟩ := C76_eigenvector_partial hA hv
  refine ⟨v, V, W, ?_, hv, h2, ?_⟩
  · unfold Mat.decEigen
    rw [hA.rows, hA.cols, if_pos (by norm_num)]
    simp only [Option.bind_eq_bind, Option.bind_some, hval, h1]
  · obtain ⟨B, l, u, p, b1, b2, -, b3⟩ := h3 0
    obtain ⟨L, U, σ, a1, a2, a3, a4, a5, a6, a7⟩ := C11_lu_partial b1 b2 (fun i hi => by omega)
    have hN : M - M 0 0 • (1 : Matrix (Fin 1) (Fin 1) ℝ) = 0 := by
      ext i j
      rw [Subsingleton.elim i 0, Subsingleton.elim j 0]
      simp
    rw [hN, mul_zero] at a7
    have h0 := congrFun (congrFun a7 0) 0
    simp [Matrix.mul_apply, a4] at h0
    obtain ⟨-, hne⟩ := b3 (fun i hi => by omega) ⟨0, rfl, by
      have := a2.is.get (i := 0) (j := 0) (by norm_num) (by norm_num)
      rw [this]
      exact congrArg some ((extM_apply U 0 0).trans h0.symm)⟩
    intro hW
    exact hne (funext fun i => by rw [Subsingleton.elim i 0]; exact hW)

/-- `[[0,1],[1,0]]` has the eigenvalues `1` and `-1`; `dec_eigen` returns `0` twice, with zero vectors. -/
theorem C76_eigen_violated : (⟨2, 2, [0, 1, 1, 0]⟩ : Mat ℚ).decEigen Rat.sqrt (1/4503599627370496) =
    some (⟨2, 1, [0, 0]⟩, ⟨2, 2, [0, 0, 0, 0]⟩) ∧
    (⟨2, 2, [0, 1, 1, 0]⟩ : Mat ℚ).mulVec ⟨2, 1, [1, 1]⟩ = some ⟨2, 1, [1, 1]⟩ ∧
    (⟨2, 2, [0, 1, 1, 0]⟩ : Mat ℚ).mulVec ⟨2, 1, [1, -1]⟩ = some ⟨2, 1, [-1, 1]⟩ := by decide +kernel

/-- The vector with which a sweep of a Hessenberg matrix `T` starts is the first column of `(T - α)(T - β) = T² - s T + d`,
where `s` and `d` are the trace and the determinant of the last active `2×2` block (with the eigenvalues `α` and `β`). -/
theorem C76_shift {n : Nat} (sqrt : ℝ → ℝ) (eps : ℝ) {t u : Mat ℝ} {T : Matrix (Fin n) (Fin n) ℝ} (hT : Repr t T)
    (hH : ∀ i j : Fin n, (j : Nat) + 1 < i → T i j = 0) {p : Nat} (hp : p ≤ n) (hp2 : 2 < p) :
    ∃ w : Fin n → ℝ, (∀ e : Fin 2 → Fin n, (e 0 : Nat) + 2 = p → (e 1 : Nat) + 1 = p →
        w = (T * T - (T.submatrix e e).trace • T + (T.submatrix e e).det • (1 : Matrix (Fin n) (Fin n) ℝ)).col ⟨0, by omega⟩) ∧
      (∀ i : Fin n, 2 < (i : Nat) → w i = 0) ∧
      Mat.francisBody sqrt eps n t u p = (do
        let st ← forRange 0 (p - 2) (Mat.francisRefl sqrt n p) (t, u, w ⟨0, by omega⟩, w ⟨1, by omega⟩, w ⟨2, by omega⟩)
        let tu ← Mat.francisRot sqrt n p st.1 st.2.1 st.2.2.1 st.2.2.2.1
        let tp ← Mat.francisDeflate eps tu.1 p
        some (tp.1, tu.2, tp.2)) := by
  have h0 := hT.is
  obtain ⟨e0, he0⟩ : ∃ e0 : Fin n, (e0 : Nat) + 2 = p := ⟨⟨p - 2, by omega⟩, by simp; omega⟩
  obtain ⟨e1, he1⟩ : ∃ e1 : Fin n, (e1 : Nat) + 1 = p := ⟨⟨p - 1, by omega⟩, by simp; omega⟩
  have hcol : ∀ i : Fin n, (T * T) i ⟨0, by omega⟩ = T i ⟨0, by omega⟩ * T ⟨0, by omega⟩ ⟨0, by omega⟩ +
      T i ⟨1, by omega⟩ * T ⟨1, by omega⟩ ⟨0, by omega⟩ := by
    intro i
    rw [Matrix.mul_apply, ← Finset.sum_subset (Finset.subset_univ {(⟨0, by omega⟩ : Fin n), ⟨1, by omega⟩}),
      Finset.sum_pair (by simp)]
    intro k _ hk
    rw [hH k ⟨0, by omega⟩, mul_zero]
    simp only [Finset.mem_insert, Finset.mem_singleton, Fin.ext_iff, not_or] at hk
    simp only
    omega
  refine ⟨(T * T - (T e0 e0 + T e1 e1) • T +
    (T e0 e0 * T e1 e1 - T e0 e1 * T e1 e0) • (1 : Matrix (Fin n) (Fin n) ℝ)).col ⟨0, by omega⟩, ?_, ?_, ?_⟩
  · intro e h1 h2
    have h3 : e 0 = e0 := Fin.ext (by omega)
    have h4 : e 1 = e1 := Fin.ext (by omega)
    simp [Matrix.det_fin_two, Matrix.trace_fin_two, h3, h4]
  · intro i hi
    simp only [Matrix.col_apply, Matrix.add_apply, Matrix.sub_apply, Matrix.smul_apply, smul_eq_mul, hcol]
    rw [hH i ⟨0, by omega⟩ (by simp only; omega), hH i ⟨1, by omega⟩ (by simp only; omega),
      Matrix.one_apply_ne (by simp only [ne_eq, Fin.ext_iff]; omega)]
    ring
  · unfold Mat.francisBody
    simp only [Option.bind_eq_bind]
    rw [h0.get (by omega) (by omega), Option.bind_some, h0.get (by omega) (by omega), Option.bind_some,
      h0.get (by omega) (by omega), Option.bind_some, h0.get (by omega) (by omega), Option.bind_some,
      h0.get (by omega) (by omega), Option.bind_some, h0.get (by omega) (by omega), Option.bind_some,
      h0.get (by omega) (by omega), Option.bind_some, h0.get (by omega) (by omega), Option.bind_some,
      h0.get (by omega) (by omega), Option.bind_some]
    have q0 : p - 2 = (e0 : Nat) := by omega
    have q1 : p - 1 = (e1 : Nat) := by omega
    have z0 : (0 : Nat) = ((⟨0, by omega⟩ : Fin n) : Nat) := rfl
    have hx : ∀ i j (hi : i < n) (hj : j < n), extM T i j = T ⟨i, hi⟩ ⟨j, hj⟩ := fun i j hi hj => extM_lt T hi hj
    rw [show extM T (p - 2) (p - 2) = T e0 e0 by rw [q0, extM_apply],
      show extM T (p - 2) (p - 1) = T e0 e1 by rw [q0, q1, extM_apply],
      show extM T (p - 1) (p - 2) = T e1 e0 by rw [q0, q1, extM_apply],
      show extM T (p - 1) (p - 1) = T e1 e1 by rw [q1, extM_apply],
      hx 0 0 (by omega) (by omega), hx 0 1 (by omega) (by omega), hx 1 0 (by omega) (by omega), hx 1 1 (by omega) (by omega),
      hx 2 1 (by omega) (by omega)]
    simp only [Matrix.col_apply, Matrix.add_apply, Matrix.sub_apply, Matrix.smul_apply, smul_eq_mul, hcol]
    rw [hH ⟨2, by omega⟩ ⟨0, by omega⟩ (by simp), Matrix.one_apply_eq, Matrix.one_apply_ne (by simp), Matrix.one_apply_ne (by simp)]
    congr 4
    ring_nf

/-- A `3×3` matrix with the eigenvalues `14`, `-12` and `0`; `dec_eigen` returns `0`, `2` and `0` (every size `≥ 3` gets one
sweep per row, whether or not it has converged). -/
theorem C76_three_violated : ((⟨3, 3, [0, 24, 0, 7, 2, 24, 0, 0, 0]⟩ : Mat ℚ).decEigen Rat.sqrt (1/4503599627370496)).map Prod.fst =
      some ⟨3, 1, [0, 2, 0]⟩ ∧
    (⟨3, 3, [0, 24, 0, 7, 2, 24, 0, 0, 0]⟩ : Mat ℚ).mulVec ⟨3, 1, [7, 14, 24]⟩ =
      some ((⟨3, 1, [7, 14, 24]⟩ : Mat ℚ).mulScalar 14) ∧
    (⟨3, 3, [0, 24, 0, 7, 2, 24, 0, 0, 0]⟩ : Mat ℚ).mulVec ⟨3, 1, [7, -12, 24]⟩ =
      some ((⟨3, 1, [7, -12, 24]⟩ : Mat ℚ).mulScalar (-12)) ∧
    (⟨3, 3, [0, 24, 0, 7, 2, 24, 0, 0, 0]⟩ : Mat ℚ).mulVec ⟨3, 1, [0, 0, 1]⟩ = some ⟨3, 1, [0, 0, 0]⟩ := by
  decide +kernel

/-- Given the exact eigenvalues `0, 0` of `[[0,1],[0,0]]`, `eigenvector_r` returns `[1,1]`, which is no eigenvector. -/
theorem C76_eigenvector_violated : (⟨2, 2, [0, 0, 1, 0]⟩ : Mat ℚ).eigenvectorR ⟨2, 1, [0, 0]⟩ =
    some ⟨2, 2, [1, 1, 1, 1]⟩ ∧
    (⟨2, 2, [0, 0, 1, 0]⟩ : Mat ℚ).mulVec ⟨2, 1, [1, 1]⟩ = some ⟨2, 1, [1, 0]⟩ := by decide +kernel

example : (⟨2, 2, [2, 1, 1, 2]⟩ : Mat ℚ).eigenvectorR ⟨2, 1, [1, 3]⟩ = some ⟨2, 2, [-1, 1, 1, 1]⟩ := by decide +kernel

example : (⟨2, 2, [1, 3, 2, 4]⟩ : Mat ℚ).eigenvalueR Rat.sqrt 0 = some ⟨2, 1, [1, 4]⟩ := by decide +kernel

end
end Verif
