import Verif.FloatLemmas

/-! # Triangular substitution over any number type, and its rounding errors -/

set_option linter.unusedSectionVars false

namespace Verif
open Finset

namespace Mat
section Ops
variable {K : Type} [Zero K] [One K] [Add K] [Sub K] [Mul K] [Div K] [LinearOrder K]

/-- `((b - g 0) - g 1) - …`, `n` terms subtracted from the left -/
def subAccum (b : K) (g : Nat → K) : Nat → K
  | 0 => b
  | n + 1 => subAccum b g n - g n

theorem subAccum_congr {b b' : K} {g g' : Nat → K} {n : Nat} (hb : b = b') (h : ∀ k, k < n → g k = g' k) :
    subAccum b g n = subAccum b' g' n := by
  induction n with
  | zero => exact hb
  | succ n ih => rw [subAccum, subAccum, ih (fun k hk => h k (by omega)), h n (by omega)]

theorem substInnerV_ops {A b : Mat K} {m n q N : Nat} {f g} (hA : A.Is m n f) (hb : b.Is q 1 g) (idx : Nat → Nat)
    {k : Nat} (hk : k < q) (hkm : k < m) (hidx : ∀ s, s < N → idx s < q ∧ idx s < n ∧ idx s ≠ k) :
    ∃ b', forRange 0 N (fun (b : Mat K) s => do
      let x ← b.vget k
      let a ← A.get k (idx s)
      let y ← b.vget (idx s)
      b.vset k (x - a * y)) b = some b' ∧
      b'.Is q 1 (fun r c => if r = k then subAccum (g k 0) (fun s => f k (idx s) * g (idx s) 0) N else g r c) :=
  forRange_inv (a := 0) (b := N) (s := b)
    (f := fun (b : Mat K) s => do
      let x ← b.vget k
      let a ← A.get k (idx s)
      let y ← b.vget (idx s)
      b.vset k (x - a * y))
    (fun t b => b.Is q 1 (fun r c => if r = k then subAccum (g k 0) (fun s => f k (idx s) * g (idx s) 0) t else g r c))
    (by omega) (hb.congr (by
      intro r c _ hc
      have : c = 0 := by omega
      subst this
      by_cases e : r = k
      · simp [e, subAccum]
      · simp [e])) (by
      intro s b' _ hs hb'
      obtain ⟨i1, i2, i3⟩ := hidx s hs
      refine ⟨_, by
        simp only [hb'.vget_col hk, hA.get hkm i2, hb'.vget_col i1, Option.bind_eq_bind, Option.bind_some]
        exact (hb'.vset_col hk _), ?_⟩
      refine (hb'.put hk (by omega) _).congr ?_
      intro r c _ hc
      have : c = 0 := by omega
      subst this
      by_cases e : r = k
      · subst e
        simp only [upd_same, if_true, i3, if_false, subAccum]
      · rw [upd_ne _ _ (by omega), if_neg e, if_neg e])

theorem substFwdV_ops {A b : Mat K} {m n q : Nat} {f g} (hA : A.Is m n f) (hb : b.Is q 1 g) (hm : n ≤ m)
    (hq : n ≤ q) (hd : ∀ k, k < n → f k k ≠ 0) :
    ∃ x g', substFwdV A b = some x ∧ x.Is q 1 g' ∧
      (∀ k, k < n → g' k 0 = subAccum (g k 0) (fun l => f k l * g' l 0) k / f k k) ∧
      ∀ k, n ≤ k → k < q → g' k 0 = g k 0 := by
  have := forRange_inv (a := 0) (b := n) (s := b)
    (f := fun (b : Mat K) k => do
    let b ← forRange 0 k (fun (b : Mat K) l => do
      let x ← b.vget k
      let a ← A.get k l
      let y ← b.vget l
      b.vset k (x - a * y)) b
    let x ← b.vget k
    let d ← A.get k k
    let q ← fdiv x d
    b.vset k q)
    (fun t b => ∃ g', b.Is q 1 g' ∧
      (∀ k, k < t → g' k 0 = subAccum (g k 0) (fun l => f k l * g' l 0) k / f k k) ∧
      ∀ k, t ≤ k → k < q → g' k 0 = g k 0) (by omega)
    ⟨g, hb, by intro k hk; omega, by intros; rfl⟩ (by
      rintro k b' _ hk ⟨g', h1, h2, h3⟩
      obtain ⟨b2, e1, e2⟩ := substInnerV_ops (N := k) hA h1 (fun l => l) (k := k) (by omega) (by omega)
        (by intro s hs; exact ⟨by omega, by omega, by omega⟩)
      have e3 := e2.vget_col (i := k) (by omega)
      rw [if_pos rfl] at e3
      refine ⟨_, by
        simp only [Option.bind_eq_bind] at e1 ⊢
        rw [e1]
        simp only [Option.bind_some, e3, hA.get (i := k) (j := k) (by omega) hk, fdiv, hd k hk, if_false]
        exact e2.vset_col (by omega) _, _, e2.put (by omega) (by omega) _, ?_, ?_⟩
      · intro j hj
        by_cases e : j = k
        · subst e
          rw [upd_same]
          congr 1
          refine subAccum_congr (h3 j (le_refl j) (by omega)) (fun l hl => ?_)
          rw [upd_ne _ _ (by omega), if_neg (by omega)]
        · rw [upd_ne _ _ (by omega), if_neg e, h2 j (by omega)]
          congr 1
          refine subAccum_congr rfl (fun l hl => ?_)
          rw [upd_ne _ _ (by omega), if_neg (by omega)]
      · intro j hj hj2
        rw [upd_ne _ _ (by omega), if_neg (by omega)]
        exact h3 j (by omega) hj2)
  obtain ⟨x, h1, g', h2, h3, h4⟩ := this
  refine ⟨x, g', ?_, h2, h3, h4⟩
  rw [substFwdV, hA.hn]; exact h1

theorem substBwdV_ops {A b : Mat K} {m n q : Nat} {f g} (hA : A.Is m n f) (hb : b.Is q 1 g) (hm : n ≤ m)
    (hq : n ≤ q) :
    ∃ x g', substBwdV A b = some x ∧ x.Is q 1 g' ∧
      (∀ k, k < n → g' k 0 = if f k k ≠ 0 then
        subAccum (g k 0) (fun s => f k (n - 1 - s) * g' (n - 1 - s) 0) (n - (k + 1)) / f k k else 1) ∧
      ∀ k, n ≤ k → k < q → g' k 0 = g k 0 := by
  have := forRange_inv (a := 0) (b := n) (s := b)
    (f := fun (b : Mat K) t => do
    let k := n - 1 - t
    let b ← forRange 0 (n - (k + 1)) (fun (b : Mat K) s => do
      let l := n - 1 - s
      let x ← b.vget k
      let a ← A.get k l
      let y ← b.vget l
      b.vset k (x - a * y)) b
    let x ← b.vget k
    let d ← A.get k k
    b.vset k (if d ≠ 0 then x / d else 1))
    (fun t b => ∃ g', b.Is q 1 g' ∧
      (∀ k, n - t ≤ k → k < n → g' k 0 = if f k k ≠ 0 then
        subAccum (g k 0) (fun s => f k (n - 1 - s) * g' (n - 1 - s) 0) (n - (k + 1)) / f k k else 1) ∧
      ∀ k, k < n - t ∨ (n ≤ k ∧ k < q) → g' k 0 = g k 0) (by omega)
    ⟨g, hb, by intro k hk; omega, by intros; rfl⟩ (by
      rintro t b' _ ht ⟨g', h1, h2, h4⟩
      set k := n - 1 - t with hk
      obtain ⟨b2, e1, e2⟩ := substInnerV_ops (N := n - (k + 1)) hA h1 (fun s => n - 1 - s) (k := k)
        (by omega) (by omega) (by intro s hs; exact ⟨by omega, by omega, by omega⟩)
      have e3 := e2.vget_col (i := k) (by omega)
      rw [if_pos rfl] at e3
      set S := subAccum (g' k 0) (fun s => f k (n - 1 - s) * g' (n - 1 - s) 0) (n - (k + 1)) with hS
      set val : K := if f k k ≠ 0 then S / f k k else 1 with hval
      have hg'' : ∀ j, j ≠ k → upd (fun r c => if r = k then S else g' r c) k 0 val j 0 = g' j 0 := by
        intro j hj
        rw [upd_ne _ _ (by omega), if_neg hj]
      refine ⟨_, by
        simp only [Option.bind_eq_bind] at e1 ⊢
        rw [e1]
        simp only [Option.bind_some, e3, hA.get (i := k) (j := k) (by omega) (by omega)]
        exact e2.vset_col (by omega) val, _, e2.put (by omega) (by omega) _, ?_, ?_⟩
      · intro j hj1 hj2
        have hsum : subAccum (g j 0) (fun s => f j (n - 1 - s) *
            upd (fun r c => if r = k then S else g' r c) k 0 val (n - 1 - s) 0) (n - (j + 1)) =
            subAccum (g j 0) (fun s => f j (n - 1 - s) * g' (n - 1 - s) 0) (n - (j + 1)) := by
          refine subAccum_congr rfl (fun l hl => ?_)
          rw [hg'' _ (by omega)]
        rw [hsum]
        by_cases e : j = k
        · rw [e, upd_same, hval, hS, h4 k (Or.inl (by omega))]
        · rw [hg'' j e]
          exact h2 j (by omega) hj2
      · intro j hj
        rw [hg'' j (by omega)]
        exact h4 j (by omega))
  obtain ⟨x, h1, g', h2, h3, h5⟩ := this
  refine ⟨x, g', ?_, h2, ?_, ?_⟩
  · rw [substBwdV, hA.hn]; exact h1
  · intro k hk; exact h3 k (by omega) hk
  · intro k hk hk2; exact h5 k (Or.inr ⟨hk, hk2⟩)

theorem rowDiv_ops {b : Mat K} {q p : Nat} {g} (hb : b.Is q p g) {k : Nat} (hk : k < q)
    {d : K} (hd : d ≠ 0) : ∃ b', rowDiv b k d = some b' ∧
      b'.Is q p (fun r c => if r = k then g k c * (1 / d) else g r c) := by
  obtain ⟨rk, k1, k2⟩ := getRow_is hb hk
  obtain ⟨b', b1, b2⟩ := setRow_is hb (mulScalar_is k2 (1 / d)) hk
  refine ⟨b', ?_, b2.congr ?_⟩
  · simp only [rowDiv, k1, divScalar, hd, if_false, b1, Option.bind_eq_bind, Option.bind_some]
  · intro r c _ _
    rfl

theorem substInnerM_ops {A b : Mat K} {m n q p N : Nat} {f g} (hA : A.Is m n f) (hb : b.Is q p g)
    (idx : Nat → Nat) {k : Nat} (hk : k < q) (hkm : k < m)
    (hidx : ∀ s, s < N → idx s < q ∧ idx s < n ∧ idx s ≠ k) :
    ∃ b', forRange 0 N (fun (b : Mat K) s => do
      let a ← A.get k (idx s)
      rowUpdate b k (idx s) a) b = some b' ∧
      b'.Is q p (fun r c => if r = k then subAccum (g k c) (fun s => g (idx s) c * f k (idx s)) N else g r c) :=
  forRange_inv (a := 0) (b := N) (s := b)
    (f := fun (b : Mat K) s => do
      let a ← A.get k (idx s)
      rowUpdate b k (idx s) a)
    (fun t b => b.Is q p (fun r c => if r = k then subAccum (g k c) (fun s => g (idx s) c * f k (idx s)) t else g r c))
    (by omega) (hb.congr (by
      intro r c _ hc
      by_cases e : r = k
      · simp [e, subAccum]
      · simp [e])) (by
      intro s b' _ hs hb'
      obtain ⟨i1, i2, i3⟩ := hidx s hs
      obtain ⟨b2, e1, e2⟩ := rowUpdate_is hb' hk i1 (f k (idx s))
      refine ⟨b2, by
        simp only [hA.get hkm i2, Option.bind_eq_bind, Option.bind_some]; exact e1, e2.congr ?_⟩
      intro r c _ hc
      by_cases e : r = k
      · subst e
        simp only [if_true, i3, if_false, subAccum]
      · simp only [e, if_false])

theorem substFwdM_ops {A b : Mat K} {m n q p : Nat} {f g} (hA : A.Is m n f) (hb : b.Is q p g)
    (hq : min m n ≤ q) (hd : ∀ k, k < min m n → f k k ≠ 0) :
    ∃ x g', substFwdM A b = some x ∧ x.Is q p g' ∧
      (∀ k c, k < min m n → c < p → g' k c = subAccum (g k c) (fun l => g' l c * f k l) k * (1 / f k k)) ∧
      ∀ k c, min m n ≤ k → k < q → c < p → g' k c = g k c := by
  set N := min m n with hN
  have := forRange_inv (a := 0) (b := N) (s := b)
    (f := fun (b : Mat K) k => do
    let b ← forRange 0 k (fun (b : Mat K) l => do
      let a ← A.get k l
      rowUpdate b k l a) b
    let d ← A.get k k
    rowDiv b k d)
    (fun t b => ∃ g', b.Is q p g' ∧
      (∀ k c, k < t → c < p → g' k c = subAccum (g k c) (fun l => g' l c * f k l) k * (1 / f k k)) ∧
      ∀ k c, t ≤ k → k < q → c < p → g' k c = g k c) (by omega)
    ⟨g, hb, by intro k c hk; omega, by intros; rfl⟩ (by
      rintro k b' _ hk ⟨g', h1, h2, h3⟩
      obtain ⟨b2, e1, e2⟩ := substInnerM_ops (N := k) hA h1 (fun l => l) (k := k) (by omega) (by omega)
        (by intro s hs; exact ⟨by omega, by omega, by omega⟩)
      obtain ⟨b3, e3, e4⟩ := rowDiv_ops e2 (k := k) (by omega) (hd k hk)
      refine ⟨b3, by
        simp only [Option.bind_eq_bind] at e1 ⊢
        rw [e1]
        simp only [Option.bind_some, hA.get (i := k) (j := k) (by omega) (by omega)]
        exact e3, _, e4, ?_, ?_⟩
      · intro j c hj hc
        by_cases e : j = k
        · subst e
          simp only [if_true]
          congr 1
          refine subAccum_congr (h3 j c (le_refl j) (by omega) hc) (fun l hl => ?_)
          rw [if_neg (by omega), if_neg (by omega)]
        · simp only [e, if_false]
          rw [h2 j c (by omega) hc]
          congr 1
          refine subAccum_congr rfl (fun l hl => ?_)
          rw [if_neg (by omega), if_neg (by omega)]
      · intro j c hj hj2 hc
        have e : j ≠ k := by omega
        simp only [e, if_false]
        exact h3 j c (by omega) hj2 hc)
  obtain ⟨x, h1, g', h2, h3, h4⟩ := this
  refine ⟨x, g', ?_, h2, h3, h4⟩
  rw [substFwdM, hA.hm, hA.hn, ← hN]; exact h1

theorem substBwdM_ops {A b : Mat K} {m n q p : Nat} {f g} (hA : A.Is m n f) (hb : b.Is q p g)
    (hq : min m n ≤ q) (hd : ∀ k, k < min m n → f k k ≠ 0) :
    ∃ x g', substBwdM A b = some x ∧ x.Is q p g' ∧
      (∀ k c, k < min m n → c < p → g' k c = subAccum (g k c)
        (fun s => g' (min m n - 1 - s) c * f k (min m n - 1 - s)) (min m n - (k + 1)) * (1 / f k k)) ∧
      ∀ k c, min m n ≤ k → k < q → c < p → g' k c = g k c := by
  set N := min m n with hN
  have := forRange_inv (a := 0) (b := N) (s := b)
    (f := fun (b : Mat K) t => do
    let k := N - 1 - t
    let b ← forRange 0 (N - (k + 1)) (fun (b : Mat K) s => do
      let l := N - 1 - s
      let a ← A.get k l
      rowUpdate b k l a) b
    let d ← A.get k k
    rowDiv b k d)
    (fun t b => ∃ g', b.Is q p g' ∧
      (∀ k c, N - t ≤ k → k < N → c < p → g' k c = subAccum (g k c)
        (fun s => g' (N - 1 - s) c * f k (N - 1 - s)) (N - (k + 1)) * (1 / f k k)) ∧
      ∀ k c, k < N - t ∨ (N ≤ k ∧ k < q) → c < p → g' k c = g k c) (by omega)
    ⟨g, hb, by intro k c hk; omega, by intros; rfl⟩ (by
      rintro t b' _ ht ⟨g', h1, h2, h4⟩
      set k := N - 1 - t with hk
      obtain ⟨b2, e1, e2⟩ := substInnerM_ops (N := N - (k + 1)) hA h1 (fun s => N - 1 - s) (k := k)
        (by omega) (by omega) (by intro s hs; exact ⟨by omega, by omega, by omega⟩)
      have hdk := hd k (by omega)
      obtain ⟨b3, e3, e4⟩ := rowDiv_ops e2 (k := k) (by omega) hdk
      refine ⟨b3, by
        simp only [Option.bind_eq_bind] at e1 ⊢
        rw [e1]
        simp only [Option.bind_some, hA.get (i := k) (j := k) (by omega) (by omega)]
        exact e3, _, e4, ?_, ?_⟩
      · intro j c hj1 hj2 hc
        by_cases e : j = k
        · rw [e]
          simp only [if_true]
          congr 1
          refine subAccum_congr (h4 k c (Or.inl (by omega)) hc) (fun l hl => ?_)
          rw [if_neg (by omega), if_neg (by omega)]
        · simp only [e, if_false]
          rw [h2 j c (by omega) hj2 hc]
          congr 1
          refine subAccum_congr rfl (fun l hl => ?_)
          rw [if_neg (by omega), if_neg (by omega)]
      · intro j c hj hc
        have e : j ≠ k := by omega
        simp only [e, if_false]
        exact h4 j c (by omega) hc)
  obtain ⟨x, h1, g', h2, h3, h5⟩ := this
  refine ⟨x, g', ?_, h2, ?_, ?_⟩
  · rw [substBwdM, hA.hm, hA.hn, ← hN]; exact h1
  · intro k c hk hc; exact h3 k c (by omega) hk hc
  · intro k c hk hk2 hc; exact h5 k c (Or.inr ⟨hk, hk2⟩) hc

end Ops
end Mat

namespace Rounding
variable {K : Type} [Field K] [LinearOrder K] [IsStrictOrderedRing K] (R : Rounding K)

/-- one subtraction of a rounded product: what is left before, in terms of what is left after -/
theorem sub_step {s p s' E T : K} {g : K} (hg : 0 ≤ g) (hT : 0 ≤ T) (hs : s' = R.rnd (s - R.rnd p))
    (hE : |E - s| ≤ g * (T + |s|)) : |E - p - s'| ≤ (g * (1 + R.u) + R.u) * (T + |p| + |s'|) := by
  have h1 := R.err' (s - R.rnd p)
  rw [← hs] at h1
  have h2 := R.err p
  have hu := R.u_nonneg
  have h3 : |s| ≤ (1 + R.u) * (|s'| + |p|) := by
    have e : s = -(s' - (s - R.rnd p)) + s' + (R.rnd p - p) + p := by ring
    have a1 := abs_add_le (-(s' - (s - R.rnd p)) + s' + (R.rnd p - p)) p
    have a2 := abs_add_le (-(s' - (s - R.rnd p)) + s') (R.rnd p - p)
    have a3 := abs_add_le (-(s' - (s - R.rnd p))) s'
    rw [abs_neg] at a3
    rw [← e] at a1
    linarith
  have h4 : |E - p - s'| ≤ |E - s| + |s' - (s - R.rnd p)| + |R.rnd p - p| := by
    have e' : E - p - s' = (E - s) + -(s' - (s - R.rnd p)) + (R.rnd p - p) := by ring
    have a1 := abs_add_le ((E - s) + -(s' - (s - R.rnd p))) (R.rnd p - p)
    have a2 := abs_add_le (E - s) (-(s' - (s - R.rnd p)))
    rw [abs_neg] at a2
    rw [e']
    linarith
  have h5 := mul_le_mul_of_nonneg_left h3 hg
  have h6 := mul_nonneg hg (mul_nonneg hu hT)
  have h7 := mul_nonneg hu hT
  nlinarith

/-- a chain of subtractions of rounded products -/
theorem subAccum_err (b : Fl R) (t : ℕ → Fl R) (p : ℕ → K) (ht : ∀ k, (t k).val = R.rnd (p k)) (n : ℕ) :
    |b.val - ∑ k ∈ range n, p k - (Mat.subAccum b t n).val| ≤
      R.gam n * (∑ k ∈ range n, |p k| + |(Mat.subAccum b t n).val|) := by
  induction n with
  | zero => simp [Mat.subAccum, R.gam_zero]
  | succ n ih =>
    rw [sum_range_succ, sum_range_succ, R.gam_succ, ← sub_sub]
    exact R.sub_step (R.gam_nonneg n) (sum_nonneg fun _ _ => abs_nonneg _)
      (by rw [Mat.subAccum, Fl.sub_val, ht]) ih

/-- the final division -/
theorem div_step {E s d q T g : K} (hd : d ≠ 0) (hg : 0 ≤ g) (hT : 0 ≤ T) (hq : q = R.rnd (s / d))
    (hE : |E - s| ≤ g * (T + |s|)) : |E - d * q| ≤ (g * (1 + R.u) + R.u) * (T + |d * q|) := by
  have h1 := R.err' (s / d)
  rw [← hq] at h1
  have hu := R.u_nonneg
  have h2 : |d * q - s| ≤ R.u * |d * q| := by
    have e : d * q - s = d * (q - s / d) := by field_simp
    rw [e, abs_mul, abs_mul]
    have := mul_le_mul_of_nonneg_left h1 (abs_nonneg d)
    linarith
  have h3 : |s| ≤ (1 + R.u) * |d * q| := by
    have := abs_sub_abs_le_abs_sub s (d * q)
    rw [abs_sub_comm] at this
    linarith
  have h4 : |E - d * q| ≤ |E - s| + |d * q - s| := by
    have e : E - d * q = (E - s) + -(d * q - s) := by ring
    rw [e]
    refine (abs_add_le _ _).trans ?_
    rw [abs_neg]
  have h5 := mul_le_mul_of_nonneg_left h3 hg
  have h6 := mul_nonneg hg (mul_nonneg hu hT)
  have h7 := mul_nonneg hu hT
  nlinarith

/-- the same with `s * (1 / d)` -/
theorem recip_step {E s d q T g : K} (hd : d ≠ 0) (hg : 0 ≤ g) (hT : 0 ≤ T)
    (hq : q = R.rnd (s * R.rnd (1 / d))) (hE : |E - s| ≤ g * (T + |s|)) :
    |E - d * q| ≤ ((g * (1 + R.u) + R.u) * (1 + R.u) + R.u) * (T + |d * q|) := by
  have hu := R.u_nonneg
  set r := R.rnd (1 / d) with hr
  by_cases hr0 : r = 0
  · have := R.err' (1 / d)
    rw [← hr, hr0, abs_zero, mul_zero, zero_sub, abs_neg] at this
    have := abs_eq_zero.1 (le_antisymm this (abs_nonneg _))
    exact absurd this (one_div_ne_zero hd)
  -- first divide by `1 / r`, then compare `1 / r` with `d`
  have h1 := R.div_step (s := s) (d := 1 / r) (q := q) (one_div_ne_zero hr0) hg hT
    (by rw [hq]; congr 1; field_simp) hE
  have h2 : |1 / r * q - d * q| ≤ R.u * |d * q| := by
    have e := R.err' (1 / d)
    rw [← hr] at e
    have e2 : 1 / r * q - d * q = -((r - 1 / d) * (1 / r) * (d * q)) := by field_simp; ring
    rw [e2, abs_neg, abs_mul, abs_mul]
    refine mul_le_mul_of_nonneg_right ?_ (abs_nonneg _)
    have := mul_le_mul_of_nonneg_right e (abs_nonneg (1 / r))
    have e3 := abs_mul r (1 / r)
    rw [mul_one_div_cancel hr0, abs_one] at e3
    rwa [mul_assoc, ← e3, mul_one] at this
  have h3 : |1 / r * q| ≤ (1 + R.u) * |d * q| := by
    have := abs_sub_abs_le_abs_sub (1 / r * q) (d * q)
    linarith
  have h4 : |E - d * q| ≤ |E - 1 / r * q| + |1 / r * q - d * q| := by
    have e : E - d * q = (E - 1 / r * q) + (1 / r * q - d * q) := by ring
    rw [e]; exact abs_add_le _ _
  set G := g * (1 + R.u) + R.u with hG
  have hG0 : 0 ≤ G := by rw [hG]; nlinarith [mul_nonneg hg hu]
  have h5 := mul_le_mul_of_nonneg_left h3 hG0
  have h6 := mul_nonneg hG0 (mul_nonneg hu hT)
  have h7 := mul_nonneg hu hT
  nlinarith

end Rounding
end Verif
