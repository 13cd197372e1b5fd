import Verif.LULemmas

/-! # Lemmas about triangular substitution -/

namespace Verif
open Finset
variable {K : Type}

namespace Mat

section Ops
variable [Zero K] [One K] [Add K] [Sub K] [Mul K] [Div K]

theorem rowUpdate_is {b : Mat K} {q p : Nat} {g} (hb : b.Is q p g) {k l : Nat} (hk : k < q) (hl : l < q)
    (a : K) : ∃ b', rowUpdate b k l a = some b' ∧
      b'.Is q p (fun r c => if r = k then g k c - g l c * a else g r c) := by
  obtain ⟨rk, k1, k2⟩ := getRow_is hb hk
  obtain ⟨rl, l1, l2⟩ := getRow_is hb hl
  obtain ⟨d, d1, d2⟩ := sub_is k2 (mulScalar_is l2 a)
  obtain ⟨b', b1, b2⟩ := setRow_is hb d2 hk
  refine ⟨b', ?_, b2.congr ?_⟩
  · simp only [rowUpdate, k1, l1, d1, b1, Option.bind_eq_bind, Option.bind_some]
  · intro r c _ _
    rfl

end Ops

variable [Field K] [LinearOrder K]

/-- Inner loop of the vector substitutions: `b[k]` accumulates `- Σ f k (idx s) * b (idx s)`. -/
theorem substInnerV {A b : Mat K} {m n q N : Nat} {f g} (hA : A.Is m n f) (hb : b.Is q 1 g) (idx : Nat → Nat)
    {k : Nat} (hk : k < q) (hkm : k < m)
    (hidx : ∀ s, s < N → idx s < q ∧ idx s < n ∧ idx s ≠ k) :
    ∃ b', forRange 0 N (fun (b : Mat K) s => do
      let x ← b.vget k
      let a ← A.get k (idx s)
      let y ← b.vget (idx s)
      b.vset k (x - a * y)) b = some b' ∧
      b'.Is q 1 (fun r c => if r = k then g k 0 - ∑ s ∈ range N, f k (idx s) * g (idx s) 0 else g r c) := by
  have := forRange_inv (a := 0) (b := N) (s := b)
    (f := fun (b : Mat K) s => do
      let x ← b.vget k
      let a ← A.get k (idx s)
      let y ← b.vget (idx s)
      b.vset k (x - a * y))
    (fun t b => b.Is q 1 (fun r c => if r = k then g k 0 - ∑ s ∈ range t, f k (idx s) * g (idx s) 0 else g r c))
    (by omega) (hb.congr (by
      intro r c _ hc
      have : c = 0 := by omega
      subst this
      by_cases e : r = k
      · simp [e]
      · simp [e])) (by
      intro s b' _ hs hb'
      obtain ⟨i1, i2, i3⟩ := hidx s hs
      refine ⟨_, by
        simp only [hb'.vget_col hk, hA.get hkm i2, hb'.vget_col i1, Option.bind_eq_bind, Option.bind_some]
        exact (hb'.vset_col hk _), ?_⟩
      refine (hb'.put hk (by omega) _).congr ?_
      intro r c _ hc
      have : c = 0 := by omega
      subst this
      by_cases e : r = k
      · subst e
        simp only [upd_same, if_true, i3, if_false, Finset.sum_range_succ]
        ring
      · rw [upd_ne _ _ (by omega), if_neg e, if_neg e])
  exact this

theorem substFwdV_is {A b : Mat K} {m n q : Nat} {f g} (hA : A.Is m n f) (hb : b.Is q 1 g) (hm : n ≤ m)
    (hq : n ≤ q) (hd : ∀ k, k < n → f k k ≠ 0) :
    ∃ x g', substFwdV A b = some x ∧ x.Is q 1 g' ∧
      (∀ k, k < n → ∑ l ∈ range k, f k l * g' l 0 + f k k * g' k 0 = g k 0) ∧
      ∀ k, n ≤ k → k < q → g' k 0 = g k 0 := by
  have := forRange_inv (a := 0) (b := n) (s := b)
    (f := fun (b : Mat K) k => do
    let b ← forRange 0 k (fun (b : Mat K) l => do
      let x ← b.vget k
      let a ← A.get k l
      let y ← b.vget l
      b.vset k (x - a * y)) b
    let x ← b.vget k
    let d ← A.get k k
    let q ← fdiv x d
    b.vset k q)
    (fun t b => ∃ g', b.Is q 1 g' ∧
      (∀ k, k < t → ∑ l ∈ range k, f k l * g' l 0 + f k k * g' k 0 = g k 0) ∧
      ∀ k, t ≤ k → k < q → g' k 0 = g k 0) (by omega)
    ⟨g, hb, by intro k hk; omega, by intros; rfl⟩ (by
      rintro k b' _ hk ⟨g', h1, h2, h3⟩
      obtain ⟨b2, e1, e2⟩ := substInnerV (N := k) hA h1 (fun l => l) (k := k) (by omega) (by omega)
        (by intro s hs; exact ⟨by omega, by omega, by omega⟩)
      have e3 := e2.vget_col (i := k) (by omega)
      rw [if_pos rfl] at e3
      refine ⟨_, by
        simp only [Option.bind_eq_bind] at e1 ⊢
        rw [e1]
        simp only [Option.bind_some, e3, hA.get (i := k) (j := k) (by omega) hk, fdiv, hd k hk, if_false]
        exact e2.vset_col (by omega) _, _, e2.put (by omega) (by omega) _, ?_, ?_⟩
      · intro j hj
        by_cases e : j = k
        · subst e
          rw [upd_same]
          have : ∀ l ∈ range j, f j l * upd (fun r c => if r = j then
              g' j 0 - ∑ s ∈ range j, f j s * g' s 0 else g' r c) j 0
              ((g' j 0 - ∑ s ∈ range j, f j s * g' s 0) / f j j) l 0 = f j l * g' l 0 := by
            intro l hl
            have hl := Finset.mem_range.1 hl
            rw [upd_ne _ _ (by omega), if_neg (by omega)]
          rw [Finset.sum_congr rfl this, mul_div_cancel₀ _ (hd j hk), h3 j (le_refl j) (by omega)]
          ring
        · rw [upd_ne _ _ (by omega), if_neg e, ← h2 j (by omega)]
          congr 1
          apply Finset.sum_congr rfl
          intro l hl
          have hl := Finset.mem_range.1 hl
          rw [upd_ne _ _ (by omega), if_neg (by omega)]
      · intro j hj hj2
        rw [upd_ne _ _ (by omega), if_neg (by omega)]
        exact h3 j (by omega) hj2)
  obtain ⟨x, h1, g', h2, h3, h4⟩ := this
  refine ⟨x, g', ?_, h2, h3, h4⟩
  rw [substFwdV, hA.hn]; exact h1

theorem sum_rev_Ico (N : Nat) (s : Nat) (hs : s ≤ N) (φ : Nat → K) :
    ∑ t ∈ range s, φ (N - 1 - t) = ∑ l ∈ Finset.Ico (N - s) N, φ l := by
  induction s with
  | zero => simp
  | succ s ih =>
    rw [Finset.sum_range_succ, ih (by omega), Finset.sum_eq_sum_Ico_succ_bot (a := N - (s + 1)) (by omega),
      show N - (s + 1) + 1 = N - s by omega, show N - (s + 1) = N - 1 - s by omega, add_comm]

/-- Backward substitution with the code's special case: a zero diagonal entry yields component 1. -/
theorem substBwdV_is {A b : Mat K} {m n q : Nat} {f g} (hA : A.Is m n f) (hb : b.Is q 1 g) (hm : n ≤ m)
    (hq : n ≤ q) :
    ∃ x g', substBwdV A b = some x ∧ x.Is q 1 g' ∧
      (∀ k, k < n → f k k ≠ 0 → f k k * g' k 0 + ∑ l ∈ Finset.Ico (k + 1) n, f k l * g' l 0 = g k 0) ∧
      (∀ k, k < n → f k k = 0 → g' k 0 = 1) ∧
      ∀ k, n ≤ k → k < q → g' k 0 = g k 0 := by
  have := forRange_inv (a := 0) (b := n) (s := b)
    (f := fun (b : Mat K) t => do
    let k := n - 1 - t
    let b ← forRange 0 (n - (k + 1)) (fun (b : Mat K) s => do
      let l := n - 1 - s
      let x ← b.vget k
      let a ← A.get k l
      let y ← b.vget l
      b.vset k (x - a * y)) b
    let x ← b.vget k
    let d ← A.get k k
    b.vset k (if d ≠ 0 then x / d else 1))
    (fun t b => ∃ g', b.Is q 1 g' ∧
      (∀ k, n - t ≤ k → k < n → f k k ≠ 0 →
        f k k * g' k 0 + ∑ l ∈ Finset.Ico (k + 1) n, f k l * g' l 0 = g k 0) ∧
      (∀ k, n - t ≤ k → k < n → f k k = 0 → g' k 0 = 1) ∧
      ∀ k, k < n - t ∨ (n ≤ k ∧ k < q) → g' k 0 = g k 0) (by omega)
    ⟨g, hb, by intro k hk; omega, by intro k hk; omega, by intros; rfl⟩ (by
      rintro t b' _ ht ⟨g', h1, h2, h3, h4⟩
      set k := n - 1 - t with hk
      obtain ⟨b2, e1, e2⟩ := substInnerV (N := n - (k + 1)) hA h1 (fun s => n - 1 - s) (k := k)
        (by omega) (by omega) (by intro s hs; exact ⟨by omega, by omega, by omega⟩)
      rw [sum_rev_Ico n (n - (k + 1)) (by omega) (fun l => f k l * g' l 0),
        show n - (n - (k + 1)) = k + 1 by omega] at e2
      have e3 := e2.vget_col (i := k) (by omega)
      rw [if_pos rfl] at e3
      set S := ∑ l ∈ Finset.Ico (k + 1) n, f k l * g' l 0 with hS
      set val : K := if f k k ≠ 0 then (g' k 0 - S) / f k k else 1 with hval
      have hg'' : ∀ j, j ≠ k → upd (fun r c => if r = k then g' k 0 - S else g' r c) k 0 val j 0 = g' j 0 := by
        intro j hj
        rw [upd_ne _ _ (by omega), if_neg hj]
      refine ⟨_, by
        simp only [Option.bind_eq_bind] at e1 ⊢
        rw [e1]
        simp only [Option.bind_some, e3, hA.get (i := k) (j := k) (by omega) (by omega)]
        exact e2.vset_col (by omega) val, _, e2.put (by omega) (by omega) _, ?_, ?_, ?_⟩
      · intro j hj1 hj2 hjd
        have hsum : ∑ l ∈ Finset.Ico (j + 1) n, f j l *
            upd (fun r c => if r = k then g' k 0 - S else g' r c) k 0 val l 0 =
            ∑ l ∈ Finset.Ico (j + 1) n, f j l * g' l 0 := by
          apply Finset.sum_congr rfl
          intro l hl
          have hl := Finset.mem_Ico.1 hl
          rw [hg'' l (by omega)]
        rw [hsum]
        by_cases e : j = k
        · rw [e] at hjd ⊢
          rw [upd_same, hval, if_pos hjd, ← hS, mul_div_cancel₀ _ hjd, h4 k (Or.inl (by omega))]
          ring
        · rw [hg'' j e]
          exact h2 j (by omega) hj2 hjd
      · intro j hj1 hj2 hjd
        by_cases e : j = k
        · rw [e] at hjd ⊢
          rw [upd_same, hval, if_neg (by simp [hjd])]
        · rw [hg'' j e]
          exact h3 j (by omega) hj2 hjd
      · intro j hj
        rw [hg'' j (by omega)]
        exact h4 j (by omega))
  obtain ⟨x, h1, g', h2, h3, h4, h5⟩ := this
  refine ⟨x, g', ?_, h2, ?_, ?_, ?_⟩
  · rw [substBwdV, hA.hn]; exact h1
  · intro k hk hd; exact h3 k (by omega) hk hd
  · intro k hk hd; exact h4 k (by omega) hk hd
  · intro k hk hk2; exact h5 k (Or.inr ⟨hk, hk2⟩)

theorem rowDiv_is {b : Mat K} {q p : Nat} {g} (hb : b.Is q p g) {k : Nat} (hk : k < q)
    {d : K} (hd : d ≠ 0) : ∃ b', rowDiv b k d = some b' ∧
      b'.Is q p (fun r c => if r = k then g k c / d else g r c) := by
  obtain ⟨rk, k1, k2⟩ := getRow_is hb hk
  have e : rk.divScalar d = some (rk.apply (fun x => x / d)) := by
    simp [divScalar, hd, mulScalar, div_eq_mul_inv]
  obtain ⟨b', b1, b2⟩ := setRow_is hb (apply_is k2 (fun x => x / d)) hk
  refine ⟨b', ?_, b2.congr ?_⟩
  · simp only [rowDiv, k1, e, b1, Option.bind_eq_bind, Option.bind_some]
  · intro r c _ _
    rfl

theorem rowDiv_zero {b b' : Mat K} {k : Nat} {d : K} (h : rowDiv b k d = some b') : d ≠ 0 := by
  rintro rfl
  unfold rowDiv at h
  cases hr : b.getRow k with
  | none => simp [hr] at h
  | some rk => simp [hr, divScalar] at h

/-- Inner loop of the matrix substitutions -/
theorem substInnerM {A b : Mat K} {m n q p N : Nat} {f g} (hA : A.Is m n f) (hb : b.Is q p g)
    (idx : Nat → Nat) {k : Nat} (hk : k < q) (hkm : k < m)
    (hidx : ∀ s, s < N → idx s < q ∧ idx s < n ∧ idx s ≠ k) :
    ∃ b', forRange 0 N (fun (b : Mat K) s => do
      let a ← A.get k (idx s)
      rowUpdate b k (idx s) a) b = some b' ∧
      b'.Is q p (fun r c => if r = k then g k c - ∑ s ∈ range N, f k (idx s) * g (idx s) c else g r c) := by
  have := forRange_inv (a := 0) (b := N) (s := b)
    (f := fun (b : Mat K) s => do
      let a ← A.get k (idx s)
      rowUpdate b k (idx s) a)
    (fun t b => b.Is q p (fun r c => if r = k then g k c - ∑ s ∈ range t, f k (idx s) * g (idx s) c else g r c))
    (by omega) (hb.congr (by
      intro r c _ hc
      by_cases e : r = k
      · simp [e]
      · simp [e])) (by
      intro s b' _ hs hb'
      obtain ⟨i1, i2, i3⟩ := hidx s hs
      obtain ⟨b2, e1, e2⟩ := rowUpdate_is hb' hk i1 (f k (idx s))
      refine ⟨b2, by
        simp only [hA.get hkm i2, Option.bind_eq_bind, Option.bind_some]; exact e1, e2.congr ?_⟩
      intro r c _ hc
      by_cases e : r = k
      · subst e
        simp only [if_true, i3, if_false, Finset.sum_range_succ]
        ring
      · simp only [e, if_false])
  exact this

theorem substFwdM_is {A b : Mat K} {m n q p : Nat} {f g} (hA : A.Is m n f) (hb : b.Is q p g)
    (hq : min m n ≤ q) (hd : ∀ k, k < min m n → f k k ≠ 0) :
    ∃ x g', substFwdM A b = some x ∧ x.Is q p g' ∧
      (∀ k c, k < min m n → c < p → ∑ l ∈ range k, f k l * g' l c + f k k * g' k c = g k c) ∧
      ∀ k c, min m n ≤ k → k < q → c < p → g' k c = g k c := by
  set N := min m n with hN
  have := forRange_inv (a := 0) (b := N) (s := b)
    (f := fun (b : Mat K) k => do
    let b ← forRange 0 k (fun (b : Mat K) l => do
      let a ← A.get k l
      rowUpdate b k l a) b
    let d ← A.get k k
    rowDiv b k d)
    (fun t b => ∃ g', b.Is q p g' ∧
      (∀ k c, k < t → c < p → ∑ l ∈ range k, f k l * g' l c + f k k * g' k c = g k c) ∧
      ∀ k c, t ≤ k → k < q → c < p → g' k c = g k c) (by omega)
    ⟨g, hb, by intro k c hk; omega, by intros; rfl⟩ (by
      rintro k b' _ hk ⟨g', h1, h2, h3⟩
      obtain ⟨b2, e1, e2⟩ := substInnerM (N := k) hA h1 (fun l => l) (k := k) (by omega) (by omega)
        (by intro s hs; exact ⟨by omega, by omega, by omega⟩)
      obtain ⟨b3, e3, e4⟩ := rowDiv_is e2 (k := k) (by omega) (hd k hk)
      refine ⟨b3, by
        simp only [Option.bind_eq_bind] at e1 ⊢
        rw [e1]
        simp only [Option.bind_some, hA.get (i := k) (j := k) (by omega) (by omega)]
        exact e3, _, e4, ?_, ?_⟩
      · intro j c hj hc
        by_cases e : j = k
        · subst e
          simp only [if_true]
          have : ∀ l ∈ range j, f j l * (if l = j then (g' j c - ∑ s ∈ range j, f j s * g' s c) / f j j
              else if l = j then g' j c - ∑ s ∈ range j, f j s * g' s c else g' l c) = f j l * g' l c := by
            intro l hl
            have hl := Finset.mem_range.1 hl
            rw [if_neg (by omega), if_neg (by omega)]
          rw [Finset.sum_congr rfl this, mul_div_cancel₀ _ (hd j hk), h3 j c (le_refl j) (by omega) hc]
          ring
        · simp only [e, if_false]
          rw [← h2 j c (by omega) hc]
          congr 1
          apply Finset.sum_congr rfl
          intro l hl
          have hl := Finset.mem_range.1 hl
          rw [if_neg (by omega), if_neg (by omega)]
      · intro j c hj hj2 hc
        have e : j ≠ k := by omega
        simp only [e, if_false]
        exact h3 j c (by omega) hj2 hc)
  obtain ⟨x, h1, g', h2, h3, h4⟩ := this
  refine ⟨x, g', ?_, h2, h3, h4⟩
  rw [substFwdM, hA.hm, hA.hn, ← hN]; exact h1

theorem substBwdM_is {A b : Mat K} {m n q p : Nat} {f g} (hA : A.Is m n f) (hb : b.Is q p g)
    (hq : min m n ≤ q) (hd : ∀ k, k < min m n → f k k ≠ 0) :
    ∃ x g', substBwdM A b = some x ∧ x.Is q p g' ∧
      (∀ k c, k < min m n → c < p →
        f k k * g' k c + ∑ l ∈ Finset.Ico (k + 1) (min m n), f k l * g' l c = g k c) ∧
      ∀ k c, min m n ≤ k → k < q → c < p → g' k c = g k c := by
  set N := min m n with hN
  have := forRange_inv (a := 0) (b := N) (s := b)
    (f := fun (b : Mat K) t => do
    let k := N - 1 - t
    let b ← forRange 0 (N - (k + 1)) (fun (b : Mat K) s => do
      let l := N - 1 - s
      let a ← A.get k l
      rowUpdate b k l a) b
    let d ← A.get k k
    rowDiv b k d)
    (fun t b => ∃ g', b.Is q p g' ∧
      (∀ k c, N - t ≤ k → k < N → c < p →
        f k k * g' k c + ∑ l ∈ Finset.Ico (k + 1) N, f k l * g' l c = g k c) ∧
      ∀ k c, k < N - t ∨ (N ≤ k ∧ k < q) → c < p → g' k c = g k c) (by omega)
    ⟨g, hb, by intro k c hk; omega, by intros; rfl⟩ (by
      rintro t b' _ ht ⟨g', h1, h2, h4⟩
      set k := N - 1 - t with hk
      obtain ⟨b2, e1, e2⟩ := substInnerM (N := N - (k + 1)) hA h1 (fun s => N - 1 - s) (k := k)
        (by omega) (by omega) (by intro s hs; exact ⟨by omega, by omega, by omega⟩)
      have e2' := e2.congr (g := fun r c => if r = k then
          g' k c - ∑ l ∈ Finset.Ico (k + 1) N, f k l * g' l c else g' r c) (by
        intro r c _ _
        rw [sum_rev_Ico N (N - (k + 1)) (by omega) (fun l => f k l * g' l c),
          show N - (N - (k + 1)) = k + 1 by omega])
      have hdk := hd k (by omega)
      obtain ⟨b3, e3, e4⟩ := rowDiv_is e2' (k := k) (by omega) hdk
      refine ⟨b3, by
        simp only [Option.bind_eq_bind] at e1 ⊢
        rw [e1]
        simp only [Option.bind_some, hA.get (i := k) (j := k) (by omega) (by omega)]
        exact e3, _, e4, ?_, ?_⟩
      · intro j c hj1 hj2 hc
        have hsum : ∑ l ∈ Finset.Ico (j + 1) N, f j l *
            (if l = k then (if k = k then g' k c - ∑ l ∈ Finset.Ico (k + 1) N, f k l * g' l c else g' k c) / f k k
              else if l = k then g' k c - ∑ l ∈ Finset.Ico (k + 1) N, f k l * g' l c else g' l c) =
            ∑ l ∈ Finset.Ico (j + 1) N, f j l * g' l c := by
          apply Finset.sum_congr rfl
          intro l hl
          have hl := Finset.mem_Ico.1 hl
          rw [if_neg (by omega), if_neg (by omega)]
        rw [hsum]
        by_cases e : j = k
        · rw [e]
          simp only [if_true]
          rw [mul_div_cancel₀ _ hdk, h4 k c (Or.inl (by omega)) hc]
          ring
        · simp only [e, if_false]
          exact h2 j c (by omega) hj2 hc
      · intro j c hj hc
        have e : j ≠ k := by omega
        simp only [e, if_false]
        exact h4 j c (by omega) hc)
  obtain ⟨x, h1, g', h2, h3, h5⟩ := this
  refine ⟨x, g', ?_, h2, ?_, ?_⟩
  · rw [substBwdM, hA.hm, hA.hn, ← hN]; exact h1
  · intro k c hk hc; exact h3 k c (by omega) hk hc
  · intro k c hk hk2 hc; exact h5 k c (Or.inr ⟨hk, hk2⟩) hc

/-- Backward substitution on a matrix only returns finite values when the diagonal has no zero. -/
theorem substBwdM_some {A b x : Mat K} {m n q p : Nat} {f g} (hA : A.Is m n f) (hb : b.Is q p g)
    (hq : min m n ≤ q) (h : substBwdM A b = some x) : ∀ k, k < min m n → f k k ≠ 0 := by
  rw [substBwdM, hA.hm, hA.hn] at h
  set N := min m n with hN
  have := forRange_inv_of_some (fun t (b : Mat K) => (∃ g', b.Is q p g') ∧ ∀ k, N - t ≤ k → k < N → f k k ≠ 0)
    ⟨⟨g, hb⟩, by intro k hk; omega⟩ (by
      rintro t b1 b2 _ ht ⟨⟨g', h1⟩, h2⟩ h3
      simp only at h3
      set k := N - 1 - t with hk
      obtain ⟨b', e1, e2⟩ := substInnerM (N := N - (k + 1)) hA h1 (fun s => N - 1 - s) (k := k)
        (by omega) (by omega) (by intro s hs; exact ⟨by omega, by omega, by omega⟩)
      simp only [Option.bind_eq_bind] at e1 h3
      rw [e1] at h3
      simp only [Option.bind_some, hA.get (i := k) (j := k) (by omega) (by omega)] at h3
      have hz := rowDiv_zero h3
      obtain ⟨b4, e3, e4⟩ := rowDiv_is e2 (k := k) (by omega) hz
      rw [e3] at h3
      cases h3
      refine ⟨⟨_, e4⟩, ?_⟩
      intro j hj1 hj2
      by_cases e : j = k
      · rw [e]; exact hz
      · exact h2 j (by omega) hj2) h
  intro k hk
  exact this.2 k (by omega) hk

end Mat
end Verif
