import Verif.LUModel
import Verif.VecLemmas
import Mathlib.LinearAlgebra.Matrix.Permutation
import Mathlib.LinearAlgebra.Matrix.Block
import Mathlib.LinearAlgebra.Matrix.NonsingularInverse

/-! # Lemmas about the LU model -/

namespace Verif
open Finset
variable {K : Type}

namespace Mat

/-- A double loop over a region `a ≤ i < b`, `lo i ≤ j < hi i` writing `v i j` at `(i, j)`. -/
theorem regionLoop {m n a b : Nat} (lo hi : Nat → Nat) (v : Nat → Nat → K) {A : Mat K} {f}
    (hA : A.Is m n f) (hb : b ≤ m) (hhi : ∀ i, a ≤ i → i < b → hi i ≤ n)
    (F : Mat K → Nat → Nat → Option (Mat K))
    (hF : ∀ B i j, a ≤ i → i < b → lo i ≤ j → j < hi i → (∃ g, B.Is m n g) →
      F B i j = B.set i j (v i j)) :
    ∃ C, forRange a b (fun B i => forRange (lo i) (hi i) (fun B j => F B i j) B) A = some C ∧
      C.Is m n (fun i j => if a ≤ i ∧ i < b ∧ lo i ≤ j ∧ j < hi i then v i j else f i j) := by
  obtain ⟨C, h1, h2⟩ := forRange_inv' (a := a) (b := b) (s := A)
    (f := fun B i => forRange (lo i) (hi i) (fun B j => F B i j) B)
    (fun k B => B.Is m n (fun i j => if a ≤ i ∧ i < k ∧ lo i ≤ j ∧ j < hi i then v i j else f i j))
    (hA.congr (by
      intro i j _ _
      rw [if_neg (by omega)])) (by
      intro i B h1 h2 hB
      obtain ⟨C, h3, h4⟩ := forRange_inv' (a := lo i) (b := hi i) (s := B) (f := fun B j => F B i j)
        (fun k B => B.Is m n (fun r c => if a ≤ r ∧ (r < i ∨ r = i ∧ c < k) ∧ lo r ≤ c ∧ c < hi r
          then v r c else f r c)) (hB.congr (by
            intro r c _ _
            have : (a ≤ r ∧ (r < i ∨ r = i ∧ c < lo i) ∧ lo r ≤ c ∧ c < hi r) ↔
              (a ≤ r ∧ r < i ∧ lo r ≤ c ∧ c < hi r) := by
              constructor
              · rintro ⟨p1, p2 | ⟨rfl, p2⟩, p3, p4⟩
                · exact ⟨p1, p2, p3, p4⟩
                · omega
              · rintro ⟨p1, p2, p3, p4⟩; exact ⟨p1, Or.inl p2, p3, p4⟩
            simp only [this])) (by
          intro j B' h5 h6 hB'
          have hh := hhi i h1 h2
          refine ⟨_, (hF B' i j h1 h2 h5 h6 ⟨_, hB'⟩).trans (hB'.set (by omega) (by omega) _), ?_⟩
          refine (hB'.put (by omega) (by omega) _).congr ?_
          intro r c _ _
          by_cases e : r = i ∧ c = j
          · obtain ⟨rfl, rfl⟩ := e
            rw [upd_same, if_pos ⟨h1, Or.inr ⟨rfl, by omega⟩, h5, h6⟩]
          · rw [upd_ne _ _ e]
            have : (a ≤ r ∧ (r < i ∨ r = i ∧ c < j) ∧ lo r ≤ c ∧ c < hi r) ↔
              (a ≤ r ∧ (r < i ∨ r = i ∧ c < j + 1) ∧ lo r ≤ c ∧ c < hi r) := by omega
            simp only [this])
      refine ⟨C, h3, h4.congr ?_⟩
      intro r c _ _
      have : (a ≤ r ∧ (r < i ∨ r = i ∧ c < max (lo i) (hi i)) ∧ lo r ≤ c ∧ c < hi r) ↔
          (a ≤ r ∧ r < i + 1 ∧ lo r ≤ c ∧ c < hi r) := by
        constructor
        · rintro ⟨p1, p2 | ⟨rfl, p2⟩, p3, p4⟩
          · exact ⟨p1, by omega, p3, p4⟩
          · exact ⟨p1, by omega, p3, p4⟩
        · rintro ⟨p1, p2, p3, p4⟩
          refine ⟨p1, ?_, p3, p4⟩
          by_cases e : r = i
          · subst e; right; exact ⟨rfl, by omega⟩
          · left; omega
      simp only [this])
  refine ⟨C, h1, h2.congr ?_⟩
  intro i j _ _
  have : (a ≤ i ∧ i < max a b ∧ lo i ≤ j ∧ j < hi i) ↔ (a ≤ i ∧ i < b ∧ lo i ≤ j ∧ j < hi i) := by omega
  simp only [this]

section Ops
variable [Zero K] [One K] [Add K] [Sub K] [Mul K] [Div K] [LinearOrder K]

theorem pivotLoop_is {a : Mat K} {n : Nat} {f} (h : a.Is n n f) {i : Nat} (hi : i < n) :
    ∃ pm, pivotLoop a i = some pm ∧ i ≤ pm.2 ∧ pm.2 < n ∧ pm.1 = f pm.2 i ∧
      ∀ r, i ≤ r → r < n → f r i ≤ f pm.2 i := by
  obtain ⟨s, h1, h2, h3, h4, h5⟩ := forRange_inv (a := i + 1) (b := n) (s := (f i i, i))
    (f := fun (s : K × Nat) l => do
      let x ← a.get l i
      some (if x > s.1 then (x, l) else s))
    (fun k s => i ≤ s.2 ∧ s.2 < n ∧ s.1 = f s.2 i ∧ ∀ r, i ≤ r → r < k → f r i ≤ f s.2 i) (by omega)
    ⟨le_refl _, hi, rfl, by
      intro r h1 h2
      have : r = i := by omega
      rw [this]⟩ (by
      rintro l ⟨mx, im⟩ h1 h2 ⟨h3, h4, h5, h6⟩
      simp only at h3 h4 h5 h6
      refine ⟨if f l i > mx then (f l i, l) else (mx, im),
        by simp only [h.get h2 hi, Option.bind_eq_bind, Option.bind_some], ?_⟩
      by_cases hc : f l i > mx
      · simp only [hc, if_true]
        refine ⟨by omega, h2, trivial, ?_⟩
        intro r h7 h8
        by_cases e : r = l
        · rw [e]
        · exact (h6 r h7 (by omega)).trans (by rw [← h5]; exact hc.le)
      · simp only [hc, if_false]
        refine ⟨h3, h4, h5, ?_⟩
        intro r h7 h8
        by_cases e : r = l
        · rw [e, ← h5]; exact not_lt.1 hc
        · exact h6 r h7 (by omega))
  refine ⟨s, ?_, h2, h3, h4, h5⟩
  simp only [pivotLoop, h.get hi hi, h.hm, Option.bind_eq_bind, Option.bind_some] at h1 ⊢
  exact h1

/-- the elimination factor as a function -/
def fac (f : Nat → Nat → K) (i j : Nat) : K := if f i i ≠ 0 then f j i / f i i else f j i

theorem elimRow_is {a : Mat K} {n : Nat} {f} (h : a.Is n n f) {i j : Nat} (hi : i < n) (hj : j < n)
    (hij : i < j) :
    ∃ b, elimRow a i j = some b ∧ b.Is n n (fun r c => if r = j ∧ c = i then fac f i j
      else if r = j ∧ i < c then f j c - fac f i j * f i c else f r c) := by
  have e1 : elimFactor a i j = some (fac f i j) := by
    simp only [elimFactor, h.get hj hi, h.get hi hi, fac, Option.bind_eq_bind, Option.bind_some]
  obtain ⟨b, h1, h2⟩ := forRange_inv (a := i + 1) (b := n) (s := a)
    (f := fun (a : Mat K) k => do
      let x ← a.get j k
      let y ← a.get i k
      a.set j k (x - fac f i j * y))
    (fun k b => b.Is n n (fun r c => if r = j ∧ i < c ∧ c < k then f j c - fac f i j * f i c else f r c))
    (by omega)
    (h.congr (by intro r c _ _; rw [if_neg (by omega)])) (by
      intro k b h1 h2 hb
      have g1 := hb.get hj h2
      have g2 := hb.get hi h2
      rw [if_neg (by omega)] at g1 g2
      refine ⟨_, by
        simp only [g1, g2, Option.bind_eq_bind, Option.bind_some]; exact hb.set hj h2 _, ?_⟩
      refine (hb.put hj h2 _).congr ?_
      intro r c _ _
      by_cases e : r = j ∧ c = k
      · obtain ⟨rfl, rfl⟩ := e
        rw [upd_same, if_pos (by omega)]
      · rw [upd_ne _ _ e]
        have : (r = j ∧ i < c ∧ c < k) ↔ (r = j ∧ i < c ∧ c < k + 1) := by omega
        simp only [this])
  refine ⟨b.put j i (fac f i j), ?_, ?_⟩
  · simp only [elimRow, e1, h.hn, Option.bind_eq_bind, Option.bind_some] at h1 ⊢
    rw [h1]
    simp only [Option.bind_some]
    exact h2.set hj hi _
  · refine (h2.put hj hi _).congr ?_
    intro r c _ hc
    by_cases e : r = j ∧ c = i
    · obtain ⟨rfl, rfl⟩ := e
      rw [upd_same, if_pos ⟨rfl, rfl⟩]
    · rw [upd_ne _ _ e, if_neg e]
      have : (r = j ∧ i < c ∧ c < n) ↔ (r = j ∧ i < c) := by omega
      simp only [this]

theorem elimAll_is {a : Mat K} {n : Nat} {f} (h : a.Is n n f) {i : Nat} (hi : i < n) :
    ∃ b, forRange (i + 1) n (fun a j => elimRow a i j) a = some b ∧
      b.Is n n (fun r c => if i < r ∧ c = i then fac f i r
      else if i < r ∧ i < c then f r c - fac f i r * f i c else f r c) := by
  obtain ⟨b, h1, h2⟩ := forRange_inv (a := i + 1) (b := n) (s := a)
    (f := fun a j => elimRow a i j)
    (fun k b => b.Is n n (fun r c => if i < r ∧ r < k ∧ c = i then fac f i r
      else if i < r ∧ r < k ∧ i < c then f r c - fac f i r * f i c else f r c))
    (by omega)
    (h.congr (by intro r c _ _; rw [if_neg (by omega), if_neg (by omega)])) (by
      intro j b h1 h2 hb
      obtain ⟨b', g1, g2⟩ := elimRow_is hb hi h2 (by omega)
      refine ⟨b', g1, g2.congr ?_⟩
      have hfac : fac (fun r c => if i < r ∧ r < j ∧ c = i then fac f i r
          else if i < r ∧ r < j ∧ i < c then f r c - fac f i r * f i c else f r c) i j = fac f i j := by
        unfold fac
        simp
      intro r c _ _
      rw [hfac]
      by_cases e : r = j
      · subst e
        by_cases e2 : c = i
        · simp [e2, show i < r by omega]
        · have h3 : ¬ (i < i) := by omega
          have h4 : ¬ (r < r) := by omega
          by_cases e3 : i < c
          · simp [e2, e3, show i < r by omega]
          · simp [e2, e3]
      · have h3 : (r < j + 1) ↔ r < j := by omega
        simp only [e, false_and, if_false, h3])
  refine ⟨b, h1, h2.congr ?_⟩
  intro r c hr _
  simp only [hr, true_and]

end Ops

variable [Field K] [LinearOrder K]

/-- what the in-place array stands for at row `r`, column `c` after `i` elimination steps -/
def luval (f : Nat → Nat → K) (i r c : Nat) : K :=
  ∑ k ∈ range (min r i), f r k * (if c < k then 0 else f k c) + (if c < min r i then 0 else f r c)

/-- the entries lost to zero pivots after `i` elimination steps -/
def luerr (f : Nat → Nat → K) (i r c : Nat) : K := if c < i ∧ c < r ∧ f c c = 0 then f r c else 0

theorem luval_elim (f : Nat → Nat → K) (i r c : Nat) :
    luval (fun r c => if i < r ∧ c = i then fac f i r
      else if i < r ∧ i < c then f r c - fac f i r * f i c else f r c) (i + 1) r c +
    luerr (fun r c => if i < r ∧ c = i then fac f i r
      else if i < r ∧ i < c then f r c - fac f i r * f i c else f r c) (i + 1) r c =
    luval f i r c + luerr f i r c := by
  set g : Nat → Nat → K := fun r c => if i < r ∧ c = i then fac f i r
      else if i < r ∧ i < c then f r c - fac f i r * f i c else f r c with hg
  have hlo : ∀ r c, r ≤ i → g r c = f r c := by
    intro r c h; simp only [hg]; rw [if_neg (by omega), if_neg (by omega)]
  have hcl : ∀ r c, c < i → g r c = f r c := by
    intro r c h; simp only [hg]; rw [if_neg (by omega), if_neg (by omega)]
  by_cases hr : r ≤ i
  · have m1 : min r (i + 1) = r := by omega
    have m2 : min r i = r := by omega
    have e1 : luval g (i + 1) r c = luval f i r c := by
      unfold luval
      rw [m1, m2]
      congr 1
      · apply Finset.sum_congr rfl
        intro k hk
        have hk := Finset.mem_range.1 hk
        rw [hlo r k hr, hlo k c (by omega)]
      · rw [hlo r c hr]
    have e2 : luerr g (i + 1) r c = luerr f i r c := by
      unfold luerr
      by_cases hc : c < r
      · rw [hlo r c hr, hlo c c (by omega)]
        have : c < i + 1 ↔ c < i := by omega
        simp only [this]
      · rw [if_neg (by omega), if_neg (by omega)]
    rw [e1, e2]
  · have hr' : i < r := by omega
    have m1 : min r (i + 1) = i + 1 := by omega
    have m2 : min r i = i := by omega
    have e1 : luval g (i + 1) r c = ∑ k ∈ range i, f r k * (if c < k then 0 else f k c) +
        fac f i r * (if c < i then 0 else f i c) + (if c < i + 1 then 0 else g r c) := by
      unfold luval
      rw [m1, Finset.sum_range_succ]
      congr 2
      · apply Finset.sum_congr rfl
        intro k hk
        have hk := Finset.mem_range.1 hk
        rw [hcl r k hk, hlo k c (by omega)]
      · rw [hlo i c (le_refl i)]
        congr 1
        simp [hg, hr']
    have e0 : luval f i r c = ∑ k ∈ range i, f r k * (if c < k then 0 else f k c) +
        (if c < i then 0 else f r c) := by
      unfold luval
      rw [m2]
    rw [e1, e0]
    unfold luerr
    rcases lt_trichotomy c i with h | h | h
    · rw [if_pos h, if_pos (by omega), if_pos h, hcl r c h, hcl c c h]
      have : c < i + 1 ↔ c < i := by omega
      simp only [this]; ring
    · subst h
      have hgr : g r c = fac f c r := by simp [hg, hr']
      have h1 : ¬ c < c := by omega
      have h2 : c < c + 1 := by omega
      simp only [h1, h2, if_true, if_false, hlo c c (le_refl c), true_and, false_and]
      rw [hgr]
      by_cases hz : f c c = 0
      · rw [if_pos ⟨hr', hz⟩, hz]
        simp only [fac, hz, ne_eq, not_true_eq_false, if_false]; ring
      · rw [if_neg (by tauto)]
        simp only [fac, ne_eq, hz, not_false_eq_true, if_true]
        field_simp
        ring
    · rw [if_neg (by omega), if_neg (by omega), if_neg (by omega), if_neg (by omega), if_neg (by omega)]
      have : g r c = f r c - fac f i r * f i c := by
        simp only [hg]; rw [if_neg (by omega), if_pos ⟨hr', h⟩]
      rw [this]; ring

/-- invariant of the LU loop -/
def LUInv {n : Nat} (A0 : Nat → Nat → K) (i : Nat) (s : Mat K × Mat K) : Prop :=
  ∃ f g, ∃ σ : Equiv.Perm (Fin n), s.1.Is n n f ∧ s.2.Is n n g ∧
    (∀ (r : Fin n) c, c < n → g r c = if c = σ r then 1 else 0) ∧
    ∀ (r : Fin n) c, c < n → A0 (σ r) c = luval f i r c + luerr f i r c

theorem pivotSwap_inv {n : Nat} {A0 : Nat → Nat → K} {i im : Nat} (hi : i < n) (him : i ≤ im)
    (hm : im < n) {s : Mat K × Mat K} (h : LUInv (n := n) A0 i s) :
    ∃ s', pivotSwap s.1 s.2 i im = some s' ∧ LUInv (n := n) A0 i s' := by
  by_cases e : i = im
  · exact ⟨s, by simp [pivotSwap, e], h⟩
  · obtain ⟨f, g, σ, hf, hg, h1, h2⟩ := h
    obtain ⟨a, a1, a2⟩ := swapRows_is hf hi hm
    obtain ⟨p, p1, p2⟩ := swapRows_is hg hi hm
    set τ : Equiv.Perm (Fin n) := Equiv.swap ⟨i, hi⟩ ⟨im, hm⟩ with hτ
    have hsw : ∀ (φ : Nat → Nat → K) (r : Fin n) c,
        (if (r : Nat) = i then φ im c else if (r : Nat) = im then φ i c else φ r c) = φ (τ r) c := by
      intro φ r c
      by_cases e1 : (r : Nat) = i
      · have : r = ⟨i, hi⟩ := Fin.ext e1
        rw [if_pos e1, this, hτ, Equiv.swap_apply_left]
      · by_cases e2 : (r : Nat) = im
        · have : r = ⟨im, hm⟩ := Fin.ext e2
          rw [if_neg e1, if_pos e2, this, hτ, Equiv.swap_apply_right]
        · rw [if_neg e1, if_neg e2, hτ, Equiv.swap_apply_of_ne_of_ne]
          · intro h; exact e1 (congrArg Fin.val h)
          · intro h; exact e2 (congrArg Fin.val h)
    have hge : ∀ r : Fin n, i ≤ (r : Nat) → i ≤ (τ r : Nat) := by
      intro r hr
      by_cases e1 : r = ⟨i, hi⟩
      · rw [hτ, e1, Equiv.swap_apply_left]; exact him
      · by_cases e2 : r = ⟨im, hm⟩
        · rw [hτ, e2, Equiv.swap_apply_right]
        · rw [hτ, Equiv.swap_apply_of_ne_of_ne e1 e2]; exact hr
    refine ⟨(a, p), ?_, _, _, σ * τ, a2, p2, ?_, ?_⟩
    · have e' : i ≠ im := e
      simp only [pivotSwap, if_pos e', a1, p1, Option.bind_eq_bind, Option.bind_some]
    · intro r c hc
      simp only [hsw, Equiv.Perm.mul_apply]
      exact h1 _ _ hc
    · intro r c hc
      simp only [Equiv.Perm.mul_apply]
      rw [h2 _ _ hc]
      set f' : Nat → Nat → K := fun a b => if a = i then f im b else if a = im then f i b else f a b with hf'
      have hlow : ∀ k c, k < i → f' k c = f k c := by
        intro k c hk
        simp only [hf']; rw [if_neg (by omega), if_neg (by omega)]
      have hrow : ∀ c, f' r c = f (τ r) c := fun c => hsw f r c
      by_cases hr : (r : Nat) < i
      · have hτr : τ r = r := by
          rw [hτ, Equiv.swap_apply_of_ne_of_ne]
          · intro h; have := congrArg Fin.val h; simp at this; omega
          · intro h; have := congrArg Fin.val h; simp at this; omega
        rw [hτr] at hrow ⊢
        congr 1
        · unfold luval
          congr 1
          · apply Finset.sum_congr rfl
            intro k hk
            have hk := Finset.mem_range.1 hk
            rw [hrow, hlow k c (by omega)]
          · rw [hrow]
        · unfold luerr
          by_cases hc' : c < i
          · rw [hrow, hlow c c hc']
          · rw [if_neg (by omega), if_neg (by omega)]
      · have hr' := hge r (by omega)
        have m1 : min (r : Nat) i = i := by omega
        have m2 : min (τ r : Nat) i = i := by omega
        congr 1
        · unfold luval
          rw [m1, m2]
          congr 1
          · apply Finset.sum_congr rfl
            intro k hk
            have hk := Finset.mem_range.1 hk
            rw [hrow, hlow k c hk]
          · rw [hrow]
        · unfold luerr
          by_cases hc' : c < i
          · rw [hrow, hlow c c hc']
            have : (c < (τ r : Nat)) ↔ (c < (r : Nat)) := by omega
            simp only [this]
          · rw [if_neg (by omega), if_neg (by omega)]

theorem luStep_inv {n : Nat} {A0 : Nat → Nat → K} {i : Nat} (hi : i < n)
    {s : Mat K × Mat K} (h : LUInv (n := n) A0 i s) :
    ∃ s', luStep s i = some s' ∧ LUInv (n := n) A0 (i + 1) s' := by
  obtain ⟨pm, q1, q2, q3, _⟩ := pivotLoop_is h.choose_spec.choose_spec.choose_spec.1 hi
  obtain ⟨s', s1, f, g, σ, hf, hg, h1, h2⟩ := pivotSwap_inv hi q2 q3 h
  obtain ⟨b, b1, b2⟩ := elimAll_is hf hi
  refine ⟨(b, s'.2), ?_, _, g, σ, b2, hg, h1, ?_⟩
  · simp only [luStep, q1, s1, hf.hn, b1, Option.bind_eq_bind, Option.bind_some]
  · intro r c hc
    rw [h2 r c hc, luval_elim]

/-- The LU decomposition always returns; `a` is the in-place array, `σ` the row permutation. -/
theorem decLU_is {n : Nat} {A : Mat K} {A0} (hA : A.Is n n A0) :
    ∃ l u p, ∃ f : Nat → Nat → K, ∃ σ : Equiv.Perm (Fin n), decLU A = some (l, u, p) ∧
      l.Is n n (fun r c => if c < r then f r c else if r = c then 1 else 0) ∧
      u.Is n n (fun r c => if r ≤ c then f r c else 0) ∧
      Repr p (σ.permMatrix K) ∧
      ∀ (r : Fin n) c, c < n → A0 (σ r) c = luval f n r c + luerr f n r c := by
  obtain ⟨s, e1, f, g, σ, hf, hg, h1, h2⟩ := forRange_inv (a := 0) (b := n) (s := (A, one n))
    (f := luStep) (fun i s => LUInv (n := n) A0 i s) (by omega)
    ⟨A0, _, 1, hA, one_is n, by intro r c _; simp only [Equiv.Perm.one_apply, eq_comm (a := c)], by
      intro r c _
      simp [luval, luerr]⟩ (by intro i s _ hi h; exact luStep_inv hi h)
  obtain ⟨l, l1, l2⟩ := regionLoop (m := n) (n := n) (a := 1) (b := n) (fun _ => 0) (fun i => i) f
    (one_is (K := K) n) (le_refl n) (by intro i _ h; exact h.le)
    (fun l i j => do
      let x ← s.1.get i j
      l.set i j x) (by
      intro B i j _ h3 _ h4 _
      rw [hf.get h3 (by omega)]; rfl)
  obtain ⟨u, u1, u2⟩ := regionLoop (m := n) (n := n) (a := 0) (b := n) (fun i => i) (fun _ => n) f
    (one_is (K := K) n) (le_refl n) (by intro i _ _; exact le_refl n)
    (fun l i j => do
      let x ← s.1.get i j
      l.set i j x) (by
      intro B i j _ h3 _ h4 _
      rw [hf.get h3 h4]; rfl)
  refine ⟨l, u, s.2, f, σ, ?_, ?_, ?_, ?_, h2⟩
  · simp only [decLU, hA.hm, hA.hn, if_true, e1, hf.hn, Option.bind_eq_bind, Option.bind_some] at l1 u1 ⊢
    rw [l1]
    simp only [Option.bind_some]
    rw [u1]
    rfl
  · refine l2.congr ?_
    intro r c hr hc
    by_cases h : c < r
    · rw [if_pos (by omega), if_pos h]
    · rw [if_neg (by omega), if_neg h]
  · refine u2.congr ?_
    intro r c hr hc
    by_cases h : r ≤ c
    · rw [if_pos (by omega), if_pos h]
    · rw [if_neg (by omega), if_neg h, if_neg (by omega)]
  · refine hg.repr_of ?_
    intro r c
    rw [h1 r c c.2]
    simp only [Equiv.Perm.permMatrix, PEquiv.toMatrix_apply, Equiv.toPEquiv_apply, Option.mem_some_iff]
    have : ((c : Nat) = (σ r : Nat)) ↔ (σ r = c) := by
      rw [← Fin.ext_iff, eq_comm]
    simp only [this]

omit [LinearOrder K] in
/-- `luval` at the end is the product of the triangular factors. -/
theorem luval_eq_sum (f : Nat → Nat → K) {n r c : Nat} (hr : r < n) :
    luval f n r c = ∑ k ∈ range n, (if k < r then f r k else if r = k then 1 else 0) *
      (if k ≤ c then f k c else 0) := by
  have hm : min r n = r := by omega
  unfold luval
  rw [hm]
  obtain ⟨d, rfl⟩ : ∃ d, n = r + (d + 1) := ⟨n - r - 1, by omega⟩
  rw [Finset.sum_range_add]
  congr 1
  · apply Finset.sum_congr rfl
    intro k hk
    have hk := Finset.mem_range.1 hk
    rw [if_pos hk]
    congr 1
    by_cases h : c < k
    · rw [if_pos h, if_neg (by omega)]
    · rw [if_neg h, if_pos (by omega)]
  · rw [Finset.sum_range_succ']
    have : ∑ k ∈ range d, (if r + (k + 1) < r then f r (r + (k + 1)) else
        if r = r + (k + 1) then 1 else 0) * (if r + (k + 1) ≤ c then f (r + (k + 1)) c else 0) = 0 := by
      apply Finset.sum_eq_zero
      intro k _
      rw [if_neg (by omega), if_neg (by omega), zero_mul]
    rw [this]
    by_cases h : c < r
    · simp [h, show ¬ r ≤ c by omega]
    · simp [h, show r ≤ c by omega]

end Mat
end Verif
