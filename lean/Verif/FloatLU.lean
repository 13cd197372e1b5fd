import Verif.FloatSubst

/-! # The LU decomposition with rounding -/

set_option linter.unusedSectionVars false

namespace Verif
open Finset

namespace Mat

section Swap
variable {K : Type} [Field K] [LinearOrder K]

/-- exchanging two rows at or below row `i` permutes what the array stands for -/
theorem luval_swap {n i im : Nat} (hi : i < n) (him : i ≤ im) (hm : im < n) (f : Nat → Nat → K) (r : Fin n) (c : Nat) :
    luval (fun a b => if a = i then f im b else if a = im then f i b else f a b) i r c =
      luval f i (Equiv.swap (⟨i, hi⟩ : Fin n) ⟨im, hm⟩ r) c ∧
    luerr (fun a b => if a = i then f im b else if a = im then f i b else f a b) i r c =
      luerr f i (Equiv.swap (⟨i, hi⟩ : Fin n) ⟨im, hm⟩ r) c := by
  set τ : Equiv.Perm (Fin n) := Equiv.swap ⟨i, hi⟩ ⟨im, hm⟩ with hτ
  set f' : Nat → Nat → K := fun a b => if a = i then f im b else if a = im then f i b else f a b with hf'
  have hrow : ∀ c, f' r c = f (τ r) c := by
    intro c
    simp only [hf']
    by_cases e1 : (r : Nat) = i
    · have : r = ⟨i, hi⟩ := Fin.ext e1
      rw [if_pos e1, this, hτ, Equiv.swap_apply_left]
    · by_cases e2 : (r : Nat) = im
      · have : r = ⟨im, hm⟩ := Fin.ext e2
        rw [if_neg e1, if_pos e2, this, hτ, Equiv.swap_apply_right]
      · rw [if_neg e1, if_neg e2, hτ, Equiv.swap_apply_of_ne_of_ne]
        · intro h; exact e1 (congrArg Fin.val h)
        · intro h; exact e2 (congrArg Fin.val h)
  have hge : i ≤ (r : Nat) → i ≤ (τ r : Nat) := by
    intro hr
    by_cases e1 : r = ⟨i, hi⟩
    · rw [hτ, e1, Equiv.swap_apply_left]; exact him
    · by_cases e2 : r = ⟨im, hm⟩
      · rw [hτ, e2, Equiv.swap_apply_right]
      · rw [hτ, Equiv.swap_apply_of_ne_of_ne e1 e2]; exact hr
  have hlow : ∀ k c, k < i → f' k c = f k c := by
    intro k c hk
    simp only [hf']; rw [if_neg (by omega), if_neg (by omega)]
  by_cases hr : (r : Nat) < i
  · have hτr : τ r = r := by
      rw [hτ, Equiv.swap_apply_of_ne_of_ne]
      · intro h; have := congrArg Fin.val h; simp at this; omega
      · intro h; have := congrArg Fin.val h; simp at this; omega
    rw [hτr] at hrow ⊢
    constructor
    · unfold luval
      congr 1
      · apply Finset.sum_congr rfl
        intro k hk
        have hk := Finset.mem_range.1 hk
        rw [hrow, hlow k c (by omega)]
      · rw [hrow]
    · unfold luerr
      by_cases hc' : c < i
      · rw [hrow, hlow c c hc']
      · rw [if_neg (by omega), if_neg (by omega)]
  · have hr' := hge (by omega)
    have m1 : min (r : Nat) i = i := by omega
    have m2 : min (τ r : Nat) i = i := by omega
    constructor
    · unfold luval
      rw [m1, m2]
      congr 1
      · apply Finset.sum_congr rfl
        intro k hk
        have hk := Finset.mem_range.1 hk
        rw [hrow, hlow k c hk]
      · rw [hrow]
    · unfold luerr
      by_cases hc' : c < i
      · rw [hrow, hlow c c hc']
        have : (c < (τ r : Nat)) ↔ (c < (r : Nat)) := by omega
        simp only [this]
      · rw [if_neg (by omega), if_neg (by omega)]

end Swap

variable {K : Type} [Field K] [LinearOrder K] [IsStrictOrderedRing K] {R : Rounding K}

/-- the numbers in an array -/
def vals (f : Nat → Nat → Fl R) : Nat → Nat → K := fun r c => (f r c).val

/-- their absolute values -/
def absVals (f : Nat → Nat → Fl R) : Nat → Nat → K := fun r c => |(f r c).val|

/-- invariant of the LU loop with rounding -/
def LUInvFl {n : Nat} (A0 : Nat → Nat → K) (i : Nat) (s : Mat (Fl R) × Mat (Fl R)) : Prop :=
  ∃ f g, ∃ σ : Equiv.Perm (Fin n), s.1.Is n n f ∧ s.2.Is n n g ∧
    (∀ (r : Fin n) c, c < n → g r c = if c = σ r then 1 else 0) ∧
    ∀ (r : Fin n) c, c < n → |A0 (σ r) c - luval (vals f) i r c - luerr (vals f) i r c| ≤
      R.gam i * (luval (absVals f) i r c + |luerr (vals f) i r c|)

theorem pivotSwap_fl {n : Nat} {A0 : Nat → Nat → K} {i im : Nat} (hi : i < n) (him : i ≤ im)
    (hm : im < n) {s : Mat (Fl R) × Mat (Fl R)} (h : LUInvFl (n := n) A0 i s) :
    ∃ s', pivotSwap s.1 s.2 i im = some s' ∧ LUInvFl (n := n) A0 i s' := by
  by_cases e : i = im
  · exact ⟨s, by simp [pivotSwap, e], h⟩
  · obtain ⟨f, g, σ, hf, hg, h1, h2⟩ := h
    obtain ⟨a, a1, a2⟩ := swapRows_is hf hi hm
    obtain ⟨p, p1, p2⟩ := swapRows_is hg hi hm
    set τ : Equiv.Perm (Fin n) := Equiv.swap ⟨i, hi⟩ ⟨im, hm⟩ with hτ
    refine ⟨(a, p), ?_, _, _, σ * τ, a2, p2, ?_, ?_⟩
    · have e' : i ≠ im := e
      simp only [pivotSwap, if_pos e', a1, p1, Option.bind_eq_bind, Option.bind_some]
    · intro r c hc
      refine Eq.trans ?_ (h1 (τ r) c hc)
      beta_reduce
      by_cases e1 : (r : Nat) = i
      · have : r = ⟨i, hi⟩ := Fin.ext e1
        rw [if_pos e1, this, hτ, Equiv.swap_apply_left]
      · by_cases e2 : (r : Nat) = im
        · have : r = ⟨im, hm⟩ := Fin.ext e2
          rw [if_neg e1, if_pos e2, this, hτ, Equiv.swap_apply_right]
        · rw [if_neg e1, if_neg e2, hτ, Equiv.swap_apply_of_ne_of_ne]
          · intro h; exact e1 (congrArg Fin.val h)
          · intro h; exact e2 (congrArg Fin.val h)
    · intro r c hc
      simp only [Equiv.Perm.mul_apply]
      have k1 := luval_swap hi him hm (vals f) r c
      have k2 := luval_swap hi him hm (absVals f) r c
      have v1 : vals (fun a b => if a = i then f im b else if a = im then f i b else f a b) =
          fun a b => if a = i then vals f im b else if a = im then vals f i b else vals f a b := by
        funext a b; simp only [vals]; split_ifs <;> rfl
      have v2 : absVals (fun a b => if a = i then f im b else if a = im then f i b else f a b) =
          fun a b => if a = i then absVals f im b else if a = im then absVals f i b else absVals f a b := by
        funext a b; simp only [absVals]; split_ifs <;> rfl
      rw [v1, v2, k1.1, k1.2, k2.1]
      exact h2 _ _ hc

theorem fac_val (f : Nat → Nat → Fl R) (i j : Nat) : (fac f i j).val =
    if (f i i).val ≠ 0 then R.rnd ((f j i).val / (f i i).val) else (f j i).val := by
  unfold fac
  by_cases h : f i i = 0
  · rw [if_neg (not_not.2 h), if_neg (not_not.2 ((Fl.eq_zero_iff _).1 h))]
  · rw [if_pos h, if_pos (fun h' => h ((Fl.eq_zero_iff _).2 h'))]; rfl

theorem luval_elim_fl (f : Nat → Nat → Fl R) (i r c : Nat) (a0 : K)
    (h : |a0 - luval (vals f) i r c - luerr (vals f) i r c| ≤
      R.gam i * (luval (absVals f) i r c + |luerr (vals f) i r c|))
    {g : Nat → Nat → Fl R} (hg : g = fun r c => if i < r ∧ c = i then fac f i r
      else if i < r ∧ i < c then f r c - fac f i r * f i c else f r c) :
    |a0 - luval (vals g) (i + 1) r c - luerr (vals g) (i + 1) r c| ≤
      R.gam (i + 1) * (luval (absVals g) (i + 1) r c + |luerr (vals g) (i + 1) r c|) := by
  have hlo : ∀ r c, r ≤ i → g r c = f r c := by
    intro r c h; simp only [hg]; rw [if_neg (by omega), if_neg (by omega)]
  have hcl : ∀ r c, c < i → g r c = f r c := by
    intro r c h; simp only [hg]; rw [if_neg (by omega), if_neg (by omega)]
  have hmono : R.gam i ≤ R.gam (i + 1) := R.gam_mono (by omega)
  have hnn : ∀ (f : Nat → Nat → Fl R) i, 0 ≤ luval (absVals f) i r c := by
    intro f i
    unfold luval
    refine add_nonneg (Finset.sum_nonneg fun k _ => mul_nonneg (abs_nonneg _) ?_) ?_
    · split_ifs
      · exact le_refl 0
      · exact abs_nonneg _
    · split_ifs
      · exact le_refl 0
      · exact abs_nonneg _
  by_cases hr : r ≤ i
  · have m1 : min r (i + 1) = r := by omega
    have m2 : min r i = r := by omega
    have e1 : ∀ V : Fl R → K, luval (fun r c => V (g r c)) (i + 1) r c = luval (fun r c => V (f r c)) i r c := by
      intro V
      unfold luval
      rw [m1, m2]
      congr 1
      · apply Finset.sum_congr rfl
        intro k hk
        have hk := Finset.mem_range.1 hk
        beta_reduce
        rw [hlo r k hr, hlo k c (by omega)]
      · beta_reduce
        rw [hlo r c hr]
    have e2 : luerr (vals g) (i + 1) r c = luerr (vals f) i r c := by
      unfold luerr vals
      by_cases hc : c < r
      · rw [hlo r c hr, hlo c c (by omega)]
        have : c < i + 1 ↔ c < i := by omega
        simp only [this]
      · rw [if_neg (by omega), if_neg (by omega)]
    have e3 := e1 Fl.val
    have e4 := e1 (fun x => |x.val|)
    change luval (vals g) (i + 1) r c = luval (vals f) i r c at e3
    change luval (absVals g) (i + 1) r c = luval (absVals f) i r c at e4
    rw [e3, e4, e2]
    exact h.trans (mul_le_mul_of_nonneg_right hmono (add_nonneg (hnn f i) (abs_nonneg _)))
  · have hr' : i < r := by omega
    have m1 : min r (i + 1) = i + 1 := by omega
    have m2 : min r i = i := by omega
    have new : ∀ V : Fl R → K, luval (fun r c => V (g r c)) (i + 1) r c =
        ∑ k ∈ range i, V (f r k) * (if c < k then 0 else V (f k c)) +
        V (fac f i r) * (if c < i then 0 else V (f i c)) + (if c < i + 1 then 0 else V (g r c)) := by
      intro V
      unfold luval
      rw [m1, Finset.sum_range_succ]
      congr 2
      · apply Finset.sum_congr rfl
        intro k hk
        have hk := Finset.mem_range.1 hk
        beta_reduce
        rw [hcl r k hk, hlo k c (by omega)]
      · beta_reduce
        rw [hlo i c (le_refl i)]
        congr 1
        simp [hg, hr']
    have old : ∀ V : Fl R → K, luval (fun r c => V (f r c)) i r c =
        ∑ k ∈ range i, V (f r k) * (if c < k then 0 else V (f k c)) + (if c < i then 0 else V (f r c)) := by
      intro V
      unfold luval
      rw [m2]
    have n1 := new Fl.val
    have n2 := new (fun x => |x.val|)
    have o1 := old Fl.val
    have o2 := old (fun x => |x.val|)
    change luval (vals g) (i + 1) r c = _ at n1
    change luval (absVals g) (i + 1) r c = _ at n2
    change luval (vals f) i r c = _ at o1
    change luval (absVals f) i r c = _ at o2
    have hS : 0 ≤ ∑ k ∈ range i, |(f r k).val| * (if c < k then 0 else |(f k c).val|) := by
      refine Finset.sum_nonneg fun k _ => mul_nonneg (abs_nonneg _) ?_
      split_ifs
      · exact le_refl 0
      · exact abs_nonneg _
    rw [o1, o2] at h
    rw [n1, n2]
    set S := ∑ k ∈ range i, (f r k).val * (if c < k then 0 else (f k c).val)
    set T := ∑ k ∈ range i, |(f r k).val| * (if c < k then 0 else |(f k c).val|)
    rcases lt_trichotomy c i with hc | hc | hc
    · have e2 : luerr (vals g) (i + 1) r c = luerr (vals f) i r c := by
        unfold luerr vals
        rw [hcl r c hc, hcl c c hc]
        have : c < i + 1 ↔ c < i := by omega
        simp only [this]
      rw [e2, if_pos hc, if_pos hc, if_pos (by omega), if_pos (by omega), mul_zero, mul_zero, add_zero, add_zero]
      rw [if_pos hc, if_pos hc, add_zero, add_zero] at h
      simp only [add_zero]
      exact h.trans (mul_le_mul_of_nonneg_right hmono (add_nonneg hS (abs_nonneg _)))
    · subst hc
      have z1 : luerr (vals f) c r c = 0 := by
        unfold luerr; rw [if_neg (by omega)]
      have h1 : ¬ c < c := by omega
      have h2 : c < c + 1 := by omega
      have hgr : g r c = fac f c r := by simp [hg, hr']
      have z2 : luerr (vals g) (c + 1) r c = if (f c c).val = 0 then (fac f c r).val else 0 := by
        unfold luerr vals
        rw [hgr, hlo c c (le_refl c)]
        simp only [h2, hr', true_and]
      rw [z1, if_neg h1, if_neg h1, sub_zero, abs_zero, add_zero] at h
      rw [z2, if_neg h1, if_neg h1, if_pos h2, if_pos h2, add_zero, add_zero]
      have hE : |(a0 - S) - (f r c).val| ≤ R.gam c * (T + |(f r c).val|) := by rwa [sub_sub]
      by_cases hz : (f c c).val = 0
      · have hf : (fac f c r).val = (f r c).val := by rw [fac_val, if_neg (not_not.2 hz)]
        rw [if_pos hz, hz, abs_zero, mul_zero, mul_zero, add_zero, add_zero, hf]
        exact hE.trans (mul_le_mul_of_nonneg_right hmono (add_nonneg hS (abs_nonneg _)))
      · have hf : (fac f c r).val = R.rnd ((f r c).val / (f c c).val) := by rw [fac_val, if_pos hz]
        have := R.div_step hz (R.gam_nonneg c) hS hf hE
        rw [← R.gam_succ] at this
        rw [if_neg hz, abs_zero, add_zero, sub_zero, ← abs_mul, mul_comm (fac f c r).val]
        rwa [sub_sub] at this
    · have z1 : luerr (vals f) i r c = 0 := by
        unfold luerr; rw [if_neg (by omega)]
      have z2 : luerr (vals g) (i + 1) r c = 0 := by
        unfold luerr; rw [if_neg (by omega)]
      have h1 : ¬ c < i := by omega
      have h2 : ¬ c < i + 1 := by omega
      rw [z1, if_neg h1, if_neg h1, sub_zero, abs_zero, add_zero] at h
      rw [z2, if_neg h1, if_neg h1, if_neg h2, if_neg h2, sub_zero, abs_zero, add_zero]
      have hE : |(a0 - S) - (f r c).val| ≤ R.gam i * (T + |(f r c).val|) := by rwa [sub_sub]
      have hgr : (g r c).val = R.rnd ((f r c).val - R.rnd ((fac f i r).val * (f i c).val)) := by
        have : g r c = f r c - fac f i r * f i c := by
          simp only [hg]; rw [if_neg (by omega), if_pos ⟨hr', hc⟩]
        rw [this]; rfl
      have := R.sub_step (R.gam_nonneg i) hS hgr hE
      rw [← R.gam_succ] at this
      rw [← abs_mul]
      have e : a0 - (S + (fac f i r).val * (f i c).val + (g r c).val) =
        a0 - S - (fac f i r).val * (f i c).val - (g r c).val := by ring
      rw [e]
      exact this

theorem luStep_fl {n : Nat} {A0 : Nat → Nat → K} {i : Nat} (hi : i < n)
    {s : Mat (Fl R) × Mat (Fl R)} (h : LUInvFl (n := n) A0 i s) :
    ∃ s', luStep s i = some s' ∧ LUInvFl (n := n) A0 (i + 1) s' := by
  obtain ⟨pm, q1, q2, q3, _⟩ := pivotLoop_is h.choose_spec.choose_spec.choose_spec.1 hi
  obtain ⟨s', s1, f, g, σ, hf, hg, h1, h2⟩ := pivotSwap_fl hi q2 q3 h
  obtain ⟨b, b1, b2⟩ := elimAll_is hf hi
  refine ⟨(b, s'.2), ?_, _, g, σ, b2, hg, h1, ?_⟩
  · simp only [luStep, q1, s1, hf.hn, b1, Option.bind_eq_bind, Option.bind_some]
  · intro r c hc
    exact luval_elim_fl f i r c _ (h2 r c hc) rfl

/-- The LU decomposition with rounding. -/
theorem decLU_fl {n : Nat} {A : Mat (Fl R)} {A0 : Nat → Nat → Fl R} (hA : A.Is n n A0) :
    ∃ l u p, ∃ f : Nat → Nat → Fl R, ∃ σ : Equiv.Perm (Fin n), decLU A = some (l, u, p) ∧
      l.Is n n (fun r c => if c < r then f r c else if r = c then 1 else 0) ∧
      u.Is n n (fun r c => if r ≤ c then f r c else 0) ∧
      Repr p (σ.permMatrix (Fl R)) ∧
      ∀ (r : Fin n) c, c < n → |(A0 (σ r) c).val - luval (vals f) n r c - luerr (vals f) n r c| ≤
        R.gam n * (luval (absVals f) n r c + |luerr (vals f) n r c|) := by
  obtain ⟨s, e1, f, g, σ, hf, hg, h1, h2⟩ := forRange_inv (a := 0) (b := n) (s := (A, one n))
    (f := luStep) (fun i s => LUInvFl (n := n) (vals A0) i s) (by omega)
    ⟨A0, _, 1, hA, one_is n, by intro r c _; simp only [Equiv.Perm.one_apply, eq_comm (a := c)], by
      intro r c _
      simp [luval, luerr, R.gam_zero]⟩ (by intro i s _ hi h; exact luStep_fl hi h)
  obtain ⟨l, l1, l2⟩ := regionLoop (m := n) (n := n) (a := 1) (b := n) (fun _ => 0) (fun i => i) f
    (one_is (K := Fl R) n) (le_refl n) (by intro i _ h; exact h.le)
    (fun l i j => do
      let x ← s.1.get i j
      l.set i j x) (by
      intro B i j _ h3 _ h4 _
      rw [hf.get h3 (by omega)]; rfl)
  obtain ⟨u, u1, u2⟩ := regionLoop (m := n) (n := n) (a := 0) (b := n) (fun i => i) (fun _ => n) f
    (one_is (K := Fl R) n) (le_refl n) (by intro i _ _; exact le_refl n)
    (fun l i j => do
      let x ← s.1.get i j
      l.set i j x) (by
      intro B i j _ h3 _ h4 _
      rw [hf.get h3 h4]; rfl)
  refine ⟨l, u, s.2, f, σ, ?_, ?_, ?_, ?_, h2⟩
  · simp only [decLU, hA.hm, hA.hn, if_true, e1, hf.hn, Option.bind_eq_bind, Option.bind_some] at l1 u1 ⊢
    rw [l1]
    simp only [Option.bind_some]
    rw [u1]
    rfl
  · refine l2.congr ?_
    intro r c hr hc
    by_cases h : c < r
    · rw [if_pos (by omega), if_pos h]
    · rw [if_neg (by omega), if_neg h]
  · refine u2.congr ?_
    intro r c hr hc
    by_cases h : r ≤ c
    · rw [if_pos (by omega), if_pos h]
    · rw [if_neg (by omega), if_neg h, if_neg (by omega)]
  · refine hg.repr_of ?_
    intro r c
    rw [h1 r c c.2]
    simp only [Equiv.Perm.permMatrix, PEquiv.toMatrix_apply, Equiv.toPEquiv_apply, Option.mem_some_iff]
    have : ((c : Nat) = (σ r : Nat)) ↔ (σ r = c) := by
      rw [← Fin.ext_iff, eq_comm]
    simp only [this]

end Mat
end Verif
