import Mathlib.Tactic.TypeStar

/-!
# Loops of the modelled Rust code

A Rust `for i in a..b { body }` whose body may panic is modelled by `forRange a b body s`: a fold over
the indices `a, a+1, …, b-1` in the `Option` monad, where `none` is a panic.  The state `s` collects
all variables the body assigns.
-/

namespace Verif

/-- Model of a Rust `for i in a..b` loop (empty if `b ≤ a`); `none` is a panic in the body. -/
def forRange {σ : Type*} (a b : Nat) (f : σ → Nat → Option σ) (s : σ) : Option σ :=
  (List.range' a (b - a)).foldlM f s

theorem forRange_empty {σ : Type*} {a b : Nat} (h : b ≤ a) (f : σ → Nat → Option σ) (s : σ) :
    forRange a b f s = some s := by
  have : b - a = 0 := by omega
  simp [forRange, this]

theorem forRange_step {σ : Type*} {a b : Nat} (h : a < b) (f : σ → Nat → Option σ) (s : σ) :
    forRange a b f s = (f s a).bind (fun s' => forRange (a + 1) b f s') := by
  obtain ⟨k, hk⟩ : ∃ k, b - a = k + 1 := ⟨b - a - 1, by omega⟩
  have h2 : b - (a + 1) = k := by omega
  simp [forRange, hk, h2, List.range'_succ]

/-- The loop rule: an invariant indexed by the loop counter. -/
theorem forRange_inv {σ : Type*} (P : Nat → σ → Prop) {a b : Nat} (hab : a ≤ b)
    {f : σ → Nat → Option σ} {s : σ} (h0 : P a s)
    (hs : ∀ i t, a ≤ i → i < b → P i t → ∃ t', f t i = some t' ∧ P (i + 1) t') :
    ∃ t, forRange a b f s = some t ∧ P b t := by
  obtain ⟨k, rfl⟩ := Nat.exists_eq_add_of_le hab
  clear hab
  induction k generalizing a s with
  | zero => exact ⟨s, forRange_empty (by omega) f s, by simpa using h0⟩
  | succ k ih =>
    obtain ⟨t, ht, hP⟩ := hs a s (Nat.le_refl _) (by omega) h0
    have := ih (a := a + 1) (s := t) hP (fun i t' h1 h2 => hs i t' (by omega) (by omega))
    rw [forRange_step (by omega), ht]
    have e : a + (k + 1) = a + 1 + k := by omega
    simpa [e] using this

/-- The loop rule with an arbitrary upper bound: the invariant counter stops at `max a b`. -/
theorem forRange_inv' {σ : Type*} (P : Nat → σ → Prop) {a b : Nat}
    {f : σ → Nat → Option σ} {s : σ} (h0 : P a s)
    (hs : ∀ i t, a ≤ i → i < b → P i t → ∃ t', f t i = some t' ∧ P (i + 1) t') :
    ∃ t, forRange a b f s = some t ∧ P (max a b) t := by
  by_cases hab : a ≤ b
  · rw [Nat.max_eq_right hab]; exact forRange_inv P hab h0 hs
  · exact ⟨s, forRange_empty (by omega) f s, by rw [Nat.max_eq_left (by omega)]; exact h0⟩

/-- Partial-correctness loop rule: whatever the loop returns satisfies the invariant. -/
theorem forRange_inv_of_some {σ : Type*} (P : Nat → σ → Prop) {a b : Nat}
    {f : σ → Nat → Option σ} {s t : σ} (h0 : P a s)
    (hs : ∀ i u u', a ≤ i → i < b → P i u → f u i = some u' → P (i + 1) u')
    (ht : forRange a b f s = some t) : P (max a b) t := by
  by_cases hab : a ≤ b
  · obtain ⟨k, rfl⟩ := Nat.exists_eq_add_of_le hab
    rw [Nat.max_eq_right hab]
    clear hab
    induction k generalizing a s with
    | zero =>
      rw [forRange_empty (by omega)] at ht
      cases ht; simpa using h0
    | succ k ih =>
      rw [forRange_step (by omega)] at ht
      cases hf : f s a with
      | none => simp [hf] at ht
      | some s' =>
        have e : a + (k + 1) = a + 1 + k := by omega
        simp only [hf, Option.bind_some, e] at ht
        have := ih (a := a + 1) (s := s') (hs a s s' (Nat.le_refl _) (by omega) h0 hf)
          (fun i u u' h1 h2 => hs i u u' (by omega) (by omega)) ht
        simpa [e] using this
  · rw [forRange_empty (by omega)] at ht
    cases ht; rw [Nat.max_eq_left (by omega)]; exact h0

theorem forRange_congr {σ : Type*} {a b : Nat} {f g : σ → Nat → Option σ} (s : σ)
    (h : ∀ i t, a ≤ i → i < b → f t i = g t i) : forRange a b f s = forRange a b g s := by
  by_cases hab : a ≤ b
  · obtain ⟨k, rfl⟩ := Nat.exists_eq_add_of_le hab
    clear hab
    induction k generalizing a s with
    | zero => rw [forRange_empty (by omega), forRange_empty (by omega)]
    | succ k ih =>
      rw [forRange_step (by omega), forRange_step (by omega), h a s (by omega) (by omega)]
      have e : a + (k + 1) = a + 1 + k := by omega
      congr 1; funext s'
      rw [e]; exact ih s' (fun i t h1 h2 => h i t (by omega) (by omega))
  · rw [forRange_empty (by omega), forRange_empty (by omega)]

/-- A loop whose body panics at the first index panics. -/
theorem forRange_none {σ : Type*} {a b : Nat} (h : a < b) {f : σ → Nat → Option σ} {s : σ}
    (hf : f s a = none) : forRange a b f s = none := by
  rw [forRange_step h, hf]; rfl

/-- Splitting off the last iteration. -/
theorem forRange_succ {σ : Type*} {a b : Nat} (h : a ≤ b) (f : σ → Nat → Option σ) (s : σ) :
    forRange a (b + 1) f s = (forRange a b f s).bind (fun t => f t b) := by
  obtain ⟨k, rfl⟩ := Nat.exists_eq_add_of_le h
  have h1 : a + k + 1 - a = k + 1 := by omega
  have h2 : a + k - a = k := by omega
  simp only [forRange, h1, h2, List.range'_concat, List.foldlM_append, List.foldlM_cons,
    List.foldlM_nil]
  simp only [Nat.one_mul]
  cases List.foldlM f s (List.range' a k) <;> simp

end Verif
