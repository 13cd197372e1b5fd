import Verif.IeeeLoops
import Verif.ContModel
import Verif.DistModel
import Verif.DiscreteModel
import Verif.MultistepModel

/-!
# Property C111: the checks of the arguments, with NaN and infinities
-/

namespace Verif
open Ie
variable {p e : ℕ}

namespace Ie

theorem le_iff (v w : Ie p e) : v ≤ w ↔ v ≠ nan ∧ w ≠ nan ∧ ¬ w < v := by
  constructor
  · intro h
    refine ⟨?_, ?_, ?_⟩
    · rintro rfl; exact not_nan_le _ h
    · rintro rfl; exact not_le_nan _ h
    · intro h'
      cases v with
      | nan => exact not_nan_le _ h
      | inf s =>
        cases w with
        | nan => exact not_le_nan _ h
        | inf t => cases s <;> cases t <;> first | exact Bool.false_ne_true h | exact Bool.false_ne_true h'
        | fin y => cases s <;> first | exact Bool.false_ne_true h | exact Bool.false_ne_true h'
      | fin x =>
        cases w with
        | nan => exact not_le_nan _ h
        | inf t => cases t <;> first | exact Bool.false_ne_true h | exact Bool.false_ne_true h'
        | fin y => exact absurd (of_decide_eq_true h' : y < x) (not_lt.2 (of_decide_eq_true h : x ≤ y))
  · rintro ⟨h1, h2, h3⟩
    cases v with
    | nan => exact absurd rfl h1
    | inf s =>
      cases w with
      | nan => exact absurd rfl h2
      | inf t => cases s <;> cases t <;> first | rfl | exact absurd (rfl : Ie.lt _ _ = true) h3
      | fin y => cases s <;> first | rfl | exact absurd (rfl : Ie.lt _ _ = true) h3
    | fin x =>
      cases w with
      | nan => exact absurd rfl h2
      | inf t => cases t <;> first | rfl | exact absurd (rfl : Ie.lt _ _ = true) h3
      | fin y => exact decide_eq_true (not_lt.1 fun h => h3 (decide_eq_true h : decide (y < x) = true))

theorem zero_ne_nan : (0 : Ie p e) ≠ nan := by intro h; cases h
theorem one_ne_nan : (1 : Ie p e) ≠ nan := by intro h; cases h

theorem not_le_iff (v w : Ie p e) : ¬ v ≤ w ↔ w < v ∨ v = nan ∨ w = nan := by
  rw [le_iff]
  tauto

theorem not_lt_iff (v w : Ie p e) : ¬ v < w ↔ w ≤ v ∨ v = nan ∨ w = nan := by
  rw [le_iff]
  constructor
  · intro h
    by_cases h1 : v = nan
    · exact Or.inr (Or.inl h1)
    by_cases h2 : w = nan
    · exact Or.inr (Or.inr h2)
    exact Or.inl ⟨h2, h1, h⟩
  · rintro (h | rfl | rfl)
    exacts [h.2.2, not_nan_lt _, not_lt_nan _]

end Ie

theorem ite_none_isSome {α : Type} (c : Prop) [Decidable c] (a : α) : (if c then none else some a).isSome ↔ ¬ c := by
  split_ifs with h <;> simp [h]

/-- **C111** which parameters the constructors accept, in every format, with infinities and NaN: the documented range, in
    the order of IEEE 754, and NaN.  (Bernoulli `0 ≤ p ≤ 1`; normal and log-normal variance, Poisson, exponential and gamma
    parameters positive; beta `0 ≤ p`, `0 < q`; t and raised cosine not negative; uniform `a < b`; the step sizes of the
    solvers positive, the number of steps in range.)  Only `Gradient::new`, whose checks are written with `assert!`,
    accepts no NaN. -/
theorem C111_constructors (v w : Ie p e) :
    ((Stat.bernoulliNew v).isSome ↔ (0 ≤ v ∧ v ≤ 1) ∨ v = nan) ∧
    ((Stat.normalNew v w).isSome ↔ 0 < w ∨ w = nan) ∧
    ((Stat.logNormalNew v w).isSome ↔ 0 < w ∨ w = nan) ∧
    ((Stat.poissonNew v).isSome ↔ 0 < v ∨ v = nan) ∧
    ((Stat.expoNew v).isSome ↔ 0 < v ∨ v = nan) ∧
    ((Stat.gammaNew v w).isSome ↔ (0 < v ∨ v = nan) ∧ (0 < w ∨ w = nan)) ∧
    ((Stat.betaNew v w).isSome ↔ (0 ≤ v ∨ v = nan) ∧ (0 < w ∨ w = nan)) ∧
    ((Stat.tNew v).isSome ↔ 0 ≤ v ∨ v = nan) ∧
    ((Stat.rcosNew w v).isSome ↔ 0 ≤ v ∨ v = nan) ∧
    ((Stat.uniformNew v w).isSome ↔ v < w ∨ v = nan ∨ w = nan) ∧
    ((Ode.newStepper v).isSome ↔ 0 < v ∨ v = nan) ∧
    (∀ k, (Ode.abNew k v).isSome ↔ (1 ≤ k ∧ k ≤ 5) ∧ (0 < v ∨ v = nan)) ∧
    (∀ k, (Ode.bdfNew k v).isSome ↔ (1 ≤ k ∧ k ≤ 6) ∧ (0 < v ∨ v = nan)) ∧
    (∀ k, (Opt.gradientNew v k).isSome ↔ 0 < v ∧ v ≤ 1 ∧ 0 < k) := by
  have hpos : ∀ v : Ie p e, ¬ v ≤ 0 ↔ 0 < v ∨ v = nan := by
    intro v
    rw [not_le_iff]
    constructor
    · rintro (h | h | h)
      exacts [Or.inl h, Or.inr h, absurd h zero_ne_nan]
    · rintro (h | h)
      exacts [Or.inl h, Or.inr (Or.inl h)]
  have hnn : ∀ v : Ie p e, ¬ v < 0 ↔ 0 ≤ v ∨ v = nan := by
    intro v
    rw [not_lt_iff]
    constructor
    · rintro (h | h | h)
      exacts [Or.inl h, Or.inr h, absurd h zero_ne_nan]
    · rintro (h | h)
      exacts [Or.inl h, Or.inr (Or.inl h)]
  have hle1 : ∀ v : Ie p e, ¬ 1 < v ↔ v ≤ 1 ∨ v = nan := by
    intro v
    rw [not_lt_iff]
    constructor
    · rintro (h | h | h)
      exacts [Or.inl h, absurd h one_ne_nan, Or.inr h]
    · rintro (h | h)
      exacts [Or.inl h, Or.inr (Or.inr h)]
  refine ⟨?_, ?_, ?_, ?_, ?_, ?_, ?_, ?_, ?_, ?_, ?_, ?_, ?_, ?_⟩
  · rw [Stat.bernoulliNew, ite_none_isSome, not_or, hnn, gt_iff_lt, hle1]
    constructor
    · rintro ⟨h | h, h' | h'⟩
      exacts [Or.inl ⟨h, h'⟩, Or.inr h', Or.inr h, Or.inr h]
    · rintro (⟨h, h'⟩ | h)
      exacts [⟨Or.inl h, Or.inl h'⟩, ⟨Or.inr h, Or.inr h⟩]
  · rw [Stat.normalNew, ite_none_isSome, hpos]
  · rw [Stat.logNormalNew, ite_none_isSome, hpos]
  · rw [Stat.poissonNew, ite_none_isSome, hpos]
  · rw [Stat.expoNew, ite_none_isSome, hpos]
  · rw [Stat.gammaNew, ite_none_isSome, not_or, hpos, hpos]
  · rw [Stat.betaNew, ite_none_isSome, not_or, hnn, hpos]
  · rw [Stat.tNew, ite_none_isSome, hnn]
  · rw [Stat.rcosNew, ite_none_isSome, hnn]
  · rw [Stat.uniformNew, ite_none_isSome, ge_iff_le, not_le_iff]
    tauto
  · rw [Ode.newStepper, ite_none_isSome, hpos]
  · intro k
    rw [Ode.abNew]
    by_cases hk : k = 0 ∨ k > 5
    · rw [if_pos hk]
      simp only [Option.isSome_none, Bool.false_eq_true, false_iff]
      rintro ⟨h, _⟩
      omega
    · rw [if_neg hk, ite_none_isSome, hpos]
      exact ⟨fun h => ⟨by omega, h⟩, fun h => h.2⟩
  · intro k
    rw [Ode.bdfNew]
    by_cases hk : k = 0 ∨ k > 6
    · rw [if_pos hk]
      simp only [Option.isSome_none, Bool.false_eq_true, false_iff]
      rintro ⟨h, _⟩
      omega
    · rw [if_neg hk, ite_none_isSome, hpos]
      exact ⟨fun h => ⟨by omega, h⟩, fun h => h.2⟩
  · intro k
    rw [Opt.gradientNew]
    split_ifs with h
    · simp [h.1, h.2.1, h.2.2]
    · simp only [Option.isSome_none, Bool.false_eq_true, false_iff]
      rintro ⟨h1, h2, h3⟩
      exact h ⟨h2, h1, h3⟩

/-- **C111** (what does not hold): the constructors should panic for parameters outside of the documented range, but all of
    these accept NaN -/
theorem C111_constructors_violated (v : Ie p e) :
    Stat.bernoulliNew (nan : Ie p e) = some nan ∧ Stat.normalNew v nan = some (v, nan) ∧
    Stat.poissonNew (nan : Ie p e) = some nan ∧ Stat.expoNew (nan : Ie p e) = some nan ∧
    Stat.gammaNew (nan : Ie p e) nan = some (nan, nan) ∧ Stat.betaNew (nan : Ie p e) nan = some (nan, nan) ∧
    Stat.uniformNew v nan = some (v, nan) ∧ Ode.newStepper (nan : Ie p e) = some nan := by
  refine ⟨?_, ?_, ?_, ?_, ?_, ?_, ?_, ?_⟩
  · rw [Stat.bernoulliNew, if_neg (by rintro (h | h); exacts [not_nan_lt _ h, not_lt_nan _ h])]
  · rw [Stat.normalNew, if_neg (not_nan_le _)]
  · rw [Stat.poissonNew, if_neg (not_nan_le _)]
  · rw [Stat.expoNew, if_neg (not_nan_le _)]
  · rw [Stat.gammaNew, if_neg (by rintro (h | h) <;> exact not_nan_le _ h)]
  · rw [Stat.betaNew, if_neg (by rintro (h | h); exacts [not_nan_lt _ h, not_nan_le _ h])]
  · rw [Stat.uniformNew, if_neg (not_nan_le _)]
  · rw [Ode.newStepper, if_neg (not_nan_le _)]

example : Stat.normalNew (0 : IeF64) (inf false) = some (0, inf false) ∧ Stat.normalNew (0 : IeF64) (inf true) = none ∧
    Opt.gradientNew (nan : IeF64) 10 = none := by decide +kernel

/-- **C111** (what does not hold): with a step size that is NaN (`FixedStepper::new` accepts it), or with NaN as a bound
    of the time interval, `solve` should not return a solution.  It returns `Ok` with two empty lists, not even the
    starting value: the number of steps is NaN, and its conversion to an integer is 0. -/
theorem C111_fixed_nan_violated (step : Ie p e → Mat (Ie p e) → Ie p e → Option (Mat (Ie p e))) (h t₀ t₁ : Ie p e)
    (hn : h = nan ∨ t₀ = nan ∨ t₁ = nan) (ht : ¬ t₁ < t₀) (x₀ : Mat (Ie p e)) :
    Ode.fixedSolve step h t₀ t₁ x₀ = some ([], []) := by
  have hq : (t₁ - t₀) / h = nan := by
    rcases hn with rfl | rfl | rfl
    exacts [div_nan _, by rw [sub_nan, nan_div], by rw [nan_sub, nan_div]]
  unfold Ode.fixedSolve
  rw [if_neg ht, hq]
  rfl

/-- **C111** (what does not hold): the solution should reach the end of the time interval.  With an infinite step size
    (accepted by `FixedStepper::new`) `solve` returns `Ok` with the starting point only. -/
theorem C111_fixed_inf_violated {step : Ie p e → Mat (Ie p e) → Ie p e → Option (Mat (Ie p e))} {t₀ t₁ : Ie p e}
    (ht : ¬ t₁ < t₀) {d : ℚ} (hd : t₁ - t₀ = fin d) {x₀ x₁ : Mat (Ie p e)} (hs : step t₀ x₀ (fin d) = some x₁) :
    Ode.fixedSolve step (inf false) t₀ t₁ x₀ = some ([t₀], [x₀]) := by
  have hm : min (inf false) (t₁ - t₀) = fin d := by rw [hd]; rfl
  unfold Ode.fixedSolve
  have hc : (Ode.HasCeil.ceilZ ((t₁ - t₀) / inf false) + 1).toNat = 1 := by rw [hd]; rfl
  rw [if_neg ht, hc]
  simp only
  rw [forRange_step (by norm_num)]
  simp only [Ode.fixedIter, hm, hs, Option.bind_eq_bind, Option.bind_some]
  rw [forRange_empty (by norm_num)]
  rfl

example : Ode.fixedSolve (K := IeF64) (fun _ x _ => some x) (inf false) 0 1 ⟨1, 1, [1]⟩ = some ([0], [⟨1, 1, [1]⟩]) ∧
    Ode.fixedSolve (K := IeF64) (fun _ x _ => some x) nan 0 1 ⟨1, 1, [1]⟩ = some ([], []) :=
  ⟨C111_fixed_inf_violated (by decide +kernel) (d := 1) (by decide +kernel) rfl,
    C111_fixed_nan_violated _ _ _ _ (Or.inl rfl) (by decide +kernel) _⟩

/-- **C111** (what does not hold): the step size given should be an upper bound of the steps.  With a step size that is
    NaN, `AdamsBashforth` and `BDF` with `k = 1` make one step from the start to the end of the time interval. -/
theorem C111_multistep_nan_violated {st : ℕ → List IeF64 → List (Mat IeF64) → IeF64 → Option (Mat IeF64)} {t₀ t₁ : IeF64}
    (ht : ¬ t₁ < t₀) (hfar : max (t₀ - t₁) (-(t₀ - t₁)) > 1 / ((10 ^ 10 : ℕ) : IeF64)) (h1 : t₀ + (t₁ - t₀) = t₁)
    (h2 : t₁ - t₁ = 0) {x₀ x₁ : Mat IeF64} (hs : st 1 [t₀] [x₀] (t₁ - t₀) = some x₁) {fuel : ℕ} (hf : 2 ≤ fuel) :
    Ode.msSolve st fuel 1 nan t₀ t₁ x₀ = some ([t₀, t₁], [x₀, x₁]) := by
  obtain ⟨n, rfl⟩ : ∃ n, fuel = n + 2 := ⟨fuel - 2, by omega⟩
  have hz : ¬ max (0 : IeF64) (-0) > 1 / ((10 ^ 10 : ℕ) : IeF64) := by decide +kernel
  unfold Ode.msSolve
  rw [if_neg ht, forRange_empty (by norm_num)]
  simp only [Option.bind_eq_bind, Option.bind_some, Ode.msLoop]
  rw [if_pos hfar]
  simp only [Ode.msIter, min_nan, hs, Option.bind_eq_bind, Option.bind_some, h1, h2]
  rw [if_neg hz]
  rfl

example : Ode.msSolve (K := IeF64) (fun _ _ xs _ => xs.getLast?) 5 1 nan 0 1 ⟨1, 1, [1]⟩ =
    some ([0, 1], [⟨1, 1, [1]⟩, ⟨1, 1, [1]⟩]) :=
  C111_multistep_nan_violated (by decide +kernel) (by decide +kernel) (by decide +kernel) (by decide +kernel) rfl (by norm_num)

/-- **C111** (what does not hold): `argmax` and `argmin` return 0 if the first entry is NaN, whatever the other entries
    are: no comparison with NaN is true. -/
theorem C111_argmax_violated {n : ℕ} (hn : 0 < n) (x : Fin n → Ie p e) (h0 : x ⟨0, hn⟩ = nan) :
    (col x).argmax = some 0 ∧ (col x).argmin = some 0 := by
  have hg : ∀ i, i < n → (col x).vget i = some (extV x i) := fun i hi => (col_is x).vget_col hi
  have hd : max (col x).m (col x).n = n := by
    show max n 1 = n
    omega
  have h0' : (col x).vget 0 = some nan := by rw [hg 0 hn, extV_lt x hn, h0]
  constructor
  · unfold Mat.argmax
    simp only [h0', Option.bind_eq_bind, Option.bind_some, hd]
    rw [if_neg (by omega)]
    obtain ⟨r, h1, h2⟩ := forRange_inv (a := 0) (b := n) (s := ((0, nan) : ℕ × Ie p e))
      (f := fun (s : ℕ × Ie p e) idx => ((col x).vget idx).bind fun element =>
        if element > s.2 then some (idx, element) else some s)
      (fun _ s => s = (0, nan)) (by omega) rfl (by
        rintro j s _ hj rfl
        refine ⟨(0, nan), ?_, rfl⟩
        simp only [hg j hj, Option.bind_some]
        rw [if_neg (not_nan_lt _)])
    rw [h1, h2]
    rfl
  · unfold Mat.argmin
    simp only [h0', Option.bind_eq_bind, Option.bind_some, hd]
    rw [if_neg (by omega)]
    obtain ⟨r, h1, h2⟩ := forRange_inv (a := 0) (b := n) (s := ((0, nan) : ℕ × Ie p e))
      (f := fun (s : ℕ × Ie p e) idx => ((col x).vget idx).bind fun element =>
        if element < s.2 then some (idx, element) else some s)
      (fun _ s => s = (0, nan)) (by omega) rfl (by
        rintro j s _ hj rfl
        refine ⟨(0, nan), ?_, rfl⟩
        simp only [hg j hj, Option.bind_some]
        rw [if_neg (not_lt_nan _)])
    rw [h1, h2]
    rfl

example : (col ![(nan : IeF64), 1, 2]).argmax = some 0 := (C111_argmax_violated (by norm_num) _ rfl).1

end Verif
