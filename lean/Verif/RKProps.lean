import Verif.OdeLemmas
import Mathlib.Data.Rat.Cast.CharZero
import Mathlib.Analysis.Calculus.Deriv.Prod
import Mathlib.Analysis.Calculus.ContDiff.Operations
import Mathlib.Algebra.Polynomial.Taylor
import Mathlib.Analysis.Normed.Lp.PiLp
import Mathlib.Analysis.Real.Sqrt
import Mathlib.Tactic.NormNum
import Mathlib.Tactic.LinearCombination

/-! # Runge-Kutta methods: C41 and C42 -/

namespace Verif
namespace Ode
open Finset RK Asymptotics Topology

/-- Specification: a one-step method has order `p` when, for every right-hand side that is `p` times continuously
    differentiable at a point of a solution `y`, one step of size `h` that starts on the solution differs from the
    solution by `O(h ^ (p + 1))`. -/
def HasOrder (step : Rhs ℝ → ℝ → Mat ℝ → ℝ → Option (Mat ℝ)) (p : ℕ) : Prop :=
  ∀ (n : ℕ) (f : Rhs ℝ) (g : ℝ → (Fin n → ℝ) → (Fin n → ℝ)) (t : ℝ) (y : ℝ → (Fin n → ℝ)),
    RhsRepr f g → ContDiffAt ℝ p (fun z : ℝ × (Fin n → ℝ) => g z.1 z.2) (t, y t) →
    (∀ᶠ u in 𝓝 t, HasDerivAt y (g u (y u)) u) →
    ∃ z : ℝ → (Fin n → ℝ), (∀ h, step f t (col (y t)) h = some (col (z h))) ∧
      (fun h => z h - y (t + h)) =O[𝓝 0] (fun h => h ^ (p + 1))

theorem rkStep_order {n s : ℕ} {A : ℕ → ℕ → ℝ} {b c : ℕ → ℝ} {p : ℕ} (hp : 0 < p) (hc : OrderConditions s A b p)
    (hr : RowSums s A c) (g : ℝ → (Fin n → ℝ) → (Fin n → ℝ)) (t : ℝ) (y : ℝ → (Fin n → ℝ))
    (hg : ContDiffAt ℝ p (fun z : ℝ × (Fin n → ℝ) => g z.1 z.2) (t, y t))
    (hy : ∀ᶠ u in 𝓝 t, HasDerivAt y (g u (y u)) u) :
    (fun h => rkStep s A b c g t (y t) h - y (t + h)) =O[𝓝 0] (fun h => h ^ (p + 1)) :=
  order_of_conditions_time hp hg hy hc hr (k := fun i h => rkStage A c g t (y t) h i)
    (fun i _ h => rkStage_eq A c g t (y t) h i)

theorem hasOrder_of {T : Tableau ℝ} {p : ℕ} (hp : 0 < p) (hT : Shape T.a T.b T.c)
    (hc : OrderConditions T.b.length (rowsOf T.a) (weightsOf T.b) p)
    (hr : RowSums T.b.length (rowsOf T.a) (nodesOf T.c)) : HasOrder (doStep T) p := by
  intro n f g t y hf hg hy
  exact ⟨_, fun h => doStep_col hf T hT t (y t) h, rkStep_order hp hc hr g t y hg hy⟩

/-- the tableau over another field -/
def Tableau.map {K L : Type} (φ : K → L) (T : Tableau K) : Tableau L := ⟨T.a.map φ, T.b.map φ, T.c.map φ⟩
def EmbTableau.map {K L : Type} (φ : K → L) (T : EmbTableau K) : EmbTableau L :=
  ⟨T.a.map φ, T.b.map φ, T.bs.map φ, T.c.map φ⟩

/-- the finite computation that decides the order of a rational tableau -/
def check (a b c : List ℚ) (p : ℕ) : Prop :=
  0 < p ∧ (b ≠ [] ∧ a.length = (b.length - 1) * b.length / 2 ∧ c.length = b.length - 1) ∧
  (∀ F ∈ Forest.upTo (p - 1),
    (∑ i ∈ range b.length, weightsOf b i * weight (rowsOf a) F i) * ((F.size + 1 : ℕ) * (F.dens : ℕ)) = 1) ∧
  ∀ i < b.length, nodesOf c i = ∑ j ∈ range i, rowsOf a i j

instance (a b c : List ℚ) (p : ℕ) : Decidable (check a b c p) := by unfold check; infer_instance

theorem conditions_of_check {K : Type} [Field K] [CharZero K] {a b c : List ℚ} {p : ℕ} (h : check a b c p) :
    OrderConditions b.length (rowsOf (a.map (Rat.castHom K))) (weightsOf (b.map (Rat.castHom K))) p ∧
    RowSums b.length (rowsOf (a.map (Rat.castHom K))) (nodesOf (c.map (Rat.castHom K))) := by
  rw [rowsOf_map, weightsOf_map, nodesOf_map]
  exact ⟨orderConditions_map _ (orderConditions_of_upTo h.2.2.1), rowSums_map _ h.2.2.2⟩

theorem hasOrder_of_check {T : Tableau ℚ} {T' : Tableau ℝ} {p : ℕ} (h : check T.a T.b T.c p)
    (hT : T' = T.map (Rat.castHom ℝ)) : HasOrder (doStep T') p := by
  subst hT
  obtain ⟨h1, h2⟩ := conditions_of_check (K := ℝ) h
  refine hasOrder_of h.1 ?_ ?_ ?_
  · simpa [Shape, Tableau.map] using h.2.1
  · simpa [Tableau.map] using h1
  · simpa [Tableau.map] using h2

theorem upTo_three (F : Forest) (h : F.size ≤ 3) :
    F = .nil ∨ F = .cons .nil .nil ∨ F = .cons .nil (.cons .nil .nil) ∨ F = .cons (.cons .nil .nil) .nil ∨
    F = .cons .nil (.cons .nil (.cons .nil .nil)) ∨ F = .cons .nil (.cons (.cons .nil .nil) .nil) ∨
    F = .cons (.cons .nil .nil) (.cons .nil .nil) ∨ F = .cons (.cons .nil (.cons .nil .nil)) .nil ∨
    F = .cons (.cons (.cons .nil .nil) .nil) .nil := by
  have h2 : ∀ F ∈ Forest.upTo 3,
    F = .nil ∨ F = .cons .nil .nil ∨ F = .cons .nil (.cons .nil .nil) ∨ F = .cons (.cons .nil .nil) .nil ∨
    F = .cons .nil (.cons .nil (.cons .nil .nil)) ∨ F = .cons .nil (.cons (.cons .nil .nil) .nil) ∨
    F = .cons (.cons .nil .nil) (.cons .nil .nil) ∨ F = .cons (.cons .nil (.cons .nil .nil)) .nil ∨
    F = .cons (.cons (.cons .nil .nil) .nil) .nil := by decide +kernel
  exact h2 F (Forest.mem_upTo.mpr h)

/-- the tableau of Ralston's fourth order method: the third weight is `1024 (3346 + 1623 √5) / 5924787`, where the
    crate has `3356` -/
noncomputable def ralston4Corrected : Tableau ℝ :=
  { ralston4 (Real.sqrt 5) with
    b := [(263 + 24 * Real.sqrt 5) / 1812, (125 - 1000 * Real.sqrt 5) / 3828,
      1024 * (3346 + 1623 * Real.sqrt 5) / 5924787, (30 - 4 * Real.sqrt 5) / 123] }

theorem ralston4_conditions (s : ℝ) (hs : s * s = 5) :
    OrderConditions 4 (rowsOf (ralston4 s).a) (weightsOf [(263 + 24 * s) / 1812, (125 - 1000 * s) / 3828,
      1024 * (3346 + 1623 * s) / 5924787, (30 - 4 * s) / 123]) 4 := by
  have h2 : s ^ 2 = 5 := by rw [pow_two]; exact hs
  have h3 : s ^ 3 = 5 * s := by rw [pow_succ, h2]
  have h4 : s ^ 4 = 25 := by rw [pow_succ, h3]; linear_combination 5 * hs
  intro F hF
  rcases upTo_three F (by omega) with rfl | rfl | rfl | rfl | rfl | rfl | rfl | rfl | rfl <;>
  · simp [weight, sum_range_succ, rowsOf, weightsOf, ralston4, Forest.size, Forest.dens]
    ring_nf
    try simp only [h2, h3, h4]
    try ring_nf

/-- `x' = x`, `h = 1`: the fourth Taylor polynomial of the exponential function -/
example : doStep (K := ℚ) rungeKutta4 (fun _ x => some x) 0 (col ![1, 2]) 1 = some (col ![65 / 24, 65 / 12]) := by
  decide +kernel

theorem ralston4_rows (s : ℝ) : RowSums 4 (rowsOf (ralston4 s).a) (nodesOf (ralston4 s).c) := by
  intro i hi
  have : i = 0 ∨ i = 1 ∨ i = 2 ∨ i = 3 := by omega
  rcases this with rfl | rfl | rfl | rfl <;>
  · simp [sum_range_succ, rowsOf, nodesOf, ralston4]
    try ring

set_option maxRecDepth 10000 in
theorem fixed_check (M : FixedMethod) (hM : M ≠ .ralston4) :
    check (M.tableau (0 : ℚ)).a (M.tableau (0 : ℚ)).b (M.tableau (0 : ℚ)).c M.order := by
  cases M
  case ralston4 => exact absurd rfl hM
  all_goals decide +kernel

theorem fixed_cast {K : Type} [Field K] [CharZero K] (M : FixedMethod) (hM : M ≠ .ralston4) (s : K) :
    M.tableau s = (M.tableau (0 : ℚ)).map (Rat.castHom K) := by
  cases M
  case ralston4 => exact absurd rfl hM
  all_goals simp [FixedMethod.tableau, explicitEuler, heun2, heun3, kutta3, kutta38, midpoint, ralston2, ralston3,
    rungeKutta4, ssprk3, Tableau.map]

/-- C41: every fixed step size Runge-Kutta method of the crate except `Ralston4` has the order that `order()`
    reports. `Ralston4` is excluded: see `C41_ralston4_violated`. -/
theorem C41_order_partial (M : FixedMethod) (hM : M ≠ .ralston4) :
    HasOrder (doStep (M.tableau (Real.sqrt 5))) M.order :=
  hasOrder_of_check (fixed_check M hM) (fixed_cast M hM _)

/-- the conditions on `doStep` that `check` gives over every field of characteristic zero -/
theorem fixed_conditions {K : Type} [Field K] [CharZero K] (M : FixedMethod) (hM : M ≠ .ralston4) (s : K) :
    Shape (M.tableau s).a (M.tableau s).b (M.tableau s).c ∧
    OrderConditions (M.tableau s).b.length (rowsOf (M.tableau s).a) (weightsOf (M.tableau s).b) M.order ∧
    RowSums (M.tableau s).b.length (rowsOf (M.tableau s).a) (nodesOf (M.tableau s).c) := by
  have h := fixed_check M hM
  obtain ⟨h1, h2⟩ := conditions_of_check (K := K) h
  rw [fixed_cast M hM s]
  refine ⟨?_, ?_, ?_⟩
  · simpa [Shape, Tableau.map] using h.2.1
  · simpa [Tableau.map] using h1
  · simpa [Tableau.map] using h2

/-- C41: with the third weight corrected, Ralston's method has order 4. -/
theorem C41_ralston4_corrected : HasOrder (doStep ralston4Corrected) 4 :=
  hasOrder_of (by decide) (by simp [Shape, ralston4Corrected, ralston4])
    (ralston4_conditions _ (Real.mul_self_sqrt (by norm_num))) (ralston4_rows _)

/-- the tableau does not integrate `x' = (m + 1) t ^ m` exactly -/
theorem rk_not_order {s : ℕ} {A : ℕ → ℕ → ℝ} {b c : ℕ → ℝ} {step : Rhs ℝ → ℝ → Mat ℝ → ℝ → Option (Mat ℝ)} (m p : ℕ)
    (hmp : m < p) (hstep : ∀ (f : Rhs ℝ) (g : ℝ → (Fin 1 → ℝ) → (Fin 1 → ℝ)), RhsRepr f g → ∀ t x h,
      step f t (col x) h = some (col (rkStep s A b c g t x h)))
    (hq : (∑ i ∈ range s, b i * c i ^ m) * (m + 1) ≠ 1) : ¬ HasOrder step p := by
  intro H
  let g : ℝ → (Fin 1 → ℝ) → (Fin 1 → ℝ) := fun t _ _ => (m + 1) * t ^ m
  let y : ℝ → (Fin 1 → ℝ) := fun t _ => t ^ (m + 1)
  have hf : RhsRepr (fun t _ => some (col (g t 0))) g := fun t x => rfl
  obtain ⟨z, hz, ho⟩ := H 1 _ g 0 y hf
    (by
      have : ContDiff ℝ p (fun z : ℝ × (Fin 1 → ℝ) => g z.1 z.2) := by
        apply contDiff_pi.mpr
        intro i
        exact contDiff_const.mul (contDiff_fst.pow m)
      exact this.contDiffAt)
    (by
      apply Filter.Eventually.of_forall
      intro u
      apply hasDerivAt_pi.mpr
      intro i
      have := hasDerivAt_pow (m + 1) u
      simpa [y, g] using this)
  have hz' : ∀ h, z h = rkStep s A b c g 0 (y 0) h := fun h => by
    have := hz h
    rw [hstep _ g hf] at this
    exact (col_injective (Option.some.inj this)).symm
  have hD : ∀ h, (z h - y (0 + h)) 0 = ((∑ i ∈ range s, b i * c i ^ m) * (m + 1) - 1) * h ^ (m + 1) := by
    intro h
    rw [hz', rkStep]
    have e : ∀ i, rkStage A c g 0 (y 0) h i = fun _ => (m + 1) * (c i * h) ^ m := by
      intro i
      rw [rkStage_eq]
      simp [g]
    simp only [e]
    simp only [Pi.sub_apply, Pi.add_apply, Pi.smul_apply, Finset.sum_apply, smul_eq_mul, y, zero_add, pow_succ, mul_zero]
    simp only [sum_mul, mul_sum, sub_mul, mul_pow]
    rw [one_mul]
    congr 1
    apply sum_congr rfl
    intro i _
    ring
  have h1 : (fun h : ℝ => ((∑ i ∈ range s, b i * c i ^ m) * (m + 1) - 1) * h ^ (m + 1)) =O[𝓝 0]
      (fun h => h ^ (p + 1)) := by
    have := (isBigO_pi.mp ho) 0
    simpa only [hD] using this
  have hne : (∑ i ∈ range s, b i * c i ^ m) * (m + 1) - 1 ≠ 0 := sub_ne_zero.mpr hq
  have h2 : (fun h : ℝ => h ^ (m + 1)) =O[𝓝 0] (fun h => h ^ (p + 1)) :=
    (isBigO_const_mul_left_iff hne).mp h1
  have h3 : (fun h : ℝ => h ^ (p + 1)) =o[𝓝 0] (fun h => h ^ (m + 1)) := by
    simpa using isLittleO_pow_pow (𝕜 := ℝ) (show m + 1 < p + 1 by omega)
  have h4 := h2.trans_isLittleO h3
  have h5 := isLittleO_irrefl (f'' := fun h : ℝ => h ^ (m + 1)) (l := 𝓝 0) (by
    have hf : ∃ᶠ h : ℝ in 𝓝[≠] 0, h ^ (m + 1) ≠ 0 := by
      apply Filter.Eventually.frequently
      filter_upwards [self_mem_nhdsWithin] with h hh
      exact pow_ne_zero _ hh
    exact hf.filter_mono nhdsWithin_le_nhds)
  exact h5 h4

/-- C41 is violated: the third weight of `Ralston4` is wrong (`3356` in place of `3346`), so that the weights do not
    sum to one. The method does not even have order 1: it is wrong for `x' = 1`. -/
theorem C41_ralston4_violated : ¬ HasOrder (doStep (FixedMethod.ralston4.tableau (Real.sqrt 5))) 1 := by
  refine rk_not_order (s := 4) (A := rowsOf (ralston4 (Real.sqrt 5)).a) (b := weightsOf (ralston4 (Real.sqrt 5)).b)
    (c := nodesOf (ralston4 (Real.sqrt 5)).c) 0 1 (by norm_num)
    (fun f g hf t x h => doStep_col hf (ralston4 (Real.sqrt 5)) (by simp [Shape, ralston4]) t x h) ?_
  simp [sum_range_succ, weightsOf, ralston4]
  intro h
  ring_nf at h
  norm_num at h

/-! ## Quadrature and the linear test equation -/

/-- the tree with `m` leaves above the root, without its root -/
def bush : ℕ → Forest
  | 0 => .nil
  | m + 1 => .cons .nil (bush m)

theorem bush_size (m : ℕ) : (bush m).size = m := by
  induction m with
  | zero => rfl
  | succ m ih => simp [bush, Forest.size, ih]; omega

theorem bush_dens (m : ℕ) : (bush m).dens = 1 := by
  induction m with
  | zero => rfl
  | succ m ih => simp [bush, Forest.dens, Forest.size, ih]

theorem bush_weight {K : Type} [Field K] (A : ℕ → ℕ → K) (m i : ℕ) :
    weight A (bush m) i = (∑ j ∈ range i, A i j) ^ m := by
  induction m with
  | zero => simp [bush, weight]
  | succ m ih => simp [bush, weight, ih, pow_succ, mul_comm]

theorem quadrature_of_conditions {K : Type} [Field K] {s p : ℕ} {A : ℕ → ℕ → K} {b c : ℕ → K}
    (hc : OrderConditions s A b p) (hr : RowSums s A c) (m : ℕ) (hm : m < p) :
    (∑ i ∈ range s, b i * c i ^ m) * (m + 1) = 1 := by
  have h := hc (bush m) (by rw [bush_size]; omega)
  simp only [bush_size, bush_dens, bush_weight, Nat.cast_add, Nat.cast_one, mul_one] at h
  refine Eq.trans ?_ h
  congr 1
  apply sum_congr rfl
  intro i hi
  rw [hr i (mem_range.mp hi)]

/-- the path with `m` nodes -/
def chain : ℕ → Forest
  | 0 => .nil
  | m + 1 => .cons (chain m) .nil

theorem chain_size (m : ℕ) : (chain m).size = m := by
  induction m with
  | zero => rfl
  | succ m ih => simp [chain, Forest.size, ih]

theorem chain_dens (m : ℕ) : (chain m).dens = m.factorial := by
  induction m with
  | zero => rfl
  | succ m ih => simp [chain, Forest.dens, chain_size, ih, Nat.factorial_succ]

theorem chain_weight_zero {K : Type} [Field K] (A : ℕ → ℕ → K) (m i : ℕ) (h : i < m) : weight A (chain m) i = 0 := by
  induction m generalizing i with
  | zero => omega
  | succ m ih =>
    simp only [chain, weight, mul_one]
    apply sum_eq_zero
    intro j hj
    rw [ih j (by have := mem_range.mp hj; omega), mul_zero]

theorem rkStage_linear {K : Type} [Field K] {n : ℕ} (A : ℕ → ℕ → K) (c : ℕ → K) (l t h : K) (x : Fin n → K) (s : ℕ)
    (i : ℕ) (hi : i < s) : rkStage A c (fun _ v => l • v) t x h i =
      (l * ∑ m ∈ range s, (l * h) ^ m * weight A (chain m) i) • x := by
  induction i using Nat.strong_induction_on with
  | _ i ih =>
    rw [rkStage_eq]
    have e : ∑ j ∈ range i, A i j • rkStage A c (fun _ v => l • v) t x h j =
        (l * ∑ m ∈ range s, (l * h) ^ m * weight A (chain (m + 1)) i) • x := by
      rw [sum_congr rfl (fun j hj => by rw [ih j (mem_range.mp hj) (by have := mem_range.mp hj; omega)])]
      simp only [smul_smul, ← sum_smul]
      congr 1
      simp only [chain, weight, mul_one, mul_sum]
      rw [sum_comm]
      apply sum_congr rfl; intro m _
      apply sum_congr rfl; intro j _
      ring
    rw [e]
    have e2 : ∑ m ∈ range s, (l * h) ^ m * weight A (chain m) i =
        1 + ∑ m ∈ range s, (l * h) ^ (m + 1) * weight A (chain (m + 1)) i := by
      have := sum_range_succ (fun m => (l * h) ^ m * weight A (chain m) i) s
      rw [chain_weight_zero A s i hi, mul_zero, add_zero] at this
      rw [← this, sum_range_succ', add_comm]
      simp [chain, weight]
    rw [e2, smul_add, smul_smul, smul_smul, ← add_smul]
    congr 1
    simp only [pow_succ, mul_add, mul_sum, mul_one]
    congr 1
    apply sum_congr rfl; intro m _
    ring

theorem rkStep_linear {K : Type} [Field K] {n : ℕ} {s p : ℕ} {A : ℕ → ℕ → K} {b : ℕ → K} (c : ℕ → K)
    (hc : OrderConditions s A b p) (l t h : K) (x : Fin n → K) :
    ∃ r : ℕ → K, (∀ m ≤ p, r m * (m.factorial : K) = 1) ∧
      rkStep s A b c (fun _ v => l • v) t x h = (∑ m ∈ range (s + 1), r m * (l * h) ^ m) • x := by
  refine ⟨fun m => match m with
    | 0 => 1
    | m + 1 => ∑ i ∈ range s, b i * weight A (chain m) i, ?_, ?_⟩
  · intro m hm
    cases m with
    | zero => simp
    | succ m =>
      have h := hc (chain m) (by rw [chain_size]; omega)
      rw [chain_size, chain_dens, ← Nat.cast_mul, ← Nat.factorial_succ] at h
      exact h
  · rw [rkStep, sum_congr rfl (fun i hi => by rw [rkStage_linear A c l t h x s i (mem_range.mp hi)])]
    simp only [smul_smul, ← sum_smul]
    rw [sum_range_succ']
    simp only [pow_zero, mul_one]
    rw [add_smul, one_smul, add_comm x]
    congr 2
    simp only [mul_sum, sum_mul]
    rw [sum_comm]
    apply sum_congr rfl; intro m _
    apply sum_congr rfl; intro i _
    ring

/-- the quadrature formula integrates polynomials exactly -/
theorem quadrature_poly {K : Type} [Field K] [CharZero K] {s p : ℕ} {b c : ℕ → K}
    (hq : ∀ m < p, (∑ i ∈ range s, b i * c i ^ m) * (m + 1) = 1) (G : Polynomial K) (hG : G.natDegree ≤ p) (t h : K) :
    h * ∑ i ∈ range s, b i * (Polynomial.derivative G).eval (t + c i * h) = G.eval (t + h) - G.eval t := by
  have hGe : ∀ u, G.eval (t + u) = ∑ m ∈ range (p + 1), (Polynomial.taylor t G).coeff m * u ^ m := by
    intro u
    have : G.eval (t + u) = (Polynomial.taylor t G).eval u := by rw [Polynomial.taylor_eval, add_comm]
    rw [this]
    exact Polynomial.eval_eq_sum_range' (by rw [Polynomial.natDegree_taylor]; omega) u
  have hde : ∀ u, (Polynomial.derivative G).eval (t + u) =
      ∑ m ∈ range p, (Polynomial.taylor t G).coeff (m + 1) * (m + 1) * u ^ m := by
    intro u
    have e1 : (Polynomial.derivative G).eval (t + u) = (Polynomial.derivative (Polynomial.taylor t G)).eval u := by
      rw [Polynomial.taylor_apply, Polynomial.derivative_comp]
      simp [Polynomial.eval_comp, add_comm]
    rw [e1]
    by_cases hp : p = 0
    · subst hp
      have h0 : (Polynomial.derivative (Polynomial.taylor t G)) = 0 := by
        apply Polynomial.derivative_of_natDegree_zero
        rw [Polynomial.natDegree_taylor]; omega
      simp [h0]
    · rw [Polynomial.eval_eq_sum_range' (n := p) (by
        have := Polynomial.natDegree_derivative_le (Polynomial.taylor t G)
        rw [Polynomial.natDegree_taylor] at this; omega) u]
      apply sum_congr rfl; intro m _
      rw [Polynomial.coeff_derivative]
  have hG0 := hGe 0
  rw [add_zero] at hG0
  rw [hGe, hG0, sum_range_succ', sum_range_succ']
  simp only [pow_succ, mul_zero, sum_const_zero, pow_zero, zero_add, mul_one, add_sub_cancel_right]
  simp only [hde, mul_sum]
  rw [sum_comm]
  apply sum_congr rfl; intro m hm
  have := hq m (mem_range.mp hm)
  calc ∑ i ∈ range s, h * (b i * ((Polynomial.taylor t G).coeff (m + 1) * (m + 1) * (c i * h) ^ m))
      = ((∑ i ∈ range s, b i * c i ^ m) * (m + 1)) * ((Polynomial.taylor t G).coeff (m + 1) * (h ^ m * h)) := by
        rw [sum_mul, sum_mul]
        apply sum_congr rfl; intro i _
        rw [mul_pow]; ring
    _ = _ := by rw [this, one_mul]

/-- C41: each method except `Ralston4` integrates `x' = G'(t)` exactly, for all polynomials `G` whose degree is at most
    the order. -/
theorem C41_quadrature_partial {K : Type} [Field K] [CharZero K] (M : FixedMethod) (hM : M ≠ .ralston4) (s5 : K) {n : ℕ}
    (f : Rhs K) (G : Fin n → Polynomial K) (hG : ∀ i, (G i).natDegree ≤ M.order)
    (hf : RhsRepr f (fun t _ i => (Polynomial.derivative (G i)).eval t)) (t h : K) (x : Fin n → K) :
    doStep (M.tableau s5) f t (col x) h = some (col (fun i => x i + ((G i).eval (t + h) - (G i).eval t))) := by
  obtain ⟨h1, h2, h3⟩ := fixed_conditions M hM s5
  rw [doStep_col hf _ h1]
  congr 2
  funext i
  rw [rkStep, ← quadrature_poly (quadrature_of_conditions h2 h3) (G i) (hG i) t h]
  simp only [Pi.add_apply, Pi.smul_apply, Finset.sum_apply, smul_eq_mul]
  congr 2
  apply sum_congr rfl; intro j _
  rw [rkStage_eq]

/-- C41: for `x' = l x` each method except `Ralston4` multiplies `x` by a polynomial in `l h` whose coefficients up to
    the order are those of the exponential series. -/
theorem C41_linear_partial {K : Type} [Field K] [CharZero K] (M : FixedMethod) (hM : M ≠ .ralston4) (s5 : K) {n : ℕ}
    (f : Rhs K) (l : K) (hf : RhsRepr (n := n) f (fun _ x => l • x)) (t h : K) (x : Fin n → K) :
    ∃ r : ℕ → K, (∀ m ≤ M.order, r m * (m.factorial : K) = 1) ∧
      doStep (M.tableau s5) f t (col x) h =
        some (col ((∑ m ∈ range ((M.tableau s5).b.length + 1), r m * (l * h) ^ m) • x)) := by
  obtain ⟨h1, h2, h3⟩ := fixed_conditions M hM s5
  rw [doStep_col hf _ h1]
  obtain ⟨r, hr, he⟩ := rkStep_linear (nodesOf (M.tableau s5).c) h2 l t h x
  exact ⟨r, hr, by rw [he]⟩

end Ode
end Verif
