import Verif.RKConv
import Verif.RKProps
import Verif.FixedProps
import Mathlib.Analysis.SpecialFunctions.ExpDeriv

/-! # The fixed step size solver converges with the order of its method: C86 -/

namespace Verif
namespace Ode
open Finset Asymptotics Filter Topology RK

/-- the stages are as smooth as the right-hand side, near the step size zero -/
theorem rkStage_contDiffAt {n p : ℕ} (A : ℕ → ℕ → ℝ) (c : ℕ → ℝ) {g : ℝ → (Fin n → ℝ) → (Fin n → ℝ)} {t : ℝ} {x : Fin n → ℝ}
    (hg : ContDiffAt ℝ p (fun z : ℝ × (Fin n → ℝ) => g z.1 z.2) (t, x)) (i : ℕ) :
    ContDiffAt ℝ p (fun z : ℝ × (Fin n → ℝ) × ℝ => rkStage A c g z.1 z.2.1 z.2.2 i) (t, x, 0) := by
  induction i using Nat.strong_induction_on with
  | _ i ih =>
    have e : (fun z : ℝ × (Fin n → ℝ) × ℝ => rkStage A c g z.1 z.2.1 z.2.2 i) =
        (fun z : ℝ × (Fin n → ℝ) => g z.1 z.2) ∘ fun z : ℝ × (Fin n → ℝ) × ℝ =>
          (z.1 + c i * z.2.2, z.2.1 + z.2.2 • ∑ j ∈ range i, A i j • rkStage A c g z.1 z.2.1 z.2.2 j) := by
      funext z
      rw [rkStage_eq]
      rfl
    rw [e]
    have h1 : ContDiffAt ℝ p (fun z : ℝ × (Fin n → ℝ) × ℝ => z.2.2) (t, x, 0) := contDiffAt_snd.snd
    have h2 : ContDiffAt ℝ p (fun z : ℝ × (Fin n → ℝ) × ℝ => z.2.1) (t, x, 0) := contDiffAt_snd.fst
    refine ContDiffAt.comp (t, x, 0) ?_ (ContDiffAt.prodMk ?_ ?_)
    · simpa using hg
    · exact contDiffAt_fst.add (contDiffAt_const.mul h1)
    · refine h2.add (h1.smul (ContDiffAt.sum fun j hj => ?_))
      exact (ih j (mem_range.mp hj)).const_smul (A i j)

/-- the increment of a Runge-Kutta method -/
theorem increment_contDiffAt {n p : ℕ} (s : ℕ) (A : ℕ → ℕ → ℝ) (b c : ℕ → ℝ) {g : ℝ → (Fin n → ℝ) → (Fin n → ℝ)} {t : ℝ}
    {x : Fin n → ℝ} (hg : ContDiffAt ℝ p (fun z : ℝ × (Fin n → ℝ) => g z.1 z.2) (t, x)) :
    ContDiffAt ℝ p (fun z : ℝ × (Fin n → ℝ) × ℝ => ∑ i ∈ range s, b i • rkStage A c g z.1 z.2.1 z.2.2 i) (t, x, 0) :=
  ContDiffAt.sum fun i _ => (rkStage_contDiffAt A c hg i).const_smul (b i)

/-- the states of the fixed stepper are those of the Runge-Kutta method -/
theorem fixedSolve_col {n : ℕ} {f : Rhs ℝ} {g : ℝ → (Fin n → ℝ) → (Fin n → ℝ)} (hf : RhsRepr f g) (T : Tableau ℝ)
    (hT : Shape T.a T.b T.c) {h t₀ t₁ : ℝ} (hh : 0 < h) (ht : t₀ ≤ t₁) (x₀ : Fin n → ℝ) :
    ∃ x : ℕ → Fin n → ℝ, x 0 = x₀ ∧
      (∀ k < ⌈(t₁ - t₀) / h⌉₊, x (k + 1) = rkStep T.b.length (rowsOf T.a) (weightsOf T.b) (nodesOf T.c) g
        (grid h t₀ t₁ k) (x k) (grid h t₀ t₁ (k + 1) - grid h t₀ t₁ k)) ∧
      fixedSolve (doStep T f) h t₀ t₁ (col x₀) =
        some ((List.range (⌈(t₁ - t₀) / h⌉₊ + 1)).map (grid h t₀ t₁),
          (List.range (⌈(t₁ - t₀) / h⌉₊ + 1)).map fun k => col (x k)) := by
  obtain ⟨ts, xs, hs⟩ := C40_fixed_total (doStep T f) (fun X => ∃ x : Fin n → ℝ, X = col x)
    (by
      rintro t X d ⟨x, rfl⟩
      exact ⟨_, doStep_col hf T hT t x d, _, rfl⟩) (h := h) ht (col x₀) ⟨x₀, rfl⟩
  obtain ⟨X, hX0, rfl, rfl, hX⟩ := C40_fixed_solve (doStep T f) hh ht (col x₀) hs
  have hcol : ∀ k ≤ ⌈(t₁ - t₀) / h⌉₊, ∃ x : Fin n → ℝ, X k = col x := by
    intro k
    induction k with
    | zero => intro _; exact ⟨x₀, hX0⟩
    | succ k ih =>
      intro hk
      obtain ⟨x, hx⟩ := ih (by omega)
      have := hX k (by omega)
      rw [hx, doStep_col hf T hT] at this
      exact ⟨_, (Option.some.inj this).symm⟩
  choose! x hx using hcol
  refine ⟨x, col_injective (by rw [← hx 0 (Nat.zero_le _), hX0]), ?_, ?_⟩
  · intro k hk
    have := hX k hk
    rw [hx k hk.le, hx (k + 1) hk, doStep_col hf T hT] at this
    exact (col_injective (Option.some.inj this)).symm
  · rw [hs]
    congr 2
    apply List.map_congr_left
    intro k hk
    exact hx k (by have := List.mem_range.mp hk; omega)

/-- C86: let `y` solve `y' = g(t, y)` around `[t₀, t₁]` and let `g` be continuously differentiable, as often as the order `p` of
the method says, along the solution. Then `solve` of the fixed stepper, started at `y t₀`, returns for every small step size
times from `t₀` to `t₁` and states which are off by at most `C h ^ p`. Missing: `Ralston4`, see `C86_ralston4_violated`. -/
theorem C86_converges_partial (M : FixedMethod) (hM : M ≠ .ralston4) {n : ℕ} {f : Rhs ℝ} {g : ℝ → (Fin n → ℝ) → (Fin n → ℝ)}
    (hf : RhsRepr f g) {y : ℝ → (Fin n → ℝ)} {t₀ t₁ : ℝ} (ht : t₀ ≤ t₁)
    (hg : ∀ t ∈ Set.Icc t₀ t₁, ContDiffAt ℝ M.order (fun z : ℝ × (Fin n → ℝ) => g z.1 z.2) (t, y t))
    (hy : ∀ t ∈ Set.Icc t₀ t₁, ∀ᶠ u in 𝓝 t, HasDerivAt y (g u (y u)) u) :
    ∃ h₀ > 0, ∃ C, ∀ h, 0 < h → h ≤ h₀ →
      ∃ ts xs, fixedSolve (doStep (M.tableau (Real.sqrt 5)) f) h t₀ t₁ (col (y t₀)) = some (ts, xs) ∧
        ts.length = xs.length ∧ ts.head? = some t₀ ∧ ts.getLast? = some t₁ ∧
        ∀ (k : ℕ) t X, ts[k]? = some t → xs[k]? = some X → ∃ x : Fin n → ℝ, X = col x ∧ ‖x - y t‖ ≤ C * h ^ M.order := by
  obtain ⟨hT, hO, hR⟩ := fixed_conditions M hM (Real.sqrt 5)
  have hp : 0 < M.order := (fixed_check M hM).1
  set T := M.tableau (Real.sqrt 5)
  set p := M.order
  obtain ⟨h₀, hh₀, C, H⟩ := global_error (E := Fin n → ℝ) (y := y) hp ht
    (K := fun t x h => ∑ i ∈ range T.b.length, weightsOf T.b i • rkStage (rowsOf T.a) (nodesOf T.c) g t x h i)
    (fun t ht => increment_contDiffAt _ _ _ _ (hg t ht))
    (fun t ht => solution_contDiffAt (hg t ht) (hy t ht) p le_rfl)
    (fun t ht => by
      have hcont : ContinuousAt (fun u => (u, y u)) t := continuousAt_id.prodMk (hy t ht).self_of_nhds.continuousAt
      have h1 := hcont.eventually ((hg t ht).eventually (by simp))
      filter_upwards [h1, (hy t ht).eventually_nhds] with u hu1 hu2
      exact rkStep_order hp hO hR g u y hu1 hu2)
  refine ⟨h₀, hh₀, C, fun h hpos hle => ?_⟩
  obtain ⟨x, hx0, hx, hs⟩ := fixedSolve_col hf T hT hpos ht (y t₀)
  obtain ⟨g0, g1, g2, g3, g4⟩ := C40_grid hpos ht
  refine ⟨_, _, hs, by simp, ?_, ?_, ?_⟩
  · rw [List.head?_map, List.head?_range]
    simp [g0]
  · rw [List.range_succ, List.map_append]
    simp [g1]
  · intro k t X hkt hkX
    rw [List.getElem?_map, Option.map_eq_some_iff] at hkt hkX
    obtain ⟨i, hi, rfl⟩ := hkt
    obtain ⟨i', hi', rfl⟩ := hkX
    rw [List.getElem?_eq_some_iff] at hi hi'
    obtain ⟨hi1, rfl⟩ := hi
    obtain ⟨_, rfl⟩ := hi'
    rw [List.length_range] at hi1
    simp only [List.getElem_range]
    refine ⟨x k, rfl, ?_⟩
    refine H h hpos hle ⌈(t₁ - t₀) / h⌉₊ (grid h t₀ t₁) x g0 hx0 ?_ ?_ hx k (by omega)
    · intro k hk
      refine ⟨(g2 k hk).le, ?_⟩
      rw [← grid_diff hpos k]
      exact min_le_left _ _
    · exact (g4 _).2

/-- the classical method for `x' = x`, `x 0 = 1` on `[0, 1]`: an error of at most `C h ^ 4` -/
example : ∃ h₀ > 0, ∃ C, ∀ h, 0 < h → h ≤ h₀ →
    ∃ ts xs, fixedSolve (doStep rungeKutta4 fun _ x => some x) h 0 1 (col ![(1 : ℝ)]) = some (ts, xs) ∧
      ts.length = xs.length ∧ ts.head? = some 0 ∧ ts.getLast? = some 1 ∧
      ∀ (k : ℕ) t X, ts[k]? = some t → xs[k]? = some X →
        ∃ x : Fin 1 → ℝ, X = col x ∧ ‖x - ![Real.exp t]‖ ≤ C * h ^ 4 := by
  have h := C86_converges_partial .rungeKutta4 (by decide) (n := 1) (f := fun _ x => some x) (g := fun _ x => x)
    (fun _ _ => rfl) (y := fun t => ![Real.exp t]) (t₀ := 0) (t₁ := 1) zero_le_one
    (fun t _ => contDiffAt_snd)
    (fun t _ => Eventually.of_forall fun u => by
      rw [hasDerivAt_pi]
      intro i
      fin_cases i
      simpa using Real.hasDerivAt_exp u)
  simpa [FixedMethod.tableau, FixedMethod.order] using h

/-- the third weight of `Ralston4` is wrong: for `x' = 1`, `x 0 = 0` the value at the time `1` stays away from `1`, for every
step size (the difference is about `0.0017`) -/
theorem C86_ralston4_violated : ∃ δ > 0, ∀ h, 0 < h → ∃ ts xs, ∃ x : Fin 1 → ℝ,
    fixedSolve (doStep (FixedMethod.ralston4.tableau (Real.sqrt 5)) fun _ _ => some (col ![1])) h 0 1 (col ![0]) = some (ts, xs) ∧
      ts.getLast? = some 1 ∧ xs.getLast? = some (col x) ∧ δ ≤ |x 0 - 1| := by
  refine ⟨10240 / 5924787, by norm_num, fun h hh => ?_⟩
  obtain ⟨x, hx0, hx, hs⟩ := fixedSolve_col (n := 1) (f := fun _ _ => some (col ![1])) (g := fun _ _ => ![1]) (fun _ _ => rfl)
    (FixedMethod.ralston4.tableau (Real.sqrt 5)) (by simp [Shape, FixedMethod.tableau, ralston4]) hh zero_le_one ![0]
  obtain ⟨g0, g1, _, _, _⟩ := C40_grid hh (zero_le_one (α := ℝ))
  have key : ∀ k ≤ ⌈((1 : ℝ) - 0) / h⌉₊, x k 0 = grid h 0 1 k * (1 + 10240 / 5924787) := by
    intro k
    induction k with
    | zero => intro _; rw [hx0, g0]; simp
    | succ k ih =>
      intro hk
      rw [hx k (by omega), rkStep, Pi.add_apply, ih (by omega)]
      have e : ∀ i, rkStage (rowsOf (FixedMethod.ralston4.tableau (Real.sqrt 5)).a)
          (nodesOf (FixedMethod.ralston4.tableau (Real.sqrt 5)).c) (fun _ _ => (![1] : Fin 1 → ℝ)) (grid h 0 1 k) (x k)
          (grid h 0 1 (k + 1) - grid h 0 1 k) i = ![1] := fun i => by rw [rkStage_eq]
      simp only [e, Pi.smul_apply, Finset.sum_apply, smul_eq_mul]
      simp [FixedMethod.tableau, ralston4, weightsOf, sum_range_succ]
      ring
  refine ⟨_, _, x ⌈((1 : ℝ) - 0) / h⌉₊, hs, ?_, ?_, ?_⟩
  · rw [List.range_succ, List.map_append]
    simpa using g1
  · rw [List.range_succ, List.map_append]
    simp
  · rw [key _ le_rfl, g1, abs_of_pos (by norm_num)]
    norm_num

end Ode
end Verif
