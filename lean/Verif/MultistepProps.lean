import Verif.MultistepModel
import Verif.FixedProps
import Verif.RKProps
import Mathlib.Tactic.IntervalCases

/-! # Multistep methods: C44 and C45 -/

namespace Verif
namespace Ode
open Finset

section Formula
variable {K : Type} [Field K]

/-- a list of `N + 1` values -/
def hist {α : Type} (X : ℕ → α) (N : ℕ) : List α := (List.range (N + 1)).map X

theorem past_col {n : ℕ} {f : Rhs K} {g : K → (Fin n → K) → (Fin n → K)} (hf : RhsRepr f g) (τ : ℕ → K)
    (X : ℕ → Fin n → K) (N j : ℕ) (hj : j ≤ N) :
    past f (hist τ N) (hist (fun i => col (X i)) N) j = some (col (g (τ (N - j)) (X (N - j)))) := by
  unfold past hist
  simp only [List.length_map, List.length_range, List.getElem?_map]
  rw [if_neg (by omega)]
  have : N + 1 - 1 - j < N + 1 := by omega
  rw [List.getElem?_range this]
  simp only [Option.map_some, Option.bind_eq_bind, Option.bind_some]
  rw [hf]
  congr 4 <;> omega

theorem last_hist {α : Type} (X : ℕ → α) (N : ℕ) : (hist X N)[(hist X N).length - 1]? = some (X N) := by
  unfold hist
  simp

theorem hist_length {α : Type} (X : ℕ → α) (N : ℕ) : (hist X N).length = N + 1 := by simp [hist]

theorem stepS1_col {n : ℕ} {f : Rhs K} {g : K → (Fin n → K) → (Fin n → K)} (hf : RhsRepr f g) (τ : ℕ → K)
    (X : ℕ → Fin n → K) (N : ℕ) (h : K) :
    stepS1 f (hist τ N) (hist (fun i => col (X i)) N) h = some (col (X N + h • g (τ N) (X N))) := by
  unfold stepS1
  rw [past_col hf τ X N 0 (by omega)]
  simp only [Option.bind_eq_bind, Option.bind_some, last_hist, col_mulScalar, col_add, Nat.sub_zero]

theorem stepW_col {n : ℕ} {f : Rhs K} {g : K → (Fin n → K) → (Fin n → K)} (hf : RhsRepr f g) (τ : ℕ → K)
    (X : ℕ → Fin n → K) (N : ℕ) (h : K) (w₀ : K) (w : List K) (hw : w.length ≤ N) :
    stepW w₀ w f (hist τ N) (hist (fun i => col (X i)) N) h =
      some (col (X N + h • ∑ j ∈ range (w.length + 1), weightsOf (w₀ :: w) j • g (τ (N - j)) (X (N - j)))) := by
  unfold stepW
  rw [past_col hf τ X N 0 (by omega)]
  simp only [Option.bind_eq_bind, Option.bind_some, last_hist, col_mulScalar]
  obtain ⟨s, hs, hP⟩ := forRange_inv (a := 0) (b := w.length)
    (f := fun s j => (past f (hist τ N) (hist (fun i => col (X i)) N) (j + 1)).bind fun fj =>
      w[j]?.bind fun wj => s.add (fj.mulScalar wj))
    (s := col (w₀ • g (τ (N - 0)) (X (N - 0))))
    (fun i s => s = col (∑ j ∈ range (i + 1), weightsOf (w₀ :: w) j • g (τ (N - j)) (X (N - j)))) (by omega)
    (by simp [weightsOf])
    (by
      intro i s _ hi hP
      refine ⟨_, ?_, rfl⟩
      rw [past_col hf τ X N (i + 1) (by omega), hP]
      have : w[i]? = some (weightsOf (w₀ :: w) (i + 1)) := by simp [weightsOf, hi]
      rw [this]
      simp only [Option.bind_some, col_mulScalar, col_add]
      rw [sum_range_succ _ (i + 1)])
  rw [hs]
  simp only [Option.bind_some, hP, col_mulScalar, col_add]

/-- the weights of the step function for `k` -/
def abWeights : ℕ → List K
  | 1 => [1]
  | 2 => [3/2, -1/2]
  | 3 => [23/12, -16/12, 5/12]
  | 4 => [55/24, -59/24, 37/24, -9/24]
  | 5 => [1901/720, -2774/720, 2616/720, -1274/720, 251/720]
  | _ => []

/-- C44: the step for `k` is the Adams-Bashforth formula `x_N + h Σ_j w_j f(t_{N-j}, x_{N-j})` -/
theorem C44_formula {n : ℕ} {f : Rhs K} {g : K → (Fin n → K) → (Fin n → K)} (hf : RhsRepr f g) (τ : ℕ → K)
    (X : ℕ → Fin n → K) (k N : ℕ) (hk1 : 1 ≤ k) (hk5 : k ≤ 5) (hN : k ≤ N + 1) (h : K) :
    abStep k f (hist τ N) (hist (fun i => col (X i)) N) h =
      some (col (X N + h • ∑ j ∈ range k, weightsOf (abWeights k : List K) j • g (τ (N - j)) (X (N - j)))) := by
  have : k = 1 ∨ k = 2 ∨ k = 3 ∨ k = 4 ∨ k = 5 := by omega
  rcases this with rfl | rfl | rfl | rfl | rfl
  · simp only [abStep]
    rw [stepS1_col hf]
    simp [abWeights, weightsOf]
  · refine (stepW_col hf τ X N h _ _ (by simp; omega)).trans ?_
    simp only [cst, abWeights, neg_div, Nat.cast_ofNat, Nat.cast_one, List.length_cons, List.length_nil]
  · refine (stepW_col hf τ X N h _ _ (by simp; omega)).trans ?_
    simp only [cst, abWeights, neg_div, Nat.cast_ofNat, List.length_cons, List.length_nil]
  · refine (stepW_col hf τ X N h _ _ (by simp; omega)).trans ?_
    simp only [cst, abWeights, neg_div, Nat.cast_ofNat, List.length_cons, List.length_nil]
  · refine (stepW_col hf τ X N h _ _ (by simp; omega)).trans ?_
    simp only [cst, abWeights, neg_div, Nat.cast_ofNat, List.length_cons, List.length_nil]

theorem abWeights_moment [CharZero K] (k : ℕ) (hk1 : 1 ≤ k) (hk5 : k ≤ 5) (m : ℕ) (hm : m < k) :
    (∑ j ∈ range k, weightsOf (abWeights k : List K) j * (-(j : K)) ^ m) * (m + 1) = 1 := by
  have : k = 1 ∨ k = 2 ∨ k = 3 ∨ k = 4 ∨ k = 5 := by omega
  rcases this with rfl | rfl | rfl | rfl | rfl <;> interval_cases m <;>
  · simp [sum_range_succ, weightsOf, abWeights]
    try norm_num

/-- C44: on an equidistant grid the step for `k` is exact for `x' = G'(t)`, for all polynomials `G` of degree at most
    `k`. -/
theorem C44_exact [CharZero K] {n : ℕ} (f : Rhs K) (G : Fin n → Polynomial K) (k : ℕ) (hk1 : 1 ≤ k) (hk5 : k ≤ 5)
    (hG : ∀ i, (G i).natDegree ≤ k) (hf : RhsRepr f (fun t _ i => (Polynomial.derivative (G i)).eval t))
    (t₀ h : K) (X : ℕ → Fin n → K) (N : ℕ) (hN : k ≤ N + 1) :
    abStep k f (hist (fun i => t₀ + i * h) N) (hist (fun i => col (X i)) N) h =
      some (col (fun i => X N i + ((G i).eval (t₀ + (N + 1 : ℕ) * h) - (G i).eval (t₀ + N * h)))) := by
  rw [C44_formula hf _ X k N hk1 hk5 hN h]
  congr 2
  funext i
  have := quadrature_poly (abWeights_moment k hk1 hk5) (G i) (hG i) (t₀ + N * h) h
  rw [show t₀ + ((N + 1 : ℕ) : K) * h = t₀ + N * h + h by push_cast; ring, ← this]
  simp only [Pi.add_apply, Pi.smul_apply, Finset.sum_apply, smul_eq_mul]
  congr 2
  apply sum_congr rfl
  intro j hj
  have hj := mem_range.mp hj
  congr 2
  rw [Nat.cast_sub (by omega)]
  ring

end Formula

section Solve
variable {K : Type} [Field K] [LinearOrder K] [IsStrictOrderedRing K]

/-- the condition of the loop, for exact numbers -/
theorem msLoop_succ (st : List K → List (Mat K) → K → Option (Mat K)) (stepSize tStop : K) (fuel : ℕ)
    (s : K × List K × List (Mat K)) : msLoop st stepSize tStop (fuel + 1) s =
      if |s.1 - tStop| > 1 / 10 ^ 10 then (msIter st stepSize tStop s).bind fun s' => msLoop st stepSize tStop fuel s'
      else some s := by
  have e : ((10 ^ 10 : ℕ) : K) = 10 ^ 10 := by rw [Nat.cast_pow]; norm_num
  rw [msLoop, e]
  rfl

theorem msIter_inv (stepSize tStart tStop : K) (hh : 0 < stepSize) (init : Mat K)
    (st : ℕ → List K → List (Mat K) → K → Option (Mat K)) (k i : ℕ)
    (u u' : K × List K × List (Mat K))
    (hu : ∃ X : ℕ → Mat K, X 0 = init ∧ u.1 = grid stepSize tStart tStop i ∧
      u.2.1 = hist (grid stepSize tStart tStop) i ∧ u.2.2 = hist X i ∧
      ∀ j < i, st (min (j + 1) k) (hist (grid stepSize tStart tStop) j) (hist X j)
        (grid stepSize tStart tStop (j + 1) - grid stepSize tStart tStop j) = some (X (j + 1)))
    (h : msIter (st (min (i + 1) k)) stepSize tStop u = some u') :
    ∃ X : ℕ → Mat K, X 0 = init ∧ u'.1 = grid stepSize tStart tStop (i + 1) ∧
      u'.2.1 = hist (grid stepSize tStart tStop) (i + 1) ∧ u'.2.2 = hist X (i + 1) ∧
      ∀ j < i + 1, st (min (j + 1) k) (hist (grid stepSize tStart tStop) j) (hist X j)
        (grid stepSize tStart tStop (j + 1) - grid stepSize tStart tStop j) = some (X (j + 1)) := by
  obtain ⟨X, h0, h1, h2, h3, h4⟩ := hu
  simp only [msIter, Option.bind_eq_bind, Option.bind_eq_some_iff] at h
  obtain ⟨x', hx', hu⟩ := h
  have hu := Option.some.inj hu
  have hX : ∀ j ≤ i, hist (Function.update X (i + 1) x') j = hist X j := by
    intro j hj
    apply List.map_congr_left
    intro l hl
    rw [List.mem_range] at hl
    simp [Function.update, show l ≠ i + 1 by omega]
  refine ⟨Function.update X (i + 1) x', by simp [Function.update, h0], ?_, ?_, ?_, ?_⟩
  · rw [← hu, h1, grid_succ hh]
  · rw [← hu, h2, h1, grid_succ hh]; simp [hist, List.range_succ]
  · rw [← hu]
    have : hist (Function.update X (i + 1) x') (i + 1) = hist (Function.update X (i + 1) x') i ++ [x'] := by
      simp [hist, List.range_succ]
    rw [this, hX i le_rfl, h3]
  · intro j hj
    rw [hX j (by omega)]
    rcases Nat.lt_or_ge j i with hlt | hge
    · rw [h4 j hlt]; simp [Function.update, show j ≠ i by omega]
    · obtain rfl : j = i := by omega
      rw [h1, h2, h3, grid_diff hh] at hx'
      rw [hx']; simp

/-- C44, C45: the times are `t_start + i * step_size` cut off at `t_stop`, at least `k` of them; the last one is within
    `10⁻¹⁰` of `t_stop`, the ones computed in the loop before are not; each state is one step from its predecessors,
    with the formula of order `i + 1` for the first ones. -/
theorem msSolve_spec (st : ℕ → List K → List (Mat K) → K → Option (Mat K)) (fuel k : ℕ) (hk : 1 ≤ k)
    {stepSize tStart tStop : K} (hh : 0 < stepSize) (init : Mat K) {ts : List K} {xs : List (Mat K)}
    (hs : msSolve st fuel k stepSize tStart tStop init = some (ts, xs)) :
    tStart ≤ tStop ∧ ∃ (X : ℕ → Mat K) (N : ℕ), k ≤ N + 1 ∧ X 0 = init ∧
      ts = hist (grid stepSize tStart tStop) N ∧ xs = hist X N ∧
      |grid stepSize tStart tStop N - tStop| ≤ 1 / 10 ^ 10 ∧
      (∀ i, k ≤ i + 1 → i < N → 1 / 10 ^ 10 < |grid stepSize tStart tStop i - tStop|) ∧
      ∀ j < N, st (min (j + 1) k) (hist (grid stepSize tStart tStop) j) (hist X j)
        (grid stepSize tStart tStop (j + 1) - grid stepSize tStart tStop j) = some (X (j + 1)) := by
  unfold msSolve at hs
  by_cases ht : tStart > tStop
  · simp [ht] at hs
  rw [if_neg ht] at hs
  have ht : tStart ≤ tStop := not_lt.mp ht
  refine ⟨ht, ?_⟩
  simp only [Option.bind_eq_bind, Option.bind_eq_some_iff] at hs
  obtain ⟨s, hs1, r, hr, he⟩ := hs
  let Q : ℕ → K × List K × List (Mat K) → Prop := fun i u =>
    ∃ X : ℕ → Mat K, X 0 = init ∧ u.1 = grid stepSize tStart tStop i ∧
      u.2.1 = hist (grid stepSize tStart tStop) i ∧ u.2.2 = hist X i ∧
      ∀ j < i, st (min (j + 1) k) (hist (grid stepSize tStart tStop) j) (hist X j)
        (grid stepSize tStart tStop (j + 1) - grid stepSize tStart tStop j) = some (X (j + 1))
  have hQ1 : Q (k - 1) s := by
    have := forRange_inv_of_some (fun i u => Q (i - 1) u)
      (⟨fun _ => init, rfl, by simp [grid, ht], by simp [hist, grid, ht], by simp [hist], by simp⟩)
      (by
        intro i u u' hi1 hi2 hu hi
        obtain ⟨l, rfl⟩ : ∃ l, i = l + 1 := ⟨i - 1, by omega⟩
        refine msIter_inv stepSize tStart tStop hh init st k l u u' hu ?_
        rw [Nat.min_eq_left (by omega)]
        exact hi) hs1
    rwa [Nat.max_eq_right hk] at this
  have loop : ∀ fuel i s, k ≤ i + 1 → Q i s → msLoop (st k) stepSize tStop fuel s = some r →
      ∃ N, i ≤ N ∧ Q N r ∧ |grid stepSize tStart tStop N - tStop| ≤ 1 / 10 ^ 10 ∧
      ∀ j, i ≤ j → j < N → 1 / 10 ^ 10 < |grid stepSize tStart tStop j - tStop| := by
    intro fuel
    induction fuel with
    | zero => intro i s _ _ h; simp [msLoop] at h
    | succ fuel ih =>
      intro i s hi hQ h
      have hQ0 := hQ
      obtain ⟨X, h0, h1, _⟩ := hQ0
      rw [msLoop_succ] at h
      by_cases hc : |s.1 - tStop| > 1 / 10 ^ 10
      · rw [if_pos hc] at h
        simp only [Option.bind_eq_some_iff] at h
        obtain ⟨s', hs', h⟩ := h
        have hQ' := msIter_inv stepSize tStart tStop hh init st k i s s' hQ
          (by rw [Nat.min_eq_right (by omega)]; exact hs')
        obtain ⟨N, a1, a2, a3, a4⟩ := ih (i + 1) s' (by omega) hQ' h
        refine ⟨N, by omega, a2, a3, ?_⟩
        intro j hj1 hj2
        rcases Nat.eq_or_lt_of_le hj1 with rfl | hj
        · rw [← h1]; exact hc
        · exact a4 j (by omega) hj2
      · rw [if_neg hc] at h
        have h := Option.some.inj h
        refine ⟨i, le_rfl, h ▸ hQ, ?_, fun j h1 h2 => by omega⟩
        rw [← h1]; exact not_lt.mp hc
  obtain ⟨N, b1, ⟨X, c0, c1, c2, c3, c4⟩, b3, b4⟩ := loop fuel (k - 1) s (by omega) hQ1 hr
  have he := Option.some.inj he
  have e1 := congrArg Prod.fst he
  have e2 := congrArg Prod.snd he
  simp only at e1 e2
  exact ⟨X, N, by omega, c0, by rw [← e1, c2], by rw [← e2, c3], b3, fun i h1 h2 => b4 i (by omega) h2, c4⟩

/-- C44: `solve` returns times from `t_start` to within `10⁻¹⁰` of `t_stop`, on the equidistant grid cut off at `t_stop`;
    the initial condition comes first and each further state is one Adams-Bashforth step, with the formulas of order
    `1, 2, …, k - 1` for the first ones. -/
theorem C44_solve (f : Rhs K) (fuel k : ℕ) (hk : 1 ≤ k) {stepSize tStart tStop : K} (hh : 0 < stepSize)
    (init : Mat K) {ts : List K} {xs : List (Mat K)}
    (hs : msSolve (fun j => abStep j f) fuel k stepSize tStart tStop init = some (ts, xs)) :
    ∃ (X : ℕ → Mat K) (N : ℕ), k ≤ N + 1 ∧ X 0 = init ∧
      ts = (List.range (N + 1)).map (grid stepSize tStart tStop) ∧ xs = (List.range (N + 1)).map X ∧
      |grid stepSize tStart tStop N - tStop| ≤ 1 / 10 ^ 10 ∧
      ∀ j < N, abStep (min (j + 1) k) f ((List.range (j + 1)).map (grid stepSize tStart tStop))
        ((List.range (j + 1)).map X) (grid stepSize tStart tStop (j + 1) - grid stepSize tStart tStop j) =
          some (X (j + 1)) := by
  obtain ⟨_, X, N, h1, h2, h3, h4, h5, _, h7⟩ := msSolve_spec _ fuel k hk hh init hs
  exact ⟨X, N, h1, h2, h3, h4, h5, h7⟩

theorem grid_zero {h t₀ t₁ : K} (ht : t₀ ≤ t₁) : grid h t₀ t₁ 0 = t₀ := by simp [grid, ht]

/-- `solve` terminates without a panic -/
theorem msSolve_total [FloorRing K] {n : ℕ} (st : ℕ → List K → List (Mat K) → K → Option (Mat K)) (k : ℕ) (hk : 1 ≤ k)
    (hst : ∀ j N, 1 ≤ j → j ≤ k → j ≤ N + 1 → ∀ (τ : ℕ → K) (X : ℕ → Fin n → K) (h : K),
      ∃ x : Fin n → K, st j (hist τ N) (hist (fun i => col (X i)) N) h = some (col x))
    {stepSize tStart tStop : K} (hh : 0 < stepSize) (ht : tStart ≤ tStop) (x₀ : Fin n → K) (fuel : ℕ)
    (hfuel : ⌈(tStop - tStart) / stepSize⌉₊ < fuel) :
    ∃ r, msSolve st fuel k stepSize tStart tStop (col x₀) = some r := by
  let Q : ℕ → K × List K × List (Mat K) → Prop := fun i u =>
    ∃ X : ℕ → Fin n → K, u.1 = grid stepSize tStart tStop i ∧
      u.2.1 = hist (grid stepSize tStart tStop) i ∧ u.2.2 = hist (fun i => col (X i)) i
  have step : ∀ i j u, 1 ≤ j → j ≤ k → j ≤ i + 1 → Q i u →
      ∃ u', msIter (st j) stepSize tStop u = some u' ∧ Q (i + 1) u' := by
    intro i j u h1 h2 h3 ⟨X, a1, a2, a3⟩
    obtain ⟨x, hx⟩ := hst j i h1 h2 h3 (grid stepSize tStart tStop) X (min stepSize (tStop - u.1))
    rw [← a2, ← a3] at hx
    refine ⟨(u.1 + min stepSize (tStop - u.1), u.2.1 ++ [u.1 + min stepSize (tStop - u.1)], u.2.2 ++ [col x]),
      by simp only [msIter, hx, Option.bind_eq_bind, Option.bind_some], Function.update X (i + 1) x, ?_, ?_, ?_⟩
    · show u.1 + _ = _
      rw [a1, grid_succ hh]
    · simp only [a1, a2, grid_succ hh]; simp [hist, List.range_succ]
    · have e : hist (fun l => col (Function.update X (i + 1) x l)) (i + 1) =
          hist (fun l => col (Function.update X (i + 1) x l)) i ++ [col x] := by
        simp [hist, List.range_succ]
      have e2 : hist (fun l => col (Function.update X (i + 1) x l)) i = hist (fun l => col (X l)) i := by
        apply List.map_congr_left
        intro l hl
        rw [List.mem_range] at hl
        simp [Function.update, show l ≠ i + 1 by omega]
      rw [e, e2, a3]
  obtain ⟨s, hs, hQ⟩ := forRange_inv (a := 1) (b := k) (f := fun s j => msIter (st j) stepSize tStop s)
    (s := (tStart, [tStart], [col x₀])) (fun i u => Q (i - 1) u) hk
    ⟨fun _ => x₀, by simp [grid, ht], by simp [hist, grid, ht], by simp [hist]⟩
    (by
      intro i u hi1 hi2 hQ
      obtain ⟨l, rfl⟩ : ∃ l, i = l + 1 := ⟨i - 1, by omega⟩
      exact step l (l + 1) u hi1 (by omega) le_rfl hQ)
  have loop : ∀ fuel i s, k ≤ i + 1 → ⌈(tStop - tStart) / stepSize⌉₊ < fuel + i → 0 < fuel → Q i s →
      ∃ r, msLoop (st k) stepSize tStop fuel s = some r := by
    intro fuel
    induction fuel with
    | zero => intro i s _ _ h; omega
    | succ fuel ih =>
      intro i s hi hf _ hQ
      rw [msLoop_succ]
      by_cases hc : |s.1 - tStop| > 1 / 10 ^ 10
      · rw [if_pos hc]
        obtain ⟨s', hs', hQ'⟩ := step i k s hk le_rfl hi hQ
        rw [hs']
        simp only [Option.bind_eq_bind, Option.bind_some]
        have hlt : i < ⌈(tStop - tStart) / stepSize⌉₊ := by
          by_contra hge
          obtain ⟨X, a1, _⟩ := hQ
          have h2 : grid stepSize tStart tStop i = tStop := by
            apply min_eq_right
            have h3 := Nat.ceil_le.mp (not_lt.mp hge)
            rw [div_le_iff₀ hh] at h3
            linarith
          rw [a1, h2, sub_self, abs_zero] at hc
          exact absurd hc (not_lt.mpr (by positivity))
        exact ih (i + 1) s' (by omega) (by omega) (by omega) hQ'
      · rw [if_neg hc]; exact ⟨s, rfl⟩
  obtain ⟨r, hr⟩ := loop fuel (k - 1) s (by omega) (by omega) (by omega) hQ
  refine ⟨(r.2.1, r.2.2), ?_⟩
  unfold msSolve
  rw [if_neg (not_lt.mpr ht), hs]
  simp only [Option.bind_eq_bind, Option.bind_some, hr]

/-- C44: `solve` terminates and does not panic: more than `⌈(t_stop - t_start) / step_size⌉` iterations of the loop are not
    needed. -/
theorem C44_total [FloorRing K] {n : ℕ} {f : Rhs K} {g : K → (Fin n → K) → (Fin n → K)} (hf : RhsRepr f g)
    (k : ℕ) (hk : 1 ≤ k) (hk5 : k ≤ 5) {stepSize tStart tStop : K} (hh : 0 < stepSize) (ht : tStart ≤ tStop)
    (x₀ : Fin n → K) (fuel : ℕ) (hfuel : ⌈(tStop - tStart) / stepSize⌉₊ < fuel) :
    ∃ r, msSolve (fun j => abStep j f) fuel k stepSize tStart tStop (col x₀) = some r :=
  msSolve_total _ k hk (fun j N h1 h2 h3 τ X h => ⟨_, C44_formula hf τ X j N h1 (by omega) h3 h⟩) hh ht x₀ fuel hfuel

/-- C44: `new` panics exactly outside the valid range -/
theorem C44_new (k : ℕ) (h : K) : abNew k h = none ↔ ¬ (1 ≤ k ∧ k ≤ 5 ∧ 0 < h) := by
  unfold abNew
  by_cases h1 : k = 0 ∨ k > 5
  · simp only [if_pos h1, true_iff]; omega
  · rw [if_neg h1]
    by_cases h2 : h ≤ 0
    · simp [h2]
    · simp only [if_neg h2, reduceCtorEq, false_iff, not_not]
      exact ⟨by omega, by omega, not_le.mp h2⟩

/-- `x' = 2 t` on `[0, 1]` with step size `2/5` and `k = 2` -/
example : msSolve (fun j => abStep j (fun (t : ℚ) _ => some (col ![2 * t]))) 10 2 (2/5) 0 1 (col ![0]) =
    some ([0, 2/5, 4/5, 1], [col ![0], col ![0], col ![12/25], col ![22/25]]) := by decide +kernel

/-- C45: `new` accepts exactly `1 ≤ k ≤ 6` and positive step sizes -/
theorem C45_new (k : ℕ) (h : K) : bdfNew k h = none ↔ ¬ (1 ≤ k ∧ k ≤ 6 ∧ 0 < h) := by
  unfold bdfNew
  by_cases h1 : k = 0 ∨ k > 6
  · simp only [if_pos h1, true_iff]; omega
  · rw [if_neg h1]
    by_cases h2 : h ≤ 0
    · simp [h2]
    · simp only [if_neg h2, reduceCtorEq, false_iff, not_not]
      exact ⟨by omega, by omega, not_le.mp h2⟩

omit [LinearOrder K] [IsStrictOrderedRing K] in
/-- C45: for `k ≤ 5` the step is exact for polynomial solutions of degree at most `k` (of an equation `x' = G'(t)`).
    Missing: `k = 6` (`C45_bdf6_violated`). -/
theorem C45_exact_partial [CharZero K] {n : ℕ} (f : Rhs K) (G : Fin n → Polynomial K) (k : ℕ) (hk1 : 1 ≤ k)
    (hk5 : k ≤ 5) (hG : ∀ i, (G i).natDegree ≤ k)
    (hf : RhsRepr f (fun t _ i => (Polynomial.derivative (G i)).eval t))
    (t₀ h : K) (X : ℕ → Fin n → K) (N : ℕ) (hN : k ≤ N + 1) :
    bdfStep k f (hist (fun i => t₀ + i * h) N) (hist (fun i => col (X i)) N) h =
      some (col (fun i => X N i + ((G i).eval (t₀ + (N + 1 : ℕ) * h) - (G i).eval (t₀ + N * h)))) := by
  have e : (bdfStep k : Rhs K → _) = abStep k := by
    have : k = 1 ∨ k = 2 ∨ k = 3 ∨ k = 4 ∨ k = 5 := by omega
    rcases this with rfl | rfl | rfl | rfl | rfl <;> rfl
  rw [e]
  exact C44_exact f G k hk1 hk5 hG hf t₀ h X N hN

/-- C45: the times and states of `BDF::solve`, as for Adams-Bashforth -/
theorem C45_solve (f : Rhs K) (fuel k : ℕ) (hk : 1 ≤ k) {stepSize tStart tStop : K} (hh : 0 < stepSize)
    (init : Mat K) {ts : List K} {xs : List (Mat K)}
    (hs : msSolve (fun j => bdfStep j f) fuel k stepSize tStart tStop init = some (ts, xs)) :
    ∃ (X : ℕ → Mat K) (N : ℕ), k ≤ N + 1 ∧ X 0 = init ∧
      ts = (List.range (N + 1)).map (grid stepSize tStart tStop) ∧ xs = (List.range (N + 1)).map X ∧
      |grid stepSize tStart tStop N - tStop| ≤ 1 / 10 ^ 10 ∧
      ∀ j < N, bdfStep (min (j + 1) k) f ((List.range (j + 1)).map (grid stepSize tStart tStop))
        ((List.range (j + 1)).map X) (grid stepSize tStart tStop (j + 1) - grid stepSize tStart tStop j) =
          some (X (j + 1)) := by
  obtain ⟨_, X, N, h1, h2, h3, h4, h5, _, h7⟩ := msSolve_spec _ fuel k hk hh init hs
  exact ⟨X, N, h1, h2, h3, h4, h5, h7⟩

end Solve

/-- C45 is violated: the step for `k = 6` is the formula for `k = 5`, and it is not exact for the polynomial solution
    `x = t⁶` of `x' = 6 t⁵` (from the exact values at `0, 1, …, 5`). -/
theorem C45_bdf6_violated :
    ∃ z : ℚ, bdfStep 6 (fun t _ => some (col ![6 * t ^ 5])) [0, 1, 2, 3, 4, 5]
      [col ![0], col ![1], col ![2 ^ 6], col ![3 ^ 6], col ![4 ^ 6], col ![5 ^ 6]] 1 = some (col ![z]) ∧ z ≠ 6 ^ 6 :=
  ⟨92837/2, by decide +kernel⟩

/-- Specification: the backward difference `∇^m x` at the end of the list (latest value first) -/
def backDiff : ℕ → List ℚ → ℚ
  | 0, l => l.getD 0 0
  | m + 1, l => backDiff m l - backDiff m l.tail

/-- Specification: the backward differentiation formula of order `k` for `x' = x`: `Σ_{m=1}^k ∇^m x_{n+1} / m = h x_{n+1}`
    (values with the latest first) -/
def BdfEquation (k : ℕ) (h : ℚ) (l : List ℚ) : Prop :=
  ∑ m ∈ Finset.range k, backDiff (m + 1) l / (m + 1) = h * l.getD 0 0

/-- C45 is violated: the steps are explicit Adams-Bashforth formulas. For no `k` do they satisfy the backward
    differentiation formula of order `k` (witness `x' = x`, history `1, 1, …`, `h = 1`, new value 2). -/
theorem C45_formula_violated : ∀ k, 1 ≤ k → k ≤ 6 →
    bdfStep k (fun _ x => some x) [0, 0, 0, 0, 0, 0] [col ![1], col ![1], col ![1], col ![1], col ![1], col ![1]] 1 =
      some (col ![(2 : ℚ)]) ∧ ¬ BdfEquation k 1 [2, 1, 1, 1, 1, 1, 1] := by
  intro k h1 h6
  have : k = 1 ∨ k = 2 ∨ k = 3 ∨ k = 4 ∨ k = 5 ∨ k = 6 := by omega
  rcases this with rfl | rfl | rfl | rfl | rfl | rfl <;>
  exact ⟨by decide +kernel, by unfold BdfEquation; decide +kernel⟩

/-- the specification accepts a backward Euler step: `x₁ = x₀ + h x₁` with `h = 1/2` -/
example : BdfEquation 1 (1/2) [2, 1] ∧ ¬ BdfEquation 1 (1/2) [3/2, 1] := by unfold BdfEquation; decide +kernel

end Ode
end Verif
