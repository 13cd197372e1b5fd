import Verif.ConvProps
import Verif.AdaptiveProps
import Verif.RKEmbProps
import Mathlib.Analysis.SpecialFunctions.Pow.Real
import Mathlib.Analysis.SpecificLimits.Basic
import Mathlib.MeasureTheory.Integral.IntervalIntegral.FundThmCalculus

/-!
# C106: the adaptive solver returns, and how accurate it is
-/

namespace Verif
namespace Ode
open Finset Filter Topology RK

theorem emb_shape (M : EmbMethod) :
    Shape (M.tableau : EmbTableau ℝ).a (M.tableau : EmbTableau ℝ).b (M.tableau : EmbTableau ℝ).c ∧
      (M.tableau : EmbTableau ℝ).bs.length = (M.tableau : EmbTableau ℝ).b.length := by
  cases M <;> simp [Shape, EmbMethod.tableau, bogackiShampine23, fehlberg12, fehlberg45, cashKarp45, dormandPrince, tsitouras]

/-! ### Termination -/

theorem rkStage_continuous {n : ℕ} (A : ℕ → ℕ → ℝ) (c : ℕ → ℝ) {g : ℝ → (Fin n → ℝ) → (Fin n → ℝ)}
    (hg : Continuous fun z : ℝ × (Fin n → ℝ) => g z.1 z.2) (t : ℝ) (x : Fin n → ℝ) (i : ℕ) :
    Continuous fun h => rkStage A c g t x h i := by
  induction i using Nat.strong_induction_on with
  | _ i ih =>
    have e : (fun h => rkStage A c g t x h i) = (fun z : ℝ × (Fin n → ℝ) => g z.1 z.2) ∘ fun h =>
        (t + c i * h, x + h • ∑ j ∈ range i, A i j • rkStage A c g t x h j) := by
      funext h
      rw [rkStage_eq]
      rfl
    rw [e]
    refine hg.comp (Continuous.prodMk (by fun_prop) ?_)
    refine continuous_const.add (continuous_id.smul (continuous_finsetSum _ fun j hj => ?_))
    exact (continuous_const (y := A i j)).smul (ih j (mem_range.1 hj))

theorem rkStep_continuous {n : ℕ} (s : ℕ) (A : ℕ → ℕ → ℝ) (b c : ℕ → ℝ) {g : ℝ → (Fin n → ℝ) → (Fin n → ℝ)}
    (hg : Continuous fun z : ℝ × (Fin n → ℝ) => g z.1 z.2) (t : ℝ) (x : Fin n → ℝ) :
    Continuous fun h => rkStep s A b c g t x h := by
  unfold rkStep
  exact continuous_const.add (continuous_id.smul (continuous_finsetSum _ fun i _ => (continuous_const (y := b i)).smul (rkStage_continuous A c hg t x i)))

theorem isSqrt_real : IsSqrt Real.sqrt := fun a ha => ⟨Real.sqrt_nonneg a, Real.mul_self_sqrt ha⟩

/-- short steps are accepted -/
theorem accept_short (T : EmbTableau ℝ) (hT : Shape T.a T.b T.c) (hbs : T.bs.length = T.b.length) {n : ℕ} (hn : 0 < n) {f : Rhs ℝ}
    {g : ℝ → (Fin n → ℝ) → (Fin n → ℝ)} (hf : RhsRepr f g) (hg : Continuous fun z : ℝ × (Fin n → ℝ) => g z.1 z.2)
    (c : Control ℝ) (ha : 0 < c.absTol) (hr : 0 ≤ c.relTol) (t : ℝ) (x : Fin n → ℝ) :
    ∃ δ > 0, ∀ h, 0 < h → ∃ (y y' : Fin n → ℝ) (e : ℝ), doStepEmb T f t (col x) h = some (col y, col y') ∧
      calcError Real.sqrt c (col y) (col y') = some e ∧ (h ≤ δ → e ≤ 1) := by
  have c1 := rkStep_continuous T.b.length (rowsOf T.a) (weightsOf T.b) (nodesOf T.c) hg t x
  have c2 := rkStep_continuous T.b.length (rowsOf T.a) (weightsOf T.bs) (nodesOf T.c) hg t x
  have c3 : Continuous fun h => |rkStep T.b.length (rowsOf T.a) (weightsOf T.b) (nodesOf T.c) g t x h ⟨0, hn⟩ -
      rkStep T.b.length (rowsOf T.a) (weightsOf T.bs) (nodesOf T.c) g t x h ⟨0, hn⟩| :=
    (((continuous_apply _).comp c1).sub ((continuous_apply _).comp c2)).abs
  have c4 := c3.tendsto 0
  simp only [rkStep, zero_smul, add_zero, sub_self, abs_zero] at c4
  obtain ⟨δ, hδ, H⟩ := Metric.eventually_nhds_iff.1 (c4.eventually (Iio_mem_nhds ha))
  refine ⟨δ / 2, by positivity, fun h hh => ?_⟩
  obtain ⟨e, h1, h2⟩ := C43_error_first isSqrt_real c ha hr hn
    (rkStep T.b.length (rowsOf T.a) (weightsOf T.b) (nodesOf T.c) g t x h)
    (rkStep T.b.length (rowsOf T.a) (weightsOf T.bs) (nodesOf T.c) g t x h)
  refine ⟨_, _, e, doStepEmb_col hf T hT hbs t x h, h1, fun hle => h2.2 ?_⟩
  have h3 := H (y := h) (by rw [Real.dist_eq, sub_zero, abs_of_pos hh]; linarith)
  refine (le_of_lt h3).trans ?_
  have := mul_nonneg (abs_nonneg (rkStep T.b.length (rowsOf T.a) (weightsOf T.b) (nodesOf T.c) g t x h ⟨0, hn⟩)) hr
  linarith

/-- after a rejection the step is shortened -/
theorem newStep_rejected (c : Control ℝ) (hf0 : 0 < c.fac) {l : ℝ} (hl : 0 ≤ l) {err h : ℝ}
    (he : 1 < err) (hh : 0 < h) : newStep (fun a b : ℝ => a ^ b) l c err h ≤ max c.fac c.facMin * h := by
  have h1 : ((1 : ℝ) / err) ^ l ≤ 1 := Real.rpow_le_one (by positivity) (by rw [div_le_one (by linarith)]; exact he.le) hl
  have h2 : c.fac * ((1 : ℝ) / err) ^ l ≤ max c.fac c.facMin := (mul_le_of_le_one_right hf0.le h1).trans (le_max_left _ _)
  rw [newStep, if_neg (by linarith)]
  refine mul_le_mul_of_nonneg_right ?_ hh.le
  have h3 : (if c.fac * ((1 : ℝ) / err) ^ l < c.facMin then c.facMin else c.fac * ((1 : ℝ) / err) ^ l) ≤ max c.fac c.facMin := by
    split_ifs
    · exact le_max_right _ _
    · exact h2
  generalize (if c.fac * ((1 : ℝ) / err) ^ l < c.facMin then c.facMin else c.fac * ((1 : ℝ) / err) ^ l) = s at h3 ⊢
  split_ifs with h4
  · exact h4.le.trans h3
  · exact h3

/-- **C106**, the solver returns: for every embedded method and every continuous right-hand side, in every dimension, `solve`
returns `Ok` or `Err` after finitely many (accepted or rejected) steps, provided that a rejected step is shortened
(`fac < 1`, `fac_min < 1`) and the absolute tolerance is positive. -/
theorem C106_returns (M : EmbMethod) {n : ℕ} (hn : 0 < n) {f : Rhs ℝ} {g : ℝ → (Fin n → ℝ) → (Fin n → ℝ)} (hf : RhsRepr f g)
    (hg : Continuous fun z : ℝ × (Fin n → ℝ) => g z.1 z.2) (c : Control ℝ) (ha : 0 < c.absTol) (hr : 0 ≤ c.relTol)
    (hh : 0 < c.h0) (hf0 : 0 < c.fac) (hf1 : c.fac < 1) (hm0 : 0 < c.facMin) (hm1 : c.facMin < 1) (hc : c.facMin ≤ c.facMax)
    {t₀ t₁ : ℝ} (ht : t₀ ≤ t₁) (x₀ : Fin n → ℝ) :
    ∃ F, ∀ fuel ≥ F, ∃ r, adaptSolve Real.sqrt (fun a b : ℝ => a ^ b) M.order.1 c (doStepEmb M.tableau f) fuel t₀ t₁ (col x₀) =
      some r := by
  obtain ⟨hT, hbs⟩ := emb_shape M
  set T : EmbTableau ℝ := M.tableau
  set l : ℝ := 1 / ((M.order.1 : ℝ) + 1) with hl
  have hl0 : 0 ≤ l := by rw [hl]; positivity
  set θ := max c.fac c.facMin with hθ
  have hθ1 : θ < 1 := max_lt hf1 hm1
  have hθ0 : 0 < θ := lt_max_of_lt_left hf0
  have loop : ∀ m (s : AState ℝ), c.nMax ≤ s.n + m → 0 < s.h → (∃ v : Fin n → ℝ, s.x = col v) →
      ∃ F, ∀ fuel ≥ F, ∃ r, adaptLoop Real.sqrt (fun a b : ℝ => a ^ b) l c (doStepEmb T f) t₁ fuel s = some r := by
    intro m
    induction m with
    | zero =>
      intro s hs _ _
      refine ⟨1, fun fuel hfu => ?_⟩
      obtain ⟨k, rfl⟩ : ∃ k, fuel = k + 1 := ⟨fuel - 1, by omega⟩
      exact ⟨s, by rw [adaptLoop, if_neg (by omega)]⟩
    | succ m ih =>
      intro s hs hsh hsx
      obtain ⟨v, hv⟩ := hsx
      obtain ⟨δ, hδ, H⟩ := accept_short T hT hbs hn hf hg c ha hr s.t v
      have inner : ∀ R (s' : AState ℝ), s'.n = s.n → s'.t = s.t → s'.x = s.x → 0 < s'.h → θ ^ R * min s'.h (t₁ - s'.t) ≤ δ →
          ∃ F, ∀ fuel ≥ F, ∃ r, adaptLoop Real.sqrt (fun a b : ℝ => a ^ b) l c (doStepEmb T f) t₁ fuel s' = some r := by
        intro R
        induction R with
        | zero =>
          intro s' e1 e2 e3 hp hR
          by_cases hcond : s'.n < c.nMax ∧ s'.t < t₁
          · have hmin : 0 < min s'.h (t₁ - s'.t) := lt_min hp (by linarith [hcond.2])
            obtain ⟨y, y', e, h1, h2, h3⟩ := H _ hmin
            obtain ⟨F, hF⟩ := ih ⟨s'.n + 1, s'.t + min s'.h (t₁ - s'.t), col y,
              newStep (fun a b : ℝ => a ^ b) l c e (min s'.h (t₁ - s'.t)), s'.ts ++ [s'.t + min s'.h (t₁ - s'.t)], s'.xs ++ [col y]⟩
              (by simp only [e1]; omega) (newStep_pos _ l c hc hm0 e hmin) ⟨y, rfl⟩
            refine ⟨F + 1, fun fuel hfu => ?_⟩
            obtain ⟨k, rfl⟩ : ∃ k, fuel = k + 1 := ⟨fuel - 1, by omega⟩
            obtain ⟨r, hr⟩ := hF k (by omega)
            refine ⟨r, ?_⟩
            rw [adaptLoop, if_pos hcond, adaptIter, e3, hv]
            rw [e2] at *
            simp only [h1, h2, Option.bind_eq_bind, Option.bind_some, if_pos (h3 (by simpa using hR)), hr]
          · refine ⟨1, fun fuel hfu => ?_⟩
            obtain ⟨k, rfl⟩ : ∃ k, fuel = k + 1 := ⟨fuel - 1, by omega⟩
            exact ⟨s', by rw [adaptLoop, if_neg hcond]⟩
        | succ R ihR =>
          intro s' e1 e2 e3 hp hR
          by_cases hcond : s'.n < c.nMax ∧ s'.t < t₁
          · have hmin : 0 < min s'.h (t₁ - s'.t) := lt_min hp (by linarith [hcond.2])
            obtain ⟨y, y', e, h1, h2, h3⟩ := H _ hmin
            by_cases he : e ≤ 1
            · obtain ⟨F, hF⟩ := ih ⟨s'.n + 1, s'.t + min s'.h (t₁ - s'.t), col y,
                newStep (fun a b : ℝ => a ^ b) l c e (min s'.h (t₁ - s'.t)), s'.ts ++ [s'.t + min s'.h (t₁ - s'.t)], s'.xs ++ [col y]⟩
                (by simp only [e1]; omega) (newStep_pos _ l c hc hm0 e hmin) ⟨y, rfl⟩
              refine ⟨F + 1, fun fuel hfu => ?_⟩
              obtain ⟨k, rfl⟩ : ∃ k, fuel = k + 1 := ⟨fuel - 1, by omega⟩
              obtain ⟨r, hr⟩ := hF k (by omega)
              refine ⟨r, ?_⟩
              rw [adaptLoop, if_pos hcond, adaptIter, e3, hv]
              rw [e2] at *
              simp only [h1, h2, Option.bind_eq_bind, Option.bind_some, if_pos he, hr]
            · have hlt : 1 < e := not_le.1 he
              have hsh := newStep_rejected c hf0 hl0 hlt hmin
              obtain ⟨F, hF⟩ := ihR { s' with h := newStep (fun a b : ℝ => a ^ b) l c e (min s'.h (t₁ - s'.t)) } e1 e2 e3
                (newStep_pos _ l c hc hm0 e hmin) (by
                  refine le_trans ?_ hR
                  rw [pow_succ, mul_assoc]
                  exact mul_le_mul_of_nonneg_left ((min_le_left _ _).trans hsh) (by positivity))
              refine ⟨F + 1, fun fuel hfu => ?_⟩
              obtain ⟨k, rfl⟩ : ∃ k, fuel = k + 1 := ⟨fuel - 1, by omega⟩
              obtain ⟨r, hr⟩ := hF k (by omega)
              refine ⟨r, ?_⟩
              rw [adaptLoop, if_pos hcond, adaptIter]
              have h1' : doStepEmb T f s'.t s'.x (min s'.h (t₁ - s'.t)) = some (col y, col y') := by rw [e3, hv, e2]; rw [e2] at h1; exact h1
              simp only [h1', h2, Option.bind_eq_bind, Option.bind_some, if_neg he, hr]
          · refine ⟨1, fun fuel hfu => ?_⟩
            obtain ⟨k, rfl⟩ : ∃ k, fuel = k + 1 := ⟨fuel - 1, by omega⟩
            exact ⟨s', by rw [adaptLoop, if_neg hcond]⟩
      have hlim : Tendsto (fun R : ℕ => θ ^ R * min s.h (t₁ - s.t)) atTop (𝓝 (0 * min s.h (t₁ - s.t))) :=
        (tendsto_pow_atTop_nhds_zero_of_lt_one hθ0.le hθ1).mul_const _
      rw [zero_mul] at hlim
      obtain ⟨R, hR⟩ := (hlim.eventually (Iic_mem_nhds hδ)).exists
      exact inner R s rfl rfl rfl hsh hR
  obtain ⟨F, hF⟩ := loop c.nMax ⟨0, t₀, col x₀, c.h0, [t₀], [col x₀]⟩ (by simp) hh ⟨x₀, rfl⟩
  refine ⟨F, fun fuel hfu => ?_⟩
  obtain ⟨r, hr⟩ := hF fuel hfu
  rw [adaptSolve, if_neg (not_lt.2 ht)]
  simp only [Option.bind_eq_bind, ← hl, hr, Option.bind_some]
  split_ifs
  · exact ⟨_, rfl⟩
  · exact ⟨_, rfl⟩

/-- **C106** needs a factor below one: with `fac_min = fac_max = 1` a first step that is rejected is repeated for ever. -/
theorem C106_returns_violated (M : EmbMethod) {f : Rhs ℝ} {g : ℝ → (Fin 1 → ℝ) → (Fin 1 → ℝ)} (hf : RhsRepr f g) (c : Control ℝ)
    (hm : c.facMin = 1) (hM : c.facMax = 1) (hN : 0 < c.nMax) {t₀ t₁ : ℝ} (ht : t₀ < t₁) (hh : c.h0 ≤ t₁ - t₀) (x₀ : Fin 1 → ℝ)
    (hrej : ∀ y y' : Mat ℝ, ∀ e, doStepEmb M.tableau f t₀ (col x₀) c.h0 = some (y, y') → calcError Real.sqrt c y y' = some e → 1 < e)
    (fuel : ℕ) :
    adaptSolve Real.sqrt (fun a b : ℝ => a ^ b) M.order.1 c (doStepEmb M.tableau f) fuel t₀ t₁ (col x₀) = none := by
  have key : ∀ fuel, adaptLoop Real.sqrt (fun a b : ℝ => a ^ b) (1 / ((M.order.1 : ℝ) + 1)) c (doStepEmb M.tableau f) t₁ fuel
      ⟨0, t₀, col x₀, c.h0, [t₀], [col x₀]⟩ = none := by
    intro fuel
    induction fuel with
    | zero => rfl
    | succ fuel ih =>
      rw [adaptLoop, if_pos ⟨hN, ht⟩, adaptIter]
      simp only [min_eq_left hh]
      obtain ⟨hT, hbs⟩ := emb_shape M
      set T : EmbTableau ℝ := M.tableau
      rw [doStepEmb_col hf _ hT hbs] at hrej ⊢
      simp only [Option.bind_eq_bind, Option.bind_some]
      cases he : calcError Real.sqrt c (col (rkStep T.b.length (rowsOf T.a) (weightsOf T.b)
        (nodesOf T.c) g t₀ x₀ c.h0)) (col (rkStep T.b.length (rowsOf T.a) (weightsOf T.bs)
        (nodesOf T.c) g t₀ x₀ c.h0)) with
      | none => rfl
      | some e =>
        have h1 := hrej _ _ e rfl he
        have h2 : newStep (fun a b : ℝ => a ^ b) (1 / ((M.order.1 : ℝ) + 1)) c e c.h0 = c.h0 := by
          obtain ⟨b1, -⟩ := C43_factor (fun a b : ℝ => a ^ b) (1 / ((M.order.1 : ℝ) + 1)) c (by rw [hm, hM]) e c.h0
          obtain ⟨s, s1, s2, s3, -⟩ := b1 (by linarith)
          have hs1 : s = 1 := le_antisymm (hM ▸ s2) (hm ▸ s1)
          rw [s3, hs1, one_mul]
        simp only [Option.bind_some, if_neg (not_le.2 h1), h2, ih]
  rw [adaptSolve, if_neg (not_lt.2 ht.le)]
  simp only [Option.bind_eq_bind, key, Option.bind_none]

/-! ### Accuracy -/

theorem adapt_error {T : EmbTableau ℝ} (hT : Shape T.a T.b T.c) (hbs : T.bs.length = T.b.length) {p : ℕ} (hp : 0 < p)
    (hO : OrderConditions T.b.length (rowsOf T.a) (weightsOf T.b) p) (hR : RowSums T.b.length (rowsOf T.a) (nodesOf T.c))
    {n : ℕ} {f : Rhs ℝ} {g : ℝ → (Fin n → ℝ) → (Fin n → ℝ)} (hf : RhsRepr f g) {y : ℝ → (Fin n → ℝ)} {t₀ t₁ : ℝ} (ht : t₀ ≤ t₁)
    (hg : ∀ t ∈ Set.Icc t₀ t₁, ContDiffAt ℝ p (fun z : ℝ × (Fin n → ℝ) => g z.1 z.2) (t, y t))
    (hy : ∀ t ∈ Set.Icc t₀ t₁, ∀ᶠ u in 𝓝 t, HasDerivAt y (g u (y u)) u) :
    ∃ h₀ > 0, ∃ C, ∀ (sqrt : ℝ → ℝ) (pow : ℝ → ℝ → ℝ) (q : ℕ) (c : Control ℝ) (fuel : ℕ) (ts : List ℝ) (xs : List (Mat ℝ)) (h : ℝ),
      c.facMin ≤ c.facMax → 0 < c.facMin → 0 < c.h0 →
      adaptSolve sqrt pow q c (doStepEmb T f) fuel t₀ t₁ (col (y t₀)) = some (some (ts, xs)) → 0 < h → h ≤ h₀ →
      ((∀ (k : ℕ) t t', ts[k]? = some t → ts[k + 1]? = some t' → t' - t ≤ h) ∨ c.facMax ≤ 1 ∧ c.h0 ≤ h) →
      ∀ (k : ℕ) t X, ts[k]? = some t → xs[k]? = some X → ∃ x : Fin n → ℝ, X = col x ∧ ‖x - y t‖ ≤ C * h ^ p := by
  obtain ⟨h₀, hh₀, C, H⟩ := global_error (E := Fin n → ℝ) (y := y) hp ht
    (K := fun t x h => ∑ i ∈ range T.b.length, weightsOf T.b i • rkStage (rowsOf T.a) (nodesOf T.c) g t x h i)
    (fun t ht => increment_contDiffAt _ _ _ _ (hg t ht))
    (fun t ht => solution_contDiffAt (hg t ht) (hy t ht) p le_rfl)
    (fun t ht => by
      have hcont : ContinuousAt (fun u => (u, y u)) t := continuousAt_id.prodMk (hy t ht).self_of_nhds.continuousAt
      have h1 := hcont.eventually ((hg t ht).eventually (by simp))
      filter_upwards [h1, (hy t ht).eventually_nhds] with u hu1 hu2
      exact rkStep_order hp hO hR g u y hu1 hu2)
  refine ⟨h₀, hh₀, C, ?_⟩
  intro sqrt pow q c fuel ts xs h hc hm0 hc0 hs hpos hle hsteps k t X hkt hkX
  obtain ⟨N, τ, Y, hN, rfl, rfl, hτ0, hτN, hY0, hY, hYh⟩ := C43_solve_partial pow q c hc hm0 hc0 _ fuel t₀ t₁ _ hs
  have hcol : ∀ k ≤ N, ∃ x : Fin n → ℝ, Y k = col x := by
    intro k
    induction k with
    | zero => intro _; exact ⟨_, hY0⟩
    | succ k ih =>
      intro hk
      obtain ⟨x, hx⟩ := ih (by omega)
      obtain ⟨-, e, xh, h1, -⟩ := hY k (by omega)
      rw [hx, doStepEmb_col hf T hT hbs] at h1
      exact ⟨_, (congrArg Prod.fst (Option.some.inj h1)).symm⟩
  choose! x hx using hcol
  have hx0 : x 0 = y t₀ := col_injective (by rw [← hx 0 (Nat.zero_le _), hY0])
  have hxs : ∀ k < N, x (k + 1) = x k + (τ (k + 1) - τ k) •
      ∑ i ∈ range T.b.length, weightsOf T.b i • rkStage (rowsOf T.a) (nodesOf T.c) g (τ k) (x k) (τ (k + 1) - τ k) i := by
    intro k hk
    obtain ⟨-, e, xh, h1, -⟩ := hY k hk
    rw [hx k hk.le, doStepEmb_col hf T hT hbs] at h1
    have h2 := congrArg Prod.fst (Option.some.inj h1)
    simp only at h2
    rw [hx (k + 1) hk] at h2
    exact (col_injective h2).symm
  have hstep : ∀ k < N, τ k ≤ τ (k + 1) ∧ τ (k + 1) - τ k ≤ h := by
    intro k hk
    refine ⟨(hY k hk).1.le, ?_⟩
    rcases hsteps with hsteps | ⟨h1, h2⟩
    · exact hsteps k _ _ (by simp [show k < N + 1 by omega]) (by simp [show k + 1 < N + 1 by omega])
    · exact (hYh h1 k hk).trans h2
  rw [List.getElem?_map, Option.map_eq_some_iff] at hkt hkX
  obtain ⟨i, hi, rfl⟩ := hkt
  obtain ⟨i', hi', rfl⟩ := hkX
  rw [List.getElem?_eq_some_iff] at hi hi'
  obtain ⟨hi1, rfl⟩ := hi
  obtain ⟨_, rfl⟩ := hi'
  rw [List.length_range] at hi1
  simp only [List.getElem_range]
  exact ⟨x k, hx k (by omega), H h hpos hle N τ x hτ0 hx0 hstep hτN.le hxs k (by omega)⟩

set_option maxRecDepth 10000 in
theorem emb_check (M : EmbMethod) (hM : M ≠ .tsitouras) :
    check (M.tableau : EmbTableau ℚ).a (M.tableau : EmbTableau ℚ).b (M.tableau : EmbTableau ℚ).c
      (if M = .cashKarp45 then 4 else M.order.1) := by
  cases M
  case tsitouras => exact absurd rfl hM
  all_goals decide +kernel

/-- **C106**, accuracy: let `y` solve `y' = g(t, y)` around `[t₀, t₁]` and let `g` be as often continuously differentiable along `y` as the
order `p` of the method says (4 for `CashKarp45`, see C42).  Every result `Ok` of the adaptive solver with steps no longer than
a small `h` is within `C h ^ p` of the solution.  If `fac_max ≤ 1`, it is enough that `h_0 ≤ h`.  Missing: a
bound by the tolerances, see `C106_accuracy_violated`; `Tsitouras`, see C67. -/
theorem C106_accuracy_partial (M : EmbMethod) (hM : M ≠ .tsitouras) {p : ℕ} (hp : p = if M = .cashKarp45 then 4 else M.order.1)
    {n : ℕ} {f : Rhs ℝ} {g : ℝ → (Fin n → ℝ) → (Fin n → ℝ)} (hf : RhsRepr f g) {y : ℝ → (Fin n → ℝ)} {t₀ t₁ : ℝ} (ht : t₀ ≤ t₁)
    (hg : ∀ t ∈ Set.Icc t₀ t₁, ContDiffAt ℝ p (fun z : ℝ × (Fin n → ℝ) => g z.1 z.2) (t, y t))
    (hy : ∀ t ∈ Set.Icc t₀ t₁, ∀ᶠ u in 𝓝 t, HasDerivAt y (g u (y u)) u) :
    ∃ h₀ > 0, ∃ C, ∀ (c : Control ℝ) (fuel : ℕ) (ts : List ℝ) (xs : List (Mat ℝ)) (h : ℝ),
      c.facMin ≤ c.facMax → 0 < c.facMin → 0 < c.h0 →
      adaptSolve Real.sqrt (fun a b : ℝ => a ^ b) M.order.1 c (doStepEmb M.tableau f) fuel t₀ t₁ (col (y t₀)) = some (some (ts, xs)) →
      0 < h → h ≤ h₀ →
      ((∀ (k : ℕ) t t', ts[k]? = some t → ts[k + 1]? = some t' → t' - t ≤ h) ∨ c.facMax ≤ 1 ∧ c.h0 ≤ h) →
      ∀ (k : ℕ) t X, ts[k]? = some t → xs[k]? = some X → ∃ x : Fin n → ℝ, X = col x ∧ ‖x - y t‖ ≤ C * h ^ p := by
  subst hp
  have hck := emb_check M hM
  obtain ⟨hT, hbs⟩ := emb_shape M
  obtain ⟨c1, c2⟩ := conditions_of_check (K := ℝ) hck
  obtain ⟨h₀, hh₀, C, H⟩ := adapt_error (T := M.tableau) hT hbs hck.1 (by rw [emb_cast]; simpa [EmbTableau.map] using c1)
    (by rw [emb_cast]; simpa [EmbTableau.map] using c2) hf ht hg hy
  exact ⟨h₀, hh₀, C, fun c fuel ts xs h => H _ _ _ c fuel ts xs h⟩

/-- **C106** is violated by every method in that the tolerances do not bound the error: whatever the tolerances are, there is a right-hand
side (a polynomial in the time) for which the solver returns `Ok` with a value that is off by more than `B`, because all stages
of the first step are evaluated at zeros of the polynomial. -/
theorem C106_accuracy_violated (M : EmbMethod) (c : Control ℝ) (ha : 0 < c.absTol) (hN : 0 < c.nMax) (hh : 1 ≤ c.h0) (B : ℝ) :
    ∃ g : ℝ → ℝ, Continuous g ∧ ∃ y : ℝ → ℝ, (∀ t, HasDerivAt y (g t) t) ∧ y 0 = 0 ∧ B < y 1 ∧ ∀ fuel ≥ 2,
      adaptSolve Real.sqrt (fun a b : ℝ => a ^ b) M.order.1 c (doStepEmb M.tableau fun t _ => some (col ![g t])) fuel 0 1 (col ![0]) =
        some (some ([0, 1], [col ![0], col ![0]])) := by
  set T : EmbTableau ℝ := M.tableau with hTd
  obtain ⟨hT, hbs⟩ := emb_shape M
  set P : ℝ → ℝ := fun t => t ^ 2 * (T.c.map fun a => (t - a) ^ 2).prod with hP
  have hPc : Continuous P := by
    refine (continuous_pow 2).mul ?_
    have : ∀ l : List ℝ, Continuous fun t : ℝ => (l.map fun a => (t - a) ^ 2).prod := by
      intro l
      induction l with
      | nil => exact continuous_const
      | cons a l ih => simp only [List.map_cons, List.prod_cons]; exact ((continuous_id.sub continuous_const).pow 2).mul ih
    exact this _
  have hP0 : ∀ t, 0 ≤ P t := by
    intro t
    refine mul_nonneg (sq_nonneg t) (List.prod_nonneg ?_)
    intro a ha
    obtain ⟨b, -, rfl⟩ := List.mem_map.1 ha
    exact sq_nonneg _
  have hpos : 0 < P (1 / 1000) := by
    simp only [hP, hTd]
    cases M <;> norm_num [EmbMethod.tableau, bogackiShampine23, fehlberg12, fehlberg45, cashKarp45, dormandPrince, tsitouras]
  have hI : 0 < ∫ t in (0 : ℝ)..1, P t :=
    intervalIntegral.integral_pos zero_lt_one hPc.continuousOn (fun t _ => hP0 t) ⟨1 / 1000, by norm_num, hpos⟩
  set I := ∫ t in (0 : ℝ)..1, P t
  set A := (|B| + 1) / I with hA
  refine ⟨fun t => A * P t, continuous_const.mul hPc, fun t => A * ∫ u in (0 : ℝ)..t, P u, fun t => ?_, by simp, ?_, ?_⟩
  · exact (intervalIntegral.integral_hasDerivAt_right (hPc.intervalIntegrable _ _) hPc.stronglyMeasurable.stronglyMeasurableAtFilter
      hPc.continuousAt).const_mul A
  · change B < A * I
    rw [hA, div_mul_cancel₀ _ hI.ne']
    linarith [le_abs_self B]
  · intro fuel hfu
    obtain ⟨k, rfl⟩ : ∃ k, fuel = k + 2 := ⟨fuel - 2, by omega⟩
    have hnode : ∀ i < T.b.length, P (nodesOf T.c i) = 0 := by
      intro i hi
      rcases i with _ | i
      · simp [nodesOf, hP]
      · have hlen : i < T.c.length := by have := hT.2.2; rw [← hTd] at this; omega
        simp only [nodesOf, hP]
        refine mul_eq_zero_of_right _ (List.prod_eq_zero ?_)
        refine List.mem_map.2 ⟨T.c.getD i 0, ?_, by simp⟩
        rw [List.getD_eq_getElem?_getD, List.getElem?_eq_getElem hlen, Option.getD_some]
        exact List.getElem_mem hlen
    have hst : ∀ b : ℕ → ℝ, rkStep T.b.length (rowsOf T.a) b (nodesOf T.c) (fun t (_ : Fin 1 → ℝ) => ![A * P t]) 0 ![0] 1 = ![0] := by
      intro b
      rw [rkStep, sum_eq_zero]
      · simp
      · intro i hi
        rw [rkStage_eq]
        simp [hnode i (mem_range.1 hi)]
    have hstep : doStepEmb T (fun t _ => some (col ![A * P t])) 0 (col ![0]) 1 = some (col ![0], col ![0]) := by
      rw [doStepEmb_col (n := 1) (g := fun t _ => ![A * P t]) (fun _ _ => rfl) T hT hbs, hst, hst]
    have herr : calcError Real.sqrt c (col ![0]) (col ![0]) = some 0 := by
      have := calcError_col Real.sqrt c (n := 1) one_pos ![0] ![0] (by simpa using ha.ne')
      rw [this]
      simp
    rw [adaptSolve, if_neg (by norm_num)]
    simp only []
    rw [adaptLoop, if_pos ⟨hN, zero_lt_one⟩, adaptIter]
    simp only [sub_zero, min_eq_right hh, hstep, herr, Option.bind_eq_bind, Option.bind_some, zero_add, zero_le_one, if_true]
    rw [adaptLoop, if_neg (by simp)]
    simp

/-- a run with rejections: `x' = x` from `10`, tolerance `1/100` -/
example : (adaptSolve Rat.sqrt (fun a _ => a) 1 ⟨10, 1, 1/2, 1/4, 2, 1/2, 0⟩ (doStepEmb fehlberg12 (fun _ x => some x)) 30 0 1
    (col ![(1 : ℚ)])).isSome = true := by decide +kernel

/-- a first step that is rejected for ever -/
example : adaptSolve Rat.sqrt (fun a _ => a) 1 ⟨10, 1, 1/2, 1, 1, 1/1000, 0⟩ (doStepEmb fehlberg12 (fun _ x => some x)) 30 0 1
    (col ![(1 : ℚ)]) = none := by decide +kernel

/-- a polynomial that vanishes at all times at which it is evaluated -/
example : adaptSolve Rat.sqrt (fun a _ => a) 1 ⟨10, 1, 1/2, 1/4, 2, 1/1000, 0⟩
    (doStepEmb fehlberg12 (fun t _ => some (col ![1000 * t ^ 2 * (t - 1/2) ^ 2 * (t - 1) ^ 2]))) 30 0 1 (col ![(0 : ℚ)]) =
      some (some ([0, 1], [col ![0], col ![0]])) := by decide +kernel

end Ode
end Verif
