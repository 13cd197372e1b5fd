import Verif.RKProps

/-! # Embedded Runge-Kutta pairs: C42 and C67 -/

namespace Verif
namespace Ode
open Finset RK Asymptotics Topology

/-- the first result of a step of an embedded method -/
def embFst {K : Type} [Field K] (T : EmbTableau K) (f : Rhs K) (t : K) (x : Mat K) (h : K) : Option (Mat K) :=
  (doStepEmb T f t x h).map Prod.fst
/-- the second result of a step of an embedded method -/
def embSnd {K : Type} [Field K] (T : EmbTableau K) (f : Rhs K) (t : K) (x : Mat K) (h : K) : Option (Mat K) :=
  (doStepEmb T f t x h).map Prod.snd

theorem embFst_col {K : Type} [Field K] {n : Nat} {f : Rhs K} {g : K → (Fin n → K) → (Fin n → K)} (hf : RhsRepr f g)
    (T : EmbTableau K) (hT : Shape T.a T.b T.c) (hs : T.bs.length = T.b.length) (t : K) (x : Fin n → K) (h : K) :
    embFst T f t (col x) h =
      some (col (rkStep T.b.length (rowsOf T.a) (weightsOf T.b) (nodesOf T.c) g t x h)) := by
  rw [embFst, doStepEmb_col hf T hT hs]; rfl

theorem embSnd_col {K : Type} [Field K] {n : Nat} {f : Rhs K} {g : K → (Fin n → K) → (Fin n → K)} (hf : RhsRepr f g)
    (T : EmbTableau K) (hT : Shape T.a T.b T.c) (hs : T.bs.length = T.b.length) (t : K) (x : Fin n → K) (h : K) :
    embSnd T f t (col x) h =
      some (col (rkStep T.b.length (rowsOf T.a) (weightsOf T.bs) (nodesOf T.c) g t x h)) := by
  rw [embSnd, doStepEmb_col hf T hT hs]; rfl

/-- `x' = x`, `h = 1`: the results agree up to the second order terms -/
example : doStepEmb (K := ℚ) bogackiShampine23 (fun _ x => some x) 0 (col ![1]) 1 =
    some (col ![8 / 3], col ![65 / 24]) := by decide +kernel

theorem emb_hasOrder {T : EmbTableau ℚ} {T' : EmbTableau ℝ} {p q : ℕ} (h1 : check T.a T.b T.c p)
    (h2 : check T.a T.bs T.c q) (hs : T.bs.length = T.b.length) (hT : T' = T.map (Rat.castHom ℝ)) :
    HasOrder (embFst T') p ∧ HasOrder (embSnd T') q := by
  subst hT
  obtain ⟨c1, r1⟩ := conditions_of_check (K := ℝ) h1
  obtain ⟨c2, r2⟩ := conditions_of_check (K := ℝ) h2
  have hS : Shape (T.map (Rat.castHom ℝ)).a (T.map (Rat.castHom ℝ)).b (T.map (Rat.castHom ℝ)).c := by
    simpa [Shape, EmbTableau.map] using h1.2.1
  have hl : (T.map (Rat.castHom ℝ)).bs.length = (T.map (Rat.castHom ℝ)).b.length := by
    simpa [EmbTableau.map] using hs
  constructor
  · intro n f g t y hf hg hy
    refine ⟨_, fun h => embFst_col hf _ hS hl t (y t) h, ?_⟩
    refine rkStep_order h1.1 ?_ ?_ g t y hg hy
    · simpa [EmbTableau.map] using c1
    · simpa [EmbTableau.map] using r1
  · intro n f g t y hf hg hy
    refine ⟨_, fun h => embSnd_col hf _ hS hl t (y t) h, ?_⟩
    refine rkStep_order h2.1 ?_ ?_ g t y hg hy
    · simpa [EmbTableau.map, hs] using c2
    · simpa [EmbTableau.map, hs] using r2

theorem emb_cast (M : EmbMethod) : (M.tableau : EmbTableau ℝ) = (M.tableau : EmbTableau ℚ).map (Rat.castHom ℝ) := by
  cases M <;>
  simp [EmbMethod.tableau, bogackiShampine23, fehlberg12, fehlberg45, cashKarp45, dormandPrince, tsitouras,
    EmbTableau.map]

set_option maxRecDepth 10000 in
/-- C42: with `order() = (p, q)`, the first result of `do_step` has order `p` and the second has order `q`, for
    `BogackiShampine23`, `Fehlberg12`, `Fehlberg45` and `DormandPrince`. `CashKarp45` is excluded: see
    `C42_cashKarp_violated`. -/
theorem C42_order_partial (M : EmbMethod) (hM : M ≠ .cashKarp45) (hM' : M ≠ .tsitouras) :
    HasOrder (embFst M.tableau) M.order.1 ∧ HasOrder (embSnd M.tableau) M.order.2 := by
  refine emb_hasOrder (T := M.tableau) ?_ ?_ ?_ (emb_cast M)
  · cases M
    case cashKarp45 => exact absurd rfl hM
    case tsitouras => exact absurd rfl hM'
    all_goals decide +kernel
  · cases M
    case cashKarp45 => exact absurd rfl hM
    case tsitouras => exact absurd rfl hM'
    all_goals decide +kernel
  · cases M <;> rfl

set_option maxRecDepth 10000 in
/-- C42: the two rows of weights of `CashKarp45` are exchanged: the first result has order 4, the second order 5. -/
theorem C42_cashKarp_swapped :
    HasOrder (embFst EmbMethod.cashKarp45.tableau) 4 ∧ HasOrder (embSnd EmbMethod.cashKarp45.tableau) 5 :=
  emb_hasOrder (T := EmbMethod.cashKarp45.tableau) (by decide +kernel) (by decide +kernel) rfl (emb_cast _)

theorem not_order_of_rat {step : Rhs ℝ → ℝ → Mat ℝ → ℝ → Option (Mat ℝ)} (a b c : List ℚ) (m p : ℕ) (hmp : m < p)
    (hstep : ∀ (f : Rhs ℝ) (g : ℝ → (Fin 1 → ℝ) → (Fin 1 → ℝ)), RhsRepr f g → ∀ t x h, step f t (col x) h =
      some (col (rkStep b.length (rowsOf (a.map (Rat.castHom ℝ))) (weightsOf (b.map (Rat.castHom ℝ)))
        (nodesOf (c.map (Rat.castHom ℝ))) g t x h)))
    (hq : (∑ i ∈ range b.length, weightsOf b i * nodesOf c i ^ m) * (m + 1) ≠ 1) : ¬ HasOrder step p := by
  refine rk_not_order m p hmp hstep ?_
  rw [weightsOf_map, nodesOf_map]
  intro h
  apply hq
  have : (Rat.castHom ℝ) ((∑ i ∈ range b.length, weightsOf b i * nodesOf c i ^ m) * (m + 1)) = 1 := by
    simpa using h
  exact (Rat.castHom ℝ).injective (by rw [this, map_one])

/-- C42 is violated: `order()` of `CashKarp45` is `(5, 4)`, but the first result of `do_step` does not have order 5. -/
theorem C42_cashKarp_violated :
    EmbMethod.cashKarp45.order.1 = 5 ∧ ¬ HasOrder (embFst EmbMethod.cashKarp45.tableau) 5 := by
  refine ⟨rfl, ?_⟩
  rw [emb_cast]
  refine not_order_of_rat cashKarp45.a cashKarp45.b cashKarp45.c 4 5 (by norm_num) ?_ (by decide +kernel)
  intro f g hf t x h
  rw [embFst_col hf _ (by simp [Shape, EmbTableau.map, EmbMethod.tableau, cashKarp45])
    (by simp [EmbTableau.map, EmbMethod.tableau, cashKarp45])]
  rfl

/-- C67: every order condition of `Tsitouras` up to order 5 holds for the first result up to an error below `10⁻¹³`
    (the coefficients have about 16 digits), and so do the row sums. -/
theorem C67_tsitouras_conditions_partial :
    (∀ F : Forest, F.size + 1 ≤ 5 →
      |(∑ i ∈ range 7, weightsOf (tsitouras : EmbTableau ℚ).b i * weight (rowsOf (tsitouras : EmbTableau ℚ).a) F i) *
        ((F.size + 1 : ℕ) * (F.dens : ℕ)) - 1| < 1 / 10 ^ 13) ∧
    ∀ i < 7, |nodesOf (tsitouras : EmbTableau ℚ).c i - ∑ j ∈ range i, rowsOf (tsitouras : EmbTableau ℚ).a i j|
      < 1 / 10 ^ 13 := by
  constructor
  · have h : ∀ F ∈ Forest.upTo 4,
      |(∑ i ∈ range 7, weightsOf (tsitouras : EmbTableau ℚ).b i * weight (rowsOf (tsitouras : EmbTableau ℚ).a) F i) *
        ((F.size + 1 : ℕ) * (F.dens : ℕ)) - 1| < 1 / 10 ^ 13 := by decide +kernel
    exact fun F hF => h F (Forest.mem_upTo.mpr (by omega))
  · decide +kernel

/-- C67 is violated: the second result of `Tsitouras` is not an approximation of the solution at all. Its weights are
    the differences between two rows of weights, and it is already wrong for `x' = 1`; `order()` says 4. -/
theorem C67_tsitouras_violated :
    EmbMethod.tsitouras.order.2 = 4 ∧ ¬ HasOrder (embSnd EmbMethod.tsitouras.tableau) 1 := by
  refine ⟨rfl, ?_⟩
  rw [emb_cast]
  refine not_order_of_rat tsitouras.a tsitouras.bs tsitouras.c 0 1 (by norm_num) ?_ (by decide +kernel)
  intro f g hf t x h
  rw [embSnd_col hf _ (by simp [Shape, EmbTableau.map, EmbMethod.tableau, tsitouras])
    (by simp [EmbTableau.map, EmbMethod.tableau, tsitouras])]
  rfl

end Ode
end Verif
