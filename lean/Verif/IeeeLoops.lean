import Verif.IeeeFnModel
import Verif.IeeeProps
import Verif.FloatOdeLemmas
import Verif.OptimModel

/-!
# Property C110: NaN and the loops that wait for a comparison
-/

namespace Verif
open Finset

namespace Ie
variable {p e : ℕ}

theorem nan_sub (x : Ie p e) : nan - x = nan := by cases x <;> rfl
theorem sub_nan (x : Ie p e) : x - nan = nan := by cases x <;> rfl
theorem div_nan (x : Ie p e) : x / nan = nan := by cases x <;> rfl
theorem neg_nan : (-nan : Ie p e) = nan := rfl
theorem not_nan_le (x : Ie p e) : ¬ (nan : Ie p e) ≤ x := by cases x <;> exact Bool.false_ne_true
theorem not_le_nan (x : Ie p e) : ¬ x ≤ (nan : Ie p e) := by cases x <;> exact Bool.false_ne_true
theorem not_nan_lt (x : Ie p e) : ¬ (nan : Ie p e) < x := by cases x <;> exact Bool.false_ne_true
theorem not_lt_nan (x : Ie p e) : ¬ x < (nan : Ie p e) := by cases x <;> exact Bool.false_ne_true
theorem max_nan_nan : max (nan : Ie p e) (-nan) = nan := rfl
theorem min_nan (x : Ie p e) : min (nan : Ie p e) x = x := if_neg (not_nan_le x)
/-- **C110, minimum and maximum.** `min` and `max` return the second operand if one of the two is NaN, so they do not commute: this is why
NaN gets lost in some places and is passed on in others. -/
theorem C110_min_max (x : Ie p e) : min nan x = x ∧ max nan x = x ∧ min x nan = nan ∧ max x nan = nan :=
  ⟨if_neg (not_nan_le x), if_neg (not_le_nan x), if_neg (not_le_nan x), if_neg (not_nan_le x)⟩
/-- `max(NaN, 1) = 1`, but `max(1, NaN)` is NaN -/
example : max (nan : IeF64) 1 = 1 ∧ max (1 : IeF64) nan = nan := ⟨(C110_min_max 1).2.1, (C110_min_max 1).2.2.2⟩
theorem nan_ne_zero : (nan : Ie p e) ≠ 0 := by intro h; cases h
theorem nan_ne_one : (nan : Ie p e) ≠ 1 := by intro h; cases h
theorem round_zero : round p e 0 = fin 0 := round_tiny (by rw [abs_zero]; exact zpow_pos (by norm_num) _)

/-- the division of `f32`/`f64` -/
def tdiv (a b : Ie p e) : Option (Ie p e) := some (a / b)

end Ie

open Ie

/-! ### The incomplete gamma function -/

namespace Special
variable {p e : ℕ}

theorem lrSeriesG_nan_r (x : Ie p e) (n : ℕ) : ∀ c s, lrSeriesG tdiv x n nan c s = none := by
  induction n with
  | zero => intro c s; rfl
  | succ n ih =>
    intro c s
    simp only [lrSeriesG, tdiv, nan_add, div_nan, mul_nan, add_nan, nan_div, Option.bind_eq_bind, Option.bind_some]
    rw [if_neg (not_nan_le _), ih]

theorem lrSeriesG_nan_c (x : Ie p e) (n : ℕ) : ∀ r s, lrSeriesG tdiv x n r nan s = none := by
  induction n with
  | zero => intro r s; rfl
  | succ n ih =>
    intro r s
    simp only [lrSeriesG, tdiv, nan_mul, add_nan, nan_div, Option.bind_eq_bind, Option.bind_some]
    rw [if_neg (not_nan_le _), ih]

/-- positive infinity or NaN -/
def Top (v : Ie p e) : Prop := v = inf false ∨ v = nan

theorem Top.sub {v : Ie p e} (h : Top v) (w : Ie p e) : Top (v - w) := by
  rcases h with rfl | rfl
  · cases w with
    | nan => exact Or.inr rfl
    | inf s => cases s <;> [exact Or.inr rfl; exact Or.inl rfl]
    | fin x => exact Or.inl rfl
  · exact Or.inr (nan_sub w)

theorem Top.add {v : Ie p e} (h : Top v) (w : Ie p e) : Top (v + w) := by
  rcases h with rfl | rfl
  · cases w with
    | nan => exact Or.inr rfl
    | inf s => cases s <;> [exact Or.inl rfl; exact Or.inr rfl]
    | fin x => exact Or.inl rfl
  · exact Or.inr (nan_add w)

theorem Top.mul {v w : Ie p e} (h : Top v) (h' : Top w) : Top (v * w) := by
  rcases h with rfl | rfl <;> rcases h' with rfl | rfl
  · exact Or.inl rfl
  all_goals exact Or.inr rfl

theorem Top.mul_pos {v : Ie p e} (h : Top v) {k : ℚ} (hk : 0 < k) : Top (v * fin k) := by
  rcases h with rfl | rfl
  · left
    show (if k = 0 then (nan : Ie p e) else inf (false != decide (k < 0))) = _
    rw [if_neg hk.ne', decide_eq_false hk.not_gt]
    rfl
  · exact Or.inr rfl

theorem Top.div {v w : Ie p e} (h : Top v) (h' : Top w) : v / w = nan := by
  rcases h with rfl | rfl <;> rcases h' with rfl | rfl <;> rfl

theorem Top.ne_zero {v : Ie p e} (h : Top v) : v ≠ 0 := by
  rcases h with rfl | rfl <;> intro h <;> cases h

theorem lrFracG_top {k : ℚ} (hk : 0 < k) (hlit : (2.22044604925031308085e-16 : Ie p e) = fin k) (n : ℕ) :
    ∀ s : CFG (Ie p e), Top s.z → Top s.p2 → Top s.q2 → lrFracG tdiv n s = none := by
  induction n with
  | zero => intro s _ _ _; rfl
  | succ n ih =>
    intro s hz hp2 hq2
    have hz' : Top (s.z + 2) := hz.add 2
    have hP := (hp2.mul hz').sub (s.p3 * ((s.y + 1) * (s.c + 1)))
    have hQ := (hq2.mul hz').sub (s.q3 * ((s.y + 1) * (s.c + 1)))
    have hK : ∀ P v : Ie p e, Top v → Top (v * if max P (-P) > 4503599627370496 then 2.22044604925031308085e-16 else 1) := by
      intro P v hv
      split_ifs
      · rw [hlit]; exact hv.mul_pos hk
      · exact hv.mul_pos one_pos
    simp only [lrFracG, tdiv, Option.bind_eq_bind, Option.bind_some]
    rw [if_pos hQ.ne_zero, hP.div hQ, div_nan, max_nan_nan, if_neg (not_nan_le _)]
    exact ih _ hz' (hK _ _ hP) (hK _ _ hQ)

theorem lrFracG_nan (n : ℕ) : ∀ s : CFG (Ie p e), s.z = nan → lrFracG tdiv n s = none := by
  induction n with
  | zero => intro s _; rfl
  | succ n ih =>
    intro s hz
    simp only [lrFracG, tdiv, Option.bind_eq_bind, Option.bind_some, hz, nan_add, mul_nan, nan_sub, nan_div, div_nan,
      nan_mul, max_nan_nan]
    rw [if_pos nan_ne_zero, if_neg (not_nan_le _)]
    exact ih _ rfl

/-- **C110** (what does not hold): `gamma_lr` (and `gamma_ur`, `gamma_l`, `gamma_u`, the distribution functions built on
    it) should return NaN for NaN.  For every format the loops never end if `x` is NaN (`a ≠ 0`), and if `a` is NaN
    (`x > 0`), whatever the logarithm, the exponential and `ln_gamma` return. -/
theorem C110_gamma_nan_violated (ln exp : Ie p e → Ie p e) (lnG : Ie p e → Ie p e) (fuel : ℕ) :
    (∀ a : Ie p e, a ≠ 0 → gammaLrG tdiv ln exp (fun a => some (lnG a)) fuel a nan = none) ∧
    ∀ x : Ie p e, 0 < x → gammaLrG tdiv ln exp (fun a => some (lnG a)) fuel nan x = none := by
  constructor
  · intro a ha
    unfold gammaLrG
    rw [if_neg (not_nan_le _), if_neg ha, if_neg nan_ne_zero]
    simp only [Option.bind_eq_bind, Option.bind_some, sub_nan, nan_sub]
    rw [if_neg (not_nan_lt _), if_neg (by rintro (h | h) <;> exact not_nan_le _ h)]
    simp only [lrFracInitG, tdiv, Option.bind_eq_bind, Option.bind_some]
    have := lrFracG_nan fuel (p := p) (e := e) ⟨1 - a, nan + (1 - a) + 1, 0, 1, nan, nan + 1, (nan + (1 - a) + 1) * nan,
      (nan + 1) / ((nan + (1 - a) + 1) * nan)⟩ (by simp only [nan_add])
    rw [this]
    rfl
  · intro x hx'
    unfold gammaLrG
    by_cases hx : x ≤ 0
    · rw [if_pos hx]
    have hx0 : x ≠ 0 := by
      rintro rfl
      exact hx (show decide ((0 : ℚ) ≤ 0) = true from decide_eq_true le_rfl)
    rw [if_neg hx, if_neg nan_ne_zero, if_neg hx0]
    simp only [Option.bind_eq_bind, Option.bind_some, nan_mul, nan_sub]
    rw [if_neg (not_nan_lt _)]
    split_ifs
    · rw [lrSeriesG_nan_r]; rfl
    · simp only [lrFracInitG, tdiv, Option.bind_eq_bind, Option.bind_some]
      have := lrFracG_nan fuel (p := p) (e := e) ⟨1 - nan, x + (1 - nan) + 1, 0, 1, x, x + 1, (x + (1 - nan) + 1) * x,
        (x + 1) / ((x + (1 - nan) + 1) * x)⟩ (by simp only [sub_nan, add_nan, nan_add])
      rw [this]
      rfl

theorem inf_zero_lt {a : Ie p e} (ha : 0 < a) : a = inf false ∨ ∃ r : ℚ, 0 < r ∧ a = fin r := by
  cases a with
  | nan => exact absurd ha (not_lt_nan _)
  | inf s => cases s <;> [exact Or.inl rfl; exact absurd ha Bool.false_ne_true]
  | fin x => exact Or.inr ⟨x, of_decide_eq_true ha, rfl⟩

theorem gamma_inf {k : ℚ} (hk : 0 < k) (hlit : (2.22044604925031308085e-16 : Ie p e) = fin k) {ln exp : Ie p e → Ie p e}
    (hln : ln (inf false) = inf false) (lnG : Ie p e → Ie p e) (fuel : ℕ) {a : Ie p e} (ha : 0 < a) :
    gammaLrG tdiv ln exp (fun a => some (lnG a)) fuel a (inf false) = none := by
  have ha0 : a ≠ 0 := by
    rcases inf_zero_lt ha with rfl | ⟨r, hr, rfl⟩
    · intro h; cases h
    · intro h; injection h with h; exact hr.ne' h
  have ax : a * inf false - inf false = nan := by
    rcases inf_zero_lt ha with rfl | ⟨r, hr, rfl⟩
    · rfl
    · show (if r = 0 then (nan : Ie p e) else inf (decide (r < 0) != false)) - inf false = nan
      rw [if_neg hr.ne', decide_eq_false hr.not_gt]
      rfl
  unfold gammaLrG
  rw [if_neg (show ¬ (inf false : Ie p e) ≤ 0 from Bool.false_ne_true), if_neg ha0,
    if_neg (show ¬ (inf false : Ie p e) = 0 by intro h; cases h)]
  simp only [Option.bind_eq_bind, Option.bind_some, hln, ax, nan_sub]
  rw [if_neg (not_nan_lt _)]
  split_ifs with hc
  · have hai : a = inf false := by
      rcases inf_zero_lt ha with h | ⟨r, hr, rfl⟩
      · exact h
      · rcases hc with hc | hc <;> exact absurd hc Bool.false_ne_true
    subst hai
    cases fuel with
    | zero => rfl
    | succ n =>
      have h1 : (inf false / (inf false + 1) : Ie p e) = nan := rfl
      simp only [lrSeriesG, tdiv, Option.bind_eq_bind, Option.bind_some, h1, mul_nan, add_nan, nan_div]
      rw [if_neg (not_nan_le _)]
      have := lrSeriesG_nan_c (inf false : Ie p e) n (inf false + 1) nan
      rw [this]
      rfl
  · simp only [lrFracInitG, tdiv, Option.bind_eq_bind, Option.bind_some]
    have hx : Top (inf false : Ie p e) := Or.inl rfl
    have hz : Top (inf false + (1 - a) + 1) := (hx.add _).add _
    have := lrFracG_top hk hlit fuel ⟨1 - a, inf false + (1 - a) + 1, 0, 1, inf false, inf false + 1,
      (inf false + (1 - a) + 1) * inf false, (inf false + 1) / ((inf false + (1 - a) + 1) * inf false)⟩ hz (hx.add _) (hz.mul hx)
    rw [this]
    rfl

/-- **C110** (what does not hold): the limit of the regularised lower incomplete gamma function at infinity is 1.  In
    `f64` and in `f32` `gamma_lr(a, ∞)` never ends, for any `a > 0`: both sequences of the continued fraction are infinite
    or NaN from the start, and their quotient is NaN. -/
theorem C110_gamma_inf_violated (fuel : ℕ) :
    (∀ (ln exp lnG : IeF64 → IeF64), ln (inf false) = inf false → ∀ a, 0 < a →
      gammaLrG tdiv ln exp (fun a => some (lnG a)) fuel a (inf false) = none) ∧
    ∀ (ln exp lnG : IeF32 → IeF32), ln (inf false) = inf false → ∀ a, 0 < a →
      gammaLrG tdiv ln exp (fun a => some (lnG a)) fuel a (inf false) = none := by
  constructor
  · intro ln exp lnG hln a ha
    have h : ∃ k : ℚ, 0 < k ∧ (2.22044604925031308085e-16 : IeF64) = fin k :=
      ⟨1 / 2 ^ 52, by norm_num, by decide +kernel⟩
    obtain ⟨k, hk, hl⟩ := h
    exact gamma_inf hk hl hln lnG fuel ha
  · intro ln exp lnG hln a ha
    have h : ∃ k : ℚ, 0 < k ∧ (2.22044604925031308085e-16 : IeF32) = fin k :=
      ⟨1 / 2 ^ 52, by norm_num, by decide +kernel⟩
    obtain ⟨k, hk, hl⟩ := h
    exact gamma_inf hk hl hln lnG fuel ha

example (fuel : ℕ) : gammaLrG (K := IeF64) tdiv id id (fun a => some a) fuel 1 (inf false) = none :=
  (C110_gamma_inf_violated fuel).1 id id id rfl 1 (by decide)

/-! ### The incomplete beta function -/

theorem notBoth (a b : Ie p e) : ¬ (max (nan : Ie p e) (-nan) ≤ a ∧ max (nan : Ie p e) (-nan) ≤ b) :=
  fun h => not_nan_le _ h.1

theorem betaLoopG_nan (lo : ℤ) (pp qq xx : Ie p e) (n : ℕ) : ∀ value temp ai rx psq ns,
    betaLoopG tdiv lo pp qq xx n nan value temp ai rx psq ns = none := by
  induction n with
  | zero => intros; rfl
  | succ n ih =>
    intros
    simp only [betaLoopG, tdiv, Option.bind_eq_bind, Option.bind_some, nan_mul, nan_div, add_nan]
    rw [if_neg (notBoth _ _)]
    simp only [ih, ite_self]

/-- **C110** (what does not hold): `beta_inc_reg` should return NaN for NaN.  The checks of the arguments let NaN pass, and
    the loop never ends (or ends with an overflow of `ns` after `2^31` rounds): if one of `x`, `a` and `b` is NaN, the
    other two within the documented range, there is no result, whatever the logarithm, the exponential and the beta
    function return. -/
theorem C110_beta_nan_violated (toI : Ie p e → ℤ) (ln : Ie p e → Option (Ie p e)) (exp : Ie p e → Ie p e)
    (beta : Ie p e → Ie p e → Option (Ie p e)) (lo : ℤ) (fuel : ℕ) (x a b : Ie p e)
    (h : x = nan ∨ ((a = nan ∨ b = nan) ∧ x ≠ 0 ∧ x ≠ 1)) :
    betaIncRegG tdiv toI ln exp beta lo fuel x a b = none := by
  have key : ∀ xx cx pp qq : Ie p e, xx = nan ∨ pp = nan ∨ qq = nan → (xx = nan → cx = nan) →
      betaTailG tdiv toI ln exp beta lo fuel a b xx cx pp qq = none := by
    intro xx cx pp qq h hc
    have hl : ∀ rx psq ns, (xx = nan → rx = nan) → betaLoopG tdiv lo pp qq xx fuel 1 1 (qq - 1) 1 rx psq ns = none := by
      intro rx psq ns hrx
      cases fuel with
      | zero => rfl
      | succ n =>
        have ht : (1 * (qq - 1) * rx / (pp + 1) : Ie p e) = nan := by
          rcases h with h | h | h
          · rw [hrx h, mul_nan, nan_div]
          · rw [h, nan_add, div_nan]
          · rw [h, nan_sub, mul_nan, nan_mul, nan_div]
        have ih := fun a b c d e f => betaLoopG_nan lo pp qq xx n a b c d e f
        simp only [betaLoopG, tdiv, Option.bind_eq_bind, Option.bind_some, ht, add_nan]
        rw [if_neg (notBoth _ _)]
        simp only [ih, ite_self]
    unfold betaTailG
    simp only [tdiv, Option.bind_eq_bind, Option.bind_some]
    rw [hl]
    · rfl
    · intro hx
      rw [hx, nan_div, ite_self]
  unfold betaIncRegG
  by_cases h1 : a ≤ 0 ∨ b ≤ 0
  · rw [if_pos h1]
  by_cases h2 : 0 > x ∨ x > 1
  · rw [if_neg h1, if_pos h2]
  rw [if_neg h1, if_neg h2]
  have h3 : ¬ (x = 0 ∨ x = 1) := by
    rcases h with h | ⟨_, h, h'⟩
    · rw [h]; rintro (h | h); exacts [nan_ne_zero h, nan_ne_one h]
    · rintro (h'' | h''); exacts [h h'', h' h'']
  rw [if_neg h3]
  split_ifs with h4
  · rw [key (1 - x) x b a]
    · rfl
    · rcases h with h | ⟨h | h, _⟩
      · exact absurd (h ▸ h4) (by rw [mul_nan]; exact not_lt_nan _)
      · exact absurd (h ▸ h4) (not_nan_lt _)
      · exact Or.inr (Or.inl h)
    · intro hx
      cases x with
      | nan => rfl
      | inf s => cases s <;> cases hx
      | fin x =>
        exfalso
        change (Ie.round p e (1 + -x)) = nan at hx
        unfold Ie.round at hx
        split_ifs at hx
  · refine key x (1 - x) a b ?_ ?_
    · rcases h with h | ⟨h | h, _⟩
      · exact Or.inl h
      · exact Or.inr (Or.inl h)
      · exact Or.inr (Or.inr h)
    · intro hx; rw [hx, sub_nan]

example (fuel : ℕ) : betaIncRegG (K := IeF64) tdiv (fun _ => 0) some id (fun _ _ => some 1) (-2 ^ 31) fuel nan 1 1 = none :=
  C110_beta_nan_violated _ _ _ _ _ _ _ _ _ (Or.inl rfl)

end Special

/-! ### The adaptive solver -/

namespace Ode
variable {p e : ℕ}

theorem doStepEmb_ops {n : Nat} {f : Rhs (Ie p e)} {g : Ie p e → (Fin n → Ie p e) → (Fin n → Ie p e)} (hf : RhsRepr f g)
    (T : EmbTableau (Ie p e))
    (hT : Shape T.a T.b T.c) (hs : T.bs.length = T.b.length) (t : Ie p e) (x : Fin n → Ie p e) (h : Ie p e) :
    doStepEmb T f t (col x) h =
      some (col (opStep T.b.length (rowsOf T.a) (weightsOf T.b) (nodesOf T.c) g t x h),
        col (opStep T.b.length (rowsOf T.a) (weightsOf T.bs) (nodesOf T.c) g t x h)) := by
  unfold doStepEmb
  rw [stages_ops hf T.a T.b T.c hT.1 hT.2.1 hT.2.2]
  have := combine_ops (fun i => opStage (rowsOf T.a) (nodesOf T.c) g t x h i) T.bs
  rw [hs] at this
  simp only [Option.bind_eq_bind, Option.bind_some, col_m, combine_ops, col_mulScalar_ops, col_add_ops, this]
  rfl

/-- the error of two column vectors: only the first components enter -/
theorem calcError_ie (sqrt : Ie p e → Ie p e) (c : Control (Ie p e)) {n : ℕ} (hn : 0 < n) (y yh : Fin n → Ie p e) :
    calcError sqrt c (col y) (col yh) = some (sqrt ((0 +
      (y ⟨0, hn⟩ - yh ⟨0, hn⟩) / (c.absTol + max (y ⟨0, hn⟩) (-y ⟨0, hn⟩) * c.relTol) *
        ((y ⟨0, hn⟩ - yh ⟨0, hn⟩) / (c.absTol + max (y ⟨0, hn⟩) (-y ⟨0, hn⟩) * c.relTol))) / ((1 : ℕ) : Ie p e))) := by
  unfold calcError
  have h1 : (col y).n = 1 := rfl
  rw [h1]
  simp only
  rw [forRange_step (by norm_num), (col_is y).vget_col hn, (col_is yh).vget_col hn]
  simp only [Option.bind_eq_bind, Option.bind_some, extV_lt _ hn]
  have hb : ∀ v : Ie p e, ¬ DivStop.bad v := fun v h => h
  rw [if_neg (hb _), Option.bind_some, forRange_empty (by norm_num), Option.bind_some, if_neg (by norm_num)]

/-- if the error of the first step and that of the step to the end of the interval are NaN, every step is rejected -/
theorem adapt_hang {sqrt : Ie p e → Ie p e} {pow : Ie p e → Ie p e → Ie p e} (hpow : ∀ l, pow nan l = nan) (q : ℕ)
    (c : Control (Ie p e)) (hN : 0 < c.nMax) {step : Ie p e → Mat (Ie p e) → Ie p e → Option (Mat (Ie p e) × Mat (Ie p e))}
    {t₀ t₁ : Ie p e} (ht : t₀ < t₁) {x₀ : Mat (Ie p e)}
    (h1 : ∃ r, step t₀ x₀ (min c.h0 (t₁ - t₀)) = some r ∧ calcError sqrt c r.1 r.2 = some nan)
    (h2 : ∃ r, step t₀ x₀ (t₁ - t₀) = some r ∧ calcError sqrt c r.1 r.2 = some nan) (fuel : ℕ) :
    adaptSolve sqrt pow q c step fuel t₀ t₁ x₀ = none := by
  have hns : ∀ l h, newStep pow l c nan h = nan := by
    intro l h
    unfold newStep
    rw [if_neg nan_ne_zero, div_nan, hpow, mul_nan]
    simp only
    rw [if_neg (not_nan_lt _), if_neg (not_lt_nan _), nan_mul]
  have hit : ∀ (l h : Ie p e) (ts xs), (∃ r, step t₀ x₀ (min h (t₁ - t₀)) = some r ∧ calcError sqrt c r.1 r.2 = some nan) →
      adaptIter sqrt pow l c step t₁ ⟨0, t₀, x₀, h, ts, xs⟩ = some ⟨0, t₀, x₀, nan, ts, xs⟩ := by
    rintro l h ts xs ⟨r, e1, e2⟩
    unfold adaptIter
    simp only [e1, e2, Option.bind_eq_bind, Option.bind_some, hns]
    rw [if_neg (not_nan_le _)]
  have hnan : ∀ (l : Ie p e) (ts xs) (n : ℕ), adaptLoop sqrt pow l c step t₁ n ⟨0, t₀, x₀, nan, ts, xs⟩ = none := by
    intro l ts xs n
    induction n with
    | zero => rfl
    | succ n ih =>
      unfold adaptLoop
      rw [if_pos ⟨hN, ht⟩, hit l nan ts xs (by rw [min_nan]; exact h2)]
      exact ih
  unfold adaptSolve
  split_ifs
  · rfl
  cases fuel with
  | zero => rfl
  | succ n =>
    simp only
    unfold adaptLoop
    rw [if_pos ⟨hN, ht⟩, hit _ c.h0 _ _ h1]
    simp only [Option.bind_eq_bind, Option.bind_some, hnan, Option.bind_none]

/-- **C110** (what does not hold): the adaptive solver counts only the accepted steps in `n_max`, and it should return
    `Err` or a solution.  If the first component of the right side is NaN at the starting point (say, because of an
    overflow), the error is NaN, `err <= 1` is false, and every step is rejected: the solver never returns.  This holds for
    each format, tableau, tolerance, step size and right side. -/
theorem C110_adaptive_nan_violated {sqrt : Ie p e → Ie p e} (hs : sqrt nan = nan) {pow : Ie p e → Ie p e → Ie p e}
    (hpow : ∀ l, pow nan l = nan) (q : ℕ) (c : Control (Ie p e)) (hN : 0 < c.nMax) (T : EmbTableau (Ie p e))
    (hT : Shape T.a T.b T.c) (hbs : T.bs.length = T.b.length) {n : ℕ} (hn : 0 < n) {f : Rhs (Ie p e)}
    {g : Ie p e → (Fin n → Ie p e) → (Fin n → Ie p e)} (hf : RhsRepr f g) {t₀ t₁ : Ie p e} (ht : t₀ < t₁)
    (x₀ : Fin n → Ie p e) (hg : g t₀ x₀ ⟨0, hn⟩ = nan) (fuel : ℕ) :
    adaptSolve sqrt pow q c (doStepEmb T f) fuel t₀ t₁ (col x₀) = none := by
  have hpos : 0 < T.b.length := List.length_pos_iff.2 hT.1
  have hstep : ∀ (b : ℕ → Ie p e) h, opStep T.b.length (rowsOf T.a) b (nodesOf T.c) g t₀ x₀ h ⟨0, hn⟩ = nan := by
    intro b h
    unfold opStep
    rw [accum_nan _ (k := 0) hpos (by rw [opStage_zero, hg, nan_mul]), nan_mul, add_nan]
  have key : ∀ h, ∃ r, doStepEmb T f t₀ (col x₀) h = some r ∧ calcError sqrt c r.1 r.2 = some nan := by
    intro h
    refine ⟨_, doStepEmb_ops hf T hT hbs t₀ x₀ h, ?_⟩
    rw [calcError_ie sqrt c hn]
    simp only [hstep, nan_sub, nan_div, mul_nan, add_nan, hs]
  exact adapt_hang hpow q c hN ht (key _) (key _) fuel

/-- **C110** (what does not hold): `set_abs_tol` documents `abs_tol >= 0`.  With `abs_tol = 0` the solver never returns for
    the solution that is constantly zero: the error is `0 / 0`.  This holds for each format, step size, relative tolerance,
    and tableau (finite numbers). -/
theorem C110_adaptive_tol_violated {sqrt : Ie p e → Ie p e} (hs : sqrt nan = nan) {pow : Ie p e → Ie p e → Ie p e}
    (hpow : ∀ l, pow nan l = nan) (q : ℕ) (c : Control (Ie p e)) (hN : 0 < c.nMax) (habs : c.absTol = 0)
    (hrel : ∃ r, c.relTol = fin r) (hh : ∃ h, c.h0 = fin h) (T : EmbTableau (Ie p e))
    (hT : Shape T.a T.b T.c) (hbs : T.bs.length = T.b.length) (hfin : ∀ x ∈ T.a ++ T.b ++ T.bs, ∃ r, x = fin r) {n : ℕ}
    (hn : 0 < n) {f : Rhs (Ie p e)} {g : Ie p e → (Fin n → Ie p e) → (Fin n → Ie p e)} (hf : RhsRepr f g)
    (hg : ∀ t, g t (fun _ => 0) = fun _ => 0) {t₀ t₁ : Ie p e} (ht : t₀ < t₁) (hd : ∃ d, t₁ - t₀ = fin d) (fuel : ℕ) :
    adaptSolve sqrt pow q c (doStepEmb T f) fuel t₀ t₁ (col fun _ : Fin n => 0) = none := by
  have m0 : ∀ {v : Ie p e}, (∃ r, v = fin r) → 0 * v = 0 := by
    rintro v ⟨r, rfl⟩
    rw [zero_eq, mul_fin, zero_mul, Ie.round_zero]
  have a0 : (0 + 0 : Ie p e) = 0 := by rw [zero_eq, add_fin, add_zero, Ie.round_zero]
  have acc0 : ∀ (u : ℕ → Ie p e) k, (∀ j < k, u j = 0) → Mat.accum u k = 0 := by
    intro u k
    induction k with
    | zero => intro _; rfl
    | succ k ih =>
      intro h
      show Mat.accum u k + u k = 0
      rw [ih fun j hj => h j (by omega), h k (by omega), a0]
  have hA : ∀ (l : List (Ie p e)), (∀ x ∈ l, ∃ r, x = fin r) → ∀ i, ∃ r, l.getD i 0 = fin r := by
    intro l hl i
    by_cases hi : i < l.length
    · rw [show l.getD i 0 = l[i] by simp [List.getD_eq_getElem?_getD, hi]]; exact hl _ (List.getElem_mem hi)
    · rw [show l.getD i 0 = 0 by simp [List.getD_eq_getElem?_getD, List.getElem?_eq_none (not_lt.1 hi)]]; exact ⟨0, rfl⟩
  have hstage : ∀ h : Ie p e, (∃ r, h = fin r) → ∀ i, opStage (rowsOf T.a) (nodesOf T.c) g t₀ (fun _ => 0) h i = fun _ => 0 := by
    intro h hh i
    induction i using Nat.strong_induction_on with
    | _ i ih =>
      by_cases hi : i = 0
      · rw [hi, opStage_zero, hg]
      · rw [opStage_pos _ _ _ _ _ _ (by omega : 1 ≤ i)]
        have : (fun r => (0 : Ie p e) + Mat.accum (fun j => opStage (rowsOf T.a) (nodesOf T.c) g t₀ (fun _ => 0) h j r *
            rowsOf T.a i j) i * h) = fun _ : Fin n => (0 : Ie p e) := by
          funext r
          rw [acc0, m0 hh, a0]
          intro j hj
          rw [ih j hj]
          exact m0 (hA _ (fun x hx => hfin x (by simp [hx])) _)
        rw [this, hg]
  have hstep : ∀ (w : List (Ie p e)), (∀ x ∈ w, ∃ r, x = fin r) → ∀ h : Ie p e, (∃ r, h = fin r) →
      opStep T.b.length (rowsOf T.a) (weightsOf w) (nodesOf T.c) g t₀ (fun _ => 0) h = fun _ => 0 := by
    intro w hw h hh
    funext r
    unfold opStep
    rw [acc0, m0 hh, a0]
    intro j hj
    rw [hstage h hh j]
    exact m0 (hA _ hw _)
  have key : ∀ h : Ie p e, (∃ r, h = fin r) → ∃ r, doStepEmb T f t₀ (col fun _ : Fin n => 0) h = some r ∧
      calcError sqrt c r.1 r.2 = some nan := by
    intro h hh
    refine ⟨_, doStepEmb_ops hf T hT hbs t₀ _ h, ?_⟩
    rw [calcError_ie sqrt c hn, hstep _ (fun x hx => hfin x (by simp [hx])) h hh,
      hstep _ (fun x hx => hfin x (by simp [hx])) h hh]
    have e1 : max (0 : Ie p e) (-0) = 0 := by
      show (if (fin 0 : Ie p e) ≥ fin (-0) then (fin 0 : Ie p e) else fin (-0)) = fin 0
      rw [neg_zero, ite_self]
    have e2 : (0 - 0 : Ie p e) = 0 := by rw [zero_eq, sub_fin, sub_zero, Ie.round_zero]
    have e3 : (0 / 0 : Ie p e) = nan := by
      show (if (0 : ℚ) = 0 then (if (0 : ℚ) = 0 then (nan : Ie p e) else inf (decide ((0 : ℚ) < 0))) else Ie.round p e (0 / 0)) = nan
      rw [if_pos rfl, if_pos rfl]
    simp only [e1, habs, m0 hrel, a0, e2, e3, mul_nan, add_nan, nan_div, hs]
  refine adapt_hang hpow q c hN ht (key _ ?_) (key _ hd) fuel
  show ∃ r, (if c.h0 ≤ t₁ - t₀ then c.h0 else t₁ - t₀) = fin r
  split_ifs
  exacts [hh, hd]

/-- `x' = x` with a NaN as starting value, and `x' = x`, `x(0) = 0` with the absolute tolerance 0, with a method of two
    stages: the solver does not return -/
example (fuel : ℕ) :
    adaptSolve (K := IeF64) id (fun a _ => a) 1 ⟨10, 1, 1, 0, 2, 1, 1⟩ (doStepEmb ⟨[1], [1, 0], [0, 1], [1]⟩ fun _ x => some x)
      fuel 0 1 (col ![nan]) = none ∧
    adaptSolve (K := IeF64) id (fun a _ => a) 1 ⟨10, 1, 1, 0, 2, 0, 1⟩ (doStepEmb ⟨[1], [1, 0], [0, 1], [1]⟩ fun _ x => some x)
      fuel 0 1 (col fun _ : Fin 1 => 0) = none := by
  constructor
  · exact C110_adaptive_nan_violated (g := fun _ x => x) rfl (fun _ => rfl) 1 _ (by norm_num) _ (by simp [Shape]) rfl
      one_pos (fun _ _ => rfl) (by decide) _ rfl fuel
  · exact C110_adaptive_tol_violated (g := fun _ x => x) rfl (fun _ => rfl) 1 _ (by norm_num) rfl ⟨1, rfl⟩ ⟨1, rfl⟩ _
      (by simp [Shape]) rfl (by
        intro x hx
        simp only [List.mem_append, List.mem_cons, List.not_mem_nil, or_false] at hx
        rcases hx with ((h | h | h) | h | h) <;> exact ⟨_, h⟩) one_pos
      (fun _ _ => rfl) (fun _ => rfl) (by decide) ⟨1, by decide +kernel⟩ fuel

end Ode

/-! ### The line search of gradient descent -/

namespace Opt
variable {p e : ℕ}

/-- the step sizes of the line search -/
def halves (p e : ℕ) : ℕ → Ie p e
  | 0 => 1
  | k + 1 => halves p e k / 2

theorem round_pow (hp : 1 ≤ p) {k : ℤ} (h1 : 3 - (e : ℤ) - p ≤ k) (h2 : k < e) : Ie.round p e (2 ^ k) = fin (2 ^ k) := by
  have hpos : (0 : ℚ) < 2 ^ k := zpow_pos (by norm_num) _
  have hlog : Int.log 2 |(2 : ℚ) ^ k| = k := by
    rw [abs_of_pos hpos]
    exact Int.log_zpow (by norm_num) k
  have hr : roundBits p ((2 : ℚ) ^ k) = 2 ^ k := by
    refine roundBits_of_int (n := 2 ^ (p - 1)) ?_
    rw [ulp, hlog]
    push_cast
    rw [← zpow_natCast (2 : ℚ) (p - 1), ← zpow_add₀ (by norm_num)]
    congr 1
    omega
  have := round_fin (p := p) (e := e) (x := 2 ^ k) (Or.inr (by simpa using sub_of_ge (p := p) (e := e) h1 1)) (by
    rw [hr, abs_of_pos hpos, ← zpow_natCast (2 : ℚ) e]
    exact zpow_lt_zpow_right₀ (by norm_num) h2)
  rwa [hr] at this

theorem two_eq (hp : 1 ≤ p) (he : 2 ≤ e) : (2 : Ie p e) = fin 2 := by
  have := round_pow (p := p) (e := e) hp (k := 1) (by omega) (by omega)
  rw [zpow_one] at this
  show Ie.round p e ((2 : ℕ) : ℚ) = fin 2
  rw [← this]
  norm_num

theorem fin_half (hp : 1 ≤ p) (he : 2 ≤ e) (x : ℚ) : (fin x / 2 : Ie p e) = Ie.round p e (x / 2) := by
  rw [two_eq hp he]
  show (if (2 : ℚ) = 0 then (if x = 0 then (nan : Ie p e) else inf (decide (x < 0))) else Ie.round p e (x / 2)) = _
  rw [if_neg (by norm_num)]

theorem halves_fin (hp : 1 ≤ p) (he : 2 ≤ e) : ∀ {k : ℕ}, k + 3 ≤ e + p → halves p e k = fin (2 ^ (-k : ℤ)) := by
  intro k
  induction k with
  | zero => intro _; simp only [Nat.cast_zero, neg_zero, zpow_zero]; rfl
  | succ k ih =>
    intro h
    rw [halves, ih (by omega), fin_half hp he]
    have : (2 : ℚ) ^ (-k : ℤ) / 2 = 2 ^ (-((k + 1 : ℕ) : ℤ)) := by
      rw [div_eq_mul_inv, ← zpow_neg_one, ← zpow_add₀ (by norm_num)]
      congr 1
      push_cast
      ring
    rw [this]
    exact round_pow hp (by push_cast; omega) (by push_cast; omega)

theorem halves_zero (hp : 1 ≤ p) (he : 2 ≤ e) : halves p e (e + p - 2) = 0 := by
  obtain ⟨k, hk⟩ : ∃ k, e + p - 2 = k + 1 := ⟨e + p - 3, by omega⟩
  rw [hk, halves, halves_fin hp he (by omega), fin_half hp he]
  have hx : (2 : ℚ) ^ (-k : ℤ) / 2 = 2 ^ (2 - e - p : ℤ) := by
    rw [div_eq_mul_inv, ← zpow_neg_one, ← zpow_add₀ (by norm_num)]
    congr 1
    omega
  have hpos : (0 : ℚ) < 2 ^ (2 - e - p : ℤ) := zpow_pos (by norm_num) _
  have hs : spacing p e (2 ^ (2 - e - p : ℤ)) = 2 ^ (3 - e - p : ℤ) := by
    rw [spacing, abs_of_pos hpos, show Int.log 2 ((2 : ℚ) ^ (2 - e - p : ℤ)) = 2 - e - p from
      Int.log_zpow (R := ℚ) (by norm_num) _, max_eq_right (by omega)]
  have hn : nearestEven ((2 : ℚ) ^ (2 - e - p : ℤ) / 2 ^ (3 - e - p : ℤ)) = 0 := by
    rw [← zpow_sub₀ (by norm_num), show (2 - e - p : ℤ) - (3 - e - p) = -1 by ring]
    decide +kernel
  rw [hx, Ie.round, hs, hn, Int.cast_zero, zero_mul, abs_zero, if_neg (not_le.2 (by positivity))]
  rfl

/-- a value of the format: a finite number is not changed by rounding -/
def IsNum (v : Ie p e) : Prop := ∀ r, v = fin r → Ie.round p e r = fin r

theorem IsNum.add_zero {v : Ie p e} (h : IsNum v) : v + 0 = v := by
  cases v with
  | nan => rfl
  | inf s => rfl
  | fin r => rw [zero_eq, add_fin, _root_.add_zero, h r rfl]

theorem le_sub_zero {v : Ie p e} (h : IsNum v) (hn : v ≠ nan) : v ≤ v - 0 := by
  have : v - 0 = v := by
    rw [zero_eq]
    cases v with
    | nan => rfl
    | inf s => rfl
    | fin r => rw [sub_fin, _root_.sub_zero, h r rfl]
  rw [this]
  cases v with
  | nan => exact absurd rfl hn
  | inf s => cases s <;> rfl
  | fin r => exact decide_eq_true (le_refl r)

theorem dotp_ie {n : ℕ} (hn : 0 < n) (x y : Fin n → Ie p e) :
    (col x).dotp (col y) = some (Mat.accum (fun k => if h : k < n then x ⟨k, h⟩ * y ⟨k, h⟩ else 0) n) := by
  rw [Mat.dotp_accum (col_is x) (col_is y) hn]
  congr 1
  refine Ode.accum_congr fun j hj => ?_
  simp only [extV_lt _ hj, dif_pos hj]

theorem search_step {n : ℕ} (hn : 0 < n) {eval : Mat (Ie p e) → Option (Mat (Ie p e))} {φ : (Fin n → Ie p e) → Ie p e}
    (hφ : ∀ y, obj eval (col y) = some (φ y)) (sigma : Ie p e) (x a : Fin n → Ie p e) (fuel : ℕ) (alpha : Ie p e) :
    gradientSearch eval sigma (col x) (col a) (fuel + 1) alpha =
      if φ (fun i => x i + a i * alpha) ≤ φ x - sigma * Mat.accum (fun k => if h : k < n then a ⟨k, h⟩ * alpha * a ⟨k, h⟩ else 0) n
      then some alpha else gradientSearch eval sigma (col x) (col a) fuel (alpha / 2) := by
  rw [gradientSearch]
  simp only [Ode.col_mulScalar_ops, Ode.col_add_ops, Option.bind_eq_bind, Option.bind_some, hφ, dotp_ie hn]

/-- **C110** in floating-point arithmetic the line search of gradient descent always ends: if the objective is not NaN at
    `x` and the gradient is finite there, at most `e + p - 2` halvings make the step size zero (`f64`: 1075), and the
    condition holds for the step size zero.  Nothing is assumed about the objective elsewhere. -/
theorem C110_gradient_returns (hp : 1 ≤ p) (he : 2 ≤ e) {n : ℕ} (hn : 0 < n) {eval jac : Mat (Ie p e) → Option (Mat (Ie p e))}
    {φ : (Fin n → Ie p e) → Ie p e} {γ : (Fin n → Ie p e) → Fin n → Ie p e} (hφ : ∀ y, obj eval (col y) = some (φ y))
    (hγ : ∀ y, gradAt jac (col y) = some (col (γ y))) {sigma : Ie p e} (hσ : ∃ r, sigma = fin r) (x : Fin n → Ie p e)
    (hx : ∀ i r, x i = fin r → Ie.round p e r = fin r) (hv : ∀ r, φ x = fin r → Ie.round p e r = fin r) (hnan : φ x ≠ nan)
    (hfin : ∀ i, ∃ r, γ x i = fin r) {fuel : ℕ} (hfuel : e + p - 1 ≤ fuel) :
    ∃ alpha y, gradientStep eval jac sigma fuel (col x) = some (col y) ∧ (∀ i, y i = x i + -γ x i * alpha) ∧
      φ y ≤ φ x - sigma * Mat.accum (fun k => if h : k < n then -γ x ⟨k, h⟩ * alpha * -γ x ⟨k, h⟩ else 0) n := by
  have key : ∀ d k fuel, d + k = e + p - 2 → d + 1 ≤ fuel → ∃ alpha,
      gradientSearch eval sigma (col x) (col fun i => -γ x i) fuel (halves p e k) = some alpha ∧
      φ (fun i => x i + -γ x i * alpha) ≤ φ x - sigma * Mat.accum (fun k => if h : k < n then -γ x ⟨k, h⟩ * alpha * -γ x ⟨k, h⟩ else 0) n := by
    intro d
    induction d with
    | zero =>
      intro k fuel hk hf
      obtain ⟨fuel, rfl⟩ : ∃ f, fuel = f + 1 := ⟨fuel - 1, by omega⟩
      rw [Nat.zero_add] at hk
      rw [hk, halves_zero hp he, search_step hn hφ]
      have hm : ∀ i, -γ x i * 0 = 0 := by
        intro i
        obtain ⟨r, hr⟩ := hfin i
        rw [hr]
        show (fin (-r) * fin 0 : Ie p e) = fin 0
        rw [mul_fin, mul_zero, Ie.round_zero]
      have hm' : ∀ i, 0 * -γ x i = 0 := by
        intro i
        obtain ⟨r, hr⟩ := hfin i
        rw [hr]
        show (fin 0 * fin (-r) : Ie p e) = fin 0
        rw [mul_fin, zero_mul, Ie.round_zero]
      have hacc : ∀ k ≤ n, Mat.accum (fun k => if h : k < n then -γ x ⟨k, h⟩ * 0 * -γ x ⟨k, h⟩ else 0) k = 0 := by
        intro k
        induction k with
        | zero => intro _; rfl
        | succ k ih =>
          intro hk
          rw [Mat.accum, ih (by omega), dif_pos (by omega), hm, hm', zero_eq, add_fin, _root_.add_zero, Ie.round_zero]
      have hs : sigma * 0 = 0 := by
        obtain ⟨r, rfl⟩ := hσ
        rw [zero_eq, mul_fin, mul_zero, Ie.round_zero]
      have hxx : (fun i => x i + -γ x i * 0) = x := by
        funext i
        rw [hm, IsNum.add_zero (hx i)]
      have hc : φ (fun i => x i + -γ x i * 0) ≤ φ x - sigma * Mat.accum (fun k => if h : k < n then -γ x ⟨k, h⟩ * 0 * -γ x ⟨k, h⟩ else 0) n := by
        rw [hacc n le_rfl, hs, hxx]
        exact le_sub_zero hv hnan
      rw [if_pos hc]
      exact ⟨0, rfl, hc⟩
    | succ d ih =>
      intro k fuel hk hf
      obtain ⟨fuel, rfl⟩ : ∃ f, fuel = f + 1 := ⟨fuel - 1, by omega⟩
      rw [search_step hn hφ]
      split_ifs with hc
      · exact ⟨_, rfl, hc⟩
      · exact ih (k + 1) fuel (by omega) (by omega)
  obtain ⟨alpha, h1, h2⟩ := key (e + p - 2) 0 fuel (by omega) (by omega)
  refine ⟨alpha, fun i => x i + -γ x i * alpha, ?_, fun _ => rfl, h2⟩
  have hneg : neg (col (γ x)) = col fun i => -γ x i := (Mat.apply_is (col_is _) _).colRepr_of fun i => by simp [extV_apply]
  have h1' : gradientSearch eval sigma (col x) (col fun i => -γ x i) fuel 1 = some alpha := h1
  unfold gradientStep
  simp only [hγ, Option.bind_eq_bind, Option.bind_some, hneg, h1', Ode.col_mulScalar_ops, Ode.col_add_ops]

/-- **C110** (what does not hold): if the objective is NaN at `x`, or a component of the gradient is NaN, the line search
    of gradient descent never ends. -/
theorem C110_gradient_nan_violated {n : ℕ} (hn : 0 < n) {eval jac : Mat (Ie p e) → Option (Mat (Ie p e))}
    {φ : (Fin n → Ie p e) → Ie p e} {γ : (Fin n → Ie p e) → Fin n → Ie p e} (hφ : ∀ y, obj eval (col y) = some (φ y))
    (hγ : ∀ y, gradAt jac (col y) = some (col (γ y))) (sigma : Ie p e) (x : Fin n → Ie p e)
    (hnan : φ x = nan ∨ ∃ i, γ x i = nan) (fuel : ℕ) : gradientStep eval jac sigma fuel (col x) = none := by
  have key : ∀ fuel alpha, gradientSearch eval sigma (col x) (col fun i => -γ x i) fuel alpha = none := by
    intro fuel
    induction fuel with
    | zero => intro _; rfl
    | succ fuel ih =>
      intro alpha
      rw [search_step hn hφ, if_neg, ih]
      have : φ x - sigma * Mat.accum (fun k => if h : k < n then -γ x ⟨k, h⟩ * alpha * -γ x ⟨k, h⟩ else 0) n = nan := by
        rcases hnan with h | ⟨i, h⟩
        · rw [h, nan_sub]
        · rw [accum_nan _ i.2 (by rw [dif_pos i.2, h]; simp only [neg_nan, nan_mul]), mul_nan, sub_nan]
      rw [this]
      exact not_le_nan _
  have hneg : neg (col (γ x)) = col fun i => -γ x i := (Mat.apply_is (col_is _) _).colRepr_of fun i => by simp [extV_apply]
  unfold gradientStep
  simp only [hγ, Option.bind_eq_bind, Option.bind_some, hneg, key, Option.bind_none]

/-- the objective `f(x) = x` in `f64`: the step is made from `x = 1`, but not from NaN -/
example (fuel : ℕ) : (∃ y, gradientStep (K := IeF64) some (fun _ => some ⟨1, 1, [1]⟩) 1 1100 (col ![1]) = some y) ∧
    gradientStep (K := IeF64) some (fun _ => some ⟨1, 1, [1]⟩) 1 fuel (col ![nan]) = none := by
  have hφ : ∀ y : Fin 1 → IeF64, obj some (col y) = some (y 0) := by
    intro y
    show (col y).vget 0 = some (y 0)
    rw [(col_is y).vget_col one_pos, extV_lt _ one_pos]
    rfl
  have hγ : ∀ y : Fin 1 → IeF64, gradAt (fun _ => some ⟨1, 1, [1]⟩) (col y) = some (col fun _ : Fin 1 => 1) := fun _ =>
    show ((⟨1, 1, [1]⟩ : Mat IeF64).getRow 0).bind (fun r => r.transpose) = some (col fun _ : Fin 1 => 1) from by decide +kernel
  have r1 : ∀ (v : IeF64) r, v = 1 → v = fin r → Ie.round 53 1024 r = fin r := by
    rintro v r rfl h
    injection h with h
    rw [← h]
    decide +kernel
  constructor
  · obtain ⟨a, y, h, _⟩ := C110_gradient_returns (p := 53) (e := 1024) (by norm_num) (by norm_num) one_pos hφ
      (γ := fun _ _ => 1) hγ (sigma := 1) ⟨1, rfl⟩ ![1] (fun i r => r1 _ r (by fin_cases i; rfl)) (fun r => r1 _ r rfl)
      (by intro h; cases h) (fun _ => ⟨1, rfl⟩) (fuel := 1100) (by norm_num)
    exact ⟨_, h⟩
  · exact C110_gradient_nan_violated one_pos hφ (γ := fun _ _ => 1) hγ 1 ![nan] (Or.inl rfl) fuel

end Opt

end Verif
