import Verif.FloatConv
import Verif.AdaptConv
import Verif.FloatOptim

/-!
# Property C125: the adaptive solver with rounding

`/repo/src/analysis/differential_equation/ordinary/adaptive_stepper.rs:136-226`, the model of `AdaptiveModel.lean` on numbers with
rounding.
-/

set_option linter.unusedSectionVars false

namespace Verif

/-- a division by zero stops the model, as in an exact field -/
instance {K : Type} [Field K] [LinearOrder K] {R : Rounding K} : Ode.DivStop (Fl R) :=
  ⟨fun x => x = 0, fun x => inferInstanceAs (Decidable (x = 0))⟩

namespace Ode
open Mat

section
variable {K : Type} [Field K] [LinearOrder K] [IsStrictOrderedRing K] {R : Rounding K}

theorem lt_iff_val (x y : Fl R) : x < y ↔ x.val < y.val := Iff.rfl

theorem rnd_pos (hu : R.u < 1) {a : K} (ha : 0 < a) : 0 < R.rnd a := by
  have h := (abs_le.1 (R.err a)).1
  rw [abs_of_pos ha] at h
  have : 0 < (1 - R.u) * a := mul_pos (by linarith) ha
  linarith

theorem newStep_pos_fl (hu : R.u < 1) (pow : Fl R → Fl R → Fl R) (l : Fl R) (c : Control (Fl R)) (hc : c.facMin ≤ c.facMax)
    (h0 : 0 < c.facMin) (err : Fl R) {h : Fl R} (hh : 0 < h) : 0 < newStep pow l c err h := by
  unfold newStep
  split_ifs with he
  · exact hh
  · rw [lt_iff_val, Fl.mul_val]
    refine rnd_pos hu (mul_pos ?_ hh)
    have hm : 0 < c.facMin.val := h0
    have hM : 0 < c.facMax.val := lt_of_lt_of_le h0 hc
    split_ifs with h1 h2 h2
    · exact hM
    · exact hm
    · exact hM
    · exact lt_of_lt_of_le hm (not_lt.1 h1)

theorem hist_upd {α : Type} (X : ℕ → α) (n j : ℕ) (x : α) (hj : j ≤ n) : hist (Function.update X (n + 1) x) j = hist X j := by
  apply List.map_congr_left
  intro l hl
  rw [List.mem_range] at hl
  simp [Function.update, show l ≠ n + 1 by omega]

theorem hist_succ {α : Type} (X : ℕ → α) (n : ℕ) (x : α) : hist (Function.update X (n + 1) x) (n + 1) = hist X n ++ [x] := by
  have : hist (Function.update X (n + 1) x) (n + 1) = hist (Function.update X (n + 1) x) n ++ [x] := by
    simp [hist, List.range_succ]
  rw [this, hist_upd X n n x le_rfl]

/-- what `Ok` means: the accepted steps -/
theorem adapt_run (hu : R.u < 1) {sqrt : Fl R → Fl R} {pow : Fl R → Fl R → Fl R} {q : ℕ} {c : Control (Fl R)}
    (hc : c.facMin ≤ c.facMax) (h0 : 0 < c.facMin) (hh : 0 < c.h0)
    {step : Fl R → Mat (Fl R) → Fl R → Option (Mat (Fl R) × Mat (Fl R))} {fuel : ℕ} {tStart tStop : Fl R}
    {init : Mat (Fl R)} {ts : List (Fl R)} {xs : List (Mat (Fl R))}
    (hs : adaptSolve sqrt pow q c step fuel tStart tStop init = some (some (ts, xs))) :
    tStart ≤ tStop ∧ ∃ (N : ℕ) (τ d : ℕ → Fl R) (X : ℕ → Mat (Fl R)), N ≤ c.nMax ∧ ts = hist τ N ∧ xs = hist X N ∧ τ 0 = tStart ∧
      X 0 = init ∧ tStop ≤ τ N ∧
      ∀ k < N, τ k < tStop ∧ 0 < d k ∧ d k ≤ tStop - τ k ∧ τ (k + 1) = τ k + d k ∧
        ∃ e xh, step (τ k) (X k) (d k) = some (X (k + 1), xh) ∧ calcError sqrt c (X (k + 1)) xh = some e ∧ e ≤ 1 := by
  unfold adaptSolve at hs
  by_cases ht : tStart > tStop
  · simp [ht] at hs
  rw [if_neg ht] at hs
  have ht : tStart ≤ tStop := not_lt.mp ht
  simp only [Option.bind_eq_bind, Option.bind_eq_some_iff] at hs
  obtain ⟨r, hr, he⟩ := hs
  let Q : AState (Fl R) → Prop := fun s => s.n ≤ c.nMax ∧ 0 < s.h ∧ ∃ (τ d : ℕ → Fl R) (X : ℕ → Mat (Fl R)),
    s.ts = hist τ s.n ∧ s.xs = hist X s.n ∧ τ 0 = tStart ∧ τ s.n = s.t ∧ X 0 = init ∧ X s.n = s.x ∧
    ∀ k < s.n, τ k < tStop ∧ 0 < d k ∧ d k ≤ tStop - τ k ∧ τ (k + 1) = τ k + d k ∧
      ∃ e xh, step (τ k) (X k) (d k) = some (X (k + 1), xh) ∧ calcError sqrt c (X (k + 1)) xh = some e ∧ e ≤ 1
  have loop : ∀ fuel s, Q s → adaptLoop sqrt pow (1 / ((q : Fl R) + 1)) c step tStop fuel s = some r → Q r := by
    intro fuel
    induction fuel with
    | zero => intro s _ h; simp [adaptLoop] at h
    | succ fuel ih =>
      intro s hQ h
      simp only [adaptLoop] at h
      by_cases hcond : s.n < c.nMax ∧ s.t < tStop
      · rw [if_pos hcond] at h
        simp only [Option.bind_eq_bind, Option.bind_eq_some_iff] at h
        obtain ⟨s', hs', h⟩ := h
        refine ih s' ?_ h
        obtain ⟨q1, q3, τ, d, X, a1, a2, a3, a4, a5, a6, a7⟩ := hQ
        simp only [adaptIter, Option.bind_eq_bind, Option.bind_eq_some_iff] at hs'
        obtain ⟨p, hp, err, herr, hs'⟩ := hs'
        have hhpos : 0 < min s.h (tStop - s.t) := by
          refine lt_min q3 ?_
          rw [lt_iff_val, Fl.sub_val]
          exact rnd_pos hu (sub_pos.2 hcond.2)
        have hnew := newStep_pos_fl hu pow (1 / ((q : Fl R) + 1)) c hc h0 err hhpos
        by_cases hacc : err ≤ 1
        · rw [if_pos hacc] at hs'
          have hs' := Option.some.inj hs'
          subst hs'
          refine ⟨by simpa using hcond.1, hnew, Function.update τ (s.n + 1) (s.t + min s.h (tStop - s.t)),
            Function.update d s.n (min s.h (tStop - s.t)), Function.update X (s.n + 1) p.1, ?_, ?_, ?_, ?_, ?_, ?_, ?_⟩
          · simp only [hist_succ, a1]
          · simp only [hist_succ, a2]
          · simp [Function.update, a3]
          · simp
          · simp [Function.update, a5]
          · simp
          · intro k hk
            simp only at hk
            rcases Nat.lt_or_ge k s.n with hlt | hge
            · have := a7 k hlt
              simpa [Function.update, show k ≠ s.n + 1 by omega, show k ≠ s.n by omega] using this
            · have hk : k = s.n := by omega
              subst hk
              have e1 : Function.update τ (s.n + 1) (s.t + min s.h (tStop - s.t)) s.n = s.t := by
                rw [Function.update_of_ne (by omega), a4]
              have e2 : Function.update X (s.n + 1) p.1 s.n = s.x := by
                rw [Function.update_of_ne (by omega), a6]
              rw [e1, e2, Function.update_self, Function.update_self, Function.update_self]
              exact ⟨hcond.2, hhpos, min_le_right _ _, rfl, err, p.2, hp, herr, hacc⟩
        · rw [if_neg hacc] at hs'
          have hs' := Option.some.inj hs'
          subst hs'
          exact ⟨q1, hnew, τ, d, X, a1, a2, a3, a4, a5, a6, a7⟩
      · rw [if_neg hcond] at h
        rw [← Option.some.inj h]
        exact hQ
  have hQ := loop fuel _ ⟨Nat.zero_le _, hh, fun _ => tStart, fun _ => 0, fun _ => init, by simp [hist], by simp [hist], rfl, rfl, rfl,
    rfl, by simp⟩ hr
  obtain ⟨q1, -, τ, d, X, a1, a2, a3, a4, a5, a6, a7⟩ := hQ
  by_cases hlt : r.t < tStop
  · rw [if_pos hlt] at he
    simp at he
  · rw [if_neg hlt] at he
    simp only [Option.some.injEq, Prod.mk.injEq] at he
    exact ⟨ht, r.n, τ, d, X, q1, he.1 ▸ a1, he.2 ▸ a2, a3, a5, by rw [a4]; exact not_lt.1 hlt, a7⟩

/-- one addition of a step to the time -/
theorem adapt_time (hu : R.u ≤ 1 / 8) {s t₁ δ S : K} (hs : |s| ≤ S) (ht : |t₁| ≤ S) (hst : s < t₁) (hD : t₁ - s ≤ S) (h0 : 0 < δ)
    (h1 : δ ≤ R.rnd (t₁ - s)) : δ ≤ (1 + R.u) * (t₁ - s) ∧ |R.rnd (s + δ) - (s + δ)| ≤ 2 * R.u * S ∧
      R.rnd (s + δ) ≤ t₁ + 3 * R.u * S := by
  have u0 := R.u_nonneg
  have S0 : 0 ≤ S := (abs_nonneg _).trans hs
  have e1 := (abs_le.1 (R.err (t₁ - s))).2
  rw [abs_of_pos (sub_pos.2 hst)] at e1
  have e2 : R.u * (t₁ - s) ≤ R.u * S := mul_le_mul_of_nonneg_left hD u0
  have e3 : R.u * S ≤ 1 / 8 * S := mul_le_mul_of_nonneg_right hu S0
  have e4 : s + δ ≤ t₁ + R.u * S := by linarith
  have e5 : |s + δ| ≤ 2 * S := by
    rw [abs_le]
    have := (abs_le.1 hs).1
    have := (abs_le.1 ht).2
    constructor <;> linarith
  have e6 : |R.rnd (s + δ) - (s + δ)| ≤ 2 * R.u * S := by
    refine (R.err _).trans ?_
    have := mul_le_mul_of_nonneg_left e5 u0
    linarith
  refine ⟨by linarith, e6, ?_⟩
  have := (abs_le.1 e6).2
  linarith

/-- **C125, times.** With a monotone rounding, a result `Ok` consists of at most `n_max` accepted steps: the first time is `t_start`, every
next one is the rounded sum of the time and a positive step, the times never decrease, all but the last are before `t_stop`, the last
one is at least `t_stop` and exceeds it by at most `3 u (|t_start| + |t_stop|)`; the computed error of each step is at most 1. -/
theorem C125_times (hu : R.u ≤ 1 / 8) (hmono : Monotone R.rnd) {sqrt : Fl R → Fl R} {pow : Fl R → Fl R → Fl R} {q : ℕ}
    {c : Control (Fl R)} (hc : c.facMin ≤ c.facMax) (h0 : 0 < c.facMin) (hh : 0 < c.h0)
    {step : Fl R → Mat (Fl R) → Fl R → Option (Mat (Fl R) × Mat (Fl R))} {fuel : ℕ} {tStart tStop : Fl R}
    (hst : R.rnd tStart.val = tStart.val)
    {init : Mat (Fl R)} {ts : List (Fl R)} {xs : List (Mat (Fl R))}
    (hs : adaptSolve sqrt pow q c step fuel tStart tStop init = some (some (ts, xs))) :
    ∃ (N : ℕ) (τ d : ℕ → Fl R) (X : ℕ → Mat (Fl R)), N ≤ c.nMax ∧ ts = (List.range (N + 1)).map τ ∧
      xs = (List.range (N + 1)).map X ∧ τ 0 = tStart ∧ X 0 = init ∧ tStop.val ≤ (τ N).val ∧
      (τ N).val ≤ tStop.val + 3 * R.u * (|tStart.val| + |tStop.val|) ∧ (∀ k ≤ N, tStart.val ≤ (τ k).val) ∧
      ∀ k < N, (τ k).val < tStop.val ∧ (τ k).val ≤ (τ (k + 1)).val ∧ 0 < (d k).val ∧
        (d k).val ≤ (1 + R.u) * (tStop.val - (τ k).val) ∧ τ (k + 1) = τ k + d k ∧
        |(τ (k + 1)).val - ((τ k).val + (d k).val)| ≤ 2 * R.u * (|tStart.val| + |tStop.val|) ∧
        ∃ e xh, step (τ k) (X k) (d k) = some (X (k + 1), xh) ∧ calcError sqrt c (X (k + 1)) xh = some e ∧ e.val ≤ 1 := by
  have u0 := R.u_nonneg
  obtain ⟨ht, N, τ, d, X, b1, b2, b3, b4, b5, b6, b7⟩ := adapt_run (by linarith) hc h0 hh hs
  have hrep : ∀ k ≤ N, R.rnd (τ k).val = (τ k).val := by
    intro k hk
    cases k with
    | zero => rw [b4]; exact hst
    | succ k =>
      obtain ⟨-, -, -, e, -⟩ := b7 k (by omega)
      rw [e, Fl.add_val, R.idem]
  have hinc : ∀ k < N, (τ k).val ≤ (τ (k + 1)).val := by
    intro k hk
    obtain ⟨-, d0, -, e, -⟩ := b7 k hk
    rw [e, Fl.add_val]
    rw [← hrep k hk.le] 
    have d0 : 0 < (d k).val := d0
    have := hmono (by linarith : (τ k).val ≤ (τ k).val + (d k).val)
    rwa [hrep k hk.le] at this ⊢
  have hlow : ∀ k ≤ N, tStart.val ≤ (τ k).val := by
    intro k
    induction k with
    | zero => intro _; rw [b4]
    | succ k ih => intro hk; exact (ih (by omega)).trans (hinc k (by omega))
  set S := |tStart.val| + |tStop.val| with hS
  have S1 : |tStop.val| ≤ S := by rw [hS]; linarith [abs_nonneg tStart.val]
  have step : ∀ k < N, (d k).val ≤ (1 + R.u) * (tStop.val - (τ k).val) ∧
      |(τ (k + 1)).val - ((τ k).val + (d k).val)| ≤ 2 * R.u * S ∧ (τ (k + 1)).val ≤ tStop.val + 3 * R.u * S := by
    intro k hk
    obtain ⟨i1, i2, i3, i4, -⟩ := b7 k hk
    rw [i4, Fl.add_val]
    have l := hlow k hk.le
    have i1 : (τ k).val < tStop.val := i1
    refine adapt_time hu ?_ S1 i1 ?_ i2 i3
    · rw [abs_le, hS]
      constructor
      · linarith [neg_abs_le tStart.val, abs_nonneg tStop.val]
      · linarith [le_abs_self tStop.val, abs_nonneg tStart.val]
    · rw [hS]; linarith [neg_abs_le tStart.val, le_abs_self tStop.val]
  refine ⟨N, τ, d, X, b1, b2, b3, b4, b5, b6, ?_, hlow, ?_⟩
  · cases N with
    | zero =>
      have ht : tStart.val ≤ tStop.val := ht
      have : 0 ≤ 3 * R.u * S := by positivity
      rw [b4]; linarith
    | succ N => exact (step N (by omega)).2.2
  · intro k hk
    obtain ⟨i1, i2, i3, i4, i5⟩ := b7 k hk
    exact ⟨i1, hinc k hk, i2, (step k hk).1, i4, (step k hk).2.1, i5⟩

end

/-- from 0 to 1 in double precision: the last time is in `[1, 1 + 3 · 2⁻⁵³]`, whatever the step size control does -/
example {sqrt : Fl f64 → Fl f64} {pow : Fl f64 → Fl f64 → Fl f64} {c : Control (Fl f64)} (hc : c.facMin ≤ c.facMax) (h0 : 0 < c.facMin)
    (hh : 0 < c.h0) {fuel : ℕ} {f : Rhs (Fl f64)} {init : Mat (Fl f64)} {T : EmbTableau (Fl f64)} {ts : List (Fl f64)}
    {xs : List (Mat (Fl f64))} (hs : adaptSolve sqrt pow 5 c (doStepEmb T f) fuel 0 1 init = some (some (ts, xs))) :
    ∃ t, ts.getLast? = some t ∧ 1 ≤ t.val ∧ t.val ≤ 1 + 3 / 2 ^ 53 := by
  have hu : f64.u = 1 / 2 ^ 53 := (one_div _).symm
  have hm : Monotone f64.rnd := binary_monotone 53 _
  obtain ⟨N, τ, d, X, -, rfl, -, -, -, h1, h2, -⟩ := C125_times (R := f64) (by rw [hu]; norm_num) hm hc h0 hh
    (show f64.rnd 0 = 0 from f64.rnd_zero) hs
  refine ⟨τ N, by rw [List.range_succ]; simp, h1, h2.trans ?_⟩
  rw [hu, Fl.one_val]
  norm_num

/-- **C125, the last time** differs from `t_stop`: in double precision, the solver started at `-1` to run to `1 + 3 · 2⁻⁵²` with a constant
solution returns `Ok` with the last time `1 + 4 · 2⁻⁵²`, beyond `t_stop` (with exact arithmetic it is `t_stop`, C43). -/
theorem C125_last_time_violated :
    adaptSolve (K := Fl f64) (fun x => x) (fun x _ => x) 1 ⟨10, ⟨4⟩, ⟨1 / 2⟩, ⟨1 / 4⟩, ⟨2⟩, ⟨1⟩, ⟨0⟩⟩
      (doStepEmb ((fehlberg12 : EmbTableau ℚ).map fun w => (⟨w⟩ : Fl f64)) fun _ _ => some (col ![0])) 10 ⟨-1⟩ ⟨1 + 3 / 2 ^ 52⟩ (col ![1]) =
      some (some ([⟨-1⟩, ⟨1 + 4 / 2 ^ 52⟩], [col ![1], col ![1]])) := by
  decide +kernel

theorem doStepEmb_opsR {K : Type} [Zero K] [One K] [Add K] [Sub K] [Mul K] [Div K] {n : Nat} {f : Rhs K}
    {g : K → (Fin n → K) → (Fin n → K)} (hf : RhsRepr f g) (T : EmbTableau K)
    (hT : Shape T.a T.b T.c) (hs : T.bs.length = T.b.length) (t : K) (x : Fin n → K) (h : K) :
    doStepEmb T f t (col x) h =
      some (col (opStep T.b.length (rowsOf T.a) (weightsOf T.b) (nodesOf T.c) g t x h),
        col (opStep T.b.length (rowsOf T.a) (weightsOf T.bs) (nodesOf T.c) g t x h)) := by
  unfold doStepEmb
  rw [stages_ops hf T.a T.b T.c hT.1 hT.2.1 hT.2.2]
  have h2 := combine_ops (fun i => opStage (rowsOf T.a) (nodesOf T.c) g t x h i) T.bs
  rw [hs] at h2
  simp only [Option.bind_eq_bind, Option.bind_some, col_m, combine_ops, col_mulScalar_ops, col_add_ops, h2]
  rfl

/-- the coefficients of an embedded tableau are stored with a relative error of at most `2 u` -/
def EmbClose {R : Rounding ℝ} (T : EmbTableau (Fl R)) (T' : EmbTableau ℝ) : Prop :=
  List.Forall₂ (fun v w => |v.val - w| ≤ 2 * R.u * |w|) T.a T'.a ∧
  List.Forall₂ (fun v w => |v.val - w| ≤ 2 * R.u * |w|) T.b T'.b ∧
  List.Forall₂ (fun v w => |v.val - w| ≤ 2 * R.u * |w|) T.bs T'.bs ∧
  List.Forall₂ (fun v w => |v.val - w| ≤ 2 * R.u * |w|) T.c T'.c

open Finset Asymptotics Filter Topology RK

set_option maxHeartbeats 4000000 in
theorem adapt_error_fl {T' : EmbTableau ℝ} (hT : Shape T'.a T'.b T'.c) (hbs : T'.bs.length = T'.b.length) {p : ℕ} (hp : 0 < p)
    (hO : OrderConditions T'.b.length (rowsOf T'.a) (weightsOf T'.b) p) (hR : RowSums T'.b.length (rowsOf T'.a) (nodesOf T'.c))
    {n : ℕ} {g : ℝ → (Fin n → ℝ) → (Fin n → ℝ)}
    {y : ℝ → (Fin n → ℝ)} {a b t₀ t₁ : ℝ} (ha : a < t₀) (ht : t₀ ≤ t₁) (hb : t₁ < b)
    (hg : ∀ t ∈ Set.Icc a b, ContDiffAt ℝ p (fun z : ℝ × (Fin n → ℝ) => g z.1 z.2) (t, y t))
    (hy : ∀ t ∈ Set.Icc a b, ∀ᶠ u in 𝓝 t, HasDerivAt y (g u (y u)) u) {r₁ : ℝ} (hr₁ : 0 < r₁) {S : ℝ} (hS : 0 ≤ S) :
    ∃ h₀ > 0, ∃ η > 0, ∃ C, ∀ (R : Rounding ℝ) (h : ℝ) (t₀f t₁f : Fl R) (ε : ℝ) (T : EmbTableau (Fl R)) (f : Rhs (Fl R))
      (gf : Fl R → (Fin n → Fl R) → (Fin n → Fl R)) (x₀ : Fin n → Fl R) (sqrt : Fl R → Fl R) (pow : Fl R → Fl R → Fl R) (q : ℕ)
      (c : Control (Fl R)) (fuel : ℕ) (ts : List (Fl R)) (xs : List (Mat (Fl R))),
      Monotone R.rnd → R.rnd t₀ = t₀ → t₀f.val = t₀ → t₁f.val = t₁ → 0 < h → h ≤ h₀ → R.u ≤ η * h → 0 ≤ ε → ε ≤ η →
      EmbClose T T' → RhsRepr f gf → RhsClose gf g y a b r₁ ε → ‖flv x₀ - y t₀‖ ≤ ε →
      c.facMin ≤ c.facMax → 0 < c.facMin → 0 < c.h0 →
      adaptSolve sqrt pow q c (doStepEmb T f) fuel t₀f t₁f (col x₀) = some (some (ts, xs)) → ts.length * h ≤ S →
      (∀ (k : ℕ) t t', ts[k]? = some t → ts[k + 1]? = some t' → t'.val - t.val ≤ h) →
      ∀ (k : ℕ) t X, ts[k]? = some t → xs[k]? = some X →
        ∃ x : Fin n → Fl R, X = col x ∧ ‖flv x - y t.val‖ ≤ C * (h ^ p + R.u / h + ε) := by
  set s := T'.b.length with hs
  set A := rowsOf T'.a with hA
  set b' := weightsOf T'.b with hb'
  set c := nodesOf T'.c with hc
  have hycont : ∀ t ∈ Set.Icc a b, ContinuousAt y t := fun t ht => (hy t ht).self_of_nhds.continuousAt
  obtain ⟨r₂, hr₂, G, hG, Λ, hΛ, htube'⟩ := rhs_tube hp hg hycont
  set r := min r₁ r₂ with hr
  have r0 : 0 < r := lt_min hr₁ hr₂
  have rr₁ : r ≤ r₁ := min_le_left _ _
  have rr₂ : r ≤ r₂ := min_le_right _ _
  have htube : ∀ t ∈ Set.Icc a b, (∀ s x, |s - t| ≤ r → ‖x - y t‖ ≤ r → ‖g s x‖ ≤ G) ∧
      ∀ s x s' x', |s - t| ≤ r → ‖x - y t‖ ≤ r → |s' - t| ≤ r → ‖x' - y t‖ ≤ r →
        ‖g s x - g s' x'‖ ≤ Λ * max |s - s'| ‖x - x'‖ := fun t ht =>
    ⟨fun s x h1 h2 => (htube' t ht).1 s x (h1.trans rr₂) (h2.trans rr₂), fun s x s' x' h1 h2 h3 h4 =>
      (htube' t ht).2 s x s' x' (h1.trans rr₂) (h2.trans rr₂) (h3.trans rr₂) (h4.trans rr₂)⟩
  obtain ⟨Xb, hXb⟩ := (isCompact_Icc (a := a) (b := b)).exists_bound_of_continuousOn (f := y)
    (fun t ht => (hycont t ht).continuousWithinAt)
  have Xb0 : 0 ≤ Xb := (norm_nonneg _).trans (hXb t₀ ⟨ha.le, ht.trans hb.le⟩)
  set W := ∑ i ∈ range s, ∑ j ∈ range i, |A i j| + ∑ i ∈ range s, |b' i| + ∑ i ∈ range s, |c i| with hW
  have w1 : 0 ≤ ∑ i ∈ range s, ∑ j ∈ range i, |A i j| := sum_nonneg fun _ _ => sum_nonneg fun _ _ => abs_nonneg _
  have w2 : 0 ≤ ∑ i ∈ range s, |b' i| := sum_nonneg fun _ _ => abs_nonneg _
  have w3 : 0 ≤ ∑ i ∈ range s, |c i| := sum_nonneg fun _ _ => abs_nonneg _
  have W0 : 0 ≤ W := by rw [hW]; positivity
  have WA : ∀ i < s, ∑ j ∈ range i, |A i j| ≤ W := by
    intro i hi
    have := single_le_sum (f := fun i => ∑ j ∈ range i, |A i j|) (fun i _ => sum_nonneg fun _ _ => abs_nonneg _)
      (mem_range.2 hi)
    rw [hW]; linarith
  have Wc : ∀ i < s, |c i| ≤ W := by
    intro i hi
    have := single_le_sum (f := fun i => |c i|) (fun i _ => abs_nonneg _) (mem_range.2 hi)
    rw [hW]; linarith
  have Wb : ∑ i ∈ range s, |b' i| ≤ W := by rw [hW]; linarith
  set X := Xb + r + |a| + |b| with hX
  have X0 : 0 ≤ X := by positivity
  set B := lcConst s X (G + 1) W + (X + 11 * W) with hB
  have B1 : 0 ≤ lcConst s X (G + 1) W := by unfold lcConst; positivity
  have B2 : 0 ≤ X + 11 * W := by positivity
  have B0 : 0 ≤ B := by positivity
  set Sg := |t₀| + |t₁| with hSg
  have Sg0 : 0 ≤ Sg := by positivity
  obtain ⟨h₁, hh₁, ρ₀, hρ₀, C₁, hC₁, H⟩ := global_error_pert (E := Fin n → ℝ) (y := y) hp
    (K := fun t x h => ∑ i ∈ range s, b' i • rkStage A c g t x h i)
    (fun t ht => increment_contDiffAt _ _ _ _ (hg t ht))
    (fun t ht => solution_contDiffAt (hg t ht) (hy t ht) p le_rfl)
    (fun t ht => by
      have hcont : ContinuousAt (fun u => (u, y u)) t := continuousAt_id.prodMk (hy t ht).self_of_nhds.continuousAt
      have h1 := hcont.eventually ((hg t ht).eventually (by simp))
      filter_upwards [h1, (hy t ht).eventually_nhds] with u hu1 hu2
      exact rkStep_order hp hO hR g u y hu1 hu2)
    (S := 2 * S) (by positivity) (δ₁ := r / 3) (by positivity)
  have k0 := kap_nonneg hΛ B0 W0 s
  set C₂ := (B + W * kap Λ B W s) + 4 * Sg with hC₂
  have C₂0 : 0 ≤ C₂ := by positivity
  obtain ⟨η, hη, hηl⟩ := exists_small
    [(8, 1), (3 * Sg, b - t₁), (2 * Sg, 1), (2 * C₂, ρ₀), (1, ρ₀), (B, r / 3)] (by
      have : 0 < b - t₁ := by linarith
      have : 0 < r / 3 := by linarith
      simp only [List.mem_cons, List.not_mem_nil, or_false, forall_eq_or_imp, forall_eq]
      refine ⟨⟨by norm_num, by norm_num⟩, ⟨by positivity, ‹_›⟩, ⟨by positivity, by norm_num⟩, ⟨by positivity, ‹_›⟩, ⟨by norm_num, ‹_›⟩,
        ⟨B0, ‹_›⟩⟩)
  simp only [List.mem_cons, List.not_mem_nil, or_false, forall_eq_or_imp, forall_eq] at hηl
  obtain ⟨η1, η2, η3, η4, η5, η6⟩ := hηl
  refine ⟨min h₁ (min 1 (r / 3 / (W * (G + 1) + 1))) / 2, by positivity, η, hη, C₁ * (2 ^ p + 1 + C₂), ?_⟩
  intro R h t₀f t₁f ε T f gf x₀ sqrt pow q co fuel ts xs hmono hrep e0 e1 hpos hle hu hε hεη hclose hf hgf hx₀ f1 f2 f3 hsol hlen hsteps
  have u0 := R.u_nonneg
  set H2 := 2 * h with hH2
  have H20 : 0 < H2 := by positivity
  have hle : H2 ≤ min h₁ (min 1 (r / 3 / (W * (G + 1) + 1))) := by linarith
  have hh1 : H2 ≤ h₁ := hle.trans (min_le_left _ _)
  have hh2 : H2 ≤ 1 := hle.trans ((min_le_right _ _).trans (min_le_left _ _))
  have hh3 : H2 * (W * (G + 1)) ≤ r / 3 := by
    have h1 : H2 ≤ r / 3 / (W * (G + 1) + 1) := hle.trans ((min_le_right _ _).trans (min_le_right _ _))
    rw [le_div_iff₀ (by positivity)] at h1
    linarith
  have uη : R.u ≤ η := hu.trans (mul_le_of_le_one_right hη.le (by linarith))
  have hu8 : R.u ≤ 1 / 8 := by linarith
  have hu1 : R.u ≤ 1 := by linarith
  have hε1 : ε ≤ 1 := by linarith
  -- the shape and the coefficients
  have la := hclose.1.length_eq
  have lb := hclose.2.1.length_eq
  have lbs := hclose.2.2.1.length_eq
  have lc := hclose.2.2.2.length_eq
  have hshape : Shape T.a T.b T.c := by
    obtain ⟨s1, s2, s3⟩ := hT
    refine ⟨?_, by rw [la, lb]; exact s2, by rw [lc, lb]; exact s3⟩
    intro h0
    rw [h0] at lb
    exact s1 (List.length_eq_zero_iff.1 lb.symm)
  have hAf : ∀ i j, |(rowsOf T.a i j).val - A i j| ≤ 2 * R.u * |A i j| := fun i j => forall₂_getD hclose.1 _
  have hbf : ∀ i, |(weightsOf T.b i).val - b' i| ≤ 2 * R.u * |b' i| := fun i => forall₂_getD hclose.2.1 _
  have hcf : ∀ i, |(nodesOf T.c i).val - c i| ≤ 2 * R.u * |c i| := by
    intro i
    cases i with
    | zero => simp [hc, nodesOf, Fl.zero_val]
    | succ i => exact forall₂_getD hclose.2.2.2 i
  have hgf' : RhsClose gf g y a b r ε := fun s hs t x h1 h2 => hgf s hs t x (h1.trans rr₁) (h2.trans rr₁)
  -- the accepted steps
  obtain ⟨N, τ, d, Y, -, rfl, rfl, b4, b5, -, b6, b7, b8⟩ := C125_times hu8 hmono f1 f2 f3 (by rw [e0]; exact hrep) hsol
  rw [e0, e1, ← hSg] at b6
  rw [e1] at b8
  rw [e0] at b7 b8
  rw [← hSg] at b8
  set F := opStep s (rowsOf T.a) (weightsOf T.b) (nodesOf T.c) gf with hF
  have hstep : ∀ t (x : Fin n → Fl R) h, ∃ x' : Fin n → Fl R, doStepEmb T f t (col x) h = some (col (F t x h), col x') := by
    intro t x h
    rw [doStepEmb_opsR hf T hshape (by rw [lbs, lb, hbs]), hF, hs, lb]
    exact ⟨_, rfl⟩
  have hcol : ∀ k ≤ N, ∃ x : Fin n → Fl R, Y k = col x := by
    intro k
    induction k with
    | zero => intro _; exact ⟨_, b5⟩
    | succ k ih =>
      intro hk
      obtain ⟨x, hx⟩ := ih (by omega)
      obtain ⟨-, -, -, -, -, -, e, xh, h1, -⟩ := b8 k (by omega)
      obtain ⟨x', hx'⟩ := hstep (τ k) x (d k)
      rw [hx, hx'] at h1
      exact ⟨_, (congrArg Prod.fst (Option.some.inj h1)).symm⟩
  choose! x hx using hcol
  have hx0 : x 0 = x₀ := col_injective (by rw [← hx 0 (Nat.zero_le _), b5])
  have hxs : ∀ k < N, x (k + 1) = F (τ k) (x k) (d k) := by
    intro k hk
    obtain ⟨-, -, -, -, -, -, e, xh, h1, -⟩ := b8 k hk
    obtain ⟨x', hx'⟩ := hstep (τ k) (x k) (d k)
    rw [hx k hk.le, hx'] at h1
    have h2 := congrArg Prod.fst (Option.some.inj h1)
    simp only at h2
    rw [hx (k + 1) hk] at h2
    exact (col_injective h2).symm
  rw [List.length_map, List.length_range] at hlen
  have n4 : N * H2 ≤ 2 * S := by
    push_cast at hlen
    rw [hH2]
    linarith
  have uSg : R.u * Sg ≤ η * h * Sg := mul_le_mul_of_nonneg_right hu Sg0
  have uSg' : R.u * Sg ≤ η * Sg := mul_le_mul_of_nonneg_right uη Sg0
  have hin : ∀ k ≤ N, (τ k).val ∈ Set.Icc a b := by
    intro k hk
    refine ⟨ha.le.trans (b7 k hk), ?_⟩
    rcases Nat.lt_or_ge k N with hlt | hge
    · exact (b8 k hlt).1.le.trans hb.le
    · have : k = N := by omega
      subst this
      linarith
  have hds : ∀ k < N, |(d k).val| ≤ H2 := by
    intro k hk
    obtain ⟨-, -, d0, -, -, d2, -⟩ := b8 k hk
    rw [abs_of_pos d0]
    have h1 := hsteps k (τ k) (τ (k + 1)) (by simp [show k < N + 1 by omega]) (by simp [show k + 1 < N + 1 by omega])
    have h2 := (abs_le.1 d2).1
    have h3 := mul_le_mul_of_nonneg_right η3 hpos.le
    rw [hH2]
    linarith
  set ρ := C₂ * (R.u + H2 * ε) with hρ
  have ρ0 : 0 ≤ ρ := by positivity
  have hloc : ∀ k < N, ‖flv (x k) - y (τ k).val‖ ≤ r / 3 →
      ‖flv (x (k + 1)) - (flv (x k) + (d k).val • ∑ i ∈ range s, b' i • rkStage A c g (τ k).val (flv (x k)) (d k).val i)‖ ≤ ρ := by
    intro k hk hxk
    have hin' := hin k hk.le
    have d1 := hds k hk
    have tX : |(τ k).val| ≤ X := by
      have : |(τ k).val| ≤ |a| + |b| := by
        rw [abs_le]
        exact ⟨by linarith [hin'.1, neg_abs_le a, abs_nonneg b], by linarith [hin'.2, le_abs_self b, abs_nonneg a]⟩
      rw [hX]; linarith
    have xX : ‖flv (x k)‖ ≤ X := by
      have h1 := hXb _ hin'
      have h2 := norm_sub_norm_le (flv (x k)) (y (τ k).val)
      rw [hX]; linarith [abs_nonneg a, abs_nonneg b]
    have st := step_fl hG hΛ W0 hε hε1 r0 htube hu1 hAf hcf hbf (by simp [hc, nodesOf]) WA Wc Wb hgf'
      (by rw [hB]; linarith : lcConst s X (G + 1) W ≤ B) (by rw [hB]; linarith : X + 11 * W ≤ B)
      (by have := mul_le_mul_of_nonneg_left uη B0; linarith : B * R.u ≤ r / 3)
      (t := τ k) (d := d k) (x := x k) hin' tX xX hxk
      (d1.trans hh2) ((mul_le_mul_of_nonneg_right d1 (by positivity)).trans hh3)
    rw [hxs k hk, hF]
    refine st.trans ?_
    rw [hρ]
    have q1 : |(d k).val| * ε ≤ H2 * ε := mul_le_mul_of_nonneg_right d1 hε
    have q2 : 0 ≤ B + W * kap Λ B W s := by positivity
    refine mul_le_mul ?_ (by linarith) (by positivity) C₂0
    rw [hC₂]; linarith
  have hρh : ρ ≤ ρ₀ * H2 := by
    have h1 : R.u + H2 * ε ≤ 2 * (η * H2) := by
      have := mul_le_mul_of_nonneg_left hεη H20.le
      have : η * h ≤ η * H2 := mul_le_mul_of_nonneg_left (by linarith) hη.le
      linarith
    calc ρ ≤ C₂ * (2 * (η * H2)) := mul_le_mul_of_nonneg_left h1 C₂0
      _ = η * (2 * C₂) * H2 := by ring
      _ ≤ ρ₀ * H2 := mul_le_mul_of_nonneg_right η4 H20.le
  have main := H H2 H20 hh1 ρ ρ0 hρh ε hε (by linarith) N (fun k => (τ k).val) (fun k => (d k).val) (fun k => flv (x k)) n4
    (by
      rw [b4, e0, hx0]; exact hx₀) hin
    (fun k hk => ⟨hds k hk, ((b8 k hk).2.2.2.2.2.1).trans (by
      rw [hρ]
      have : 2 * R.u * Sg ≤ C₂ * R.u := by
        have : 2 * Sg ≤ C₂ := by
          rw [hC₂]
          have : 0 ≤ B + W * kap Λ B W s := by positivity
          linarith
        have := mul_le_mul_of_nonneg_right this u0
        linarith
      have : 0 ≤ C₂ * (H2 * ε) := by positivity
      linarith)⟩) hloc
  intro k t Xk hkt hkX
  rw [List.getElem?_map, Option.map_eq_some_iff] at hkt hkX
  obtain ⟨i, hi, rfl⟩ := hkt
  obtain ⟨i', hi', rfl⟩ := hkX
  rw [List.getElem?_eq_some_iff] at hi hi'
  obtain ⟨hi1, rfl⟩ := hi
  obtain ⟨_, rfl⟩ := hi'
  rw [List.length_range] at hi1
  simp only [List.getElem_range]
  refine ⟨x k, hx k (by omega), ((main k (by omega)).2).trans ?_⟩
  rw [mul_assoc]
  refine mul_le_mul_of_nonneg_left ?_ hC₁
  have h1 : ρ / H2 = C₂ * (R.u / h) / 2 + C₂ * ε := by rw [hρ, hH2]; field_simp
  rw [h1, hH2, mul_pow]
  have p1 : (0 : ℝ) ≤ 2 ^ p := by positivity
  have p2 : 0 ≤ h ^ p := by positivity
  have p3 : 0 ≤ R.u / h := by positivity
  have m1 := mul_nonneg p1 p3
  have m2 := mul_nonneg p1 hε
  have m3 := mul_nonneg C₂0 p2
  have m4 := mul_nonneg C₂0 p3
  linarith

/-- **C125, accuracy.**  Let `y` solve `y' = g(t, y)` on an interval around `[t₀, t₁]`, let `g` be as often continuously differentiable
along the solution as the order `p` of the method says (4 for `CashKarp45`, see C42), and let the right-hand side be evaluated near the
solution with errors of at most `ε`.  Then every result `Ok` of the adaptive solver in floating-point arithmetic with monotone
rounding, whose times are at most `h` apart and whose number of times is at most `S / h`, consists of states that
are off by at most `C (h ^ p + u / h + ε)`; the constant depends neither on the arithmetic nor on the parameters of the step
size control.  Missing: a bound by the tolerances, see `C106_accuracy_violated`; `Tsitouras`, see C67. -/
theorem C125_accuracy_partial (M : EmbMethod) (hM : M ≠ .tsitouras) {p : ℕ} (hp : p = if M = .cashKarp45 then 4 else M.order.1)
    {n : ℕ} {g : ℝ → (Fin n → ℝ) → (Fin n → ℝ)}
    {y : ℝ → (Fin n → ℝ)} {a b t₀ t₁ : ℝ} (ha : a < t₀) (ht : t₀ ≤ t₁) (hb : t₁ < b)
    (hg : ∀ t ∈ Set.Icc a b, ContDiffAt ℝ p (fun z : ℝ × (Fin n → ℝ) => g z.1 z.2) (t, y t))
    (hy : ∀ t ∈ Set.Icc a b, ∀ᶠ u in 𝓝 t, HasDerivAt y (g u (y u)) u) {r₁ : ℝ} (hr₁ : 0 < r₁) {S : ℝ} (hS : 0 ≤ S) :
    ∃ h₀ > 0, ∃ η > 0, ∃ C, ∀ (R : Rounding ℝ) (h : ℝ) (t₀f t₁f : Fl R) (ε : ℝ) (T : EmbTableau (Fl R)) (f : Rhs (Fl R))
      (gf : Fl R → (Fin n → Fl R) → (Fin n → Fl R)) (x₀ : Fin n → Fl R) (sqrt : Fl R → Fl R) (pow : Fl R → Fl R → Fl R)
      (c : Control (Fl R)) (fuel : ℕ) (ts : List (Fl R)) (xs : List (Mat (Fl R))),
      Monotone R.rnd → R.rnd t₀ = t₀ → t₀f.val = t₀ → t₁f.val = t₁ → 0 < h → h ≤ h₀ → R.u ≤ η * h → 0 ≤ ε → ε ≤ η →
      EmbClose T M.tableau → RhsRepr f gf → RhsClose gf g y a b r₁ ε → ‖flv x₀ - y t₀‖ ≤ ε →
      c.facMin ≤ c.facMax → 0 < c.facMin → 0 < c.h0 →
      adaptSolve sqrt pow M.order.1 c (doStepEmb T f) fuel t₀f t₁f (col x₀) = some (some (ts, xs)) → ts.length * h ≤ S →
      (∀ (k : ℕ) t t', ts[k]? = some t → ts[k + 1]? = some t' → t'.val - t.val ≤ h) →
      ∀ (k : ℕ) t X, ts[k]? = some t → xs[k]? = some X →
        ∃ x : Fin n → Fl R, X = col x ∧ ‖flv x - y t.val‖ ≤ C * (h ^ p + R.u / h + ε) := by
  subst hp
  have hck := emb_check M hM
  obtain ⟨hT, hbs⟩ := emb_shape M
  obtain ⟨c1, c2⟩ := conditions_of_check (K := ℝ) hck
  obtain ⟨h₀, hh₀, η, hη, C, H⟩ := adapt_error_fl (T' := M.tableau) hT hbs hck.1 (by rw [emb_cast]; simpa [EmbTableau.map] using c1)
    (by rw [emb_cast]; simpa [EmbTableau.map] using c2) ha ht hb hg hy hr₁ hS
  exact ⟨h₀, hh₀, η, hη, C, fun R h t₀f t₁f ε T f gf x₀ sqrt pow c fuel ts xs => H R h t₀f t₁f ε T f gf x₀ sqrt pow _ c fuel ts xs⟩

/-- Dormand-Prince for `x' = x`, `x 0 = 1` on `[0, 1]` with at most `10 / h` times: in every arithmetic with monotone rounding the
values are those of the exponential function up to `C (h ^ 5 + u / h)` -/
example : ∃ h₀ > 0, ∃ η > 0, ∃ C, ∀ (R : Rounding ℝ) (h : ℝ) (z o : Fl R) (T : EmbTableau (Fl R)) (sqrt : Fl R → Fl R)
    (pow : Fl R → Fl R → Fl R) (c : Control (Fl R)) (fuel : ℕ) (ts : List (Fl R)) (xs : List (Mat (Fl R))), Monotone R.rnd →
    z.val = 0 → o.val = 1 → 0 < h → h ≤ h₀ → R.u ≤ η * h → EmbClose T dormandPrince → c.facMin ≤ c.facMax → 0 < c.facMin → 0 < c.h0 →
    adaptSolve sqrt pow 5 c (doStepEmb T fun _ x => some x) fuel z o (col ![o]) = some (some (ts, xs)) → ts.length * h ≤ 10 →
    (∀ (k : ℕ) t t', ts[k]? = some t → ts[k + 1]? = some t' → t'.val - t.val ≤ h) →
    ∀ (k : ℕ) t X, ts[k]? = some t → xs[k]? = some X →
      ∃ x : Fin 1 → Fl R, X = col x ∧ ‖flv x - ![Real.exp t.val]‖ ≤ C * (h ^ 5 + R.u / h) := by
  obtain ⟨h₀, hh, η, hη, C, H⟩ := C125_accuracy_partial .dormandPrince (by decide) (p := 5) (by decide) (n := 1) (g := fun _ x => x)
    (y := fun t => ![Real.exp t]) (a := -1) (t₀ := 0) (t₁ := 1) (b := 2) (by norm_num) zero_le_one (by norm_num)
    (fun t _ => contDiffAt_snd)
    (fun t _ => Eventually.of_forall fun u => by
      rw [hasDerivAt_pi]
      intro i
      fin_cases i
      simpa using Real.hasDerivAt_exp u) (r₁ := 1) one_pos (S := 10) (by norm_num)
  refine ⟨h₀, hh, η, hη, C, fun R h z o T sqrt pow c fuel ts xs hm hz ho h1 h2 h3 hT f1 f2 f3 hs hl hd k t X hk hX => ?_⟩
  have := H R h z o 0 T (fun _ x => some x) (fun _ x => x) ![o] sqrt pow c fuel ts xs hm R.rnd_zero hz ho h1 h2 h3 le_rfl hη.le
    hT (fun _ _ => rfl) (fun s _ t x _ _ => by simp)
    (by
      have : flv (n := 1) ![o] = ![1] := by
        funext i; fin_cases i; simp [flv, ho]
      rw [this]; simp) f1 f2 f3 hs hl hd k t X hk hX
  simpa using this

/-- a run in double precision with a rejected and three accepted steps: `x' = x` from 10, tolerance `1 / 64`, with the identity in the
place of the root and of the power -/
example : (adaptSolve (K := Fl f64) (fun x => x) (fun x _ => x) 1 ⟨10, ⟨1⟩, ⟨1 / 2⟩, ⟨1 / 4⟩, ⟨2⟩, ⟨1 / 64⟩, ⟨0⟩⟩
      (doStepEmb ((fehlberg12 : EmbTableau ℚ).map fun w => (⟨w⟩ : Fl f64)) fun _ x => some x) 30 ⟨0⟩ ⟨1⟩ (col ![⟨10⟩])).map
      (fun r => r.map fun s => s.1) = some (some [⟨0⟩, ⟨1 / 4⟩, ⟨3 / 4⟩, ⟨1⟩]) := by
  decide +kernel

end Ode
end Verif
