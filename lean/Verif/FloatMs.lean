import Verif.FloatOdeProps
import Verif.MultistepProps

/-!
# Property C108: the Adams-Bashforth and BDF solvers with rounding: times and termination
-/

set_option linter.unusedSectionVars false

namespace Verif
namespace Ode

section Ops
variable {K : Type} [Zero K] [One K] [Add K] [Sub K] [Neg K] [Div K] [NatCast K] [LinearOrder K]

/-- the times of the multistep solvers -/
def tms (h t₀ t₁ : K) : ℕ → K
  | 0 => t₀
  | i + 1 => tms h t₀ t₁ i + min h (t₁ - tms h t₀ t₁ i)

/-- the condition of the loop -/
def msFar (t₁ t : K) : Prop := max (t - t₁) (-(t - t₁)) > 1 / ((10 ^ 10 : ℕ) : K)

/-- `u` is the state after `i` steps -/
def MsInv {n : ℕ} (st : ℕ → List K → List (Mat K) → K → Option (Mat K)) (k : ℕ) (h t₀ t₁ : K) (x₀ : Fin n → K) (i : ℕ)
    (u : K × List K × List (Mat K)) : Prop :=
  ∃ X : ℕ → Fin n → K, X 0 = x₀ ∧ u = (tms h t₀ t₁ i, hist (tms h t₀ t₁) i, hist (fun l => col (X l)) i) ∧
    ∀ j < i, st (min (j + 1) k) (hist (tms h t₀ t₁) j) (hist (fun l => col (X l)) j) (min h (t₁ - tms h t₀ t₁ j)) =
      some (col (X (j + 1)))

theorem hist_update {n : ℕ} (X : ℕ → Fin n → K) (i : ℕ) (x : Fin n → K) {j : ℕ} (hj : j ≤ i) :
    hist (fun l => col (Function.update X (i + 1) x l)) j = hist (fun l => col (X l)) j := by
  apply List.map_congr_left
  intro l hl
  rw [List.mem_range] at hl
  simp [Function.update, show l ≠ i + 1 by omega]

theorem msIter_ops {n : ℕ} {st : ℕ → List K → List (Mat K) → K → Option (Mat K)} {k : ℕ}
    (hst : ∀ j N, 1 ≤ j → j ≤ k → j ≤ N + 1 → ∀ (τ : ℕ → K) (X : ℕ → Fin n → K) (h : K),
      ∃ x : Fin n → K, st j (hist τ N) (hist (fun i => col (X i)) N) h = some (col x))
    {h t₀ t₁ : K} {x₀ : Fin n → K} {i : ℕ} (hk : 1 ≤ k) {u : K × List K × List (Mat K)}
    (hu : MsInv st k h t₀ t₁ x₀ i u) :
    ∃ u', msIter (st (min (i + 1) k)) h t₁ u = some u' ∧ MsInv st k h t₀ t₁ x₀ (i + 1) u' := by
  obtain ⟨X, h0, rfl, hX⟩ := hu
  obtain ⟨x, hx⟩ := hst (min (i + 1) k) i (by omega) (by omega) (by omega) (tms h t₀ t₁) X
    (min h (t₁ - tms h t₀ t₁ i))
  refine ⟨_, by simp only [msIter, hx, Option.bind_eq_bind, Option.bind_some]; rfl, Function.update X (i + 1) x,
    by simpa using h0, ?_, ?_⟩
  · have e1 : hist (tms h t₀ t₁) (i + 1) = hist (tms h t₀ t₁) i ++ [tms h t₀ t₁ (i + 1)] := by
      simp [hist, List.range_succ]
    have e2 : hist (fun l => col (Function.update X (i + 1) x l)) (i + 1) = hist (fun l => col (X l)) i ++ [col x] := by
      rw [← hist_update X i x le_rfl]
      simp [hist, List.range_succ]
    rw [e1, e2]
    rfl
  · intro j hj
    rw [hist_update X i x (by omega)]
    rcases Nat.lt_succ_iff_lt_or_eq.1 hj with hj | rfl
    · rw [hX j hj, Function.update_of_ne (by omega)]
    · rw [hx, Function.update_self]

theorem msStart_ops {n : ℕ} {st : ℕ → List K → List (Mat K) → K → Option (Mat K)} {k : ℕ}
    (hst : ∀ j N, 1 ≤ j → j ≤ k → j ≤ N + 1 → ∀ (τ : ℕ → K) (X : ℕ → Fin n → K) (h : K),
      ∃ x : Fin n → K, st j (hist τ N) (hist (fun i => col (X i)) N) h = some (col x))
    {h t₀ t₁ : K} (x₀ : Fin n → K) (hk : 1 ≤ k) :
    ∃ s, forRange 1 k (fun s j => msIter (st j) h t₁ s) (t₀, [t₀], [col x₀]) = some s ∧
      MsInv st k h t₀ t₁ x₀ (k - 1) s := by
  refine forRange_inv (a := 1) (b := k) (f := fun s j => msIter (st j) h t₁ s) (s := (t₀, [t₀], [col x₀]))
    (fun i u => MsInv st k h t₀ t₁ x₀ (i - 1) u) hk ⟨fun _ => x₀, rfl, rfl, by intro j hj; omega⟩ ?_
  intro i u hi1 hi2 hQ
  obtain ⟨l, rfl⟩ : ∃ l, i = l + 1 := ⟨i - 1, by omega⟩
  have := msIter_ops hst hk hQ
  simp only [Nat.add_sub_cancel] at this
  rw [Nat.min_eq_left (by omega)] at this
  exact this

/-- what the solver returns: `N` is the first index of at least `k - 1` for which the loop ends -/
theorem msSolve_ops {n : ℕ} {st : ℕ → List K → List (Mat K) → K → Option (Mat K)} {k : ℕ} (hk : 1 ≤ k)
    (hst : ∀ j N, 1 ≤ j → j ≤ k → j ≤ N + 1 → ∀ (τ : ℕ → K) (X : ℕ → Fin n → K) (h : K),
      ∃ x : Fin n → K, st j (hist τ N) (hist (fun i => col (X i)) N) h = some (col x))
    {h t₀ t₁ : K} (ht : t₀ ≤ t₁) (x₀ : Fin n → K) {N : ℕ} (hN : k ≤ N + 1)
    (hfar : ∀ i < N, k ≤ i + 1 → msFar t₁ (tms h t₀ t₁ i)) (hend : ¬ msFar t₁ (tms h t₀ t₁ N)) {fuel : ℕ}
    (hfuel : N + 2 ≤ fuel + k) :
    ∃ X : ℕ → Fin n → K, X 0 = x₀ ∧
      msSolve st fuel k h t₀ t₁ (col x₀) = some (hist (tms h t₀ t₁) N, hist (fun l => col (X l)) N) ∧
      ∀ j < N, st (min (j + 1) k) (hist (tms h t₀ t₁) j) (hist (fun l => col (X l)) j) (min h (t₁ - tms h t₀ t₁ j)) =
        some (col (X (j + 1))) := by
  obtain ⟨s, hs, hQ⟩ := msStart_ops hst x₀ hk (h := h) (t₀ := t₀) (t₁ := t₁)
  have loop : ∀ fuel i s, k ≤ i + 1 → i ≤ N → N + 1 ≤ fuel + i → MsInv st k h t₀ t₁ x₀ i s →
      ∃ r, msLoop (st k) h t₁ fuel s = some r ∧ MsInv st k h t₀ t₁ x₀ N r := by
    intro fuel
    induction fuel with
    | zero => intro i s _ _ h; omega
    | succ fuel ih =>
      intro i s hi hiN hf hQ
      have e : s.1 = tms h t₀ t₁ i := by obtain ⟨X, _, rfl, _⟩ := hQ; rfl
      rw [msLoop]
      by_cases hc : msFar t₁ (tms h t₀ t₁ i)
      · have hne : i ≠ N := by rintro rfl; exact hend hc
        rw [if_pos (by rw [e]; exact hc)]
        obtain ⟨s', hs', hQ'⟩ := msIter_ops hst hk hQ
        rw [Nat.min_eq_right hi] at hs'
        rw [hs']
        exact ih (i + 1) s' (by omega) (by omega) (by omega) hQ'
      · have : i = N := by
          by_contra hne
          exact hc (hfar i (by omega) hi)
        subst this
        rw [if_neg (by rw [e]; exact hc)]
        exact ⟨s, rfl, hQ⟩
  obtain ⟨r, hr, X, h0, rfl, hX⟩ := loop fuel (k - 1) s (by omega) (by omega) (by omega) hQ
  refine ⟨X, h0, ?_, hX⟩
  unfold msSolve
  rw [if_neg (not_lt.mpr ht), hs]
  simp only [Option.bind_eq_bind, Option.bind_some, hr]

/-- if the loop condition always holds the solver does not return -/
theorem msSolve_never {n : ℕ} {st : ℕ → List K → List (Mat K) → K → Option (Mat K)} {k : ℕ} (hk : 1 ≤ k)
    (hst : ∀ j N, 1 ≤ j → j ≤ k → j ≤ N + 1 → ∀ (τ : ℕ → K) (X : ℕ → Fin n → K) (h : K),
      ∃ x : Fin n → K, st j (hist τ N) (hist (fun i => col (X i)) N) h = some (col x))
    {h t₀ t₁ : K} (x₀ : Fin n → K) (hfar : ∀ i, k ≤ i + 1 → msFar t₁ (tms h t₀ t₁ i)) (fuel : ℕ) :
    msSolve st fuel k h t₀ t₁ (col x₀) = none := by
  obtain ⟨s, hs, hQ⟩ := msStart_ops hst x₀ hk (h := h) (t₀ := t₀) (t₁ := t₁)
  have loop : ∀ fuel i s, k ≤ i + 1 → MsInv st k h t₀ t₁ x₀ i s → msLoop (st k) h t₁ fuel s = none := by
    intro fuel
    induction fuel with
    | zero => intro i s _ _; rfl
    | succ fuel ih =>
      intro i s hi hQ
      have e : s.1 = tms h t₀ t₁ i := by obtain ⟨X, _, rfl, _⟩ := hQ; rfl
      rw [msLoop, if_pos (by rw [e]; exact hfar i hi)]
      obtain ⟨s', hs', hQ'⟩ := msIter_ops hst hk hQ
      rw [Nat.min_eq_right hi] at hs'
      rw [hs']
      exact ih (i + 1) s' (by omega) hQ'
  unfold msSolve
  split_ifs
  · rfl
  rw [hs]
  simp only [Option.bind_eq_bind, Option.bind_some, loop fuel (k - 1) s (by omega) hQ, Option.bind_none]

/-- `(g 0 + g 1) + …`, the summands `g 0, …, g n` -/
def msSum (g : ℕ → K) : ℕ → K
  | 0 => g 0
  | n + 1 => msSum g n + g (n + 1)

theorem past_ops {n : ℕ} {f : Rhs K} {g : K → (Fin n → K) → (Fin n → K)} (hf : RhsRepr f g) (τ : ℕ → K)
    (X : ℕ → Fin n → K) (N j : ℕ) (hj : j ≤ N) :
    past f (hist τ N) (hist (fun i => col (X i)) N) j = some (col (g (τ (N - j)) (X (N - j)))) := by
  unfold past hist
  simp only [List.length_map, List.length_range, List.getElem?_map]
  rw [if_neg (by omega)]
  have : N + 1 - 1 - j < N + 1 := by omega
  rw [List.getElem?_range this]
  simp only [Option.map_some, Option.bind_eq_bind, Option.bind_some]
  rw [hf]
  congr 4 <;> omega

variable [Mul K]

theorem stepS1_ops {n : ℕ} {f : Rhs K} {g : K → (Fin n → K) → (Fin n → K)} (hf : RhsRepr f g) (τ : ℕ → K)
    (X : ℕ → Fin n → K) (N : ℕ) (h : K) :
    stepS1 f (hist τ N) (hist (fun i => col (X i)) N) h = some (col fun r => X N r + g (τ N) (X N) r * h) := by
  unfold stepS1
  rw [past_ops hf τ X N 0 (by omega)]
  simp only [Option.bind_eq_bind, Option.bind_some, last_hist, col_mulScalar_ops, col_add_ops, Nat.sub_zero]

theorem stepW_ops {n : ℕ} {f : Rhs K} {g : K → (Fin n → K) → (Fin n → K)} (hf : RhsRepr f g) (τ : ℕ → K)
    (X : ℕ → Fin n → K) (N : ℕ) (h : K) (w₀ : K) (w : List K) (hw : w.length ≤ N) :
    stepW w₀ w f (hist τ N) (hist (fun i => col (X i)) N) h =
      some (col fun r => X N r +
        msSum (fun j => g (τ (N - j)) (X (N - j)) r * (w₀ :: w).getD j w₀) w.length * h) := by
  unfold stepW
  rw [past_ops hf τ X N 0 (by omega)]
  simp only [Option.bind_eq_bind, Option.bind_some, last_hist, col_mulScalar_ops]
  obtain ⟨s, hs, hP⟩ := forRange_inv (a := 0) (b := w.length)
    (f := fun s j => (past f (hist τ N) (hist (fun i => col (X i)) N) (j + 1)).bind fun fj =>
      w[j]?.bind fun wj => s.add (fj.mulScalar wj))
    (s := col fun r => g (τ (N - 0)) (X (N - 0)) r * w₀)
    (fun i s => s = col fun r => msSum (fun j => g (τ (N - j)) (X (N - j)) r * (w₀ :: w).getD j w₀) i) (by omega)
    (by simp [msSum])
    (by
      intro i s _ hi hP
      refine ⟨_, ?_, rfl⟩
      rw [past_ops hf τ X N (i + 1) (by omega), hP]
      have : w[i]? = some ((w₀ :: w).getD (i + 1) w₀) := by simp [hi]
      rw [this]
      simp only [Option.bind_some, col_mulScalar_ops, col_add_ops]
      rfl)
  rw [hs]
  simp only [Option.bind_some, hP, col_mulScalar_ops, col_add_ops]

/-- the step functions do not panic -/
theorem abStep_ops {n : ℕ} {f : Rhs K} {g : K → (Fin n → K) → (Fin n → K)} (hf : RhsRepr f g) {k N : ℕ} (hk1 : 1 ≤ k)
    (hk5 : k ≤ 5) (hN : k ≤ N + 1) (τ : ℕ → K) (X : ℕ → Fin n → K) (h : K) :
    ∃ x : Fin n → K, abStep k f (hist τ N) (hist (fun i => col (X i)) N) h = some (col x) := by
  have : k = 1 ∨ k = 2 ∨ k = 3 ∨ k = 4 ∨ k = 5 := by omega
  rcases this with rfl | rfl | rfl | rfl | rfl
  · exact ⟨_, stepS1_ops hf τ X N h⟩
  · exact ⟨_, stepW_ops hf τ X N h _ _ (by simp; omega)⟩
  · exact ⟨_, stepW_ops hf τ X N h _ _ (by simp; omega)⟩
  · exact ⟨_, stepW_ops hf τ X N h _ _ (by simp; omega)⟩
  · exact ⟨_, stepW_ops hf τ X N h _ _ (by simp; omega)⟩

theorem bdfStep_ops {n : ℕ} {f : Rhs K} {g : K → (Fin n → K) → (Fin n → K)} (hf : RhsRepr f g) {k N : ℕ} (hk1 : 1 ≤ k)
    (hk6 : k ≤ 6) (hN : k ≤ N + 1) (τ : ℕ → K) (X : ℕ → Fin n → K) (h : K) :
    ∃ x : Fin n → K, bdfStep k f (hist τ N) (hist (fun i => col (X i)) N) h = some (col x) := by
  have : k = 1 ∨ k = 2 ∨ k = 3 ∨ k = 4 ∨ k = 5 ∨ k = 6 := by omega
  rcases this with rfl | rfl | rfl | rfl | rfl | rfl
  · exact ⟨_, stepS1_ops hf τ X N h⟩
  · exact ⟨_, stepW_ops hf τ X N h _ _ (by simp; omega)⟩
  · exact ⟨_, stepW_ops hf τ X N h _ _ (by simp; omega)⟩
  · exact ⟨_, stepW_ops hf τ X N h _ _ (by simp; omega)⟩
  · exact ⟨_, stepW_ops hf τ X N h _ _ (by simp; omega)⟩
  · exact ⟨_, stepW_ops hf τ X N h _ _ (by simp; omega)⟩

end Ops

section Round
variable {K : Type} [Field K] [LinearOrder K] [IsStrictOrderedRing K] {R : Rounding K}

theorem Fl.lt_iff' (x y : Fl R) : x < y ↔ x.val < y.val := by
  rw [← not_le, ← not_le, Fl.le_iff]

theorem Fl.max_val (x y : Fl R) : (max x y).val = max x.val y.val := by
  rcases le_total x y with h | h
  · rw [max_eq_right h, max_eq_right ((Fl.le_iff _ _).1 h)]
  · rw [max_eq_left h, max_eq_left ((Fl.le_iff _ _).1 h)]

/-- the loop condition in exact terms -/
theorem msFar_iff (t₁ t : Fl R) : msFar t₁ t ↔ R.rnd (1 / R.rnd (10 ^ 10)) < |R.rnd (t.val - t₁.val)| := by
  unfold msFar
  rw [gt_iff_lt, Fl.lt_iff', Fl.max_val]
  have e : (((10 ^ 10 : ℕ) : Fl R)).val = R.rnd (10 ^ 10) := by
    show R.rnd ((10 ^ 10 : ℕ) : K) = _
    rw [Nat.cast_pow]; norm_num
  have e2 : (1 / ((10 ^ 10 : ℕ) : Fl R)).val = R.rnd (1 / R.rnd (10 ^ 10)) := by
    show R.rnd (1 / (((10 ^ 10 : ℕ) : Fl R)).val) = _
    rw [e]
  rw [e2]
  rfl

theorem inv_bounds (hu : R.u ≤ 1 / 8) {T : K} (hT : 0 < T) :
    7 / 9 * (1 / T) ≤ R.rnd (1 / R.rnd T) ∧ R.rnd (1 / R.rnd T) ≤ 9 / 7 * (1 / T) := by
  have e1 := abs_le.1 (R.err T)
  rw [abs_of_pos hT] at e1
  have u0 := R.u_nonneg
  have m := mul_le_mul_of_nonneg_right hu hT.le
  have p1 : 7 / 8 * T ≤ R.rnd T := by linarith [e1.1]
  have p2 : R.rnd T ≤ 9 / 8 * T := by linarith [e1.2]
  generalize R.rnd T = q at p1 p2
  have q0 : 0 < q := by linarith
  have e2 := abs_le.1 (R.err (1 / q))
  have r0 : 0 < 1 / q := by positivity
  rw [abs_of_pos r0] at e2
  have a1 : 8 / 9 * (1 / T) ≤ 1 / q := by
    rw [le_div_iff₀ q0]
    calc 8 / 9 * (1 / T) * q ≤ 8 / 9 * (1 / T) * (9 / 8 * T) := mul_le_mul_of_nonneg_left p2 (by positivity)
      _ = 1 := by field_simp
  have a2 : 1 / q ≤ 8 / 7 * (1 / T) := by
    rw [div_le_iff₀ q0]
    calc (1 : K) = 8 / 7 * (1 / T) * (7 / 8 * T) := by field_simp
      _ ≤ _ := mul_le_mul_of_nonneg_left p1 (by positivity)
  have a3 : R.u * (1 / q) ≤ 1 / 8 * (1 / q) := mul_le_mul_of_nonneg_right hu r0.le
  constructor <;> linarith [e2.1, e2.2]

/-- One step of the time.  Either the time is already close to the end and stays so, or it advances by at least half of
    the step size. -/
theorem tms_step {h τ t₀ t₁ S : K} (hS : S = |t₀| + |t₁|) (hu : R.u ≤ 1 / 8) (hh : 4 * R.u * S ≤ h)
    (hτ : |τ - t₁| ≤ 4 * R.u * S ∨ (t₀ ≤ τ ∧ τ ≤ t₁)) :
    |R.rnd (τ + min h (R.rnd (t₁ - τ))) - t₁| ≤ 4 * R.u * S ∨
      (¬ |τ - t₁| ≤ 4 * R.u * S ∧ τ + h / 2 ≤ R.rnd (τ + min h (R.rnd (t₁ - τ))) ∧
        R.rnd (τ + min h (R.rnd (t₁ - τ))) ≤ t₁) := by
  have u0 := R.u_nonneg
  have S0 : 0 ≤ S := by rw [hS]; positivity
  have uS0 : 0 ≤ R.u * S := by positivity
  have uS : R.u * S ≤ 1 / 8 * S := mul_le_mul_of_nonneg_right hu S0
  have a1 := neg_abs_le t₁
  have a2 := le_abs_self t₁
  have a3 := neg_abs_le t₀
  have a4 := le_abs_self t₀
  have a5 := abs_nonneg t₀
  have a6 := abs_nonneg t₁
  -- the remaining time
  have d1 : |t₁ - τ| ≤ S := by
    rw [abs_le]
    rcases hτ with hτ | hτ
    · have := abs_le.1 hτ; constructor <;> linarith
    · constructor <;> linarith
  have d2 : |R.rnd (t₁ - τ) - (t₁ - τ)| ≤ R.u * S := (R.err _).trans (mul_le_mul_of_nonneg_left d1 u0)
  generalize hd : R.rnd (t₁ - τ) = d at d2 ⊢
  have d3 := abs_le.1 d2
  rcases le_total h d with hm | hm
  · rw [min_eq_left hm]
    have b1 : |τ + h| ≤ 3 / 2 * S := by
      rw [abs_le]
      rcases hτ with hτ | hτ
      · have := abs_le.1 hτ; constructor <;> linarith
      · constructor <;> linarith
    have b2 := abs_le.1 ((R.err _).trans (mul_le_mul_of_nonneg_left b1 u0))
    generalize R.rnd (τ + h) = τ' at b2 ⊢
    by_cases hn : |τ - t₁| ≤ 4 * R.u * S
    · left
      have := abs_le.1 hn
      rw [abs_le]
      constructor <;> linarith [b2.1, b2.2]
    · rcases le_total τ' t₁ with hle | hle
      · right
        refine ⟨hn, ?_, hle⟩
        linarith [b2.1]
      · left
        rw [abs_le]
        constructor <;> linarith [b2.1, b2.2]
  · rw [min_eq_right hm]
    left
    have b1 : |τ + d| ≤ 3 / 2 * S := by
      rw [abs_le]
      constructor <;> linarith
    have b2 := abs_le.1 ((R.err _).trans (mul_le_mul_of_nonneg_left b1 u0))
    rw [abs_le]
    constructor <;> linarith [b2.1, b2.2]

/-- after `i` steps -/
theorem tms_far {h t₀ t₁ : Fl R} {S : K} (hS : S = |t₀.val| + |t₁.val|) (hu : R.u ≤ 1 / 8) (h0 : 0 < h.val)
    (hh : 4 * R.u * S ≤ h.val) (ht : t₀.val ≤ t₁.val) (i : ℕ) :
    |(tms h t₀ t₁ i).val - t₁.val| ≤ 4 * R.u * S ∨
      (t₀.val + i * (h.val / 2) ≤ (tms h t₀ t₁ i).val ∧ (tms h t₀ t₁ i).val ≤ t₁.val) := by
  induction i with
  | zero => right; exact ⟨by simp [tms], ht⟩
  | succ i ih =>
    have e : (tms h t₀ t₁ (i + 1)).val =
        R.rnd ((tms h t₀ t₁ i).val + min h.val (R.rnd (t₁.val - (tms h t₀ t₁ i).val))) := by
      rw [tms]
      show R.rnd (_ + (min h (t₁ - _)).val) = _
      rw [Fl.min_val]
      rfl
    rw [e]
    have i0 : 0 ≤ (i : K) * (h.val / 2) := by positivity
    rcases tms_step hS hu hh (ih.imp_right fun h => ⟨by linarith [h.1], h.2⟩) with h1 | ⟨h1, h2, h3⟩
    · exact Or.inl h1
    · right
      refine ⟨?_, h3⟩
      have := (ih.resolve_left h1).1
      push_cast
      linarith

/-- close to the end the loop stops -/
theorem not_far {t₁ t : Fl R} {S : K} (hu : R.u ≤ 1 / 8) (hS : 8 * R.u * S ≤ 1 / 10 ^ 10)
    (h : |t.val - t₁.val| ≤ 4 * R.u * S) : ¬ msFar t₁ t := by
  rw [msFar_iff, not_lt]
  have b := (inv_bounds hu (by positivity : (0 : K) < 10 ^ 10)).1
  have e := R.err (t.val - t₁.val)
  have e2 := abs_sub_abs_le_abs_sub (R.rnd (t.val - t₁.val)) (t.val - t₁.val)
  have e3 := mul_le_mul_of_nonneg_right hu (abs_nonneg (t.val - t₁.val))
  linarith

/-- where the loop stops -/
theorem of_not_far {t₁ t : Fl R} (hu : R.u ≤ 1 / 8) (h : ¬ msFar t₁ t) : |t.val - t₁.val| ≤ 3 / 2 * (1 / 10 ^ 10) := by
  rw [msFar_iff, not_lt] at h
  have b := (inv_bounds hu (by positivity : (0 : K) < 10 ^ 10)).2
  have e := R.err (t.val - t₁.val)
  have e2 := abs_sub_abs_le_abs_sub (t.val - t₁.val) (R.rnd (t.val - t₁.val))
  rw [abs_sub_comm (t.val - t₁.val) (R.rnd _)] at e2
  have e3 := mul_le_mul_of_nonneg_right hu (abs_nonneg (t.val - t₁.val))
  linarith

theorem tms_grid {h t₀ t₁ : Fl R} (hh : 0 < h.val) (ht : t₀.val ≤ t₁.val) {j : ℕ} (hj : 8 * j * R.u ≤ 1) :
    |(tms h t₀ t₁ j).val - min (t₀.val + j * h.val) t₁.val| ≤ 8 * j * R.u * (|t₀.val| + |t₁.val|) := by
  have e : ∀ i, (iterSeq (n := 0) (fun _ x _ => x) h t₀ t₁ (fun _ => 0) i).1 = tms h t₀ t₁ i := by
    intro i
    induction i with
    | zero => rfl
    | succ i ih => simp only [iterSeq, tms, ih]
  have := (times_fl (n := 0) (fun _ x _ => x) hh ht (fun _ => 0) hj rfl j le_rfl).2
  rw [e] at this
  refine this.trans (le_of_eq ?_)
  ring

/-- **C108** the multistep solvers with rounding, for any step function that does not panic.  Let `S = |t₀| + |t₁|`, and
    let the step size be at least `4 u S`, and `8 u S ≤ 10^-10`.  Then `solve` returns, and it needs less than
    `2 (t₁ - t₀) / h + 1` steps (or `k - 1` if that is more).  The times are `t_{j+1} = t_j + min(h, t₁ - t_j)`, computed
    with rounding; the time number `j` differs from `t₀ + j h`, cut off at `t₁`, by at most `8 j u S`; and the last time
    differs from `t₁` by at most `1.5 * 10^-10`.  Each state comes from the step function of order `min(j + 1, k)` applied
    to the returned times and states before it. -/
theorem C108_returns {n : ℕ} {st : ℕ → List (Fl R) → List (Mat (Fl R)) → Fl R → Option (Mat (Fl R))} {k : ℕ} (hk : 1 ≤ k)
    (hst : ∀ j N, 1 ≤ j → j ≤ k → j ≤ N + 1 → ∀ (τ : ℕ → Fl R) (X : ℕ → Fin n → Fl R) (h : Fl R),
      ∃ x : Fin n → Fl R, st j (hist τ N) (hist (fun i => col (X i)) N) h = some (col x))
    {h t₀ t₁ : Fl R} (h0 : 0 < h.val) (ht : t₀.val ≤ t₁.val) (hu : R.u ≤ 1 / 8)
    (hh : 4 * R.u * (|t₀.val| + |t₁.val|) ≤ h.val) (hS : 8 * R.u * (|t₀.val| + |t₁.val|) ≤ 1 / 10 ^ 10)
    (x₀ : Fin n → Fl R) {M fuel : ℕ} (hM : 2 * (t₁.val - t₀.val) < M * h.val) (hMk : k ≤ M + 1) (hfuel : M < fuel) :
    ∃ (N : ℕ) (τ : ℕ → Fl R) (X : ℕ → Fin n → Fl R), N ≤ M ∧ k ≤ N + 1 ∧
      msSolve st fuel k h t₀ t₁ (col x₀) =
        some ((List.range (N + 1)).map τ, (List.range (N + 1)).map fun l => col (X l)) ∧
      τ 0 = t₀ ∧ (∀ j, τ (j + 1) = τ j + min h (t₁ - τ j)) ∧
      (∀ j : ℕ, 8 * j * R.u ≤ 1 →
        |(τ j).val - min (t₀.val + j * h.val) t₁.val| ≤ 8 * j * R.u * (|t₀.val| + |t₁.val|)) ∧
      |(τ N).val - t₁.val| ≤ 3 / 2 * (1 / 10 ^ 10) ∧
      X 0 = x₀ ∧ ∀ j < N, st (min (j + 1) k) ((List.range (j + 1)).map τ) ((List.range (j + 1)).map fun l => col (X l))
        (min h (t₁ - τ j)) = some (col (X (j + 1))) := by
  have near : ¬ msFar t₁ (tms h t₀ t₁ M) := by
    refine not_far hu hS ((tms_far rfl hu h0 hh ht M).resolve_right ?_)
    rintro ⟨h1, h2⟩
    linarith
  have hex : ∃ N, k ≤ N + 1 ∧ ¬ msFar t₁ (tms h t₀ t₁ N) := ⟨M, hMk, near⟩
  classical
  have hmin : ∀ i < Nat.find hex, k ≤ i + 1 → msFar t₁ (tms h t₀ t₁ i) := by
    intro i hi hki
    by_contra hc
    exact Nat.find_min hex hi ⟨hki, hc⟩
  have hle : Nat.find hex ≤ M := Nat.find_min' hex ⟨hMk, near⟩
  obtain ⟨X, hX0, hs, hX⟩ := msSolve_ops hk hst ((Fl.le_iff _ _).2 ht) x₀ (Nat.find_spec hex).1 hmin (Nat.find_spec hex).2
    (fuel := fuel) (by omega)
  exact ⟨Nat.find hex, tms h t₀ t₁, X, hle, (Nat.find_spec hex).1, hs, rfl, fun _ => rfl,
    fun j hj => tms_grid h0 ht hj, of_not_far hu (Nat.find_spec hex).2, hX0, hX⟩

/-- **C108** `AdamsBashforth::solve` returns -/
theorem C108_ab {n : ℕ} {f : Rhs (Fl R)} {g : Fl R → (Fin n → Fl R) → (Fin n → Fl R)} (hf : RhsRepr f g) {k : ℕ}
    (hk : 1 ≤ k) (hk5 : k ≤ 5) {h t₀ t₁ : Fl R} (h0 : 0 < h.val) (ht : t₀.val ≤ t₁.val) (hu : R.u ≤ 1 / 8)
    (hh : 4 * R.u * (|t₀.val| + |t₁.val|) ≤ h.val) (hS : 8 * R.u * (|t₀.val| + |t₁.val|) ≤ 1 / 10 ^ 10)
    (x₀ : Fin n → Fl R) {M fuel : ℕ} (hM : 2 * (t₁.val - t₀.val) < M * h.val) (hMk : k ≤ M + 1) (hfuel : M < fuel) :
    ∃ ts xs, msSolve (fun j => abStep j f) fuel k h t₀ t₁ (col x₀) = some (ts, xs) ∧ ts.length = xs.length ∧
      k ≤ ts.length ∧ ts.length ≤ M + 1 ∧ ts.head? = some t₀ ∧ xs.head? = some (col x₀) ∧
      (∀ (j : ℕ) t, 8 * j * R.u ≤ 1 → ts[j]? = some t →
        |t.val - min (t₀.val + j * h.val) t₁.val| ≤ 8 * j * R.u * (|t₀.val| + |t₁.val|)) ∧
      ∀ t, ts.getLast? = some t → |t.val - t₁.val| ≤ 3 / 2 * (1 / 10 ^ 10) := by
  obtain ⟨N, τ, X, h1, h2, hs, hτ0, _, hg, hl, hX0, _⟩ := C108_returns (st := fun j => abStep j f) hk
    (fun j N a b c τ X h => abStep_ops hf a (by omega) c τ X h) h0 ht hu hh hS x₀ hM hMk hfuel
  refine ⟨_, _, hs, by simp, by simpa using h2, by simpa using h1, ?_, ?_, ?_, ?_⟩
  · rw [List.head?_map, List.head?_range]; simp [hτ0]
  · rw [List.head?_map, List.head?_range]; simp [hX0]
  · intro j t hj hjt
    rw [List.getElem?_map, Option.map_eq_some_iff] at hjt
    obtain ⟨i, hi, rfl⟩ := hjt
    rw [List.getElem?_eq_some_iff] at hi
    obtain ⟨hi1, rfl⟩ := hi
    simp only [List.getElem_range]
    exact hg j hj
  · intro t hjt
    rw [List.range_succ, List.map_append] at hjt
    simp only [List.map_cons, List.map_nil, List.getLast?_append, List.getLast?_singleton, Option.some_or,
      Option.some.injEq] at hjt
    rw [← hjt]
    exact hl

/-- **C108** `BDF::solve` returns -/
theorem C108_bdf {n : ℕ} {f : Rhs (Fl R)} {g : Fl R → (Fin n → Fl R) → (Fin n → Fl R)} (hf : RhsRepr f g) {k : ℕ}
    (hk : 1 ≤ k) (hk6 : k ≤ 6) {h t₀ t₁ : Fl R} (h0 : 0 < h.val) (ht : t₀.val ≤ t₁.val) (hu : R.u ≤ 1 / 8)
    (hh : 4 * R.u * (|t₀.val| + |t₁.val|) ≤ h.val) (hS : 8 * R.u * (|t₀.val| + |t₁.val|) ≤ 1 / 10 ^ 10)
    (x₀ : Fin n → Fl R) {M fuel : ℕ} (hM : 2 * (t₁.val - t₀.val) < M * h.val) (hMk : k ≤ M + 1) (hfuel : M < fuel) :
    ∃ ts xs, msSolve (fun j => bdfStep j f) fuel k h t₀ t₁ (col x₀) = some (ts, xs) ∧ ts.length = xs.length ∧
      k ≤ ts.length ∧ ts.length ≤ M + 1 ∧ ts.head? = some t₀ ∧ xs.head? = some (col x₀) ∧
      ∀ t, ts.getLast? = some t → |t.val - t₁.val| ≤ 3 / 2 * (1 / 10 ^ 10) := by
  obtain ⟨N, τ, X, h1, h2, hs, hτ0, _, hg, hl, hX0, _⟩ := C108_returns (st := fun j => bdfStep j f) hk
    (fun j N a b c τ X h => bdfStep_ops hf a (by omega) c τ X h) h0 ht hu hh hS x₀ hM hMk hfuel
  refine ⟨_, _, hs, by simp, by simpa using h2, by simpa using h1, ?_, ?_, ?_⟩
  · rw [List.head?_map, List.head?_range]; simp [hτ0]
  · rw [List.head?_map, List.head?_range]; simp [hX0]
  · intro t hjt
    rw [List.range_succ, List.map_append] at hjt
    simp only [List.map_cons, List.map_nil, List.getLast?_append, List.getLast?_singleton, Option.some_or,
      Option.some.injEq] at hjt
    rw [← hjt]
    exact hl

/-- **C108** (when it does not return): if the step size is so small that `t₀ + h` is rounded to `t₀`, the time does not
    advance and the loop never ends. -/
theorem C108_stuck {n : ℕ} {st : ℕ → List (Fl R) → List (Mat (Fl R)) → Fl R → Option (Mat (Fl R))} {k : ℕ} (hk : 1 ≤ k)
    (hst : ∀ j N, 1 ≤ j → j ≤ k → j ≤ N + 1 → ∀ (τ : ℕ → Fl R) (X : ℕ → Fin n → Fl R) (h : Fl R),
      ∃ x : Fin n → Fl R, st j (hist τ N) (hist (fun i => col (X i)) N) h = some (col x))
    {h t₀ t₁ : Fl R} (hh : h ≤ t₁ - t₀) (hstuck : t₀ + h = t₀) (hfar : 1 / ((10 ^ 10 : ℕ) : Fl R) < -(t₀ - t₁))
    (x₀ : Fin n → Fl R) (fuel : ℕ) : msSolve st fuel k h t₀ t₁ (col x₀) = none := by
  have e : ∀ i, tms h t₀ t₁ i = t₀ := by
    intro i
    induction i with
    | zero => rfl
    | succ i ih => rw [tms, ih, min_eq_left hh, hstuck]
  refine msSolve_never hk hst x₀ (fun i _ => ?_) fuel
  rw [e]
  exact lt_of_lt_of_le hfar (le_max_right _ _)

end Round

/-- **C108** (what does not hold): `solve` need not return.  With `f64`, the time span `[2^53, 2^53 + 2]` and the step size
    1, `2^53 + 1` is rounded to `2^53` and the loop runs forever, for each right-hand side and each `k`. -/
theorem C108_returns_violated {n : ℕ} {f : Rhs (Fl f64)} {g : Fl f64 → (Fin n → Fl f64) → (Fin n → Fl f64)}
    (hf : RhsRepr f g) {k : ℕ} (hk : 1 ≤ k) (hk5 : k ≤ 5) (x₀ : Fin n → Fl f64) (fuel : ℕ) :
    msSolve (fun j => abStep j f) fuel k 1 ⟨2 ^ 53⟩ ⟨2 ^ 53 + 2⟩ (col x₀) = none :=
  C108_stuck hk (fun j N a b c τ X h => abStep_ops hf a (by omega) c τ X h) (by decide +kernel) (by decide +kernel)
    (by decide +kernel) x₀ fuel

/-- `x' = x` on `[0, 1]` with the step size `1/4`: at most 9 steps -/
example : ∃ ts xs, msSolve (fun j => abStep j fun _ x => some x) 10 3 (⟨1 / 4⟩ : Fl f64) 0 1
    (col fun _ : Fin 1 => (1 : Fl f64)) = some (ts, xs) ∧ 3 ≤ ts.length ∧ ts.length ≤ 10 ∧ ts.head? = some 0 := by
  obtain ⟨ts, xs, h1, h2, h3, h4, h5, _⟩ := C108_ab (R := f64) (f := fun _ x => some x) (g := fun _ x => x)
    (fun _ _ => rfl) (k := 3) (by norm_num) (by norm_num) (h := ⟨1 / 4⟩) (t₀ := 0) (t₁ := 1) (by decide +kernel)
    (by decide +kernel) (by decide +kernel) (by decide +kernel) (by decide +kernel) (fun _ : Fin 1 => (1 : Fl f64))
    (M := 9) (fuel := 10) (by decide +kernel) (by norm_num) (by norm_num)
  exact ⟨ts, xs, h1, h3, h4, h5⟩

/-- the times and states that are returned -/
example : msSolve (fun j => abStep j fun _ x => some x) 10 2 (⟨1 / 2⟩ : Fl f64) 0 1 (col fun _ : Fin 1 => (1 : Fl f64)) =
    some ([0, ⟨1 / 2⟩, 1], [col ![1], col ![⟨3 / 2⟩], col ![⟨19 / 8⟩]]) := by
  decide +kernel

end Ode
end Verif
