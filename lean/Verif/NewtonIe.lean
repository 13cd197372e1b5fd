import Verif.NewtonIeModel
import Verif.IeeeLoops

/-!
# Property C132: Newton's method for minimisation with NaN, infinities, overflow and underflow
-/

set_option linter.unusedSectionVars false

namespace Verif
namespace Opt
open Ie
variable {p e : ℕ}

theorem newtonSearchG_step {n : ℕ} {eval : Mat (Ie p e) → Option (Mat (Ie p e))} {φ : (Fin n → Ie p e) → Ie p e}
    (hφ : ∀ y, obj eval (col y) = some (φ y)) (sigma : Ie p e) (x d : Fin n → Ie p e) (fx temp : Ie p e) (fuel : ℕ) (alpha : Ie p e) :
    newtonSearchG eval sigma (col x) (col d) fx temp (fuel + 1) alpha =
      if φ (fun i => x i + d i * alpha) > fx + temp * (sigma * alpha)
      then newtonSearchG eval sigma (col x) (col d) fx temp fuel (alpha / 2) else some alpha := by
  rw [newtonSearchG]
  simp only [Ode.col_mulScalar_ops, Ode.col_add_ops, Option.bind_eq_bind, Option.bind_some, hφ]

theorem mul_zero_cases (v : Ie p e) : v * 0 = 0 ∨ v * 0 = nan := by
  cases v with
  | nan => exact Or.inr rfl
  | inf s => right; cases s <;> rfl
  | fin r => left; rw [zero_eq, mul_fin, mul_zero, Ie.round_zero]

theorem not_lt_self (v : Ie p e) : ¬ v < v := by
  intro h
  cases v with
  | nan => cases h
  | inf s => cases s <;> cases h
  | fin r => exact lt_irrefl r (of_decide_eq_true h)

theorem not_nan_lt (v : Ie p e) : ¬ nan < v := by
  intro h
  cases v with
  | nan => cases h
  | inf s => cases s <;> cases h
  | fin r => cases h

/-- **C132** in floating-point arithmetic the line search of Newton's method always ends, whatever the objective, its value at `x`, the
slope and the parameter are (also NaN and infinities), if the direction is finite: at most `e + p - 2` halvings (`f64`: 1075) make the
step size zero -/
theorem C132_search (hp : 1 ≤ p) (he : 2 ≤ e) {n : ℕ} {eval : Mat (Ie p e) → Option (Mat (Ie p e))} {φ : (Fin n → Ie p e) → Ie p e}
    (hφ : ∀ y, obj eval (col y) = some (φ y)) (sigma temp : Ie p e) (x d : Fin n → Ie p e)
    (hx : ∀ i r, x i = fin r → Ie.round p e r = fin r) (hv : ∀ r, φ x = fin r → Ie.round p e r = fin r)
    (hfin : ∀ i, ∃ r, d i = fin r) {fuel : ℕ} (hfuel : e + p - 1 ≤ fuel) :
    ∃ alpha, newtonSearchG eval sigma (col x) (col d) (φ x) temp fuel 1 = some alpha ∧
      ¬ φ (fun i => x i + d i * alpha) > φ x + temp * (sigma * alpha) := by
  have key : ∀ m k fuel, m + k = e + p - 2 → m + 1 ≤ fuel → ∃ alpha,
      newtonSearchG eval sigma (col x) (col d) (φ x) temp fuel (halves p e k) = some alpha ∧
      ¬ φ (fun i => x i + d i * alpha) > φ x + temp * (sigma * alpha) := by
    intro m
    induction m with
    | zero =>
      intro k fuel hk hf
      obtain ⟨fuel, rfl⟩ : ∃ f, fuel = f + 1 := ⟨fuel - 1, by omega⟩
      rw [Nat.zero_add] at hk
      rw [hk, halves_zero hp he, newtonSearchG_step hφ]
      have hxx : (fun i => x i + d i * 0) = x := by
        funext i
        obtain ⟨r, hr⟩ := hfin i
        rw [hr, zero_eq, mul_fin, mul_zero, Ie.round_zero]
        exact IsNum.add_zero (hx i)
      have hc : ¬ φ (fun i => x i + d i * 0) > φ x + temp * (sigma * 0) := by
        rw [hxx, gt_iff_lt]
        rcases mul_zero_cases sigma with h | h
        · rw [h]
          rcases mul_zero_cases temp with h' | h'
          · rw [h', IsNum.add_zero hv]
            exact not_lt_self _
          · rw [h', add_nan]
            exact not_nan_lt _
        · rw [h, mul_nan, add_nan]
          exact not_nan_lt _
      rw [if_neg hc]
      exact ⟨0, rfl, hc⟩
    | succ m ih =>
      intro k fuel hk hf
      obtain ⟨fuel, rfl⟩ : ∃ f, fuel = f + 1 := ⟨fuel - 1, by omega⟩
      rw [newtonSearchG_step hφ]
      split_ifs with hc
      · exact ih (k + 1) fuel (by omega) (by omega)
      · exact ⟨_, rfl, hc⟩
  exact key (e + p - 2) 0 fuel (by omega) (by omega)

/-- **C132** if the objective is NaN at `x`, the full step is made at once (gradient descent hangs there, see `C110`) -/
theorem C132_nan {n : ℕ} {eval : Mat (Ie p e) → Option (Mat (Ie p e))} {φ : (Fin n → Ie p e) → Ie p e}
    (hφ : ∀ y, obj eval (col y) = some (φ y)) (sigma temp : Ie p e) (x d : Fin n → Ie p e) (h : φ x = nan ∨ temp = nan) (fuel : ℕ) :
    newtonSearchG eval sigma (col x) (col d) (φ x) temp (fuel + 1) 1 = some 1 := by
  rw [newtonSearchG_step hφ, if_neg]
  have : φ x + temp * (sigma * 1) = nan := by
    rcases h with h | h
    · rw [h, nan_add]
    · rw [h, nan_mul, add_nan]
  rw [this, gt_iff_lt]
  exact not_nan_lt _

/-- **C132** if the solution of the linear system has a NaN, the negative gradient is taken instead -/
theorem C132_fallback {n : ℕ} (rho : Ie p e) (g s : Fin n → Ie p e) (h : ∃ i, s i = nan) :
    newtonDirG rho (col g) (some (col s)) = some (col fun i => -g i) := by
  obtain ⟨i, hi⟩ := h
  have hn : 0 < n := Nat.lt_of_le_of_lt (Nat.zero_le _) i.2
  have hneg : neg (col g) = col fun i => -g i := (Mat.apply_is (col_is _) _).colRepr_of fun i => by simp [extV_apply]
  simp only [newtonDirG, dotp_ie hn, Option.bind_eq_bind, Option.bind_some, hneg]
  rw [if_neg]
  rw [accum_nan _ i.2 (by rw [dif_pos i.2]; simp only [Fin.eta, hi, mul_nan])]
  intro hc
  cases hh : (-rho * Mat.accum (fun k => if h : k < n then g ⟨k, h⟩ * g ⟨k, h⟩ else 0) n) with
  | nan => rw [hh] at hc; cases hc
  | inf s => rw [hh] at hc; cases s <;> cases hc
  | fin r => rw [hh] at hc; cases hc

/-- **C132** one iteration of `Newton::minimize` returns, whatever the objective is: if the gradient is finite and the solution of the
linear system is finite or has a NaN, the step is along that solution or along the negative gradient, and the accepted point is not
above the line.  Missing: infinite solutions, see `C132_overflow_violated`. -/
theorem C132_step_partial (hp : 1 ≤ p) (he : 2 ≤ e) {n : ℕ} (hn : 0 < n) {solve : Mat (Ie p e) → Mat (Ie p e) → Option (Mat (Ie p e))}
    {eval jac hess : Mat (Ie p e) → Option (Mat (Ie p e))} {φ : (Fin n → Ie p e) → Ie p e} {H : Mat (Ie p e)} {x g s : Fin n → Ie p e}
    (hφ : ∀ y, obj eval (col y) = some (φ y)) (hH : hess (col x) = some H) (hg : gradAt jac (col x) = some (col g))
    (hs : solve H (col fun i => -g i) = some (col s)) (sigma rho : Ie p e) (hx : ∀ i r, x i = fin r → Ie.round p e r = fin r)
    (hv : ∀ r, φ x = fin r → Ie.round p e r = fin r) (hgf : ∀ i, ∃ r, g i = fin r) (hsf : (∀ i, ∃ r, s i = fin r) ∨ ∃ i, s i = nan)
    {fuel : ℕ} (hfuel : e + p - 1 ≤ fuel) :
    ∃ (alpha temp : Ie p e) (d : Fin n → Ie p e), (d = s ∨ d = fun i => -g i) ∧ (col g).dotp (col d) = some temp ∧
      newtonMinStepG solve eval jac hess sigma rho fuel (col x) = some (col fun i => x i + d i * alpha) ∧
      ¬ φ (fun i => x i + d i * alpha) > φ x + temp * (sigma * alpha) := by
  have hneg : neg (col g) = col fun i => -g i := (Mat.apply_is (col_is _) _).colRepr_of fun i => by simp [extV_apply]
  obtain ⟨d, hd, hds, hdf⟩ : ∃ d : Fin n → Ie p e, newtonDirG rho (col g) (some (col s)) = some (col d) ∧ (d = s ∨ d = fun i => -g i) ∧
      ∀ i, ∃ r, d i = fin r := by
    have hgn : ∀ i, ∃ r, -g i = fin r := fun i => by
      obtain ⟨r, hr⟩ := hgf i
      exact ⟨-r, by rw [hr]; rfl⟩
    rcases hsf with hsf | hsn
    · by_cases hc : newtonDirG rho (col g) (some (col s)) = some (col s)
      · exact ⟨s, hc, Or.inl rfl, hsf⟩
      · refine ⟨_, ?_, Or.inr rfl, hgn⟩
        simp only [newtonDirG, dotp_ie hn, Option.bind_eq_bind, Option.bind_some, hneg] at hc ⊢
        split_ifs at hc ⊢ with h1
        · exact absurd rfl hc
        · rfl
    · exact ⟨_, C132_fallback rho g s hsn, Or.inr rfl, hgn⟩
  obtain ⟨alpha, h1, h2⟩ := C132_search hp he hφ sigma
    (Mat.accum (fun k => if h : k < n then g ⟨k, h⟩ * d ⟨k, h⟩ else 0) n) x d hx hv hdf hfuel
  refine ⟨alpha, _, d, hds, dotp_ie hn g d, ?_, h2⟩
  unfold newtonMinStepG
  simp only [hH, hg, hneg, hs, hd, hφ, dotp_ie hn, h1, Option.bind_eq_bind, Option.bind_some, Ode.col_mulScalar_ops, Ode.col_add_ops]

theorem inf_mul_ne (b : Bool) (v : Ie p e) (r : ℚ) : inf b * v ≠ fin r := by
  cases v with
  | nan => intro h; cases h
  | inf s => intro h; cases h
  | fin q =>
    intro h
    change (if q = 0 then (nan : Ie p e) else _) = fin r at h
    split_ifs at h

theorem add_ne (v w : Ie p e) (hw : ∀ r, w ≠ fin r) (r : ℚ) : v + w ≠ fin r := by
  cases w with
  | nan => rw [add_nan]; intro h; cases h
  | inf t =>
    cases v with
    | nan => intro h; cases h
    | inf s =>
      intro h
      change (if s = t then (inf s : Ie p e) else nan) = fin r at h
      split_ifs at h
    | fin q => intro h; cases h
  | fin q => exact absurd rfl (hw q)

/-- **C132 violated**: the returned point is finite if the start, the gradient and the Hessian matrix are.  If the solution of the linear
system overflows in one component and its product with the gradient is small enough (for example `-∞`), it is taken as the direction,
and the line search cannot shorten it: half of infinity is infinity and zero times infinity is NaN.  Whatever the objective is, that
component of the returned vector is infinite or NaN (`newton.rs:93-101` replaces directions that are NaN, but not infinite ones). -/
theorem C132_overflow_violated {n : ℕ} (hn : 0 < n) {solve : Mat (Ie p e) → Mat (Ie p e) → Option (Mat (Ie p e))}
    {eval jac hess : Mat (Ie p e) → Option (Mat (Ie p e))} {H : Mat (Ie p e)} {x g s : Fin n → Ie p e}
    (hH : hess (col x) = some H) (hg : gradAt jac (col x) = some (col g)) (hs : solve H (col fun i => -g i) = some (col s))
    {sigma rho ga gs : Ie p e} (hga : (col g).dotp (col g) = some ga) (hgs : (col g).dotp (col s) = some gs) (hle : gs ≤ -rho * ga)
    {i : Fin n} {b : Bool} (hi : s i = inf b) {fuel : ℕ} {y : Fin n → Ie p e}
    (h : newtonMinStepG solve eval jac hess sigma rho fuel (col x) = some (col y)) (r : ℚ) : y i ≠ fin r := by
  have hneg : neg (col g) = col fun i => -g i := (Mat.apply_is (col_is _) _).colRepr_of fun i => by simp [extV_apply]
  have hd : newtonDirG rho (col g) (some (col s)) = some (col s) := by
    simp only [newtonDirG, hga, hgs, Option.bind_eq_bind, Option.bind_some, if_pos hle]
  unfold newtonMinStepG at h
  simp only [hH, hg, hneg, hs, hd, hgs, Option.bind_eq_bind, Option.bind_some, Option.bind_eq_some_iff, Ode.col_mulScalar_ops,
    Ode.col_add_ops] at h
  obtain ⟨fx, -, alpha, -, hy⟩ := h
  have hy' : (fun i => x i + s i * alpha) = y := by simpa [col] using hy
  rw [← hy']
  change x i + s i * alpha ≠ fin r
  rw [hi]
  exact add_ne _ _ (inf_mul_ne b alpha) r

/-- the solution of a system of one equation -/
def solve1 (H b : Mat (Ie p e)) : Option (Mat (Ie p e)) := do
  let h ← H.get 0 0
  let v ← b.vget 0
  some ⟨1, 1, [v / h]⟩

/-- the objective `x²` -/
def sqIe (v : Mat (Ie p e)) : Option (Mat (Ie p e)) := do
  let x ← v.vget 0
  some ⟨1, 1, [x * x]⟩

/-- its gradient `2 x` -/
def sqGradIe (v : Mat (Ie p e)) : Option (Mat (Ie p e)) := do
  let x ← v.vget 0
  some ⟨1, 1, [fin 2 * x]⟩

/-- `x²` in `f64` at `3`: one iteration leads to the minimum; with the second derivative NaN in place of `2` the negative gradient is
taken, `3 - 6 / 2`.  In a format with 8 bits and exponents up to 16, with the second derivative `2⁻²⁰` the step overflows, and the
result is `-∞` -/
example :
    newtonMinStepG solve1 sqIe sqGradIe (fun _ => some ⟨1, 1, [fin 2]⟩) (fin (1 / 4)) (fin (1 / 1024)) 1100
        (⟨1, 1, [fin 3]⟩ : Mat IeF64) = some ⟨1, 1, [fin 0]⟩ ∧
      newtonMinStepG solve1 sqIe sqGradIe (fun _ => some ⟨1, 1, [nan]⟩) (fin (1 / 4)) (fin (1 / 1024)) 1100
        (⟨1, 1, [fin 3]⟩ : Mat IeF64) = some ⟨1, 1, [fin 0]⟩ ∧
      newtonMinStepG solve1 sqIe sqGradIe (fun _ => some ⟨1, 1, [fin (1 / 2 ^ 20)]⟩) (fin (1 / 4)) (fin (1 / 1024)) 100
        (⟨1, 1, [fin 3]⟩ : Mat (Ie 8 16)) = some ⟨1, 1, [inf true]⟩ := by
  decide +kernel

/-- the line search ends for the objective `x²` in `f64` with every direction of finite numbers, slope and parameter -/
example (sigma temp : IeF64) (d : ℚ) : ∃ alpha, newtonSearchG sqIe sigma (col ![fin 3]) (col ![fin d]) (fin 9) temp 1100 1 = some alpha := by
  have hφ : ∀ y : Fin 1 → IeF64, obj sqIe (col y) = some (y 0 * y 0) := by
    intro y
    have : (col y).vget 0 = some (y 0) := by
      rw [(col_is y).vget_col one_pos, extV_lt _ one_pos]
      rfl
    simp only [obj, sqIe, this, Option.bind_eq_bind, Option.bind_some]
    rfl
  have h9 : (fin 3 * fin 3 : IeF64) = fin 9 := by decide +kernel
  obtain ⟨a, h, -⟩ := C132_search (p := 53) (e := 1024) (by norm_num) (by norm_num) hφ sigma temp ![fin 3] ![fin d]
    (fun i r hr => by
      have : i = 0 := Subsingleton.elim _ _
      subst this
      injection (show (fin 3 : IeF64) = fin r from hr) with hr
      rw [← hr]
      decide +kernel)
    (fun r hr => by
      have : (fin 9 : IeF64) = fin r := h9.symm.trans hr
      injection this with hr
      rw [← hr]
      decide +kernel)
    (fun i => ⟨d, by have : i = 0 := Subsingleton.elim _ _
                     subst this
                     rfl⟩) (fuel := 1100) (by norm_num)
  exact ⟨a, by rw [← h9]; exact h⟩

end Opt
end Verif
