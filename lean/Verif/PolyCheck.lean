import Mathlib.Analysis.Calculus.MeanValue
import Mathlib.Analysis.Calculus.Deriv.Mul
import Mathlib.Tactic.Linarith
import Mathlib.Tactic.Positivity

/-!
# Checked bounds of rational functions

Polynomials with integer coefficients as lists, constant coefficient first.  The point of this file is a computation on
integers (`chain`) whose success bounds a quotient `P / Q` on a whole interval; it is used to bound the error of the
rational approximations of the quantile functions.
-/

namespace Verif
namespace PC

/-- the value of a polynomial -/
noncomputable def ev : List ℤ → ℝ → ℝ
  | [], _ => 0
  | c :: p, x => c + x * ev p x

/-- sum -/
def add : List ℤ → List ℤ → List ℤ
  | [], q => q
  | p, [] => p
  | a :: p, b :: q => (a + b) :: add p q

/-- product with an integer -/
def smul (c : ℤ) : List ℤ → List ℤ
  | [] => []
  | a :: p => c * a :: smul c p

/-- product -/
def mul : List ℤ → List ℤ → List ℤ
  | [], _ => []
  | a :: p, q => add (smul a q) (0 :: mul p q)

/-- derivative -/
def der : List ℤ → List ℤ
  | [] => []
  | _ :: p => add p (0 :: der p)

/-- the polynomial `p (m + y)` in `y` -/
def shift (m : ℤ) : List ℤ → List ℤ
  | [] => []
  | c :: p => let s := shift m p; add [c] (add (smul m s) (0 :: s))

/-- `∑ |c_k| h ^ k` -/
def asum (h : ℤ) : List ℤ → ℤ
  | [] => 0
  | c :: p => (c.natAbs : ℤ) + h * asum h p

/-- a lower bound of the polynomial on `[-h, h]` -/
def lower (h : ℤ) : List ℤ → ℤ
  | [] => 0
  | c :: p => c - h * asum h p

/-- `|P / Q| ≤ 1 / Δ`, `0 < Q` and `0 < B` on `[m - h, m + h]` -/
def check (P Q B : List ℤ) (m h Δ : ℤ) : Bool :=
  decide (Δ * asum h (shift m P) ≤ lower h (shift m Q)) && decide (0 < lower h (shift m Q)) &&
    decide (0 < lower h (shift m B)) && decide (0 < Δ) && decide (0 ≤ h)

/-- `check` on the consecutive intervals of lengths `2 h`, `(h, Δ) ∈ s`, starting at `lo` -/
def chain (P Q B : List ℤ) : ℤ → List (ℤ × ℤ) → Bool
  | _, [] => true
  | lo, (h, Δ) :: s => check P Q B (lo + h) h Δ && chain P Q B (lo + 2 * h) s

/-- the right end of the intervals -/
def hiOf (lo : ℤ) : List (ℤ × ℤ) → ℤ
  | [] => lo
  | (h, _) :: s => hiOf (lo + 2 * h) s

/-- the sum of the lengths times the bounds -/
def tot : List (ℤ × ℤ) → ℚ
  | [] => 0
  | (h, Δ) :: s => 2 * h / Δ + tot s

theorem chain_append (P Q B : List ℤ) (lo : ℤ) (s t : List (ℤ × ℤ)) :
    chain P Q B lo (s ++ t) = (chain P Q B lo s && chain P Q B (hiOf lo s) t) := by
  induction s generalizing lo with
  | nil => simp [chain, hiOf]
  | cons c s ih => simp [chain, hiOf, ih, Bool.and_assoc]

theorem ev_add (p q : List ℤ) (x : ℝ) : ev (add p q) x = ev p x + ev q x := by
  induction p generalizing q with
  | nil => simp [add, ev]
  | cons a p ih =>
    cases q with
    | nil => simp [add, ev]
    | cons b q => simp only [add, ev, ih]; push_cast; ring

theorem ev_smul (c : ℤ) (p : List ℤ) (x : ℝ) : ev (smul c p) x = c * ev p x := by
  induction p with
  | nil => simp [smul, ev]
  | cons a p ih => simp only [smul, ev, ih]; push_cast; ring

theorem ev_mul (p q : List ℤ) (x : ℝ) : ev (mul p q) x = ev p x * ev q x := by
  induction p with
  | nil => simp [mul, ev]
  | cons a p ih => simp only [mul, ev, ev_add, ev_smul, ih]; push_cast; ring

theorem ev_hasDerivAt (p : List ℤ) (x : ℝ) : HasDerivAt (ev p) (ev (der p) x) x := by
  induction p with
  | nil => simpa [ev, der] using hasDerivAt_const x (0 : ℝ)
  | cons a p ih =>
    have := ((hasDerivAt_id x).mul ih).const_add (a : ℝ)
    simp only [id, one_mul] at this
    have e : ev (der (a :: p)) x = ev p x + x * ev (der p) x := by
      simp only [der, ev_add, ev]; push_cast; ring
    rw [e]
    exact this

theorem ev_shift (m : ℤ) (p : List ℤ) (y : ℝ) : ev (shift m p) y = ev p (m + y) := by
  induction p with
  | nil => simp [shift, ev]
  | cons a p ih => simp only [shift, ev_add, ev_smul, ev, ih]; push_cast; ring

theorem asum_nonneg {h : ℤ} (hh : 0 ≤ h) (p : List ℤ) : 0 ≤ asum h p := by
  induction p with
  | nil => simp [asum]
  | cons a p ih => simp only [asum]; positivity

theorem abs_ev_le {h : ℤ} {y : ℝ} (hy : |y| ≤ h) (p : List ℤ) : |ev p y| ≤ asum h p := by
  have hh : (0 : ℝ) ≤ h := (abs_nonneg y).trans hy
  induction p with
  | nil => simp [ev, asum]
  | cons a p ih =>
    simp only [ev, asum, Int.natCast_natAbs]; push_cast
    calc |(a : ℝ) + y * ev p y| ≤ |(a : ℝ)| + |y| * |ev p y| := by
          rw [← abs_mul]; exact abs_add_le _ _
      _ ≤ |(a : ℝ)| + h * asum h p := by
          have := mul_le_mul hy ih (abs_nonneg _) hh
          linarith

theorem lower_le {h : ℤ} {y : ℝ} (hy : |y| ≤ h) (p : List ℤ) : (lower h p : ℝ) ≤ ev p y := by
  have hh : (0 : ℝ) ≤ h := (abs_nonneg y).trans hy
  cases p with
  | nil => simp [ev, lower]
  | cons a p =>
    simp only [ev, lower]; push_cast
    have h1 : |y * ev p y| ≤ h * asum h p := by
      rw [abs_mul]; exact mul_le_mul hy (abs_ev_le hy p) (abs_nonneg _) hh
    have := (abs_le.1 h1).1
    linarith

theorem check_sound {P Q B : List ℤ} {m h Δ : ℤ} (hc : check P Q B m h Δ = true) {x : ℝ}
    (hx : |x - m| ≤ h) : |ev P x / ev Q x| ≤ 1 / Δ ∧ 0 < ev Q x ∧ 0 < ev B x ∧ 0 < Δ := by
  simp only [check, Bool.and_eq_true, decide_eq_true_eq] at hc
  obtain ⟨⟨⟨⟨c1, c2⟩, c3⟩, c4⟩, c5⟩ := hc
  have e : ∀ p, ev (shift m p) (x - m) = ev p x := fun p => by rw [ev_shift]; congr 1; ring
  have hP := abs_ev_le hx (shift m P)
  have hQ := lower_le hx (shift m Q)
  have hB := lower_le hx (shift m B)
  rw [e] at hP hQ hB
  have q0 : (0 : ℝ) < lower h (shift m Q) := by exact_mod_cast c2
  have b0 : (0 : ℝ) < lower h (shift m B) := by exact_mod_cast c3
  have d0 : (0 : ℝ) < Δ := by exact_mod_cast c4
  have c1' : (Δ : ℝ) * asum h (shift m P) ≤ lower h (shift m Q) := by exact_mod_cast c1
  refine ⟨?_, by linarith, by linarith, c4⟩
  rw [abs_div, abs_of_pos (by linarith : 0 < ev Q x), div_le_div_iff₀ (by linarith) d0]
  nlinarith [mul_le_mul_of_nonneg_left hP d0.le]

theorem hiOf_ge {P Q B : List ℤ} (s : List (ℤ × ℤ)) : ∀ lo, chain P Q B lo s = true → lo ≤ hiOf lo s := by
  induction s with
  | nil => intro lo _; simp [hiOf]
  | cons a s ih =>
    intro lo hc
    obtain ⟨h, Δ⟩ := a
    simp only [chain, Bool.and_eq_true] at hc
    have h0 : 0 ≤ h := by
      have := hc.1
      simp only [check, Bool.and_eq_true, decide_eq_true_eq] at this
      exact this.2
    have := ih _ hc.2
    simp only [hiOf]; linarith

/-- The denominators are positive on the intervals of a successful `chain`. -/
theorem chain_pos {P Q B : List ℤ} (s : List (ℤ × ℤ)) : ∀ lo, chain P Q B lo s = true → s ≠ [] →
    ∀ x : ℝ, lo ≤ x → x ≤ hiOf lo s → 0 < ev Q x ∧ 0 < ev B x := by
  induction s with
  | nil => intro lo _ h; exact absurd rfl h
  | cons a s ih =>
    intro lo hc _ x hx1 hx2
    obtain ⟨h, Δ⟩ := a
    simp only [chain, Bool.and_eq_true] at hc
    by_cases c : x ≤ lo + 2 * h
    · have := check_sound hc.1 (x := x) (by rw [abs_le]; push_cast; constructor <;> linarith)
      exact ⟨this.2.1, this.2.2.1⟩
    · push Not at c
      simp only [hiOf] at hx2
      by_cases hs : s = []
      · subst hs
        simp only [hiOf] at hx2; push_cast at hx2; linarith
      · exact ih _ hc.2 hs x (by push_cast; exact c.le) hx2

/-- A function with derivative `P / Q` varies by at most `tot` on the intervals of a successful `chain`. -/
theorem chain_sound {P Q B : List ℤ} (g : ℝ → ℝ) (s : List (ℤ × ℤ)) : ∀ lo, chain P Q B lo s = true →
    (∀ x : ℝ, lo ≤ x → x ≤ hiOf lo s → 0 < ev Q x → 0 < ev B x → HasDerivAt g (ev P x / ev Q x) x) →
    ∀ x : ℝ, lo ≤ x → x ≤ hiOf lo s → |g x - g lo| ≤ tot s := by
  induction s with
  | nil =>
    intro lo _ _ x h1 h2
    simp only [hiOf] at h2
    rw [le_antisymm h2 h1]; simp [tot]
  | cons a s ih =>
    intro lo hc hd x h1 h2
    obtain ⟨h, Δ⟩ := a
    simp only [chain, Bool.and_eq_true] at hc
    have hge := hiOf_ge s _ hc.2
    have hgeR : ((lo : ℝ) + 2 * h) ≤ hiOf (lo + 2 * h) s := by exact_mod_cast hge
    simp only [hiOf] at h2 hd
    have hin : ∀ y : ℝ, lo ≤ y → y ≤ lo + 2 * h → |ev P y / ev Q y| ≤ 1 / Δ ∧ 0 < ev Q y ∧ 0 < ev B y ∧ 0 < Δ :=
      fun y a b => check_sound hc.1 (by rw [abs_le]; push_cast; constructor <;> linarith)
    have hseg : ∀ y : ℝ, lo ≤ y → y ≤ lo + 2 * h → |g y - g lo| ≤ 1 / Δ * (y - lo) := fun y a b => by
      have := Convex.norm_image_sub_le_of_norm_hasDerivWithin_le (f := g) (f' := fun y => ev P y / ev Q y)
        (s := Set.Icc (lo : ℝ) (lo + 2 * h)) (C := 1 / Δ) (x := lo) (y := y)
        (fun z hz => (hd z hz.1 (hz.2.trans hgeR) (hin z hz.1 hz.2).2.1 (hin z hz.1 hz.2).2.2.1).hasDerivWithinAt)
        (fun z hz => (hin z hz.1 hz.2).1) (convex_Icc _ _) ⟨le_refl _, a.trans b⟩ ⟨a, b⟩
      rwa [Real.norm_eq_abs, Real.norm_eq_abs, abs_of_nonneg (by linarith : 0 ≤ y - lo)] at this
    have hh : (0 : ℝ) ≤ h := by
      have := hc.1
      simp only [check, Bool.and_eq_true, decide_eq_true_eq] at this
      exact_mod_cast this.2
    have hΔ : (0 : ℝ) < Δ := by
      exact_mod_cast (hin lo le_rfl (by linarith)).2.2.2
    have htot : ∀ s lo, chain P Q B lo s = true → (0 : ℚ) ≤ tot s := by
      intro s
      induction s with
      | nil => intro _ _; simp [tot]
      | cons a s ih' =>
        intro lo hc
        obtain ⟨h, Δ⟩ := a
        simp only [chain, Bool.and_eq_true] at hc
        have hc1 := hc.1
        simp only [check, Bool.and_eq_true, decide_eq_true_eq] at hc1
        have := ih' _ hc.2
        have h0 : (0 : ℚ) ≤ h := by exact_mod_cast hc1.2
        have h1 : (0 : ℚ) ≤ Δ := by exact_mod_cast hc1.1.2.le
        simp only [tot]; positivity
    have ht : (0 : ℝ) ≤ (tot s : ℝ) := by exact_mod_cast htot s _ hc.2
    simp only [tot]; push_cast
    by_cases c : x ≤ lo + 2 * h
    · have h3 := hseg x h1 c
      have : 1 / (Δ : ℝ) * (x - lo) ≤ 2 * h / Δ := by
        rw [div_mul_eq_mul_div, one_mul]; exact div_le_div_of_nonneg_right (by linarith) hΔ.le
      linarith
    · push Not at c
      have h3 := ih (lo + 2 * h) hc.2 (fun y a b => hd y (by push_cast at a; linarith) b) x (by push_cast; exact c.le) h2
      have h4 := hseg (lo + 2 * h) (by linarith) le_rfl
      push_cast at h3
      have : 1 / (Δ : ℝ) * (lo + 2 * h - lo) = 2 * h / Δ := by ring
      rw [this] at h4
      calc |g x - g lo| = |(g x - g (lo + 2 * h)) + (g (lo + 2 * h) - g lo)| := by congr 1; ring
        _ ≤ _ := abs_add_le _ _
        _ ≤ _ := by linarith

end PC
end Verif
