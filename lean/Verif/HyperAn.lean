import Verif.HyperSpec
import Mathlib.Analysis.Calculus.SmoothSeries
import Mathlib.Analysis.SpecialFunctions.Pow.Deriv

/-!
# The Gauss series: derivative, contiguous relations and the differential equation
-/

namespace Verif
namespace Special
open Finset Filter Topology

theorem hs_congr {f g : ℕ → ℝ} {s : ℝ} (h : HasSum f s) (e : ∀ n, g n = f n) : HasSum g s := by
  rw [show g = f from funext e]; exact h

/-- the sum of the Gauss series -/
noncomputable def hyp (a b c z : ℝ) : ℝ := ∑' j, f21Term a b c z j

theorem hyp_eq (a b c z : ℝ) : hyp a b c z = ordinaryHypergeometric a b c z := f21Term_tsum a b c z

theorem term_comm (a b c z : ℝ) (n : ℕ) : f21Term a b c z n = f21Term b a c z n := by
  unfold f21Term
  refine prod_congr rfl fun i _ => ?_
  rw [mul_comm (a + i)]

theorem hyp_comm (a b c z : ℝ) : hyp a b c z = hyp b a c z := tsum_congr (term_comm a b c z)

theorem hyp_zero (a b c : ℝ) : hyp a b c 0 = 1 := by
  rw [hyp_eq, ordinaryHypergeometric_zero]

theorem hyp_hasSum {a b c z : ℝ} (hc : ∀ i : ℕ, c + i ≠ 0) (hz : |z| < 1) : HasSum (f21Term a b c z) (hyp a b c z) :=
  (f21Term_tendsto hc hz).2.hasSum

theorem succ_ok {c : ℝ} (hc : ∀ i : ℕ, c + i ≠ 0) (i : ℕ) : c + 1 + i ≠ 0 := by
  have := hc (i + 1)
  push_cast at this
  intro h
  exact this (by linarith)

theorem term_plus {a b c : ℝ} (hc : ∀ i : ℕ, c + i ≠ 0) (z : ℝ) (n : ℕ) :
    a * b / c * f21Term (a + 1) (b + 1) (c + 1) z n = (a + n) * (b + n) / (c + n) * f21Term a b c z n := by
  have c0 : c ≠ 0 := by simpa using hc 0
  induction n with
  | zero => simp [f21Term_zero]
  | succ n ih =>
    have c1 := hc n
    have c2 := succ_ok hc n
    have c3 : c + ((n + 1 : ℕ) : ℝ) ≠ 0 := hc (n + 1)
    have n1 : (n : ℝ) + 1 ≠ 0 := by positivity
    rw [f21Term_succ, ← mul_assoc, ih, f21Term_succ]
    push_cast at c3 ⊢
    have e : c + 1 + (n : ℝ) = c + (n + 1) := by ring
    rw [e] at c2 ⊢
    field_simp
    ring

theorem term_c {a b c : ℝ} (hc : ∀ i : ℕ, c + i ≠ 0) (z : ℝ) (n : ℕ) :
    f21Term a b (c + 1) z n * (c + n) = c * f21Term a b c z n := by
  induction n with
  | zero => simp [f21Term_zero]
  | succ n ih =>
    have c1 := hc n
    have c2 := succ_ok hc n
    have n1 : (n : ℝ) + 1 ≠ 0 := by positivity
    rw [f21Term_succ, f21Term_succ, ← mul_assoc c, ← ih]
    push_cast
    field_simp
    ring

/-- the derivative of the Gauss series -/
noncomputable def hyp' (a b c z : ℝ) : ℝ := a * b / c * hyp (a + 1) (b + 1) (c + 1) z

theorem hyp'_hasSum {a b c z : ℝ} (hc : ∀ i : ℕ, c + i ≠ 0) (hz : |z| < 1) :
    HasSum (fun n : ℕ => (a + n) * (b + n) / (c + n) * f21Term a b c z n) (hyp' a b c z) := by
  have := (hyp_hasSum (a := a + 1) (b := b + 1) (succ_ok hc) hz).mul_left (a * b / c)
  simp only [term_plus hc] at this
  exact this

theorem term_deriv {a b c : ℝ} (hc : ∀ i : ℕ, c + i ≠ 0) (z : ℝ) (n : ℕ) :
    (n + 1) * f21Term a b c z (n + 1) = z * (a * b / c * f21Term (a + 1) (b + 1) (c + 1) z n) := by
  have c1 := hc n
  have n1 : (n : ℝ) + 1 ≠ 0 := by positivity
  rw [term_plus hc, f21Term_succ]
  field_simp

theorem term_pow (a b c y : ℝ) (n : ℕ) : f21Term a b c y n = f21Term a b c 1 n * y ^ n := by
  induction n with
  | zero => simp [f21Term_zero]
  | succ n ih => rw [f21Term_succ, f21Term_succ, ih]; ring

theorem hyp'_hasSum_nat {a b c z : ℝ} (hc : ∀ i : ℕ, c + i ≠ 0) (hz : |z| < 1) :
    HasSum (fun n : ℕ => n * f21Term a b c z n) (z * hyp' a b c z) := by
  have := ((hyp_hasSum (a := a + 1) (b := b + 1) (succ_ok hc) hz).mul_left (a * b / c)).mul_left z
  rw [← hasSum_nat_add_iff' 1]
  simp only [range_one, sum_singleton, Nat.cast_zero, zero_mul, sub_zero]
  refine hs_congr this fun n => ?_
  rw [← term_deriv hc]
  push_cast
  ring

theorem hyp_hasDerivAt {a b c z : ℝ} (hc : ∀ i : ℕ, c + i ≠ 0) (hz : |z| < 1) :
    HasDerivAt (hyp a b c) (hyp' a b c z) z := by
  obtain ⟨r, hr1, hr2⟩ := exists_between hz
  have hr0 : 0 < r := (abs_nonneg z).trans_lt hr1
  have hrabs : |r| < 1 := by rwa [abs_of_pos hr0]
  have c0 : c ≠ 0 := by simpa using hc 0
  set v : ℕ → ℝ := fun n => a * b / c * f21Term (a + 1) (b + 1) (c + 1) 1 n with hv
  have hder : ∀ n : ℕ, f21Term a b c 1 (n + 1) * ((n + 1 : ℕ) : ℝ) = v n := by
    intro n
    have := term_deriv (a := a) (b := b) hc 1 n
    push_cast
    rw [hv]
    linarith
  have hsum : ∀ y, |y| < 1 → HasSum (fun n => v n * y ^ n) (hyp' a b c y) := by
    intro y hy
    have := (hyp_hasSum (a := a + 1) (b := b + 1) (succ_ok hc) hy).mul_left (a * b / c)
    refine hs_congr this fun n => ?_
    rw [hv, term_pow _ _ _ y]
    ring
  have key := hasDerivAt_tsum_of_isPreconnected (𝕜 := ℝ) (F := ℝ) (g := fun (n : ℕ) (y : ℝ) => f21Term a b c y n)
    (g' := fun (n : ℕ) (y : ℝ) => f21Term a b c 1 n * (n * y ^ (n - 1))) (t := Metric.ball 0 r)
    (u := fun n => if n = 0 then 0 else |v (n - 1) * r ^ (n - 1)|) (y₀ := 0) (y := z) ?_ Metric.isOpen_ball
    (convex_ball (0 : ℝ) r).isPreconnected ?_ ?_ (by simpa using hr0) ?_ (by simpa using hr1)
  · have e : ∑' n : ℕ, f21Term a b c 1 n * (n * z ^ (n - 1)) = hyp' a b c z := by
      refine HasSum.tsum_eq ?_
      rw [← hasSum_nat_add_iff' 1]
      simp only [range_one, sum_singleton, Nat.cast_zero, zero_mul, mul_zero, sub_zero, Nat.add_sub_cancel]
      refine hs_congr (hsum z hz) fun n => ?_
      rw [← mul_assoc, hder]
    rw [e] at key
    exact key
  · rw [← summable_nat_add_iff 1]
    simpa using (hsum r hrabs).summable.abs
  · intro n y _
    have : (fun y => f21Term a b c y n) = fun y => f21Term a b c 1 n * y ^ n := by
      funext y; exact term_pow a b c y n
    rw [this]
    exact (hasDerivAt_pow n y).const_mul _
  · intro n y hy
    have hy' : |y| < r := by simpa using hy
    cases n with
    | zero => simp
    | succ n =>
      simp only [Nat.add_sub_cancel, Nat.succ_ne_zero, if_false]
      rw [← mul_assoc, hder, Real.norm_eq_abs, abs_mul (v n), abs_mul (v n), abs_pow, abs_pow, abs_of_pos hr0]
      exact mul_le_mul_of_nonneg_left (pow_le_pow_left₀ (abs_nonneg _) hy'.le n) (abs_nonneg _)
  · exact (hyp_hasSum (a := a) (b := b) hc (by simp)).summable

/-! ## Contiguous relations -/

/-- from `c + 1` to `c` -/
theorem hyp_lower {a b c z : ℝ} (hc : ∀ i : ℕ, c + i ≠ 0) (hz : |z| < 1) :
    c * hyp a b (c + 1) z + z * hyp' a b (c + 1) z = c * hyp a b c z := by
  have h1 := ((hyp_hasSum (a := a) (b := b) (succ_ok hc) hz).mul_left c).add (hyp'_hasSum_nat (a := a) (b := b) (succ_ok hc) hz)
  have h2 := (hyp_hasSum (a := a) (b := b) hc hz).mul_left c
  refine h1.unique ?_
  refine hs_congr h2 fun n => ?_
  rw [← term_c hc]
  ring

/-- from `c` to `c + 1` -/
theorem hyp_raise {a b c z : ℝ} (hc : ∀ i : ℕ, c + i ≠ 0) (hz : |z| < 1) :
    (1 - z) * hyp' a b c z - (a + b - c) * hyp a b c z = (c - a) * (c - b) / c * hyp a b (c + 1) z := by
  have c0 : c ≠ 0 := by simpa using hc 0
  have h1 := ((hyp'_hasSum (a := a) (b := b) hc hz).sub (hyp'_hasSum_nat (a := a) (b := b) hc hz)).sub
    ((hyp_hasSum (a := a) (b := b) hc hz).mul_left (a + b - c))
  have h2 := (hyp_hasSum (a := a) (b := b) (succ_ok hc) hz).mul_left ((c - a) * (c - b) / c)
  rw [show (1 - z) * hyp' a b c z - (a + b - c) * hyp a b c z
    = hyp' a b c z - z * hyp' a b c z - (a + b - c) * hyp a b c z by ring]
  refine h1.unique ?_
  refine hs_congr h2 fun n => ?_
  have c1 := hc n
  have e : f21Term a b (c + 1) z n = c * f21Term a b c z n / (c + n) := by
    rw [eq_div_iff c1]; exact term_c hc z n
  rw [e]
  field_simp
  ring

/-- from `a + 1`, `b + 1`, `c + 1` to `a`, `b`, `c` -/
theorem hyp_down {a b c z : ℝ} (hc : ∀ i : ℕ, c + i ≠ 0) (hz : |z| < 1) :
    z * (1 - z) * hyp' (a + 1) (b + 1) (c + 1) z + (c - (a + b + 1) * z) * hyp (a + 1) (b + 1) (c + 1) z
      = c * hyp a b c z := by
  have c0 : c ≠ 0 := by simpa using hc 0
  have h1 := (hyp'_hasSum_nat (a := a + 1) (b := b + 1) (succ_ok hc) hz).add
    ((hyp_hasSum (a := a + 1) (b := b + 1) (succ_ok hc) hz).mul_left c)
  have h2 := ((hyp'_hasSum_nat (a := a + 1) (b := b + 1) (succ_ok hc) hz).add
    ((hyp_hasSum (a := a + 1) (b := b + 1) (succ_ok hc) hz).mul_left (a + b + 1))).mul_left z
  have h3 := (hyp_hasSum (a := a) (b := b) hc hz).mul_left c
  rw [← hasSum_nat_add_iff' 1] at h1 h3
  have h4 := h1.sub h2
  have h5 := h4.unique (by
    refine hs_congr h3 fun n => ?_
    have n1 : (n : ℝ) + 1 ≠ 0 := by positivity
    have c1 := succ_ok hc n
    have e : c * f21Term a b c z (n + 1) = z * (a * b * f21Term (a + 1) (b + 1) (c + 1) z n) / (n + 1) := by
      rw [eq_div_iff n1]
      have := term_deriv (a := a) (b := b) hc z n
      calc c * f21Term a b c z (n + 1) * (n + 1) = c * ((n + 1) * f21Term a b c z (n + 1)) := by ring
        _ = _ := by rw [this]; field_simp
    rw [e, f21Term_succ]
    push_cast
    field_simp
    ring)
  simp only [range_one, sum_singleton, f21Term_zero, Nat.cast_zero] at h5
  linarith

/-! ## The differential equation -/

/-- `u` solves the hypergeometric equation with the parameters `a`, `b`, `c` on `(0, 1)`; `u'` and `u''` are its derivatives -/
structure Sol (a b c : ℝ) (u u' u'' : ℝ → ℝ) : Prop where
  d1 : ∀ z ∈ Set.Ioo (0 : ℝ) 1, HasDerivAt u (u' z) z
  d2 : ∀ z ∈ Set.Ioo (0 : ℝ) 1, HasDerivAt u' (u'' z) z
  ode : ∀ z ∈ Set.Ioo (0 : ℝ) 1, z * (1 - z) * u'' z + (c - (a + b + 1) * z) * u' z - a * b * u z = 0

theorem abs_lt_of_mem {z : ℝ} (h : z ∈ Set.Ioo (0 : ℝ) 1) : |z| < 1 := by
  rw [abs_of_pos h.1]; exact h.2

theorem one_sub_mem {z : ℝ} (h : z ∈ Set.Ioo (0 : ℝ) 1) : 1 - z ∈ Set.Ioo (0 : ℝ) 1 :=
  ⟨by linarith [h.2], by linarith [h.1]⟩

theorem sol_hyp {a b c : ℝ} (hc : ∀ i : ℕ, c + i ≠ 0) :
    Sol a b c (hyp a b c) (hyp' a b c) (fun z => a * b / c * hyp' (a + 1) (b + 1) (c + 1) z) where
  d1 z hz := hyp_hasDerivAt hc (abs_lt_of_mem hz)
  d2 z hz := (hyp_hasDerivAt (succ_ok hc) (abs_lt_of_mem hz)).const_mul _
  ode z hz := by
    have c0 : c ≠ 0 := by simpa using hc 0
    have h := hyp_down (a := a) (b := b) hc (abs_lt_of_mem hz)
    have e : a * b * hyp a b c z = a * b / c * (c * hyp a b c z) := by field_simp
    rw [e, ← h]
    show _ + _ * (a * b / c * hyp (a + 1) (b + 1) (c + 1) z) - _ = 0
    ring

theorem Sol.reflect {a b c : ℝ} {u u' u'' : ℝ → ℝ} (h : Sol a b c u u' u'') :
    Sol a b (a + b + 1 - c) (fun z => u (1 - z)) (fun z => -u' (1 - z)) (fun z => u'' (1 - z)) where
  d1 z hz := by
    exact (h.d1 _ (one_sub_mem hz)).comp_const_sub 1 z
  d2 z hz := by
    exact ((h.d2 _ (one_sub_mem hz)).comp_const_sub 1 z).neg.congr_deriv (neg_neg _)
  ode z hz := by
    have := h.ode _ (one_sub_mem hz)
    linear_combination this

/-- multiplication with a power of `1 - z` -/
theorem Sol.factor {a b c : ℝ} {u u' u'' : ℝ → ℝ} (h : Sol (c - a) (c - b) c u u' u'') :
    Sol a b c (fun z => (1 - z) ^ (c - a - b) * u z)
      (fun z => (1 - z) ^ (c - a - b - 1) * ((1 - z) * u' z - (c - a - b) * u z))
      (fun z => (1 - z) ^ (c - a - b - 2) *
        ((1 - z) ^ 2 * u'' z - 2 * (c - a - b) * (1 - z) * u' z + (c - a - b) * (c - a - b - 1) * u z)) where
  d1 z hz := by
    have hz1 : 0 < 1 - z := by linarith [hz.2]
    have h1 := ((hasDerivAt_id' z).const_sub 1).rpow_const (p := c - a - b) (Or.inl hz1.ne')
    have h2 := h1.mul (h.d1 z hz)
    refine h2.congr_deriv ?_
    rw [show c - a - b = (c - a - b - 1) + 1 by ring, Real.rpow_add hz1, Real.rpow_one]
    ring_nf
  d2 z hz := by
    have hz1 : 0 < 1 - z := by linarith [hz.2]
    have h1 := ((hasDerivAt_id' z).const_sub 1).rpow_const (p := c - a - b - 1) (Or.inl hz1.ne')
    have h3 := ((((hasDerivAt_id' z).const_sub 1).mul (h.d2 z hz)).sub ((h.d1 z hz).const_mul (c - a - b)))
    have h2 := h1.mul h3
    refine h2.congr_deriv ?_
    simp only [Pi.mul_apply, Pi.sub_apply]
    rw [show c - a - b - 1 - 1 = c - a - b - 2 by ring, show c - a - b - 1 = (c - a - b - 2) + 1 by ring,
      Real.rpow_add hz1, Real.rpow_one]
    ring
  ode z hz := by
    have hz1 : 0 < 1 - z := by linarith [hz.2]
    have e1 : (1 - z) ^ (c - a - b - 1) = (1 - z) ^ (c - a - b - 2) * (1 - z) := by
      rw [show c - a - b - 1 = (c - a - b - 2) + 1 by ring, Real.rpow_add hz1, Real.rpow_one]
    have e2 : (1 - z) ^ (c - a - b) = (1 - z) ^ (c - a - b - 2) * (1 - z) ^ 2 := by
      rw [show c - a - b = (c - a - b - 2) + 2 by ring, Real.rpow_add hz1]
      norm_num
    have := h.ode z hz
    rw [e1, e2]
    linear_combination (1 - z) ^ (c - a - b - 2) * (1 - z) ^ 2 * this

/-- the Wronskian of two solutions (Abel) -/
theorem Sol.wronskian {a b c : ℝ} {u u' u'' v v' v'' : ℝ → ℝ} (hu : Sol a b c u u' u'') (hv : Sol a b c v v' v'') :
    ∃ k : ℝ, ∀ z ∈ Set.Ioo (0 : ℝ) 1, z ^ c * (1 - z) ^ (a + b + 1 - c) * (u z * v' z - u' z * v z) = k := by
  have hd : ∀ z ∈ Set.Ioo (0 : ℝ) 1,
      HasDerivAt (fun z => z ^ c * (1 - z) ^ (a + b + 1 - c) * (u z * v' z - u' z * v z)) 0 z := by
    intro z hz
    have hz1 : 0 < 1 - z := by linarith [hz.2]
    have h1 := (hasDerivAt_id' z).rpow_const (p := c) (Or.inl hz.1.ne')
    have h2 := ((hasDerivAt_id' z).const_sub 1).rpow_const (p := a + b + 1 - c) (Or.inl hz1.ne')
    have h3 := ((hu.d1 z hz).mul (hv.d2 z hz)).sub ((hu.d2 z hz).mul (hv.d1 z hz))
    have h4 := (h1.mul h2).mul h3
    refine h4.congr_deriv ?_
    have o1 := hu.ode z hz
    have o2 := hv.ode z hz
    have e1 : z ^ c = z ^ (c - 1) * z := by
      nth_rw 1 [show c = (c - 1) + 1 by ring]; rw [Real.rpow_add hz.1, Real.rpow_one]
    have e2 : (1 - z) ^ (a + b + 1 - c) = (1 - z) ^ (a + b + 1 - c - 1) * (1 - z) := by
      nth_rw 1 [show a + b + 1 - c = (a + b + 1 - c - 1) + 1 by ring]; rw [Real.rpow_add hz1, Real.rpow_one]
    simp only [Pi.mul_apply, Pi.sub_apply]
    rw [e1, e2]
    linear_combination (z ^ (c - 1) * (1 - z) ^ (a + b + 1 - c - 1)) * (u z * o2 - v z * o1)
  refine ⟨_, fun z hz => (isOpen_Ioo.is_const_of_deriv_eq_zero isPreconnected_Ioo
    (fun z hz => (hd z hz).differentiableAt.differentiableWithinAt) (fun z hz => (hd z hz).deriv) hz
    (⟨by norm_num, by norm_num⟩ : (1 / 2 : ℝ) ∈ Set.Ioo (0 : ℝ) 1))⟩

end Special
end Verif
