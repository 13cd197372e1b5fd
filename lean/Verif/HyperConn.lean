import Verif.HyperEuler

/-!
# The connection formula between `z` and `1 - z`
-/

namespace Verif
namespace Special
open Finset Filter Topology

theorem hyp_tendsto_zero {a b c : ℝ} (hc : ∀ i : ℕ, c + i ≠ 0) : Tendsto (hyp a b c) (𝓝[>] 0) (𝓝 1) := by
  have := (hyp_hasDerivAt (a := a) (b := b) hc (by simp : |(0 : ℝ)| < 1)).continuousAt.tendsto
  rw [hyp_zero] at this
  exact this.mono_left nhdsWithin_le_nhds

theorem hyp'_tendsto_zero {a b c : ℝ} (hc : ∀ i : ℕ, c + i ≠ 0) : Tendsto (hyp' a b c) (𝓝[>] 0) (𝓝 (a * b / c)) := by
  have := (hyp_tendsto_zero (a := a + 1) (b := b + 1) (succ_ok hc)).const_mul (a * b / c)
  rwa [mul_one] at this

theorem one_sub_tendsto : Tendsto (fun z : ℝ => 1 - z) (𝓝[<] 1) (𝓝[>] 0) := by
  refine tendsto_nhdsWithin_of_tendsto_nhds_of_eventually_within _ ?_ ?_
  · have : Tendsto (fun z : ℝ => 1 - z) (𝓝 1) (𝓝 (1 - 1)) := tendsto_id.const_sub 1
    rw [sub_self] at this
    exact this.mono_left nhdsWithin_le_nhds
  · filter_upwards [self_mem_nhdsWithin] with z hz
    simpa using hz

theorem rpow_tendsto_zero {p : ℝ} (hp : 0 < p) : Tendsto (fun z : ℝ => z ^ p) (𝓝[>] 0) (𝓝 0) := by
  have := (Real.continuousAt_rpow_const 0 p (Or.inr hp.le)).tendsto
  rw [Real.zero_rpow hp.ne'] at this
  exact this.mono_left nhdsWithin_le_nhds

theorem ev01 : ∀ᶠ z : ℝ in 𝓝[>] 0, z ∈ Set.Ioo (0 : ℝ) 1 := Ioo_mem_nhdsGT one_pos
theorem ev10 : ∀ᶠ z : ℝ in 𝓝[<] 1, z ∈ Set.Ioo (0 : ℝ) 1 := Ioo_mem_nhdsLT one_pos

theorem hyp_pos {a b c z : ℝ} (ha : 0 < a) (hb : 0 < b) (hc : 0 < c) (hz : z ∈ Set.Ioo (0 : ℝ) 1) : 0 < hyp a b c z := by
  refine (hyp_hasSum (a := a) (b := b) (pos_ok hc) (abs_lt_of_mem hz)).summable.tsum_pos
    (f21Term_nonneg ha hb hc hz.1.le) 0 ?_
  rw [f21Term_zero]
  exact one_pos

/-- Euler's transformation -/
theorem hyp_euler {a b c z : ℝ} (ha : 0 < a) (hb : 0 < b) (hc : 0 < c) (hz : z ∈ Set.Ioo (0 : ℝ) 1) :
    hyp a b c z = (1 - z) ^ (c - a - b) * hyp (c - a) (c - b) c z := by
  have ok := pos_ok hc
  have s1 := sol_hyp (a := a) (b := b) ok
  have s2 := (sol_hyp (a := c - a) (b := c - b) ok).factor
  obtain ⟨k, hk⟩ := s1.wronskian s2
  have one : Tendsto (fun z : ℝ => 1 - z) (𝓝[>] 0) (𝓝 1) := by
    have : Tendsto (fun z : ℝ => 1 - z) (𝓝 0) (𝓝 (1 - 0)) := tendsto_id.const_sub 1
    rw [sub_zero] at this
    exact this.mono_left nhdsWithin_le_nhds
  have onep : ∀ p : ℝ, Tendsto (fun z : ℝ => (1 - z) ^ p) (𝓝[>] 0) (𝓝 1) := by
    intro p
    have := one.rpow_const (p := p) (Or.inl one_ne_zero)
    rwa [Real.one_rpow] at this
  have k0 : k = 0 := by
    have h1 := ((rpow_tendsto_zero hc).mul (onep (a + b + 1 - c))).mul
      (((hyp_tendsto_zero (a := a) (b := b) ok).mul ((onep (c - a - b - 1)).mul
        ((one.mul (hyp'_tendsto_zero (a := c - a) (b := c - b) ok)).sub
          ((hyp_tendsto_zero (a := c - a) (b := c - b) ok).const_mul (c - a - b))))).sub
        ((hyp'_tendsto_zero (a := a) (b := b) ok).mul ((onep (c - a - b)).mul (hyp_tendsto_zero (a := c - a) (b := c - b) ok))))
    simp only [zero_mul] at h1
    refine tendsto_nhds_unique (tendsto_const_nhds.congr' ?_) h1
    filter_upwards [ev01] with z hz
    exact (hk z hz).symm
  set v := fun z => (1 - z) ^ (c - a - b) * hyp (c - a) (c - b) c z with hv
  have hd : ∀ z ∈ Set.Ioo (0 : ℝ) 1, HasDerivAt (fun z => v z / hyp a b c z) 0 z := by
    intro z hz
    have hz1 : 0 < 1 - z := by linarith [hz.2]
    refine ((s2.d1 z hz).div (s1.d1 z hz) (hyp_pos ha hb hc hz).ne').congr_deriv ?_
    have h1 := hk z hz
    rw [k0] at h1
    have h2 : (0 : ℝ) < z ^ c * (1 - z) ^ (a + b + 1 - c) := mul_pos (Real.rpow_pos_of_pos hz.1 _) (Real.rpow_pos_of_pos hz1 _)
    have h3 := (mul_eq_zero.1 h1).resolve_left h2.ne'
    rw [div_eq_zero_iff]
    left
    linear_combination h3
  have hlim : Tendsto (fun z => v z / hyp a b c z) (𝓝[>] 0) (𝓝 1) := by
    have := ((onep (c - a - b)).mul (hyp_tendsto_zero (a := c - a) (b := c - b) ok)).div
      (hyp_tendsto_zero (a := a) (b := b) ok) one_ne_zero
    rw [mul_one, div_one] at this
    exact this
  have hconst : ∀ y ∈ Set.Ioo (0 : ℝ) 1, v y / hyp a b c y = v z / hyp a b c z := fun y hy =>
    isOpen_Ioo.is_const_of_deriv_eq_zero isPreconnected_Ioo
      (fun z hz => (hd z hz).differentiableAt.differentiableWithinAt) (fun z hz => (hd z hz).deriv) hy hz
  have h1 : v z / hyp a b c z = 1 := by
    refine tendsto_nhds_unique (tendsto_const_nhds.congr' ?_) hlim
    filter_upwards [ev01] with y hy
    exact (hconst y hy).symm
  exact ((div_eq_one_iff_eq (hyp_pos ha hb hc hz).ne').1 h1).symm

/-- the connection formula -/
def Conn (a b c : ℝ) : Prop := ∀ z ∈ Set.Ioo (0 : ℝ) 1, hyp a b c z =
  Real.Gamma c * Real.Gamma (c - a - b) / (Real.Gamma (c - a) * Real.Gamma (c - b)) * hyp a b (a + b - c + 1) (1 - z) +
  Real.Gamma c * Real.Gamma (a + b - c) / (Real.Gamma a * Real.Gamma b) *
    ((1 - z) ^ (c - a - b) * hyp (c - a) (c - b) (c - a - b + 1) (1 - z))

theorem nat_ok {s : ℝ} (h : ∀ n : ℤ, s ≠ n) (m : ℤ) (i : ℕ) : s + m + i ≠ 0 := by
  intro e
  refine h (-m - i) ?_
  push_cast
  linarith

/-- the case `0 < c - a - b < 1` -/
theorem conn_base {a b c : ℝ} (ha : 0 < a) (hb : 0 < b) (hc : 0 < c) (h0 : 0 < c - a - b) (h1 : c - a - b < 1) : Conn a b c := by
  have ok := pos_ok hc
  set s := c - a - b with hs
  have ok1 : ∀ i : ℕ, a + b - c + 1 + i ≠ 0 := pos_ok (by linarith)
  have ok2 : ∀ i : ℕ, s + 1 + i ≠ 0 := pos_ok (by linarith)
  have su := sol_hyp (a := a) (b := b) ok
  have sg1 := (sol_hyp (a := a) (b := b) ok1).reflect
  rw [show a + b + 1 - (a + b - c + 1) = c by ring] at sg1
  have sg2' := (sol_hyp (a := c - a) (b := c - b) ok2).reflect
  rw [show c - a + (c - b) + 1 - (s + 1) = c by rw [hs]; ring] at sg2'
  have sg2 := sg2'.factor
  rw [← hs] at sg2
  obtain ⟨k1, hk1⟩ := su.wronskian sg1
  obtain ⟨k2, hk2⟩ := su.wronskian sg2
  obtain ⟨k3, hk3⟩ := sg1.wronskian sg2
  have es : a + b + 1 - c = 1 - s := by rw [hs]; ring
  rw [es] at hk1 hk2 hk3
  set V := Real.Gamma c * Real.Gamma s / (Real.Gamma (c - a) * Real.Gamma (c - b)) with hV
  set P := a * b / c * (Real.Gamma (c + 1) * Real.Gamma (1 - s) / (Real.Gamma (a + 1) * Real.Gamma (b + 1))) with hP
  -- limits at one
  have lz : Tendsto (fun z : ℝ => z ^ c) (𝓝[<] 1) (𝓝 1) := by
    have := (Real.continuousAt_rpow_const 1 c (Or.inl one_ne_zero)).tendsto
    rw [Real.one_rpow] at this
    exact this.mono_left nhdsWithin_le_nhds
  have lw0 : Tendsto (fun z : ℝ => 1 - z) (𝓝[<] 1) (𝓝 0) := one_sub_tendsto.mono_right nhdsWithin_le_nhds
  have lw1 : Tendsto (fun z : ℝ => (1 - z) ^ (1 - s)) (𝓝[<] 1) (𝓝 0) :=
    (rpow_tendsto_zero (by linarith : 0 < 1 - s)).comp one_sub_tendsto
  have lw2 : Tendsto (fun z : ℝ => (1 - z) ^ s) (𝓝[<] 1) (𝓝 0) := (rpow_tendsto_zero h0).comp one_sub_tendsto
  have lu : Tendsto (hyp a b c) (𝓝[<] 1) (𝓝 V) := hyp_gauss ha hb (by linarith)
  have lu' : Tendsto (fun z => (1 - z) ^ (1 - s) * hyp' a b c z) (𝓝[<] 1) (𝓝 P) := by
    have h := (hyp_gauss (a := c - a) (b := c - b) (c := c + 1) (by linarith) (by linarith) (by linarith)).const_mul (a * b / c)
    rw [show c + 1 - (c - a) - (c - b) = 1 - s by rw [hs]; ring, show c + 1 - (c - a) = a + 1 by ring,
      show c + 1 - (c - b) = b + 1 by ring] at h
    refine h.congr' ?_
    filter_upwards [ev10] with z hz
    have hz1 : 0 < 1 - z := by linarith [hz.2]
    rw [hyp', hyp_euler (a := a + 1) (b := b + 1) (c := c + 1) (by linarith) (by linarith) (by linarith) hz, show c + 1 - (a + 1) = c - a by ring,
      show c + 1 - (b + 1) = c - b by ring, show c - a - (b + 1) = -(1 - s) by rw [hs]; ring, Real.rpow_neg hz1.le]
    have := (Real.rpow_pos_of_pos hz1 (1 - s)).ne'
    field_simp
  have lg1 : Tendsto (fun z => hyp a b (a + b - c + 1) (1 - z)) (𝓝[<] 1) (𝓝 1) := (hyp_tendsto_zero ok1).comp one_sub_tendsto
  have lg1' : Tendsto (fun z => -hyp' a b (a + b - c + 1) (1 - z)) (𝓝[<] 1) (𝓝 (-(a * b / (a + b - c + 1)))) :=
    ((hyp'_tendsto_zero ok1).comp one_sub_tendsto).neg
  have lH : Tendsto (fun z => hyp (c - a) (c - b) (s + 1) (1 - z)) (𝓝[<] 1) (𝓝 1) := (hyp_tendsto_zero ok2).comp one_sub_tendsto
  have lH' : Tendsto (fun z => -hyp' (c - a) (c - b) (s + 1) (1 - z)) (𝓝[<] 1) (𝓝 (-((c - a) * (c - b) / (s + 1)))) :=
    ((hyp'_tendsto_zero ok2).comp one_sub_tendsto).neg
  have lg2 : Tendsto (fun z => (1 - z) ^ s * hyp (c - a) (c - b) (s + 1) (1 - z)) (𝓝[<] 1) (𝓝 0) := by
    have := lw2.mul lH
    rwa [zero_mul] at this
  have lg2' : Tendsto (fun z => (1 - z) ^ (1 - s) * ((1 - z) ^ (s - 1) *
      ((1 - z) * -hyp' (c - a) (c - b) (s + 1) (1 - z) - s * hyp (c - a) (c - b) (s + 1) (1 - z)))) (𝓝[<] 1) (𝓝 (-s)) := by
    have h := (lw0.mul lH').sub (lH.const_mul s)
    rw [zero_mul, mul_one, zero_sub] at h
    refine h.congr' ?_
    filter_upwards [ev10] with z hz
    have hz1 : 0 < 1 - z := by linarith [hz.2]
    rw [← mul_assoc, ← Real.rpow_add hz1, show 1 - s + (s - 1) = 0 by ring, Real.rpow_zero, one_mul]
  -- the constants
  have e1 : k1 = -P := by
    have h := lz.mul ((lu.mul (lw1.mul lg1')).sub (lu'.mul lg1))
    rw [zero_mul, mul_zero, mul_one, zero_sub, one_mul] at h
    refine tendsto_nhds_unique (tendsto_const_nhds.congr' ?_) h
    filter_upwards [ev10] with z hz
    rw [← hk1 z hz]
    ring
  have e2 : k2 = -(s * V) := by
    have h := lz.mul ((lu.mul lg2').sub (lu'.mul lg2))
    rw [mul_zero, sub_zero, one_mul] at h
    rw [show -(s * V) = V * -s by ring]
    refine tendsto_nhds_unique (tendsto_const_nhds.congr' ?_) h
    filter_upwards [ev10] with z hz
    rw [← hk2 z hz]
    ring
  have e3 : k3 = -s := by
    have h := lz.mul ((lg1.mul lg2').sub ((lw1.mul lg1').mul lg2))
    rw [mul_zero, sub_zero, one_mul, one_mul] at h
    refine tendsto_nhds_unique (tendsto_const_nhds.congr' ?_) h
    filter_upwards [ev10] with z hz
    rw [← hk3 z hz]
    ring
  intro z hz
  rw [← hs]
  have hz1 : 0 < 1 - z := by linarith [hz.2]
  have hw : z ^ c * (1 - z) ^ (1 - s) ≠ 0 := (mul_pos (Real.rpow_pos_of_pos hz.1 _) (Real.rpow_pos_of_pos hz1 _)).ne'
  have f1 := hk1 z hz
  have f2 := hk2 z hz
  have f3 := hk3 z hz
  rw [e1] at f1
  rw [e2] at f2
  rw [e3] at f3
  set u := hyp a b c z
  set g1 := hyp a b (a + b - c + 1) (1 - z)
  set g2 := (1 - z) ^ s * hyp (c - a) (c - b) (s + 1) (1 - z)
  have main : u * -s - g1 * -(s * V) + g2 * -P = 0 := by
    rw [← f1, ← f2, ← f3]
    ring
  have hcoef : Real.Gamma c * Real.Gamma (a + b - c) / (Real.Gamma a * Real.Gamma b) = -P / s := by
    have G1 := (Real.Gamma_pos_of_pos ha).ne'
    have G2 := (Real.Gamma_pos_of_pos hb).ne'
    have g3 := Real.Gamma_add_one (s := -s) (by linarith)
    rw [show -s + 1 = 1 - s by ring] at g3
    rw [hP, g3, Real.Gamma_add_one ha.ne', Real.Gamma_add_one hb.ne', Real.Gamma_add_one hc.ne',
      show a + b - c = -s by rw [hs]; ring]
    field_simp
  rw [hcoef]
  have s0 : s ≠ 0 := h0.ne'
  field_simp
  linear_combination -main

/-- from `a + 1`, `b + 1`, `c + 1` to `a`, `b`, `c` by integration -/
theorem conn_up {a b c : ℝ} (ha : 0 < a) (hb : 0 < b) (hc : 0 < c) (h0 : 0 < c - a - b) (hs : ∀ n : ℤ, c - a - b ≠ n)
    (h : Conn (a + 1) (b + 1) (c + 1)) : Conn a b c := by
  have ok := pos_ok hc
  set s := c - a - b with hsd
  have ok1 : ∀ i : ℕ, a + b - c + 1 + i ≠ 0 := by
    intro i e
    refine hs (1 + i) ?_
    push_cast
    rw [hsd]; linarith
  have oks : ∀ i : ℕ, s + i ≠ 0 := fun i => by simpa using nat_ok hs 0 i
  have ok2 := succ_ok oks
  have s1 : s - 1 ≠ 0 := by have := hs 1; push_cast at this; intro e; exact this (by linarith)
  set V := Real.Gamma c * Real.Gamma s / (Real.Gamma (c - a) * Real.Gamma (c - b)) with hV
  set Q := Real.Gamma c * Real.Gamma (a + b - c) / (Real.Gamma a * Real.Gamma b) with hQ
  set φ : ℝ → ℝ := fun z => hyp a b c z - (V * hyp a b (a + b - c + 1) (1 - z) +
    Q * ((1 - z) ^ s * hyp (c - a) (c - b) (s + 1) (1 - z))) with hφ
  have hd : ∀ z ∈ Set.Ioo (0 : ℝ) 1, HasDerivAt φ 0 z := by
    intro z hz
    have hz1 : 0 < 1 - z := by linarith [hz.2]
    have hw := abs_lt_of_mem (one_sub_mem hz)
    have d1 := hyp_hasDerivAt (a := a) (b := b) ok (abs_lt_of_mem hz)
    have d2 := (hyp_hasDerivAt (a := a) (b := b) ok1 hw).comp_const_sub 1 z
    have d3 := (hyp_hasDerivAt (a := c - a) (b := c - b) ok2 hw).comp_const_sub 1 z
    have d4 := ((hasDerivAt_id' z).const_sub 1).rpow_const (p := s) (Or.inl hz1.ne')
    refine (d1.sub ((d2.const_mul V).add ((d4.mul d3).const_mul Q))).congr_deriv ?_
    have hl := hyp_lower (a := c - a) (b := c - b) oks hw
    have hc' := h z hz
    rw [show a + 1 + (b + 1) - (c + 1) + 1 = a + b - c + 1 + 1 by ring, show c + 1 - (a + 1) = c - a by ring,
      show c + 1 - (b + 1) = c - b by ring, show c - a - (b + 1) = s - 1 by rw [hsd]; ring,
      show s - 1 + 1 = s by ring, show a + 1 + (b + 1) - (c + 1) = 1 - s by rw [hsd]; ring] at hc'
    have e3 : (1 - z) ^ s = (1 - z) ^ (s - 1) * (1 - z) := by
      nth_rw 1 [show s = (s - 1) + 1 by ring]; rw [Real.rpow_add hz1, Real.rpow_one]
    have g1 := Real.Gamma_add_one s1
    rw [show s - 1 + 1 = s by ring] at g1
    have g2 := Real.Gamma_add_one (s := -s) (by linarith [h0])
    rw [show -s + 1 = 1 - s by ring, show -s = a + b - c by rw [hsd]; ring] at g2
    have G1 := (Real.Gamma_pos_of_pos ha).ne'
    have G2 := (Real.Gamma_pos_of_pos hb).ne'
    have k1 : a * b / c * (Real.Gamma (c + 1) * Real.Gamma (s - 1) / (Real.Gamma (c - a) * Real.Gamma (c - b))) =
        -(V * (a * b / (a + b - c + 1))) := by
      rw [hV, g1, Real.Gamma_add_one hc.ne', show a + b - c + 1 = -(s - 1) by rw [hsd]; ring]
      field_simp
    have k2 : a * b / c * (Real.Gamma (c + 1) * Real.Gamma (1 - s) / (Real.Gamma (a + 1) * Real.Gamma (b + 1))) = -(Q * s) := by
      rw [hQ, g2, Real.Gamma_add_one ha.ne', Real.Gamma_add_one hb.ne', Real.Gamma_add_one hc.ne',
        show a + b - c = -s by rw [hsd]; ring]
      field_simp
    have e1 : hyp' a b c z = -(V * (a * b / (a + b - c + 1))) * hyp (a + 1) (b + 1) (a + b - c + 1 + 1) (1 - z) +
        -(Q * s) * ((1 - z) ^ (s - 1) * hyp (c - a) (c - b) s (1 - z)) := by
      rw [hyp', hc', mul_add, ← mul_assoc, ← mul_assoc, k1, k2]
    rw [e1, e3]
    simp only [hyp']
    rw [hyp'] at hl
    linear_combination (Q * (1 - z) ^ (s - 1)) * hl
  have hlim : Tendsto φ (𝓝[<] 1) (𝓝 0) := by
    have l1 := hyp_gauss ha hb (by linarith : a + b < c)
    have l2 := (hyp_tendsto_zero (a := a) (b := b) ok1).comp one_sub_tendsto
    have l3 := ((rpow_tendsto_zero h0).comp one_sub_tendsto).mul ((hyp_tendsto_zero (a := c - a) (b := c - b) ok2).comp one_sub_tendsto)
    have l4 := l1.sub ((l2.const_mul V).add (l3.const_mul Q))
    rw [← hsd, ← hV, zero_mul, mul_zero, mul_one, add_zero, sub_self] at l4
    exact l4
  intro z hz
  have hconst : ∀ y ∈ Set.Ioo (0 : ℝ) 1, φ y = φ z := fun y hy =>
    isOpen_Ioo.is_const_of_deriv_eq_zero isPreconnected_Ioo
      (fun z hz => (hd z hz).differentiableAt.differentiableWithinAt) (fun z hz => (hd z hz).deriv) hy hz
  have h1 : φ z = 0 := by
    refine tendsto_nhds_unique (tendsto_const_nhds.congr' ?_) hlim
    filter_upwards [ev10] with y hy
    exact (hconst y hy).symm
  exact sub_eq_zero.1 h1

theorem inv_gamma (x : ℝ) : x / Real.Gamma (x + 1) = 1 / Real.Gamma x := by
  by_cases hx : x = 0
  · simp [hx, Real.Gamma_zero]
  · rw [Real.Gamma_add_one hx, ← div_div, div_self hx]

/-- from `c + 1` to `c` by differentiation -/
theorem conn_down {a b c : ℝ} (ha : 0 < a) (hb : 0 < b) (hc : 0 < c) (hs : ∀ n : ℤ, c - a - b ≠ n)
    (h : Conn a b (c + 1)) : Conn a b c := by
  have ok := pos_ok hc
  set s := c - a - b with hsd
  have okγ : ∀ i : ℕ, a + b - c + i ≠ 0 := by
    intro i e
    refine hs i ?_
    push_cast
    rw [hsd]; linarith
  have ok1 := succ_ok okγ
  have oks : ∀ i : ℕ, s + i ≠ 0 := fun i => by simpa using nat_ok hs 0 i
  have ok2 := succ_ok oks
  have ok3 := succ_ok ok2
  have s0 : s ≠ 0 := by simpa using oks 0
  have s1 : s + 1 ≠ 0 := by simpa using ok2 0
  intro z hz
  have hz1 : 0 < 1 - z := by linarith [hz.2]
  have hw := abs_lt_of_mem (one_sub_mem hz)
  have hzz := abs_lt_of_mem hz
  set A := Real.Gamma (c + 1) * Real.Gamma (s + 1) / (Real.Gamma (c - a + 1) * Real.Gamma (c - b + 1)) with hA
  set B := Real.Gamma (c + 1) * Real.Gamma (a + b - c - 1) / (Real.Gamma a * Real.Gamma b) with hB
  have h' : ∀ y ∈ Set.Ioo (0 : ℝ) 1, hyp a b (c + 1) y = A * hyp a b (a + b - c) (1 - y) +
      B * ((1 - y) ^ (s + 1) * hyp (c - a + 1) (c - b + 1) (s + 1 + 1) (1 - y)) := by
    intro y hy
    have := h y hy
    rw [show c + 1 - a - b = s + 1 by rw [hsd]; ring, show c + 1 - a = c - a + 1 by ring, show c + 1 - b = c - b + 1 by ring,
      show a + b - (c + 1) + 1 = a + b - c by ring, show a + b - (c + 1) = a + b - c - 1 by ring] at this
    exact this
  have d1 := hyp_hasDerivAt (a := a) (b := b) (succ_ok ok) hzz
  have d2 := (hyp_hasDerivAt (a := a) (b := b) okγ hw).comp_const_sub 1 z
  have d3 := (hyp_hasDerivAt (a := c - a + 1) (b := c - b + 1) ok3 hw).comp_const_sub 1 z
  have d4 := ((hasDerivAt_id' z).const_sub 1).rpow_const (p := s + 1) (Or.inl hz1.ne')
  have d5 := ((d2.const_mul A).add ((d4.mul d3).const_mul B))
  have d6 := d1.congr_of_eventuallyEq (f₁ := fun y => A * hyp a b (a + b - c) (1 - y) +
      B * ((1 - y) ^ (s + 1) * hyp (c - a + 1) (c - b + 1) (s + 1 + 1) (1 - y))) (by
    filter_upwards [Ioo_mem_nhds hz.1 hz.2] with y hy
    exact (h' y hy).symm)
  have e0 := d6.unique d5
  have e1 := hyp_lower (a := a) (b := b) ok hzz
  rw [e0, h' z hz] at e1
  have e2 := hyp_raise (a := a) (b := b) okγ hw
  have e3 := hyp_down (a := c - a) (b := c - b) ok2 hw
  have e4 : (1 - z) ^ (s + 1) = (1 - z) ^ s * (1 - z) := by rw [Real.rpow_add hz1, Real.rpow_one]
  rw [add_sub_cancel_right, e4] at e1
  have k1 : Real.Gamma c * Real.Gamma s / (Real.Gamma (c - a) * Real.Gamma (c - b)) = A * ((c - a) * (c - b) / s) / c := by
    have i1 := inv_gamma (c - a)
    have i2 := inv_gamma (c - b)
    calc Real.Gamma c * Real.Gamma s / (Real.Gamma (c - a) * Real.Gamma (c - b))
        = Real.Gamma c * Real.Gamma s * ((1 / Real.Gamma (c - a)) * (1 / Real.Gamma (c - b))) := by
          rw [one_div_mul_one_div, mul_one_div]
      _ = Real.Gamma c * Real.Gamma s * ((c - a) / Real.Gamma (c - a + 1) * ((c - b) / Real.Gamma (c - b + 1))) := by rw [i1, i2]
      _ = _ := by
          rw [hA, Real.Gamma_add_one hc.ne', Real.Gamma_add_one s0]
          field_simp
  have k2 : Real.Gamma c * Real.Gamma (a + b - c) / (Real.Gamma a * Real.Gamma b) = -(B * (s + 1)) / c := by
    have g := Real.Gamma_add_one (s := a + b - c - 1) (by intro e; exact s1 (by rw [hsd]; linarith))
    rw [sub_add_cancel] at g
    rw [hB, g, Real.Gamma_add_one hc.ne', show a + b - c - 1 = -(s + 1) by rw [hsd]; ring]
    field_simp
  have hc0 := hc.ne'
  rw [k1, k2]
  refine mul_left_cancel₀ hc0 ?_
  rw [← e1]
  have e5 : hyp a b (a + b - c + 1) (1 - z) * ((c - a) * (c - b) / s) =
      -((1 - (1 - z)) * hyp' a b (a + b - c) (1 - z) - (a + b - (a + b - c)) * hyp a b (a + b - c) (1 - z)) := by
    rw [e2, show a + b - c = -s by rw [hsd]; ring]
    have : (-s - a) * (-s - b) = (c - a) * (c - b) := by rw [hsd]; ring
    rw [this]
    field_simp
  have e6 : c * (A * ((c - a) * (c - b) / s) / c * hyp a b (a + b - c + 1) (1 - z) + -(B * (s + 1)) / c *
      ((1 - z) ^ s * hyp (c - a) (c - b) (s + 1) (1 - z))) =
      A * (hyp a b (a + b - c + 1) (1 - z) * ((c - a) * (c - b) / s)) -
        B * (1 - z) ^ s * ((s + 1) * hyp (c - a) (c - b) (s + 1) (1 - z)) := by
    field_simp
    ring
  rw [e6, e5, ← e3, hsd]
  ring

/-- The connection formula for all positive parameters for which `c - a - b` is not an integer. -/
theorem conn {a b c : ℝ} (ha : 0 < a) (hb : 0 < b) (hc : 0 < c) (hs : ∀ n : ℤ, c - a - b ≠ n) : Conn a b c := by
  have hfr : ∀ {t : ℝ}, (∀ n : ℤ, t ≠ n) → 0 < t - ⌊t⌋ ∧ t - ⌊t⌋ < 1 := by
    intro t ht
    have h1 := Int.floor_le t
    have h2 := Int.lt_floor_add_one t
    exact ⟨by
      rcases h1.lt_or_eq with h | h
      · linarith
      · exact absurd h.symm (ht _), by linarith⟩
  -- positive
  have hup : ∀ (n : ℕ) {a b c : ℝ}, 0 < a → 0 < b → 0 < c → (∀ m : ℤ, c - a - b ≠ m) → (n : ℝ) < c - a - b →
      c - a - b < n + 1 → Conn a b c := by
    intro n
    induction n with
    | zero => intro a b c ha hb hc _ h1 h2; exact conn_base ha hb hc (by simpa using h1) (by simpa using h2)
    | succ n ih =>
      intro a b c ha hb hc hs h1 h2
      push_cast at h1 h2
      have n0 : (0 : ℝ) ≤ n := Nat.cast_nonneg n
      refine conn_up ha hb hc (by linarith) hs (ih (by linarith) (by linarith) (by linarith) ?_ (by linarith) (by linarith))
      intro m e
      refine hs (m + 1) ?_
      push_cast
      linarith
  have hpos : ∀ {a b c : ℝ}, 0 < a → 0 < b → 0 < c → (∀ m : ℤ, c - a - b ≠ m) → 0 < c - a - b → Conn a b c := by
    intro a b c ha hb hc hs h0
    obtain ⟨f1, f2⟩ := hfr hs
    have hfl : ((⌊c - a - b⌋.toNat : ℕ) : ℝ) = (⌊c - a - b⌋ : ℝ) := by
      have : ((⌊c - a - b⌋.toNat : ℕ) : ℤ) = ⌊c - a - b⌋ := Int.toNat_of_nonneg (Int.floor_nonneg.2 h0.le)
      exact_mod_cast this
    exact hup ⌊c - a - b⌋.toNat ha hb hc hs (by rw [hfl]; linarith) (by rw [hfl]; linarith)
  have hdn : ∀ (n : ℕ) {c : ℝ}, 0 < c → (∀ m : ℤ, c - a - b ≠ m) → 0 < c + n - a - b → Conn a b c := by
    intro n
    induction n with
    | zero => intro c hc hs h0; exact hpos ha hb hc hs (by simpa using h0)
    | succ n ih =>
      intro c hc hs h0
      refine conn_down ha hb hc hs (ih (by linarith) ?_ (by push_cast at h0; linarith))
      intro m e
      refine hs (m - 1) ?_
      push_cast
      linarith
  obtain ⟨n, hn⟩ := exists_nat_gt (a + b - c)
  exact hdn n hc hs (by linarith)

end Special
end Verif
