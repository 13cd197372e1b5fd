import Verif.FloatRK

/-!
# Property C92: the fixed-step solver with rounding

The error of the method and the rounding errors are combined.
-/

set_option linter.unusedSectionVars false

namespace Verif
namespace Ode
open Finset Asymptotics Filter Topology RK Mat

/-- one step with rounding -/
theorem step_fl {R : Rounding ℝ} {n s : ℕ} {A : ℕ → ℕ → ℝ} {b' c : ℕ → ℝ} {Af : ℕ → ℕ → Fl R} {bf cf : ℕ → Fl R}
    {g : ℝ → (Fin n → ℝ) → (Fin n → ℝ)} {gf : Fl R → (Fin n → Fl R) → (Fin n → Fl R)} {y : ℝ → (Fin n → ℝ)}
    {a b r G Λ W X B ε : ℝ} (hG : 0 ≤ G) (hΛ : 0 ≤ Λ) (hW0 : 0 ≤ W) (hε : 0 ≤ ε) (hε1 : ε ≤ 1) (hr : 0 < r)
    (htube : ∀ t ∈ Set.Icc a b, (∀ s x, |s - t| ≤ r → ‖x - y t‖ ≤ r → ‖g s x‖ ≤ G) ∧
      ∀ s x s' x', |s - t| ≤ r → ‖x - y t‖ ≤ r → |s' - t| ≤ r → ‖x' - y t‖ ≤ r →
        ‖g s x - g s' x'‖ ≤ Λ * max |s - s'| ‖x - x'‖)
    (hu : R.u ≤ 1) (hAf : ∀ i j, |(Af i j).val - A i j| ≤ 2 * R.u * |A i j|) (hcf : ∀ i, |(cf i).val - c i| ≤ 2 * R.u * |c i|)
    (hbf : ∀ i, |(bf i).val - b' i| ≤ 2 * R.u * |b' i|)
    (hc0 : c 0 = 0) (hA : ∀ i < s, ∑ j ∈ range i, |A i j| ≤ W) (hc : ∀ i < s, |c i| ≤ W) (hb : ∑ j ∈ range s, |b' j| ≤ W)
    (hgf : RhsClose gf g y a b r ε) (hB1 : lcConst s X (G + 1) W ≤ B) (hB2 : X + 11 * W ≤ B) (hBu : B * R.u ≤ r / 3)
    {t d : Fl R} {x : Fin n → Fl R} (ht : t.val ∈ Set.Icc a b) (htX : |t.val| ≤ X) (hxX : ‖flv x‖ ≤ X)
    (hx : ‖flv x - y t.val‖ ≤ r / 3) (hd : |d.val| ≤ 1) (hdW : |d.val| * (W * (G + 1)) ≤ r / 3) :
    ‖flv (opStep s Af bf cf gf t x d) -
      (flv x + d.val • ∑ i ∈ range s, b' i • rkStage A c g t.val (flv x) d.val i)‖ ≤
      (B + W * kap Λ B W s) * (R.u + |d.val| * ε) := by
  have u0 := R.u_nonneg
  have X0 : 0 ≤ X := (abs_nonneg _).trans htX
  have B0 : 0 ≤ B := le_trans (by positivity) hB2
  have k0 := kap_nonneg hΛ B0 hW0 s
  have st := stage_fl hG hΛ hW0 hε hε1 hr htube hu hAf hcf hc0 hA hc hgf hB1 hB2 hBu ht htX hxX hx hd hdW
  set k := fun j => rkStage A c g t.val (flv x) d.val j with hk
  set kf := fun j => opStage Af cf gf t x d j with hkf
  have h1 := lincomb_vec hu (s := s) le_rfl kf bf b' (fun j _ => hbf j) (by linarith : 0 ≤ G + 1)
    (fun j hj => (st j hj).2.1) hb x d hxX hd
  have h1' : ‖flv (opStep s Af bf cf gf t x d) - (flv x + d.val • ∑ j ∈ range s, b' j • flv (kf j))‖ ≤ B * R.u :=
    h1.trans (mul_le_mul_of_nonneg_right hB1 u0)
  have h2 : ‖d.val • ∑ j ∈ range s, b' j • (flv (kf j) - k j)‖ ≤ |d.val| * (W * (kap Λ B W s * (R.u + ε))) := by
    rw [norm_smul, Real.norm_eq_abs]
    refine mul_le_mul_of_nonneg_left ?_ (abs_nonneg _)
    refine (norm_sum_le _ _).trans ?_
    calc ∑ j ∈ range s, ‖b' j • (flv (kf j) - k j)‖ ≤ ∑ j ∈ range s, |b' j| * (kap Λ B W s * (R.u + ε)) := by
          refine sum_le_sum fun j hj => ?_
          rw [norm_smul, Real.norm_eq_abs]
          refine mul_le_mul_of_nonneg_left ?_ (abs_nonneg _)
          exact ((st j (mem_range.1 hj)).1).trans
            (mul_le_mul_of_nonneg_right (kap_mono hΛ B0 hW0 (mem_range.1 hj)) (by positivity))
      _ = (∑ j ∈ range s, |b' j|) * (kap Λ B W s * (R.u + ε)) := by rw [sum_mul]
      _ ≤ W * (kap Λ B W s * (R.u + ε)) := by gcongr
  have h4 : flv (opStep s Af bf cf gf t x d) - (flv x + d.val • ∑ i ∈ range s, b' i • k i) =
      (flv (opStep s Af bf cf gf t x d) - (flv x + d.val • ∑ j ∈ range s, b' j • flv (kf j))) +
        d.val • ∑ j ∈ range s, b' j • (flv (kf j) - k j) := by
    simp only [smul_sub, sum_sub_distrib]
    abel
  show ‖flv (opStep s Af bf cf gf t x d) - (flv x + d.val • ∑ i ∈ range s, b' i • k i)‖ ≤ _
  rw [h4]
  refine (norm_add_le _ _).trans ((add_le_add h1' h2).trans ?_)
  have d0 := abs_nonneg d.val
  have p1 : |d.val| * R.u ≤ 1 * R.u := mul_le_mul_of_nonneg_right hd u0
  have p2 : 0 ≤ W * kap Λ B W s := by positivity
  have p3 : 0 ≤ B * (|d.val| * ε) := by positivity
  have p4 := mul_le_mul_of_nonneg_left p1 p2
  calc B * R.u + |d.val| * (W * (kap Λ B W s * (R.u + ε)))
      = B * R.u + W * kap Λ B W s * (|d.val| * R.u) + W * kap Λ B W s * (|d.val| * ε) := by ring
    _ ≤ B * R.u + W * kap Λ B W s * (1 * R.u) + W * kap Λ B W s * (|d.val| * ε) + B * (|d.val| * ε) := by linarith
    _ = _ := by ring

/-- the coefficients of a tableau are stored with a relative error of at most `2 u` (one rounding, or two for `f32`, whose
    literals pass through `f64`) -/
def TabClose {R : Rounding ℝ} (T : Tableau (Fl R)) (T' : Tableau ℝ) : Prop :=
  List.Forall₂ (fun v w => |v.val - w| ≤ 2 * R.u * |w|) T.a T'.a ∧
  List.Forall₂ (fun v w => |v.val - w| ≤ 2 * R.u * |w|) T.b T'.b ∧
  List.Forall₂ (fun v w => |v.val - w| ≤ 2 * R.u * |w|) T.c T'.c

theorem forall₂_getD {R : Rounding ℝ} {l : List (Fl R)} {l' : List ℝ}
    (h : List.Forall₂ (fun v w => |v.val - w| ≤ 2 * R.u * |w|) l l') (i : ℕ) :
    |(l.getD i 0).val - l'.getD i 0| ≤ 2 * R.u * |l'.getD i 0| := by
  induction h generalizing i with
  | nil => simp [Fl.zero_val]
  | cons h _ ih =>
    cases i with
    | zero => simpa using h
    | succ i => simpa using ih i

theorem exists_small (l : List (ℝ × ℝ)) (h : ∀ p ∈ l, 0 ≤ p.1 ∧ 0 < p.2) : ∃ η > 0, ∀ p ∈ l, η * p.1 ≤ p.2 := by
  induction l with
  | nil => exact ⟨1, one_pos, by simp⟩
  | cons p l ih =>
    obtain ⟨η, h1, h2⟩ := ih fun q hq => h q (List.mem_cons_of_mem _ hq)
    obtain ⟨p1, p2⟩ := h p List.mem_cons_self
    refine ⟨min η (p.2 / (p.1 + 1)), by positivity, ?_⟩
    intro q hq
    rcases List.mem_cons.1 hq with rfl | hq
    · calc min η (q.2 / (q.1 + 1)) * q.1 ≤ q.2 / (q.1 + 1) * q.1 := mul_le_mul_of_nonneg_right (min_le_right _ _) p1
        _ ≤ q.2 / (q.1 + 1) * (q.1 + 1) := mul_le_mul_of_nonneg_left (by linarith) (by positivity)
        _ = q.2 := by field_simp
    · exact (mul_le_mul_of_nonneg_right (min_le_left _ _) (h q (List.mem_cons_of_mem _ hq)).1).trans (h2 q hq)

set_option maxHeartbeats 4000000 in
/-- **C92** the fixed-step solver with rounding.  Let `y` solve `y' = g(t, y)` on an interval `[a, b]` around `[t₀, t₁]`, let
    `g` be continuously differentiable along the solution as often as the order `p` of the method says, and let the
    right-hand side be evaluated near the solution with errors of at most `ε`.  Then, for all small step sizes `h` and
    every floating-point arithmetic whose unit roundoff `u` is small compared with `h`, `solve` returns times and states, the
    last time is `t₁` up to `C u / h`, and every state is off by at most `C (h ^ p + u / h + ε)`.  The constant depends
    neither on `h`, `u` and `ε` nor on the arithmetic.  Missing: `Ralston4`, whose tableau is wrong. -/
theorem C92_converges_partial (M : FixedMethod) (hM : M ≠ .ralston4) {n : ℕ} {g : ℝ → (Fin n → ℝ) → (Fin n → ℝ)}
    {y : ℝ → (Fin n → ℝ)} {a b t₀ t₁ : ℝ} (ha : a < t₀) (ht : t₀ ≤ t₁) (hb : t₁ < b)
    (hg : ∀ t ∈ Set.Icc a b, ContDiffAt ℝ M.order (fun z : ℝ × (Fin n → ℝ) => g z.1 z.2) (t, y t))
    (hy : ∀ t ∈ Set.Icc a b, ∀ᶠ u in 𝓝 t, HasDerivAt y (g u (y u)) u) {r₁ : ℝ} (hr₁ : 0 < r₁) :
    ∃ h₀ > 0, ∃ η > 0, ∃ C, ∀ (R : Rounding ℝ) (h t₀f t₁f : Fl R) (ε : ℝ) (T : Tableau (Fl R)) (f : Rhs (Fl R))
      (gf : Fl R → (Fin n → Fl R) → (Fin n → Fl R)) (x₀ : Fin n → Fl R),
      t₀f.val = t₀ → t₁f.val = t₁ → 0 < h.val → h.val ≤ h₀ → R.u ≤ η * h.val → 0 ≤ ε → ε ≤ η →
      TabClose T (M.tableau (Real.sqrt 5)) → RhsRepr f gf → RhsClose gf g y a b r₁ ε → ‖flv x₀ - y t₀‖ ≤ ε →
      ∃ ts xs, fixedSolve (doStep T f) h t₀f t₁f (col x₀) = some (ts, xs) ∧ ts.length = xs.length ∧
        ts.head? = some t₀f ∧ (∀ t, ts.getLast? = some t → |t.val - t₁| ≤ C * (R.u / h.val)) ∧
        ∀ (k : ℕ) t X, ts[k]? = some t → xs[k]? = some X →
          ∃ x : Fin n → Fl R, X = col x ∧ ‖flv x - y t.val‖ ≤ C * (h.val ^ M.order + R.u / h.val + ε) := by
  obtain ⟨hT, hO, hR⟩ := fixed_conditions M hM (Real.sqrt 5)
  have hp : 0 < M.order := (fixed_check M hM).1
  set T' := M.tableau (Real.sqrt 5) with hT'
  set p := M.order
  set s := T'.b.length with hs
  set A := rowsOf T'.a with hA
  set b' := weightsOf T'.b with hb'
  set c := nodesOf T'.c with hc
  have hycont : ∀ t ∈ Set.Icc a b, ContinuousAt y t := fun t ht => (hy t ht).self_of_nhds.continuousAt
  obtain ⟨r₂, hr₂, G, hG, Λ, hΛ, htube'⟩ := rhs_tube hp hg hycont
  set r := min r₁ r₂ with hr
  have r0 : 0 < r := lt_min hr₁ hr₂
  have rr₁ : r ≤ r₁ := min_le_left _ _
  have rr₂ : r ≤ r₂ := min_le_right _ _
  have htube : ∀ t ∈ Set.Icc a b, (∀ s x, |s - t| ≤ r → ‖x - y t‖ ≤ r → ‖g s x‖ ≤ G) ∧
      ∀ s x s' x', |s - t| ≤ r → ‖x - y t‖ ≤ r → |s' - t| ≤ r → ‖x' - y t‖ ≤ r →
        ‖g s x - g s' x'‖ ≤ Λ * max |s - s'| ‖x - x'‖ := fun t ht =>
    ⟨fun s x h1 h2 => (htube' t ht).1 s x (h1.trans rr₂) (h2.trans rr₂), fun s x s' x' h1 h2 h3 h4 =>
      (htube' t ht).2 s x s' x' (h1.trans rr₂) (h2.trans rr₂) (h3.trans rr₂) (h4.trans rr₂)⟩
  obtain ⟨Xb, hXb⟩ := (isCompact_Icc (a := a) (b := b)).exists_bound_of_continuousOn (f := y)
    (fun t ht => (hycont t ht).continuousWithinAt)
  have Xb0 : 0 ≤ Xb := (norm_nonneg _).trans (hXb t₀ ⟨ha.le, ht.trans hb.le⟩)
  set W := ∑ i ∈ range s, ∑ j ∈ range i, |A i j| + ∑ i ∈ range s, |b' i| + ∑ i ∈ range s, |c i| with hW
  have w1 : 0 ≤ ∑ i ∈ range s, ∑ j ∈ range i, |A i j| := sum_nonneg fun _ _ => sum_nonneg fun _ _ => abs_nonneg _
  have w2 : 0 ≤ ∑ i ∈ range s, |b' i| := sum_nonneg fun _ _ => abs_nonneg _
  have w3 : 0 ≤ ∑ i ∈ range s, |c i| := sum_nonneg fun _ _ => abs_nonneg _
  have W0 : 0 ≤ W := by rw [hW]; positivity
  have WA : ∀ i < s, ∑ j ∈ range i, |A i j| ≤ W := by
    intro i hi
    have := single_le_sum (f := fun i => ∑ j ∈ range i, |A i j|) (fun i _ => sum_nonneg fun _ _ => abs_nonneg _)
      (mem_range.2 hi)
    rw [hW]; linarith
  have Wc : ∀ i < s, |c i| ≤ W := by
    intro i hi
    have := single_le_sum (f := fun i => |c i|) (fun i _ => abs_nonneg _) (mem_range.2 hi)
    rw [hW]; linarith
  have Wb : ∑ i ∈ range s, |b' i| ≤ W := by rw [hW]; linarith
  set X := Xb + r + |a| + |b| with hX
  have X0 : 0 ≤ X := by positivity
  set B := lcConst s X (G + 1) W + (X + 11 * W) with hB
  have B1 : 0 ≤ lcConst s X (G + 1) W := by unfold lcConst; positivity
  have B2 : 0 ≤ X + 11 * W := by positivity
  have B0 : 0 ≤ B := by positivity
  set Sg := |t₀| + |t₁| with hSg
  have Sg0 : 0 ≤ Sg := by positivity
  set D := t₁ - t₀ with hD
  have D0 : 0 ≤ D := by rw [hD]; linarith
  obtain ⟨h₁, hh₁, ρ₀, hρ₀, C₁, hC₁, H⟩ := global_error_pert (E := Fin n → ℝ) (y := y) hp
    (K := fun t x h => ∑ i ∈ range s, b' i • rkStage A c g t x h i)
    (fun t ht => increment_contDiffAt _ _ _ _ (hg t ht))
    (fun t ht => solution_contDiffAt (hg t ht) (hy t ht) p le_rfl)
    (fun t ht => by
      have hcont : ContinuousAt (fun u => (u, y u)) t := continuousAt_id.prodMk (hy t ht).self_of_nhds.continuousAt
      have h1 := hcont.eventually ((hg t ht).eventually (by simp))
      filter_upwards [h1, (hy t ht).eventually_nhds] with u hu1 hu2
      exact rkStep_order hp hO hR g u y hu1 hu2)
    (S := 2 * D + 1) (by positivity) (δ₁ := r / 3) (by positivity)
  have k0 := kap_nonneg hΛ B0 W0 s
  set C₂ := (B + W * kap Λ B W s) + 4 * Sg with hC₂
  have C₂0 : 0 ≤ C₂ := by positivity
  obtain ⟨η, hη, hηl⟩ := exists_small
    [(8, 1), (8 * (2 * D + 2), 1), (8 * (2 * D + 1) * Sg, t₀ - a), (8 * Sg, b - t₁), (16 * Sg, 1), (2 * C₂, ρ₀), (1, ρ₀),
      (B, r / 3)] (by
      have : 0 < t₀ - a := by linarith
      have : 0 < b - t₁ := by linarith
      have : 0 < r / 3 := by linarith
      simp only [List.mem_cons, List.not_mem_nil, or_false, forall_eq_or_imp, forall_eq]
      refine ⟨⟨by norm_num, by norm_num⟩, ⟨by positivity, by norm_num⟩, ⟨by positivity, ‹_›⟩, ⟨by positivity, ‹_›⟩,
        ⟨by positivity, by norm_num⟩, ⟨by positivity, ‹_›⟩, ⟨by norm_num, ‹_›⟩, ⟨B0, ‹_›⟩⟩)
  simp only [List.mem_cons, List.not_mem_nil, or_false, forall_eq_or_imp, forall_eq] at hηl
  obtain ⟨η1, η2, η3, η4, η5, η6, η7, η8⟩ := hηl
  refine ⟨min h₁ (min 1 (r / 3 / (W * (G + 1) + 1))), by positivity, η, hη, C₁ * (1 + C₂) + 16 * (D + 1) * Sg, ?_⟩
  intro R h t₀f t₁f ε T f gf x₀ e0 e1 hpos hle hu hε hεη hclose hf hgf hx₀
  have u0 := R.u_nonneg
  have hh1 : h.val ≤ h₁ := hle.trans (min_le_left _ _)
  have hh2 : h.val ≤ 1 := hle.trans ((min_le_right _ _).trans (min_le_left _ _))
  have hh3 : h.val * (W * (G + 1)) ≤ r / 3 := by
    have h1 : h.val ≤ r / 3 / (W * (G + 1) + 1) := hle.trans ((min_le_right _ _).trans (min_le_right _ _))
    rw [le_div_iff₀ (by positivity)] at h1
    linarith
  have uη : R.u ≤ η := hu.trans (mul_le_of_le_one_right hη.le hh2)
  have hu8 : R.u ≤ 1 / 8 := by linarith
  have hu1 : R.u ≤ 1 := by linarith
  have hε1 : ε ≤ 1 := by linarith
  -- the shape and the coefficients
  have la := hclose.1.length_eq
  have lb := hclose.2.1.length_eq
  have lc := hclose.2.2.length_eq
  have hshape : Shape T.a T.b T.c := by
    obtain ⟨s1, s2, s3⟩ := hT
    refine ⟨?_, by rw [la, lb]; exact s2, by rw [lc, lb]; exact s3⟩
    intro h0
    rw [h0] at lb
    exact s1 (List.length_eq_zero_iff.1 lb.symm)
  have hAf : ∀ i j, |(rowsOf T.a i j).val - A i j| ≤ 2 * R.u * |A i j| := fun i j => forall₂_getD hclose.1 _
  have hbf : ∀ i, |(weightsOf T.b i).val - b' i| ≤ 2 * R.u * |b' i| := fun i => forall₂_getD hclose.2.1 _
  have hcf : ∀ i, |(nodesOf T.c i).val - c i| ≤ 2 * R.u * |c i| := by
    intro i
    cases i with
    | zero => simp [hc, nodesOf, Fl.zero_val]
    | succ i => exact forall₂_getD hclose.2.2 i
  have hgf' : RhsClose gf g y a b r ε := fun s hs t x h1 h2 => hgf s hs t x (h1.trans rr₁) (h2.trans rr₁)
  -- the number of steps and the times
  obtain ⟨N, hN⟩ : ∃ N : ℕ, N = ⌈((t₁f - t₀f) / h).val⌉.toNat := ⟨_, rfl⟩
  have htf : t₀f.val ≤ t₁f.val := by rw [e0, e1]; exact ht
  obtain ⟨n1, n2, n3⟩ := steps_fl hpos htf hu8 hN
  rw [e0, e1, ← hD] at n3
  have n4 : N * h.val ≤ 2 * D + 1 := by
    have : (1 + R.u) ^ 2 ≤ 2 := by nlinarith
    have := mul_le_mul_of_nonneg_right this D0
    linarith
  have N0 : (0 : ℝ) ≤ N := Nat.cast_nonneg N
  have n5 : (N + 1) * R.u ≤ η * (2 * D + 2) := by
    calc (N + 1) * R.u ≤ (N + 1) * (η * h.val) := mul_le_mul_of_nonneg_left hu (by linarith)
      _ = η * (N * h.val + h.val) := by ring
      _ ≤ η * (2 * D + 2) := by
          refine mul_le_mul_of_nonneg_left ?_ hη.le
          linarith
  have n6 : 8 * (N + 1) * R.u ≤ 1 := by linarith
  have n7 : 8 * N * R.u ≤ 1 := by linarith
  set F := opStep s (rowsOf T.a) (weightsOf T.b) (nodesOf T.c) gf with hF
  have hstep : ∀ t (x : Fin n → Fl R) h, doStep T f t (col x) h = some (col (F t x h)) := by
    intro t x h
    rw [doStep_ops hf T hshape, hF, hs, lb]
  have tm := times_fl F hpos htf x₀ n7 rfl
  rw [e0, e1, ← hSg] at tm
  have n8 : (N : ℝ) * (8 * R.u * Sg) ≤ t₀ - a := by
    have h1 : N * R.u ≤ η * (2 * D + 1) := by
      calc N * R.u ≤ N * (η * h.val) := mul_le_mul_of_nonneg_left hu N0
        _ = η * (N * h.val) := by ring
        _ ≤ η * (2 * D + 1) := mul_le_mul_of_nonneg_left n4 hη.le
    have h2 := mul_le_mul_of_nonneg_right h1 Sg0
    linarith
  have uSg : R.u * Sg ≤ η * h.val * Sg := mul_le_mul_of_nonneg_right hu Sg0
  have uSg' : R.u * Sg ≤ η * Sg := mul_le_mul_of_nonneg_right uη Sg0
  have uSg0 : 0 ≤ R.u * Sg := by positivity
  set τ : ℕ → ℝ := fun k => (iterSeq F h t₀f t₁f x₀ k).1.val with hτ
  set x : ℕ → Fin n → ℝ := fun k => flv (iterSeq F h t₀f t₁f x₀ k).2 with hx
  set df : ℕ → Fl R := fun k => min h (t₁f - (iterSeq F h t₀f t₁f x₀ k).1) with hdf
  have hin : ∀ k ≤ N, τ k ∈ Set.Icc a b := by
    intro k hk
    obtain ⟨⟨i1, i2⟩, -⟩ := tm k hk
    have hkN : (k : ℝ) ≤ N := by exact_mod_cast hk
    have := mul_le_mul_of_nonneg_right hkN (by positivity : 0 ≤ 8 * R.u * Sg)
    exact ⟨by linarith, by linarith⟩
  have hdval : ∀ k, (df k).val = min h.val (R.rnd (t₁ - τ k)) := by
    intro k
    rw [hdf]; simp only
    rw [Fl.min_val, Fl.sub_val, e1]
  have hsteps : ∀ k < N, |(df k).val| ≤ h.val ∧ |τ (k + 1) - (τ k + (df k).val)| ≤ 4 * Sg * R.u := by
    intro k hk
    obtain ⟨⟨i1, i2⟩, -⟩ := tm k hk.le
    have hk1 : ((k : ℝ) + 1) ≤ N := by exact_mod_cast hk
    have k0 : (0 : ℝ) ≤ k := Nat.cast_nonneg k
    have a1 : |t₁| ≤ Sg := by rw [hSg]; linarith [abs_nonneg t₀]
    have drift : (k : ℝ) * (8 * R.u * Sg) ≤ Sg := by
      have : (k : ℝ) * (8 * R.u) ≤ 1 := by
        have := mul_le_mul_of_nonneg_right (by linarith : (k : ℝ) ≤ N) (by positivity : 0 ≤ 8 * R.u)
        linarith
      have := mul_le_mul_of_nonneg_right this Sg0
      linarith
    have ω1 : 8 * R.u * Sg ≤ Sg := by
      have := mul_le_mul_of_nonneg_right (by linarith : 8 * R.u ≤ 1) Sg0
      linarith
    have c1 : |t₁ - τ k| ≤ 2 * Sg := by
      rw [abs_le]
      constructor
      · linarith
      · have : t₁ - t₀ ≤ Sg := by rw [hSg]; linarith [neg_abs_le t₀, le_abs_self t₁]
        linarith
    have c2 : |τ k| ≤ 2 * Sg := by
      have b0 : -Sg ≤ t₀ := by rw [hSg]; linarith [neg_abs_le t₀, abs_nonneg t₁]
      have b1 := (abs_le.1 a1).2
      rw [abs_le]; constructor <;> linarith
    obtain ⟨s1, s2, s3, s4⟩ := time_step (R := R) hpos hu8 c1 c2 a1
    rw [hdval]
    constructor
    · rw [abs_le]
      refine ⟨?_, min_le_left _ _⟩
      rcases le_total (τ k) t₁ with hle | hle
      · linarith [s3 hle]
      · have := s4 hle
        have : 16 * (R.u * Sg) ≤ h.val := by
          have := mul_le_mul_of_nonneg_right η5 hpos.le
          linarith
        linarith
    · have e : τ (k + 1) = R.rnd (τ k + min h.val (R.rnd (t₁ - τ k))) := by
        rw [hτ]; simp only [iterSeq, Fl.add_val, Fl.min_val, Fl.sub_val, e1]
      rw [e]
      linarith
  set ρ := C₂ * (R.u + h.val * ε) with hρ
  have ρ0 : 0 ≤ ρ := by positivity
  have hloc : ∀ k < N, ‖x k - y (τ k)‖ ≤ r / 3 →
      ‖x (k + 1) - (x k + (df k).val • ∑ i ∈ range s, b' i • rkStage A c g (τ k) (x k) (df k).val i)‖ ≤ ρ := by
    intro k hk hxk
    have hin' := hin k hk.le
    obtain ⟨d1, -⟩ := hsteps k hk
    have tX : |τ k| ≤ X := by
      have : |τ k| ≤ |a| + |b| := by
        rw [abs_le]
        exact ⟨by linarith [hin'.1, neg_abs_le a, abs_nonneg b], by linarith [hin'.2, le_abs_self b, abs_nonneg a]⟩
      rw [hX]; linarith
    have xX : ‖x k‖ ≤ X := by
      have h1 := hXb _ hin'
      have h2 := norm_sub_norm_le (x k) (y (τ k))
      rw [hX]; linarith [abs_nonneg a, abs_nonneg b]
    have st := step_fl hG hΛ W0 hε hε1 r0 htube hu1 hAf hcf hbf (by simp [hc, nodesOf]) WA Wc Wb hgf'
      (by rw [hB]; linarith : lcConst s X (G + 1) W ≤ B) (by rw [hB]; linarith : X + 11 * W ≤ B)
      (by have := mul_le_mul_of_nonneg_left uη B0; linarith : B * R.u ≤ r / 3)
      (t := (iterSeq F h t₀f t₁f x₀ k).1) (d := df k) (x := (iterSeq F h t₀f t₁f x₀ k).2) hin' tX xX hxk
      (d1.trans hh2) ((mul_le_mul_of_nonneg_right d1 (by positivity)).trans hh3)
    have ex : x (k + 1) = flv (opStep s (rowsOf T.a) (weightsOf T.b) (nodesOf T.c) gf (iterSeq F h t₀f t₁f x₀ k).1
        (iterSeq F h t₀f t₁f x₀ k).2 (df k)) := rfl
    rw [ex]
    refine st.trans ?_
    rw [hρ]
    have q1 : |(df k).val| * ε ≤ h.val * ε := mul_le_mul_of_nonneg_right d1 hε
    have q2 : 0 ≤ B + W * kap Λ B W s := by positivity
    refine mul_le_mul ?_ (by linarith) (by positivity) C₂0
    rw [hC₂]; linarith
  have hρh : ρ ≤ ρ₀ * h.val := by
    have h1 : R.u + h.val * ε ≤ 2 * (η * h.val) := by
      have := mul_le_mul_of_nonneg_left hεη hpos.le
      linarith
    calc ρ ≤ C₂ * (2 * (η * h.val)) := mul_le_mul_of_nonneg_left h1 C₂0
      _ = η * (2 * C₂) * h.val := by ring
      _ ≤ ρ₀ * h.val := mul_le_mul_of_nonneg_right η6 hpos.le
  have main := H h.val hpos hh1 ρ ρ0 hρh ε hε (by linarith) N τ (fun k => (df k).val) x n4
    (by
      have e : τ 0 = t₀ := e0
      rw [e]; exact hx₀) hin
    (fun k hk => ⟨(hsteps k hk).1, ((hsteps k hk).2).trans (by
      rw [hρ]
      have : 4 * Sg * R.u ≤ C₂ * R.u := by
        refine mul_le_mul_of_nonneg_right ?_ u0
        rw [hC₂]
        have : 0 ≤ B + W * kap Λ B W s := by positivity
        linarith
      have : 0 ≤ C₂ * (h.val * ε) := by positivity
      linarith)⟩) hloc
  have hsol := fixedSolve_ops hstep ((Fl.le_iff _ _).2 htf) x₀ (h := h)
  rw [n1] at hsol
  have uh0 : 0 ≤ R.u / h.val := by positivity
  have hp0 : 0 ≤ h.val ^ p := by positivity
  refine ⟨_, _, hsol, by simp, ?_, ?_, ?_⟩
  · rw [List.head?_map, List.head?_range]
    simp [iterSeq]
  · intro t hk
    obtain ⟨ts, xs, c1, -, -, -, -, c2, -⟩ := C91_times (fun t x h => ⟨_, hstep t x h⟩) hpos htf x₀ hN n6
    rw [hsol] at c1
    obtain ⟨rfl, rfl⟩ := Prod.mk.inj (Option.some.inj c1)
    have h1 := c2 t hk
    rw [e0, e1, ← hSg] at h1
    refine h1.trans ?_
    have h2 : ((N : ℝ) + 1) * R.u ≤ (2 * D + 2) * (R.u / h.val) := by
      rw [mul_div_assoc', le_div_iff₀ hpos]
      have : ((N : ℝ) + 1) * h.val ≤ 2 * D + 2 := by linarith
      calc ((N : ℝ) + 1) * R.u * h.val = ((N : ℝ) + 1) * h.val * R.u := by ring
        _ ≤ (2 * D + 2) * R.u := mul_le_mul_of_nonneg_right this u0
    have h3 := mul_le_mul_of_nonneg_right h2 Sg0
    have h4 : 0 ≤ C₁ * (1 + C₂) * (R.u / h.val) := by positivity
    linarith
  · intro k t Xk hkt hkX
    rw [List.getElem?_map, Option.map_eq_some_iff] at hkt hkX
    obtain ⟨i, hi, rfl⟩ := hkt
    obtain ⟨i', hi', rfl⟩ := hkX
    rw [List.getElem?_eq_some_iff] at hi hi'
    obtain ⟨hi1, rfl⟩ := hi
    obtain ⟨_, rfl⟩ := hi'
    rw [List.length_range] at hi1
    simp only [List.getElem_range]
    refine ⟨_, rfl, ((main k (by omega)).2).trans ?_⟩
    have h1 : ρ / h.val = C₂ * (R.u / h.val) + C₂ * ε := by rw [hρ]; field_simp
    rw [h1]
    have q1 : 0 ≤ C₁ * C₂ * h.val ^ p := by positivity
    have q2 : 0 ≤ C₁ * (R.u / h.val) := by positivity
    have q3 : 0 ≤ 16 * (D + 1) * Sg * (h.val ^ p + R.u / h.val + ε) := by positivity
    linarith

/-- the classical Runge-Kutta method for `x' = x`, `x 0 = 1` on `[0, 1]`: in every arithmetic the values are those of the
exponential function up to `C (h ^ 4 + u / h)`; all coefficients of the tableau are stored with the rounding of the
arithmetic -/
example : ∃ h₀ > 0, ∃ η > 0, ∃ C, ∀ (R : Rounding ℝ) (h z o : Fl R), z.val = 0 → o.val = 1 → 0 < h.val → h.val ≤ h₀ →
    R.u ≤ η * h.val → ∀ T : Tableau (Fl R), TabClose T rungeKutta4 →
    ∃ ts xs, fixedSolve (doStep T fun _ x => some x) h z o (col ![o]) = some (ts, xs) ∧
      ts.length = xs.length ∧ ts.head? = some z ∧ (∀ t, ts.getLast? = some t → |t.val - 1| ≤ C * (R.u / h.val)) ∧
      ∀ (k : ℕ) t X, ts[k]? = some t → xs[k]? = some X →
        ∃ x : Fin 1 → Fl R, X = col x ∧ ‖flv x - ![Real.exp t.val]‖ ≤ C * (h.val ^ 4 + R.u / h.val) := by
  obtain ⟨h₀, hh, η, hη, C, H⟩ := C92_converges_partial .rungeKutta4 (by decide) (n := 1) (g := fun _ x => x)
    (y := fun t => ![Real.exp t]) (a := -1) (t₀ := 0) (t₁ := 1) (b := 2) (by norm_num) zero_le_one (by norm_num)
    (fun t _ => contDiffAt_snd)
    (fun t _ => Eventually.of_forall fun u => by
      rw [hasDerivAt_pi]
      intro i
      fin_cases i
      simpa using Real.hasDerivAt_exp u) (r₁ := 1) one_pos
  refine ⟨h₀, hh, η, hη, C, fun R h z o hz ho h1 h2 h3 T hT => ?_⟩
  have := H R h z o 0 T (fun _ x => some x) (fun _ x => x) ![o] hz ho h1 h2 h3 le_rfl hη.le
    (by simpa [FixedMethod.tableau] using hT) (fun _ _ => rfl) (fun s _ t x _ _ => by simp)
    (by
      have : flv (n := 1) ![o] = ![1] := by
        funext i; fin_cases i; simp [flv, ho]
      rw [this]; simp)
  simpa [FixedMethod.order] using this

/-- the tableau of the classical Runge-Kutta method, rounded, is close to the exact one: the hypothesis of the theorem is met
in binary arithmetic with `53` bits, where the resolution is `2 ^ -53` -/
example : ∃ T : Tableau (Fl (binary ℝ 53 (by norm_num))), TabClose T rungeKutta4 := by
  have key : ∀ l : List ℝ, List.Forall₂ (fun (v : Fl (binary ℝ 53 (by norm_num))) w =>
      |v.val - w| ≤ 2 * (binary ℝ 53 (by norm_num)).u * |w|) (l.map fun w => ⟨(binary ℝ 53 (by norm_num)).rnd w⟩) l := by
    intro l
    rw [List.forall₂_map_left_iff]
    refine List.forall₂_same.2 fun w _ => ?_
    have h1 := (binary ℝ 53 (by norm_num)).err w
    have h2 := mul_nonneg (binary ℝ 53 (by norm_num)).u_nonneg (abs_nonneg w)
    show |(binary ℝ 53 (by norm_num)).rnd w - w| ≤ _
    linarith
  exact ⟨⟨rungeKutta4.a.map fun w => ⟨(binary ℝ 53 (by norm_num)).rnd w⟩, rungeKutta4.b.map fun w => ⟨(binary ℝ 53 (by norm_num)).rnd w⟩, rungeKutta4.c.map fun w => ⟨(binary ℝ 53 (by norm_num)).rnd w⟩⟩, key _, key _, key _⟩

end Ode
end Verif
