import Mathlib.Analysis.Calculus.MeanValue
import Mathlib.Analysis.Calculus.ContDiff.Basic
import Mathlib.Analysis.Calculus.ContDiff.RCLike
import Mathlib.Analysis.Calculus.ContDiff.Comp
import Mathlib.Analysis.Normed.Module.Multilinear.Curry
import Mathlib.Analysis.Asymptotics.Lemmas
import Mathlib.Analysis.Calculus.Deriv.Pow
import Mathlib.Algebra.BigOperators.Ring.Finset

/-!
# Order of Runge-Kutta methods

The theorem of Butcher for explicit methods, in the form used for C41 and C42: a tableau that satisfies the order
conditions of all trees with at most `p` nodes has a local error `O(h ^ (p + 1))` for every `p` times continuously
differentiable right-hand side. Nothing here mentions the crate.

A forest is a list of (ordered) trees and a tree is a root above a forest. `Forest.cons t r` has as its first tree the
root above `t` and as its other trees those of `r`. Ordered trees replace the unordered ones of the textbooks; no
symmetry factors occur then.
-/

namespace Verif
namespace RK
open Finset Asymptotics Filter Topology

inductive Forest
  | nil
  | cons (t rest : Forest)
deriving DecidableEq

namespace Forest

/-- number of nodes; the tree above the forest `F` has `F.size + 1` nodes -/
def size : Forest → ℕ
  | nil => 0
  | cons t r => t.size + 1 + r.size

/-- number of trees -/
def trees : Forest → ℕ
  | nil => 0
  | cons _ r => r.trees + 1

/-- the product of the densities of the trees, where the density of the tree above `t` is the number of its nodes
    times the densities of the trees of `t` -/
def dens : Forest → ℕ
  | nil => 1
  | cons t r => ((t.size + 1) * t.dens) * r.dens

/-- the forests with at most `q` nodes -/
def upTo : ℕ → Finset Forest
  | 0 => {nil}
  | q + 1 => insert nil (((upTo q ×ˢ upTo q).image (fun p => cons p.1 p.2)).filter (fun F => F.size ≤ q + 1))

theorem mem_upTo {q : ℕ} {F : Forest} : F ∈ upTo q ↔ F.size ≤ q := by
  induction q generalizing F with
  | zero => cases F <;> simp [upTo, size]
  | succ q ih =>
    cases F with
    | nil => simp [upTo, size]
    | cons t r =>
      simp only [upTo, mem_insert, reduceCtorEq, mem_filter, mem_image, mem_product, Prod.exists, cons.injEq,
        false_or, and_iff_right_iff_imp]
      intro h
      simp only [size] at h
      exact ⟨t, r, ⟨ih.mpr (by omega), ih.mpr (by omega)⟩, rfl, rfl⟩

theorem trees_le_size (F : Forest) : F.trees ≤ F.size := by
  induction F with
  | nil => simp [trees]
  | cons t r _ ih => simp only [trees, size]; omega

theorem dens_pos (F : Forest) : 0 < F.dens := by
  induction F with
  | nil => simp [dens]
  | cons t r h1 h2 => simp only [dens]; positivity

end Forest

open Forest

/-- the elementary weight of the forest `F` at stage `i` -/
def weight {K : Type} [Field K] (A : ℕ → ℕ → K) : Forest → ℕ → K
  | .nil, _ => 1
  | .cons t r, i => (∑ j ∈ range i, A i j * weight A t j) * weight A r i

/-- the order conditions of all trees with at most `p` nodes, for an explicit method of `s` stages -/
def OrderConditions {K : Type} [Field K] (s : ℕ) (A : ℕ → ℕ → K) (b : ℕ → K) (p : ℕ) : Prop :=
  ∀ F : Forest, F.size + 1 ≤ p → (∑ i ∈ range s, b i * weight A F i) * ((F.size + 1 : ℕ) * (F.dens : ℕ)) = 1

section Taylor
variable {E : Type} [NormedAddCommGroup E] [NormedSpace ℝ E]

/-- Taylor's formula: some multilinear maps and a remainder -/
theorem exists_taylor (q : ℕ) : ∀ {F : Type} [NormedAddCommGroup F] [NormedSpace ℝ F] {f : E → F} {x : E},
    ContDiffAt ℝ (q + 1 : ℕ) f x →
    ∃ D : ∀ m, ContinuousMultilinearMap ℝ (fun _ : Fin m => E) F,
      (fun e => f (x + e) - ∑ m ∈ range (q + 1), D m (fun _ => e)) =O[𝓝 0] (fun e => ‖e‖ ^ (q + 1)) := by
  induction q with
  | zero =>
    intro F _ _ f x hf
    refine ⟨fun m => match m with
      | 0 => ContinuousMultilinearMap.constOfIsEmpty ℝ _ (f x)
      | _ + 1 => 0, ?_⟩
    have hd : DifferentiableAt ℝ f x := hf.differentiableAt (by norm_num)
    have h := hd.isBigO_sub
    have h2 : Tendsto (fun e : E => x + e) (𝓝 0) (𝓝 x) := by
      have : ContinuousAt (fun e : E => x + e) 0 := by fun_prop
      simpa [ContinuousAt] using this
    have h3 := h.comp_tendsto h2
    simp only [Function.comp_def, add_sub_cancel_left] at h3
    simpa using h3.norm_right
  | succ q ih =>
    intro F _ _ f x hf
    have hf' : ContDiffAt ℝ (q + 1 : ℕ) (fderiv ℝ f) x := ContDiffAt.fderiv_right hf (by norm_cast)
    obtain ⟨D, hD⟩ := ih hf'
    refine ⟨fun m => match m with
      | 0 => ContinuousMultilinearMap.constOfIsEmpty ℝ _ (f x)
      | m + 1 => (1 / (m + 1 : ℝ)) • (D m).uncurryRight, ?_⟩
    obtain ⟨C, hC0, hC⟩ := hD.exists_pos
    rw [IsBigOWith] at hC
    have hdiff : ∀ᶠ e in 𝓝 (0 : E), DifferentiableAt ℝ f (x + e) := by
      have h1 : ∀ᶠ z in 𝓝 x, DifferentiableAt ℝ f z := by
        have := hf.eventually (by norm_cast; simp)
        filter_upwards [this] with z hz
        exact hz.differentiableAt (by norm_cast)
      have h2 : Tendsto (fun e : E => x + e) (𝓝 0) (𝓝 x) := by
        have : ContinuousAt (fun e : E => x + e) 0 := by fun_prop
        simpa [ContinuousAt] using this
      exact h2.eventually h1
    obtain ⟨ε, hε, hball⟩ := Metric.eventually_nhds_iff_ball.mp (hC.and hdiff)
    refine IsBigO.of_bound C ?_
    filter_upwards [Metric.ball_mem_nhds (0 : E) hε] with e he
    -- the remainder along the segment
    set g : ℝ → F := fun s => f (x + s • e) - f x -
      ∑ m ∈ range (q + 1), (s ^ (m + 1) / (m + 1 : ℝ)) • D m (fun _ => e) e with hg
    have hmem : ∀ s ∈ Set.Icc (0 : ℝ) 1, s • e ∈ Metric.ball (0 : E) ε := by
      intro s hs
      rw [mem_ball_zero_iff] at he ⊢
      rw [norm_smul, Real.norm_of_nonneg hs.1]
      nlinarith [norm_nonneg e, hs.2]
    have hder : ∀ s ∈ Set.Icc (0 : ℝ) 1, HasDerivWithinAt g
        ((fderiv ℝ f (x + s • e) - ∑ m ∈ range (q + 1), D m (fun _ => s • e)) e) (Set.Icc 0 1) s := by
      intro s hs
      have hd := (hball _ (hmem s hs)).2.hasFDerivAt
      have h1 : HasDerivAt (fun s : ℝ => x + s • e) e s := by
        have := ((hasDerivAt_id s).smul_const e).const_add x
        simpa using this
      have h2 := hd.comp_hasDerivAt s h1
      have h3 : HasDerivAt (fun s : ℝ => ∑ m ∈ range (q + 1), (s ^ (m + 1) / (m + 1 : ℝ)) • D m (fun _ => e) e)
          (∑ m ∈ range (q + 1), (s ^ m) • D m (fun _ => e) e) s := by
        apply HasDerivAt.fun_sum
        intro m _
        have := ((hasDerivAt_pow (m + 1) s).div_const (m + 1 : ℝ)).smul_const (D m (fun _ => e) e)
        convert this using 2
        push_cast
        have : (m + 1 : ℝ) ≠ 0 := by positivity
        field_simp
      have h4 := (h2.sub_const (f x)).sub h3
      refine h4.hasDerivWithinAt.congr_deriv ?_
      rw [_root_.sub_apply, _root_.sum_apply]
      congr 1
      apply sum_congr rfl
      intro m _
      rw [show (fun _ : Fin m => s • e) = fun i => (fun _ => s) i • (fun _ : Fin m => e) i from rfl,
        ContinuousMultilinearMap.map_smul_univ]
      simp
    have hbound : ∀ s ∈ Set.Ico (0 : ℝ) 1,
        ‖(fderiv ℝ f (x + s • e) - ∑ m ∈ range (q + 1), D m (fun _ => s • e)) e‖ ≤ C * ‖e‖ ^ (q + 1) * ‖e‖ := by
      intro s hs
      have h1 := (hball _ (hmem s ⟨hs.1, hs.2.le⟩)).1
      refine (ContinuousLinearMap.le_opNorm _ _).trans ?_
      refine mul_le_mul_of_nonneg_right (h1.trans ?_) (norm_nonneg _)
      rw [norm_pow, norm_norm, norm_smul, Real.norm_of_nonneg hs.1]
      refine mul_le_mul_of_nonneg_left ?_ hC0.le
      refine pow_le_pow_left₀ (mul_nonneg hs.1 (norm_nonneg _)) ?_ _
      nlinarith [norm_nonneg e, hs.2]
    have hmv := norm_image_sub_le_of_norm_deriv_le_segment_01' hder hbound
    have hg0 : g 0 = 0 := by simp [hg]
    have hg1 : g 1 = f (x + e) - (f x + ∑ m ∈ range (q + 1), (1 / (m + 1 : ℝ)) • (D m).uncurryRight (fun _ => e)) := by
      simp only [hg, one_smul, one_pow]
      rw [sub_sub]
      congr 2
    rw [hg0, sub_zero, hg1] at hmv
    rw [sum_range_succ', add_comm (∑ k ∈ range (q + 1), _)]
    refine hmv.trans (le_of_eq ?_)
    rw [norm_pow, norm_norm, pow_succ _ (q + 1), mul_assoc]

end Taylor

section Expansion
variable {E : Type} [NormedAddCommGroup E] [NormedSpace ℝ E]

/-- a multilinear map on the entries of a list -/
noncomputable def onList {m : ℕ} (M : ContinuousMultilinearMap ℝ (fun _ : Fin m => E) E) (l : List E) : E :=
  M (fun i => l.getD i 0)

/-- the elementary differentials of the trees of a forest -/
noncomputable def vals (D : ∀ m, ContinuousMultilinearMap ℝ (fun _ : Fin m => E) E) : Forest → List E
  | .nil => []
  | .cons t r => onList (D (t.trees)) (vals D t) :: vals D r

/-- the elementary differential of the tree above a forest -/
noncomputable def ediff (D : ∀ m, ContinuousMultilinearMap ℝ (fun _ : Fin m => E) E) (F : Forest) : E :=
  onList (D F.trees) (vals D F)

theorem onList_cons {m : ℕ} (M : ContinuousMultilinearMap ℝ (fun _ : Fin (m + 1) => E) E) (v : E) (l : List E) :
    onList M (v :: l) = onList (M.curryLeft v) l := by
  unfold onList
  rw [ContinuousMultilinearMap.curryLeft_apply]
  congr 1
  funext i
  refine Fin.cases ?_ (fun j => ?_) i
  · simp
  · simp

theorem isBigO_pow_le {a b : ℕ} (h : b ≤ a) : (fun t : ℝ => t ^ a) =O[𝓝 0] (fun t : ℝ => t ^ b) := by
  obtain ⟨k, rfl⟩ := Nat.exists_eq_add_of_le h
  have h1 : (fun t : ℝ => t ^ k) =O[𝓝 0] (fun _ => (1 : ℝ)) := by
    have : ContinuousAt (fun t : ℝ => t ^ k) 0 := by fun_prop
    exact this.isBigO_one ℝ
  have := (isBigO_refl (fun t : ℝ => t ^ b) (𝓝 0)).mul h1
  simpa [pow_add] using this

theorem isBigO_smul_pow (c : ℝ) (v : E) (a : ℕ) : (fun t : ℝ => (c * t ^ a) • v) =O[𝓝 0] (fun t : ℝ => t ^ a) := by
  have h1 : (fun t : ℝ => c * t ^ a) =O[𝓝 0] (fun t : ℝ => t ^ a) := (isBigO_refl _ _).const_mul_left c
  have h2 : (fun _ : ℝ => v) =O[𝓝 (0 : ℝ)] (fun _ => (1 : ℝ)) := isBigO_const_const _ one_ne_zero _
  simpa using h1.smul h2

variable {D : ∀ m, ContinuousMultilinearMap ℝ (fun _ : Fin m => E) E} {q : ℕ} {om w : Forest → ℝ} {δ : ℝ → E}

theorem delta_isBigO
    (hδ : (fun h => δ h - ∑ t ∈ upTo q, (om t * h ^ (t.size + 1)) • ediff D t) =O[𝓝 0] (fun h : ℝ => h ^ (q + 1))) :
    δ =O[𝓝 0] (fun h : ℝ => h) := by
  have h1 : (fun h : ℝ => ∑ t ∈ upTo q, (om t * h ^ (t.size + 1)) • ediff D t) =O[𝓝 0] (fun h : ℝ => h) := by
    apply IsBigO.fun_sum
    intro t _
    have := (isBigO_smul_pow (om t) (ediff D t) (t.size + 1)).trans (isBigO_pow_le (b := 1) (by omega))
    simpa using this
  have h2 : (fun h : ℝ => h ^ (q + 1)) =O[𝓝 0] (fun h : ℝ => h) := by
    have := isBigO_pow_le (a := q + 1) (b := 1) (by omega)
    simpa using this
  have := (hδ.trans h2).add h1
  simpa using this

/-- sums over the forests with one tree more -/
theorem sum_forest_succ (m : ℕ) (G : Forest → E) :
    ∑ F ∈ (upTo q).filter (fun F => F.trees = m + 1), G F =
      ∑ p ∈ (upTo q ×ˢ (upTo q).filter (fun F => F.trees = m)).filter (fun p => p.1.size + 1 + p.2.size ≤ q),
        G (cons p.1 p.2) := by
  symm
  refine sum_bij (fun p _ => cons p.1 p.2) ?_ ?_ ?_ ?_
  · rintro ⟨t, r⟩ h
    simp only [mem_filter, mem_product, mem_upTo] at h ⊢
    simp only [size, trees]
    omega
  · rintro ⟨t, r⟩ _ ⟨t', r'⟩ _ h
    simpa using h
  · intro F h
    cases F with
    | nil => simp [trees] at h
    | cons t r =>
      refine ⟨(t, r), ?_, rfl⟩
      simp only [mem_filter, mem_product, mem_upTo, size, trees] at h ⊢
      omega
  · intros; rfl

theorem pow_expand (hw0 : w nil = 1) (hw : ∀ t r, w (cons t r) = om t * w r)
    (hδ : (fun h => δ h - ∑ t ∈ upTo q, (om t * h ^ (t.size + 1)) • ediff D t) =O[𝓝 0] (fun h : ℝ => h ^ (q + 1)))
    (m : ℕ) (M : ContinuousMultilinearMap ℝ (fun _ : Fin m => E) E) :
    (fun h => M (fun _ => δ h) - ∑ F ∈ (upTo q).filter (fun F => F.trees = m), (w F * h ^ F.size) • onList M (vals D F))
      =O[𝓝 0] (fun h : ℝ => h ^ (q + 1)) := by
  induction m with
  | zero =>
    have : (upTo q).filter (fun F => F.trees = 0) = {nil} := by
      ext F
      simp only [mem_filter, mem_upTo, mem_singleton]
      constructor
      · rintro ⟨_, h⟩
        cases F with
        | nil => rfl
        | cons t r => simp [trees] at h
      · rintro rfl
        simp [size, trees]
    rw [this]
    simp only [sum_singleton, hw0, size, pow_zero, mul_one, one_smul]
    have e : ∀ h, M (fun _ => δ h) = onList M (vals D nil) := by
      intro h
      unfold onList
      congr 1
      funext i
      exact i.elim0
    simp only [e, sub_self]
    exact isBigO_zero _ _
  | succ m ih =>
    have hbδ : δ =O[𝓝 0] (fun _ : ℝ => (1 : ℝ)) := by
      refine (delta_isBigO hδ).trans ?_
      simpa using isBigO_pow_le (a := 1) (b := 0) (by omega)
    -- the part from the remainder of δ
    have hR : (fun h => M.curryLeft (δ h - ∑ t ∈ upTo q, (om t * h ^ (t.size + 1)) • ediff D t) (fun _ => δ h))
        =O[𝓝 0] (fun h : ℝ => h ^ (q + 1)) := by
      have h1 : (fun h => M.curryLeft (δ h - ∑ t ∈ upTo q, (om t * h ^ (t.size + 1)) • ediff D t) (fun _ => δ h))
          =O[𝓝 0] (fun h => ‖δ h - ∑ t ∈ upTo q, (om t * h ^ (t.size + 1)) • ediff D t‖ * ‖δ h‖ ^ m) := by
        refine IsBigO.of_bound ‖M‖ (Eventually.of_forall fun h => ?_)
        have := M.le_opNorm (Fin.cons (δ h - ∑ t ∈ upTo q, (om t * h ^ (t.size + 1)) • ediff D t) (fun _ => δ h))
        rw [ContinuousMultilinearMap.curryLeft_apply]
        refine this.trans (le_of_eq ?_)
        rw [Fin.prod_univ_succ]
        simp
      have h2 := hδ.norm_left.mul ((hbδ.norm_left).pow m)
      refine h1.trans ?_
      simpa using h2
    have hS : (fun h => ∑ t ∈ upTo q, (om t * h ^ (t.size + 1)) • (M.curryLeft (ediff D t) (fun _ => δ h) -
        ∑ F ∈ (upTo q).filter (fun F => F.trees = m), (w F * h ^ F.size) • onList (M.curryLeft (ediff D t)) (vals D F)))
        =O[𝓝 0] (fun h : ℝ => h ^ (q + 1)) := by
      apply IsBigO.fun_sum
      intro t _
      have h1 : (fun h : ℝ => om t * h ^ (t.size + 1)) =O[𝓝 0] (fun _ => (1 : ℝ)) := by
        refine ((isBigO_refl _ _).const_mul_left (om t)).trans ?_
        simpa using isBigO_pow_le (a := t.size + 1) (b := 0) (by omega)
      simpa using h1.smul (ih (M.curryLeft (ediff D t)))
    -- terms of too high a degree
    have hT : (fun h : ℝ => ∑ p ∈ (upTo q ×ˢ (upTo q).filter (fun F => F.trees = m)).filter
        (fun p => ¬ p.1.size + 1 + p.2.size ≤ q), (w (cons p.1 p.2) * h ^ (cons p.1 p.2).size) •
          onList M (vals D (cons p.1 p.2))) =O[𝓝 0] (fun h : ℝ => h ^ (q + 1)) := by
      apply IsBigO.fun_sum
      intro p hp
      refine (isBigO_smul_pow _ _ _).trans (isBigO_pow_le ?_)
      simp only [mem_filter] at hp
      simp only [size]
      omega
    refine ((hR.add hS).add hT).congr_left ?_
    intro h
    have e1 : M (fun _ => δ h) = M.curryLeft (δ h) (fun _ => δ h) := by
      rw [ContinuousMultilinearMap.curryLeft_apply]
      congr 1
      funext i
      refine Fin.cases rfl (fun j => rfl) i
    have e2 : M.curryLeft (δ h - ∑ t ∈ upTo q, (om t * h ^ (t.size + 1)) • ediff D t) (fun _ => δ h) =
        M.curryLeft (δ h) (fun _ => δ h) -
          ∑ t ∈ upTo q, (om t * h ^ (t.size + 1)) • M.curryLeft (ediff D t) (fun _ => δ h) := by
      rw [map_sub, map_sum, _root_.sub_apply, _root_.sum_apply]
      congr 1
      apply sum_congr rfl
      intro t _
      rw [map_smul, _root_.smul_apply]
    rw [sum_forest_succ, e1, e2]
    have e3 : ∀ t r, (w (cons t r) * h ^ (cons t r).size) • onList M (vals D (cons t r)) =
        (om t * h ^ (t.size + 1)) • ((w r * h ^ r.size) • onList (M.curryLeft (ediff D t)) (vals D r)) := by
      intro t r
      rw [smul_smul, hw]
      simp only [vals, size]
      rw [onList_cons, pow_add]
      congr 1
      ring
    have e4 := sum_filter_add_sum_filter_not (upTo q ×ˢ (upTo q).filter (fun F => F.trees = m))
      (fun p => p.1.size + 1 + p.2.size ≤ q)
      (fun p => (w (cons p.1 p.2) * h ^ (cons p.1 p.2).size) • onList M (vals D (cons p.1 p.2)))
    rw [sum_product] at e4
    simp only [e3] at e4
    simp only [smul_sub, sum_sub_distrib, smul_sum, e3] at e4 ⊢
    rw [← e4]
    abel

/-- substituting a series over trees into a Taylor expansion gives a series over forests -/
theorem comp_expand {f : E → E} {x : E}
    (hD : (fun e => f (x + e) - ∑ m ∈ range (q + 1), D m (fun _ => e)) =O[𝓝 0] (fun e => ‖e‖ ^ (q + 1)))
    (hw0 : w nil = 1) (hw : ∀ t r, w (cons t r) = om t * w r)
    (hδ : (fun h => δ h - ∑ t ∈ upTo q, (om t * h ^ (t.size + 1)) • ediff D t) =O[𝓝 0] (fun h : ℝ => h ^ (q + 1))) :
    (fun h => f (x + δ h) - ∑ F ∈ upTo q, (w F * h ^ F.size) • ediff D F) =O[𝓝 0] (fun h : ℝ => h ^ (q + 1)) := by
  have hb := delta_isBigO hδ
  have ht : Tendsto δ (𝓝 0) (𝓝 0) := hb.trans_tendsto tendsto_id
  have h1 := hD.comp_tendsto ht
  have h2 : ((fun e : E => ‖e‖ ^ (q + 1)) ∘ δ) =O[𝓝 0] (fun h : ℝ => h ^ (q + 1)) := hb.norm_left.pow (q + 1)
  have h3 : (fun h => ∑ m ∈ range (q + 1), (D m (fun _ => δ h) -
      ∑ F ∈ (upTo q).filter (fun F => F.trees = m), (w F * h ^ F.size) • onList (D m) (vals D F)))
      =O[𝓝 0] (fun h : ℝ => h ^ (q + 1)) := IsBigO.fun_sum fun m _ => pow_expand hw0 hw hδ m (D m)
  refine ((h1.trans h2).add h3).congr_left ?_
  intro h
  simp only [Function.comp_apply, sum_sub_distrib]
  have e : ∑ m ∈ range (q + 1), ∑ F ∈ (upTo q).filter (fun F => F.trees = m), (w F * h ^ F.size) •
      onList (D m) (vals D F) = ∑ F ∈ upTo q, (w F * h ^ F.size) • ediff D F := by
    rw [← sum_fiberwise_of_maps_to (s := upTo q) (t := range (q + 1)) (g := fun F => F.trees)
      (fun F hF => by
        have := mem_upTo.mp hF
        have := trees_le_size F
        simp only [mem_range]
        omega)]
    apply sum_congr rfl
    intro m _
    apply sum_congr rfl
    intro F hF
    rw [mem_filter] at hF
    obtain ⟨_, rfl⟩ := hF
    rfl
  rw [e]
  abel

/-- integrating an order of magnitude -/
theorem integrate_isBigO {r r' : ℝ → E} {n : ℕ} (h0 : r 0 = 0) (hr : ∀ᶠ h in 𝓝 0, HasDerivAt r (r' h) h)
    (hb : r' =O[𝓝 0] (fun h : ℝ => h ^ n)) : r =O[𝓝 0] (fun h : ℝ => h ^ (n + 1)) := by
  obtain ⟨C, hC0, hC⟩ := hb.exists_pos
  rw [IsBigOWith] at hC
  obtain ⟨ε, hε, hball⟩ := Metric.eventually_nhds_iff_ball.mp (hC.and hr)
  refine IsBigO.of_bound C ?_
  filter_upwards [Metric.ball_mem_nhds (0 : ℝ) hε] with h hh
  have hsub : Metric.closedBall (0 : ℝ) |h| ⊆ Metric.ball 0 ε := by
    apply Metric.closedBall_subset_ball
    simpa [Real.dist_eq] using hh
  have key := (convex_closedBall (0 : ℝ) |h|).norm_image_sub_le_of_norm_hasDerivWithin_le (f := r) (f' := r')
    (C := C * |h| ^ n) (x := 0) (y := h)
    (fun u hu => ((hball u (hsub hu)).2).hasDerivWithinAt)
    (fun u hu => by
      refine ((hball u (hsub hu)).1).trans ?_
      rw [norm_pow]
      refine mul_le_mul_of_nonneg_left (pow_le_pow_left₀ (norm_nonneg _) ?_ _) hC0.le
      simpa [Real.dist_eq] using hu)
    (by simp) (by simp [Real.dist_eq])
  rw [h0, sub_zero, sub_zero] at key
  refine key.trans (le_of_eq ?_)
  rw [norm_pow, Real.norm_eq_abs, pow_succ]
  ring

end Expansion

section Order
variable {E : Type} [NormedAddCommGroup E] [NormedSpace ℝ E]

/-- the tree series of the exact solution -/
theorem exact_series {f : E → E} {x : E} {y : ℝ → E} {p : ℕ}
    {D : ∀ m, ContinuousMultilinearMap ℝ (fun _ : Fin m => E) E}
    (hD : ∀ q < p, (fun e => f (x + e) - ∑ m ∈ range (q + 1), D m (fun _ => e)) =O[𝓝 0] (fun e => ‖e‖ ^ (q + 1)))
    (hy0 : y 0 = x) (hy : ∀ᶠ h in 𝓝 0, HasDerivAt y (f (y h)) h) (q : ℕ) (hq : q ≤ p) :
    (fun h => (y h - x) - ∑ t ∈ upTo q, ((1 / ((t.size + 1 : ℕ) * (t.dens : ℕ)) : ℝ) * h ^ (t.size + 1)) • ediff D t)
      =O[𝓝 0] (fun h : ℝ => h ^ (q + 1)) := by
  induction q with
  | zero =>
    have h1 : (fun h => y h - x) =O[𝓝 0] (fun h : ℝ => h ^ (0 + 1)) := by
      have := hy.self_of_nhds.differentiableAt.isBigO_sub
      simpa [hy0] using this
    refine h1.sub ?_
    apply IsBigO.fun_sum
    intro t _
    exact (isBigO_smul_pow _ _ _).trans (isBigO_pow_le (by omega))
  | succ q ih =>
    have ih := ih (by omega)
    have h1 := comp_expand (w := fun F => 1 / (F.dens : ℝ)) (hD q (by omega)) (by simp [Forest.dens]) (by
      intro t r
      simp only [Forest.dens]
      push_cast
      rw [one_div_mul_one_div]) ih
    simp only [add_sub_cancel] at h1
    -- integrate
    have h2 := integrate_isBigO (n := q + 1)
      (r := fun h => (y h - x) - ∑ t ∈ upTo q, ((1 / ((t.size + 1 : ℕ) * (t.dens : ℕ)) : ℝ) * h ^ (t.size + 1)) • ediff D t)
      (r' := fun h => f (y h) - ∑ F ∈ upTo q, ((1 / (F.dens : ℝ)) * h ^ F.size) • ediff D F)
      (by simp [hy0]) (by
        filter_upwards [hy] with h hh
        refine (hh.sub_const x).sub ?_
        apply HasDerivAt.fun_sum
        intro t _
        have := ((hasDerivAt_pow (t.size + 1) h).const_mul (1 / ((t.size + 1 : ℕ) * (t.dens : ℕ)) : ℝ)).smul_const
          (ediff D t)
        convert this using 2
        have h3 : ((t.size + 1 : ℕ) : ℝ) ≠ 0 := by positivity
        have h4 : (t.dens : ℝ) ≠ 0 := by have := dens_pos t; positivity
        field_simp
        simp) h1
    have h3 : (fun h : ℝ => ∑ t ∈ (upTo (q + 1)).filter (fun t => ¬ t.size ≤ q),
        ((1 / ((t.size + 1 : ℕ) * (t.dens : ℕ)) : ℝ) * h ^ (t.size + 1)) • ediff D t) =O[𝓝 0]
        (fun h : ℝ => h ^ (q + 1 + 1)) := by
      apply IsBigO.fun_sum
      intro t ht
      refine (isBigO_smul_pow _ _ _).trans (isBigO_pow_le ?_)
      simp only [mem_filter] at ht
      omega
    refine (h2.sub h3).congr_left ?_
    intro h
    rw [← sum_filter_add_sum_filter_not (upTo (q + 1)) (fun t => t.size ≤ q)]
    have : (upTo (q + 1)).filter (fun t => t.size ≤ q) = upTo q := by
      ext F
      simp only [mem_filter, mem_upTo]
      omega
    rw [this]
    abel

/-- the tree series of the stages -/
theorem stage_series {f : E → E} {x : E} {q : ℕ} {D : ∀ m, ContinuousMultilinearMap ℝ (fun _ : Fin m => E) E}
    (hD : (fun e => f (x + e) - ∑ m ∈ range (q + 1), D m (fun _ => e)) =O[𝓝 0] (fun e => ‖e‖ ^ (q + 1)))
    {A : ℕ → ℕ → ℝ} {s : ℕ} {k : ℕ → ℝ → E}
    (hk : ∀ i < s, ∀ᶠ h in 𝓝 (0 : ℝ), k i h = f (x + h • ∑ j ∈ range i, A i j • k j h)) (i : ℕ) (hi : i < s) :
    (fun h => k i h - ∑ F ∈ upTo q, (weight A F i * h ^ F.size) • ediff D F) =O[𝓝 0] (fun h : ℝ => h ^ (q + 1)) := by
  induction i using Nat.strong_induction_on with
  | _ i ih =>
    have hδ : (fun h : ℝ => h • ∑ j ∈ range i, A i j • k j h -
        ∑ t ∈ upTo q, ((∑ j ∈ range i, A i j * weight A t j) * h ^ (t.size + 1)) • ediff D t) =O[𝓝 0]
        (fun h : ℝ => h ^ (q + 1)) := by
      have h1 : (fun h : ℝ => ∑ j ∈ range i, A i j • (k j h - ∑ F ∈ upTo q, (weight A F j * h ^ F.size) • ediff D F))
          =O[𝓝 0] (fun h : ℝ => h ^ (q + 1)) := by
        apply IsBigO.fun_sum
        intro j hj
        have := mem_range.mp hj
        exact (ih j this (by omega)).const_smul_left (A i j)
      have h2 : (fun h : ℝ => h) =O[𝓝 0] (fun _ => (1 : ℝ)) := by
        simpa using isBigO_pow_le (a := 1) (b := 0) (by omega)
      have h3 := h2.smul h1
      simp only [one_smul, smul_eq_mul, one_mul] at h3
      refine h3.congr_left ?_
      intro h
      simp only [smul_sub, sum_sub_distrib]
      congr 1
      simp only [smul_sum, sum_mul, sum_smul]
      rw [sum_comm]
      apply sum_congr rfl
      intro t _
      apply sum_congr rfl
      intro j _
      rw [smul_smul, smul_smul]
      congr 1
      ring
    have h4 := comp_expand (w := fun F => weight A F i) hD rfl (fun t r => rfl) hδ
    refine h4.congr' ?_ EventuallyEq.rfl
    filter_upwards [hk i hi] with h hh
    rw [hh]

/-- order conditions imply the order -/
theorem order_of_conditions {f : E → E} {x : E} {y : ℝ → E} {p : ℕ} (hp : 0 < p) (hf : ContDiffAt ℝ p f x)
    (hy0 : y 0 = x) (hy : ∀ᶠ h in 𝓝 0, HasDerivAt y (f (y h)) h)
    {s : ℕ} {A : ℕ → ℕ → ℝ} {b : ℕ → ℝ} (hc : OrderConditions s A b p) {k : ℕ → ℝ → E}
    (hk : ∀ i < s, ∀ᶠ h in 𝓝 (0 : ℝ), k i h = f (x + h • ∑ j ∈ range i, A i j • k j h)) :
    (fun h => (x + h • ∑ i ∈ range s, b i • k i h) - y h) =O[𝓝 0] (fun h : ℝ => h ^ (p + 1)) := by
  obtain ⟨q, rfl⟩ : ∃ q, p = q + 1 := ⟨p - 1, by omega⟩
  obtain ⟨D, hD⟩ := exists_taylor q hf
  have hD' : ∀ r < q + 1, (fun e => f (x + e) - ∑ m ∈ range (r + 1), D m (fun _ => e)) =O[𝓝 0]
      (fun e => ‖e‖ ^ (r + 1)) := by
    intro r hr
    have hle : ∀ m, r + 1 ≤ m → (fun e : E => ‖e‖ ^ m) =O[𝓝 0] (fun e : E => ‖e‖ ^ (r + 1)) := by
      intro m hm
      have h1 : Tendsto (fun e : E => ‖e‖) (𝓝 0) (𝓝 0) := tendsto_norm_zero
      exact (isBigO_pow_le hm).comp_tendsto h1
    have h2 : (fun e : E => ∑ m ∈ (range (q + 1)).filter (fun m => ¬ m < r + 1), D m (fun _ => e)) =O[𝓝 0]
        (fun e => ‖e‖ ^ (r + 1)) := by
      apply IsBigO.fun_sum
      intro m hm
      rw [mem_filter] at hm
      refine IsBigO.trans ?_ (hle m (by omega))
      refine IsBigO.of_bound ‖D m‖ (Eventually.of_forall fun e => ?_)
      have := (D m).le_opNorm (fun _ => e)
      simpa using this
    refine ((hD.trans (hle (q + 1) (by omega))).add h2).congr_left ?_
    intro e
    rw [← sum_filter_add_sum_filter_not (range (q + 1)) (fun m => m < r + 1)]
    have : (range (q + 1)).filter (fun m => m < r + 1) = range (r + 1) := by
      ext m
      simp only [mem_filter, mem_range]
      omega
    rw [this]
    abel
  have h1 := exact_series hD' hy0 hy (q + 1) le_rfl
  have h2 : (fun h : ℝ => ∑ i ∈ range s, b i • (k i h - ∑ F ∈ upTo q, (weight A F i * h ^ F.size) • ediff D F))
      =O[𝓝 0] (fun h : ℝ => h ^ (q + 1)) := by
    apply IsBigO.fun_sum
    intro i hi
    exact (stage_series hD hk i (mem_range.mp hi)).const_smul_left (b i)
  have h3 : (fun h : ℝ => h • ∑ i ∈ range s, b i • (k i h - ∑ F ∈ upTo q, (weight A F i * h ^ F.size) • ediff D F))
      =O[𝓝 0] (fun h : ℝ => h ^ (q + 1 + 1)) := by
    have := (isBigO_refl (fun h : ℝ => h) (𝓝 0)).smul h2
    refine this.congr_right ?_
    intro h
    simp [pow_succ]
    ring
  have h4 : (fun h : ℝ => ∑ t ∈ (upTo (q + 1)).filter (fun t => ¬ t.size ≤ q),
      ((1 / ((t.size + 1 : ℕ) * (t.dens : ℕ)) : ℝ) * h ^ (t.size + 1)) • ediff D t) =O[𝓝 0]
      (fun h : ℝ => h ^ (q + 1 + 1)) := by
    apply IsBigO.fun_sum
    intro t ht
    refine (isBigO_smul_pow _ _ _).trans (isBigO_pow_le ?_)
    simp only [mem_filter] at ht
    omega
  refine ((h3.sub h1).sub h4).congr_left ?_
  intro h
  rw [← sum_filter_add_sum_filter_not (upTo (q + 1)) (fun t => t.size ≤ q)]
  have e1 : (upTo (q + 1)).filter (fun t => t.size ≤ q) = upTo q := by
    ext F
    simp only [mem_filter, mem_upTo]
    omega
  have e2 : h • ∑ i ∈ range s, b i • ∑ F ∈ upTo q, (weight A F i * h ^ F.size) • ediff D F =
      ∑ t ∈ upTo q, ((1 / ((t.size + 1 : ℕ) * (t.dens : ℕ)) : ℝ) * h ^ (t.size + 1)) • ediff D t := by
    simp only [smul_sum]
    rw [sum_comm]
    apply sum_congr rfl
    intro F hF
    have hcond := hc F (by have := mem_upTo.mp hF; omega)
    have hne : (((F.size + 1 : ℕ) : ℝ) * (F.dens : ℕ)) ≠ 0 := by
      have := dens_pos F
      positivity
    rw [← eq_div_iff hne] at hcond
    rw [← hcond, sum_mul, sum_smul]
    apply sum_congr rfl
    intro i _
    rw [smul_smul, smul_smul]
    congr 1
    ring
  rw [e1, ← e2]
  simp only [smul_sub, sum_sub_distrib]
  abel

/-- the same for right-hand sides that depend on the time; the nodes `c` are the row sums of `A` -/
theorem order_of_conditions_time {g : ℝ → E → E} {t : ℝ} {y : ℝ → E} {p : ℕ} (hp : 0 < p)
    (hg : ContDiffAt ℝ p (fun z : ℝ × E => g z.1 z.2) (t, y t))
    (hy : ∀ᶠ u in 𝓝 t, HasDerivAt y (g u (y u)) u)
    {s : ℕ} {A : ℕ → ℕ → ℝ} {b c : ℕ → ℝ} (hc : OrderConditions s A b p)
    (hrow : ∀ i < s, c i = ∑ j ∈ range i, A i j) {k : ℕ → ℝ → E}
    (hk : ∀ i < s, ∀ h : ℝ, k i h = g (t + c i * h) (y t + h • ∑ j ∈ range i, A i j • k j h)) :
    (fun h => (y t + h • ∑ i ∈ range s, b i • k i h) - y (t + h)) =O[𝓝 0] (fun h : ℝ => h ^ (p + 1)) := by
  have hshift : Tendsto (fun h : ℝ => t + h) (𝓝 0) (𝓝 t) := by
    have : ContinuousAt (fun h : ℝ => t + h) 0 := by fun_prop
    simpa [ContinuousAt] using this
  have key := order_of_conditions (E := ℝ × E) (f := fun z => (1, g z.1 z.2)) (x := (t, y t))
    (y := fun h => (t + h, y (t + h))) hp (contDiffAt_const.prodMk hg) (by simp)
    (by
      filter_upwards [hshift.eventually hy] with h hh
      have h1 : HasDerivAt (fun h : ℝ => t + h) 1 h := (hasDerivAt_id h).const_add t
      have h2 : HasDerivAt (fun h : ℝ => y (t + h)) (g (t + h) (y (t + h))) h := by
        have := hh.scomp h h1
        rw [one_smul] at this
        exact this
      exact h1.prodMk h2)
    hc (k := fun i h => ((1 : ℝ), k i h)) (by
      intro i hi
      refine Eventually.of_forall fun h => ?_
      have e1 : (∑ j ∈ range i, A i j • ((1 : ℝ), k j h)) = (c i, ∑ j ∈ range i, A i j • k j h) := by
        rw [hrow i hi]
        apply Prod.ext
        · rw [Prod.fst_sum]; simp
        · rw [Prod.snd_sum]; simp
      rw [e1]
      simp only [Prod.smul_mk, Prod.mk_add_mk, smul_eq_mul]
      rw [hk i hi h, mul_comm h])
  have h2 := (isBigO_snd_prod' (f' := fun h => ((t, y t) + h • ∑ i ∈ range s, b i • ((1 : ℝ), k i h)) -
    (t + h, y (t + h))) (l := 𝓝 0)).trans key
  refine h2.congr_left ?_
  intro h
  simp [Prod.snd_sum]

end Order
end RK
end Verif
