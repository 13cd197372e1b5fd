import Verif.FloatMs
import Verif.FloatConv
import Verif.MsConvProps

/-!
# Property C112: accuracy of the multistep solvers with rounding
-/

set_option linter.unusedSectionVars false

namespace Verif
namespace Ode
open Finset Asymptotics Filter Topology RK Mat

section Step
variable {R : Rounding ℝ}

theorem msSum_accum (κ v : ℕ → Fl R) (m : ℕ) :
    msSum (fun j => κ j * v j) m = accum (fun j => κ j * v j) (m + 1) := by
  induction m with
  | zero =>
    have : (κ 0 * v 0) = 0 + κ 0 * v 0 := by
      apply Fl.ext
      rw [Fl.add_val, Fl.zero_val, zero_add, Fl.mul_val, R.idem]
    simpa [msSum, accum] using this
  | succ m ih => rw [msSum, ih]; rfl

/-- the constants of the formulas with rounding -/
theorem cst_fl (hu : R.u ≤ 1 / 8) (a b : ℕ) (hb : 0 < b) :
    |(cst a b : Fl R).val - a / b| ≤ 4 * R.u * |(a / b : ℝ)| := by
  have u0 := R.u_nonneg
  have e : (cst a b : Fl R).val = R.rnd (R.rnd a / R.rnd b) := rfl
  have b0 : (0 : ℝ) < b := by exact_mod_cast hb
  have a0 : (0 : ℝ) ≤ a := Nat.cast_nonneg a
  have ea := abs_le.1 (R.err (a : ℝ))
  have eb := abs_le.1 (R.err (b : ℝ))
  rw [abs_of_nonneg a0] at ea
  rw [abs_of_pos b0] at eb
  rw [e]
  have ub := mul_le_mul_of_nonneg_right hu b0.le
  have ua := mul_le_mul_of_nonneg_right hu a0
  generalize R.rnd (a : ℝ) = A at *
  generalize R.rnd (b : ℝ) = B at *
  have B0 : 7 / 8 * (b : ℝ) ≤ B := by linarith
  have B1 : 0 < B := by linarith
  have q0 : (0 : ℝ) ≤ a / b := by positivity
  -- the quotient
  have h1 : |A / B - a / b| ≤ 16 / 7 * R.u * (a / b) := by
    rw [div_sub_div _ _ B1.ne' b0.ne', abs_div, abs_of_pos (mul_pos B1 b0), div_le_iff₀ (mul_pos B1 b0)]
    have h2 : |A * b - B * a| ≤ 2 * R.u * (a * b) := by
      rw [abs_le]
      constructor <;> nlinarith
    refine h2.trans ?_
    have h3 : 2 * R.u * (a * b) = 16 / 7 * R.u * (a / b) * (7 / 8 * b * b) := by field_simp; ring
    rw [h3]
    exact mul_le_mul_of_nonneg_left (mul_le_mul_of_nonneg_right B0 b0.le) (by positivity)
  have h4 := R.err (A / B)
  have h5 := abs_sub_abs_le_abs_sub (A / B) (a / b : ℝ)
  rw [abs_of_nonneg q0] at h5
  have h6 : R.u * |A / B| ≤ R.u * (9 / 7 * (a / b)) := by
    refine mul_le_mul_of_nonneg_left ?_ u0
    have := mul_le_mul_of_nonneg_right hu q0
    linarith
  have h7 := abs_sub_le (R.rnd (A / B)) (A / B) (a / b : ℝ)
  rw [abs_of_nonneg q0]
  have : 0 ≤ R.u * (a / b) := by positivity
  linarith

theorem cst_neg_fl (hu : R.u ≤ 1 / 8) (a b : ℕ) (hb : 0 < b) :
    |(-cst a b : Fl R).val - -(a : ℝ) / b| ≤ 4 * R.u * |-(a : ℝ) / b| := by
  have e : (-cst a b : Fl R).val = -(cst a b : Fl R).val := rfl
  rw [e, neg_div, abs_neg, ← neg_add', abs_neg, ← sub_neg_eq_add, neg_neg]
  exact cst_fl hu a b hb

/-- one step with rounding: the constants `v` have a relative error of at most `4 u` -/
theorem stepW_fl (hu : R.u ≤ 1 / 8) {n : ℕ} {f : Rhs (Fl R)} {gf : Fl R → (Fin n → Fl R) → (Fin n → Fl R)}
    (hf : RhsRepr f gf) (τ : ℕ → Fl R) (X : ℕ → Fin n → Fl R) {N : ℕ} (d w₀ : Fl R) (v : List (Fl R)) {w : List ℝ}
    (hv : v.length ≤ N) (hvw : List.Forall₂ (fun (v : Fl R) w => |v.val - w| ≤ 4 * R.u * |w|) (w₀ :: v) w)
    (hl : v.length + 1 ≤ 5) (hw : ∑ i ∈ range (v.length + 1), |weightsOf w i| ≤ 13) :
    ∃ x : Fin n → Fl R, stepW w₀ v f (hist τ N) (hist (fun i => col (X i)) N) d = some (col x) ∧
      ∀ Xb M, 0 ≤ M → ‖flv (X N)‖ ≤ Xb → (∀ i < v.length + 1, ‖flv (gf (τ (N - i)) (X (N - i)))‖ ≤ M) → |d.val| ≤ 1 →
        ‖flv x - (flv (X N) + d.val • ∑ i ∈ range (v.length + 1), weightsOf w i • flv (gf (τ (N - i)) (X (N - i))))‖ ≤
          20000 * (Xb + M) * R.u := by
  refine ⟨_, stepW_ops hf τ X N d w₀ v hv, ?_⟩
  intro Xb M M0 hX hM hd
  have u0 := R.u_nonneg
  have Xb0 : 0 ≤ Xb := (norm_nonneg _).trans hX
  have key : ∀ i < v.length + 1, |((w₀ :: v).getD i w₀).val - weightsOf w i| ≤ 4 * R.u * |weightsOf w i| := by
    have hlen := hvw.length_eq
    intro i hi
    have h1 : i < w.length := by rw [← hlen]; simpa using hi
    have h2 : i < (w₀ :: v).length := by simpa using hi
    have := (List.forall₂_iff_get.1 hvw).2 i h2 h1
    simpa [weightsOf, List.getD_eq_getElem?_getD, List.getElem?_eq_getElem h1, List.getElem?_eq_getElem h2] using this
  set vv : ℕ → Fl R := fun i => (w₀ :: v).getD i w₀ with hvv
  set κ : ℕ → Fin n → Fl R := fun i => gf (τ (N - i)) (X (N - i)) with hκ
  have e1 : (fun r => X N r + msSum (fun j => gf (τ (N - j)) (X (N - j)) r * (w₀ :: v).getD j w₀) v.length * d) =
      fun r => X N r + accum (fun j => κ j r * vv j) (v.length + 1) * d := by
    funext r
    rw [← msSum_accum]
  rw [e1]
  have hW' : ∑ i ∈ range (v.length + 1), |(vv i).val| ≤ 20 := by
    calc ∑ i ∈ range (v.length + 1), |(vv i).val| ≤ ∑ i ∈ range (v.length + 1), 3 / 2 * |weightsOf w i| := by
          refine sum_le_sum fun i hi => ?_
          have h1 := key i (mem_range.1 hi)
          have h2 := abs_sub_abs_le_abs_sub (vv i).val (weightsOf w i)
          have h3 := mul_le_mul_of_nonneg_right hu (abs_nonneg (weightsOf w i))
          linarith
      _ = 3 / 2 * ∑ i ∈ range (v.length + 1), |weightsOf w i| := by rw [mul_sum]
      _ ≤ 20 := by linarith
  have h1 := lincomb_vec (by linarith : R.u ≤ 1) (s := 5) hl κ vv (fun i => (vv i).val)
    (fun j _ => by rw [sub_self, abs_zero]; positivity) M0 hM hW' (X N) d hX hd
  have h2 : ‖∑ i ∈ range (v.length + 1), (vv i).val • flv (κ i) -
      ∑ i ∈ range (v.length + 1), weightsOf w i • flv (κ i)‖ ≤ 52 * M * R.u := by
    rw [← sum_sub_distrib]
    refine (norm_sum_le _ _).trans ?_
    calc ∑ i ∈ range (v.length + 1), ‖(vv i).val • flv (κ i) - weightsOf w i • flv (κ i)‖
        ≤ ∑ i ∈ range (v.length + 1), 4 * R.u * M * |weightsOf w i| := by
          refine sum_le_sum fun i hi => ?_
          rw [← sub_smul, norm_smul, Real.norm_eq_abs]
          have := mul_le_mul (key i (mem_range.1 hi)) (hM i (mem_range.1 hi)) (norm_nonneg _) (by positivity)
          linarith
      _ = 4 * R.u * M * ∑ i ∈ range (v.length + 1), |weightsOf w i| := by rw [mul_sum]
      _ ≤ 4 * R.u * M * 13 := mul_le_mul_of_nonneg_left hw (by positivity)
      _ = _ := by ring
  have h3 : flv (fun r => X N r + accum (fun j => κ j r * vv j) (v.length + 1) * d) -
      (flv (X N) + d.val • ∑ i ∈ range (v.length + 1), weightsOf w i • flv (κ i)) =
      (flv (fun r => X N r + accum (fun j => κ j r * vv j) (v.length + 1) * d) -
        (flv (X N) + d.val • ∑ i ∈ range (v.length + 1), (vv i).val • flv (κ i))) +
      d.val • (∑ i ∈ range (v.length + 1), (vv i).val • flv (κ i) -
        ∑ i ∈ range (v.length + 1), weightsOf w i • flv (κ i)) := by
    rw [smul_sub]
    abel
  rw [h3]
  refine (norm_add_le _ _).trans ?_
  rw [norm_smul, Real.norm_eq_abs]
  have h4 := mul_le_mul hd h2 (norm_nonneg _) zero_le_one
  have h5 : lcConst 5 Xb M 20 * R.u ≤ (19000 * (Xb + M)) * R.u := by
    refine mul_le_mul_of_nonneg_right ?_ u0
    unfold lcConst
    norm_num
    linarith
  have h6 : 0 ≤ M * R.u := by positivity
  have h7 : 0 ≤ Xb * R.u := by positivity
  linarith

theorem stepS1_fl (hu : R.u ≤ 1 / 8) {n : ℕ} {f : Rhs (Fl R)} {gf : Fl R → (Fin n → Fl R) → (Fin n → Fl R)}
    (hf : RhsRepr f gf) (τ : ℕ → Fl R) (X : ℕ → Fin n → Fl R) (N : ℕ) (d : Fl R) :
    ∃ x : Fin n → Fl R, stepS1 f (hist τ N) (hist (fun i => col (X i)) N) d = some (col x) ∧
      ∀ Xb M, 0 ≤ M → ‖flv (X N)‖ ≤ Xb → ‖flv (gf (τ N) (X N))‖ ≤ M → |d.val| ≤ 1 →
        ‖flv x - (flv (X N) + d.val • flv (gf (τ N) (X N)))‖ ≤ 20000 * (Xb + M) * R.u := by
  refine ⟨_, stepS1_ops hf τ X N d, ?_⟩
  intro Xb M M0 hX hM hd
  have u0 := R.u_nonneg
  have Xb0 : 0 ≤ Xb := (norm_nonneg _).trans hX
  rw [pi_norm_le_iff_of_nonneg (by positivity)]
  intro r
  have x1 : |(X N r).val| ≤ Xb := (norm_le_pi_norm (flv (X N)) r).trans hX
  have m1 : |(gf (τ N) (X N) r).val| ≤ M := (norm_le_pi_norm (flv (gf (τ N) (X N))) r).trans hM
  show |R.rnd ((X N r).val + R.rnd ((gf (τ N) (X N) r).val * d.val)) -
    ((X N r).val + d.val * (gf (τ N) (X N) r).val)| ≤ _
  generalize (X N r).val = x at *
  generalize (gf (τ N) (X N) r).val = m at *
  have p0 : |m * d.val| ≤ M := by
    rw [abs_mul]
    exact (mul_le_of_le_one_right (abs_nonneg _) hd).trans m1
  have p1 := (R.err (m * d.val)).trans (mul_le_mul_of_nonneg_left p0 u0)
  have p2 := abs_le.1 p1
  have p3 := abs_le.1 p0
  have uM : R.u * M ≤ 1 / 8 * M := mul_le_mul_of_nonneg_right hu M0
  have x2 := abs_le.1 x1
  generalize R.rnd (m * d.val) = q at *
  have p4 : |x + q| ≤ Xb + 2 * M := by rw [abs_le]; constructor <;> linarith
  have p5 := abs_le.1 ((R.err (x + q)).trans (mul_le_mul_of_nonneg_left p4 u0))
  have h6 : 0 ≤ M * R.u := by positivity
  have h7 : 0 ≤ Xb * R.u := by positivity
  rw [abs_le]
  constructor <;> nlinarith

/-- the step functions `st j` compute the formulas with the weights `w j`, up to `20000 (X + M) u` if the last state is
    bounded by `X` and the values of the right-hand side are bounded by `M` -/
def StepClose {n : ℕ} (st : ℕ → List (Fl R) → List (Mat (Fl R)) → Fl R → Option (Mat (Fl R)))
    (gf : Fl R → (Fin n → Fl R) → (Fin n → Fl R)) (w : ℕ → ℕ → ℝ) (k : ℕ) : Prop :=
  ∀ j N, 1 ≤ j → j ≤ k → j ≤ N + 1 → ∀ (τ : ℕ → Fl R) (X : ℕ → Fin n → Fl R) (d : Fl R),
    ∃ x : Fin n → Fl R, st j (hist τ N) (hist (fun i => col (X i)) N) d = some (col x) ∧
      ∀ Xb M, 0 ≤ M → ‖flv (X N)‖ ≤ Xb → (∀ i < j, ‖flv (gf (τ (N - i)) (X (N - i)))‖ ≤ M) → |d.val| ≤ 1 →
        ‖flv x - (flv (X N) + d.val • ∑ i ∈ range j, w j i • flv (gf (τ (N - i)) (X (N - i))))‖ ≤
          20000 * (Xb + M) * R.u

theorem abStep_close (hu : R.u ≤ 1 / 8) {n : ℕ} {f : Rhs (Fl R)} {gf : Fl R → (Fin n → Fl R) → (Fin n → Fl R)}
    (hf : RhsRepr f gf) {k : ℕ} (hk5 : k ≤ 5) :
    StepClose (fun j => abStep j f) gf (fun κ => weightsOf (abWeights κ : List ℝ)) k := by
  intro j N h1 h2 h3 τ X d
  have c := fun a b hb => cst_fl (R := R) hu a b hb
  have c' := fun a b hb => cst_neg_fl (R := R) hu a b hb
  have : j = 1 ∨ j = 2 ∨ j = 3 ∨ j = 4 ∨ j = 5 := by omega
  rcases this with rfl | rfl | rfl | rfl | rfl
  · obtain ⟨x, e, H⟩ := stepS1_fl hu hf τ X N d
    refine ⟨x, e, fun Xb M M0 hX hM hd => ?_⟩
    have := H Xb M M0 hX (by simpa using hM 0 (by norm_num)) hd
    simpa [abWeights, weightsOf] using this
  · exact stepW_fl hu hf τ X d (cst 3 2) [-cst 1 2] (w := abWeights 2) (by simp; omega)
      (.cons (by simpa using c 3 2 (by norm_num)) (.cons (by simpa using c' 1 2 (by norm_num)) .nil))
      (by simp) (by simp [sum_range_succ, abWeights, weightsOf]; norm_num [abs_of_pos, abs_of_neg])
  · exact stepW_fl hu hf τ X d (cst 23 12) [-cst 16 12, cst 5 12] (w := abWeights 3) (by simp; omega)
      (.cons (by simpa using c 23 12 (by norm_num)) (.cons (by simpa using c' 16 12 (by norm_num))
        (.cons (by simpa using c 5 12 (by norm_num)) .nil)))
      (by simp) (by simp [sum_range_succ, abWeights, weightsOf]; norm_num [abs_of_pos, abs_of_neg])
  · exact stepW_fl hu hf τ X d (cst 55 24) [-cst 59 24, cst 37 24, -cst 9 24] (w := abWeights 4) (by simp; omega)
      (.cons (by simpa using c 55 24 (by norm_num)) (.cons (by simpa using c' 59 24 (by norm_num))
        (.cons (by simpa using c 37 24 (by norm_num)) (.cons (by simpa using c' 9 24 (by norm_num)) .nil))))
      (by simp) (by simp [sum_range_succ, abWeights, weightsOf]; norm_num [abs_of_pos, abs_of_neg])
  · exact stepW_fl hu hf τ X d (cst 1901 720) [-cst 2774 720, cst 2616 720, -cst 1274 720, cst 251 720]
      (w := abWeights 5) (by simp; omega)
      (.cons (by simpa using c 1901 720 (by norm_num)) (.cons (by simpa using c' 2774 720 (by norm_num))
        (.cons (by simpa using c 2616 720 (by norm_num)) (.cons (by simpa using c' 1274 720 (by norm_num))
          (.cons (by simpa using c 251 720 (by norm_num)) .nil)))))
      (by simp) (by simp [sum_range_succ, abWeights, weightsOf]; norm_num [abs_of_pos, abs_of_neg])

end Step

theorem sum_ge_le {c : ℝ} (N j₀ : ℕ) : ∑ j ∈ range N, (if j₀ ≤ j then c else 0) = ((N - j₀ : ℕ) : ℝ) * c := by
  induction N with
  | zero => simp
  | succ N ih =>
    rw [sum_range_succ, ih]
    by_cases h : j₀ ≤ N
    · rw [if_pos h, Nat.succ_sub h]
      push_cast
      ring
    · rw [if_neg h, show N + 1 - j₀ = 0 by omega, show N - j₀ = 0 by omega]
      simp

/-- the times near those of the exact grid, the number of steps -/
theorem ms_times {R : Rounding ℝ} {h t₀ t₁ : Fl R} {k : ℕ} (hh : 0 < h.val) (hh1 : h.val ≤ 1) (ht : t₀.val ≤ t₁.val)
    {S T η : ℝ} (hη : 0 < η) (hS : S = |t₀.val| + |t₁.val|) (hT : T = t₁.val - t₀.val + k + 4)
    (hu : R.u ≤ η * h.val ^ 2) (η1 : η * 8 ≤ 1) (η2 : η * (8 * T) ≤ 1) (η3 : η * (32 * T * S) ≤ 1)
    (η4 : η * (8 * S) ≤ 1 / 10 ^ 10) :
    (∀ j ≤ ⌈(t₁.val - t₀.val) / h.val⌉₊ + k + 2, j * h.val ≤ T ∧
      |(tms h t₀ t₁ j).val - grid h.val t₀.val t₁.val j| ≤ 8 * T * S * (R.u / h.val)) ∧
    ¬ msFar t₁ (tms h t₀ t₁ (⌈(t₁.val - t₀.val) / h.val⌉₊ + k + 2)) := by
  have u0 := R.u_nonneg
  have S0 : 0 ≤ S := by rw [hS]; positivity
  have k0 : (0 : ℝ) ≤ k := Nat.cast_nonneg k
  have T0 : 0 ≤ T := by rw [hT]; linarith
  have h2 : h.val ^ 2 ≤ h.val := by
    rw [pow_two]
    exact mul_le_of_le_one_left hh.le hh1
  have uh : R.u ≤ η * h.val := hu.trans (mul_le_mul_of_nonneg_left h2 hη.le)
  have uη : R.u ≤ η := uh.trans (mul_le_of_le_one_right hη.le hh1)
  have hu8 : R.u ≤ 1 / 8 := by linarith
  set s := ⌈(t₁.val - t₀.val) / h.val⌉₊ with hs
  have D0 : 0 ≤ (t₁.val - t₀.val) / h.val := div_nonneg (by linarith) hh.le
  have s1 : (s : ℝ) * h.val ≤ t₁.val - t₀.val + h.val := by
    have := Nat.ceil_lt_add_one D0
    have := mul_le_mul_of_nonneg_right this.le hh.le
    rwa [add_mul, div_mul_cancel₀ _ hh.ne', one_mul] at this
  have s2 : t₁.val - t₀.val ≤ s * h.val := by
    have := Nat.le_ceil ((t₁.val - t₀.val) / h.val)
    rwa [div_le_iff₀ hh] at this
  have main : ∀ j ≤ s + k + 2, j * h.val ≤ T ∧
      |(tms h t₀ t₁ j).val - grid h.val t₀.val t₁.val j| ≤ 8 * T * S * (R.u / h.val) := by
    intro j hj
    have hj' : (j : ℝ) ≤ s + k + 2 := by exact_mod_cast hj
    have b1 : j * h.val ≤ T := by
      have := mul_le_mul_of_nonneg_right hj' hh.le
      have : (k : ℝ) * h.val ≤ k := mul_le_of_le_one_right k0 hh1
      linarith
    refine ⟨b1, ?_⟩
    have b2 : 8 * (j : ℝ) * R.u ≤ 1 := by
      have := mul_le_mul_of_nonneg_left uh (Nat.cast_nonneg (α := ℝ) j)
      have := mul_le_mul_of_nonneg_left b1 hη.le
      linarith
    refine (tms_grid hh ht b2).trans ?_
    rw [← hS]
    have b3 : (j : ℝ) * R.u ≤ T * (R.u / h.val) := by
      rw [mul_div_assoc', le_div_iff₀ hh]
      have := mul_le_mul_of_nonneg_right b1 u0
      linarith
    have := mul_le_mul_of_nonneg_right b3 S0
    linarith
  refine ⟨main, ?_⟩
  have uS : R.u * S ≤ η * h.val * S := mul_le_mul_of_nonneg_right uh S0
  have uS' : R.u * S ≤ η * S := mul_le_mul_of_nonneg_right uη S0
  have p1 : 4 * R.u * S ≤ h.val := by
    have h3 : η * (8 * S) ≤ 1 := η4.trans (by norm_num)
    have := mul_le_mul_of_nonneg_right h3 hh.le
    have : 0 ≤ R.u * S := by positivity
    linarith
  refine not_far (S := S) hu8 (by linarith) ?_
  have e : (tms h t₀ t₁ (s + k + 2)).val = R.rnd ((tms h t₀ t₁ (s + k + 1)).val +
      min h.val (R.rnd (t₁.val - (tms h t₀ t₁ (s + k + 1)).val))) := by
    rw [tms]
    show R.rnd (_ + (min h (t₁ - _)).val) = _
    rw [Fl.min_val]
    rfl
  have f := tms_far (h := h) (t₀ := t₀) (t₁ := t₁) hS hu8 hh p1 ht (s + k + 1)
  have f0 : 0 ≤ ((s + k + 1 : ℕ) : ℝ) * (h.val / 2) := by positivity
  have st := tms_step (R := R) hS hu8 p1 (f.imp_right fun h => ⟨by linarith [h.1], h.2⟩)
  rw [← e] at st
  refine st.resolve_right ?_
  rintro ⟨_, h3, h4⟩
  have m := (main (s + k + 1) (by omega)).2
  have g1 : grid h.val t₀.val t₁.val (s + k + 1) = t₁.val := by
    rw [grid, min_eq_right]
    push_cast
    have : 0 ≤ ((k : ℝ) + 1) * h.val := by positivity
    linarith
  rw [g1] at m
  have m1 : 8 * T * S * (R.u / h.val) ≤ h.val / 4 := by
    have : R.u / h.val ≤ η * h.val := by
      rw [div_le_iff₀ hh]
      linarith
    have := mul_le_mul_of_nonneg_left this (by positivity : 0 ≤ 8 * T * S)
    have := mul_le_mul_of_nonneg_right η3 hh.le
    linarith
  have := abs_le.1 (m.trans m1)
  linarith

set_option maxHeartbeats 4000000 in
/-- the accuracy of a multistep solver with rounding, for any formulas with the right moments -/
theorem ms_fl {k : ℕ} (hk : 1 ≤ k) (w : ℕ → ℕ → ℝ)
    (hW0 : ∀ κ, 1 ≤ κ → κ ≤ k → ∑ i ∈ range κ, w κ i = 1)
    (hW1 : ∀ κ, 2 ≤ κ → κ ≤ k → ∑ i ∈ range κ, w κ i * i = -1 / 2) {n : ℕ} {g : ℝ → (Fin n → ℝ) → (Fin n → ℝ)}
    {y : ℝ → (Fin n → ℝ)} {a b t₀ t₁ : ℝ} (ha : a < t₀) (ht : t₀ ≤ t₁) (hb : t₁ < b)
    (hg : ∀ t ∈ Set.Icc a b, ContDiffAt ℝ ((min k 2 : ℕ) : WithTop ℕ∞) (fun z : ℝ × (Fin n → ℝ) => g z.1 z.2) (t, y t))
    (hy : ∀ t ∈ Set.Icc a b, ∀ᶠ u in 𝓝 t, HasDerivAt y (g u (y u)) u) {r₁ : ℝ} (hr₁ : 0 < r₁) :
    ∃ h₀ > 0, ∃ η > 0, ∃ C, ∀ (R : Rounding ℝ) (h t₀f t₁f : Fl R) (ε : ℝ)
      (st : ℕ → List (Fl R) → List (Mat (Fl R)) → Fl R → Option (Mat (Fl R)))
      (gf : Fl R → (Fin n → Fl R) → (Fin n → Fl R)) (x₀ : Fin n → Fl R) (fuel : ℕ),
      t₀f.val = t₀ → t₁f.val = t₁ → 0 < h.val → h.val ≤ h₀ → R.u ≤ η * h.val ^ 2 → 0 ≤ ε → ε ≤ η →
      StepClose st gf w k → RhsClose gf g y a b r₁ ε → ‖flv x₀ - y t₀‖ ≤ ε → ⌈(t₁ - t₀) / h.val⌉₊ + 4 ≤ fuel →
      ∃ ts xs, msSolve st fuel k h t₀f t₁f (col x₀) = some (ts, xs) ∧ ts.length = xs.length ∧
        ts.head? = some t₀f ∧ (∀ t, ts.getLast? = some t → |t.val - t₁| ≤ 3 / 2 * (1 / 10 ^ 10)) ∧
        ∀ (j : ℕ) t X, ts[j]? = some t → xs[j]? = some X →
          ∃ x : Fin n → Fl R, X = col x ∧ ‖flv x - y t.val‖ ≤ C * (h.val ^ min k 2 + R.u / h.val + ε) := by
  have hp : 0 < min k 2 := by omega
  have hsub : ∀ t ∈ Set.Icc t₀ t₁, t ∈ Set.Icc a b := fun t h => ⟨by linarith [h.1], by linarith [h.2]⟩
  have hyd : ∀ t ∈ Set.Icc a b, HasDerivAt y (g t (y t)) t := fun t ht => (hy t ht).self_of_nhds
  have hycont : ∀ t ∈ Set.Icc a b, ContinuousAt y t := fun t ht => (hyd t ht).continuousAt
  obtain ⟨r₂, hr₂, G, hG, Λ, hΛ, htube'⟩ := rhs_tube hp hg hycont
  set r := min r₁ r₂ with hr
  have r0 : 0 < r := lt_min hr₁ hr₂
  have rr₁ : r ≤ r₁ := min_le_left _ _
  have rr₂ : r ≤ r₂ := min_le_right _ _
  have hyL : ∀ u ∈ Set.Icc a b, ∀ v ∈ Set.Icc a b, ‖y v - y u‖ ≤ G * |v - u| := by
    intro u hu v hv
    have := (convex_Icc a b).norm_image_sub_le_of_norm_hasDerivWithin_le (f := y) (f' := fun t => g t (y t)) (C := G)
      (fun t ht => (hyd t ht).hasDerivWithinAt)
      (fun t ht => (htube' t ht).1 t (y t) (by simp [hr₂.le]) (by simp [hr₂.le])) hu hv
    simpa using this
  obtain ⟨Xb, hXb⟩ := (isCompact_Icc (a := a) (b := b)).exists_bound_of_continuousOn (f := y)
    (fun t ht => (hycont t ht).continuousWithinAt)
  have Xb0 : 0 ≤ Xb := (norm_nonneg _).trans (hXb t₀ ⟨ha.le, ht.trans hb.le⟩)
  set A := ∑ κ ∈ range (k + 1), ∑ i ∈ range κ, |w κ i| with hA
  have A0 : 0 ≤ A := sum_nonneg fun κ _ => sum_nonneg fun i _ => abs_nonneg _
  have hAW : ∀ κ ≤ k, ∑ i ∈ range κ, |w κ i| ≤ A := fun κ hκ =>
    single_le_sum (f := fun κ => ∑ i ∈ range κ, |w κ i|) (fun κ _ => sum_nonneg fun i _ => abs_nonneg _)
      (mem_range.mpr (by omega))
  have k0 : (0 : ℝ) ≤ k := Nat.cast_nonneg k
  set D := t₁ - t₀ with hD
  have D0 : 0 ≤ D := by rw [hD]; linarith
  set T := D + k + 4 with hT
  have T0 : 0 ≤ T := by positivity
  set S := |t₀| + |t₁| with hS
  have S0 : 0 ≤ S := by positivity
  obtain ⟨h₁, hh₁, ρ₀, hρ₀, C₁, hC₁, H⟩ := ms_converges_pert ht hk rfl w hW0 hW1 (fun t ht => hg t (hsub t ht))
    (fun t ht => hy t (hsub t ht)) r0
  set P₁ := 20000 * (Xb + r + (G + 1)) + A * Λ * (8 * T * S) with hP₁
  set P₂ := (8 * T * S + D + 1) * (A * (G + 1)) with hP₂
  have P10 : 0 ≤ P₁ := by positivity
  have P20 : 0 ≤ P₂ := by positivity
  set Q := 1 + T * P₁ + A * T + (k + 4) * P₂ with hQ
  have Q0 : 0 ≤ Q := by positivity
  obtain ⟨η, hη, hηl⟩ := exists_small
    [(8, 1), (8 * T, 1), (32 * T * S, 1), (8 * S, 1 / 10 ^ 10), (8 * T * S, r), (8 * T * S, t₀ - a), (8 * T * S, b - t₁),
      (2 * (8 * T * S + D + 1), 1), (2 * Q, ρ₀)] (by
      have : 0 < t₀ - a := by linarith
      have : 0 < b - t₁ := by linarith
      simp only [List.mem_cons, List.not_mem_nil, or_false, forall_eq_or_imp, forall_eq]
      refine ⟨⟨by norm_num, by norm_num⟩, ⟨by positivity, by norm_num⟩, ⟨by positivity, by norm_num⟩,
        ⟨by positivity, by norm_num⟩, ⟨by positivity, r0⟩, ⟨by positivity, ‹_›⟩, ⟨by positivity, ‹_›⟩,
        ⟨by positivity, by norm_num⟩, ⟨by positivity, hρ₀⟩⟩)
  simp only [List.mem_cons, List.not_mem_nil, or_false, forall_eq_or_imp, forall_eq] at hηl
  obtain ⟨η1, η2, η3, η4, η5, η6, η7, η8, η9⟩ := hηl
  refine ⟨min h₁ (1 / 2), by positivity, η, hη, C₁ * (1 + Q) + G * (8 * T * S), ?_⟩
  intro R h t₀f t₁f ε st gf x₀ fuel e0 e1 hpos hle hu hε hεη hst hgf hx₀ hfuel
  have u0 := R.u_nonneg
  have hh1 : h.val ≤ h₁ := hle.trans (min_le_left _ _)
  have hhalf : h.val ≤ 1 / 2 := hle.trans (min_le_right _ _)
  have hone : h.val ≤ 1 := by linarith
  have htf : t₀f.val ≤ t₁f.val := by rw [e0, e1]; exact ht
  obtain ⟨tm, hend⟩ := ms_times (k := k) hpos hone htf hη (S := S) (T := T) (by rw [e0, e1]) (by rw [e0, e1]) hu η1 η2 η3 η4
  rw [e0, e1] at tm hend
  set s := ⌈(t₁ - t₀) / h.val⌉₊ with hs
  set q := R.u / h.val with hq
  have q0 : 0 ≤ q := by positivity
  have uq : R.u = q * h.val := by rw [hq]; field_simp
  have uleq : R.u ≤ q := by rw [uq]; exact mul_le_of_le_one_right q0 hone
  have qη : q ≤ η * h.val := by
    rw [hq, div_le_iff₀ hpos]
    linarith
  have qη' : q ≤ η := qη.trans (mul_le_of_le_one_right hη.le hone)
  have hu8 : R.u ≤ 1 / 8 := by linarith
  -- the solver
  have hex : ∃ N, k ≤ N + 1 ∧ ¬ msFar t₁f (tms h t₀f t₁f N) := ⟨s + k + 2, by omega, hend⟩
  classical
  obtain ⟨N, hN⟩ : ∃ N, N = Nat.find hex := ⟨_, rfl⟩
  have hspec := Nat.find_spec hex
  rw [← hN] at hspec
  have hmin : ∀ i < N, k ≤ i + 1 → msFar t₁f (tms h t₀f t₁f i) := by
    intro i hi hki
    by_contra hc
    exact Nat.find_min hex (hN ▸ hi) ⟨hki, hc⟩
  have hNs : N ≤ s + k + 2 := by rw [hN]; exact Nat.find_min' hex ⟨by omega, hend⟩
  obtain ⟨X, hX0, hsol, hX⟩ := msSolve_ops hk (fun j N h1 h2 h3 τ X d => (hst j N h1 h2 h3 τ X d).imp fun _ h => h.1)
    ((Fl.le_iff _ _).2 htf) x₀ hspec.1 hmin hspec.2 (fuel := fuel) (by omega)
  set τ : ℕ → ℝ := fun j => (tms h t₀f t₁f j).val with hτ
  set gr : ℕ → ℝ := fun j => grid h.val t₀ t₁ j with hgr
  set x : ℕ → Fin n → ℝ := fun j => flv (X j) with hx
  have hin : ∀ j, gr j ∈ Set.Icc t₀ t₁ := fun j => (C40_grid hpos ht).2.2.2.2 j
  have drift : ∀ j ≤ N, |τ j - gr j| ≤ 8 * T * S * q := fun j hj => (tm j (by omega)).2
  have TS0 : 0 ≤ 8 * T * S := by positivity
  have Δη : 8 * T * S * q ≤ η * (8 * T * S) := by
    have := mul_le_mul_of_nonneg_left qη' TS0
    linarith
  have Δr : 8 * T * S * q ≤ r := Δη.trans η5
  have Nh : (N : ℝ) * h.val ≤ T := (tm N hNs).1
  -- steps
  have hd : ∀ j < N, |(min h (t₁f - tms h t₀f t₁f j)).val - (gr (j + 1) - gr j)| ≤ (8 * T * S + D + 1) * q := by
    intro j hj
    rw [hgr]
    simp only
    rw [← grid_diff hpos, Fl.min_val]
    refine (abs_min_sub_min_le_max _ _ _ _).trans ?_
    rw [sub_self, abs_zero]
    refine max_le (by positivity) ?_
    have e : (t₁f - tms h t₀f t₁f j).val = R.rnd (t₁ - τ j) := by rw [Fl.sub_val, e1]
    rw [e]
    have d1 := drift j hj.le
    have g1 := hin j
    have c1 : |t₁ - τ j| ≤ D + 1 := by
      have h1 := abs_le.1 d1
      have h2 : 8 * T * S * q ≤ 1 := by linarith
      rw [abs_le]
      constructor <;> linarith [g1.1, g1.2]
    have c2 := (R.err (t₁ - τ j)).trans (mul_le_mul_of_nonneg_left c1 u0)
    have c3 : R.u * (D + 1) ≤ q * (D + 1) := mul_le_mul_of_nonneg_right uleq (by positivity)
    have c4 := abs_sub_le (R.rnd (t₁ - τ j)) (t₁ - τ j) (t₁ - gr j)
    rw [show t₁ - τ j - (t₁ - gr j) = -(τ j - gr j) by ring, abs_neg] at c4
    linarith
  have hd' : ∀ j < N, j < ⌊(t₁ - t₀) / h.val⌋₊ - 1 → (min h (t₁f - tms h t₀f t₁f j)).val - (gr (j + 1) - gr j) = 0 := by
    intro j hj hjs
    have f1 : ((j + 2 : ℕ) : ℝ) * h.val ≤ t₁ - t₀ := by
      have h1 : ((j + 2 : ℕ) : ℝ) ≤ (t₁ - t₀) / h.val :=
        (Nat.cast_le.2 (by omega : j + 2 ≤ ⌊(t₁ - t₀) / h.val⌋₊)).trans (Nat.floor_le (div_nonneg D0 hpos.le))
      rwa [le_div_iff₀ hpos] at h1
    push_cast at f1
    have f2 : gr j = t₀ + j * h.val := by
      rw [hgr]; simp only [grid]
      exact min_eq_left (by linarith)
    have f3 : 8 * T * S * q ≤ h.val / 4 := by
      have := mul_le_mul_of_nonneg_left qη TS0
      have := mul_le_mul_of_nonneg_right η3 hpos.le
      linarith
    have d1 := abs_le.1 (drift j hj.le)
    have f4 : 7 / 4 * h.val ≤ t₁ - τ j := by linarith
    have f5 : h.val ≤ R.rnd (t₁ - τ j) := by
      have h1 := abs_le.1 (R.err (t₁ - τ j))
      rw [abs_of_nonneg (by linarith)] at h1
      have := mul_le_mul_of_nonneg_right hu8 (by linarith : 0 ≤ t₁ - τ j)
      linarith
    rw [hgr]
    simp only
    rw [← grid_diff hpos, Fl.min_val, Fl.sub_val, e1, min_eq_left f5, min_eq_left, sub_self]
    show h.val ≤ t₁ - gr j
    rw [f2]
    linarith
  -- perturbations
  set j₀ := ⌊(t₁ - t₀) / h.val⌋₊ - 1 with hj₀
  set E : ℕ → ℝ := fun j => P₁ * R.u + A * (h.val * ε) + if j₀ ≤ j then P₂ * q else 0 with hE
  have hE0 : ∀ j < N, 0 ≤ E j := by
    intro j _
    have : 0 ≤ if j₀ ≤ j then P₂ * q else 0 := by split <;> positivity
    rw [hE]
    positivity
  have hEsum : ε + ∑ j ∈ range N, E j ≤ Q * (q + ε) := by
    rw [hE]
    simp only
    rw [sum_add_distrib, sum_ge_le, sum_const, card_range, nsmul_eq_mul]
    have c1 : ((N - j₀ : ℕ) : ℝ) ≤ k + 4 := by
      have h1 := Nat.ceil_le_floor_add_one ((t₁ - t₀) / h.val)
      exact_mod_cast (by omega : N - j₀ ≤ k + 4)
    have c2 := mul_le_mul_of_nonneg_right c1 (by positivity : 0 ≤ P₂ * q)
    have c3 : (N : ℝ) * (P₁ * R.u + A * (h.val * ε)) = N * h.val * (P₁ * q + A * ε) := by rw [uq]; ring
    have c4 := mul_le_mul_of_nonneg_right Nh (by positivity : 0 ≤ P₁ * q + A * ε)
    rw [c3, hQ]
    have d1 : 0 ≤ T * P₁ * ε := by positivity
    have d2 : 0 ≤ A * T * q := by positivity
    have d3 : 0 ≤ (k + 4) * P₂ * ε := by positivity
    linarith
  have hε1 : ε ≤ 1 := by linarith
  have hloc : ∀ j < N, (∀ i ≤ j, ‖x i - y (gr i)‖ ≤ r) →
      ‖x (j + 1) - (x j + (gr (j + 1) - gr j) • ∑ i ∈ range (min (j + 1) k),
        w (min (j + 1) k) i • g (gr (j - i)) (x (j - i)))‖ ≤ E j := by
    intro j hj hxj
    set κ := min (j + 1) k with hκ
    obtain ⟨z, hz, hzb⟩ := hst κ j (by omega) (by omega) (by omega) (tms h t₀f t₁f) X (min h (t₁f - tms h t₀f t₁f j))
    rw [hX j hj] at hz
    have hz' : X (j + 1) = z := col_injective (Option.some.inj hz)
    subst hz'
    set df := (min h (t₁f - tms h t₀f t₁f j)).val with hdf
    set d := gr (j + 1) - gr j with hdd
    obtain ⟨d0, dh⟩ := grid_step (t₀ := t₀) (t₁ := t₁) hpos ht j
    change 0 ≤ d at d0
    change d ≤ h.val at dh
    have dfd := hd j hj
    have df1 : |df| ≤ 1 := by
      have h1 := abs_sub_abs_le_abs_sub df d
      rw [abs_of_nonneg d0] at h1
      have h2 := mul_le_mul_of_nonneg_left qη' (by positivity : 0 ≤ 8 * T * S + D + 1)
      linarith
    -- values of the right-hand side
    set kf : ℕ → Fin n → ℝ := fun i => flv (gf (tms h t₀f t₁f (j - i)) (X (j - i))) with hkf
    have near : ∀ i < κ, |τ (j - i) - gr (j - i)| ≤ r ∧ ‖x (j - i) - y (gr (j - i))‖ ≤ r := fun i _ =>
      ⟨(drift (j - i) (by omega)).trans Δr, hxj (j - i) (by omega)⟩
    have v1 : ∀ i < κ, ‖kf i - g (τ (j - i)) (x (j - i))‖ ≤ ε := fun i hi =>
      hgf (gr (j - i)) (hsub _ (hin _)) _ _ ((near i hi).1.trans rr₁) ((near i hi).2.trans rr₁)
    have v2 : ∀ i < κ, ‖g (τ (j - i)) (x (j - i)) - g (gr (j - i)) (x (j - i))‖ ≤ Λ * (8 * T * S * q) := by
      intro i hi
      have := (htube' (gr (j - i)) (hsub _ (hin _))).2 (τ (j - i)) (x (j - i)) (gr (j - i)) (x (j - i))
        ((near i hi).1.trans rr₂) ((near i hi).2.trans rr₂) (by simp [hr₂.le]) ((near i hi).2.trans rr₂)
      rw [sub_self, norm_zero, max_eq_left (abs_nonneg _)] at this
      exact this.trans (mul_le_mul_of_nonneg_left (drift (j - i) (by omega)) hΛ)
    have v3 : ∀ i < κ, ‖kf i‖ ≤ G + 1 := by
      intro i hi
      have h1 := v1 i hi
      have h2 := (htube' (gr (j - i)) (hsub _ (hin _))).1 (τ (j - i)) (x (j - i)) ((near i hi).1.trans rr₂)
        ((near i hi).2.trans rr₂)
      have h3 := norm_sub_norm_le (kf i) (g (τ (j - i)) (x (j - i)))
      linarith
    have xX : ‖x j‖ ≤ Xb + r := by
      have h1 := hXb _ (hsub _ (hin j))
      have h2 := norm_sub_norm_le (x j) (y (gr j))
      have h3 := hxj j le_rfl
      linarith
    have b1 := hzb (Xb + r) (G + 1) (by positivity) xX v3 df1
    change ‖x (j + 1) - (x j + df • ∑ i ∈ range κ, w κ i • kf i)‖ ≤ _ at b1
    have wsum : ∀ (v : ℕ → Fin n → ℝ) (c : ℝ), 0 ≤ c → (∀ i < κ, ‖v i‖ ≤ c) → ‖∑ i ∈ range κ, w κ i • v i‖ ≤ A * c := by
      intro v c hc hv
      refine (norm_sum_le _ _).trans ?_
      refine le_trans (sum_le_sum fun i hi => ?_) (le_trans (le_of_eq (sum_mul _ _ _).symm)
        (mul_le_mul_of_nonneg_right (hAW κ (min_le_right _ _)) hc))
      rw [norm_smul, Real.norm_eq_abs]
      exact mul_le_mul_of_nonneg_left (hv i (mem_range.1 hi)) (abs_nonneg _)
    have b2 := wsum kf (G + 1) (by positivity) v3
    have b3 := wsum (fun i => kf i - g (gr (j - i)) (x (j - i))) (ε + Λ * (8 * T * S * q)) (by positivity) (by
      intro i hi
      have h1 := norm_add_le (kf i - g (τ (j - i)) (x (j - i))) (g (τ (j - i)) (x (j - i)) - g (gr (j - i)) (x (j - i)))
      rw [sub_add_sub_cancel] at h1
      linarith [v1 i hi, v2 i hi])
    have b4 : |df - d| * (A * (G + 1)) ≤ if j₀ ≤ j then P₂ * q else 0 := by
      by_cases hc : j₀ ≤ j
      · rw [if_pos hc, hP₂]
        have := mul_le_mul_of_nonneg_right dfd (by positivity : 0 ≤ A * (G + 1))
        linarith
      · rw [if_neg hc, hd' j hj (by omega)]
        simp
    have e3 : x (j + 1) - (x j + d • ∑ i ∈ range κ, w κ i • g (gr (j - i)) (x (j - i))) =
        (x (j + 1) - (x j + df • ∑ i ∈ range κ, w κ i • kf i)) + (df - d) • ∑ i ∈ range κ, w κ i • kf i +
          d • ∑ i ∈ range κ, w κ i • (kf i - g (gr (j - i)) (x (j - i))) := by
      simp only [smul_sub, sub_smul, sum_sub_distrib]
      abel
    rw [e3]
    refine (norm_add₃_le).trans ?_
    rw [norm_smul, norm_smul, Real.norm_eq_abs, Real.norm_eq_abs, abs_of_nonneg d0]
    have b5 : |df - d| * ‖∑ i ∈ range κ, w κ i • kf i‖ ≤ |df - d| * (A * (G + 1)) :=
      mul_le_mul_of_nonneg_left b2 (abs_nonneg _)
    have b6 : d * ‖∑ i ∈ range κ, w κ i • (kf i - g (gr (j - i)) (x (j - i)))‖ ≤
        h.val * (A * (ε + Λ * (8 * T * S * q))) := mul_le_mul dh b3 (norm_nonneg _) hpos.le
    have b7 : h.val * (A * (ε + Λ * (8 * T * S * q))) = A * (h.val * ε) + A * Λ * (8 * T * S) * R.u := by rw [uq]; ring
    rw [hE, hP₁]
    simp only
    linarith
  have main := H h.val hpos hh1 N x E ε hE0 (by rw [hx]; simp only; rw [hX0]; exact hx₀)
    (hEsum.trans (by
      have := mul_le_mul_of_nonneg_left (by linarith : q + ε ≤ 2 * η) Q0
      linarith)) hloc
  have hp0 : 0 ≤ h.val ^ min k 2 := by positivity
  refine ⟨_, _, hsol, by simp [hist], ?_, ?_, ?_⟩
  · rw [hist, List.head?_map, List.head?_range]
    simp [tms]
  · intro t hjt
    rw [hist, List.range_succ, List.map_append] at hjt
    simp only [List.map_cons, List.map_nil, List.getLast?_append, List.getLast?_singleton, Option.some_or,
      Option.some.injEq] at hjt
    have := of_not_far hu8 hspec.2
    rw [hjt, e1] at this
    exact this
  · intro j t Xj hjt hjX
    rw [hist, List.getElem?_map, Option.map_eq_some_iff] at hjt hjX
    obtain ⟨i, hi, rfl⟩ := hjt
    obtain ⟨i', hi', rfl⟩ := hjX
    rw [List.getElem?_eq_some_iff] at hi hi'
    obtain ⟨hi1, rfl⟩ := hi
    obtain ⟨_, rfl⟩ := hi'
    rw [List.length_range] at hi1
    simp only [List.getElem_range]
    refine ⟨_, rfl, ?_⟩
    have m1 := main j (by omega)
    have d1 := drift j (by omega)
    have inab : τ j ∈ Set.Icc a b := by
      have h1 := abs_le.1 d1
      have h2 := hin j
      exact ⟨by linarith [h2.1], by linarith [h2.2]⟩
    have m2 := hyL (τ j) inab (gr j) (hsub _ (hin j))
    rw [abs_sub_comm] at m2
    have m3 := mul_le_mul_of_nonneg_left d1 hG
    have m4 : ‖x j - y (τ j)‖ ≤ ‖x j - y (gr j)‖ + ‖y (gr j) - y (τ j)‖ := by
      have := norm_add_le (x j - y (gr j)) (y (gr j) - y (τ j))
      rwa [sub_add_sub_cancel] at this
    change ‖x j - y (τ j)‖ ≤ _
    have m5 := mul_le_mul_of_nonneg_left hEsum hC₁
    have n1 : 0 ≤ C₁ * q := by positivity
    have n2 : 0 ≤ C₁ * ε := by positivity
    have n3 : 0 ≤ C₁ * Q * h.val ^ min k 2 := by positivity
    have n4 : 0 ≤ G * (8 * T * S) * (h.val ^ min k 2 + ε) := by positivity
    linarith

theorem small_u {u h η c : ℝ} (h0 : 0 ≤ h) (h1 : h ≤ 1) (hη : 0 ≤ η) (hc : η ≤ c) (hu : u ≤ η * h ^ 2) : u ≤ c :=
  hu.trans ((mul_le_of_le_one_right hη (pow_le_one₀ h0 h1)).trans hc)

theorem bdfWeights_tail (i : ℕ) (hi : 5 ≤ i) : weightsOf (abWeights (min i 5) : List ℝ) i = 0 := by
  rw [min_eq_right hi]
  simp only [weightsOf, abWeights]
  rw [List.getD_eq_getElem?_getD, List.getElem?_eq_none (by simpa using hi), Option.getD_none]

theorem bdfStep_close {R : Rounding ℝ} (hu : R.u ≤ 1 / 8) {n : ℕ} {f : Rhs (Fl R)}
    {gf : Fl R → (Fin n → Fl R) → (Fin n → Fl R)} (hf : RhsRepr f gf) {k : ℕ} (hk6 : k ≤ 6) :
    StepClose (fun j => bdfStep j f) gf (fun κ => weightsOf (abWeights (min κ 5) : List ℝ)) k := by
  intro j N h1 h2 h3 τ X d
  rcases Nat.lt_or_ge j 6 with h6 | h6
  · have e : (bdfStep j : Rhs (Fl R) → _) = abStep j := by
      have : j = 1 ∨ j = 2 ∨ j = 3 ∨ j = 4 ∨ j = 5 := by omega
      rcases this with rfl | rfl | rfl | rfl | rfl <;> rfl
    simp only [e, min_eq_left (by omega : j ≤ 5)]
    exact abStep_close hu hf (k := 5) le_rfl j N h1 (by omega) h3 τ X d
  · obtain rfl : j = 6 := by omega
    have e : (bdfStep 6 : Rhs (Fl R) → _) = abStep 5 := rfl
    simp only [e]
    obtain ⟨x, hx, H⟩ := abStep_close hu hf (k := 5) le_rfl 5 N (by omega) le_rfl (by omega) τ X d
    refine ⟨x, hx, fun Xb M M0 hX hM hd => ?_⟩
    have h0 := bdfWeights_tail 5 le_rfl
    simp only [min_self] at h0
    have := H Xb M M0 hX (fun i hi => hM i (by omega)) hd
    rw [sum_range_succ _ 5]
    simpa [h0] using this

theorem bdfWeights_sums : (∀ κ, 1 ≤ κ → κ ≤ 6 → ∑ i ∈ range κ, weightsOf (abWeights (min κ 5) : List ℝ) i = 1) ∧
    ∀ κ, 2 ≤ κ → κ ≤ 6 → ∑ i ∈ range κ, weightsOf (abWeights (min κ 5) : List ℝ) i * i = -1 / 2 := by
  have h0 := bdfWeights_tail 5 le_rfl
  simp only [min_self] at h0
  constructor
  · intro κ h1 h2
    rcases Nat.lt_or_ge κ 6 with h6 | h6
    · rw [min_eq_left (by omega)]
      exact (abWeights_sums (k := 5) le_rfl).1 κ h1 (by omega)
    · obtain rfl : κ = 6 := by omega
      rw [sum_range_succ _ 5]
      simpa [h0] using (abWeights_sums (k := 5) le_rfl).1 5 (by omega) le_rfl
  · intro κ h1 h2
    rcases Nat.lt_or_ge κ 6 with h6 | h6
    · rw [min_eq_left (by omega)]
      exact (abWeights_sums (k := 5) le_rfl).2 κ h1 (by omega)
    · obtain rfl : κ = 6 := by omega
      rw [sum_range_succ _ 5]
      simpa [h0] using (abWeights_sums (k := 5) le_rfl).2 5 (by omega) le_rfl

/-- **C112, Adams-Bashforth.** With rounded arithmetic the solver with `k ≤ 5` steps returns, and every state it returns
agrees with the solution at the returned time up to `C (h ^ min k 2 + u / h + ε)`: `u` is the unit roundoff and `ε` bounds the
errors of the initial value and of the right-hand side near the solution. Partial: the roundoff has to be small against `h²`
(with larger roundoff the times drift by more than a step), the order is `min k 2` instead of the documented `k`
(`C87_order_violated`), and overflow is not covered. -/
theorem C112_adamsBashforth_partial {k : ℕ} (hk1 : 1 ≤ k) (hk5 : k ≤ 5) {n : ℕ} {g : ℝ → (Fin n → ℝ) → (Fin n → ℝ)}
    {y : ℝ → (Fin n → ℝ)} {a b t₀ t₁ : ℝ} (ha : a < t₀) (ht : t₀ ≤ t₁) (hb : t₁ < b)
    (hg : ∀ t ∈ Set.Icc a b, ContDiffAt ℝ ((min k 2 : ℕ) : WithTop ℕ∞) (fun z : ℝ × (Fin n → ℝ) => g z.1 z.2) (t, y t))
    (hy : ∀ t ∈ Set.Icc a b, ∀ᶠ u in 𝓝 t, HasDerivAt y (g u (y u)) u) {r₁ : ℝ} (hr₁ : 0 < r₁) :
    ∃ h₀ > 0, ∃ η > 0, ∃ C, ∀ (R : Rounding ℝ) (h t₀f t₁f : Fl R) (ε : ℝ) (f : Rhs (Fl R))
      (gf : Fl R → (Fin n → Fl R) → (Fin n → Fl R)) (x₀ : Fin n → Fl R) (fuel : ℕ),
      t₀f.val = t₀ → t₁f.val = t₁ → 0 < h.val → h.val ≤ h₀ → R.u ≤ η * h.val ^ 2 → 0 ≤ ε → ε ≤ η →
      RhsRepr f gf → RhsClose gf g y a b r₁ ε → ‖flv x₀ - y t₀‖ ≤ ε → ⌈(t₁ - t₀) / h.val⌉₊ + 4 ≤ fuel →
      ∃ ts xs, msSolve (fun j => abStep j f) fuel k h t₀f t₁f (col x₀) = some (ts, xs) ∧ ts.length = xs.length ∧
        ts.head? = some t₀f ∧ (∀ t, ts.getLast? = some t → |t.val - t₁| ≤ 3 / 2 * (1 / 10 ^ 10)) ∧
        ∀ (j : ℕ) t X, ts[j]? = some t → xs[j]? = some X →
          ∃ x : Fin n → Fl R, X = col x ∧ ‖flv x - y t.val‖ ≤ C * (h.val ^ min k 2 + R.u / h.val + ε) := by
  obtain ⟨h₀, hh₀, η, hη, C, H⟩ := ms_fl hk1 (fun κ => weightsOf (abWeights κ : List ℝ)) (abWeights_sums hk5).1 (abWeights_sums hk5).2 ha ht hb hg hy hr₁
  refine ⟨min h₀ 1, by positivity, min η (1 / 8), by positivity, C, ?_⟩
  intro R h t₀f t₁f ε f gf x₀ fuel e0 e1 hpos hle hu hε hεη hf hgf hx₀ hfuel
  have hu8 : R.u ≤ 1 / 8 := small_u hpos.le (hle.trans (min_le_right _ _)) (by positivity) (min_le_right _ _) hu
  exact H R h t₀f t₁f ε _ gf x₀ fuel e0 e1 hpos (hle.trans (min_le_left _ _))
    (hu.trans (mul_le_mul_of_nonneg_right (min_le_left _ _) (by positivity))) hε (hεη.trans (min_le_left _ _))
    (abStep_close hu8 hf hk5) hgf hx₀ hfuel

/-- **C112, BDF.** The same for the solver called BDF with `k ≤ 6` steps. Partial as for Adams-Bashforth. -/
theorem C112_bdf_partial {k : ℕ} (hk1 : 1 ≤ k) (hk6 : k ≤ 6) {n : ℕ} {g : ℝ → (Fin n → ℝ) → (Fin n → ℝ)}
    {y : ℝ → (Fin n → ℝ)} {a b t₀ t₁ : ℝ} (ha : a < t₀) (ht : t₀ ≤ t₁) (hb : t₁ < b)
    (hg : ∀ t ∈ Set.Icc a b, ContDiffAt ℝ ((min k 2 : ℕ) : WithTop ℕ∞) (fun z : ℝ × (Fin n → ℝ) => g z.1 z.2) (t, y t))
    (hy : ∀ t ∈ Set.Icc a b, ∀ᶠ u in 𝓝 t, HasDerivAt y (g u (y u)) u) {r₁ : ℝ} (hr₁ : 0 < r₁) :
    ∃ h₀ > 0, ∃ η > 0, ∃ C, ∀ (R : Rounding ℝ) (h t₀f t₁f : Fl R) (ε : ℝ) (f : Rhs (Fl R))
      (gf : Fl R → (Fin n → Fl R) → (Fin n → Fl R)) (x₀ : Fin n → Fl R) (fuel : ℕ),
      t₀f.val = t₀ → t₁f.val = t₁ → 0 < h.val → h.val ≤ h₀ → R.u ≤ η * h.val ^ 2 → 0 ≤ ε → ε ≤ η →
      RhsRepr f gf → RhsClose gf g y a b r₁ ε → ‖flv x₀ - y t₀‖ ≤ ε → ⌈(t₁ - t₀) / h.val⌉₊ + 4 ≤ fuel →
      ∃ ts xs, msSolve (fun j => bdfStep j f) fuel k h t₀f t₁f (col x₀) = some (ts, xs) ∧ ts.length = xs.length ∧
        ts.head? = some t₀f ∧ (∀ t, ts.getLast? = some t → |t.val - t₁| ≤ 3 / 2 * (1 / 10 ^ 10)) ∧
        ∀ (j : ℕ) t X, ts[j]? = some t → xs[j]? = some X →
          ∃ x : Fin n → Fl R, X = col x ∧ ‖flv x - y t.val‖ ≤ C * (h.val ^ min k 2 + R.u / h.val + ε) := by
  obtain ⟨h₀, hh₀, η, hη, C, H⟩ := ms_fl hk1 (fun κ => weightsOf (abWeights (min κ 5) : List ℝ)) (fun κ h1 h2 => bdfWeights_sums.1 κ h1 (h2.trans hk6)) (fun κ h1 h2 => bdfWeights_sums.2 κ h1 (h2.trans hk6)) ha ht hb hg hy hr₁
  refine ⟨min h₀ 1, by positivity, min η (1 / 8), by positivity, C, ?_⟩
  intro R h t₀f t₁f ε f gf x₀ fuel e0 e1 hpos hle hu hε hεη hf hgf hx₀ hfuel
  have hu8 : R.u ≤ 1 / 8 := small_u hpos.le (hle.trans (min_le_right _ _)) (by positivity) (min_le_right _ _) hu
  exact H R h t₀f t₁f ε _ gf x₀ fuel e0 e1 hpos (hle.trans (min_le_left _ _))
    (hu.trans (mul_le_mul_of_nonneg_right (min_le_left _ _) (by positivity))) hε (hεη.trans (min_le_left _ _))
    (bdfStep_close hu8 hf hk6) hgf hx₀ hfuel

/-- `x' = x`, `x 0 = 1` on `[0, 1]` with 2 steps: the values agree with the exponential function up to `C (h ^ 2 + u / h)` -/
example : ∃ h₀ > 0, ∃ η > 0, ∃ C, ∀ (R : Rounding ℝ) (h z o : Fl R), z.val = 0 → o.val = 1 → 0 < h.val → h.val ≤ h₀ →
    R.u ≤ η * h.val ^ 2 → ∀ fuel, ⌈1 / h.val⌉₊ + 4 ≤ fuel →
    ∃ ts xs, msSolve (fun j => abStep j fun _ x => some x) fuel 2 h z o (col ![o]) = some (ts, xs) ∧
      ts.length = xs.length ∧ ts.head? = some z ∧ (∀ t, ts.getLast? = some t → |t.val - 1| ≤ 3 / 2 * (1 / 10 ^ 10)) ∧
      ∀ (j : ℕ) t X, ts[j]? = some t → xs[j]? = some X →
        ∃ x : Fin 1 → Fl R, X = col x ∧ ‖flv x - ![Real.exp t.val]‖ ≤ C * (h.val ^ 2 + R.u / h.val) := by
  obtain ⟨h₀, hh, η, hη, C, H⟩ := C112_adamsBashforth_partial (k := 2) (by norm_num) (by norm_num) (n := 1) (g := fun _ x => x)
    (y := fun t => ![Real.exp t]) (a := -1) (t₀ := 0) (t₁ := 1) (b := 2) (by norm_num) zero_le_one (by norm_num)
    (fun t _ => contDiffAt_snd)
    (fun t _ => Eventually.of_forall fun u => by
      rw [hasDerivAt_pi]
      intro i
      fin_cases i
      simpa using Real.hasDerivAt_exp u) (r₁ := 1) one_pos
  refine ⟨h₀, hh, η, hη, C, fun R h z o hz ho h1 h2 h3 fuel hf => ?_⟩
  have := H R h z o 0 (fun _ x => some x) (fun _ x => x) ![o] fuel hz ho h1 h2 h3 le_rfl hη.le
    (fun _ _ => rfl) (fun s _ t x _ _ => by simp)
    (by
      have : flv (n := 1) ![o] = ![1] := by
        funext i; fin_cases i; simp [flv, ho]
      rw [this]; simp) (by simpa using hf)
  simpa using this

/-- `x' = x`, `x 0 = 1` on `[0, 1]` with 6 steps: the values agree with the exponential function up to `C (h ^ 2 + u / h)` -/
example : ∃ h₀ > 0, ∃ η > 0, ∃ C, ∀ (R : Rounding ℝ) (h z o : Fl R), z.val = 0 → o.val = 1 → 0 < h.val → h.val ≤ h₀ →
    R.u ≤ η * h.val ^ 2 → ∀ fuel, ⌈1 / h.val⌉₊ + 4 ≤ fuel →
    ∃ ts xs, msSolve (fun j => bdfStep j fun _ x => some x) fuel 6 h z o (col ![o]) = some (ts, xs) ∧
      ts.length = xs.length ∧ ts.head? = some z ∧ (∀ t, ts.getLast? = some t → |t.val - 1| ≤ 3 / 2 * (1 / 10 ^ 10)) ∧
      ∀ (j : ℕ) t X, ts[j]? = some t → xs[j]? = some X →
        ∃ x : Fin 1 → Fl R, X = col x ∧ ‖flv x - ![Real.exp t.val]‖ ≤ C * (h.val ^ 2 + R.u / h.val) := by
  obtain ⟨h₀, hh, η, hη, C, H⟩ := C112_bdf_partial (k := 6) (by norm_num) (by norm_num) (n := 1) (g := fun _ x => x)
    (y := fun t => ![Real.exp t]) (a := -1) (t₀ := 0) (t₁ := 1) (b := 2) (by norm_num) zero_le_one (by norm_num)
    (fun t _ => contDiffAt_snd)
    (fun t _ => Eventually.of_forall fun u => by
      rw [hasDerivAt_pi]
      intro i
      fin_cases i
      simpa using Real.hasDerivAt_exp u) (r₁ := 1) one_pos
  refine ⟨h₀, hh, η, hη, C, fun R h z o hz ho h1 h2 h3 fuel hf => ?_⟩
  have := H R h z o 0 (fun _ x => some x) (fun _ x => x) ![o] fuel hz ho h1 h2 h3 le_rfl hη.le
    (fun _ _ => rfl) (fun s _ t x _ _ => by simp)
    (by
      have : flv (n := 1) ![o] = ![1] := by
        funext i; fin_cases i; simp [flv, ho]
      rw [this]; simp) (by simpa using hf)
  simpa using this

end Ode
end Verif
