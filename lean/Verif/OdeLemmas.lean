import Verif.OdeModel
import Verif.ColLemmas
import Verif.RKOrder

/-! # Lemmas about the explicit Runge-Kutta steps -/

namespace Verif
namespace Ode
open Finset
variable {K : Type}

/-- Specification: on column vectors of length `n`, the right-hand side `f` computes the function `g`. -/
def RhsRepr {n : Nat} (f : Rhs K) (g : K → (Fin n → K) → (Fin n → K)) : Prop :=
  ∀ t x, f t (col x) = some (col (g t x))

section Zero
variable [Zero K]

/-- the matrix of a tableau stored row by row without the first (empty) row -/
def rowsOf (a : List K) : ℕ → ℕ → K := fun i j => a.getD ((i - 1) * i / 2 + j) 0
/-- the nodes of a tableau stored without the first one, which is zero -/
def nodesOf (c : List K) : ℕ → K
  | 0 => 0
  | i + 1 => c.getD i 0
/-- the weights -/
def weightsOf (b : List K) : ℕ → K := fun i => b.getD i 0

theorem sliceRange_ok {l : List K} {s e : ℕ} (h1 : s ≤ e) (h2 : e ≤ l.length) :
    ∃ r, sliceRange l s e = some r ∧ r.length = e - s ∧ ∀ i < e - s, r.getD i 0 = l.getD (s + i) 0 := by
  refine ⟨(l.take e).drop s, by simp [sliceRange, h1, h2], by simp; omega, ?_⟩
  intro i hi
  simp only [List.getD_eq_getElem?_getD, List.getElem?_drop, List.getElem?_take]
  rw [if_pos (by omega)]

theorem tri_succ (j : ℕ) (hj : 1 ≤ j) : (j - 1) * j / 2 + j = j * (j + 1) / 2 := by
  obtain ⟨k, rfl⟩ : ∃ k, j = k + 1 := ⟨j - 1, by omega⟩
  have : (k + 1) * (k + 1 + 1) = k * (k + 1) + (k + 1) * 2 := by ring
  rw [this, Nat.add_mul_div_right _ _ (by norm_num)]
  simp

theorem tri_mono {i j : ℕ} (h : i ≤ j) : i * (i + 1) / 2 ≤ j * (j + 1) / 2 :=
  Nat.div_le_div_right (Nat.mul_le_mul h (by omega))

/-- the shape of a tableau of an explicit method: `s ≥ 1` weights, the strict lower triangle, `s - 1` nodes -/
def Shape (a b c : List K) : Prop :=
  b ≠ [] ∧ a.length = (b.length - 1) * b.length / 2 ∧ c.length = b.length - 1

end Zero

variable [Field K]

/-- Specification: the stages of the explicit Runge-Kutta method with matrix `A` and nodes `c` (textbook formula) -/
def rkStage {n : Nat} (A : ℕ → ℕ → K) (c : ℕ → K) (g : K → (Fin n → K) → (Fin n → K)) (t : K) (x : Fin n → K)
    (h : K) : ℕ → (Fin n → K)
  | i => g (t + c i * h) (x + h • ∑ j : Fin i, A i j • rkStage A c g t x h j)

theorem rkStage_eq {n : Nat} (A : ℕ → ℕ → K) (c : ℕ → K) (g : K → (Fin n → K) → (Fin n → K)) (t : K)
    (x : Fin n → K) (h : K) (i : ℕ) :
    rkStage A c g t x h i = g (t + c i * h) (x + h • ∑ j ∈ range i, A i j • rkStage A c g t x h j) := by
  rw [rkStage, Finset.sum_range]

/-- Specification: one step of the Runge-Kutta method -/
def rkStep {n : Nat} (s : ℕ) (A : ℕ → ℕ → K) (b c : ℕ → K) (g : K → (Fin n → K) → (Fin n → K)) (t : K)
    (x : Fin n → K) (h : K) : Fin n → K :=
  x + h • ∑ i ∈ range s, b i • rkStage A c g t x h i

theorem combine_col {n : Nat} (κ : ℕ → Fin n → K) (w : List K) :
    combine n w ((List.range w.length).map (fun i => col (κ i))) =
      some (col (∑ i ∈ range w.length, w.getD i 0 • κ i)) := by
  induction w using List.reverseRecOn with
  | nil => simp [combine, vzero_col]
  | append_singleton w a ih =>
    unfold combine at ih ⊢
    rw [List.length_append, List.length_singleton, List.range_succ, List.map_append,
      List.zip_append (by simp), List.foldlM_append, ih]
    simp only [List.map_cons, List.map_nil, List.zip_cons_cons, List.zip_nil_right, List.foldlM_cons,
      List.foldlM_nil, Option.bind_eq_bind, Option.bind_some, col_mulScalar, col_add]
    simp only [Option.pure_def, Option.some.injEq, sum_range_succ]
    congr 1
    have e1 : (w ++ [a]).getD w.length 0 = a := by simp
    rw [e1]
    congr 1
    apply sum_congr rfl
    intro i hi
    have e2 : (w ++ [a]).getD i 0 = w.getD i 0 := by
      simp only [List.getD_eq_getElem?_getD, List.getElem?_append_left (mem_range.mp hi)]
    rw [e2]

theorem stages_col {n : Nat} {f : Rhs K} {g : K → (Fin n → K) → (Fin n → K)} (hf : RhsRepr f g)
    (a b c : List K) (hb : b ≠ []) (ha : a.length = (b.length - 1) * b.length / 2)
    (hc : c.length = b.length - 1) (t : K) (x : Fin n → K) (h : K) :
    stages a b c f t (col x) h =
      some ((List.range b.length).map (fun i => col (rkStage (rowsOf a) (nodesOf c) g t x h i))) := by
  have hpos : 1 ≤ b.length := List.length_pos_iff.mpr hb
  unfold stages
  rw [hf]
  simp only [Option.bind_eq_bind, Option.bind_some]
  obtain ⟨u, hu, hP⟩ := forRange_inv (a := 1) (b := b.length)
    (fun j k => k = (List.range j).map (fun i => col (rkStage (rowsOf a) (nodesOf c) g t x h i))) hpos
    (f := fun k j => (sliceRange a ((j - 1) * j / 2) ((j - 1) * j / 2 + j)).bind fun row =>
      (combine (col x).m row k).bind fun sum => c[j - 1]?.bind fun cj =>
        ((col x).add (sum.mulScalar h)).bind fun arg => (f (t + cj * h) arg).bind fun kj => some (k ++ [kj]))
    (s := [col (g t x)])
    (by
      simp only [List.range_one, List.map_cons, List.map_nil]
      rw [rkStage_eq]
      simp [nodesOf])
    (by
      intro j k hj1 hj2 hk
      have hle : (j - 1) * j / 2 + j ≤ a.length := by
        rw [tri_succ j hj1, ha]
        have h1 := tri_mono (i := j) (j := b.length - 1) (by omega)
        have h2 : b.length - 1 + 1 = b.length := by omega
        rwa [h2] at h1
      obtain ⟨r, hr, hrl, hrg⟩ := sliceRange_ok (l := a) (s := (j - 1) * j / 2) (e := (j - 1) * j / 2 + j)
        (by omega) hle
      have hrl' : r.length = j := by omega
      have hcj : c[j - 1]? = some (nodesOf c j) := by
        obtain ⟨i, rfl⟩ : ∃ i, j = i + 1 := ⟨j - 1, by omega⟩
        have : i < c.length := by omega
        simp [nodesOf, this]
      have hcomb : combine n r k = some (col (∑ i ∈ range j, rowsOf a j i •
          rkStage (rowsOf a) (nodesOf c) g t x h i)) := by
        have := combine_col (fun i => rkStage (rowsOf a) (nodesOf c) g t x h i) r
        rw [hrl', ← hk] at this
        rw [this]
        congr 2
        apply sum_congr rfl
        intro i hi
        rw [hrg i (by have := mem_range.mp hi; omega)]
        rfl
      refine ⟨_, ?_, rfl⟩
      simp only [hr, Option.bind_some, col_m, hcomb, hcj, col_mulScalar, col_add, hf]
      rw [List.range_succ, List.map_append, ← hk]
      simp only [List.map_cons, List.map_nil]
      rw [rkStage_eq _ _ _ _ _ _ j, hf]
      rfl)
  rw [hP] at hu
  exact hu

theorem doStep_col {n : Nat} {f : Rhs K} {g : K → (Fin n → K) → (Fin n → K)} (hf : RhsRepr f g) (T : Tableau K)
    (hT : Shape T.a T.b T.c) (t : K) (x : Fin n → K) (h : K) :
    doStep T f t (col x) h =
      some (col (rkStep T.b.length (rowsOf T.a) (weightsOf T.b) (nodesOf T.c) g t x h)) := by
  unfold doStep
  rw [stages_col hf T.a T.b T.c hT.1 hT.2.1 hT.2.2]
  simp only [Option.bind_eq_bind, Option.bind_some, col_m, combine_col, col_mulScalar, col_add]
  rfl

theorem doStepEmb_col {n : Nat} {f : Rhs K} {g : K → (Fin n → K) → (Fin n → K)} (hf : RhsRepr f g)
    (T : EmbTableau K) (hT : Shape T.a T.b T.c) (hs : T.bs.length = T.b.length) (t : K) (x : Fin n → K) (h : K) :
    doStepEmb T f t (col x) h =
      some (col (rkStep T.b.length (rowsOf T.a) (weightsOf T.b) (nodesOf T.c) g t x h),
        col (rkStep T.b.length (rowsOf T.a) (weightsOf T.bs) (nodesOf T.c) g t x h)) := by
  unfold doStepEmb
  rw [stages_col hf T.a T.b T.c hT.1 hT.2.1 hT.2.2]
  have h2 := combine_col (fun i => rkStage (rowsOf T.a) (nodesOf T.c) g t x h i) T.bs
  rw [hs] at h2
  simp only [Option.bind_eq_bind, Option.bind_some, col_m, combine_col, col_mulScalar, col_add, h2]
  rfl

/-! ## Transfer of the order conditions from the rational numbers -/

open RK

theorem weight_map {L : Type} [Field L] (φ : K →+* L) (A : ℕ → ℕ → K) (F : Forest) (i : ℕ) :
    weight (fun i j => φ (A i j)) F i = φ (weight A F i) := by
  induction F generalizing i with
  | nil => simp [weight]
  | cons t r h1 h2 => simp [weight, h1, h2]

theorem orderConditions_map {L : Type} [Field L] (φ : K →+* L) {s : ℕ} {A : ℕ → ℕ → K} {b : ℕ → K} {p : ℕ}
    (h : OrderConditions s A b p) : OrderConditions s (fun i j => φ (A i j)) (fun i => φ (b i)) p := by
  intro F hF
  have := congrArg φ (h F hF)
  simpa [weight_map] using this

theorem rowsOf_map {L : Type} [Field L] (φ : K →+* L) (a : List K) :
    rowsOf (a.map φ) = fun i j => φ (rowsOf a i j) := by
  funext i j
  simp only [rowsOf, List.getD_eq_getElem?_getD, List.getElem?_map]
  cases a[(i - 1) * i / 2 + j]? <;> simp

theorem weightsOf_map {L : Type} [Field L] (φ : K →+* L) (b : List K) :
    weightsOf (b.map φ) = fun i => φ (weightsOf b i) := by
  funext i
  simp only [weightsOf, List.getD_eq_getElem?_getD, List.getElem?_map]
  cases b[i]? <;> simp

theorem nodesOf_map {L : Type} [Field L] (φ : K →+* L) (c : List K) :
    nodesOf (c.map φ) = fun i => φ (nodesOf c i) := by
  funext i
  cases i with
  | zero => simp [nodesOf]
  | succ i =>
    simp only [nodesOf, List.getD_eq_getElem?_getD, List.getElem?_map]
    cases c[i]? <;> simp

/-- the nodes are the row sums of the matrix -/
def RowSums (s : ℕ) (A : ℕ → ℕ → K) (c : ℕ → K) : Prop := ∀ i < s, c i = ∑ j ∈ range i, A i j

theorem rowSums_map {L : Type} [Field L] (φ : K →+* L) {s : ℕ} {A : ℕ → ℕ → K} {c : ℕ → K} (h : RowSums s A c) :
    RowSums s (fun i j => φ (A i j)) (fun i => φ (c i)) := by
  intro i hi
  simp only [h i hi, map_sum]

theorem orderConditions_of_upTo {s : ℕ} {A : ℕ → ℕ → K} {b : ℕ → K} {p : ℕ}
    (h : ∀ F ∈ Forest.upTo (p - 1), (∑ i ∈ range s, b i * weight A F i) * ((F.size + 1 : ℕ) * (F.dens : ℕ)) = 1) :
    OrderConditions s A b p :=
  fun F hF => h F (Forest.mem_upTo.mpr (by omega))

end Ode
end Verif
