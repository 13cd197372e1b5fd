import Verif.FloatLemmas
import Verif.OdeLemmas

/-!
# Lemmas: the explicit Runge-Kutta steps and the fixed stepper over any number type

Nothing is assumed about the operations, so the order of the operations is kept.
-/

set_option linter.unusedSectionVars false

namespace Verif

/-- rounding up a floating-point number is exact -/
instance {K : Type} [Field K] [LinearOrder K] [IsStrictOrderedRing K] [FloorRing K] {R : Rounding K} :
    Ode.HasCeil (Fl R) := ⟨fun x => ⌈x.val⌉⟩

theorem Fl.ceilZ_val {K : Type} [Field K] [LinearOrder K] [IsStrictOrderedRing K] [FloorRing K] {R : Rounding K}
    (x : Fl R) : Ode.HasCeil.ceilZ x = ⌈x.val⌉ := rfl

namespace Ode
open Finset Mat
variable {K : Type} [Zero K] [One K] [Add K] [Sub K] [Mul K] [Div K]

theorem accum_congr {g g' : ℕ → K} {n : ℕ} (h : ∀ j < n, g j = g' j) : accum g n = accum g' n := by
  induction n with
  | zero => rfl
  | succ n ih => rw [accum, accum, ih fun j hj => h j (by omega), h n (by omega)]

theorem col_add_ops {n : Nat} (x y : Fin n → K) : (col x).add (col y) = some (col fun r => x r + y r) := by
  obtain ⟨u, hu, hi⟩ := Mat.add_is (col_is x) (col_is y)
  rw [hu]
  exact congrArg some (hi.colRepr_of (fun i => by simp [extV_apply]))

theorem col_mulScalar_ops {n : Nat} (x : Fin n → K) (s : K) : (col x).mulScalar s = col fun r => x r * s :=
  (Mat.mulScalar_is (col_is x) s).colRepr_of (fun i => by simp [extV_apply])

theorem vzero_col_ops (n : Nat) : (Mat.vzero n : Mat K) = col fun _ : Fin n => (0 : K) :=
  (Mat.vzero_is n).colRepr_of (fun i => by simp)

/-- the linear combination of the stages, accumulated from the left -/
theorem combine_ops {n : Nat} (κ : ℕ → Fin n → K) (w : List K) :
    combine n w ((List.range w.length).map (fun i => col (κ i))) =
      some (col fun r => accum (fun j => κ j r * w.getD j 0) w.length) := by
  induction w using List.reverseRecOn with
  | nil => simp [combine, vzero_col_ops, accum]
  | append_singleton w a ih =>
    unfold combine at ih ⊢
    rw [List.length_append, List.length_singleton, List.range_succ, List.map_append,
      List.zip_append (by simp), List.foldlM_append, ih]
    simp only [List.map_cons, List.map_nil, List.zip_cons_cons, List.zip_nil_right, List.foldlM_cons,
      List.foldlM_nil, Option.bind_eq_bind, Option.bind_some, col_mulScalar_ops, col_add_ops]
    simp only [Option.pure_def, Option.some.injEq]
    congr 1
    funext r
    have e1 : (w ++ [a]).getD w.length 0 = a := by simp
    rw [accum, e1]
    congr 1
    refine accum_congr fun j hj => ?_
    have e2 : (w ++ [a]).getD j 0 = w.getD j 0 := by
      simp only [List.getD_eq_getElem?_getD, List.getElem?_append_left hj]
    rw [e2]

/-- the stages, with the operations in the order of the code -/
def opStage {n : Nat} (A : ℕ → ℕ → K) (c : ℕ → K) (g : K → (Fin n → K) → (Fin n → K)) (t : K) (x : Fin n → K) (h : K) :
    ℕ → (Fin n → K)
  | 0 => g t x
  | i + 1 => g (t + c (i + 1) * h) fun r =>
      x r + accum (fun j => if _hj : j < i + 1 then opStage A c g t x h j r * A (i + 1) j else 0) (i + 1) * h

theorem opStage_zero {n : Nat} (A : ℕ → ℕ → K) (c : ℕ → K) (g : K → (Fin n → K) → (Fin n → K)) (t : K) (x : Fin n → K)
    (h : K) : opStage A c g t x h 0 = g t x := by rw [opStage]

theorem opStage_pos {n : Nat} (A : ℕ → ℕ → K) (c : ℕ → K) (g : K → (Fin n → K) → (Fin n → K)) (t : K) (x : Fin n → K)
    (h : K) {i : ℕ} (hi : 1 ≤ i) : opStage A c g t x h i =
      g (t + c i * h) fun r => x r + accum (fun j => opStage A c g t x h j r * A i j) i * h := by
  obtain ⟨k, rfl⟩ : ∃ k, i = k + 1 := ⟨i - 1, by omega⟩
  rw [opStage]
  congr 1
  funext r
  rw [accum_congr (g' := fun j => opStage A c g t x h j r * A (k + 1) j) fun j hj => by rw [dif_pos hj]]

theorem stages_ops {n : Nat} {f : Rhs K} {g : K → (Fin n → K) → (Fin n → K)} (hf : RhsRepr f g)
    (a b c : List K) (hb : b ≠ []) (ha : a.length = (b.length - 1) * b.length / 2)
    (hc : c.length = b.length - 1) (t : K) (x : Fin n → K) (h : K) :
    stages a b c f t (col x) h =
      some ((List.range b.length).map (fun i => col (opStage (rowsOf a) (nodesOf c) g t x h i))) := by
  have hpos : 1 ≤ b.length := List.length_pos_iff.mpr hb
  unfold stages
  rw [hf]
  simp only [Option.bind_eq_bind, Option.bind_some]
  obtain ⟨u, hu, hP⟩ := forRange_inv (a := 1) (b := b.length)
    (fun j k => k = (List.range j).map (fun i => col (opStage (rowsOf a) (nodesOf c) g t x h i))) hpos
    (f := fun k j => (sliceRange a ((j - 1) * j / 2) ((j - 1) * j / 2 + j)).bind fun row =>
      (combine (col x).m row k).bind fun sum => c[j - 1]?.bind fun cj =>
        ((col x).add (sum.mulScalar h)).bind fun arg => (f (t + cj * h) arg).bind fun kj => some (k ++ [kj]))
    (s := [col (g t x)])
    (by
      simp only [List.range_one, List.map_cons, List.map_nil]
      rw [opStage_zero])
    (by
      intro j k hj1 hj2 hk
      have hle : (j - 1) * j / 2 + j ≤ a.length := by
        rw [tri_succ j hj1, ha]
        have h1 := tri_mono (i := j) (j := b.length - 1) (by omega)
        have h2 : b.length - 1 + 1 = b.length := by omega
        rwa [h2] at h1
      obtain ⟨r, hr, hrl, hrg⟩ := sliceRange_ok (l := a) (s := (j - 1) * j / 2) (e := (j - 1) * j / 2 + j)
        (by omega) hle
      have hrl' : r.length = j := by omega
      have hcj : c[j - 1]? = some (nodesOf c j) := by
        obtain ⟨i, rfl⟩ : ∃ i, j = i + 1 := ⟨j - 1, by omega⟩
        have : i < c.length := by omega
        simp [nodesOf, this]
      have hcomb : combine n r k = some (col fun q => accum (fun i =>
          opStage (rowsOf a) (nodesOf c) g t x h i q * rowsOf a j i) j) := by
        have := combine_ops (fun i => opStage (rowsOf a) (nodesOf c) g t x h i) r
        rw [hrl', ← hk] at this
        rw [this]
        congr 2
        funext q
        refine accum_congr fun i hi => ?_
        rw [hrg i (by omega)]
        rfl
      refine ⟨_, ?_, rfl⟩
      simp only [hr, Option.bind_some, col_m, hcomb, hcj, col_mulScalar_ops, col_add_ops, hf]
      rw [List.range_succ, List.map_append, ← hk]
      simp only [List.map_cons, List.map_nil]
      rw [opStage_pos _ _ _ _ _ _ hj1, hf]
      rfl)
  rw [hP] at hu
  exact hu

/-- one step, with the operations in the order of the code -/
def opStep {n : Nat} (s : ℕ) (A : ℕ → ℕ → K) (b c : ℕ → K) (g : K → (Fin n → K) → (Fin n → K)) (t : K)
    (x : Fin n → K) (h : K) : Fin n → K :=
  fun r => x r + accum (fun i => opStage A c g t x h i r * b i) s * h

theorem doStep_ops {n : Nat} {f : Rhs K} {g : K → (Fin n → K) → (Fin n → K)} (hf : RhsRepr f g) (T : Tableau K)
    (hT : Shape T.a T.b T.c) (t : K) (x : Fin n → K) (h : K) :
    doStep T f t (col x) h =
      some (col (opStep T.b.length (rowsOf T.a) (weightsOf T.b) (nodesOf T.c) g t x h)) := by
  unfold doStep
  rw [stages_ops hf T.a T.b T.c hT.1 hT.2.1 hT.2.2]
  simp only [Option.bind_eq_bind, Option.bind_some, col_m, combine_ops, col_mulScalar_ops, col_add_ops]
  rfl

section Solve
variable [LinearOrder K] [HasCeil K]

/-- the times and states of the fixed stepper -/
def iterSeq {n : ℕ} (F : K → (Fin n → K) → K → (Fin n → K)) (h t₀ t₁ : K) (x₀ : Fin n → K) : ℕ → K × (Fin n → K)
  | 0 => (t₀, x₀)
  | k + 1 =>
    let s := iterSeq F h t₀ t₁ x₀ k
    (s.1 + min h (t₁ - s.1), F s.1 s.2 (min h (t₁ - s.1)))

theorem fixedSolve_ops {n : ℕ} {step : K → Mat K → K → Option (Mat K)} {F : K → (Fin n → K) → K → (Fin n → K)}
    (hF : ∀ t x h, step t (col x) h = some (col (F t x h))) {h t₀ t₁ : K} (ht : t₀ ≤ t₁) (x₀ : Fin n → K) :
    fixedSolve step h t₀ t₁ (col x₀) =
      some ((List.range (HasCeil.ceilZ ((t₁ - t₀) / h) + 1).toNat).map (fun k => (iterSeq F h t₀ t₁ x₀ k).1),
        (List.range (HasCeil.ceilZ ((t₁ - t₀) / h) + 1).toNat).map (fun k => col (iterSeq F h t₀ t₁ x₀ k).2)) := by
  unfold fixedSolve
  rw [if_neg (not_lt.2 ht)]
  obtain ⟨r, hr, hP⟩ := forRange_inv (a := 0) (b := (HasCeil.ceilZ ((t₁ - t₀) / h) + 1).toNat)
    (f := fun s _ => fixedIter step h t₁ s) (s := ((t₀, col x₀, [], []) : K × Mat K × List K × List (Mat K)))
    (fun k s => s = ((iterSeq F h t₀ t₁ x₀ k).1, col (iterSeq F h t₀ t₁ x₀ k).2,
      (List.range k).map (fun k => (iterSeq F h t₀ t₁ x₀ k).1),
      (List.range k).map (fun k => col (iterSeq F h t₀ t₁ x₀ k).2))) (Nat.zero_le _) (by simp [iterSeq])
    (by
      intro i s _ _ hs
      refine ⟨_, ?_, rfl⟩
      subst hs
      simp [fixedIter, hF, iterSeq, List.range_succ])
  simp only [Option.bind_eq_bind]
  rw [hr, hP]
  rfl

end Solve
end Ode
end Verif
