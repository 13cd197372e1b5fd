import Verif.VecLemmas
import Mathlib.Algebra.Module.Pi
import Mathlib.Algebra.Order.BigOperators.Group.Finset

/-! # Column vectors as functions -/

namespace Verif
variable {K : Type}

/-- the column vector with entries `x` -/
def col {n : Nat} (x : Fin n → K) : Mat K := ⟨n, 1, List.ofFn x⟩

theorem colRepr_iff {n : Nat} {v : Mat K} {x : Fin n → K} : ColRepr v x ↔ v = col x := Iff.rfl

theorem col_is [Zero K] {n : Nat} (x : Fin n → K) : (col x).Is n 1 (fun i _ => extV x i) :=
  ColRepr.is (v := col x) rfl

@[simp] theorem col_m {n : Nat} (x : Fin n → K) : (col x).m = n := rfl

theorem col_injective {n : Nat} {x y : Fin n → K} (h : col x = col y) : x = y := by
  simp only [col, Mat.mk.injEq, true_and] at h
  exact List.ofFn_injective h

variable [Field K]

theorem col_add {n : Nat} (x y : Fin n → K) : (col x).add (col y) = some (col (x + y)) := by
  obtain ⟨u, hu, hi⟩ := Mat.add_is (col_is x) (col_is y)
  rw [hu]
  exact congrArg some (hi.colRepr_of (fun i => by simp [extV_apply]))

theorem col_sub {n : Nat} (x y : Fin n → K) : (col x).sub (col y) = some (col (x - y)) := by
  obtain ⟨u, hu, hi⟩ := Mat.sub_is (col_is x) (col_is y)
  rw [hu]
  exact congrArg some (hi.colRepr_of (fun i => by simp [extV_apply]))

theorem col_mulScalar {n : Nat} (x : Fin n → K) (s : K) : (col x).mulScalar s = col (s • x) :=
  (Mat.mulScalar_is (col_is x) s).colRepr_of (fun i => by simp [extV_apply, mul_comm])

theorem vzero_col (n : Nat) : (Mat.vzero n : Mat K) = col (0 : Fin n → K) :=
  (Mat.vzero_is n).colRepr_of (fun i => by simp)

end Verif
