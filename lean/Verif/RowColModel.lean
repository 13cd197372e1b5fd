import Verif.TransposeModel

/-!
# Model: rows, columns, slices, trace, equality and iterators of `Matrix<T>`

Paths are relative to `/repo/src/algebra/linear/`.
-/

namespace Verif
namespace Mat
variable {K : Type}

section Ops
variable [Zero K] [One K] [Add K] [Sub K] [Mul K] [Div K]

/-- `matrix/matrix.rs:239-255`, `trace`. -/
def trace (A : Mat K) : Option K :=
  if A.m ≠ A.n then none
  else forRange 0 A.m (fun sum i => do
    let x ← A.get i i
    some (sum + x)) (0 : K)

/-- `vector/vector.rs:539-542`, `Vector::zero(m)`: an `m × 1` matrix. -/
def vzero (m : Nat) : Mat K := zero m 1

/-- `vector/vector.rs:560-570`, `Vector::one(m)`. -/
def vone (m : Nat) : Mat K := ⟨m, 1, List.replicate m 1⟩

/-- `matrix/matrix.rs:275-287`, `get_column`. -/
def getColumn (A : Mat K) (i : Nat) : Option (Mat K) :=
  if i < A.n then
    forRange 0 A.m (fun v k => do
      let x ← A.get k i
      v.vset k x) (vzero A.m)
  else none

/-- `matrix/matrix.rs:292-305`, `get_row` (the zero vector is transposed first). -/
def getRow (A : Mat K) (i : Nat) : Option (Mat K) :=
  if i < A.m then do
    let v ← (vzero A.n : Mat K).transpose
    forRange 0 A.n (fun v k => do
      let x ← A.get i k
      v.vset k x) v
  else none

/-- `matrix/matrix.rs:726-748`, `get_slice`; the `usize` subtractions panic on underflow. -/
def getSlice (A : Mat K) (rowS rowE columnS columnE : Nat) : Option (Mat K) :=
  if rowS < A.m ∧ rowE < A.m ∧ columnS < A.n ∧ columnE < A.n ∧ rowS ≤ rowE ∧ columnS ≤ columnE then
    forRange rowS (rowE + 1) (fun S r =>
      forRange columnS (columnE + 1) (fun S c => do
        let x ← A.get r c
        S.set (r - rowS) (c - columnS) x) S) (zero (rowE - rowS + 1) (columnE - columnS + 1))
  else none

end Ops

/-- `matrix/matrix.rs:308-320`, `set_column`. -/
def setColumn (A : Mat K) (column : Mat K) (i : Nat) : Option (Mat K) :=
  if column.m ≠ A.m then none
  else forRange 0 A.m (fun A k => do
    let x ← column.vget k
    A.set k i x) A

/-- `matrix/matrix.rs:329-341`, `set_row`. -/
def setRow (A : Mat K) (row : Mat K) (i : Nat) : Option (Mat K) :=
  if row.n ≠ A.n then none
  else forRange 0 A.n (fun A k => do
    let x ← row.vget k
    A.set i k x) A

/-- `matrix/matrix.rs:778-793`, `set_slice`. -/
def setSlice (A : Mat K) (S : Mat K) (row column : Nat) : Option (Mat K) :=
  if row + S.m ≤ A.m ∧ column + S.n ≤ A.n then
    forRange row (row + S.m) (fun A r =>
      forRange column (column + S.n) (fun A c => do
        let x ← S.get (r - row) (c - column)
        A.set r c x) A) A
  else none

/-- `matrix/matrix.rs:883-896`, `PartialEq::eq`: dimensions, then buffers. -/
def beq [DecidableEq K] (A B : Mat K) : Bool :=
  if (A.m, A.n) ≠ (B.m, B.n) then false
  else if A.data = B.data then true
  else false

/-- `matrix/matrix.rs:1132-1145,1166-1179`, the loop of `abs_diff_eq` and `relative_eq` over
    `self.iter().zip(other.iter())`: the body returns `false` if `cmp a b` fails and otherwise
    returns `true` immediately. -/
def approxLoop (cmp : K → K → Bool) : List (K × K) → Bool
  | [] => true
  | (a, b) :: _ => if !cmp a b then false else true

/-- `abs_diff_eq` / `relative_eq` of matrices with entry comparison `cmp`. -/
def approxEq (cmp : K → K → Bool) (A B : Mat K) : Bool := approxLoop cmp (A.data.zip B.data)

/-! ### Iterators -/

section Ops
variable [Zero K] [One K] [Add K] [Sub K] [Mul K] [Div K]

/-- `matrix/matrixrowintoiterator.rs:23-35`, `next`; the state is the field `row`.
    Outer `none`: panic; `some none`: iterator exhausted. -/
def rowNext (A : Mat K) (row : Nat) : Option (Option (Mat K × Nat)) :=
  if row < A.m then do
    let r ← A.getRow row
    some (some (r, row + 1))
  else some none

/-- `matrix/matrixcolumnintoiterator.rs:23-35`, `next`. -/
def columnNext (A : Mat K) (column : Nat) : Option (Option (Mat K × Nat)) :=
  if column < A.n then do
    let r ← A.getColumn column
    some (some (r, column + 1))
  else some none

end Ops

/-- Consuming an iterator (`for x in it`): call `next` until it returns `None`.  `fuel` bounds the number of
    calls; running out of fuel is reported as `none` (like a panic). -/
def drain {σ α : Type} (next : σ → Option (Option (α × σ))) : Nat → σ → Option (List α)
  | 0, _ => none
  | fuel + 1, s => do
    match ← next s with
    | none => some []
    | some (x, s') => do
      let xs ← drain next fuel s'
      some (x :: xs)

end Mat
end Verif
