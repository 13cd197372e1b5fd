import Verif.Loop
import Mathlib.Algebra.Field.Basic

/-!
# Model of `Matrix<T>` and `Vector<T>`: storage, access and arithmetic

Paths are relative to `/repo/src/algebra/linear/`.  `T` (f32/f64) is replaced by an exact field `K`.
A panic is `none`.
-/

namespace Verif

/-- `matrix/matrix.rs:67-77`, `struct Matrix<T> { m, n, data }`.  Column-major buffer. -/
structure Mat (K : Type) where
  /-- number of rows -/
  m : Nat
  /-- number of columns -/
  n : Nat
  /-- column-major buffer -/
  data : List K
deriving DecidableEq

instance {K : Type} : Inhabited (Mat K) := ⟨⟨0, 0, []⟩⟩

namespace Mat
variable {K : Type}

/-- `matrix/matrix.rs:910-914`, `Matrix::new`: `assert_eq!(m * n, data.len())`.
    Simplification: `usize` overflow of `m * n` is not modelled. -/
def new (m n : Nat) (data : List K) : Option (Mat K) :=
  if m * n = data.length then some ⟨m, n, data⟩ else none

/-- `matrix/matrix.rs:860-866`, `Matrix::get`: both asserts, then `self.data[j * self.m + i]`
    (which panics if the buffer is too short). -/
def get (A : Mat K) (i j : Nat) : Option K :=
  if i < A.m ∧ j < A.n then A.data[j * A.m + i]? else none

/-- The buffer update performed by `*self.get_mut(i, j) = v` once the asserts have passed. -/
def put (A : Mat K) (i j : Nat) (v : K) : Mat K := { A with data := A.data.set (j * A.m + i) v }

/-- `matrix/matrix.rs:833-838`, `*self.get_mut(i, j) = v`: both asserts, bounds check of the buffer
    index, then the assignment. -/
def set (A : Mat K) (i j : Nat) (v : K) : Option (Mat K) :=
  if i < A.m ∧ j < A.n ∧ j * A.m + i < A.data.length then some (A.put i j v) else none

/-- `matrix/matrix.rs:147-156`, `Matrix::apply`/`apply_mut`: `f` on every buffer element. -/
def apply (A : Mat K) (f : K → K) : Mat K := { A with data := A.data.map f }

section Ops
variable [Zero K] [One K] [Add K] [Sub K] [Mul K] [Div K]

/-- `matrix/matrix.rs:947-952`, `Matrix::zero`. -/
def zero (m n : Nat) : Mat K := ⟨m, n, List.replicate (m * n) 0⟩

/-- `matrix/matrix.rs:989-1001`, `Matrix::one`: zero buffer, then `data[i * size + i] = 1` in a loop.
    The buffer index is always in range, so the (panicking) bounds check is omitted. -/
def one (size : Nat) : Mat K :=
  ⟨size, size, (List.range size).foldl (fun d i => d.set (i * size + i) 1)
    (List.replicate (size * size) 0)⟩

/-- `matrix/matrix.rs:1003-1008`, `Matrix::ones`. -/
def ones (m n : Nat) : Mat K := ⟨m, n, List.replicate (m * n) 1⟩

/-- `matrix/add/native.rs:46-57`, `&Matrix + &Matrix`. -/
def add (A B : Mat K) : Option (Mat K) :=
  if A.m = B.m ∧ A.n = B.n then some ⟨A.m, A.n, List.zipWith (· + ·) A.data B.data⟩ else none

/-- `matrix/sub/native.rs:41-52`, `&Matrix - &Matrix` (dimensions taken from the right operand). -/
def sub (A B : Mat K) : Option (Mat K) :=
  if A.m = B.m ∧ A.n = B.n then some ⟨B.m, B.n, List.zipWith (· - ·) A.data B.data⟩ else none

/-- `matrix/add/native.rs:76-79`, `&Matrix + &T`. -/
def addScalar (A : Mat K) (s : K) : Mat K := A.apply (fun x => x + s)

/-- `matrix/sub/native.rs:71-74`, `&Matrix - &T`. -/
def subScalar (A : Mat K) (s : K) : Mat K := A.apply (fun x => x - s)

/-- `matrix/mul/native.rs:79-82,160-163`, `&Matrix * &T`. -/
def mulScalar (A : Mat K) (s : K) : Mat K := A.apply (fun x => x * s)

/-- `matrix/div.rs:23-26`, `Matrix / T` is `self * (1 / m)`.  The code does not panic for `m = 0`
    (it produces inf/NaN, outside the exact field); the model returns `none` there. -/
def divScalar [DecidableEq K] (A : Mat K) (s : K) : Option (Mat K) :=
  if s = 0 then none else some (A.mulScalar (1 / s))

/-- `matrix/mul/native.rs:134-155`, `&Matrix * &Matrix`: the triple loop. -/
def mul (A B : Mat K) : Option (Mat K) :=
  if A.n = B.m then
    forRange 0 A.m (fun prod i =>
      forRange 0 B.n (fun prod j => do
        let sum ← forRange 0 A.n (fun sum k => do
          let a ← A.get i k
          let b ← B.get k j
          some (sum + a * b)) (0 : K)
        prod.set i j sum) prod) (zero A.m B.n)
  else none

end Ops

/-! ### Rows, columns, slices -/

/-- `matrix/matrix.rs:261-269`, `swap_rows`. -/
def swapRows (A : Mat K) (i j : Nat) : Option (Mat K) :=
  forRange 0 A.n (fun A k => do
    let temp ← A.get i k
    let b ← A.get j k
    let A ← A.set i k b
    A.set j k temp) A

/-- `vector/vector.rs:486-503`, `Vector::get`.  `Vector<T>` is a newtype around `Matrix<T>`
    (`vector/vector.rs:71-74`) and is modelled by `Mat` itself. -/
def vget (v : Mat K) (i : Nat) : Option K :=
  if v.m = 1 ∨ v.n = 1 then
    if v.m = 1 then (if i < v.n then v.get 0 i else none)
    else (if i < v.m then v.get i 0 else none)
  else none

/-- `vector/vector.rs:448-465`, `*Vector::get_mut(i) = x`. -/
def vset (v : Mat K) (i : Nat) (x : K) : Option (Mat K) :=
  if v.m = 1 ∨ v.n = 1 then
    if v.m = 1 then (if i < v.n then v.set 0 i x else none)
    else (if i < v.m then v.set i 0 x else none)
  else none

/-- `vector/vector.rs:203-207`, `Vector::new_row`. -/
def newRow (n : Nat) (data : List K) : Option (Mat K) :=
  if n = data.length then new 1 n data else none

/-- `vector/vector.rs:222-226`, `Vector::new_column`. -/
def newColumn (m : Nat) (data : List K) : Option (Mat K) :=
  if m = data.length then new m 1 data else none

end Mat
end Verif
