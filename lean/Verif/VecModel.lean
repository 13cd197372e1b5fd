import Verif.RowColModel
import Mathlib.Order.Basic

/-!
# Model of `Vector<T>` operations

Paths are relative to `/repo/src/algebra/linear/`.  A `Vector<T>` is its underlying matrix.
-/

namespace Verif
namespace Mat
variable {K : Type}

section Ops
variable [Zero K] [One K] [Add K] [Sub K] [Mul K] [Div K]

/-- `vector/vector.rs:306-319`, `dotp`. -/
def dotp (x y : Mat K) : Option K :=
  if x.m ≠ 0 ∧ x.n = 1 ∧ x.m = y.m ∧ x.n = y.n then do
    let t ← x.transpose
    let res ← t.mul y
    res.get 0 0
  else none

/-- `vector/vector.rs:411-425`, `dyadp`: uses the row counts of both operands. -/
def dyadp (x y : Mat K) : Option (Mat K) :=
  forRange 0 x.m (fun c i =>
    forRange 0 y.m (fun c j => do
      let a ← x.vget i
      let b ← y.vget j
      c.set i j (a * b)) c) (zero x.m y.m)

/-- `vector/vector.rs:622-644`, `get_slice`. -/
def vgetSlice (v : Mat K) (s e : Nat) : Option (Mat K) :=
  if (if v.m = 1 then s < v.n ∧ e < v.n else s < v.m ∧ e < v.m) ∧ s ≤ e then
    forRange s (e + 1) (fun S r => do
      let x ← v.vget r
      S.vset (r - s) x) (vzero (e - s + 1))
  else none

/-- `matrix/mul/native.rs:12-35`, `&Matrix * &Vector`; the products are pushed onto a `Vec`. -/
def mulVec (A v : Mat K) : Option (Mat K) :=
  if A.n ≠ v.m then none
  else do
    let data ← forRange 0 A.m (fun (data : List K) i => do
      let p ← forRange 0 A.n (fun p k => do
        let a ← A.data[k * A.m + i]?
        let b ← v.vget k
        some (p + a * b)) (0 : K)
      some (data ++ [p])) []
    newColumn A.m data

/-- `vector/mul/native.rs:23-46`, `&Vector * &Matrix`. -/
def vecMul (v A : Mat K) : Option (Mat K) :=
  if v.n ≠ A.m then none
  else do
    let data ← forRange 0 A.n (fun (data : List K) i => do
      let p ← forRange 0 A.m (fun p k => do
        let b ← v.vget k
        let a ← A.get k i
        some (p + b * a)) (0 : K)
      some (data ++ [p])) []
    newRow A.n data

end Ops

/-- `vector/vector.rs:667-677`, `set_slice` (checks and uses the row counts only). -/
def vsetSlice (v rhs : Mat K) (s : Nat) : Option (Mat K) :=
  if s + rhs.m ≤ v.m then
    forRange s (s + rhs.m) (fun v r => do
      let x ← rhs.vget (r - s)
      v.vset r x) v
  else none

section Order
variable [LT K] [DecidableLT K]

/-- `vector/vector.rs:334-356`, `argmax`. -/
def argmax (v : Mat K) : Option Nat := do
  let max0 ← v.vget 0
  let limit := max v.m v.n
  if limit = 0 then none else
    let r ← forRange 0 limit (fun (s : Nat × K) idx => do
      let element ← v.vget idx
      if element > s.2 then some (idx, element) else some s) (0, max0)
    some r.1

/-- `vector/vector.rs:371-393`, `argmin`. -/
def argmin (v : Mat K) : Option Nat := do
  let min0 ← v.vget 0
  let limit := max v.m v.n
  if limit = 0 then none else
    let r ← forRange 0 limit (fun (s : Nat × K) idx => do
      let element ← v.vget idx
      if element < s.2 then some (idx, element) else some s) (0, min0)
    some r.1

end Order

end Mat
end Verif
