import Verif.Loop
import Mathlib.Algebra.Field.Basic
import Mathlib.Algebra.Order.Group.Abs

/-!
# Model of `Polynomial<T>` (`/repo/src/algebra/abstr/polynomial.rs`)

A polynomial is its coefficient vector `coef` (lowest degree first), a `List K`.  `T` is an exact field.
Loops over `iter().enumerate()` are loops over the index range.  `none` is a panic.
-/

namespace Verif
namespace Poly
variable {K : Type}

/-- `l[i] = v` with its bounds check -/
def lset (l : List K) (i : Nat) (v : K) : Option (List K) :=
  if i < l.length then some (l.set i v) else none

/-- `polynomial.rs:48-59`, `from_coef`: panics on an empty coefficient vector. -/
def fromCoef (coef : List K) : Option (List K) := if coef.length = 0 then none else some coef

/-- `polynomial.rs:432-435`, `degree` is `coef.len() - 1` (underflow panics). -/
def degree (p : List K) : Option Nat := if p.length = 0 then none else some (p.length - 1)

/-- `polynomial.rs:184-193`, `eval`: `for v in coef.iter().rev() { s = v + x * s }`. -/
def eval [Zero K] [Add K] [Mul K] (p : List K) (x : K) : K := p.reverse.foldl (fun s v => v + x * s) 0

section Ops
variable [Zero K] [One K] [Neg K] [Add K] [Sub K] [Mul K]

/-- `polynomial.rs:89-114`, `from_root`. -/
def fromRoot (root : List K) : Option (List K) :=
  if root.length = 0 then none
  else do
    let n := root.length
    let coef ← lset (List.replicate (n + 1) (0 : K)) n 1
    let coef ← forRange 1 (n + 1) (fun coef i =>
      forRange (n - i) n (fun (coef : List K) j => do
        let c ← coef[j + 1]?
        let r ← root[i - 1]?
        let x ← coef[j]?
        lset coef j (x + (-1) * r * c)) coef) coef
    fromCoef coef

/-- `polynomial.rs:247-263`, `&p + &q`. -/
def add (p q : List K) : Option (List K) := do
  let sum := if p.length > q.length then p else q
  let sum ← forRange 0 (min p.length q.length) (fun (sum : List K) i => do
    let a ← p[i]?
    let b ← q[i]?
    lset sum i (a + b)) sum
  fromCoef sum

/-- `polynomial.rs:325-341`, `&p - &q`. -/
def sub (p q : List K) : Option (List K) := do
  let sum := if p.length > q.length then p else q
  let sum ← forRange 0 (min p.length q.length) (fun (sum : List K) i => do
    let a ← p[i]?
    let b ← q[i]?
    lset sum i (a - b)) sum
  fromCoef sum

/-- `polynomial.rs:357-360`, `zero`. -/
def zero : List K := [0]

/-- `polynomial.rs:383-388,407-412`, `neg`. -/
def neg (p : List K) : Option (List K) := fromCoef (p.map (fun x => -x))

/-- `polynomial.rs:498-516`, `&p * &q`. -/
def mul (p q : List K) : Option (List K) := do
  let dl ← degree p
  let dr ← degree q
  let res ← forRange 0 p.length (fun res i =>
    forRange 0 q.length (fun (res : List K) j => do
      let a ← p[i]?
      let b ← q[j]?
      let x ← res[i + j]?
      lset res (i + j) (x + a * b)) res) (List.replicate (dl + dr + 1) (0 : K))
  fromCoef res

end Ops

section Order
variable [Field K] [LinearOrder K]

/-- `polynomial.rs:582-598`, the loop of `reduce_coef`, `for i in (1..len).rev()`: pop while the last
    coefficient is `abs_diff_eq` to zero (`abs_diff_eq.rs:131-134`, `|v - 0| <= eps`). -/
def reduceLoop (eps : K) : Nat → List K → Option (List K)
  | 0, coef => some coef
  | i + 1, coef => do
    let v ← coef[i + 1]?
    if |v - 0| ≤ eps then reduceLoop eps i coef.dropLast else some coef

/-- `polynomial.rs:582-598`, `reduce_coef`; `eps` is `T::default_epsilon()`. -/
def reduceCoef (eps : K) (coef : List K) : Option (List K) := reduceLoop eps (coef.length - 1) coef

/-- `polynomial.rs:600-603`, `reduce`. -/
def reduce (eps : K) (coef : List K) : Option (List K) := do
  let c ← reduceCoef eps coef
  fromCoef c

/-- `polynomial.rs:552-576`, `&p / &q`, returning (quotient, remainder).
    A zero leading coefficient of `q` gives inf/NaN in the code and `none` here. -/
def div (eps : K) (p q : List K) : Option (List K × List K) := do
  let dq ← degree q
  let dp ← degree p
  if dq > dp then some (zero, p)
  else do
    let qd := dp - dq
    let s ← forRange 0 (qd + 1) (fun (s : List K × List K) t => do
      let i := qd - t
      let r ← s.2[dq + i]?
      let l ← q[dq]?
      if l = 0 then none
      else do
        let c := r / l
        let quotient ← lset s.1 i c
        let remainder ← forRange 0 q.length (fun (rem : List K) k => do
          let v ← q[k]?
          let x ← rem[k + i]?
          lset rem (k + i) (x - v * c)) s.2
        some (quotient, remainder)) (List.replicate (qd + 1) (0 : K), p)
    let quotient ← fromCoef s.1
    let remainder ← reduce eps s.2
    some (quotient, remainder)

/-- `polynomial.rs:629-643`, `differentiate`. -/
def differentiate (eps : K) (p : List K) : Option (List K) := do
  let d ← degree p
  if d = 0 then fromCoef [0]
  else do
    let coefDiff ← forRange 0 (p.length - 1) (fun (c : List K) i => do
      let a ← p[i + 1]?
      some (c ++ [((i + 1 : Nat) : K) * a])) []
    reduce eps coefDiff

/-- `polynomial.rs:665-676`, `integrate`.  `T::from_f64((i+1) as f64)` is nonzero. -/
def integrate (eps : K) (p : List K) : Option (List K) := do
  let coefInt ← forRange 0 p.length (fun (c : List K) i => do
    let a ← p[i]?
    some (c ++ [a / ((i + 1 : Nat) : K)])) [0]
  reduce eps coefInt

end Order
end Poly
end Verif
