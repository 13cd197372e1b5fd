import Verif.MatModel
import Verif.ComplexModel
import Mathlib.Algebra.Order.Group.Abs
import Mathlib.Algebra.Order.Field.Basic

/-!
# `Display` of matrices, complex numbers and polynomials

A text is a list of characters.  The text `sh x` of a number is a parameter (the standard library prints numbers).
-/

namespace Verif
namespace Display

variable {K : Type}

/-- `/repo/src/algebra/linear/matrix/matrix.rs:796-811`, `fmt` of `Matrix`; the formatter never fails, the only panic is that
of `get` -/
def mat (sh : K → List Char) (A : Mat K) : Option (List Char) := do
  let t ← forRange 0 A.m (fun t i => do
    let t ← forRange 0 A.n (fun t j => do
      let x ← A.get i j
      some (t ++ (sh x ++ [' ']))) t
    some (t ++ ['\n'])) ['\n']
  some (t ++ ['\n'])

/-- `/repo/src/num/complex.rs:430-438`, `fmt` of `Complex` -/
def cx (sh : K → List Char) (z : Cx K) : List Char := sh z.re ++ [' ', '+', ' '] ++ sh z.im ++ ['i']

/-- `/repo/src/algebra/abstr/polynomial.rs:123-152`, the loop of `fmt` of `Polynomial`: the remaining coefficients with the index
of the first of them and `only_zero_terms` -/
def polyLoop [Field K] [LinearOrder K] (sh : K → List Char) (eps : K) : List K → ℕ → Bool → List Char
  | [], _, _ => []
  | a :: t, i, onlyZero =>
    if ¬ |a - 0| ≤ eps then
      (if i > 1 then
        if onlyZero then sh a ++ ['x', '^'] ++ Nat.toDigits 10 i
        else [' ', '+', ' '] ++ sh a ++ ['x', '^'] ++ Nat.toDigits 10 i
      else if i = 0 then sh a
      else if onlyZero then sh a ++ ['x']
      else [' ', '+', ' '] ++ sh a ++ ['x']) ++ polyLoop sh eps t (i + 1) false
    else polyLoop sh eps t (i + 1) onlyZero

/-- `/repo/src/algebra/abstr/polynomial.rs:116-157`, `fmt` of `Polynomial`; `eps` is `default_epsilon` -/
def poly [Field K] [LinearOrder K] (sh : K → List Char) (eps : K) (p : List K) : List Char := polyLoop sh eps p 0 true

end Display
end Verif
