import Verif.LUModel
import Verif.OrthModel
import Verif.OdeModel

/-!
# Model of the Newton-Raphson root finder and the implicit Euler method

`/repo/src/analysis/newton_raphson.rs` and `/repo/src/analysis/differential_equation/ordinary/implicit_euler.rs`.
-/

namespace Verif
section
variable {K : Type} [Zero K] [One K] [Add K] [Sub K] [Mul K] [Div K] [LinearOrder K]

/-- `newton_raphson.rs:54-60`: one iteration; the result is `x_current` -/
def newtonStep (eval jac : Mat K → Option (Mat K)) (x : Mat K) : Option (Mat K) := do
  let fx ← eval x
  let J ← jac x
  let b ← J.solveV fx
  x.sub b

/-- `newton_raphson.rs:47-70`, `find_root`; the inner `none` is `Err`. The 2-norm is the root of the sum of squares. -/
def findRoot (sqrt : K → K) (tol : K) (eval jac : Mat K → Option (Mat K)) : Nat → Mat K → Option (Option (Mat K))
  | 0, _ => some none
  | iters + 1, x => do
    let xc ← newtonStep eval jac x
    let d ← x.sub xc
    let nrm ← d.norm2 sqrt
    if nrm < tol then some (some x) else findRoot sqrt tol eval jac iters xc

end

variable {K : Type} [Field K] [LinearOrder K]
namespace Ode

/-- `implicit_euler.rs:184-188`, `eval` of the helper: `(x + f(t, z) * h) - z` -/
def ieEval (f : Rhs K) (t : K) (x : Mat K) (h : K) (z : Mat K) : Option (Mat K) := do
  let fz ← f t z
  let s ← x.add (fz.mulScalar h)
  s.sub z

/-- `implicit_euler.rs:197-203`, `jacobian` of the helper: `J(t, z) * h - I` -/
def ieJac (jac : Rhs K) (t : K) (h : K) (z : Mat K) : Option (Mat K) := do
  let J ← jac t z
  (J.mulScalar h).sub (Mat.one z.m)

/-- `implicit_euler.rs:133-141`, `do_step`; `unwrap` of `Err` is a panic -/
def ieStep (sqrt : K → K) (f jac : Rhs K) (t : K) (x : Mat K) (h : K) : Option (Mat K) := do
  let r ← findRoot sqrt (1 / 10 ^ 8) (ieEval f (t + h) x h) (ieJac jac (t + h) h) 100 x
  r

end Ode
end Verif
