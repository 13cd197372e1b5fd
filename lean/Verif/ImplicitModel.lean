import Verif.NewtonModel

/-!
# Model of the implicit Euler method for any type of numbers

The helper and the step of `NewtonModel.lean` once more, with the operations of the code in their order and without the laws of a
field; the tolerance of the root finder is an argument.
-/

namespace Verif
namespace Ode
variable {K : Type} [Zero K] [One K] [Add K] [Sub K] [Mul K] [Div K] [LinearOrder K]

/-- `/repo/src/analysis/differential_equation/ordinary/implicit_euler.rs:184-188`, `eval` of the helper: `(x + f(t, z) * h) - z` -/
def ieEvalG (f : Rhs K) (t : K) (x : Mat K) (h : K) (z : Mat K) : Option (Mat K) := do
  let fz ← f t z
  let s ← x.add (fz.mulScalar h)
  s.sub z

/-- `/repo/src/analysis/differential_equation/ordinary/implicit_euler.rs:197-203`, `jacobian` of the helper: `J(t, z) * h - I` -/
def ieJacG (jac : Rhs K) (t : K) (h : K) (z : Mat K) : Option (Mat K) := do
  let J ← jac t z
  (J.mulScalar h).sub (Mat.one z.m)

/-- `/repo/src/analysis/differential_equation/ordinary/implicit_euler.rs:133-141`, `do_step`; `unwrap` of `Err` is a panic. `tol` is
the tolerance of the root finder, `10⁻⁸` in `implicit_euler.rs:108-112` -/
def ieStepG (sqrt : K → K) (tol : K) (f jac : Rhs K) (t : K) (x : Mat K) (h : K) : Option (Mat K) := do
  let r ← findRoot sqrt tol (ieEvalG f (t + h) x h) (ieJacG jac (t + h) h) 100 x
  r

/-- over a field this is the step of `NewtonModel.lean` -/
theorem ieStepG_field {F : Type} [Field F] [LinearOrder F] (sqrt : F → F) (f jac : Rhs F) (t : F) (x : Mat F) (h : F) :
    ieStepG sqrt (1 / 10 ^ 8) f jac t x h = ieStep sqrt f jac t x h := rfl

end Ode
end Verif
