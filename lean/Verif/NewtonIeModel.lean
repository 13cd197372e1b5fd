import Verif.OptimModel

/-!
# Model of Newton's method for minimisation for any type of numbers

The method of `OptimModel.lean` once more, with the comparisons of the code instead of those of a linear order, so that it can be run
on numbers with NaN.  The solver for the linear system is an argument.
-/

namespace Verif
namespace Opt
variable {K : Type} [Zero K] [One K] [Add K] [Sub K] [Mul K] [Neg K] [Div K] [NatCast K] [LE K] [LT K] [DecidableLE K] [DecidableLT K]

/-- `/repo/src/optimization/newton.rs:84-106`: the search direction.  `res` is the result of `solve`, `none` its `Err`. -/
def newtonDirG (rho : K) (grad : Mat K) (res : Option (Mat K)) : Option (Mat K) :=
  match res with
  | some d => do
    let ga ← grad.dotp grad
    let gd ← grad.dotp d
    if gd ≤ -rho * ga then some d else some (neg grad)
  | none => some (neg grad)

/-- `/repo/src/optimization/newton.rs:107-119`: the line search, first iterate included; returns the accepted `alpha`. -/
def newtonSearchG (eval : Mat K → Option (Mat K)) (sigma : K) (x d : Mat K) (fx temp : K) : Nat → K → Option K
  | 0, _ => none
  | fuel + 1, alpha => do
    let r ← x.add (d.mulScalar alpha)
    let fr ← obj eval r
    if fr > fx + temp * (sigma * alpha) then newtonSearchG eval sigma x d fx temp fuel (alpha / 2) else some alpha

/-- `/repo/src/optimization/newton.rs:82-122`: one iteration of `Newton::minimize`; `solve` is the method of the Hessian matrix, its
`none` a panic (the native version returns no `Err`). -/
def newtonMinStepG (solve : Mat K → Mat K → Option (Mat K)) (eval jac hess : Mat K → Option (Mat K)) (sigma rho : K) (fuel : Nat)
    (x : Mat K) : Option (Mat K) := do
  let H ← hess x
  let grad ← gradAt jac x
  let s ← solve H (neg grad)
  let d ← newtonDirG rho grad (some s)
  let fx ← obj eval x
  let temp ← grad.dotp d
  let alpha ← newtonSearchG eval sigma x d fx temp fuel 1
  x.add (d.mulScalar alpha)

/-- over a linear order this is the line search of `OptimModel.lean` -/
theorem newtonSearchG_order {F : Type} [Zero F] [One F] [Add F] [Sub F] [Mul F] [Neg F] [Div F] [NatCast F] [LinearOrder F]
    (eval : Mat F → Option (Mat F)) (sigma : F) (x d : Mat F) (fx temp : F) (fuel : Nat) (alpha : F) :
    newtonSearchG eval sigma x d fx temp fuel alpha = newtonSearch eval sigma x d fx temp fuel alpha := by
  induction fuel generalizing alpha with
  | zero => rfl
  | succ k ih => simp only [newtonSearchG, newtonSearch, ih]

/-- over a linear order this is the iteration of `OptimModel.lean` -/
theorem newtonMinStepG_order {F : Type} [Zero F] [One F] [Add F] [Sub F] [Mul F] [Neg F] [Div F] [NatCast F] [LinearOrder F]
    (eval jac hess : Mat F → Option (Mat F)) (sigma rho : F) (fuel : Nat) (x : Mat F) :
    newtonMinStepG Mat.solveV eval jac hess sigma rho fuel x = newtonMinStep eval jac hess sigma rho fuel x := by
  simp only [newtonMinStepG, newtonMinStep, newtonSearchG_order]
  rfl

end Opt
end Verif
