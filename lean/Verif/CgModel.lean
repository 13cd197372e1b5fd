import Verif.OptimModel

/-!
# Model of the conjugate gradient method for any type of numbers

The iteration of `OptimModel.lean` once more, with the operations of the code in their order and without the laws of a field.
-/

namespace Verif
namespace Opt
variable {K : Type} [Zero K] [One K] [Add K] [Sub K] [Mul K] [Div K] [LinearOrder K]

/-- `/repo/src/optimization/conjugategradient.rs:137-149`: one iteration; returns the new `x_n`, `r_n_1` and `d_n`. A division by
zero, which gives inf or NaN, is `none` -/
def cgStepG (jac : Mat K → Option (Mat K)) (x r d : Mat K) : Option (Mat K × Mat K × Mat K) := do
  let J ← jac x
  let dt ← d.transpose
  let temp ← dt.vecMul J
  let rr ← r.dotp r
  let tt ← temp.transpose
  let td ← tt.dotp d
  let alpha ← Mat.fdiv rr td
  let x' ← x.add (d.mulScalar alpha)
  let Jd ← J.mulVec d
  let r' ← r.sub (Jd.mulScalar alpha)
  let rr' ← r'.dotp r'
  let beta ← Mat.fdiv rr' rr
  let d' ← r'.add (d.mulScalar beta)
  some (x', r', d')

/-- `/repo/src/optimization/conjugategradient.rs:135-158`: the loop with its `break`; `sqrt` is `pow(0.5)` -/
def cgLoopG (sqrt : K → K) (epsilon : K) (jac : Mat K → Option (Mat K)) : Nat → Mat K → Mat K → Mat K → Option (Mat K)
  | 0, x, _, _ => some x
  | iters + 1, x, r, d => do
    let (x', r', d') ← cgStepG jac x r d
    let rr' ← r'.dotp r'
    if sqrt rr' < epsilon then some x' else cgLoopG sqrt epsilon jac iters x' r' d'

/-- `/repo/src/optimization/conjugategradient.rs:128-161`, `ConjugateGradient::minimize` -/
def cgMinimizeG (sqrt : K → K) (epsilon : K) (eval jac : Mat K → Option (Mat K)) (iters : Nat) (x0 : Mat K) :
    Option (Mat K) := do
  let d ← eval x0
  cgLoopG sqrt epsilon jac iters x0 d d

/-- over a field this is the iteration of `OptimModel.lean` -/
theorem cgLoopG_field {F : Type} [Field F] [LinearOrder F] (sqrt : F → F) (epsilon : F) (jac : Mat F → Option (Mat F)) (iters : Nat)
    (x r d : Mat F) : cgLoopG sqrt epsilon jac iters x r d = cgLoop sqrt epsilon jac iters x r d := by
  induction iters generalizing x r d with
  | zero => rfl
  | succ k ih =>
    rw [cgLoopG, cgLoop]
    change (cgStep jac x r d).bind _ = (cgStep jac x r d).bind _
    simp only [ih]

/-- over a field this is the method of `OptimModel.lean` -/
theorem cgMinimizeG_field {F : Type} [Field F] [LinearOrder F] (sqrt : F → F) (epsilon : F) (eval jac : Mat F → Option (Mat F))
    (iters : Nat) (x0 : Mat F) : cgMinimizeG sqrt epsilon eval jac iters x0 = cgMinimize sqrt epsilon eval jac iters x0 := by
  simp only [cgMinimizeG, cgMinimize, cgLoopG_field]

end Opt
end Verif
