import Verif.LUModel
import Verif.VecModel
import Verif.RowColModel

/-!
# Model of the optimisation methods (`/repo/src/optimization`)

An objective of trait `Optim` is given by `eval`, `jac` and `hess : Mat K → Option (Mat K)`; `none` is a panic.
`loop` and `while` of the line searches get fuel; running out of fuel is `none`.  A division by zero (infinity or
NaN) is `none` unless a comment says otherwise.
-/

namespace Verif
namespace Opt
variable {K : Type}

section Gradient
variable [Zero K] [One K] [Add K] [Sub K] [Mul K] [Neg K] [Div K] [NatCast K] [LE K] [LT K] [DecidableLE K] [DecidableLT K]

/-- `vector/vector.rs:147-155`, `-v` -/
def neg (v : Mat K) : Mat K := v.apply (fun x => -x)

/-- `*func.eval(&x).get(0)` -/
def obj (eval : Mat K → Option (Mat K)) (x : Mat K) : Option K := do
  let v ← eval x
  v.vget 0

/-- `func.jacobian(&x).get_row(0).transpose()` -/
def gradAt (jac : Mat K → Option (Mat K)) (x : Mat K) : Option (Mat K) := do
  let J ← jac x
  let r ← J.getRow 0
  r.transpose

/-- `optimization/gradient.rs:62-67`, `Gradient::new`: the pair `(sigma, iters)`, `none` is a failed assertion. -/
def gradientNew (sigma : K) (iters : Nat) : Option (K × Nat) :=
  if sigma ≤ 1 ∧ 0 < sigma ∧ 0 < iters then some (sigma, iters) else none

/-- `optimization/gradient.rs:82-98`: the backtracking loop; returns the accepted `alpha_k`. -/
def gradientSearch (eval : Mat K → Option (Mat K)) (sigma : K) (x ag : Mat K) : Nat → K → Option K
  | 0, _ => none
  | fuel + 1, alpha => do
    let aga := ag.mulScalar alpha
    let r ← x.add aga
    let fr ← obj eval r
    let d ← aga.dotp ag
    let b := sigma * d
    let fx ← obj eval x
    if fr ≤ fx - b then some alpha else gradientSearch eval sigma x ag fuel (alpha / 2)

/-- `optimization/gradient.rs:76-101`: one iteration of `Gradient::minimize`. -/
def gradientStep (eval jac : Mat K → Option (Mat K)) (sigma : K) (fuel : Nat) (x : Mat K) : Option (Mat K) := do
  let g ← gradAt jac x
  let ag := neg g
  let alpha ← gradientSearch eval sigma x ag fuel 1
  x.add (ag.mulScalar alpha)

/-- `optimization/gradient.rs:72-104`, `Gradient::minimize`. -/
def gradientMinimize (eval jac : Mat K → Option (Mat K)) (sigma : K) (iters fuel : Nat) (x0 : Mat K) :
    Option (Mat K) :=
  forRange 0 iters (fun x _ => gradientStep eval jac sigma fuel x) x0

end Gradient

section Newton
variable [Zero K] [One K] [Add K] [Sub K] [Mul K] [Neg K] [Div K] [NatCast K] [LinearOrder K]

/-- `optimization/newton.rs:84-106`: the search direction.  `res` is the result of `solve`, `none` its `Err`. -/
def newtonDir (rho : K) (grad : Mat K) (res : Option (Mat K)) : Option (Mat K) :=
  match res with
  | some d => do
    let ga ← grad.dotp grad
    let gd ← grad.dotp d
    if gd ≤ -rho * ga then some d else some (neg grad)
  | none => some (neg grad)

/-- `optimization/newton.rs:107-119`: the line search, first iterate included; returns the accepted `alpha`. -/
def newtonSearch (eval : Mat K → Option (Mat K)) (sigma : K) (x d : Mat K) (fx temp : K) : Nat → K → Option K
  | 0, _ => none
  | fuel + 1, alpha => do
    let r ← x.add (d.mulScalar alpha)
    let fr ← obj eval r
    if fr > fx + temp * (sigma * alpha) then newtonSearch eval sigma x d fx temp fuel (alpha / 2) else some alpha

/-- `optimization/newton.rs:82-122`: one iteration of `Newton::minimize`.  `solve` never returns `Err` in the native
    implementation, so the direction is always computed from an `Ok`. -/
def newtonMinStep (eval jac hess : Mat K → Option (Mat K)) (sigma rho : K) (fuel : Nat) (x : Mat K) :
    Option (Mat K) := do
  let H ← hess x
  let grad ← gradAt jac x
  let s ← H.solveV (neg grad)
  let d ← newtonDir rho grad (some s)
  let fx ← obj eval x
  let temp ← grad.dotp d
  let alpha ← newtonSearch eval sigma x d fx temp fuel 1
  x.add (d.mulScalar alpha)

/-- `optimization/newton.rs:77-127`, `Newton::minimize`. -/
def newtonMinimize (eval jac hess : Mat K → Option (Mat K)) (sigma rho : K) (iters fuel : Nat) (x0 : Mat K) :
    Option (Mat K) :=
  forRange 0 iters (fun x _ => newtonMinStep eval jac hess sigma rho fuel x) x0

end Newton

section CG
variable [Field K] [LinearOrder K]

/-- `optimization/conjugategradient.rs:137-149`: one iteration; returns the new `x_n`, `r_n_1` and `d_n`. -/
def cgStep (jac : Mat K → Option (Mat K)) (x r d : Mat K) : Option (Mat K × Mat K × Mat K) := do
  let J ← jac x
  let dt ← d.transpose
  let temp ← dt.vecMul J
  let rr ← r.dotp r
  let tt ← temp.transpose
  let td ← tt.dotp d
  let alpha ← Mat.fdiv rr td
  let x' ← x.add (d.mulScalar alpha)
  let Jd ← J.mulVec d
  let r' ← r.sub (Jd.mulScalar alpha)
  let rr' ← r'.dotp r'
  let beta ← Mat.fdiv rr' rr
  let d' ← r'.add (d.mulScalar beta)
  some (x', r', d')

/-- `optimization/conjugategradient.rs:135-158`: the loop with its `break`; `sqrt` is `pow(0.5)`. -/
def cgLoop (sqrt : K → K) (epsilon : K) (jac : Mat K → Option (Mat K)) : Nat → Mat K → Mat K → Mat K → Option (Mat K)
  | 0, x, _, _ => some x
  | iters + 1, x, r, d => do
    let (x', r', d') ← cgStep jac x r d
    let rr' ← r'.dotp r'
    if sqrt rr' < epsilon then some x' else cgLoop sqrt epsilon jac iters x' r' d'

/-- `optimization/conjugategradient.rs:128-161`, `ConjugateGradient::minimize`. -/
def cgMinimize (sqrt : K → K) (epsilon : K) (eval jac : Mat K → Option (Mat K)) (iters : Nat) (x0 : Mat K) :
    Option (Mat K) := do
  let d ← eval x0
  cgLoop sqrt epsilon jac iters x0 d d

end CG

section LM
variable [Zero K] [One K] [Add K] [Sub K] [Mul K] [Neg K] [Div K] [NatCast K] [LinearOrder K]

/-- `optimization/levenbergmarquardt.rs:70-103`: the inner loop; returns the accepted `d_n` and the new `mu_n`.
    The quotient of floats `numerator / denumerator` with a zero denominator is kept: it is `-inf` (below `beta_0`),
    `+inf` (above `beta_1`) or NaN (both comparisons false). -/
def lmSearch (eval jac : Mat K → Option (Mat K)) (beta0 beta1 : K) (x : Mat K) : Nat → K → Option (Mat K × K)
  | 0, _ => none
  | fuel + 1, mu => do
    let J ← jac x
    let Jt ← J.transpose
    let fx ← eval x
    let Jtf ← Jt.mulVec fx
    let p := neg Jtf
    let JtJ ← Jt.mul J
    let left ← JtJ.add (((Mat.one J.n).mulScalar mu).mulScalar mu)
    let d ← left.solveV p
    let x1 ← x.add d
    let fx1 ← eval x1
    let ff ← fx.dotp fx
    let ff1 ← fx1.dotp fx1
    let num := ff - ff1
    let Jd ← J.mulVec d
    let term ← fx.add Jd
    let tt ← term.dotp term
    let den := ff - tt
    let small := if den = 0 then decide (num < 0) else decide (num / den < beta0)
    let large := if den = 0 then decide (0 < num) else decide (beta1 < num / den)
    if small then lmSearch eval jac beta0 beta1 x fuel (mu * 2)
    else some (d, if large then mu / 2 else mu)

/-- `optimization/levenbergmarquardt.rs:61-107`, `LevenbergMarquardt::minimize`. -/
def lmMinimize (eval jac : Mat K → Option (Mat K)) (beta0 beta1 : K) (iters fuel : Nat) (x0 : Mat K) :
    Option (Mat K) := do
  let s ← forRange 0 iters (fun (s : Mat K × K) _ => do
    let (d, mu) ← lmSearch eval jac beta0 beta1 s.1 fuel s.2
    let x ← s.1.add d
    some (x, mu)) (x0, 1 / 2)
  some s.1

end LM

end Opt
end Verif
