import Verif.RealFnModel
import Verif.MatModel

/-!
# Model of the example problems

`/repo/src/analysis/differential_equation/ordinary/problem.rs`. The `vector!` macro builds a column vector, `matrix!` a
matrix from its rows. Over `ℝ`; a division by zero (a moment of inertia that is zero, which the constructors never produce)
gives `none`.
-/

namespace Verif
namespace Ode
open Mat

/-- `problem.rs:17-25`, the moments of inertia of `struct Euler`. -/
structure Euler where
  i1 : ℝ
  i2 : ℝ
  i3 : ℝ

/-- `problem.rs:27-37`, `default` -/
noncomputable def Euler.default : Euler := ⟨0.5, 2.0, 3.0⟩
/-- `problem.rs:34`, `time_span` of the default problem -/
noncomputable def Euler.timeSpan : ℝ × ℝ := (0.0, 20.0)
/-- `problem.rs:35`, `init_cond` of the default problem -/
noncomputable def Euler.initCond : Mat ℝ := ⟨3, 1, [1.0, 0.0, 0.9]⟩

/-- `problem.rs:46-54`, `80-88`: the external force. -/
noncomputable def eulerForce (x : ℝ) : ℝ :=
  if x ≥ 3.0 * Real.pi ∧ x ≤ 4.0 * Real.pi then 0.25 * Real.sin x * Real.sin x else 0

/-- `problem.rs:41-57`, `ExplicitODE::func` -/
noncomputable def Euler.func (e : Euler) (x : ℝ) (y : Mat ℝ) : Option (Mat ℝ) := do
  let q1 ← R.div (e.i2 - e.i3) e.i1
  let y1 ← y.vget 1
  let y2 ← y.vget 2
  let a := q1 * (y1 * y2)
  let q2 ← R.div (e.i3 - e.i1) e.i2
  let y0 ← y.vget 0
  let b := q2 * (y2 * y0)
  let q3 ← R.div (e.i1 - e.i2) e.i3
  let c := q3 * (y0 * y1) + eulerForce x
  some ⟨3, 1, [a, b, c]⟩

/-- `problem.rs:72-92`, `ImplicitODE::func` -/
noncomputable def Euler.funcI (e : Euler) (x : ℝ) (y : Mat ℝ) : Option (Mat ℝ) := do
  let a ← R.div (e.i2 - e.i3) e.i1
  let b ← R.div (e.i3 - e.i1) e.i2
  let c ← R.div (e.i1 - e.i2) e.i3
  let y1 ← y.vget 1
  let y2 ← y.vget 2
  let y0 ← y.vget 0
  some ⟨3, 1, [a * (y1 * y2), b * (y2 * y0), c * (y0 * y1) + eulerForce x]⟩

/-- `problem.rs:94-103`, `jacobian`; the rows of the source are the rows here, stored by columns. -/
noncomputable def Euler.jacobian (e : Euler) (_x : ℝ) (y : Mat ℝ) : Option (Mat ℝ) := do
  let a ← R.div (e.i2 - e.i3) e.i1
  let b ← R.div (e.i3 - e.i1) e.i2
  let c ← R.div (e.i1 - e.i2) e.i3
  let y0 ← y.vget 0
  let y1 ← y.vget 1
  let y2 ← y.vget 2
  some ⟨3, 3, [0, b * y2, c * y1, a * y2, 0, c * y0, a * y1, b * y0, 0]⟩

/-- `problem.rs:149-154`, `VanDerPolOsc::func` with `epsilon = eps` -/
noncomputable def vdpFunc (eps : ℝ) (_t : ℝ) (x : Mat ℝ) : Option (Mat ℝ) := do
  let x1 ← x.vget 0
  let x2 ← x.vget 1
  some ⟨2, 1, [x2, eps * (1 - x1 * x1) * x2 - x1]⟩

/-- `problem.rs:156-162`, `VanDerPolOsc::jacobian` -/
noncomputable def vdpJacobian (eps : ℝ) (_t : ℝ) (x : Mat ℝ) : Option (Mat ℝ) := do
  let x1 ← x.vget 0
  let x2 ← x.vget 1
  some ⟨2, 2, [0, -2.0 * eps * x1 * x2 - 1, 1, (1 - x1 * x1) * eps]⟩

end Ode
end Verif
