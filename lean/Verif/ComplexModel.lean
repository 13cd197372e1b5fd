import Verif.RealFnModel
import Mathlib.Analysis.SpecialFunctions.Complex.Arg

/-!
# Model of `Complex<T>`

`/repo/src/num/complex.rs`. The arithmetic is over any field; the transcendental functions are over `ℝ`. `none` is
a panic, or a component that is an infinity or NaN. There is no negative zero.
-/

namespace Verif

/-- `complex.rs:51-60`, `struct Complex` -/
structure Cx (K : Type) where
  re : K
  im : K
deriving DecidableEq

namespace Cx
section Field
variable {K : Type} [Zero K] [One K] [Neg K] [Add K] [Sub K] [Mul K] [Div K]

/-- `complex.rs:71-80` -/
def neg (a : Cx K) : Cx K := ⟨-a.re, -a.im⟩
/-- `complex.rs:97-103` -/
def conj (a : Cx K) : Cx K := ⟨a.re, -a.im⟩
/-- `complex.rs:440-446` -/
def zero : Cx K := ⟨0, 0⟩
/-- `complex.rs:484-490` -/
def one : Cx K := ⟨1, 0⟩
/-- `complex.rs:451-460`; the reference and assigning variants are the same. -/
def add (a b : Cx K) : Cx K := ⟨a.re + b.re, a.im + b.im⟩
/-- `complex.rs:533-553` -/
def sub (a b : Cx K) : Cx K := ⟨a.re - b.re, a.im - b.im⟩
/-- `complex.rs:495-505` -/
def mul (a b : Cx K) : Cx K := ⟨a.re * b.re - a.im * b.im, a.im * b.re + a.re * b.im⟩
/-- `complex.rs:1291-1298`, `Magma<Multiplication>::operate` -/
def operate (a b : Cx K) : Cx K := ⟨a.re * b.re - a.im * b.im, a.re * b.im + a.im * b.re⟩
/-- `complex.rs:575-591` -/
def div [DecidableEq K] (a b : Cx K) : Option (Cx K) :=
  let divisor := b.re * b.re + b.im * b.im
  if divisor = 0 then none
  else
    let quot := a.mul ⟨b.re, -b.im⟩
    some ⟨quot.re / divisor, quot.im / divisor⟩

end Field

open Classical

/-- `complex.rs:389-394`, `abs`; the imaginary part of the result is zero. `root(2)` is `powf(1/2)`. -/
noncomputable def abs (a : Cx ℝ) : Cx ℝ := ⟨Real.sqrt (a.re * a.re + a.im * a.im), 0⟩
/-- `complex.rs:106-110`, `arg` -/
noncomputable def arg (a : Cx ℝ) : Cx ℝ := ⟨R.arctan2 a.im a.re, 0⟩
/-- `complex.rs:665-670`, `exp` -/
noncomputable def exp (a : Cx ℝ) : Cx ℝ :=
  let k := Real.exp a.re
  ⟨k * Real.cos a.im, k * Real.sin a.im⟩
/-- `complex.rs:684-688`, `ln` -/
noncomputable def ln (a : Cx ℝ) : Option (Cx ℝ) := do
  let l ← R.ln a.abs.re
  some ⟨l, a.arg.re⟩
/-- `complex.rs:1074-1083`, `pow`. For the base zero `r.ln()` is minus infinity, whose product with the imaginary
    part of the exponent is an infinity or (for a real exponent) a NaN, and so is the result. -/
noncomputable def pow (a e : Cx ℝ) : Option (Cx ℝ) := do
  let r := a.abs.re
  let phi := a.arg.re
  let l ← R.ln r
  let k := r ^ e.re * Real.exp (-e.im * phi)
  let theta := l * e.im + e.re * phi
  some ⟨k * Real.cos theta, k * Real.sin theta⟩

/-- `complex.rs:718-725` -/
noncomputable def sin (z : Cx ℝ) : Option (Cx ℝ) :=
  let a : Cx ℝ := ⟨-z.im, z.re⟩
  let b : Cx ℝ := ⟨z.im, -z.re⟩
  (a.exp.sub b.exp).div ⟨0, 1 + 1⟩
/-- `complex.rs:745-752` -/
noncomputable def cos (z : Cx ℝ) : Option (Cx ℝ) :=
  let a : Cx ℝ := ⟨-z.im, z.re⟩
  let b : Cx ℝ := ⟨z.im, -z.re⟩
  (a.exp.add b.exp).div ⟨1 + 1, 0⟩
/-- `complex.rs:779-782` -/
noncomputable def tan (z : Cx ℝ) : Option (Cx ℝ) := do
  let s ← z.sin
  let c ← z.cos
  s.div c
/-- `complex.rs:799-802` -/
noncomputable def cot (z : Cx ℝ) : Option (Cx ℝ) := do
  let t ← z.tan
  one.div t
/-- `complex.rs:819-822` -/
noncomputable def sec (z : Cx ℝ) : Option (Cx ℝ) := do
  let t ← z.cos
  one.div t
/-- `complex.rs:839-842` -/
noncomputable def csc (z : Cx ℝ) : Option (Cx ℝ) := do
  let t ← z.sin
  one.div t
/-- `complex.rs:861-868` -/
noncomputable def arcsin (z : Cx ℝ) : Option (Cx ℝ) := do
  let mi : Cx ℝ := ⟨0, -1⟩
  let iz : Cx ℝ := ⟨-z.im, z.re⟩
  let r ← (one.sub (z.mul z)).pow ⟨1 / (1 + 1), 0⟩
  let l ← (iz.add r).ln
  some (mi.mul l)
/-- `complex.rs:886-889` -/
noncomputable def arccos (z : Cx ℝ) : Option (Cx ℝ) := do
  let s ← z.arcsin
  some (Cx.sub ⟨Real.pi / (1 + 1), 0⟩ s)
/-- `complex.rs:921-956`: the real part of `arctan`. -/
noncomputable def arctanRe (z : Cx ℝ) : ℝ :=
  if z.re = 0 then
    if |z.im| ≤ 1 then 0
    else if z.im > 0 then Real.pi / 2 else -Real.pi / 2
  else if z.re > 0 then
    (R.arctan ((z.re * z.re + z.im * z.im - 1) / (2 * z.re)) + Real.pi / 2) / 2
  else
    (R.arctan ((z.re * z.re + z.im * z.im - 1) / (2 * z.re)) - Real.pi / 2) / 2
/-- `complex.rs:912-963`, `arctan`; the real `artanh` panics at `z = ±i`. -/
noncomputable def arctan (z : Cx ℝ) : Option (Cx ℝ) := do
  let t ← R.artanh ((2 * z.im) / (z.re * z.re + z.im * z.im + 1))
  some ⟨z.arctanRe, t / 2⟩
/-- `complex.rs:990-1000` -/
noncomputable def arccot (z : Cx ℝ) : Option (Cx ℝ) :=
  if z.re = 0 ∧ (z.im = 1 ∨ z.im = -1) then none else do
    let q ← one.div z
    q.arctan
/-- `complex.rs:1022-1033` -/
noncomputable def arcsec (z : Cx ℝ) : Option (Cx ℝ) :=
  if z.im = 0 ∧ (z.re = -1 ∨ z.re = 0 ∨ z.re = 1) then none else do
    let q ← one.div z
    q.arccos
/-- `complex.rs:1053-1056` -/
noncomputable def arccsc (z : Cx ℝ) : Option (Cx ℝ) := do
  let q ← one.div z
  q.arcsin

/-- `complex.rs:1099-1102` -/
noncomputable def sinh (z : Cx ℝ) : Option (Cx ℝ) := do
  let s ← sin ⟨-z.im, z.re⟩
  some (Cx.mul ⟨0, -1⟩ s)
/-- `complex.rs:1105-1108` -/
noncomputable def cosh (z : Cx ℝ) : Option (Cx ℝ) := cos ⟨-z.im, z.re⟩
/-- `complex.rs:1111-1114` -/
noncomputable def tanh (z : Cx ℝ) : Option (Cx ℝ) := do
  let s ← z.sinh
  let c ← z.cosh
  s.div c
/-- `complex.rs:1117-1120` -/
noncomputable def coth (z : Cx ℝ) : Option (Cx ℝ) := do
  let c ← z.cosh
  let s ← z.sinh
  c.div s
/-- `complex.rs:1123-1126` -/
noncomputable def sech (z : Cx ℝ) : Option (Cx ℝ) := sec ⟨-z.im, z.re⟩
/-- `complex.rs:1129-1132` -/
noncomputable def csch (z : Cx ℝ) : Option (Cx ℝ) := do
  let c ← csc ⟨-z.im, z.re⟩
  some (Cx.mul ⟨0, -1⟩ c)
/-- `complex.rs:1139-1143` -/
noncomputable def arsinh (z : Cx ℝ) : Option (Cx ℝ) := do
  let r ← ((z.mul z).add one).pow ⟨1 / (1 + 1), 0⟩
  (z.add r).ln
/-- `complex.rs:1150-1154` -/
noncomputable def arcosh (z : Cx ℝ) : Option (Cx ℝ) := do
  let r ← ((z.mul z).sub one).pow ⟨1 / (1 + 1), 0⟩
  (z.add r).ln
/-- `complex.rs:1161-1165` -/
noncomputable def artanh (z : Cx ℝ) : Option (Cx ℝ) := do
  let q ← (one.add z).div (one.sub z)
  let l ← q.ln
  some (l.mul ⟨1 / (1 + 1), 0⟩)
/-- `complex.rs:1173-1177` -/
noncomputable def arcoth (z : Cx ℝ) : Option (Cx ℝ) := do
  let q ← (z.add one).div (z.sub one)
  let l ← q.ln
  some (l.mul ⟨1 / (1 + 1), 0⟩)
/-- `complex.rs:1180-1183` -/
noncomputable def arsech (z : Cx ℝ) : Option (Cx ℝ) := do
  let q ← one.div z
  q.arcosh
/-- `complex.rs:1186-1189` -/
noncomputable def arcsch (z : Cx ℝ) : Option (Cx ℝ) := do
  let q ← one.div z
  q.arsinh

end Cx
end Verif
