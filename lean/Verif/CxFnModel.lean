import Verif.ComplexModel

/-!
# Model of the functions of complex numbers for any type of numbers

The functions of `ComplexModel.lean` once more, for any type of numbers with the operations of the code in their order; the functions of
the real parts (`exp`, `cos`, `sin`, `root(2)`, `ln`, `arctan2`) are arguments.
-/

namespace Verif
namespace Cx
variable {K : Type} [Zero K] [One K] [Neg K] [Add K] [Sub K] [Mul K] [Div K] [DecidableEq K]

/-- `/repo/src/num/complex.rs:389-394`, `abs`; `root x` is `x.root(2.0)` -/
def absG (root : K → K) (a : Cx K) : Cx K := ⟨root (a.re * a.re + a.im * a.im), 0⟩

/-- `/repo/src/num/complex.rs:106-110`, `arg` -/
def argG (atan2 : K → K → K) (a : Cx K) : Cx K := ⟨atan2 a.im a.re, 0⟩

/-- `/repo/src/num/complex.rs:665-670`, `exp` -/
def expG (exp cos sin : K → K) (a : Cx K) : Cx K :=
  let k := exp a.re
  ⟨k * cos a.im, k * sin a.im⟩

/-- `/repo/src/num/complex.rs:684-688`, `ln` -/
def lnG (root : K → K) (ln : K → Option K) (atan2 : K → K → K) (a : Cx K) : Option (Cx K) := do
  let l ← ln (a.absG root).re
  some ⟨l, (a.argG atan2).re⟩

/-- `/repo/src/num/complex.rs:718-725`, `sin` -/
def sinG (exp cos sin : K → K) (z : Cx K) : Option (Cx K) :=
  let a : Cx K := ⟨-z.im, z.re⟩
  let b : Cx K := ⟨z.im, -z.re⟩
  ((a.expG exp cos sin).sub (b.expG exp cos sin)).div ⟨0, 1 + 1⟩

/-- `/repo/src/num/complex.rs:745-752`, `cos` -/
def cosG (exp cos sin : K → K) (z : Cx K) : Option (Cx K) :=
  let a : Cx K := ⟨-z.im, z.re⟩
  let b : Cx K := ⟨z.im, -z.re⟩
  ((a.expG exp cos sin).add (b.expG exp cos sin)).div ⟨1 + 1, 0⟩

/-- `/repo/src/num/complex.rs:1099-1102`, `sinh` -/
def sinhG (exp cos sin : K → K) (z : Cx K) : Option (Cx K) := do
  let s ← sinG exp cos sin ⟨-z.im, z.re⟩
  some (Cx.mul ⟨0, -1⟩ s)

/-- `/repo/src/num/complex.rs:1105-1108`, `cosh` -/
def coshG (exp cos sin : K → K) (z : Cx K) : Option (Cx K) := cosG exp cos sin ⟨-z.im, z.re⟩

section
open Classical

/-- on the reals these are the functions of `ComplexModel.lean` -/
theorem expG_real (z : Cx ℝ) : z.expG Real.exp Real.cos Real.sin = z.exp := rfl

theorem absG_real (z : Cx ℝ) : z.absG Real.sqrt = z.abs := rfl

theorem lnG_real (z : Cx ℝ) : z.lnG Real.sqrt R.ln R.arctan2 = z.ln := rfl

theorem sinG_real (z : Cx ℝ) : z.sinG Real.exp Real.cos Real.sin = z.sin := by
  simp only [sinG, sin, expG_real]

theorem cosG_real (z : Cx ℝ) : z.cosG Real.exp Real.cos Real.sin = z.cos := by
  simp only [cosG, cos, expG_real]

theorem sinhG_real (z : Cx ℝ) : z.sinhG Real.exp Real.cos Real.sin = z.sinh := by
  simp only [sinhG, sinh, sinG_real]

theorem coshG_real (z : Cx ℝ) : z.coshG Real.exp Real.cos Real.sin = z.cosh := by
  simp only [coshG, cosh, cosG_real]

end
end Cx
end Verif
