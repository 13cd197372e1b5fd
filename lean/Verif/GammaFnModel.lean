import Verif.IeeeModel
import Verif.SpecialModel

/-!
# Model of `gamma` for any type of numbers

`SpecialModel.gamma` is about the reals.  Here is the same formula for any type of numbers with the operations of the code in
their order: it runs on the reals, on `Fl R` (rounded, without overflow) and on `Ie p e` (`f32` and `f64` with overflow).
`div` is the division of the last step (partial on the reals), `pi`, `sqrt`, `exp`, `sin` and `pow` stand for the constant and
the functions of the standard library.
-/

namespace Verif

/-- the decimal literals of the source: correctly rounded (`FloatModel.lean`) -/
instance {K : Type} [Field K] [LinearOrder K] {R : Rounding K} : OfScientific (Fl R) :=
  ⟨fun m s x => ⟨R.rnd (OfScientific.ofScientific m s x)⟩⟩

namespace Special
variable {K : Type} [Zero K] [Add K] [Sub K] [Mul K] [Div K] [Neg K] [OfScientific K] [DecidableEq K] [LT K] [DecidableLT K]

/-- `/repo/src/special/gamma.rs:269-276`, the Lanczos sum `x` -/
def lanczosSumG (z : K) : K :=
  0.99999999999980993 + 676.5203681218851 / z
    - 1259.1392167224028 / (z + 1.0)
    + 771.32342877765313 / (z + 2.0)
    - 176.61502916214059 / (z + 3.0)
    + 12.507343278686905 / (z + 4.0)
    - 0.13857109526572012 / (z + 5.0)
    + 9.9843695780195716e-6 / (z + 6.0)
    + 1.5056327351493116e-7 / (z + 7.0)

/-- `/repo/src/special/gamma.rs:268-281`, the part of `gamma` for arguments `≥ 0.5` -/
def lanczosG (pi : K) (sqrt exp : K → K) (pow : K → K → K) (z : K) : K :=
  let t := z + 6.5
  sqrt 2.0 * sqrt pi * pow t (z - 0.5) * exp (-t) * lanczosSumG z

/-- `/repo/src/special/gamma.rs:256-282`, `gamma`.  The recursive call has an argument of at least `0.5`, so it is the last
part of the function. -/
def gammaG (div : K → K → Option K) (pi : K) (sqrt exp sin : K → K) (pow : K → K → K) (z : K) : Option K :=
  if z = 0 then none
  else if z < 0.5 then div pi (sin (pi * z) * lanczosG pi sqrt exp pow (1.0 - z))
  else some (lanczosG pi sqrt exp pow z)

/-- on the reals this is the sum of `SpecialModel.lean` -/
theorem lanczosSumG_real (z : ℝ) : lanczosSumG z = lanczosSum z := by
  unfold lanczosSumG lanczosSum
  norm_num

theorem lanczosG_real (z : ℝ) : lanczosG Real.pi Real.sqrt Real.exp (· ^ ·) z = lanczos z := by
  unfold lanczosG lanczos
  rw [lanczosSumG_real]
  norm_num

/-- on the reals this is the function of `SpecialModel.lean` -/
theorem gammaG_real (z : ℝ) : gammaG R.div Real.pi Real.sqrt Real.exp Real.sin (· ^ ·) z = gamma z := by
  unfold gammaG gamma
  rw [lanczosG_real, lanczosG_real]
  norm_num

end Special
end Verif
