import Verif.IeeeFnModel
import Verif.GammaFnModel

/-!
# Model of `ln_gamma`, `gamma_u` and `erf` for any type of numbers

The functions of `SpecialModel.lean` once more, for any type of numbers with the operations of the code in their order, as
`gammaG` in `GammaFnModel.lean` and `gammaLrG` in `IeeeFnModel.lean`.  `div` and `ln` are partial on the reals and total on
floats.  The last theorems say that on the reals they are the functions of `SpecialModel.lean`.
-/

namespace Verif
namespace Special
variable {K : Type} [Zero K] [One K] [NatCast K] [Add K] [Sub K] [Mul K] [Div K] [Neg K] [OfScientific K] [DecidableEq K]
  [LE K] [DecidableLE K] [LT K] [DecidableLT K]

/-- `/repo/src/special/gamma.rs:290-300`, `gamma_dk` -/
def gammaDkG : List K :=
  [2.48574089138753565546e-5, 1.05142378581721974210, -3.45687097222016235469,
    4.51227709466894823700, -2.98285225323576655721, 1.05639711577126713077,
    -1.95428773191645869583e-1, 1.70970543404441224307e-2, -5.71926117404305781283e-4,
    4.63399473359905636708e-6, -2.71994908488607703910e-9]

/-- `/repo/src/special/gamma.rs:306-309` and `319-324`: the fold over `gamma_dk` from index 1 on, `den i` is the denominator of
the index `i` -/
def dkSumG (div : K → K → Option K) (den : ℕ → K) : Option K :=
  (gammaDkG.zipIdx.drop 1).foldlM (fun s t => do
    let q ← div t.1 (den t.2)
    some (s + q)) 2.48574089138753565546e-5

/-- `/repo/src/special/gamma.rs:284-330`, the method `ln_gamma`; `pi` and `e` are the constants `$PI` and `$E` -/
def lnGammaG (div : K → K → Option K) (ln : K → Option K) (pi e : K) (sin : K → K) (pow : K → K → K) (x : K) : Option K :=
  if x < 0.5 then do
    let s ← dkSumG div (fun i => (i : K) - x)
    let l0 ← ln pi
    let l1 ← ln (sin (pi * x))
    let l2 ← ln s
    let l3 ← ln (2.0 * pow (e / pi) 0.5)
    let l4 ← ln ((0.5 - x + 10.900511) / e)
    some (l0 - l1 - l2 - l3 - (0.5 - x) * l4)
  else do
    let s ← dkSumG div (fun i => x + (i : K) - 1.0)
    let l2 ← ln s
    let l3 ← ln (2.0 * pow (e / pi) 0.5)
    let l4 ← ln ((x - 0.5 + 10.900511) / e)
    some (l2 + l3 + (x - 0.5) * l4)

/-- `/repo/src/special/gamma.rs:376-379`, `gamma_ur`; `lr` is `gamma_lr` -/
def gammaUrG (lr : K → K → Option K) (a x : K) : Option K := do
  let v ← lr a x
  some (1 - v)

/-- `/repo/src/special/gamma.rs:371-374`, `gamma_u`; `gam` is `gamma` -/
def gammaUG (lr : K → K → Option K) (gam : K → Option K) (a x : K) : Option K := do
  let v ← gammaUrG lr a x
  let g ← gam a
  some (v * g)

/-- `/repo/src/algebra/abstr/sign.rs:31-39`, `sign` -/
def sgnG (x : K) : K := if 0 < x then 1 else if 0 ≤ x ∧ x ≤ 0 then 0 else -1

/-- `/repo/src/special/error.rs:72-79`, `erf` -/
def erfG (lr : K → K → Option K) (gam : K → Option K) (pi : K) (sqrt : K → K) (x : K) : Option K :=
  if x = 0 then some x
  else do
    let u ← gammaUG lr gam 0.5 (x * x)
    some (sgnG x * (1 - u / sqrt pi))

/-- `/repo/src/special/error.rs:81-84`, `erfc` -/
def erfcG (lr : K → K → Option K) (gam : K → Option K) (pi : K) (sqrt : K → K) (x : K) : Option K := do
  let e ← erfG lr gam pi sqrt x
  some (1 - e)

theorem dkSumG_real (den : ℕ → ℝ) : dkSumG R.div den = dkSum den := rfl

theorem lnGammaG_real (x : ℝ) : lnGammaG R.div R.ln Real.pi (Real.exp 1) Real.sin (· ^ ·) x = lnGamma x := by
  unfold lnGammaG lnGamma
  simp only [dkSumG_real, show (1.0 : ℝ) = 1 by norm_num, show (2.0 : ℝ) = 2 by norm_num,
    show R.ln Real.pi = some (Real.log Real.pi) from if_neg (not_le.2 Real.pi_pos), Option.bind_eq_bind, Option.bind_some]

theorem gammaUG_real (n : ℕ) (a x : ℝ) : gammaUG (gammaLr n) gamma a x = gammaU n a x := rfl

theorem erfG_real (n : ℕ) (x : ℝ) : erfG (gammaLr n) gamma Real.pi Real.sqrt x = erf n x := by
  unfold erfG erf sgnG sgn
  simp only [gammaUG_real, gt_iff_lt, ge_iff_le]

end Special
end Verif
