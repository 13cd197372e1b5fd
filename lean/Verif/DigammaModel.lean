import Verif.LnGammaModel
import Verif.DistModel

/-!
# Model of `digamma` and of the entropy of the gamma distribution for any type of numbers

The functions of `SpecialModel.lean` and `DistModel.lean` once more, for any type of numbers with the operations of the code in their
order.  `div` is partial on the reals and total on floats.
-/

namespace Verif
namespace Special
variable {K : Type} [Zero K] [One K] [Add K] [Sub K] [Mul K] [Div K] [OfScientific K] [LT K] [DecidableLT K]

/-- `/repo/src/special/gamma.rs:340-344`: the `while` loop of `digamma`, result `(value, x2)`; `none` also when the fuel is used up -/
def digammaLoopG (div : K → K → Option K) : ℕ → K → K → Option (K × K)
  | 0, value, x2 => if x2 < 8.5 then none else some (value, x2)
  | n + 1, value, x2 =>
    if x2 < 8.5 then do
      let q ← div 1.0 x2
      digammaLoopG div n (value - q) (x2 + 1.0)
    else some (value, x2)

/-- `/repo/src/special/gamma.rs:334-369`, `digamma`; after the loop `x2` is not zero -/
def digammaG (div : K → K → Option K) (ln : K → K) (fuel : ℕ) (x : K) : Option K := do
  let s ← digammaLoopG div fuel 0.0 x
  let r := 1.0 / s.2
  let value := s.1 + ln s.2 - 0.5 * r
  let r := r * r
  some (value - r * (1.0 / 12.0 - r * (1.0 / 120.0 - r * (1.0 / 252.0 - r * (1.0 / 240.0 - r * (1.0 / 132.0
    - r * (691.0 / 32760.0 - r * (1.0 / 12.0))))))))

theorem digammaLoopG_real (n : ℕ) (v x : ℝ) : digammaLoopG Verif.R.div n v x = digammaLoop n v x := by
  induction n generalizing v x with
  | zero => rfl
  | succ n ih =>
    simp only [digammaLoopG, digammaLoop, ih]
    rw [show (1.0 : ℝ) = 1 by norm_num]

/-- on the reals this is the function of `SpecialModel.lean` -/
theorem digammaG_real (n : ℕ) (x : ℝ) : digammaG Verif.R.div Real.log n x = digamma n x := by
  unfold digammaG digamma
  rw [digammaLoopG_real, show (0.0 : ℝ) = 0 by norm_num]
  cases digammaLoop n 0 x with
  | none => rfl
  | some s =>
    simp only [Option.bind_eq_bind, Option.bind_some, Option.some.injEq, stirling]
    norm_num
    ring

end Special

namespace Stat
open Special
variable {K : Type} [One K] [Add K] [Sub K] [Mul K]

/-- `/repo/src/statistics/distrib/gamma.rs:147-152`, `entropy`; `gam` and `dig` are `gamma` and `digamma` -/
def gammaEntropyG (ln : K → Option K) (gam dig : K → Option K) (alpha beta : K) : Option K := do
  let lb ← ln beta
  let g ← gam alpha
  let lg ← ln g
  let ps ← dig alpha
  some (alpha - lb + lg + (1 - alpha) * ps)

/-- on the reals this is the function of `DistModel.lean` -/
theorem gammaEntropyG_real (n : ℕ) (d : ℝ × ℝ) : gammaEntropyG Verif.R.ln gamma (digamma n) d.1 d.2 = gammaEntropy n d := rfl

end Stat
end Verif
