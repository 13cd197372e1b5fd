import Verif.DistModel
import Verif.GammaFnModel

/-!
# Model of `beta` and the densities that use `gamma`, for any type of numbers

The same formulas as in `SpecialModel.lean` and `DistModel.lean`, for the reals, `Fl R` and `Ie p e`.  `gam` is `gamma`, `div` and
`pow` are partial because they are so on the reals.
-/

namespace Verif
namespace Special
variable {K : Type} [Zero K] [One K] [Add K] [Sub K] [Mul K] [Neg K] [OfScientific K]

/-- `/repo/src/special/beta.rs:109-112`, `beta` -/
def betaG (div : K → K → Option K) (gam : K → Option K) (x y : K) : Option K := do
  let gx ← gam x
  let gy ← gam y
  let gxy ← gam (x + y)
  div (gx * gy) gxy

/-- `/repo/src/statistics/distrib/t.rs:74-79`, `pdf` -/
def tPdfG (div : K → K → Option K) (gam : K → Option K) (pow : K → K → Option K) (sqrt : K → K) (pi : K) (n x : K) :
    Option K := do
  let a ← div (n + 1) 2.0
  let g1 ← gam a
  let q ← div (x * x) n
  let w ← pow (1 + q) (-a)
  let b ← div n 2.0
  let g2 ← gam b
  div (g1 * w) (sqrt (n * pi) * g2)

/-- `/repo/src/statistics/distrib/chisquare.rs:70-83`, `pdf`; `k` is the float with the value of the degrees of freedom -/
def chiPdfG [LT K] [DecidableLT K] (div : K → K → Option K) (gam : K → Option K) (pow : K → K → Option K) (exp : K → K)
    (k x : K) : Option K :=
  if x < 0 then some 0
  else do
    let d ← div k 2.0
    let w ← pow 2.0 d
    let g ← gam d
    let t1 ← div 1 (w * g)
    let y ← pow x (d - 1)
    let v ← div (-x) 2.0
    some (t1 * (y * exp v))

/-- `/repo/src/statistics/distrib/gamma.rs:71-80`, `pdf` -/
def gammaPdfG [LE K] [DecidableLE K] (div : K → K → Option K) (gam : K → Option K) (pow : K → K → Option K) (exp : K → K)
    (alpha beta x : K) : Option K :=
  if x ≤ 0 then none
  else do
    let w ← pow beta alpha
    let g ← gam alpha
    let q ← div w g
    let y ← pow x (alpha - 1)
    some (q * y * exp (-beta * x))

/-- `/repo/src/statistics/distrib/beta.rs:65-77`, `pdf` -/
def betaPdfG [LT K] [DecidableLT K] (div : K → K → Option K) (gam : K → Option K) (pow : K → K → Option K) (p q x : K) :
    Option K :=
  if x < 0 then none
  else if x > 1 then some 1
  else do
    let w1 ← pow x (p - 1)
    let w2 ← pow (1 - x) (q - 1)
    let b ← betaG div gam p q
    div (w1 * w2) b

/-- on the reals these are the functions of `SpecialModel.lean` and `DistModel.lean` -/
theorem betaG_real (x y : ℝ) : betaG R.div gamma x y = beta x y := rfl

theorem tPdfG_real (n x : ℝ) : tPdfG R.div gamma R.powf Real.sqrt Real.pi n x = Stat.tPdf n x := by
  unfold tPdfG Stat.tPdf
  have h : ∀ a : ℝ, R.div a 2.0 = some (a / 2) := fun a => by unfold R.div; norm_num
  simp only [h, Option.bind_eq_bind, Option.bind_some]

theorem chiPdfG_real (k : ℕ) (x : ℝ) : chiPdfG R.div gamma R.powf Real.exp (k : ℝ) x = Stat.chiPdf k x := by
  unfold chiPdfG Stat.chiPdf
  have h : ∀ a : ℝ, R.div a 2 = some (a / 2) := fun a => by unfold R.div; norm_num
  have h2 : (2.0 : ℝ) = 2 := by norm_num
  simp only [h, h2, Option.bind_eq_bind, Option.bind_some]

theorem gammaPdfG_real (a b x : ℝ) : gammaPdfG R.div gamma R.powf Real.exp a b x = Stat.gammaPdf (a, b) x := rfl

theorem betaPdfG_real (p q x : ℝ) : betaPdfG R.div gamma R.powf p q x = Stat.betaPdf (p, q) x := by
  unfold betaPdfG Stat.betaPdf
  simp only [betaG_real]

end Special
end Verif
