import Verif.ContModel
import Verif.GammaFnModel

/-!
# Model of the elementary distributions for any type of numbers

The same formulas as in `ContModel.lean` and `DiscreteModel.lean`, for the reals and `Fl R`; the functions of the standard library are
parameters. All files are in `/repo/src/statistics/distrib`.
-/

namespace Verif
namespace Stat
variable {K : Type} [Zero K] [One K] [Add K] [Sub K] [Mul K] [Div K] [Neg K] [NatCast K] [OfScientific K] [LT K] [DecidableLT K]
  [LE K] [DecidableLE K]

/-- `exponential.rs:85-93`, `pdf` -/
def expoPdfG (exp : K → K) (l x : K) : K := if x < 0 then 0 else l * exp (-l * x)

/-- `exponential.rs:110-118`, `cdf` -/
def expoCdfG (exp : K → K) (l x : K) : K := if x < 0 then 0 else 1 - exp (-x * l)

/-- `exponential.rs:121-124`, `quantile`; `ln` as in `f64`, without a panic -/
def expoQuantileG (ln : K → K) (l p : K) : K := -ln (1 - p) / l

/-- `uniform.rs:76-86`, `pdf` -/
def uniformPdfG (a b x : K) : K := if a ≤ x ∧ x ≤ b then 1 / (b - a) else 0

/-- `uniform.rs:103-120`, `cdf` -/
def uniformCdfG (a b x : K) : K := if x < a then 0 else if x > b then 1 else (x - a) / (b - a)

/-- `uniform.rs:137-145`, `quantile` -/
def uniformQuantileG (a b q : K) : Option K := if q > 1 ∨ q < 0 then none else some (q * (b - a) + a)

/-- `normal.rs:119-125`, `pdf`; `sq x` is `x.pow(2.0)` -/
def normalPdfG (pi : K) (sqrt exp sq : K → K) (mean variance x : K) : K :=
  1 / sqrt (variance * 2.0 * pi) * exp (-0.5 * sq ((x - mean) / variance))

/-- `poisson.rs:72-76`, `pmf` -/
def poissonPmfG (exp : K → K) (pow : K → K → K) (g : K) (x : ℕ) : Option K := do
  let k_fact ← factorial x
  some (pow g (x : K) * exp (-g) / (k_fact : K))

/-- `binomial.rs:66-77`, `pmf` -/
def binomialPmfG (pow : K → K → K) (n : ℕ) (p : K) (x : ℕ) : Option K :=
  if x > n then some 0
  else do
    let f ← binom n x
    some ((f : K) * pow p (x : K) * pow (1 - p) ((n - x : ℕ) : K))

/-- `binomial.rs:94-104`, `cdf`; `floor` is `x.floor().to_u32()` -/
def binomialCdfG (floor : K → ℕ) (pow : K → K → K) (n : ℕ) (p x : K) : Option K :=
  if floor x + 1 < 2 ^ 32 then
    forRange 0 (floor x + 1) (fun (prob : K) k => do
      let q ← binomialPmfG pow n p k
      some (prob + q)) 0
  else none

/-- on the reals these are the functions of `ContModel.lean` and `DiscreteModel.lean` -/
theorem expoPdfG_real (l x : ℝ) : expoPdfG Real.exp l x = expoPdf l x := rfl
theorem expoCdfG_real (l x : ℝ) : expoCdfG Real.exp l x = expoCdf l x := rfl
theorem expoQuantileG_real (l p : ℝ) (hp : p < 1) : some (expoQuantileG Real.log l p) = expoQuantile l p := by
  unfold expoQuantile expoQuantileG
  rw [if_neg (by linarith)]
theorem uniformPdfG_real (d : ℝ × ℝ) (x : ℝ) : uniformPdfG d.1 d.2 x = uniformPdf d x := rfl
theorem uniformCdfG_real (d : ℝ × ℝ) (x : ℝ) : uniformCdfG d.1 d.2 x = uniformCdf d x := rfl
theorem uniformQuantileG_real (d : ℝ × ℝ) (q : ℝ) : uniformQuantileG d.1 d.2 q = uniformQuantile d q := rfl
theorem normalPdfG_real (d : ℝ × ℝ) (x : ℝ) :
    normalPdfG Real.pi Real.sqrt Real.exp (fun y => y ^ 2) d.1 d.2 x = normalPdf d x := by
  unfold normalPdfG normalPdf
  rw [show (2.0 : ℝ) = 2 by norm_num]
theorem poissonPmfG_real (g : ℝ) (x : ℕ) : poissonPmfG Real.exp (fun a b => a ^ b) g x = poissonPmf g x := by
  unfold poissonPmfG poissonPmf
  simp only [Real.rpow_natCast]
theorem binomialPmfG_real (n : ℕ) (p : ℝ) (x : ℕ) : binomialPmfG (fun a b => a ^ b) n p x = binomialPmf n p x := by
  unfold binomialPmfG binomialPmf
  simp only [Real.rpow_natCast]
theorem binomialCdfG_real (n : ℕ) (p x : ℝ) : binomialCdfG floorU32 (fun a b => a ^ b) n p x = binomialCdf n p x := by
  unfold binomialCdfG binomialCdf
  simp only [binomialPmfG_real]

end Stat
end Verif
