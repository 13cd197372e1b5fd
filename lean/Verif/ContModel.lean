import Verif.DiscreteModel
import Mathlib.Analysis.SpecialFunctions.Pow.Real
import Mathlib.Analysis.SpecialFunctions.Trigonometric.Basic
import Mathlib.Analysis.Real.Sqrt

/-!
# Model of the Poisson, uniform, exponential, raised cosine, normal and log-normal distributions

`/repo/src/statistics/distrib`.  Floats are real numbers; `exp`, `ln`, `sin`, `cos`, `sqrt`, `pi`, `e` are the real
functions and constants.  A panic is `none`, and so are a division by zero and a logarithm of a number `≤ 0`
(infinities and NaNs in Rust).  `x.pow(2.0)` is the square.  `random` is in `RandomModel`.
A distribution object is the tuple of its parameters, checked by `new`.
-/

namespace Verif
namespace Stat

/-! ## Poisson, `poisson.rs` -/

/-- `poisson.rs:43-51`, `new` -/
def poissonNew {K : Type} [Zero K] [LE K] [DecidableLE K] (g : K) : Option K := if g ≤ 0 then none else some g

/-- `poisson.rs:72-76`, `pmf` -/
noncomputable def poissonPmf (g : ℝ) (x : ℕ) : Option ℝ := do
  let k_fact ← factorial x
  some (g ^ x * Real.exp (-g) / (k_fact : ℝ))

/-- `poisson.rs:93-96`, `cdf`; `gammaUr` is the regularised upper incomplete gamma function of `special::gamma`.
`x + 1` overflows for the largest `u32`. -/
noncomputable def poissonCdf (gammaUr : ℝ → ℝ → Option ℝ) (g : ℝ) (x : ℕ) : Option ℝ :=
  if x + 1 < 2 ^ 32 then gammaUr ((x + 1 : ℕ) : ℝ) g else none

/-- `poisson.rs:108-111`, `mean` -/
def poissonMean (g : ℝ) : ℝ := g

/-- `poisson.rs:123-126`, `variance` -/
def poissonVariance (g : ℝ) : ℝ := g

/-! ## Uniform, `uniform.rs` -/

/-- `uniform.rs:39-47`, `new` -/
def uniformNew {K : Type} [LE K] [DecidableLE K] (a b : K) : Option (K × K) := if a ≥ b then none else some (a, b)

/-- `uniform.rs:76-86`, `pdf` -/
noncomputable def uniformPdf (d : ℝ × ℝ) (x : ℝ) : ℝ := if d.1 ≤ x ∧ x ≤ d.2 then 1 / (d.2 - d.1) else 0

/-- `uniform.rs:103-120`, `cdf` -/
noncomputable def uniformCdf (d : ℝ × ℝ) (x : ℝ) : ℝ :=
  if x < d.1 then 0 else if x > d.2 then 1 else (x - d.1) / (d.2 - d.1)

/-- `uniform.rs:137-145`, `quantile` -/
noncomputable def uniformQuantile (d : ℝ × ℝ) (q : ℝ) : Option ℝ :=
  if q > 1 ∨ q < 0 then none else some (q * (d.2 - d.1) + d.1)

/-- `uniform.rs:161-164`, `mean` -/
noncomputable def uniformMean (d : ℝ × ℝ) : ℝ := (d.1 + d.2) / 2

/-- `uniform.rs:176-179`, `variance` -/
noncomputable def uniformVariance (d : ℝ × ℝ) : ℝ := (d.2 - d.1) * (d.2 - d.1) / 12

/-- `uniform.rs:192-195`, `skewness` -/
noncomputable def uniformSkewness (_ : ℝ × ℝ) : ℝ := 0

/-- `uniform.rs:211-214`, `median` -/
noncomputable def uniformMedian (d : ℝ × ℝ) : ℝ := uniformMean d

/-- `uniform.rs:230-233`, `entropy` -/
noncomputable def uniformEntropy (d : ℝ × ℝ) : ℝ := Real.log (d.2 - d.1)

/-! ## Exponential, `exponential.rs` -/

/-- `exponential.rs:38-46`, `new` -/
def expoNew {K : Type} [Zero K] [LE K] [DecidableLE K] (l : K) : Option K := if l ≤ 0 then none else some l

/-- `exponential.rs:85-93`, `pdf` -/
noncomputable def expoPdf (l x : ℝ) : ℝ := if x < 0 then 0 else l * Real.exp (-l * x)

/-- `exponential.rs:110-118`, `cdf` -/
noncomputable def expoCdf (l x : ℝ) : ℝ := if x < 0 then 0 else 1 - Real.exp (-x * l)

/-- `exponential.rs:121-124`, `quantile`; the logarithm of a number `≤ 0` is `none` -/
noncomputable def expoQuantile (l p : ℝ) : Option ℝ := if 1 - p ≤ 0 then none else some (-Real.log (1 - p) / l)

/-- `exponential.rs:136-139`, `mean` -/
noncomputable def expoMean (l : ℝ) : ℝ := 1 / l

/-- `exponential.rs:151-154`, `variance` -/
noncomputable def expoVariance (l : ℝ) : ℝ := 1 / l ^ 2

/-- `exponential.rs:157-160`, `skewness` -/
noncomputable def expoSkewness (_ : ℝ) : ℝ := 2

/-- `exponential.rs:163-166`, `median` -/
noncomputable def expoMedian (l : ℝ) : ℝ := Real.log 2 / l

/-- `exponential.rs:169-172`, `entropy` -/
noncomputable def expoEntropy (l : ℝ) : ℝ := 1 - Real.log l

/-! ## Raised cosine, `raisedcosine.rs` -/

/-- `raisedcosine.rs:42-49`, `new` -/
def rcosNew {K : Type} [Zero K] [LT K] [DecidableLT K] (mu s : K) : Option (K × K) := if s < 0 then none else some (mu, s)

/-- `raisedcosine.rs:73-82`, `pdf`; with `s = 0` the interval is empty -/
noncomputable def rcosPdf (d : ℝ × ℝ) (x : ℝ) : ℝ :=
  if d.1 - d.2 ≤ x ∧ x < d.1 + d.2 then (1 + Real.cos (Real.pi * (x - d.1) / d.2)) / (2 * d.2) else 0

/-- `raisedcosine.rs:99-117`, `cdf`; with `s = 0` the division `0 / 0` at `x = mu` is `none` -/
noncomputable def rcosCdf (d : ℝ × ℝ) (x : ℝ) : Option ℝ :=
  if d.1 - d.2 ≤ x ∧ x ≤ d.1 + d.2 then
    if d.2 = 0 then none
    else some ((1 + (x - d.1) / d.2 + 1 / Real.pi * Real.sin ((x - d.1) / d.2 * Real.pi)) / 2)
  else if x < d.1 - d.2 then some 0 else some 1

/-- `raisedcosine.rs:135-138`, `mean` -/
noncomputable def rcosMean (d : ℝ × ℝ) : ℝ := d.1

/-- `raisedcosine.rs:151-154`, `variance` -/
noncomputable def rcosVariance (d : ℝ × ℝ) : ℝ := d.2 * d.2 * (1 / 3 - 2 / (Real.pi * Real.pi))

/-- `raisedcosine.rs:164-167`, `median` -/
noncomputable def rcosMedian (d : ℝ × ℝ) : ℝ := d.1

/-! ## Normal, `normal.rs` -/

/-- `normal.rs:47-55`, `new` -/
def normalNew {K : Type} [Zero K] [LE K] [DecidableLE K] (mean variance : K) : Option (K × K) := if variance ≤ 0 then none else some (mean, variance)

/-- `normal.rs:119-125`, `pdf` -/
noncomputable def normalPdf (d : ℝ × ℝ) (x : ℝ) : ℝ :=
  1 / Real.sqrt (d.2 * 2 * Real.pi) * Real.exp (-0.5 * ((x - d.1) / d.2) ^ 2)

/-- `normal.rs:142-147`, `cdf`; `erf` is `special::error::erf` -/
noncomputable def normalCdf (erf : ℝ → ℝ) (d : ℝ × ℝ) (x : ℝ) : ℝ :=
  0.5 * (1 + erf ((x - d.1) / Real.sqrt (2 * d.2)))

/-- `normal.rs:333-361`, `r1` -/
noncomputable def normalR1 (r : ℝ) : ℝ :=
  (((((((r * 2509.0809287301226727 + 33430.575583588128105) * r + 67265.770927008700853) * r
    + 45921.953931549871457) * r + 13731.693765509461125) * r + 1971.5909503065514427) * r
    + 133.14166789178437745) * r + 3.387132872796366608)
  / (((((((r * 5226.495278852854561 + 28729.085735721942674) * r + 39307.89580009271061) * r
    + 21213.794301586595867) * r + 5394.1960214247511077) * r + 687.1870074920579083) * r
    + 42.313330701600911252) * r + 1)

/-- `normal.rs:363-393`, `r2` -/
noncomputable def normalR2 (r : ℝ) : ℝ :=
  (((((((r * 7.7454501427834140764e-4 + 0.0227238449892691845833) * r + 0.24178072517745061177) * r
    + 1.27045825245236838258) * r + 3.64784832476320460504) * r + 5.7694972214606914055) * r
    + 4.6303378461565452959) * r + 1.42343711074968357734)
  / (((((((r * 1.05075007164441684324e-9 + 5.475938084995344946e-4) * r + 0.0151986665636164571966) * r
    + 0.14810397642748007459) * r + 0.68976733498510000455) * r + 1.6763848301838038494) * r
    + 2.05319162663775882187) * r + 1)

/-- `normal.rs:395-425`, `r3` -/
noncomputable def normalR3 (r : ℝ) : ℝ :=
  (((((((r * 2.01033439929228813265e-7 + 2.71155556874348757815e-5) * r + 0.0012426609473880784386) * r
    + 0.026532189526576123093) * r + 0.29656057182850489123) * r + 1.7848265399172913358) * r
    + 5.4637849111641143699) * r + 6.6579046435011037772)
  / (((((((r * 2.04426310338993978564e-15 + 1.4215117583164458887e-7) * r + 1.8463183175100546818e-5) * r
    + 7.868691311456132591e-4) * r + 0.0148753612908506148525) * r + 0.13692988092273580531) * r
    + 0.59983220655588793769) * r + 1)

/-- `normal.rs:167-205`: the value `ppnd16` before the final scaling; `return ppnd16` with `ppnd16 = 0` in the
(unreachable) branch `r ≤ 0` is kept apart by `Sum.inl`. -/
noncomputable def normalPpnd (p : ℝ) : ℝ ⊕ ℝ :=
  let q := p - 0.5
  if |q| ≤ 0.425 then .inr (q * normalR1 (0.180625 - q * q))
  else
    let r := if q < 0 then p else 1 - p
    if r ≤ 0 then .inl 0
    else
      let r := Real.sqrt (-Real.log r)
      let v := if r ≤ 5 then normalR2 (r - 1.6) else normalR3 (r - 5.0)
      .inr (if q ≤ 0 then -v else v)

/-- `normal.rs:160-208`, `quantile` -/
noncomputable def normalQuantile (d : ℝ × ℝ) (p : ℝ) : Option ℝ :=
  if p ≤ 0 ∨ p ≥ 1 then none
  else match normalPpnd p with
    | .inl v => some v
    | .inr v => some (d.1 + Real.sqrt d.2 * v)

/-- `normal.rs:223-226`, `mean` -/
noncomputable def normalMean (d : ℝ × ℝ) : ℝ := d.1

/-- `normal.rs:241-244`, `variance` -/
noncomputable def normalVariance (d : ℝ × ℝ) : ℝ := d.2

/-- `normal.rs:280-283`, `median` -/
noncomputable def normalMedian (d : ℝ × ℝ) : ℝ := d.1

/-- `normal.rs:302-305`, `entropy` -/
noncomputable def normalEntropy (d : ℝ × ℝ) : ℝ := 2 * Real.pi * Real.exp 1 * d.2

/-! ## Log-normal, `log_normal.rs` -/

/-- `log_normal.rs:40-48`, `new` -/
def logNormalNew {K : Type} [Zero K] [LE K] [DecidableLE K] (mu s2 : K) : Option (K × K) := if s2 ≤ 0 then none else some (mu, s2)

/-- `log_normal.rs:77-87`, `pdf`; at `x = 0` the computation is `∞ * 0`, a NaN, hence `none` -/
noncomputable def logNormalPdf (d : ℝ × ℝ) (x : ℝ) : Option ℝ :=
  if x < 0 then some 0
  else if x = 0 then none
  else some (1 / (x * Real.sqrt (d.2 * 2 * Real.pi)) * Real.exp (-0.5 * (Real.log x - d.1) ^ 2 / d.2))

/-- `log_normal.rs:104-112`, `cdf` -/
noncomputable def logNormalCdf (erf : ℝ → ℝ) (d : ℝ × ℝ) (x : ℝ) : ℝ :=
  if x ≤ 0 then 0 else 0.5 + 0.5 * erf ((Real.log x - d.1) / Real.sqrt (2 * d.2))

/-- `log_normal.rs:119-127`, `quantile` -/
noncomputable def logNormalQuantile (d : ℝ × ℝ) (p : ℝ) : Option ℝ :=
  if p ≤ 0 ∨ p ≥ 1 then none
  else do
    let std ← normalNew 0 1
    let z ← normalQuantile std p
    some (Real.exp (d.1 + z * Real.sqrt d.2))

/-- `log_normal.rs:142-145`, `mean` -/
noncomputable def logNormalMean (d : ℝ × ℝ) : ℝ := Real.exp (d.1 + d.2 / 2)

/-- `log_normal.rs:162-165`, `variance` -/
noncomputable def logNormalVariance (d : ℝ × ℝ) : ℝ := (Real.exp d.2 - 1) * Real.exp (2 * d.1 + d.2)

/-- `log_normal.rs:183-186`, `median` -/
noncomputable def logNormalMedian (d : ℝ × ℝ) : ℝ := Real.exp d.1

/-- `log_normal.rs:201-204`, `skewness` -/
noncomputable def logNormalSkewness (d : ℝ × ℝ) : ℝ := (Real.exp d.2 + 2) * Real.sqrt (Real.exp d.2 - 1)

/-- `log_normal.rs:221-225`, `entropy` (in bits) -/
noncomputable def logNormalEntropy (d : ℝ × ℝ) : ℝ :=
  Real.log (Real.sqrt d.2 * Real.exp (d.1 + 0.5) * Real.sqrt (2 * Real.pi)) / Real.log 2

/-! ## Estimation from data -/

section data
variable {K : Type} [Field K] [LinearOrder K]

/-- `for x in data.iter() { sum += *x }` -/
def dataSum {K : Type} [Zero K] [Add K] (data : List K) : K := data.foldl (fun sum x => sum + x) 0

/-- `normal.rs:74-85`, `calc_mean` (also `exponential.rs:55-65`); only called by `from_data` with `n ≥ 2` there,
with `n = 0` a NaN. -/
def calcMean {K : Type} [Zero K] [Add K] [Div K] [NatCast K] (data : List K) : Option K :=
  if data.length = 0 then none else some (dataSum data / (data.length : K))

/-- `normal.rs:87-98`, `calc_variance`; `n - 1` underflows for `n = 0`, and `n = 1` divides by zero -/
def calcVariance {K : Type} [Zero K] [Add K] [Sub K] [Div K] [NatCast K] [Pow K ℕ] (data : List K) (mean : K) : Option K :=
  if data.length ≤ 1 then none
  else some (data.foldl (fun sum x => sum + (x - mean) ^ 2) 0 / ((data.length - 1 : ℕ) : K))

/-- `normal.rs:60-72`, `from_data`, with the check of `new` (`normal.rs:49-52`) -/
def normalFromData {K : Type} [Zero K] [Add K] [Sub K] [Div K] [NatCast K] [Pow K ℕ] [LE K] [DecidableLE K] (data : List K) :
    Option (K × K) :=
  if data.length < 2 then none
  else do
    let mean ← calcMean data
    let variance ← calcVariance data mean
    if variance ≤ 0 then none else some (mean, variance)

/-- `exponential.rs:48-53`, `from_data`, with the check of `new` (`exponential.rs:40-43`) -/
def expoFromData (data : List K) : Option K := do
  let mean ← calcMean data
  if mean = 0 then none
  else if 1 / mean ≤ 0 then none else some (1 / mean)

end data

end Stat
end Verif
