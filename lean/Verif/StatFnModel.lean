import Verif.TestModel
import Verif.ElemDistModel

/-!
# Model of the t-tests, the G-test and further distributions for any type of numbers

The same formulas as in `TestModel.lean` and `ContModel.lean`, for the reals and `Fl R`; the functions of the standard library are
parameters. The conversions `K::from_f64`, `K::from_u32` of lengths are casts that round. The results of the t-tests are the pairs
`(p, t)`. A division by zero is `none`, like a panic (in Rust an infinity or a NaN). Tests are in `/repo/src/statistics/test`,
distributions in `/repo/src/statistics/distrib`.
-/

namespace Verif
namespace Stat
variable {K : Type} [Zero K] [One K] [Add K] [Sub K] [Mul K] [Div K] [Neg K] [NatCast K] [OfScientific K] [LT K] [DecidableLT K]
  [LE K] [DecidableLE K] [DecidableEq K]

/-- `test/t.rs:99-110`, `one_sample`: the pair `(p, t)` -/
def tOneSampleG [Pow K ℕ] (sqrt : K → K) (x : List K) (mu0 : K) : Option (K × K) := do
  let normal ← normalFromData x
  let s := sqrt normal.2
  if s = 0 then none
  else some (0, sqrt (x.length : K) * (normal.1 - mu0) / s)

/-- `test/t.rs:117-142`, `test_independence_equal_variance`: the pair `(p, t)`; the term `1.0 / n_x + 1.0 / n_y` is computed
with `f64` in Rust whatever `K` is, here with `K` -/
def tEqualVarianceG [Pow K ℕ] (sqrt : K → K) (x y : List K) : Option (K × K) := do
  let xd ← normalFromData x
  let yd ← normalFromData y
  let df := x.length + y.length - 2
  let nomin := ((x.length - 1 : ℕ) : K) * xd.2 + ((y.length - 1 : ℕ) : K) * yd.2
  let s_p := sqrt (nomin / (df : K))
  let den := s_p * sqrt (1 / (x.length : K) + 1 / (y.length : K))
  if den = 0 then none else some (0, (xd.1 - yd.1) / den)

/-- `test/t.rs:149-176`, `test_independence_unequal_variance`: the pair `(p, t)`; `abs` is the absolute value, `tCdf df` the
distribution function of the t distribution. `n_x * n_x * (n_x - 1)` is computed with `usize`; its overflow is not modelled. -/
def tUnequalVarianceG [Pow K ℕ] (sqrt abs : K → K) (tCdf : K → K → Option K) (x y : List K) : Option (K × K) := do
  let xd ← normalFromData x
  let yd ← normalFromData y
  let term1 := xd.2 / (x.length : K) + yd.2 / (y.length : K)
  let den := xd.2 * xd.2 / ((x.length * x.length * (x.length - 1) : ℕ) : K)
    + yd.2 * yd.2 / ((y.length * y.length * (y.length - 1) : ℕ) : K)
  if den = 0 then none
  else
    let df := term1 * term1 / den
    let s_p := sqrt term1
    if s_p = 0 then none
    else
      let t := (xd.1 - yd.1) / s_p
      do
        let c ← tCdf df (-abs t)
        some (2.0 * c, t)

/-- `test/g.rs:35-67`, `G::test_vector`: the pair `(df, g)`; `ln` of a number `≤ 0` is `none` -/
def gTestG (ln : K → K) (x y : List K) : Option (ℕ × K) :=
  if x.length ≠ y.length then none
  else if x.length = 0 then none
  else
    let df := x.length - 1
    let n := dataSum y
    let b := dataSum x
    if b = 0 then none
    else
      let k := n / b
      do
        let g ← forRange 0 x.length (fun (g : K) i =>
          if k = 0 then none
          else if y.getD i 0 / k = 0 then none
          else
            let q := x.getD i 0 / (y.getD i 0 / k)
            if q ≤ 0 then none else some (g + x.getD i 0 * ln q)) 0
        some (df, 2.0 * g)

/-- `raisedcosine.rs:73-82`, `pdf` -/
def rcosPdfG (pi : K) (cos : K → K) (mu s x : K) : K :=
  if mu - s ≤ x ∧ x < mu + s then (1 + cos (pi * (x - mu) / s)) / (2.0 * s) else 0

/-- `raisedcosine.rs:99-117`, `cdf`; with `s = 0` the division `0 / 0` at `x = mu` is `none` -/
def rcosCdfG (pi : K) (sin : K → K) (mu s x : K) : Option K :=
  if mu - s ≤ x ∧ x ≤ mu + s then
    if s = 0 then none
    else
      let k := (x - mu) / s
      some ((1 + k + 1 / pi * sin (k * pi)) / 2.0)
  else if x < mu - s then some 0 else some 1

/-- `normal.rs:142-147`, `cdf`; `erf` is `special::error::erf` -/
def normalCdfG (sqrt : K → K) (erf : K → Option K) (mean variance x : K) : Option K := do
  let e ← erf ((x - mean) / sqrt (2.0 * variance))
  some (0.5 * (1 + e))

/-- `log_normal.rs:77-87`, `pdf`; `sq x` is `x.pow(2.0)`; at `x = 0` the computation is `∞ * 0`, a NaN, hence `none` -/
def logNormalPdfG (pi : K) (sqrt exp ln sq : K → K) (mu s2 x : K) : Option K :=
  if x < 0 then some 0
  else if x = 0 then none
  else some (1 / (x * sqrt (s2 * 2.0 * pi)) * exp (-0.5 * sq (ln x - mu) / s2))

/-- `log_normal.rs:104-112`, `cdf` -/
def logNormalCdfG (sqrt ln : K → K) (erf : K → Option K) (mu s2 x : K) : Option K :=
  if x ≤ 0 then some 0
  else do
    let e ← erf ((ln x - mu) / sqrt (2.0 * s2))
    some (0.5 + 0.5 * e)

/-- on the reals these are the functions of `TestModel.lean` and `ContModel.lean` -/
theorem tOneSampleG_real (x : List ℝ) (mu0 : ℝ) :
    tOneSampleG Real.sqrt x mu0 = (tOneSample x mu0).map fun r => (r.p, r.t) := by
  unfold tOneSampleG tOneSample
  rcases normalFromData x with _ | d
  · rfl
  · simp only [Option.bind_eq_bind, Option.bind_some]
    split <;> rfl

theorem tEqualVarianceG_real (x y : List ℝ) :
    tEqualVarianceG Real.sqrt x y = (tEqualVariance x y).map fun r => (r.p, r.t) := by
  unfold tEqualVarianceG tEqualVariance
  rcases normalFromData x with _ | d
  · rfl
  rcases normalFromData y with _ | e
  · rfl
  simp only [Option.bind_eq_bind, Option.bind_some]
  split <;> rfl

theorem tUnequalVarianceG_real (tCdf : ℝ → ℝ → Option ℝ) (x y : List ℝ) :
    tUnequalVarianceG Real.sqrt (fun a => |a|) tCdf x y = (tUnequalVariance tCdf x y).map fun r => (r.p, r.t) := by
  unfold tUnequalVarianceG tUnequalVariance
  rcases normalFromData x with _ | d
  · rfl
  rcases normalFromData y with _ | e
  · rfl
  simp only [Option.bind_eq_bind, Option.bind_some]
  split
  · rfl
  split
  · rfl
  rw [show (2.0 : ℝ) = 2 by norm_num]
  generalize tCdf _ _ = c
  cases c <;> rfl

theorem gTestG_real (x y : List ℝ) : gTestG Real.log x y = gTest x y := by
  unfold gTestG gTest
  rw [show (2.0 : ℝ) = 2 by norm_num]

theorem rcosPdfG_real (d : ℝ × ℝ) (x : ℝ) : rcosPdfG Real.pi Real.cos d.1 d.2 x = rcosPdf d x := by
  unfold rcosPdfG rcosPdf
  rw [show (2.0 : ℝ) = 2 by norm_num]

theorem rcosCdfG_real (d : ℝ × ℝ) (x : ℝ) : rcosCdfG Real.pi Real.sin d.1 d.2 x = rcosCdf d x := by
  unfold rcosCdfG rcosCdf
  rw [show (2.0 : ℝ) = 2 by norm_num]

theorem normalCdfG_real (erf : ℝ → ℝ) (d : ℝ × ℝ) (x : ℝ) :
    normalCdfG Real.sqrt (fun y => some (erf y)) d.1 d.2 x = some (normalCdf erf d x) := by
  unfold normalCdfG normalCdf
  rw [show (2.0 : ℝ) = 2 by norm_num]
  rfl

theorem logNormalPdfG_real (d : ℝ × ℝ) (x : ℝ) :
    logNormalPdfG Real.pi Real.sqrt Real.exp Real.log (fun y => y ^ 2) d.1 d.2 x = logNormalPdf d x := by
  unfold logNormalPdfG logNormalPdf
  rw [show (2.0 : ℝ) = 2 by norm_num]

theorem logNormalCdfG_real (erf : ℝ → ℝ) (d : ℝ × ℝ) (x : ℝ) :
    logNormalCdfG Real.sqrt Real.log (fun y => some (erf y)) d.1 d.2 x = some (logNormalCdf erf d x) := by
  unfold logNormalCdfG logNormalCdf
  rw [show (2.0 : ℝ) = 2 by norm_num]
  split <;> rfl

end Stat
end Verif
