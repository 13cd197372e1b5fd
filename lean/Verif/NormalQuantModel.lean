import Verif.StatFnModel

/-!
# Model of the quantiles of the normal and log-normal distributions for any type of numbers

The same formulas as in `ContModel.lean`, for the reals and `Fl R`; the functions of the standard library are parameters. In Rust the
rational functions `r1`, `r2`, `r3` convert to `f64` and back, so that for `K = f32` they are computed with more bits than here.
Files are in `/repo/src/statistics/distrib`.
-/

namespace Verif
namespace Stat
variable {K : Type} [Zero K] [One K] [Add K] [Sub K] [Mul K] [Div K] [Neg K] [OfScientific K] [LT K] [DecidableLT K]
  [LE K] [DecidableLE K]

/-- `normal.rs:333-361`, `r1`; a number `1.` is the literal `1.0` -/
def normalR1G (r : K) : K :=
  (((((((r * 2509.0809287301226727 + 33430.575583588128105) * r + 67265.770927008700853) * r
    + 45921.953931549871457) * r + 13731.693765509461125) * r + 1971.5909503065514427) * r
    + 133.14166789178437745) * r + 3.387132872796366608)
  / (((((((r * 5226.495278852854561 + 28729.085735721942674) * r + 39307.89580009271061) * r
    + 21213.794301586595867) * r + 5394.1960214247511077) * r + 687.1870074920579083) * r
    + 42.313330701600911252) * r + 1.0)

/-- `normal.rs:363-393`, `r2` -/
def normalR2G (r : K) : K :=
  (((((((r * 7.7454501427834140764e-4 + 0.0227238449892691845833) * r + 0.24178072517745061177) * r
    + 1.27045825245236838258) * r + 3.64784832476320460504) * r + 5.7694972214606914055) * r
    + 4.6303378461565452959) * r + 1.42343711074968357734)
  / (((((((r * 1.05075007164441684324e-9 + 5.475938084995344946e-4) * r + 0.0151986665636164571966) * r
    + 0.14810397642748007459) * r + 0.68976733498510000455) * r + 1.6763848301838038494) * r
    + 2.05319162663775882187) * r + 1.0)

/-- `normal.rs:395-425`, `r3` -/
def normalR3G (r : K) : K :=
  (((((((r * 2.01033439929228813265e-7 + 2.71155556874348757815e-5) * r + 0.0012426609473880784386) * r
    + 0.026532189526576123093) * r + 0.29656057182850489123) * r + 1.7848265399172913358) * r
    + 5.4637849111641143699) * r + 6.6579046435011037772)
  / (((((((r * 2.04426310338993978564e-15 + 1.4215117583164458887e-7) * r + 1.8463183175100546818e-5) * r
    + 7.868691311456132591e-4) * r + 0.0148753612908506148525) * r + 0.13692988092273580531) * r
    + 0.59983220655588793769) * r + 1.0)

/-- `normal.rs:167-205`: the value `ppnd16` before the final scaling; `return ppnd16` with `ppnd16 = 0` in the
branch `r ≤ 0` is kept apart by `Sum.inl` -/
def normalPpndG (sqrt ln abs : K → K) (p : K) : K ⊕ K :=
  let q := p - 0.5
  if abs q ≤ 0.425 then .inr (q * normalR1G (0.180625 - q * q))
  else
    let r := if q < 0 then p else 1 - p
    if r ≤ 0 then .inl 0
    else
      let r := sqrt (-ln r)
      let v := if r ≤ 5.0 then normalR2G (r - 1.6) else normalR3G (r - 5.0)
      .inr (if q ≤ 0 then -v else v)

/-- `normal.rs:160-208`, `quantile` -/
def normalQuantileG (sqrt ln abs : K → K) (mean variance p : K) : Option K :=
  if p ≤ 0 ∨ 1 ≤ p then none
  else match normalPpndG sqrt ln abs p with
    | .inl v => some v
    | .inr v => some (mean + sqrt variance * v)

/-- `log_normal.rs:119-127`, `quantile`, with `Normal::new(0, 1)` -/
def logNormalQuantileG (sqrt exp ln abs : K → K) (mu s2 p : K) : Option K :=
  if p ≤ 0 ∨ 1 ≤ p then none
  else do
    let std ← normalNew (0 : K) 1
    let z ← normalQuantileG sqrt ln abs std.1 std.2 p
    some (exp (mu + z * sqrt s2))

theorem normalR1G_real (r : ℝ) : normalR1G r = normalR1 r := by
  unfold normalR1G normalR1
  rw [show (1.0 : ℝ) = 1 by norm_num]

theorem normalR2G_real (r : ℝ) : normalR2G r = normalR2 r := by
  unfold normalR2G normalR2
  rw [show (1.0 : ℝ) = 1 by norm_num]

theorem normalR3G_real (r : ℝ) : normalR3G r = normalR3 r := by
  unfold normalR3G normalR3
  rw [show (1.0 : ℝ) = 1 by norm_num]

/-- on the reals these are the functions of `ContModel.lean` -/
theorem normalPpndG_real (p : ℝ) : normalPpndG Real.sqrt Real.log (fun a => |a|) p = normalPpnd p := by
  unfold normalPpndG normalPpnd
  simp only [normalR1G_real, normalR2G_real, normalR3G_real]
  rw [show (5.0 : ℝ) = 5 by norm_num]

theorem normalQuantileG_real (d : ℝ × ℝ) (p : ℝ) :
    normalQuantileG Real.sqrt Real.log (fun a => |a|) d.1 d.2 p = normalQuantile d p := by
  unfold normalQuantileG normalQuantile
  rw [normalPpndG_real]
  by_cases h : p ≤ 0 ∨ 1 ≤ p
  · rw [if_pos h, if_pos h]
  · rw [if_neg h, if_neg h]
    rcases normalPpnd p with v | v <;> rfl

theorem logNormalQuantileG_real (d : ℝ × ℝ) (p : ℝ) :
    logNormalQuantileG Real.sqrt Real.exp Real.log (fun a => |a|) d.1 d.2 p = logNormalQuantile d p := by
  unfold logNormalQuantileG logNormalQuantile
  simp only [normalQuantileG_real]

end Stat
end Verif
