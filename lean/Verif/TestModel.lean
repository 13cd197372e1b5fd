import Verif.ContModel

/-!
# Model of `/repo/src/statistics/test`: chi-square, G- and t-tests

Samples are lists; `x[i]` is in range because of the length check.  A division by zero or a logarithm of a number `≤ 0`
is `none`, like a panic (in Rust an infinity or a NaN).  `(y.len() - 1) as u32` underflows for empty samples (panic with
overflow checks); the truncation of lengths above `2^32` is not modelled.
-/

namespace Verif
namespace Stat

variable {K : Type} [Zero K] [Add K] [Sub K] [Mul K] [Div K] [Pow K ℕ] [DecidableEq K]

/-- `test/chisquare.rs:30-86`, `ChiSquare::test_vector`: the pair `(df, chi_square)`.  The inner sums `n_k`
(`chisquare.rs:60-76`) are recomputed in every round in Rust. -/
def chiSquareTest (x y : List K) : Option (ℕ × K) :=
  if x.length ≠ y.length then none
  else if y.length = 0 then none
  else
    let df := y.length - 1
    let n := dataSum x + dataSum y
    do
      let chi ← forRange 0 x.length (fun (chi : K) j =>
        forRange 0 2 (fun (chi : K) k =>
          let n_jk := if k = 0 then x.getD j 0 else y.getD j 0
          let n_k := if k = 0 then (List.range x.length).foldl (fun s l => s + x.getD l 0) 0
            else (List.range x.length).foldl (fun s l => s + y.getD l 0) 0
          let n_j := x.getD j 0 + y.getD j 0
          if n = 0 then none
          else
            let n_jks := n_k * n_j / n
            if n_jks = 0 then none else some (chi + (n_jk - n_jks) ^ 2 / n_jks)) chi) 0
      some (df, chi)

/-- `test/g.rs:35-67`, `G::test_vector`: the pair `(df, g)` -/
noncomputable def gTest (x y : List ℝ) : Option (ℕ × ℝ) :=
  if x.length ≠ y.length then none
  else if x.length = 0 then none
  else
    let df := x.length - 1
    let n := dataSum y
    let b := dataSum x
    if b = 0 then none
    else
      let k := n / b
      do
        let g ← forRange 0 x.length (fun (g : ℝ) i =>
          if k = 0 then none
          else if y.getD i 0 / k = 0 then none
          else
            let q := x.getD i 0 / (y.getD i 0 / k)
            if q ≤ 0 then none else some (g + x.getD i 0 * Real.log q)) 0
        some (df, 2 * g)

/-- `test/t.rs:65-69`: the result of a t-test, fields `p` and `t` -/
structure TResult where
  p : ℝ
  t : ℝ

/-- `test/t.rs:74-77`, `value` -/
def TResult.value (r : TResult) : ℝ := r.t

/-- `test/t.rs:80-83`, `df` -/
def TResult.df (_ : TResult) : ℕ := 0

/-- `test/t.rs:86-89`, `p_value` -/
def TResult.pValue (r : TResult) : ℝ := r.p

/-- `test/t.rs:99-110`, `one_sample` -/
noncomputable def tOneSample (x : List ℝ) (mu0 : ℝ) : Option TResult := do
  let normal ← normalFromData x
  let s := Real.sqrt normal.2
  if s = 0 then none
  else some { t := Real.sqrt (x.length : ℝ) * (normal.1 - mu0) / s, p := 0 }

/-- `test/t.rs:117-142`, `test_independence_equal_variance`; `n_x + n_y - 2` does not underflow after `from_data` -/
noncomputable def tEqualVariance (x y : List ℝ) : Option TResult := do
  let xd ← normalFromData x
  let yd ← normalFromData y
  let df := x.length + y.length - 2
  let nomin := ((x.length - 1 : ℕ) : ℝ) * xd.2 + ((y.length - 1 : ℕ) : ℝ) * yd.2
  let s_p := Real.sqrt (nomin / (df : ℝ))
  let den := s_p * Real.sqrt (1 / (x.length : ℝ) + 1 / (y.length : ℝ))
  if den = 0 then none else some { p := 0, t := (xd.1 - yd.1) / den }

/-- `test/t.rs:149-176`, `test_independence_unequal_variance`; `tCdf df` is the distribution function of the t
distribution of `distrib/t.rs` (`new` panics for a negative `df`, which is part of `tCdf`).  `n_x * n_x * (n_x - 1)` is
computed with `usize`; its overflow is not modelled. -/
noncomputable def tUnequalVariance (tCdf : ℝ → ℝ → Option ℝ) (x y : List ℝ) : Option TResult := do
  let xd ← normalFromData x
  let yd ← normalFromData y
  let term1 := xd.2 / (x.length : ℝ) + yd.2 / (y.length : ℝ)
  let den := xd.2 * xd.2 / ((x.length * x.length * (x.length - 1) : ℕ) : ℝ)
    + yd.2 * yd.2 / ((y.length * y.length * (y.length - 1) : ℕ) : ℝ)
  if den = 0 then none
  else
    let df := term1 * term1 / den
    let s_p := Real.sqrt term1
    if s_p = 0 then none
    else
      let t := (xd.1 - yd.1) / s_p
      do
        let c ← tCdf df (-|t|)
        some { p := 2 * c, t := t }

end Stat
end Verif
