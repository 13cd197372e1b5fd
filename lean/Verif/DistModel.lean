import Verif.SpecialModel
import Verif.ContModel

/-!
# Model of the gamma, beta, chi-square and t distributions and of the hypergeometric function

`/repo/src/statistics/distrib/gamma.rs`, `beta.rs`, `chisquare.rs`, `t.rs` and `/repo/src/special/hypergeometric.rs`.
Floats are real numbers; a panic is `none`, and so is every operation that yields an infinity or a NaN in Rust
(division by zero, logarithm of a number `≤ 0`, a negative power of zero, a fractional power of a negative number),
except that the infinite variance of the t distribution is the value `⊤`.  `lo` and `fuel` are the parameters of the
special functions of `SpecialModel`.  `quantile`, `median` and `entropy` are left out where the source is
`unimplemented!()`; `random` does not exist for these distributions.
-/

namespace Verif

/-- `/repo/src/num/primitives/mod.rs`, `pow` of `f32`/`f64` (`powf` of the standard library) -/
noncomputable def R.powf (x y : ℝ) : Option ℝ :=
  open Classical in
  if 0 < x then some (x ^ y)
  else if x = 0 then if y = 0 then some 1 else if 0 < y then some 0 else none
  else if (⌊y⌋ : ℝ) = y then some (x ^ ⌊y⌋) else none

namespace Special
open Classical

/-! ## `hypergeometric.rs` -/

/-- `hypergeometric.rs:25-35`, the loop of `f21_norm`.  `|c| / |s| > tol` is written without the division: for `s = 0`
the quotient is infinite (`c ≠ 0`) or NaN (`c = 0`) in Rust, and both agree with the product form. -/
noncomputable def f21Loop (a b c z : ℝ) : ℕ → ℝ → ℝ → ℝ → ℝ → Option ℝ
  | 0, _, _, _, _ => none
  | fuel + 1, ci, si, sp, j =>
    if 0.0000000000000002 * |sp| < |ci| then do
      let k ← R.div ((a + j) * (b + j)) (c + j)
      let l ← R.div z (j + 1)
      let ci' := ci * k * l
      f21Loop a b c z fuel ci' (si + ci') si (j + 1)
    else some si

/-- `hypergeometric.rs:18-37`, `f21_norm` -/
noncomputable def f21Norm (fuel : ℕ) (a b c z : ℝ) : Option ℝ := f21Loop a b c z fuel 1 1 1 0

/-- `hypergeometric.rs:42-143`, `f21`; the parts for `z > 1` are not reachable. -/
noncomputable def f21 (fuel : ℕ) (a b c z : ℝ) : Option ℝ :=
  if a ≤ 0 ∨ b ≤ 0 ∨ c ≤ 0 ∨ z > 1 then none
  else if z = 1 then
    if c - a - b < 0 then do
      let g1 ← gamma c
      let g2 ← gamma (a + b - c)
      let g3 ← gamma a
      let g4 ← gamma b
      R.div (g1 * g2) (g3 * g4)
    else if c - a - b = 0 then do
      let g1 ← gamma c
      let g3 ← gamma a
      let g4 ← gamma b
      R.div g1 (g3 * g4)
    else do
      let g1 ← gamma c
      let g2 ← gamma (c - a - b)
      let g3 ← gamma (c - a)
      let g4 ← gamma (c - b)
      R.div (g1 * g2) (g3 * g4)
  else if z < -1 then do
    let w1 ← R.powf (1 - z) (-a)
    let g1 ← gamma c
    let g2 ← gamma (b - a)
    let g3 ← gamma b
    let g4 ← gamma (c - a)
    let l1 ← R.div (w1 * g1 * g2) (g3 * g4)
    let w2 ← R.powf (1 - z) (-b)
    let g5 ← gamma (a - b)
    let g6 ← gamma a
    let g7 ← gamma (c - b)
    let l2 ← R.div (w2 * g1 * g5) (g6 * g7)
    let y ← R.div 1 (1 - z)
    let f1 ← f21Norm fuel a (c - b) (a - b + 1) y
    let f2 ← f21Norm fuel b (c - a) (b - a + 1) y
    some (l1 * f1 + l2 * f2)
  else if -1 ≤ z ∧ z < 0 then do
    let y ← R.div z (z - 1)
    let f1 ← f21Norm fuel a (c - b) c y
    let w ← R.powf (1 - z) (-a)
    some (f1 * w)
  else if 0 ≤ z ∧ z ≤ 0.5 then f21Norm fuel a b c z
  else do
    let g1 ← gamma c
    let g2 ← gamma (c - a - b)
    let g3 ← gamma (c - a)
    let g4 ← gamma (c - b)
    let l1 ← R.div (g1 * g2) (g3 * g4)
    let w ← R.powf (1 - z) (c - a - b)
    let g5 ← gamma (a + b - c)
    let g6 ← gamma a
    let g7 ← gamma b
    let l2 ← R.div (w * g1 * g5) (g6 * g7)
    let f1 ← f21Norm fuel a b (a + b - c + 1) (1 - z)
    let f2 ← f21Norm fuel (c - a) (c - b) (c - a - b + 1) (1 - z)
    some (l1 * f1 + l2 * f2)

end Special

namespace Stat
open Special

/-! ## Gamma distribution, `gamma.rs` -/

/-- `gamma.rs:39-46`, `new` -/
def gammaNew {K : Type} [Zero K] [LE K] [DecidableLE K] (alpha beta : K) : Option (K × K) :=
  if alpha ≤ 0 ∨ beta ≤ 0 then none else some (alpha, beta)

/-- `gamma.rs:71-80`, `pdf` -/
noncomputable def gammaPdf (d : ℝ × ℝ) (x : ℝ) : Option ℝ :=
  if x ≤ 0 then none
  else do
    let w ← R.powf d.2 d.1
    let g ← gamma d.1
    let q ← R.div w g
    let y ← R.powf x (d.1 - 1)
    some (q * y * Real.exp (-d.2 * x))

/-- `gamma.rs:97-104`, `cdf` -/
noncomputable def gammaCdf (fuel : ℕ) (d : ℝ × ℝ) (x : ℝ) : Option ℝ :=
  if x = 0 then some 0 else gammaLr fuel d.1 (d.2 * x)

/-- `gamma.rs:113-116`, `mean` -/
noncomputable def gammaMean (d : ℝ × ℝ) : ℝ := d.1 / d.2

/-- `gamma.rs:128-131`, `variance` -/
noncomputable def gammaVariance (d : ℝ × ℝ) : ℝ := d.1 / d.2 ^ 2

/-- `gamma.rs:134-137`, `skewness` -/
noncomputable def gammaSkewness (d : ℝ × ℝ) : ℝ := 2 / √d.1

/-- `gamma.rs:147-152`, `entropy` -/
noncomputable def gammaEntropy (fuel : ℕ) (d : ℝ × ℝ) : Option ℝ := do
  let lb ← R.ln d.2
  let g ← gamma d.1
  let lg ← R.ln g
  let ps ← digamma fuel d.1
  some (d.1 - lb + lg + (1 - d.1) * ps)

/-! ## Beta distribution, `beta.rs` -/

/-- `beta.rs:38-45`, `new` -/
def betaNew {K : Type} [Zero K] [LE K] [DecidableLE K] [LT K] [DecidableLT K] (p q : K) : Option (K × K) := if p < 0 ∨ q ≤ 0 then none else some (p, q)

/-- `beta.rs:65-77`, `pdf` -/
noncomputable def betaPdf (d : ℝ × ℝ) (x : ℝ) : Option ℝ :=
  if x < 0 then none
  else if x > 1 then some 1
  else do
    let w1 ← R.powf x (d.1 - 1)
    let w2 ← R.powf (1 - x) (d.2 - 1)
    let b ← beta d.1 d.2
    R.div (w1 * w2) b

/-- `beta.rs:94-97`, `cdf` -/
noncomputable def betaCdf (lo : ℤ) (fuel : ℕ) (d : ℝ × ℝ) (x : ℝ) : Option ℝ := betaIncReg lo fuel x d.1 d.2

/-- `beta.rs:115-118`, `mean` -/
noncomputable def betaMean (d : ℝ × ℝ) : ℝ := d.1 / (d.1 + d.2)

/-- `beta.rs:130-133`, `variance` -/
noncomputable def betaVariance (d : ℝ × ℝ) : ℝ := d.1 * d.2 / ((d.1 + d.2 + 1) * (d.1 + d.2) ^ 2)

/-- `beta.rs:145-149`, `skewness`; for `p = 0` the quotient is infinite -/
noncomputable def betaSkewness (d : ℝ × ℝ) : Option ℝ :=
  R.div (2 * (d.2 - d.1) * √(d.1 + d.2 + 1)) ((d.1 + d.2 + 2) * √(d.2 * d.1))

/-! ## Chi-square distribution, `chisquare.rs` -/

/-- `chisquare.rs:42-49`, `new`; the field `k` is the float with the value `df` -/
def chiNew (df : ℕ) : Option ℕ := if df < 1 then none else some df

/-- `chisquare.rs:70-83`, `pdf` -/
noncomputable def chiPdf (k : ℕ) (x : ℝ) : Option ℝ :=
  if x < 0 then some 0
  else do
    let w ← R.powf 2 ((k : ℝ) / 2)
    let g ← gamma ((k : ℝ) / 2)
    let t1 ← R.div 1 (w * g)
    let y ← R.powf x ((k : ℝ) / 2 - 1)
    some (t1 * (y * Real.exp (-x / 2)))

/-- `chisquare.rs:110-115`, the loop for even `k` -/
noncomputable def chiSumEven (x : ℝ) : ℕ → Option ℝ
  | 0 => some 0
  | i + 1 => do
    let s ← chiSumEven x i
    let w ← R.powf (x / 2) (i : ℝ)
    let g ← gamma ((i + 1 : ℕ) : ℝ)
    let q ← R.div w g
    some (s + q)

/-- `chisquare.rs:121-126`, the loop for odd `k` -/
noncomputable def chiSumOdd (x : ℝ) : ℕ → Option ℝ
  | 0 => some 0
  | i + 1 => do
    let s ← chiSumOdd x i
    let w ← R.powf (x / 2) ((i : ℝ) + 0.5)
    let g ← gamma ((i : ℝ) + 1.5)
    let q ← R.div w g
    some (s + q)

/-- `chisquare.rs:100-131`, `cdf`; `(k / 2).to_u32()` is the integer part.  The square root of a negative number is a
NaN. -/
noncomputable def chiCdf (fuel : ℕ) (k : ℕ) (x : ℝ) : Option ℝ :=
  if k % 2 = 0 then do
    let s ← chiSumEven x (k / 2)
    some (1 - Real.exp (-x / 2) * s)
  else do
    let s ← chiSumOdd x (k / 2)
    if x / 2 < 0 then none
    else do
      let e ← erf fuel √(x / 2)
      some (e - Real.exp (-x / 2) * s)

/-- `chisquare.rs:134-137`, `quantile` -/
noncomputable def chiQuantile (fuel : ℕ) (k : ℕ) (p : ℝ) : Option ℝ := do
  let v ← gammaUrInv fuel ((k : ℝ) / 2) (1 - p)
  some (2 * v)

/-- `chisquare.rs:149-152`, `mean` -/
noncomputable def chiMean (k : ℕ) : ℝ := k

/-- `chisquare.rs:164-167`, `variance` -/
noncomputable def chiVariance (k : ℕ) : ℝ := 2 * k

/-- `chisquare.rs:171-174`, `skewness` -/
noncomputable def chiSkewness (k : ℕ) : ℝ := √(8 / k)

/-- `chisquare.rs:178-183`, `median` -/
noncomputable def chiMedian (k : ℕ) : ℝ :=
  let t : ℝ := 1 - 2 / 9 / k
  k * t * t * t

/-- `chisquare.rs:186-190`, `entropy` -/
noncomputable def chiEntropy (fuel : ℕ) (k : ℕ) : Option ℝ := do
  let d : ℝ := 2 / k
  let g ← gamma d
  let l ← R.ln (2 * g)
  let ps ← digamma fuel d
  some (d + l + (1 - d) * ps)

/-! ## t distribution, `t.rs` -/

/-- `t.rs:45-53`, `new` -/
def tNew {K : Type} [Zero K] [LT K] [DecidableLT K] (n : K) : Option K := if n < 0 then none else some n

/-- `t.rs:74-79`, `pdf` -/
noncomputable def tPdf (n x : ℝ) : Option ℝ := do
  let g1 ← gamma ((n + 1) / 2)
  let q ← R.div (x * x) n
  let w ← R.powf (1 + q) (-((n + 1) / 2))
  let g2 ← gamma (n / 2)
  R.div (g1 * w) (√(n * Real.pi) * g2)

/-- `t.rs:96-106`, `cdf` -/
noncomputable def tCdf (fuel : ℕ) (n x : ℝ) : Option ℝ := do
  let k := (n + 1) / 2
  let z ← R.div (-(x ^ 2)) n
  let f ← f21 fuel 0.5 k 1.5 z
  let g1 ← gamma k
  let g2 ← gamma (n / 2)
  let q ← R.div (x * g1 * f) (√(n * Real.pi) * g2)
  some (0.5 + q)

/-- `t.rs:128-135`, `mean` -/
noncomputable def tMean (n : ℝ) : Option ℝ := if n > 1 then some 0 else none

/-- `t.rs:147-161`, `variance` -/
noncomputable def tVariance (n : ℝ) : Option EReal :=
  if n > 2 then some ((n / (n - 2) : ℝ) : EReal) else if n > 1 then some ⊤ else none

/-- `t.rs:167-174`, `skewness` -/
noncomputable def tSkewness (n : ℝ) : Option ℝ := if n ≤ 3 then none else some 0

/-- `t.rs:178-181`, `median` -/
def tMedian (_ : ℝ) : ℝ := 0

/-- `t.rs:184-191`, `entropy` -/
noncomputable def tEntropy (n : ℝ) : Option ℝ := do
  let a := (n + 1) / 2
  let b := n / 2
  let ga ← gamma a
  let gb ← gamma b
  let be ← beta a 0.5
  let l ← R.ln (√n * be)
  some (a * (ga - gb) + l)

end Stat
end Verif
