import Verif.RealFnModel
import Mathlib.Data.EReal.Operations
import Mathlib.Algebra.Order.Floor.Ring

/-!
# Model of the special functions

`/repo/src/special/gamma.rs`, `beta.rs`, `error.rs`.  Floats are real numbers, so the functions are the approximation
formulas of the source evaluated without rounding; the constants are the decimal literals of the source.  A panic is
`none`, and so are a division by zero and a logarithm of a number `≤ 0` (`R.div`, `R.ln`: infinities and NaNs in Rust).
`f32` and `f64` share one macro body (`gamma`, `beta`) or the same code with other tables (`erfinv`), so there is one
model for both, except for the tables.  An unbounded `loop` takes a number of rounds `fuel` and is `none` when that is
used up; the termination theorems show that enough fuel gives a value.
-/

namespace Verif
namespace Special
open Classical

/-! ## `gamma.rs` -/

/-- `gamma.rs:269-276`, the Lanczos sum `x` -/
noncomputable def lanczosSum (z : ℝ) : ℝ :=
  0.99999999999980993 + 676.5203681218851 / z
    - 1259.1392167224028 / (z + 1)
    + 771.32342877765313 / (z + 2)
    - 176.61502916214059 / (z + 3)
    + 12.507343278686905 / (z + 4)
    - 0.13857109526572012 / (z + 5)
    + 9.9843695780195716e-6 / (z + 6)
    + 1.5056327351493116e-7 / (z + 7)

/-- `gamma.rs:268-281`, the part of `gamma` for arguments `≥ 0.5` -/
noncomputable def lanczos (z : ℝ) : ℝ :=
  let t := z + 6.5
  Real.sqrt 2 * Real.sqrt Real.pi * t ^ (z - 0.5) * Real.exp (-t) * lanczosSum z

/-- `gamma.rs:256-282`, `gamma`.  The recursive call has the argument `1 - z > 0.5`, so it is the last part of the
function. -/
noncomputable def gamma (z : ℝ) : Option ℝ :=
  if z = 0 then none
  else if z < 0.5 then R.div Real.pi (Real.sin (Real.pi * z) * lanczos (1 - z))
  else some (lanczos z)

/-- `gamma.rs:290-300`, `gamma_dk` -/
noncomputable def gammaDk : List ℝ :=
  [2.48574089138753565546e-5, 1.05142378581721974210, -3.45687097222016235469,
    4.51227709466894823700, -2.98285225323576655721, 1.05639711577126713077,
    -1.95428773191645869583e-1, 1.70970543404441224307e-2, -5.71926117404305781283e-4,
    4.63399473359905636708e-6, -2.71994908488607703910e-9]

/-- `gamma.rs:306-309` and `319-324`: the fold over `gamma_dk` from index 1 on, `den i` is the denominator of the
index `i` -/
noncomputable def dkSum (den : ℕ → ℝ) : Option ℝ :=
  (gammaDk.zipIdx.drop 1).foldlM (fun s t => do
    let q ← R.div t.1 (den t.2)
    some (s + q)) (gammaDk.headD 0)

/-- `gamma.rs:284-330`, the method `ln_gamma`; `2.0 * (E/PI).pow(0.5)` is the double square root -/
noncomputable def lnGamma (x : ℝ) : Option ℝ :=
  let gamma_r : ℝ := 10.900511
  let e := Real.exp 1
  if x < 0.5 then do
    let s ← dkSum (fun i => (i : ℝ) - x)
    let l1 ← R.ln (Real.sin (Real.pi * x))
    let l2 ← R.ln s
    let l3 ← R.ln (2 * (e / Real.pi) ^ (0.5 : ℝ))
    let l4 ← R.ln ((0.5 - x + gamma_r) / e)
    some (Real.log Real.pi - l1 - l2 - l3 - (0.5 - x) * l4)
  else do
    let s ← dkSum (fun i => x + (i : ℝ) - 1)
    let l2 ← R.ln s
    let l3 ← R.ln (2 * (e / Real.pi) ^ (0.5 : ℝ))
    let l4 ← R.ln ((x - 0.5 + gamma_r) / e)
    some (l2 + l3 + (x - 0.5) * l4)

/-- `gamma.rs:721-725`, the free function `ln_gamma` -/
noncomputable def lnGammaFn (x : ℝ) : Option ℝ := gamma x

/-- `gamma.rs:340-344`: the `while` loop of `digamma`, result `(value, x2)` -/
noncomputable def digammaLoop : ℕ → ℝ → ℝ → Option (ℝ × ℝ)
  | 0, value, x2 => if x2 < 8.5 then none else some (value, x2)
  | n + 1, value, x2 =>
    if x2 < 8.5 then do
      let q ← R.div 1 x2
      digammaLoop n (value - q) (x2 + 1)
    else some (value, x2)

/-- `gamma.rs:348-368`: the expansion added to the loop result -/
noncomputable def stirling (x2 : ℝ) : ℝ :=
  let r := 1 / x2
  let r2 := r * r
  Real.log x2 - 0.5 * r
    - r2 * (1 / 12 - r2 * (1 / 120 - r2 * (1 / 252 - r2 * (1 / 240 - r2 * (1 / 132
      - r2 * (691 / 32760 - r2 * (1 / 12)))))))

/-- `gamma.rs:334-369`, `digamma`; the loop ends with `x2 ≥ 8.5`, so the expansion divides by no zero -/
noncomputable def digamma (fuel : ℕ) (x : ℝ) : Option ℝ := do
  let r ← digammaLoop fuel 0 x
  some (r.1 + stirling r.2)

/-- `gamma.rs:424-434`, the series loop of `gamma_lr`, result `ans2` -/
noncomputable def lrSeries (x : ℝ) : ℕ → ℝ → ℝ → ℝ → Option ℝ
  | 0, _, _, _ => none
  | n + 1, r2, c2, ans2 => do
    let r2 := r2 + 1
    let q ← R.div x r2
    let c2 := c2 * q
    let ans2 := ans2 + c2
    let t ← R.div c2 ans2
    if t ≤ 0.000000000000001 then some ans2 else lrSeries x n r2 c2 ans2

/-- the variables of the continued fraction loop of `gamma_lr`, `gamma.rs:438-446` -/
structure CF where
  y : ℝ
  z : ℝ
  c : ℝ
  p3 : ℝ
  q3 : ℝ
  p2 : ℝ
  q2 : ℝ
  ans : ℝ

/-- `gamma.rs:448-482`, the continued fraction loop of `gamma_lr`, result `ans` -/
noncomputable def lrFrac : ℕ → CF → Option ℝ
  | 0, _ => none
  | n + 1, s => do
    let y := s.y + 1
    let z := s.z + 2
    let c := s.c + 1
    let yc := y * c
    let p := s.p2 * z - s.p3 * yc
    let q := s.q2 * z - s.q3 * yc
    let k : ℝ := if |p| > 4503599627370496 then 2.22044604925031308085e-16 else 1
    let p3 := s.p2 * k
    let p2 := p * k
    let q3 := s.q2 * k
    let q2 := q * k
    if q ≠ 0 then do
      let nextans ← R.div p q
      let error ← R.div (s.ans - nextans) nextans
      if |error| ≤ 0.000000000000001 then some nextans
      else lrFrac n ⟨y, z, c, p3, q3, p2, q2, nextans⟩
    else lrFrac n ⟨y, z, c, p3, q3, p2, q2, s.ans⟩

/-- `gamma.rs:438-446`, the variables before the loop -/
noncomputable def lrFracInit (a x : ℝ) : Option CF := do
  let y := 1 - a
  let z := x + y + 1
  let p2 := x + 1
  let q2 := z * x
  let ans ← R.div p2 q2
  some ⟨y, z, 0, 1, x, p2, q2, ans⟩

/-- `gamma.rs:386-485`, `gamma_lr` -/
noncomputable def gammaLr (fuel : ℕ) (a x : ℝ) : Option ℝ :=
  if x ≤ 0 then none
  else if a = 0 then some 1
  else if x = 0 then some 0
  else do
    let lg ← lnGamma a
    let ax := a * Real.log x - x - lg
    if ax < -709.78271289338399 then
      if a < x then some 1 else some 0
    else if x ≤ 1 ∨ x ≤ a then do
      let ans2 ← lrSeries x fuel a 1 1
      R.div (Real.exp ax * ans2) a
    else do
      let s ← lrFracInit a x
      let ans ← lrFrac fuel s
      some (1 - Real.exp ax * ans)

/-- `gamma.rs:376-379`, `gamma_ur` -/
noncomputable def gammaUr (fuel : ℕ) (a x : ℝ) : Option ℝ := do
  let v ← gammaLr fuel a x
  some (1 - v)

/-- `gamma.rs:371-374`, `gamma_u` -/
noncomputable def gammaU (fuel : ℕ) (a x : ℝ) : Option ℝ := do
  let v ← gammaUr fuel a x
  let g ← gamma a
  some (v * g)

/-- `gamma.rs:381-384`, `gamma_l` -/
noncomputable def gammaL (fuel : ℕ) (a x : ℝ) : Option ℝ := do
  let v ← gammaLr fuel a x
  let g ← gamma a
  some (v * g)

/-- `gamma.rs:642-654`, the inner function `r` of `gamma_ur_inv` -/
noncomputable def urInvR (a x : ℝ) : Option ℝ :=
  if a ≤ 0 then none
  else if x < 0 then none
  else do
    let g ← gamma a
    R.div (x ^ a * Real.exp (-x)) g

/-- `gamma.rs:502-572`, the start value `x_0` of `gamma_ur_inv`; `pow` of a negative number is a NaN, here `none` -/
noncomputable def urInvStart (a q : ℝ) : Option ℝ := do
  let c : ℝ := 0.5772156649015328606065
  let g ← gamma a
  let b := q * g
  let p := 1 - q
  if 0.6 < b ∨ (0.45 ≤ b ∧ a ≥ 0.3) then do
    let u ←
      if b * q > 1.0e-8 then do
        let g1 ← gamma (a + 1)
        if p * g1 < 0 then none else some ((p * g1) ^ (1 / a))
      else some (Real.exp (-q / a - c))
    R.div u (1 - u / (a + 1))
  else if a < 0.3 ∧ 0.35 ≤ b ∧ b ≤ 0.6 then
    let t := Real.exp (-c - b)
    let u := t * Real.exp t
    some (t * Real.exp u)
  else if (0.15 ≤ b ∧ b < 0.35) ∨ (0.35 ≤ a ∧ 0.15 ≤ b ∧ b < 0.45) then do
    let lb ← R.ln b
    let y := -lb
    let ly ← R.ln y
    let v := y - (1 - a) * ly
    let lv ← R.ln v
    let f ← R.div (1 - a) (1 + v)
    let lf ← R.ln (1 + f)
    some (y - (1 - a) * lv - lf)
  else if 0.01 < b ∧ b < 0.15 then do
    let lb ← R.ln b
    let y := -lb
    let ly ← R.ln y
    let v := y - (1 - a) * ly
    let lv ← R.ln v
    let f ← R.div (v * v + 2 * (3 - a) * v + (2 - a) * (3 - a)) (v * v + (5 - a) * v + 2)
    let lf ← R.ln f
    some (y - (1 - a) * lv - lf)
  else do
    let lb ← R.ln b
    let y := -lb
    let ly ← R.ln y
    let c1 := (a - 1) * ly
    let c2 := (a - 1) * (1 + c1)
    let c12 := c1 * c1
    let c3 := (a - 1) * (-c12 / 2 + (a - 2) * c1 + (3 * a - 5) / 2)
    let a2 := a * a
    let c13 := c12 * c1
    let c4 := (a - 1) * (c13 / 3 - (3 * a - 5) / 2 * c12 + (a2 + -6 * a + 7) * c1 + (11 * a2 - 46 * a + 47) / 6)
    let c14 := c13 * c1
    let a3 := a2 * a
    let c5 := (a - 1) * (-c14 / 4 + (11 * a - 17) / 6 * c13 + (-3 * a2 + 13 * a - 13) * c12
      + (2 * a3 - 25 * a2 + 72 * a - 61) / 2 * c1 + (25 * a3 - 195 * a2 + 477 * a - 379) / 12)
    let y2 := y * y
    let y3 := y2 * y
    let y4 := y3 * y
    let q1 ← R.div c2 y
    let q2 ← R.div c3 y2
    let q3 ← R.div c4 y3
    let q4 ← R.div c5 y4
    some (y + c1 + q1 + q2 + q3 + q4)

/-- `gamma.rs:578-634`, one round of `gamma_ur_inv`: the next value, and whether it is returned at once -/
noncomputable def urInvStep (fuel : ℕ) (a q x : ℝ) : Option (ℝ × Bool) := do
  let eps : ℝ := 1.0e-10
  let tau : ℝ := 1.0e-5
  let p := 1 - q
  let r ← urInvR a x
  let w := (a - 1 - x) / 2
  let t ←
    if p ≤ 0.5 then do
      let l ← gammaLr fuel a x
      R.div (l - p) r
    else do
      let u ← gammaUr fuel a x
      R.div (q - u) r
  if |t| ≤ 0.1 ∧ |w * t| ≤ 0.1 then
    let k := w * t * t
    let h := t + k
    let x1 := x * (1 - h)
    if |w| ≥ 1 ∧ |k| ≤ eps then some (x1, true) else some (x1, false)
  else
    let h := t
    let x1 := x * (1 - h)
    if |h| < eps then some (x1, true)
    else if |h| ≤ tau then
      if p ≤ 0.5 then do
        let l ← gammaLr fuel a x
        if |l - p| < tau * p then some (x1, true) else some (x1, false)
      else do
        let u ← gammaUr fuel a x
        if |q - u| ≤ tau * q then some (x1, true) else some (x1, false)
    else some (x1, false)

/-- `gamma.rs:576-640`, the loop of `gamma_ur_inv` with `n` rounds left -/
noncomputable def urInvLoop (fuel : ℕ) (a q : ℝ) : ℕ → ℝ → Option ℝ
  | 0, x => some x
  | n + 1, x => do
    let r ← urInvStep fuel a q x
    if r.2 then some r.1 else urInvLoop fuel a q n r.1

/-- `gamma.rs:490-655`, `gamma_ur_inv` -/
noncomputable def gammaUrInv (fuel : ℕ) (a q : ℝ) : Option ℝ :=
  if a = 1 then do
    let l ← R.ln q
    some (-l)
  else do
    let x0 ← urInvStart a q
    urInvLoop fuel a q 20 x0

/-- `gamma.rs:657-660`, `gamma_lr_inv` -/
noncomputable def gammaLrInv (fuel : ℕ) (a p : ℝ) : Option ℝ := do
  let v ← gammaUrInv fuel a p
  some (1 - v)

/-! ## `beta.rs` -/

/-- `beta.rs:109-112`, `beta` -/
noncomputable def beta (x y : ℝ) : Option ℝ := do
  let gx ← gamma x
  let gy ← gamma y
  let gxy ← gamma (x + y)
  R.div (gx * gy) gxy

/-- The conversion `as i32` of a non-negative float: truncation, cut off at the largest `i32` -/
noncomputable def toI32 (v : ℝ) : ℤ := min ⌊v⌋ (2 ^ 31 - 1)

/-- `beta.rs:188-221`, the loop of `beta_inc_reg`; the result is `value` when the accuracy is reached.  `ns - 1`
underflows below the smallest `i32`; that number is the parameter `lo`. -/
noncomputable def betaLoop (lo : ℤ) (pp qq xx : ℝ) : ℕ → ℝ → ℝ → ℝ → ℝ → ℝ → ℝ → ℤ → Option ℝ
  | 0, _, _, _, _, _, _, _ => none
  | n + 1, term, value, temp, ai, rx, psq, ns => do
    let term ← R.div (term * temp * rx) (pp + ai)
    let value := value + term
    let temp := |term|
    if temp ≤ 0.1e-14 ∧ temp ≤ 0.1e-14 * value then some value
    else
      let ai := ai + 1
      let ns := ns - 1
      if ns < lo then none
      else if 0 ≤ ns then
        betaLoop lo pp qq xx n term value (qq - ai) ai (if ns = 0 then xx else rx) psq ns
      else
        betaLoop lo pp qq xx n term value psq ai rx (psq + 1) ns

/-- `beta.rs:172-203` without the swap back: the value for the chosen tail -/
noncomputable def betaTail (lo : ℤ) (fuel : ℕ) (a b xx cx pp qq : ℝ) : Option ℝ := do
  let psq := a + b
  let ns := toI32 (qq + cx * psq)
  let rx0 ← R.div xx cx
  let rx := if ns = 0 then xx else rx0
  let value ← betaLoop lo pp qq xx fuel 1 1 (qq - 1) 1 rx psq ns
  let lx ← R.ln xx
  let lc ← R.ln cx
  let be ← beta a b
  let lb ← R.ln be
  R.div (value * Real.exp (pp * lx + (qq - 1) * lc - lb)) pp

/-- `beta.rs:121-224`, `beta_inc_reg`; `lo` is the smallest `i32`, `-2^31` -/
noncomputable def betaIncReg (lo : ℤ) (fuel : ℕ) (x a b : ℝ) : Option ℝ :=
  if a ≤ 0 ∨ b ≤ 0 then none
  else if 0 > x ∨ x > 1 then none
  else if x = 0 ∨ x = 1 then some x
  else if a < (a + b) * x then do
    let v ← betaTail lo fuel a b (1 - x) x b a
    some (1 - v)
  else betaTail lo fuel a b x (1 - x) a b

/-- `beta.rs:114-117`, `beta_inc` -/
noncomputable def betaInc (lo : ℤ) (fuel : ℕ) (x a b : ℝ) : Option ℝ := do
  let v ← beta a b
  let w ← betaIncReg lo fuel x a b
  some (v * w)

/-! ## `error.rs` -/

/-- `algebra/abstr/sign.rs:31-39`, `sign` -/
noncomputable def sgn (x : ℝ) : ℝ := if x > 0 then 1 else if x ≥ 0 ∧ x ≤ 0 then 0 else -1

/-- `error.rs:72-79`, `erf` -/
noncomputable def erf (fuel : ℕ) (x : ℝ) : Option ℝ :=
  if x = 0 then some x
  else do
    let u ← gammaU fuel 0.5 (x * x)
    some (sgn x * (1 - u / Real.sqrt Real.pi))

/-- `error.rs:81-84`, `erfc` -/
noncomputable def erfc (fuel : ℕ) (x : ℝ) : Option ℝ := do
  let e ← erf fuel x
  some (1 - e)

/-- `error.rs:359-371`, `horner`; `c.len() - 1` underflows for an empty slice -/
def horner (x : ℝ) (c : List ℝ) : Option ℝ :=
  if c.length = 0 then none
  else
    let last := c.length - 1
    let f := c.getD last 0 * x
    let f := (List.range' 1 (last - 1)).reverse.foldl (fun f i => (f + c.getD i 0) * x) f
    some (f + c.getD 0 0)

/-- `error.rs:373-383`, `copysign` -/
noncomputable def copysign (a b : ℝ) : ℝ :=
  if (a < 0 ∧ ¬ b < 0) ∨ (¬ a < 0 ∧ b < 0) then -a else a

/-- `error.rs:92-98`, `factors_leq075_p` -/
noncomputable def f64Leq075P : List ℝ :=
  [0.160304955844066229311e2, -0.90784959262960326650e2, 0.18644914861620987391e3,
    -0.16900142734642382420e3, 0.6545466284794487048e2, -0.864213011587247794e1,
    0.1760587821390590]

/-- `error.rs:100-105`, `factors_leq075_q` -/
noncomputable def f64Leq075Q : List ℝ :=
  [0.147806470715138316110e2, -0.91374167024260313936e2, 0.21015790486205317714e3,
    -0.22210254121855132366e3, 0.10760453916055123830e3, -0.206010730328265443e2,
    0.1e1]

/-- `error.rs:107-114`, `factors_leg09375_p` -/
noncomputable def f64Leq09375P : List ℝ :=
  [-0.152389263440726128e-1, 0.3444556924136125216, -0.29344398672542478687e1,
    0.11763505705217827302e2, -0.22655292823101104193e2, 0.19121334396580330163e2,
    -0.5478927619598318769e1, 0.237516689024448]

/-- `error.rs:116-123`, `factors_leg09375_q` -/
noncomputable def f64Leq09375Q : List ℝ :=
  [-0.108465169602059954e-1, 0.2610628885843078511, -0.24068318104393757995e1,
    0.10695129973387014469e2, -0.23716715521596581025e2, 0.24640158943917284883e2,
    -0.10014376349783070835e2, 0.1e1]

/-- `error.rs:125-133`, `factors_p` -/
noncomputable def f64P : List ℝ :=
  [0.10501311523733438116e-3, 0.1053261131423333816425e-1, 0.26987802736243283544516,
    0.23268695788919690806414e1, 0.71678547949107996810001e1, 0.85475611822167827825185e1,
    0.68738088073543839802913e1, 0.3627002483095870893002e1, 0.886062739296515468149]

/-- `error.rs:135-144`, `factors_q` -/
noncomputable def f64Q : List ℝ :=
  [0.10501266687030337690e-3, 0.1053286230093332753111e-1, 0.27019862373751554845553,
    0.23501436397970253259123e1, 0.76078028785801277064351e1, 0.111815861040569078273451e2,
    0.119487879184353966678438e2, 0.81922409747269907893913e1, 0.4099387907636801536145e1,
    0.1e1]

/-- `error.rs:212-214`, `factors_leq075_p` -/
noncomputable def f32Leq075P : List ℝ :=
  [-0.1309599674222e2, 0.2678522576022, -0.9289057365e1]

/-- `error.rs:216-219`, `factors_leq075_q` -/
noncomputable def f32Leq075Q : List ℝ :=
  [-0.120749426297e2, 0.30960614529e2, -0.17149977991e2,
    0.1e1]

/-- `error.rs:221-224`, `factors_leg09375_p` -/
noncomputable def f32Leq09375P : List ℝ :=
  [-0.124025652212e0, 0.10688059574e1, -0.19594556078e1,
    0.4230581357e0]

/-- `error.rs:226-229`, `factors_leg09375_q` -/
noncomputable def f32Leq09375Q : List ℝ :=
  [0.8827697997e-1, 0.8900743359e0, -0.21757031196e1,
    0.1e1]

/-- `error.rs:231-236`, `factors_p` -/
noncomputable def f32P : List ℝ :=
  [0.1550470003116e0, 0.1382719649631e1, 0.690969348887e0,
    -0.1128081391617e1, 0.680544246825e0, -0.16444156791e0]

/-- `error.rs:238-240`, `factors_q` -/
noncomputable def f32Q : List ℝ :=
  [0.155024849822e0, 0.1385228141995e1, 0.1e1]

/-- The tables of `erfinv` for one float type: the numerator and denominator of the three ranges -/
structure Tables where
  p1 : List ℝ
  q1 : List ℝ
  p2 : List ℝ
  q2 : List ℝ
  p3 : List ℝ
  q3 : List ℝ

/-- the tables of `f64` -/
noncomputable def tables64 : Tables := ⟨f64Leq075P, f64Leq075Q, f64Leq09375P, f64Leq09375Q, f64P, f64Q⟩

/-- the tables of `f32` -/
noncomputable def tables32 : Tables := ⟨f32Leq075P, f32Leq075Q, f32Leq09375P, f32Leq09375Q, f32P, f32Q⟩

/-- `error.rs:164-180` and `256-272`: `erfinv` for `|x| < 1` -/
noncomputable def erfinvFin (T : Tables) (x : ℝ) : Option ℝ :=
  let a := |x|
  if a ≤ 0.75 then do
    let t := x * x - 0.5625
    let p ← horner t T.p1
    let q ← horner t T.q1
    R.div (x * p) q
  else if a ≤ 0.9375 then do
    let t := x * x - 0.87890625
    let p ← horner t T.p2
    let q ← horner t T.q2
    R.div (x * p) q
  else do
    let l ← R.ln (1 - a)
    let t ← R.div 1 (Real.sqrt (-l))
    let p ← horner t T.p3
    let q ← horner t T.q3
    R.div p (copysign t x * q)

/-- `error.rs:90-182` (`f64`) and `210-274` (`f32`), `erfinv`; the value is an extended real, since `±1` are mapped to
the infinities -/
noncomputable def erfinv (T : Tables) (x : ℝ) : Option EReal :=
  if |x| ≥ 1 then
    if x = 1 then some ⊤
    else if x = -1 then some ⊥
    else none
  else do
    let v ← erfinvFin T x
    some (v : EReal)

/-- `error.rs:184-191` and `276-283`, `erfcinv` -/
noncomputable def erfcinv (T : Tables) (x : ℝ) : Option EReal :=
  if x < 0 ∨ x > 2 then none else erfinv T (1 - x)

end Special
end Verif
