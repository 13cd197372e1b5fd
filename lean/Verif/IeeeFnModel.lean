import Verif.IeeeModel
import Verif.AdaptiveModel
import Verif.SpecialModel

/-!
# Models that run on the reals and on `f32`/`f64` with NaN and infinities

The models of `SpecialModel.lean` are about the reals.  Here are the same loops for any type of numbers: `div` is the
division (partial on the reals, total on `Ie p e`), and `ln`, `exp`, `lnG` (the logarithm of the gamma function), `beta`
are parameters.  The theorems at the end of each part state that on the reals these are the functions of
`SpecialModel.lean`.
-/

namespace Verif

/-- no division stops a program that computes with `f32` or `f64` -/
instance {p e : ℕ} : Ode.DivStop (Ie p e) := ⟨fun _ => False, fun _ => inferInstanceAs (Decidable False)⟩

/-- `/repo/src/analysis/differential_equation/ordinary/fixed_stepper.rs:58-60`: `ceil` of a finite number.  The number of
    steps is `limit.to_u64()` with `limit = ceil(..) + 1`; for NaN the conversion gives 0, hence `-1` here; an infinite
    number of steps (in the code: the largest `u64`, too many for `Vec::with_capacity`) is not used in any theorem. -/
instance {p e : ℕ} : Ode.HasCeil (Ie p e) := ⟨fun
  | .nan => -1
  | .inf _ => -1
  | .fin x => ⌈x⌉⟩

namespace Special
variable {K : Type} [Zero K] [One K] [Add K] [Sub K] [Mul K] [Neg K] [NatCast K] [OfScientific K] [DecidableEq K]
  [LE K] [LT K] [DecidableLE K] [DecidableLT K] [Max K]

/-- `/repo/src/special/gamma.rs:424-434`, the series loop of `gamma_lr`, result `ans2` -/
def lrSeriesG (div : K → K → Option K) (x : K) : ℕ → K → K → K → Option K
  | 0, _, _, _ => none
  | n + 1, r2, c2, ans2 => do
    let r2 := r2 + 1
    let q ← div x r2
    let c2 := c2 * q
    let ans2 := ans2 + c2
    let t ← div c2 ans2
    if t ≤ 0.000000000000001 then some ans2 else lrSeriesG div x n r2 c2 ans2

/-- the variables of the continued fraction loop of `gamma_lr`, `/repo/src/special/gamma.rs:438-446` -/
structure CFG (K : Type) where
  y : K
  z : K
  c : K
  p3 : K
  q3 : K
  p2 : K
  q2 : K
  ans : K

/-- `/repo/src/special/gamma.rs:448-482`, the continued fraction loop of `gamma_lr`, result `ans` -/
def lrFracG (div : K → K → Option K) : ℕ → CFG K → Option K
  | 0, _ => none
  | n + 1, s => do
    let y := s.y + 1
    let z := s.z + 2
    let c := s.c + 1
    let yc := y * c
    let p := s.p2 * z - s.p3 * yc
    let q := s.q2 * z - s.q3 * yc
    let k : K := if max p (-p) > 4503599627370496 then 2.22044604925031308085e-16 else 1
    let p3 := s.p2 * k
    let p2 := p * k
    let q3 := s.q2 * k
    let q2 := q * k
    if q ≠ 0 then do
      let nextans ← div p q
      let error ← div (s.ans - nextans) nextans
      if max error (-error) ≤ 0.000000000000001 then some nextans
      else lrFracG div n ⟨y, z, c, p3, q3, p2, q2, nextans⟩
    else lrFracG div n ⟨y, z, c, p3, q3, p2, q2, s.ans⟩

/-- `/repo/src/special/gamma.rs:438-446`, the variables before the loop -/
def lrFracInitG (div : K → K → Option K) (a x : K) : Option (CFG K) := do
  let y := 1 - a
  let z := x + y + 1
  let p2 := x + 1
  let q2 := z * x
  let ans ← div p2 q2
  some ⟨y, z, 0, 1, x, p2, q2, ans⟩

/-- `/repo/src/special/gamma.rs:386-485`, `gamma_lr` -/
def gammaLrG (div : K → K → Option K) (ln exp : K → K) (lnG : K → Option K) (fuel : ℕ) (a x : K) : Option K :=
  if x ≤ 0 then none
  else if a = 0 then some 1
  else if x = 0 then some 0
  else do
    let lg ← lnG a
    let ax := a * ln x - x - lg
    if ax < -709.78271289338399 then
      if a < x then some 1 else some 0
    else if x ≤ 1 ∨ x ≤ a then do
      let ans2 ← lrSeriesG div x fuel a 1 1
      div (exp ax * ans2) a
    else do
      let s ← lrFracInitG div a x
      let ans ← lrFracG div fuel s
      some (1 - exp ax * ans)

/-- `/repo/src/special/beta.rs:188-221`, the loop of `beta_inc_reg`; `lo` is the smallest `i32` -/
def betaLoopG (div : K → K → Option K) (lo : ℤ) (pp qq xx : K) : ℕ → K → K → K → K → K → K → ℤ → Option K
  | 0, _, _, _, _, _, _, _ => none
  | n + 1, term, value, temp, ai, rx, psq, ns => do
    let term ← div (term * temp * rx) (pp + ai)
    let value := value + term
    let temp := max term (-term)
    if temp ≤ 0.1e-14 ∧ temp ≤ 0.1e-14 * value then some value
    else
      let ai := ai + 1
      let ns := ns - 1
      if ns < lo then none
      else if 0 ≤ ns then
        betaLoopG div lo pp qq xx n term value (qq - ai) ai (if ns = 0 then xx else rx) psq ns
      else
        betaLoopG div lo pp qq xx n term value psq ai rx (psq + 1) ns

/-- `/repo/src/special/beta.rs:172-203` without the swap back: the value for the chosen tail; `toI` is the conversion to
    `i32`, `ln` the logarithm -/
def betaTailG (div : K → K → Option K) (toI : K → ℤ) (ln : K → Option K) (exp : K → K) (beta : K → K → Option K) (lo : ℤ)
    (fuel : ℕ) (a b xx cx pp qq : K) : Option K := do
  let psq := a + b
  let ns := toI (qq + cx * psq)
  let rx0 ← div xx cx
  let rx := if ns = 0 then xx else rx0
  let value ← betaLoopG div lo pp qq xx fuel 1 1 (qq - 1) 1 rx psq ns
  let lx ← ln xx
  let lc ← ln cx
  let be ← beta a b
  let lb ← ln be
  div (value * exp (pp * lx + (qq - 1) * lc - lb)) pp

/-- `/repo/src/special/beta.rs:121-224`, `beta_inc_reg` -/
def betaIncRegG (div : K → K → Option K) (toI : K → ℤ) (ln : K → Option K) (exp : K → K) (beta : K → K → Option K) (lo : ℤ)
    (fuel : ℕ) (x a b : K) : Option K :=
  if a ≤ 0 ∨ b ≤ 0 then none
  else if 0 > x ∨ x > 1 then none
  else if x = 0 ∨ x = 1 then some x
  else if a < (a + b) * x then do
    let v ← betaTailG div toI ln exp beta lo fuel a b (1 - x) x b a
    some (1 - v)
  else betaTailG div toI ln exp beta lo fuel a b x (1 - x) a b

theorem lrSeriesG_real (x : ℝ) (n : ℕ) : ∀ r c s, lrSeriesG R.div x n r c s = lrSeries x n r c s := by
  induction n with
  | zero => intro r c s; rfl
  | succ n ih => intro r c s; simp only [lrSeriesG, lrSeries, ih]

theorem lrFracG_real (n : ℕ) : ∀ s : CFG ℝ, lrFracG R.div n s = lrFrac n ⟨s.y, s.z, s.c, s.p3, s.q3, s.p2, s.q2, s.ans⟩ := by
  induction n with
  | zero => intro s; rfl
  | succ n ih => intro s; simp only [lrFracG, lrFrac, ih, ← abs_eq_max_neg]; congr!

/-- on the reals, `gammaLrG` is the function `gammaLr` of `SpecialModel.lean` -/
theorem gammaLrG_real (fuel : ℕ) (a x : ℝ) :
    gammaLrG R.div Real.log Real.exp lnGamma fuel a x = gammaLr fuel a x := by
  unfold gammaLrG gammaLr
  simp only [lrSeriesG_real, lrFracG_real, lrFracInitG, lrFracInit]
  simp only [Option.bind_eq_bind]
  cases R.div (x + 1) ((x + (1 - a) + 1) * x) <;> simp only [Option.bind_some, Option.bind_none] <;> congr!

theorem betaLoopG_real (lo : ℤ) (pp qq xx : ℝ) (n : ℕ) : ∀ a b c d e f i,
    betaLoopG R.div lo pp qq xx n a b c d e f i = betaLoop lo pp qq xx n a b c d e f i := by
  induction n with
  | zero => intros; rfl
  | succ n ih => intros; simp only [betaLoopG, betaLoop, ih, ← abs_eq_max_neg]

/-- on the reals, `betaIncRegG` is the function `betaIncReg` of `SpecialModel.lean` -/
theorem betaIncRegG_real (lo : ℤ) (fuel : ℕ) (x a b : ℝ) :
    betaIncRegG R.div toI32 R.ln Real.exp beta lo fuel x a b = betaIncReg lo fuel x a b := by
  unfold betaIncRegG betaIncReg betaTailG betaTail
  simp only [betaLoopG_real]

end Special
end Verif
