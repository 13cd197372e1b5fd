import Verif.OdeModel
import Mathlib.Algebra.Order.Field.Basic

/-!
# Model of the adaptive stepper

`/repo/src/analysis/differential_equation/ordinary/adaptive_stepper.rs`. `sqrt` and `pow` are parameters; a division by
zero is `none` in an exact field (the Rust code goes on with an infinite value or NaN; so does the model on `Ie p e`).
-/

namespace Verif
namespace Ode

/-- the divisions at which the model stops: by zero if there is no infinity and no NaN (`IeeeFnModel.lean`
    for the numbers that have them) -/
class DivStop (K : Type) where
  /-- the divisor at which the model stops -/
  bad : K → Prop
  /-- decidable -/
  dec : DecidablePred bad

instance (K : Type) [Field K] [DecidableEq K] : DivStop K := ⟨fun x => x = 0, fun x => inferInstanceAs (Decidable (x = 0))⟩

variable {K : Type} [Zero K] [One K] [Add K] [Sub K] [Mul K] [Neg K] [Div K] [NatCast K] [DecidableEq K]
  [LE K] [LT K] [DecidableLE K] [DecidableLT K] [Min K] [Max K] [DivStop K]

instance (x : K) : Decidable (DivStop.bad x) := DivStop.dec x

/-- `adaptive_stepper.rs:14-23`, `ProportionalControl` -/
structure Control (K : Type) where
  nMax : Nat
  h0 : K
  fac : K
  facMin : K
  facMax : K
  absTol : K
  relTol : K

/-- `adaptive_stepper.rs:206-226`, `calc_error`: `n` is the number of columns -/
def calcError (sqrt : K → K) (c : Control K) (y yHat : Mat K) : Option K := do
  let n := y.n
  let sum ← forRange 0 n (fun sum i => do
    let yi ← y.vget i
    let yhi ← yHat.vget i
    let sc := c.absTol + max yi (-yi) * c.relTol
    if DivStop.bad sc then none else
      let k := (yi - yhi) / sc
      some (sum + k * k)) 0
  if n = 0 then none else some (sqrt (sum / (n : K)))

/-- `adaptive_stepper.rs:182-197`: `h` after a step with the error `err`: `s = fac * (1 / err)^l`, cut off at `fac_min` and `fac_max` -/
def newStep (pow : K → K → K) (l : K) (c : Control K) (err h : K) : K :=
  if err = 0 then h else
    let s := c.fac * pow (1 / err) l
    let s := if s < c.facMin then c.facMin else s
    let s := if s > c.facMax then c.facMax else s
    s * h

/-- the variables of the loop -/
structure AState (K : Type) where
  n : Nat
  t : K
  x : Mat K
  h : K
  ts : List K
  xs : List (Mat K)

/-- `adaptive_stepper.rs:166-198`, `solve`: one iteration of the loop -/
def adaptIter (sqrt : K → K) (pow : K → K → K) (l : K) (c : Control K) (step : K → Mat K → K → Option (Mat K × Mat K))
    (tStop : K) (s : AState K) : Option (AState K) := do
  let h := min s.h (tStop - s.t)
  let r ← step s.t s.x h
  let err ← calcError sqrt c r.1 r.2
  let h' := newStep pow l c err h
  if err ≤ 1 then
    some ⟨s.n + 1, s.t + h, r.1, h', s.ts ++ [s.t + h], s.xs ++ [r.1]⟩
  else some { s with h := h' }

/-- `adaptive_stepper.rs:166-198`, `solve`: the loop; rejected steps are not counted in `n`, so that the loop may run for ever, and `none` is also
    returned when the fuel is used up -/
def adaptLoop (sqrt : K → K) (pow : K → K → K) (l : K) (c : Control K) (step : K → Mat K → K → Option (Mat K × Mat K))
    (tStop : K) : Nat → AState K → Option (AState K)
  | 0, _ => none
  | fuel + 1, s =>
    if s.n < c.nMax ∧ s.t < tStop then do
      let s' ← adaptIter sqrt pow l c step tStop s
      adaptLoop sqrt pow l c step tStop fuel s'
    else some s

/-- `adaptive_stepper.rs:136-204`, `solve`; the inner `none` is `Err`. `q` is the first component of `order()`. -/
def adaptSolve (sqrt : K → K) (pow : K → K → K) (q : Nat) (c : Control K)
    (step : K → Mat K → K → Option (Mat K × Mat K)) (fuel : Nat) (tStart tStop : K) (init : Mat K) :
    Option (Option (List K × List (Mat K))) :=
  if tStart > tStop then none else do
    let l : K := 1 / ((q : K) + 1)
    let s ← adaptLoop sqrt pow l c step tStop fuel ⟨0, tStart, init, c.h0, [tStart], [init]⟩
    if s.t < tStop then some none else some (some (s.ts, s.xs))

end Ode
end Verif
