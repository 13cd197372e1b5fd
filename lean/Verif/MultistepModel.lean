import Verif.OdeModel

/-!
# Model of the multistep methods

Paths are relative to `/repo/src/analysis/differential_equation/ordinary/`.
-/

namespace Verif
namespace Ode
section Step
variable {K : Type} [Add K] [Mul K]

/-- `prob.func(&t[n - j], &x[n - j])` with `n = x.len() - 1`; a negative index is a panic -/
def past (f : Rhs K) (ts : List K) (xs : List (Mat K)) (j : Nat) : Option (Mat K) :=
  if xs.length < j + 1 then none else do
    let x ← xs[xs.length - 1 - j]?
    let t ← ts[xs.length - 1 - j]?
    f t x

/-- `adamsbashforth.rs:221-228` and `bdf.rs:231-238`, `step_s1` -/
def stepS1 (f : Rhs K) (ts : List K) (xs : List (Mat K)) (h : K) : Option (Mat K) := do
  let f0 ← past f ts xs 0
  let x ← xs[xs.length - 1]?
  x.add (f0.mulScalar h)

/-- `adamsbashforth.rs:230-302`, `step_s2` to `step_s5`: `x_n + (f_n * w₀ + f_{n-1} * w₁ + …) * h`. The Rust code has one
    function for each list of weights. -/
def stepW (w₀ : K) (w : List K) (f : Rhs K) (ts : List K) (xs : List (Mat K)) (h : K) : Option (Mat K) := do
  let f0 ← past f ts xs 0
  let sum ← forRange 0 w.length (fun s j => do
    let fj ← past f ts xs (j + 1)
    let wj ← w[j]?
    s.add (fj.mulScalar wj)) (f0.mulScalar w₀)
  let x ← xs[xs.length - 1]?
  x.add (sum.mulScalar h)

variable [Neg K] [Div K] [NatCast K]

/-- the constant `T::from_f64(a / b)` of the formulas. (Simplified: for `f32` the quotient is first rounded to `f64`.) -/
def cst (a b : ℕ) : K := (a : K) / (b : K)

/-- `adamsbashforth.rs:193-201`: the step function for `k` -/
def abStep : Nat → Rhs K → List K → List (Mat K) → K → Option (Mat K)
  | 1 => stepS1
  | 2 => stepW (cst 3 2) [-cst 1 2]
  | 3 => stepW (cst 23 12) [-cst 16 12, cst 5 12]
  | 4 => stepW (cst 55 24) [-cst 59 24, cst 37 24, -cst 9 24]
  | 5 => stepW (cst 1901 720) [-cst 2774 720, cst 2616 720, -cst 1274 720, cst 251 720]
  | _ => fun _ _ _ _ => none

/-- `bdf.rs:202-211, 231-336`: the step function for `k`; the formulas are those of `adamsbashforth.rs`, and `step_s6`
    repeats `step_s5` -/
def bdfStep : Nat → Rhs K → List K → List (Mat K) → K → Option (Mat K)
  | 1 => stepS1
  | 2 => stepW (cst 3 2) [-cst 1 2]
  | 3 => stepW (cst 23 12) [-cst 16 12, cst 5 12]
  | 4 => stepW (cst 55 24) [-cst 59 24, cst 37 24, -cst 9 24]
  | 5 => stepW (cst 1901 720) [-cst 2774 720, cst 2616 720, -cst 1274 720, cst 251 720]
  | 6 => stepW (cst 1901 720) [-cst 2774 720, cst 2616 720, -cst 1274 720, cst 251 720]
  | _ => fun _ _ _ _ => none

end Step

section New
variable {K : Type} [Zero K] [LE K] [DecidableLE K]

/-- `adamsbashforth.rs:96-108`, `new` -/
def abNew (k : Nat) (stepSize : K) : Option (Nat × K) :=
  if k = 0 ∨ k > 5 then none else if stepSize ≤ 0 then none else some (k, stepSize)

/-- `bdf.rs:95-107`, `new` -/
def bdfNew (k : Nat) (stepSize : K) : Option (Nat × K) :=
  if k = 0 ∨ k > 6 then none else if stepSize ≤ 0 then none else some (k, stepSize)

end New

section Solve
variable {K : Type} [One K] [Add K] [Sub K] [Neg K] [Div K] [NatCast K] [LT K] [DecidableLT K] [Min K] [Max K]

/-- `adamsbashforth.rs:155-160` and `:206-212`: one step, `st` is the step function. (In the starting phase the new
    value is bound to a new variable `x_n`, but only `res_vec` is read afterwards.) -/
def msIter (st : List K → List (Mat K) → K → Option (Mat K)) (stepSize tStop : K) (s : K × List K × List (Mat K)) :
    Option (K × List K × List (Mat K)) := do
  let h := min stepSize (tStop - s.1)
  let x ← st s.2.1 s.2.2 h
  some (s.1 + h, s.2.1 ++ [s.1 + h], s.2.2 ++ [x])

/-- `adamsbashforth.rs:203-213`: the loop while `(t_n - t_stop).abs() > 0.0000000001`; `none` also when the fuel is
    used up -/
def msLoop (st : List K → List (Mat K) → K → Option (Mat K)) (stepSize tStop : K) :
    Nat → K × List K × List (Mat K) → Option (K × List K × List (Mat K))
  | 0, _ => none
  | fuel + 1, s =>
    if max (s.1 - tStop) (-(s.1 - tStop)) > 1 / ((10 ^ 10 : ℕ) : K) then do
      let s' ← msIter st stepSize tStop s
      msLoop st stepSize tStop fuel s'
    else some s

/-- `adamsbashforth.rs:129-216` and `bdf.rs:128-226`, `solve`; `st j` is the step function `step_sj` -/
def msSolve (st : Nat → List K → List (Mat K) → K → Option (Mat K)) (fuel k : Nat) (stepSize tStart tStop : K)
    (init : Mat K) : Option (List K × List (Mat K)) :=
  if tStart > tStop then none else do
    let s ← forRange 1 k (fun s j => msIter (st j) stepSize tStop s) (tStart, [tStart], [init])
    let r ← msLoop (st k) stepSize tStop fuel s
    some (r.2.1, r.2.2)

end Solve

end Ode
end Verif
