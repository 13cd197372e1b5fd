import Verif.VecModel
import Mathlib.Algebra.Order.Field.Basic
import Mathlib.Algebra.Order.Floor.Defs

/-!
# Model of the explicit Runge-Kutta methods and the fixed step size stepper

Paths are relative to `/repo/src/analysis/differential_equation/ordinary/`. The right-hand side
`ExplicitODE::func(&t, &x)` is a function that may panic.
-/

namespace Verif
namespace Ode
variable {K : Type}

/-- `explicit_ode.rs`: `func` -/
abbrev Rhs (K : Type) := K → Mat K → Option (Mat K)

/-- `butcher.rs:21-26`, `ButcherFixedStepSize` -/
structure Tableau (K : Type) where
  a : List K
  b : List K
  c : List K

/-- `butcher.rs:66-73`, `ButcherAdaptiveStepSize` -/
structure EmbTableau (K : Type) where
  a : List K
  b : List K
  bs : List K
  c : List K

/-- the slice `l[s..e]`; out of range is a panic -/
def sliceRange (l : List K) (s e : Nat) : Option (List K) :=
  if s ≤ e ∧ e ≤ l.length then some ((l.take e).drop s) else none

section Ops
variable [Zero K] [Add K] [Mul K]

/-- `butcher.rs:55`, `w.iter().zip(k.iter()).map(|(a, k)| k * a).fold(Vector::zero(rows), |a, b| a + b)` -/
def combine (rows : Nat) (w : List K) (k : List (Mat K)) : Option (Mat K) :=
  (w.zip k).foldlM (fun acc p => acc.add (p.2.mulScalar p.1)) (Mat.vzero rows)

/-- `butcher.rs:46-58` and `butcher.rs:101-115`: the vector of the stages `k` -/
def stages (a b c : List K) (f : Rhs K) (t : K) (x : Mat K) (h : K) : Option (List (Mat K)) := do
  let k0 ← f t x
  forRange 1 b.length (fun k j => do
    let ib := (j - 1) * j / 2
    let ie := ib + j
    let row ← sliceRange a ib ie
    let sum ← combine x.m row k
    let cj ← c[j - 1]?
    let arg ← x.add (sum.mulScalar h)
    let kj ← f (t + cj * h) arg
    some (k ++ [kj])) [k0]

/-- `butcher.rs:43-63`, `ButcherFixedStepSize::do_step` -/
def doStep (T : Tableau K) (f : Rhs K) (t : K) (x : Mat K) (h : K) : Option (Mat K) := do
  let k ← stages T.a T.b T.c f t x h
  let sum ← combine x.m T.b k
  x.add (sum.mulScalar h)

/-- `butcher.rs:98-125`, `ButcherAdaptiveStepSize::do_step` -/
def doStepEmb (T : EmbTableau K) (f : Rhs K) (t : K) (x : Mat K) (h : K) : Option (Mat K × Mat K) := do
  let k ← stages T.a T.b T.c f t x h
  let sum ← combine x.m T.b k
  let x1 ← x.add (sum.mulScalar h)
  let sumS ← combine x.m T.bs k
  let xs ← x.add (sumS.mulScalar h)
  some (x1, xs)

end Ops

section Field
variable [Field K]

/-! The tableaus. A literal like `T::from_f64(1.0 / 3.0)` is the exact fraction. -/

/-- `explicit_euler.rs:96-105` -/
def explicitEuler : Tableau K := ⟨[], [1], []⟩
/-- `heun2.rs:101-110` -/
def heun2 : Tableau K := ⟨[1], [1/2, 1/2], [1]⟩
/-- `heun3.rs:99-109` -/
def heun3 : Tableau K := ⟨[1/3, 0, 2/3], [1/4, 0, 3/4], [1/3, 2/3]⟩
/-- `kutta3.rs:97-106` -/
def kutta3 : Tableau K := ⟨[1/2, -1, 2], [1/6, 2/3, 1/6], [1/2, 1]⟩
/-- `kutta38.rs:98-109` -/
def kutta38 : Tableau K := ⟨[1/3, -1/3, 1, 1, -1, 1], [1/8, 3/8, 3/8, 1/8], [1/3, 2/3, 1]⟩
/-- `midpoint.rs:26-35` -/
def midpoint : Tableau K := ⟨[1/2], [0, 1], [1/2]⟩
/-- `ralston2.rs:25-34` -/
def ralston2 : Tableau K := ⟨[2/3], [1/4, 3/4], [2/3]⟩
/-- `ralston3.rs:25-34` -/
def ralston3 : Tableau K := ⟨[1/2, 0, 3/4], [2/9, 1/3, 4/9], [1/2, 3/4]⟩
/-- `ralston4.rs:25-37`. The constant `SQRT5` is a parameter. -/
def ralston4 (sqrt5 : K) : Tableau K :=
  ⟨[2/5,
    (-2889 + 1428 * sqrt5) / 1024, (3785 - 1620 * sqrt5) / 1024,
    (-3365 + 2094 * sqrt5) / 6040, (-975 - 3046 * sqrt5) / 2552, (467040 + 203968 * sqrt5) / 240845],
   [(263 + 24 * sqrt5) / 1812, (125 - 1000 * sqrt5) / 3828, 1024 * (3356 + 1623 * sqrt5) / 5924787,
    (30 - 4 * sqrt5) / 123],
   [2/5, (14 - 3 * sqrt5) / 16, 1]⟩
/-- `rungekutta4.rs:26-37` -/
def rungeKutta4 : Tableau K := ⟨[1/2, 0, 1/2, 0, 0, 1], [1/6, 1/3, 1/3, 1/6], [1/2, 1/2, 1]⟩
/-- `ssprk3.rs:25-35` -/
def ssprk3 : Tableau K := ⟨[1, 1/4, 1/4], [1/6, 1/6, 2/3], [1, 1/2]⟩

/-- `bogackishampine23.rs:85-97` -/
def bogackiShampine23 : EmbTableau K :=
  ⟨[1/2, 0, 3/4, 2/9, 1/3, 4/9], [2/9, 1/3, 4/9, 0], [7/24, 1/4, 1/3, 1/8], [1/2, 3/4, 1]⟩
/-- `fehlberg12.rs:110-121` -/
def fehlberg12 : EmbTableau K :=
  ⟨[1/2, 1/256, 255/256], [1/512, 255/256, 1/512], [1/256, 255/256, 0], [1/2, 1]⟩
/-- `fehlberg45.rs:109-123` -/
def fehlberg45 : EmbTableau K :=
  ⟨[1/4, 3/32, 9/32, 1932/2197, -7200/2197, 7296/2197, 439/216, -8, 3680/513, -845/4104,
    -8/27, 2, -3544/2565, 1859/4104, -11/40],
   [16/135, 0, 6656/12825, 28561/56430, -9/50, 2/55],
   [25/216, 0, 1408/2565, 2197/4104, -1/5, 0],
   [1/4, 3/8, 12/13, 1, 1/2]⟩
/-- `cashkarp45.rs`, `default`: `b_s` comes before `b` in the source -/
def cashKarp45 : EmbTableau K :=
  ⟨[1/5, 3/40, 9/40, 3/10, -9/10, 6/5, -11/54, 5/2, -70/27, 35/27,
    1631/55296, 175/512, 575/13824, 44275/110592, 253/4096],
   [2825/27648, 0, 18575/48384, 13525/55296, 277/14336, 1/4],
   [37/378, 0, 250/621, 125/594, 0, 512/1771],
   [1/5, 3/10, 3/5, 1, 7/8]⟩
/-- `dormandprince.rs:105-120` -/
def dormandPrince : EmbTableau K :=
  ⟨[1/5, 3/40, 9/40, 44/45, -56/15, 32/9, 19372/6561, -25360/2187, 64448/6561, -212/729,
    9017/3168, -355/33, 46732/5247, 49/176, -5103/18656,
    35/384, 0, 500/1113, 125/192, -2187/6784, 11/84],
   [35/384, 0, 500/1113, 125/192, -2187/6784, 11/84, 0],
   [5179/57600, 0, 7571/16695, 393/640, -92097/339200, 187/2100, 1/40],
   [1/5, 3/10, 4/5, 8/9, 1, 1]⟩
/-- `tsitouras.rs:24-40` -/
def tsitouras : EmbTableau K :=
  ⟨[161/10^3,
    -8480655492356992/10^18, 3354806554923570/10^16,
    28971530571054944/10^16, -6359448489975075/10^15, 4362295432869581/10^15,
    53258648284392596/10^16, -1174888356406283/10^14, 7495539342889836/10^15, -9249506636175525/10^17,
    58614554429464203/10^16, -1292096931784711/10^14, 8159367898576159/10^15, -7158497328140100/10^17,
      -2826905039406838/10^17,
    9646076681806523/10^17, 1/100, 4798896504144996/10^16, 1379008574103742/10^15, -3290069515436081/10^15,
      2324710524099774/10^15],
   [9646076681806523/10^17, 1/100, 4798896504144996/10^16, 1379008574103742/10^15, -3290069515436081/10^15,
    2324710524099774/10^15, 0],
   [1780011052226/10^15, 816434459657/10^15, -7880878010262/10^15, 144711007173263/10^15,
    -582357165452555/10^15, 458082105929187/10^15, 1/66],
   [161/10^3, 327/10^3, 9/10, 9800255409045097/10^16, 1, 1]⟩

/-- the types that implement `ExplicitMethod` with a tableau -/
inductive FixedMethod
  | explicitEuler | heun2 | heun3 | kutta3 | kutta38 | midpoint | ralston2 | ralston3 | ralston4 | rungeKutta4 | ssprk3
deriving DecidableEq

/-- the tableau that `default` of the type builds -/
def FixedMethod.tableau (sqrt5 : K) : FixedMethod → Tableau K
  | .explicitEuler => Ode.explicitEuler
  | .heun2 => Ode.heun2
  | .heun3 => Ode.heun3
  | .kutta3 => Ode.kutta3
  | .kutta38 => Ode.kutta38
  | .midpoint => Ode.midpoint
  | .ralston2 => Ode.ralston2
  | .ralston3 => Ode.ralston3
  | .ralston4 => Ode.ralston4 sqrt5
  | .rungeKutta4 => Ode.rungeKutta4
  | .ssprk3 => Ode.ssprk3

/-- `order`: `explicit_euler.rs:117`, `heun2.rs:122`, `heun3.rs:121`, `kutta3.rs:118`, `kutta38.rs:121`,
    `midpoint.rs:47`, `ralston2.rs:46`, `ralston3.rs:46`, `ralston4.rs:49`, `rungekutta4.rs:49`, `ssprk3.rs:47` -/
def FixedMethod.order : FixedMethod → Nat
  | .explicitEuler => 1
  | .heun2 => 2
  | .heun3 => 3
  | .kutta3 => 3
  | .kutta38 => 4
  | .midpoint => 2
  | .ralston2 => 2
  | .ralston3 => 3
  | .ralston4 => 4
  | .rungeKutta4 => 4
  | .ssprk3 => 3

/-- the types that implement `ExplicitEmbeddedMethod` -/
inductive EmbMethod
  | bogackiShampine23 | fehlberg12 | fehlberg45 | cashKarp45 | dormandPrince | tsitouras
deriving DecidableEq

/-- the tableau that `default` of the type builds -/
def EmbMethod.tableau : EmbMethod → EmbTableau K
  | .bogackiShampine23 => Ode.bogackiShampine23
  | .fehlberg12 => Ode.fehlberg12
  | .fehlberg45 => Ode.fehlberg45
  | .cashKarp45 => Ode.cashKarp45
  | .dormandPrince => Ode.dormandPrince
  | .tsitouras => Ode.tsitouras

/-- `order`: `bogackishampine23.rs:113`, `fehlberg12.rs:137`, `fehlberg45.rs:139`, `cashkarp45.rs:137`,
    `dormandprince.rs:136`, `tsitouras.rs:53` -/
def EmbMethod.order : EmbMethod → Nat × Nat
  | .bogackiShampine23 => (3, 2)
  | .fehlberg12 => (2, 1)
  | .fehlberg45 => (5, 4)
  | .cashKarp45 => (5, 4)
  | .dormandPrince => (5, 4)
  | .tsitouras => (5, 4)

end Field

/-- `Real::ceil` as an integer (`real.rs`); rounding number types have it too -/
class HasCeil (K : Type) where
  ceilZ : K → ℤ

instance [Ring K] [LinearOrder K] [FloorRing K] : HasCeil K := ⟨fun x => ⌈x⌉⟩

@[simp] theorem ceilZ_eq [Ring K] [LinearOrder K] [FloorRing K] (x : K) : HasCeil.ceilZ x = ⌈x⌉ := rfl

section Stepper
variable [Zero K] [Add K] [Sub K] [Div K] [LE K] [LT K] [DecidableLE K] [DecidableLT K] [Min K]

/-- `fixed_stepper.rs:29-37`, `FixedStepper::new` -/
def newStepper (stepSize : K) : Option K := if stepSize ≤ 0 then none else some stepSize

/-- `fixed_stepper.rs:61-74`: one iteration of the loop -/
def fixedIter (step : K → Mat K → K → Option (Mat K)) (stepSize tStop : K)
    (s : K × Mat K × List K × List (Mat K)) : Option (K × Mat K × List K × List (Mat K)) := do
  let h := min stepSize (tStop - s.1)
  let x ← step s.1 s.2.1 h
  some (s.1 + h, x, s.2.2.1 ++ [s.1], s.2.2.2 ++ [s.2.1])

/-- `fixed_stepper.rs:39-77`, `FixedStepper::solve` (and `fixed_stepper.rs:124-163`, the same for implicit methods).
    `step t x h` is `method.do_step`. The number of steps `⌈(t_stop - t_start) / step_size⌉ + 1` is not negative (and, with
    rounding, taken to be below `2^53`), so the conversion to `u64` keeps it; the division needs `step_size > 0`, which
    `new` ensures. -/
def fixedSolve [HasCeil K] (step : K → Mat K → K → Option (Mat K)) (stepSize tStart tStop : K) (init : Mat K) :
    Option (List K × List (Mat K)) :=
  if tStart > tStop then none else do
    let steps := (HasCeil.ceilZ ((tStop - tStart) / stepSize) + 1).toNat
    let r ← forRange 0 steps (fun s _ => fixedIter step stepSize tStop s) (tStart, init, [], [])
    some (r.2.2.1, r.2.2.2)

end Stepper
end Ode
end Verif
