import Mathlib.Algebra.Order.Field.Basic
import Mathlib.Algebra.Order.Floor.Ring
import Mathlib.Data.Rat.Floor
import Verif.Loop

/-!
# Model of `/repo/src/statistics/combins.rs` and of the Bernoulli and binomial distributions

Machine integers are natural numbers with explicit range checks; arithmetic overflow is a panic (`none`), as in a
build with overflow checks.  `pow` of a float with an integral exponent is the natural power (`0.powf(0) = 1`).
-/

namespace Verif
namespace Stat

/-- `combins.rs:8-12`: `while n > 0 { result = result * n; n = n - 1 }` with `u64` arithmetic -/
def factLoop : Nat → Nat → Option Nat
  | 0, result => some result
  | n + 1, result => if result * (n + 1) < 2 ^ 64 then factLoop n (result * (n + 1)) else none

/-- `combins.rs:4-14`, `factorial` -/
def factorial (f : Nat) : Option Nat := factLoop f 1

/-- `combins.rs:4-14` in a release build, where `u64` products wrap -/
def factorialWrap : Nat → Nat → Nat
  | 0, result => result
  | n + 1, result => factorialWrap n (result * (n + 1) % 2 ^ 64)

/-- `combins.rs:19-22`, `binom`; `as u32` truncates -/
def binom (n k : Nat) : Option Nat := do
  let a ← factorial n
  let b ← factorial k
  if k ≤ n then do
    let c ← factorial (n - k)
    if b * c < 2 ^ 64 then
      if b * c = 0 then none else some (a / (b * c) % 2 ^ 32)
    else none
  else none

variable {K : Type} [Field K] [LinearOrder K]

/-- `distrib/bernoulli.rs:38-46`, `Bernoulli::new`; the distribution is its parameter `p` -/
def bernoulliNew {K : Type} [Zero K] [One K] [LT K] [DecidableLT K] (p : K) : Option K := if p < 0 ∨ p > 1 then none else some p

/-- `distrib/bernoulli.rs:70-87`, `pmf` -/
def bernoulliPmf (p : K) (x : Nat) : Option K :=
  if x = 1 ∨ x = 0 then (if x = 0 then some (1 - p) else some p) else none

/-- `distrib/bernoulli.rs:105-120`, `cdf` -/
def bernoulliCdf (p x : K) : K := if x ≥ 1 then 1 else if x ≤ 0 then 0 else 1 - p

/-- `distrib/bernoulli.rs:132-135`, `mean` -/
def bernoulliMean (p : K) : K := p

/-- `distrib/bernoulli.rs:147-150`, `variance` -/
def bernoulliVariance (p : K) : K := p * (1 - p)

/-- `distrib/binomial.rs:43-46`, `Binomial::new`: no check; the distribution is the pair `(n, p)` -/
def binomialNew (n : Nat) (p : K) : Option (Nat × K) := some (n, p)

/-- `distrib/binomial.rs:66-77`, `pmf` -/
def binomialPmf (n : Nat) (p : K) (x : Nat) : Option K :=
  if x > n then some 0
  else do
    let f ← binom n x
    some ((f : K) * p ^ x * (1 - p) ^ (n - x))

/-- `x.floor().to_u32()`: the cast `as u32` saturates -/
def floorU32 [FloorRing K] (x : K) : Nat := min ⌊x⌋.toNat (2 ^ 32 - 1)

/-- `distrib/binomial.rs:94-104`, `cdf`; `x_supremum + 1` may overflow -/
def binomialCdf [FloorRing K] (n : Nat) (p x : K) : Option K :=
  if floorU32 x + 1 < 2 ^ 32 then
    forRange 0 (floorU32 x + 1) (fun (prob : K) k => do
      let q ← binomialPmf n p k
      some (prob + q)) 0
  else none

/-- `distrib/binomial.rs:116-119`, `mean` -/
def binomialMean (n : Nat) (p : K) : K := n * p

/-- `distrib/binomial.rs:131-134`, `variance` -/
def binomialVariance (n : Nat) (p : K) : K := binomialMean n p * (1 - p)

end Stat
end Verif
