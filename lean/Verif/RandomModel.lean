import Verif.ContModel

/-!
# Model of the random variates

`random` of `/repo/src/statistics/distrib/{normal,exponential,uniform}.rs` and `random_sequence` of `distrib.rs`. The values
of the external generator (`rand::random::<f64>()`, `gen_range`) are arguments.
-/

namespace Verif
namespace Stat

/-- `normal.rs:318-327`: the loop from the `k`-th pair `u k` of generated numbers on; the result is `(v1, s)`. The loop is
    unbounded, hence the fuel. -/
noncomputable def polarLoop (u : ℕ → ℝ × ℝ) : ℕ → ℕ → Option (ℝ × ℝ)
  | 0, _ => none
  | fuel + 1, k =>
    let v1 := 2 * (u k).1 - 1
    let v2 := 2 * (u k).2 - 1
    let s := v1 * v1 + v2 * v2
    if s ≥ 1 then polarLoop u fuel (k + 1) else some (v1, s)

/-- `normal.rs:312-331`, `random`; `d` is the mean and the variance. For `s = 0` the result is a NaN. -/
noncomputable def normalRandom (d : ℝ × ℝ) (u : ℕ → ℝ × ℝ) (fuel : ℕ) : Option ℝ := do
  let p ← polarLoop u fuel 0
  if p.2 = 0 then none
  else
    let x1 := p.1 * Real.sqrt (-2 * Real.log p.2 / p.2)
    some (x1 * Real.sqrt d.2 + d.1)

/-- `exponential.rs:177-183`, `random`; `y` is the generated number. -/
noncomputable def expoRandom (l y : ℝ) : Option ℝ := expoQuantile l y

/-- `distrib.rs:9-15`, `random_sequence`; `draw k` is the result of the `k`-th call of `random`. -/
def randomSequence (draw : ℕ → Option ℝ) (size : ℕ) : Option (List ℝ) := (List.range size).mapM draw

end Stat
end Verif
