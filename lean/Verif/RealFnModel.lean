import Mathlib.Analysis.SpecialFunctions.Arcosh
import Mathlib.Analysis.SpecialFunctions.Artanh
import Mathlib.Analysis.SpecialFunctions.Arsinh
import Mathlib.Analysis.SpecialFunctions.Trigonometric.Arctan
import Mathlib.Analysis.SpecialFunctions.Trigonometric.Inverse
import Mathlib.Analysis.SpecialFunctions.Pow.Real

/-!
# Model of the elementary functions of `f32`/`f64`

`/repo/src/num/primitives/mod.rs:257-668` (macros `trigonometry_impl`, `exponential_impl`, `power_impl`,
`hyperbolic_impl`).  The functions of the Rust standard library are Mathlib's real functions; where those leave the
finite reals (division by zero, `acos` outside its domain, ...: an infinity or a NaN) the model has `none`, like for
a panic.
-/

namespace Verif
namespace R
open Classical

/-- a float division that stays finite -/
noncomputable def div (a b : ℝ) : Option ℝ := if b = 0 then none else some (a / b)

/-- `mod.rs:287-290`; at a zero of the cosine the tangent is infinite, here `none`. -/
noncomputable def cot (x : ℝ) : Option ℝ := if Real.cos x = 0 then none else div 1 (Real.tan x)
/-- `mod.rs:297-300` -/
noncomputable def sec (x : ℝ) : Option ℝ := div 1 (Real.cos x)
/-- `mod.rs:302-305` -/
noncomputable def csc (x : ℝ) : Option ℝ := div 1 (Real.sin x)

/-- `mod.rs:316-324` -/
noncomputable def arcsin (x : ℝ) : Option ℝ := if |x| > 1 then none else some (Real.arcsin x)
/-- `mod.rs:335-343` -/
noncomputable def arccos (x : ℝ) : Option ℝ := if |x| > 1 then none else some (Real.arccos x)
/-- `mod.rs:346-349` -/
noncomputable def arctan (x : ℝ) : ℝ := Real.arctan x

/-- `mod.rs:352-355`: `atan2(y, x)`; there is no negative zero in the model. -/
noncomputable def arctan2 (y x : ℝ) : ℝ :=
  if x > 0 then Real.arctan (y / x)
  else if x < 0 then (if y ≥ 0 then Real.arctan (y / x) + Real.pi else Real.arctan (y / x) - Real.pi)
  else if y > 0 then Real.pi / 2
  else if y < 0 then -(Real.pi / 2)
  else 0

/-- `mod.rs:357-372` -/
noncomputable def arccot (x : ℝ) : ℝ :=
  if x = 0 then 0 else if x > 0 then Real.arctan (1 / x) else Real.arctan (1 / x)

/-- `mod.rs:374-377`: `(1/x).acos()`, a NaN outside `|1/x| ≤ 1`. -/
noncomputable def arcsec (x : ℝ) : Option ℝ :=
  if x = 0 then none else if |1 / x| > 1 then none else some (Real.arccos (1 / x))
/-- `mod.rs:379-382` -/
noncomputable def arccsc (x : ℝ) : Option ℝ :=
  if x = 0 then none else if |1 / x| > 1 then none else some (Real.arcsin (1 / x))

/-- `mod.rs:401-410`, `ln`: minus infinity or NaN for `x ≤ 0`. -/
noncomputable def ln (x : ℝ) : Option ℝ := if x ≤ 0 then none else some (Real.log x)

/-- `mod.rs:498-506` -/
noncomputable def coth (x : ℝ) : Option ℝ := if x = 0 then none else div (Real.cosh x) (Real.sinh x)
/-- `mod.rs:523-526` -/
noncomputable def sech (x : ℝ) : Option ℝ := div 1 (Real.cosh x)
/-- `mod.rs:548-555` -/
noncomputable def csch (x : ℝ) : Option ℝ := if x = 0 then none else div 1 (Real.sinh x)
/-- `mod.rs:558-561`, `arsinh`, `f64::asinh` -/
noncomputable def arsinh (x : ℝ) : ℝ := Real.arsinh x
/-- `mod.rs:564-567`, `arcosh`, `f64::acosh`, a NaN for `x < 1` -/
noncomputable def arcosh (x : ℝ) : Option ℝ := if x < 1 then none else some (Real.arcosh x)
/-- `mod.rs:570-578`, `artanh`, with its guard -/
noncomputable def artanh (x : ℝ) : Option ℝ := if -1 ≥ x ∨ x ≥ 1 then none else some (Real.artanh x)
/-- `mod.rs:601-609`, `arcoth`: `ln((x+1)/(x-1))/2` with its guard -/
noncomputable def arcoth (x : ℝ) : Option ℝ :=
  if -1 ≤ x ∧ x ≤ 1 then none else do
    let l ← ln ((x + 1) / (x - 1))
    some (l / 2)
/-- `mod.rs:630-638`, `arsech`: `(1/x).arcosh()` with its guard -/
noncomputable def arsech (x : ℝ) : Option ℝ := if 0 ≥ x ∨ x > 1 then none else arcosh (1 / x)
/-- `mod.rs:661-664`, `arcsch`: `(1/x).arsinh()` -/
noncomputable def arcsch (x : ℝ) : Option ℝ := if x = 0 then none else some (arsinh (1 / x))

end R
end Verif
