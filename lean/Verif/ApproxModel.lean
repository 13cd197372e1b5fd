import Mathlib.Algebra.Order.Field.Basic
import Mathlib.Algebra.Order.Group.Abs

/-!
# Model of scalar approximate equality (`/repo/src/algebra/abstr/abs_diff_eq.rs`, `relative_eq.rs`)
-/

namespace Verif
namespace Approx

/-- Unsigned subtraction: underflow panics (overflow checks on). -/
def usub (a b : Nat) : Option Nat := if a < b then none else some (a - b)

/-- `abs_diff_eq.rs:99-106`, the implementation for `u8 … usize` (values are naturals, any width). -/
def absDiffEqU (a b eps : Nat) : Option Bool :=
  (if a > b then usub a b else usub b a).map (fun d => decide (d ≤ eps))

/-- The range of a signed machine integer of `w` bits -/
def inRange (w : Nat) (x : Int) : Prop := -(2 ^ (w - 1) : Int) ≤ x ∧ x < (2 ^ (w - 1) : Int)

instance (w x) : Decidable (inRange w x) := by unfold inRange; infer_instance

/-- Checked result of a signed operation of `w` bits -/
def chk (w : Nat) (x : Int) : Option Int := if inRange w x then some x else none

/-- `abs_diff_eq.rs:131-134`, the implementation for `i8 … isize`, overflow of `-` and of `abs` panics. -/
def absDiffEqS (w : Nat) (a b eps : Int) : Option Bool := do
  let d ← chk w (a - b)
  let d ← chk w |d|
  some (decide (d ≤ eps))

/-- A floating point value without rounding: finite, an infinity or NaN. -/
inductive Fl (K : Type)
  | fin (x : K)
  | pinf
  | ninf
  | nan
  deriving DecidableEq

variable {K : Type} [Field K] [LinearOrder K]

namespace Fl

/-- IEEE `==` -/
def feq : Fl K → Fl K → Bool
  | fin a, fin b => decide (a = b)
  | pinf, pinf => true
  | ninf, ninf => true
  | _, _ => false

/-- IEEE `<=` -/
def fle : Fl K → Fl K → Bool
  | fin a, fin b => decide (a ≤ b)
  | ninf, fin _ => true
  | fin _, pinf => true
  | ninf, pinf => true
  | pinf, pinf => true
  | ninf, ninf => true
  | _, _ => false

/-- IEEE `>` -/
def fgt : Fl K → Fl K → Bool
  | fin a, fin b => decide (a > b)
  | fin _, ninf => true
  | pinf, fin _ => true
  | pinf, ninf => true
  | _, _ => false

/-- IEEE `-` without rounding -/
def fsub : Fl K → Fl K → Fl K
  | fin a, fin b => fin (a - b)
  | fin _, pinf => ninf
  | fin _, ninf => pinf
  | pinf, fin _ => pinf
  | ninf, fin _ => ninf
  | pinf, ninf => pinf
  | ninf, pinf => ninf
  | _, _ => nan

/-- IEEE `abs` -/
def fabs : Fl K → Fl K
  | fin a => fin |a|
  | pinf => pinf
  | ninf => pinf
  | nan => nan

/-- IEEE `*` by a finite factor, without rounding (only used when the left factor is finite) -/
def fmul : Fl K → K → Fl K
  | fin a, b => fin (a * b)
  | _, _ => nan

def isInfinite : Fl K → Bool
  | pinf => true
  | ninf => true
  | _ => false

end Fl

/-- `abs_diff_eq.rs:131-134` for `f32`, `f64` with a finite tolerance -/
def absDiffEqF (a b : Fl K) (eps : K) : Bool := ((a.fsub b).fabs).fle (.fin eps)

/-- `relative_eq.rs:124-153` with finite tolerances -/
def relativeEqF (a b : Fl K) (eps maxRel : K) : Bool :=
  if a.feq b then true
  else if a.isInfinite || b.isInfinite then false
  else
    let absDiff := (a.fsub b).fabs
    if absDiff.fle (.fin eps) then true
    else
      let absSelf := a.fabs
      let absOther := b.fabs
      let largest := if absOther.fgt absSelf then absOther else absSelf
      absDiff.fle (largest.fmul maxRel)

end Approx
end Verif
