import Verif.ComplexModel
import Mathlib.Algebra.Order.Floor.Ring
import Mathlib.Data.Nat.Size

/-!
# Model of the conversions between number types, of signs and of orderings

`/repo/src/algebra/abstr/{cast,sign,magma,real}.rs`, `/repo/src/num/{bound,primitives/mod}.rs` and the corresponding parts of
`/repo/src/num/complex.rs`. Machine integers are integers with a type; finite floats are rationals. `none` is a panic;
arithmetic overflow panics, as in debug builds.
-/

namespace Verif
namespace Num

/-- the integer types `i8 … i128`, `u8 … u128` -/
structure IntTy where
  signed : Bool
  bits : ℕ
deriving DecidableEq

/-- `num/bound.rs:28-37`, `lower_bound` -/
def IntTy.lower (t : IntTy) : ℤ := if t.signed then -2 ^ (t.bits - 1) else 0
/-- `num/bound.rs:28-37`, `upper_bound` -/
def IntTy.upper (t : IntTy) : ℤ := if t.signed then 2 ^ (t.bits - 1) - 1 else 2 ^ t.bits - 1

/-- the `as` operator between integer types, which is all that `num/primitives/mod.rs:12-19`, `95-105` do: it keeps the low
    bits. -/
def wrap (t : IntTy) (x : ℤ) : ℤ :=
  let r := x % 2 ^ t.bits
  if t.signed ∧ 2 ^ (t.bits - 1) ≤ r then r - 2 ^ t.bits else r

/-- `algebra/abstr/cast.rs:145-148` with `244-255`, `cast` to an integer type: `to_u8` and so on are `as`. -/
def castInt (t : IntTy) (n : ℤ) : ℤ := wrap t n

/-- the `as` operator from a finite float to an integer type (`num/primitives/mod.rs:192-239`): towards zero, saturating. -/
def castFloat (t : IntTy) (x : ℚ) : ℤ :=
  let k := if 0 ≤ x then ⌊x⌋ else ⌈x⌉
  if k < t.lower then t.lower else if t.upper < k then t.upper else k

/-- the nearest multiple of `d` to `n`, ties to an even multiple -/
def roundTo (d n : ℕ) : ℕ :=
  let q := n / d
  let r := n % d
  if 2 * r < d ∨ (2 * r = d ∧ q % 2 = 0) then q * d else (q + 1) * d

/-- the `as` operator from an integer to a float type with `p` significant bits (`num/primitives/mod.rs:76-84`, `161-169`;
    `p = 24` and `53`); all of the integer types fit into the range of both (`2^128` rounds to infinity in `f32`; not
    modelled). -/
def toFloat (p : ℕ) (n : ℤ) : ℤ :=
  let a := n.natAbs
  n.sign * (roundTo (2 ^ (a.size - p)) a : ℕ)

/-- `algebra/abstr/sign.rs:31-39`, `sign` of an integer. -/
def isign (x : ℤ) : ℤ := if x > 0 then 1 else if x ≥ 0 ∧ x ≤ 0 then 0 else -1

/-- the value of an arithmetic operation, which panics on overflow -/
def checked (t : IntTy) (x : ℤ) : Option ℤ := if t.lower ≤ x ∧ x ≤ t.upper then some x else none

/-- `algebra/abstr/sign.rs:41-48`, `abs` of an integer: `-*self` overflows for the least value. -/
def iabs (t : IntTy) (x : ℤ) : Option ℤ := if x < 0 then checked t (-x) else some x

/-- `algebra/abstr/magma.rs:25-28` for addition -/
def operateAdd (t : IntTy) (x y : ℤ) : Option ℤ := checked t (x + y)
/-- `algebra/abstr/magma.rs:25-28` for multiplication -/
def operateMul (t : IntTy) (x y : ℤ) : Option ℤ := checked t (x * y)

/-- `algebra/abstr/real.rs:58-68`, `min` (no NaN) -/
def rmin (a b : ℚ) : ℚ := if a ≤ b then a else b
/-- `algebra/abstr/real.rs:70-80`, `max` (no NaN) -/
def rmax (a b : ℚ) : ℚ := if a ≥ b then a else b

end Num

namespace Cx

/-- `num/complex.rs:601-605`, `619-643`, `to_f64` and the others, to the extent that they do not depend on the component's
    conversion: the imaginary part is dropped. -/
def toReal {K : Type} (a : Cx K) : K := a.re
/-- `num/complex.rs:1207-1230`, `from_u64`, `from_u128`, `from_f64`. -/
def ofReal {K : Type} [Zero K] (x : K) : Cx K := ⟨x, 0⟩
/-- `num/complex.rs:1197-1207`, `from_i64`, `from_i128`: `unimplemented!()`; so are `from_i8`, `from_i16`, `from_i32`, which
    `algebra/abstr/cast.rs:72-90` sends through `from_i64`. -/
def ofInt {K : Type} (_ : ℤ) : Option (Cx K) := none
/-- `num/complex.rs:1235-1244`, `NumCast::from` applied to a complex number. -/
def castCx {K : Type} [Zero K] (a : Cx K) : Cx K := ⟨toReal a, 0⟩
/-- `num/complex.rs:87-93`, `partial_cmp` (no NaN). -/
def cmp {K : Type} [LinearOrder K] (a b : Cx K) : Option Ordering := some (compare a.re b.re)
/-- `num/complex.rs:418-428`, `eq`. -/
def beq {K : Type} [DecidableEq K] (a b : Cx K) : Bool := if a.re = b.re ∧ a.im = b.im then true else false

end Cx
end Verif
