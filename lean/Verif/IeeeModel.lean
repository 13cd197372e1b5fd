import Verif.FloatModel

/-!
# Model of the numbers `f32` and `f64` with overflow, underflow, infinities and NaN

`Fl R` (`FloatModel.lean`) has an unbounded exponent.  Here the exponent is bounded: `Ie p e` is the binary format of
IEEE 754 with a `p`-bit significand and the largest exponent `e` (`f64`: `p = 53`, `e = 1024`; `f32`: `p = 24`,
`e = 128`).  The library uses the operators of the core language on these types
(`/repo/src/algebra/abstr/magma.rs`, `ring.rs`, `field.rs`); the polymorphic models of the library functions run on
`Ie p e` as they are.

Simplifications: there is one zero (a division by zero gives the infinity with the sign of the dividend, as for `+0`);
there is one NaN.  (The tests `x ≠ 0` and `x == 0` of the code are the same as here: NaN is different from zero.)
-/

namespace Verif

/-- a value of `f32` or `f64` -/
inductive Ie (p e : ℕ) where
  /-- not a number -/
  | nan
  /-- an infinity, with its sign -/
  | inf (neg : Bool)
  /-- a finite number -/
  | fin (x : ℚ)
deriving DecidableEq

namespace Ie
variable {p e : ℕ}

/-- the spacing of the numbers around `x`; it does not go below that of the subnormal numbers, `2^(3 - e - p)` -/
def spacing (p e : ℕ) (x : ℚ) : ℚ := 2 ^ max (Int.log 2 |x| + 1 - p) (3 - e - p)

/-- `x` rounded to nearest, ties to even; an infinity if the rounded number is too large -/
def round (p e : ℕ) (x : ℚ) : Ie p e :=
  if 2 ^ e ≤ |nearestEven (x / spacing p e x) * spacing p e x| then inf (decide (x < 0))
  else fin (nearestEven (x / spacing p e x) * spacing p e x)

instance : Zero (Ie p e) := ⟨fin 0⟩
instance : One (Ie p e) := ⟨fin 1⟩
instance : NatCast (Ie p e) := ⟨fun n => round p e n⟩

instance : Neg (Ie p e) := ⟨fun
  | nan => nan
  | inf s => inf (!s)
  | fin x => fin (-x)⟩

/-- the sum -/
def add : Ie p e → Ie p e → Ie p e
  | fin x, fin y => round p e (x + y)
  | inf s, fin _ => inf s
  | fin _, inf t => inf t
  | inf s, inf t => if s = t then inf s else nan
  | nan, _ => nan
  | _, nan => nan

instance : Add (Ie p e) := ⟨add⟩
instance : Sub (Ie p e) := ⟨fun a b => a + -b⟩

/-- the product -/
def mul : Ie p e → Ie p e → Ie p e
  | fin x, fin y => round p e (x * y)
  | inf s, fin y => if y = 0 then nan else inf (s != decide (y < 0))
  | fin x, inf t => if x = 0 then nan else inf (decide (x < 0) != t)
  | inf s, inf t => inf (s != t)
  | nan, _ => nan
  | _, nan => nan

instance : Mul (Ie p e) := ⟨mul⟩

/-- the quotient -/
def div : Ie p e → Ie p e → Ie p e
  | fin x, fin y => if y = 0 then (if x = 0 then nan else inf (decide (x < 0))) else round p e (x / y)
  | inf s, fin y => inf (s != decide (y < 0))
  | fin _, inf _ => fin 0
  | inf _, inf _ => nan
  | nan, _ => nan
  | _, nan => nan

instance : Div (Ie p e) := ⟨div⟩

/-- `<`: false if one of the operands is NaN -/
def lt : Ie p e → Ie p e → Bool
  | fin x, fin y => decide (x < y)
  | inf s, fin _ => s
  | fin _, inf t => !t
  | inf s, inf t => s && !t
  | nan, _ => false
  | _, nan => false

/-- `<=`: false if one of the operands is NaN -/
def le : Ie p e → Ie p e → Bool
  | fin x, fin y => decide (x ≤ y)
  | inf s, fin _ => s
  | fin _, inf t => !t
  | inf s, inf t => s || !t
  | nan, _ => false
  | _, nan => false

instance : LT (Ie p e) := ⟨fun a b => lt a b = true⟩
instance : LE (Ie p e) := ⟨fun a b => le a b = true⟩
instance : DecidableLT (Ie p e) := fun a b => inferInstanceAs (Decidable (lt a b = true))
instance : DecidableLE (Ie p e) := fun a b => inferInstanceAs (Decidable (le a b = true))

/-- `/repo/src/algebra/abstr/real.rs:59-69`, `min`: the second operand if one of them is NaN -/
instance : Min (Ie p e) := ⟨fun a b => if a ≤ b then a else b⟩
/-- `/repo/src/algebra/abstr/real.rs:71-81`, `max`: the second operand if one of them is NaN -/
instance : Max (Ie p e) := ⟨fun a b => if a ≥ b then a else b⟩

/-- the decimal literals of the source: correctly rounded -/
instance : OfScientific (Ie p e) := ⟨fun m s x => round p e (OfScientific.ofScientific m s x)⟩

end Ie

/-- `f64` -/
abbrev IeF64 := Ie 53 1024
/-- `f32` -/
abbrev IeF32 := Ie 24 128

end Verif
