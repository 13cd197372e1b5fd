import Verif.VecModel
import Mathlib.Algebra.Order.Group.Unbundled.Abs

/-!
# Model of the orthogonal decompositions

Native implementations: `givens`, `givens_cosine_sine_pair`, `householder`, `rot` in
`/repo/src/algebra/linear/matrix/matrix.rs`, and `qr/native.rs`, `cholesky/native.rs`, `hessenberg/native.rs`.

Scalars are an ordered field `K` together with a square root function `sqrt` (`Real.sqrt` in the theorems, an
exact rational root in the concrete examples). `x.pow(0.5)` and `x.sqrt()` are both `sqrt x`; `x.pow(2.0)` is
`x * x`. Where the code could take the root of a negative number or divide by zero (NaN or infinity) the model
returns `none`, unless noted.
-/

namespace Verif
namespace Mat

section Chol
variable {K : Type} [Zero K] [Add K] [Sub K] [Mul K] [Div K] [LinearOrder K]

/-- `cholesky/native.rs:49-66`: entry `(i, j)` of the factor. -/
def cholEntry (sqrt : K → K) (A : Mat K) (i : Nat) (l : Mat K) (j : Nat) : Option (Mat K) := do
  let sum ← forRange 0 j (fun sum k => do
    let x ← l.get i k
    let y ← l.get j k
    some (sum + x * y)) (0 : K)
  if i = j then do
    let a ← A.get i i
    if a - sum < 0 then none else l.set i j (sqrt (a - sum))
  else do
    let a ← A.get i j
    let d ← l.get j j
    if d = 0 then none else l.set i j ((a - sum) / d)

/-- `cholesky/native.rs:38-68`, `dec_cholesky`. The Rust result is always `Ok`; where it contains a NaN or an
    infinity the model has `none`. -/
def decChol (sqrt : K → K) (A : Mat K) : Option (Mat K) :=
  if A.m = A.n then
    forRange 0 A.n (fun l i => forRange 0 (i + 1) (fun l j => cholEntry sqrt A i l j) l) (zero A.m A.n)
  else none

end Chol

section Givens
variable {K : Type} [Zero K] [One K] [Add K] [Sub K] [Mul K] [Div K] [Neg K] [DecidableEq K]

/-- `matrix.rs:347-360`, `Matrix::givens`. -/
def givens (m i j : Nat) (c s : K) : Option (Mat K) :=
  if m ≤ i ∨ m ≤ j then none
  else do
    let g := one m
    let g ← g.set i i c
    let g ← g.set j j c
    let g ← g.set i j s
    g.set j i (-s)

/-- `qr/native.rs:41-54`: the rotation of rows `i` and `j` annihilating entry `(i, j)`; state `(q, r)`.
    The rotation is skipped when `p`, `a_jj` or `a_ij` is zero. -/
def qrStep (sqrt : K → K) (j : Nat) (st : Mat K × Mat K) (i : Nat) : Option (Mat K × Mat K) := do
  let ajj ← st.2.get j j
  let aij ← st.2.get i j
  let p := sqrt (ajj * ajj + aij * aij)
  if p ≠ 0 ∧ ajj ≠ 0 ∧ aij ≠ 0 then do
    let g ← givens st.2.m i j (ajj / p) (-aij / p)
    let r ← g.mul st.2
    let q ← g.mul st.1
    some (q, r)
  else some st

/-- `qr/native.rs:30-59`, `dec_qr`, returning `(q, r)`. The loop `for i in (j + 1..m).rev()` is run with
    `i = m - 1 - t`. -/
def decQR (sqrt : K → K) (A : Mat K) : Option (Mat K × Mat K) :=
  if A.n ≤ A.m then do
    let st ← forRange 0 A.n (fun st j =>
      forRange 0 (A.m - (j + 1)) (fun st t => qrStep sqrt j st (A.m - 1 - t)) st) (one A.m, A)
    let q ← st.1.transpose
    some (q, st.2)
  else none

end Givens

section
variable {K : Type} [Field K] [LinearOrder K]

/-- `matrix.rs:367-397`, `givens_cosine_sine_pair`; the divisions are by nonzero numbers in every branch. -/
def givensPair (sqrt : K → K) (a b : K) : K × K :=
  if b = 0 then (1, 0)
  else if |b| > |a| then
    let tau := -a / b
    let s := 1 / sqrt (1 + tau * tau)
    (s * tau, s)
  else
    let tau := -b / a
    let c := 1 / sqrt (1 + tau * tau)
    (c, c * tau)

end

section Householder
variable {K : Type} [Zero K] [One K] [Add K] [Sub K] [Mul K] [Div K] [Neg K] [NatCast K] [LinearOrder K]

/-- `matrix.rs:595-620`, `rot`, returning `(c, s, r)`; `max x (-x)` is the absolute value. -/
def rot (sqrt : K → K) (f g : K) : K × K × K :=
  if f = 0 then (0, 1, g)
  else if max f (-f) > max g (-g) then
    let t := g / f
    let t1 := sqrt (1 + t * t)
    (1 / t1, t / t1, f * t1)
  else
    let t := f / g
    let t1 := sqrt (1 + t * t)
    (t / t1, 1 / t1, g * t1)

/-- `vector/vector.rs:131-144` with `p = 2`: the root of the sum of the squares. -/
def norm2 (sqrt : K → K) (v : Mat K) : Option K := do
  let sum ← forRange 0 (v.m * v.n) (fun sum i => do
    let b ← v.vget i
    some (sum + b * b)) (0 : K)
  some (sqrt sum)

/-- `matrix.rs:460-464`: `v[1..] = d[1..] / (2 p)` when `d` has more than one entry. -/
def hhTail (d v : Mat K) (p : K) : Option (Mat K) :=
  if d.m - 1 ≥ 1 then do
    let t ← d.vgetSlice 1 (d.m - 1)
    v.vsetSlice (t.apply (fun e => e / (2 * p))) 1
  else some v

/-- `matrix.rs:449-476`: the reflector once `alpha ≠ 0`. -/
def hhBuild (sqrt : K → K) (vm k : Nat) (d : Mat K) (d0 alpha : K) : Option (Mat K) := do
  let v0 := sqrt (1 / 2 * (1 - d0 / alpha))
  let v ← (vzero d.m).vset 0 v0
  let v ← hhTail d v (-alpha * v0)
  let w ← (vzero vm).vsetSlice v k
  let W ← w.dyadp w
  (one vm).sub (W.mulScalar 2)

/-- `matrix.rs:412-478`, `Matrix::householder`. -/
def householder (sqrt : K → K) (v : Mat K) (k : Nat) : Option (Mat K) :=
  if v.m ≤ k then none
  else if v.m = 0 then none
  else if v.m = 1 then some (one v.m)
  else do
    let d ← v.vgetSlice k (v.m - 1)
    let d0 ← d.vget 0
    let nrm ← norm2 sqrt d
    let alpha := if d0 ≥ 0 then -nrm else nrm
    if alpha = 0 then some (one v.n) else hhBuild sqrt v.m k d d0 alpha

/-- `hessenberg/native.rs:44-51`: one step, state `(q, h)`. -/
def hessStep (sqrt : K → K) (st : Mat K × Mat K) (k : Nat) : Option (Mat K × Mat K) := do
  let v ← st.2.getColumn (k - 1)
  let H ← householder sqrt v k
  let h ← H.mul st.2
  let q ← H.mul st.1
  let Ht ← H.transpose
  let h ← h.mul Ht
  some (q, h)

/-- `hessenberg/native.rs:33-54`, `dec_hessenberg`, returning `(q, h)`. -/
def decHess (sqrt : K → K) (A : Mat K) : Option (Mat K × Mat K) :=
  if A.m = A.n ∧ A.m ≠ 0 then do
    let st ← forRange 1 A.m (hessStep sqrt) (one A.m, A)
    let q ← st.1.transpose
    some (q, st.2)
  else none

end Householder
end Mat
end Verif
