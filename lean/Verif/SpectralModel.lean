import Verif.OrthModel
import Verif.LUModel
import Verif.RowColModel

/-!
# Model of the eigenvalue and singular value computations, the pseudo-inverse and Gauss-Newton

Native implementations: `eigen/native.rs`, `dec_sv`, `msweep`, `householder_bidiag`, `pinv` of `matrix.rs`, `reflector`
and `compare_neighbourhood` of `vector/vector.rs` (all in `/repo/src/algebra/linear`) and
`/repo/src/optimization/gaussnewton.rs`. `sqrt` is as in `OrthModel`.
-/

namespace Verif
namespace Mat
section
variable {K : Type} [Field K] [LinearOrder K]

/-- `eigen/native.rs:85-115`: one reflection of the sweep with active size `p`; state `(t, u, x, y, z)`. -/
def francisRefl (sqrt : K → K) (n p : Nat) (st : Mat K × Mat K × K × K × K) (k : Nat) :
    Option (Mat K × Mat K × K × K × K) := do
  let b ← newColumn 3 [st.2.2.1, st.2.2.2.1, st.2.2.2.2]
  let h ← householder sqrt b 0
  let s ← st.1.getSlice k (k + 2) (max k 1 - 1) (n - 1)
  let temp ← h.mul s
  let t ← st.1.setSlice temp k (max k 1 - 1)
  let ht ← h.transpose
  let s ← t.getSlice 0 (min p (k + 4) - 1) k (k + 2)
  let temp ← s.mul ht
  let t ← t.setSlice temp 0 k
  let s ← st.2.1.getSlice 0 (n - 1) k (k + 2)
  let temp ← s.mul ht
  let u ← st.2.1.setSlice temp 0 k
  let x ← t.get (k + 1) k
  let y ← t.get (k + 2) k
  let z ← if k < p - 3 then t.get (k + 3) k else some st.2.2.2.2
  some (t, u, x, y, z)

/-- `eigen/native.rs:117-133`: the rotation at the end of a sweep; `u` gets columns of `t`, as in the code. -/
def francisRot (sqrt : K → K) (n p : Nat) (t u : Mat K) (x y : K) : Option (Mat K × Mat K) := do
  let cs := givensPair sqrt x y
  let g ← givens 2 0 1 cs.1 cs.2
  let s ← t.getSlice (p - 2) (p - 1) (p - 3) (n - 1)
  let temp ← g.mul s
  let t ← t.setSlice temp (p - 2) (p - 3)
  let gt ← g.transpose
  let s ← t.getSlice 0 (p - 1) (p - 2) (p - 1)
  let temp ← s.mul gt
  let t ← t.setSlice temp 0 (p - 2)
  let s ← t.getSlice 0 (n - 1) (p - 2) (p - 1)
  let temp ← s.mul gt
  let u ← u.setSlice temp 0 (p - 2)
  some (t, u)

/-- `eigen/native.rs:135-153`: the convergence check; returns `t` and the next `p` (`q = p - 1`). -/
def francisDeflate (eps : K) (t : Mat K) (p : Nat) : Option (Mat K × Nat) := do
  let m ← t.get (p - 2) (p - 2)
  let n ← t.get (p - 1) (p - 1)
  let a ← t.get (p - 1) (p - 2)
  if |a| < eps * (|m| + |n|) then do
    let t ← t.set (p - 1) (p - 2) 0
    some (t, p - 1 - 1)
  else do
    let k ← t.get (p - 3) (p - 3)
    let a ← t.get (p - 2) (p - 3)
    if |a| < eps * (|k| + |m|) then do
      let t ← t.set (p - 2) (p - 3) 0
      some (t, p - 2 - 1)
    else some (t, p - 1)

/-- `eigen/native.rs:69-154`: the body of `while p > 2`. -/
def francisBody (sqrt : K → K) (eps : K) (n : Nat) (t u : Mat K) (p : Nat) : Option (Mat K × Mat K × Nat) := do
  let h11 ← t.get (p - 2) (p - 2)
  let h22 ← t.get (p - 1) (p - 1)
  let h12 ← t.get (p - 2) (p - 1)
  let h21 ← t.get (p - 1) (p - 2)
  let s := h11 + h22
  let d := h11 * h22 - h12 * h21
  let a00 ← t.get 0 0
  let a01 ← t.get 0 1
  let a10 ← t.get 1 0
  let a11 ← t.get 1 1
  let a21 ← t.get 2 1
  let st ← forRange 0 (p - 2) (francisRefl sqrt n p)
    (t, u, a00 * a00 + a01 * a10 - s * a00 + d, a10 * (a00 + a11 - s), a10 * a21)
  let tu ← francisRot sqrt n p st.1 st.2.1 st.2.2.1 st.2.2.2.1
  let tp ← francisDeflate eps tu.1 p
  some (tp.1, tu.2, tp.2)

/-- `eigen/native.rs:57-157`, the loop `while p > 2`. `p` decreases in every round, so `fuel = n` never runs out. -/
def francisLoop (sqrt : K → K) (eps : K) (n : Nat) : Nat → Mat K → Mat K → Nat → Option (Mat K × Mat K)
  | 0, _, _, _ => none
  | fuel + 1, t, u, p =>
    if p > 2 then do
      let r ← francisBody sqrt eps n t u p
      francisLoop sqrt eps n fuel r.1 r.2.1 r.2.2
    else some (u, t)

/-- `eigen/native.rs:57-157`, `francis`, returning `(u, t)`. -/
def francis (sqrt : K → K) (eps : K) (H : Mat K) : Option (Mat K × Mat K) :=
  francisLoop sqrt eps H.n (H.n + 1) H (one H.m) H.n

/-- `eigen/native.rs:39-55`, `eigenvalue_r`. -/
def eigenvalueR (sqrt : K → K) (eps : K) (A : Mat K) : Option (Mat K) := do
  let qh ← decHess sqrt A
  let ut ← francis sqrt eps qh.2
  forRange 0 A.m (fun (e : Mat K) i => do
    let x ← ut.2.get i i
    e.vset i x) (vzero A.m)

/-- `eigen/native.rs:159-173`, `eigenvector_r`. The native `solve` always returns `Ok`. -/
def eigenvectorR (A value : Mat K) : Option (Mat K) :=
  forRange 0 value.data.length (fun (vs : Mat K) c => do
    let val ← value.data[c]?
    let diff ← A.sub ((one A.m).mulScalar val)
    let v ← diff.solveV (vzero A.m)
    vs.setColumn v c) (zero A.m A.m)

/-- `eigen/native.rs:27-37`, `dec_eigen`, returning `(value, vector)`. -/
def decEigen (sqrt : K → K) (eps : K) (A : Mat K) : Option (Mat K × Mat K) :=
  if A.m = A.n ∧ A.m ≠ 0 then do
    let value ← eigenvalueR sqrt eps A
    let vector ← eigenvectorR A value
    some (value, vector)
  else none

end

section Singular
variable {K : Type} [Zero K] [One K] [Add K] [Sub K] [Mul K] [Div K] [Neg K] [NatCast K] [LinearOrder K]

/-- `matrix.rs:640-676`: one step of `householder_bidiag`; state `(u, a, v)`. The condition `i < n - 1` always holds. -/
def bidiagStep (sqrt : K → K) (m n : Nat) (st : Mat K × Mat K × Mat K) (i : Nat) :
    Option (Mat K × Mat K × Mat K) := do
  let ux ← st.2.1.getColumn i
  let us ← ux.vgetSlice i (m - 1)
  let ui ← householder sqrt us 0
  let s ← st.2.1.getSlice i (m - 1) i (n - 1)
  let temp ← ui.mul s
  let a ← st.2.1.setSlice temp i i
  let um ← (one m).setSlice ui i i
  let u ← st.1.mul um
  let vx ← a.getRow i
  let vt ← vx.transpose
  let vs ← vt.vgetSlice (i + 1) (n - 1)
  let vi ← householder sqrt vs 0
  let vn ← (one n).setSlice vi (i + 1) (i + 1)
  let a ← a.mul vn
  let v ← st.2.2.mul vn
  some (u, a, v)

/-- `matrix.rs:628-690`, `householder_bidiag`, returning `(u, b, v)`; `0..n - 1` underflows (panics) for `n = 0`. -/
def bidiag (sqrt : K → K) (A : Mat K) : Option (Mat K × Mat K × Mat K) :=
  if A.m < A.n ∨ A.n = 0 then none
  else do
    let st ← forRange 0 (A.n - 1) (bidiagStep sqrt A.m A.n) (one A.m, A, one A.n)
    let a ← forRange 0 A.m (fun (a : Mat K) i =>
      forRange 0 A.n (fun (a : Mat K) k => if k ≠ i ∧ k ≠ i + 1 then a.set i k 0 else some a) a) st.2.1
    some (st.1, a, st.2.2)

/-- `matrix.rs:568-571,583-586`: the assignments that make `q` a rotation. -/
def putRot (q : Mat K) (k : Nat) (c s : K) : Option (Mat K) := do
  let q ← q.set k k c
  let q ← q.set k (k + 1) s
  let q ← q.set (k + 1) k (-s)
  q.set (k + 1) (k + 1) c

/-- `matrix.rs:559-590`: one step of `msweep`; state `(u, b, v)`. -/
def msweepStep (sqrt : K → K) (n : Nat) (st : Mat K × Mat K × Mat K) (k : Nat) :
    Option (Mat K × Mat K × Mat K) := do
  let f ← st.2.1.get k k
  let g ← st.2.1.get k (k + 1)
  let r := rot sqrt f g
  let q ← putRot (one n) k r.1 r.2.1
  let qt ← q.transpose
  let b ← st.2.1.mul qt
  let v ← st.2.2.mul qt
  let f ← b.get k k
  let g ← b.get (k + 1) k
  let r := rot sqrt f g
  let q ← putRot q k r.1 r.2.1
  let b ← q.mul b
  let u ← q.mul st.1
  some (u, b, v)

/-- `matrix.rs:552-593`, `msweep`. -/
def msweep (sqrt : K → K) (st : Mat K × Mat K × Mat K) : Option (Mat K × Mat K × Mat K) :=
  forRange 0 (st.2.1.n - 1) (msweepStep sqrt st.2.1.n) st

/-- `matrix.rs:524-534`: negative diagonal entries and the columns of `u` change sign; state `(u, b)`. -/
def svSign (st : Mat K × Mat K) (l : Nat) : Option (Mat K × Mat K) := do
  let x ← st.2.get l l
  if x < 0 then do
    let b ← st.2.set l l (-x)
    let c ← st.1.getColumn l
    let u ← st.1.setColumn (c.mulScalar (-1)) l
    some (u, b)
  else some st

/-- `matrix.rs:536-546`: everything off the diagonal of `b` is set to zero (both loops run up to `b_m`). -/
def svNull (b : Mat K) : Option (Mat K) :=
  forRange 0 b.m (fun (a : Mat K) l =>
    forRange 0 b.m (fun (a : Mat K) k => if k ≠ l then a.set k l 0 else some a) a) b

/-- `matrix.rs:503-550`, `dec_sv`, returning `(u, s, v)`. -/
def decSv (sqrt : K → K) (A : Mat K) : Option (Mat K × Mat K × Mat K) := do
  let ubv ← bidiag sqrt A
  let n := ubv.2.1.n
  let st ← forRange 0 (500 * n * n) (fun st _ => msweep sqrt st) (one n, ubv.2.1, ubv.2.2)
  let ut ← st.1.transpose
  let u ← ubv.1.mul ut
  let ub ← forRange 0 st.2.1.m svSign (u, st.2.1)
  let b ← svNull ub.2
  some (ub.1, b, st.2.2)

end Singular

section
variable {K : Type} [Field K] [LinearOrder K]

/-- `matrix.rs:1016-1024`, `pinv`. -/
def pinv (sqrt : K → K) (A : Mat K) : Option (Mat K) := do
  let qr ← decQR sqrt A
  let rt ← qr.2.transpose
  let at' ← A.transpose
  let x ← rt.substFwdM at'
  qr.2.substBwdM x

/-- `algebra/abstr/sign.rs:31-39`, `sign` of a real scalar. -/
def sgnK (x : K) : K := if x > 0 then 1 else if x ≥ 0 ∧ x ≤ 0 then 0 else -1

/-- `vector/vector.rs:509-521`, `reflector`; `sgn` is `Sign::sign` of the scalar. A zero vector (division by zero) gives
    `none`. -/
def reflector (sqrt : K → K) (sgn : K → K) (v : Mat K) : Option (Mat K) := do
  let nx ← norm2 sqrt v
  let x0 ← v.vget 0
  let w ← v.vset 0 (x0 + sgn x0 * nx)
  let nw ← norm2 sqrt w
  let w0 ← w.vget 0
  let q ← fdiv w0 nw
  w.vset 0 q

/-- `vector/vector.rs:739-760`, `compare_neighbourhood`: the loop runs over the number of rows. -/
def compareNeighbourhood (a b : Mat K) (eps : K) : Option Bool :=
  if a.m ≠ b.m ∨ a.n ≠ b.n then some false
  else forRange 0 a.m (fun (r : Bool) i =>
    if r then do
      let x ← a.vget i
      let y ← b.vget i
      some (decide (¬ |x - y| > eps))
    else some false) true

end
end Mat

namespace Opt
variable {K : Type} [Field K] [LinearOrder K]

/-- `optimization/gaussnewton.rs:48-54`: one iteration. -/
def gaussNewtonStep (sqrt : K → K) (eval jac : Mat K → Option (Mat K)) (x : Mat K) : Option (Mat K) := do
  let J ← jac x
  let f ← eval x
  let P ← J.pinv sqrt
  let d ← P.mulVec f
  x.sub d

/-- `optimization/gaussnewton.rs:43-57`, `GaussNewton::minimize`. -/
def gaussNewtonMinimize (sqrt : K → K) (eval jac : Mat K → Option (Mat K)) (iters : Nat) (x0 : Mat K) :
    Option (Mat K) :=
  forRange 0 iters (fun x _ => gaussNewtonStep sqrt eval jac x) x0

end Opt
end Verif
