import Verif.VecModel

/-!
# Model of the LU decomposition and what is built on it

Native implementations: `/repo/src/algebra/linear/matrix/lu/native.rs`, `lu/ludec.rs`, `substitute/native.rs`,
`solve/native.rs`, `inverse/native.rs` and `det` of `matrix.rs`.

The Rust functions return `Result`, but none of them ever builds an `Err`; the models return the `Ok` value.
`none` is a panic, or a float division by zero (an infinity or NaN in the code).
-/

namespace Verif
namespace Mat
variable {K : Type}

section Ops
variable [Zero K] [One K] [Add K] [Sub K] [Mul K] [Div K] [LinearOrder K]

/-- `lu/native.rs:39-50`: the row of the largest entry (by value, not absolute value) of column `i`
    at or below the diagonal. State: (max, i_max). -/
def pivotLoop (a : Mat K) (i : Nat) : Option (K × Nat) := do
  let mx ← a.get i i
  forRange (i + 1) a.m (fun (s : K × Nat) l => do
    let x ← a.get l i
    some (if x > s.1 then (x, l) else s)) (mx, i)

/-- `lu/native.rs:60-74`: the factor `f` for row `j`: a quotient, or the entry itself when the pivot is zero. -/
def elimFactor (a : Mat K) (i j : Nat) : Option K := do
  let x ← a.get j i
  let y ← a.get i i
  some (if y ≠ 0 then x / y else x)

/-- `lu/native.rs:58-76`: elimination of row `j` with pivot row `i`; the factor is stored in place. -/
def elimRow (a : Mat K) (i j : Nat) : Option (Mat K) := do
  let f ← elimFactor a i j
  let a ← forRange (i + 1) a.n (fun (a : Mat K) k => do
    let x ← a.get j k
    let y ← a.get i k
    a.set j k (x - f * y)) a
  a.set j i f

/-- `lu/native.rs:52-56`: swap the rows of `a` and `p` when the pivot is elsewhere. -/
def pivotSwap (a p : Mat K) (i iMax : Nat) : Option (Mat K × Mat K) :=
  if i ≠ iMax then do
    let a ← a.swapRows i iMax
    let p ← p.swapRows i iMax
    some (a, p)
  else some (a, p)

/-- `lu/native.rs:36-77`: one elimination step. -/
def luStep (s : Mat K × Mat K) (i : Nat) : Option (Mat K × Mat K) := do
  let pm ← pivotLoop s.1 i
  let s ← pivotSwap s.1 s.2 i pm.2
  let a ← forRange (i + 1) s.1.n (fun a j => elimRow a i j) s.1
  some (a, s.2)

/-- `lu/native.rs:24-93`, `dec_lu`, returning `(l, u, p)`.
    The copies through `data[j*m+i]` are written with `get`/`set`. -/
def decLU (A : Mat K) : Option (Mat K × Mat K × Mat K) :=
  if A.m = A.n then do
    let s ← forRange 0 A.m luStep (A, one A.m)
    let a := s.1
    let l ← forRange 1 a.n (fun l i =>
      forRange 0 i (fun (l : Mat K) j => do
        let x ← a.get i j
        l.set i j x) l) (one A.m)
    let u ← forRange 0 a.n (fun u i =>
      forRange i a.n (fun (u : Mat K) k => do
        let x ← a.get i k
        u.set i k x) u) (one A.n)
    some (l, u, s.2)
  else none

end Ops

/-- `matrix.rs:171-218`, `det`.  `(-1).pow(counter - 1)` is an integer power. -/
def det [Field K] [LinearOrder K] (A : Mat K) : Option K :=
  if A.m = A.n then
    if A.m = 1 then A.get 0 0
    else if A.m = 2 then do
      let a11 ← A.get 0 0
      let a12 ← A.get 0 1
      let a21 ← A.get 1 0
      let a22 ← A.get 1 1
      some (a11 * a22 - a12 * a21)
    else do
      let lup ← decLU A
      let d ← forRange 0 A.m (fun (d : K) i => do
        let x ← lup.2.1.get i i
        some (d * x)) 1
      let counter ← forRange 0 A.m (fun (c : Nat) i => do
        let x ← lup.2.2.get i i
        some (if x ≠ 1 then c + 1 else c)) 0
      some ((if counter ≠ 0 then (-1) ^ (counter - 1) else 1) * d)
  else none

section Ops
variable [Zero K] [One K] [Add K] [Sub K] [Mul K] [Div K] [LinearOrder K]

/-- Float division; a zero divisor gives inf/NaN, here `none`. -/
def fdiv (x y : K) : Option K := if y = 0 then none else some (x / y)

/-- `substitute/native.rs:7-20`, `Substitute<Vector>::substitute_forward` -/
def substFwdV (A b : Mat K) : Option (Mat K) :=
  forRange 0 A.n (fun (b : Mat K) k => do
    let b ← forRange 0 k (fun (b : Mat K) l => do
      let x ← b.vget k
      let a ← A.get k l
      let y ← b.vget l
      b.vset k (x - a * y)) b
    let x ← b.vget k
    let d ← A.get k k
    let q ← fdiv x d
    b.vset k q) b

/-- `substitute/native.rs:22-43`, `Substitute<Vector>::substitute_backward`; the `rev()` loops run over
    `k = n-1-t` and `l = n-1-s`. -/
def substBwdV (A b : Mat K) : Option (Mat K) :=
  forRange 0 A.n (fun (b : Mat K) t => do
    let k := A.n - 1 - t
    let b ← forRange 0 (A.n - (k + 1)) (fun (b : Mat K) s => do
      let l := A.n - 1 - s
      let x ← b.vget k
      let a ← A.get k l
      let y ← b.vget l
      b.vset k (x - a * y)) b
    let x ← b.vget k
    let d ← A.get k k
    b.vset k (if d ≠ 0 then x / d else 1)) b

/-- `b.set_row(&(b.get_row(k) - (b.get_row(l) * a)), k)` of `substitute/native.rs:55,73` -/
def rowUpdate (b : Mat K) (k l : Nat) (a : K) : Option (Mat K) := do
  let rk ← b.getRow k
  let rl ← b.getRow l
  let d ← rk.sub (rl.mulScalar a)
  b.setRow d k

/-- `b.set_row(&(b.get_row(k) / d), k)` of `substitute/native.rs:57,75` -/
def rowDiv (b : Mat K) (k : Nat) (d : K) : Option (Mat K) := do
  let rk ← b.getRow k
  let q ← rk.divScalar d
  b.setRow q k

/-- `substitute/native.rs:48-60`, `Substitute<Matrix>::substitute_forward` -/
def substFwdM (A b : Mat K) : Option (Mat K) :=
  forRange 0 (min A.m A.n) (fun (b : Mat K) k => do
    let b ← forRange 0 k (fun (b : Mat K) l => do
      let a ← A.get k l
      rowUpdate b k l a) b
    let d ← A.get k k
    rowDiv b k d) b

/-- `substitute/native.rs:62-78`, `Substitute<Matrix>::substitute_backward` -/
def substBwdM (A b : Mat K) : Option (Mat K) :=
  forRange 0 (min A.m A.n) (fun (b : Mat K) t => do
    let k := min A.m A.n - 1 - t
    let b ← forRange 0 (min A.m A.n - (k + 1)) (fun (b : Mat K) s => do
      let l := min A.m A.n - 1 - s
      let a ← A.get k l
      rowUpdate b k l a) b
    let d ← A.get k k
    rowDiv b k d) b

/-- `lu/ludec.rs:55-64`, `LUDec::solve` for a vector -/
def luSolveV (lup : Mat K × Mat K × Mat K) (rhs : Mat K) : Option (Mat K) := do
  let bHat ← lup.2.2.mulVec rhs
  let y ← substFwdV lup.1 bHat
  substBwdV lup.2.1 y

/-- `lu/ludec.rs:96-104`, `LUDec::solve` for a matrix -/
def luSolveM (lup : Mat K × Mat K × Mat K) (rhs : Mat K) : Option (Mat K) := do
  let bHat ← lup.2.2.mul rhs
  let y ← substFwdM lup.1 bHat
  substBwdM lup.2.1 y

/-- `solve/native.rs:12-23`, `Matrix::solve` for a vector (the body repeats `LUDec::solve`) -/
def solveV (A rhs : Mat K) : Option (Mat K) := do
  let lup ← decLU A
  luSolveV lup rhs

/-- `solve/native.rs:28-31`, `Matrix::solve` for a matrix -/
def solveM (A rhs : Mat K) : Option (Mat K) := do
  let lup ← decLU A
  luSolveM lup rhs

/-- `inverse/native.rs:20-32` and `lu/ludec.rs:85-90`, `inv` -/
def inv (A : Mat K) : Option (Mat K) := do
  let lup ← decLU A
  luSolveM lup (one lup.2.2.m)

end Ops
end Mat
end Verif
