import Verif.MatModel
import Verif.TransposeModel
import Verif.VecModel
import Mathlib.Algebra.Field.Basic
import Mathlib.Algebra.BigOperators.Group.Finset.Basic
import Mathlib.Logic.Equiv.Basic
import Mathlib.Algebra.Group.End
import Mathlib.LinearAlgebra.Matrix.Charpoly.Basic
import Mathlib.Data.Complex.Basic

/-!
# Model of the BLAS/LAPACK backend (`#[cfg(feature = "lapack")]`)

Paths are relative to `/repo/src/algebra/linear/matrix/`.  The external Fortran routines are not part of the crate; they
appear as the functions of the structures `Blas`, `LapackLU` and `LapackR` together with what their documentation
promises, and the code that calls them is modelled for every such function.  Work buffers and the queries of their size
are left out (`Matrix * Vector`, `mul/lapack.rs:12-37`, is the loop of the native backend, `Mat.mulVec`; `transpose/lapack.rs`
is the text of `transpose/native.rs`), `i32` is replaced by `Nat` where a value is a size, and rounding is not modelled.
`Result<_, ()>` is `Except Unit _`; a panic is `none`.
-/

namespace Verif
namespace Lapack

variable {K : Type}

/-- Fortran array element `(i, j)`, counted from 0, of the buffer `a` with leading dimension `lda` -/
def el [Zero K] (a : List K) (lda i j : Nat) : K := a.getD (j * lda + i) 0

/-! ### what the external routines promise -/

/-- BLAS as documented.  `none` is a parameter error or a buffer that is too short. -/
structure Blas (K : Type) [Field K] where
  /-- `y := alpha x + y` -/
  axpy : (n : Nat) → (alpha : K) → (x y : List K) → Option (List K)
  /-- `x := alpha x` -/
  scal : (n : Nat) → (alpha : K) → (x : List K) → Option (List K)
  /-- `C := alpha A B + beta C`, `A` is `m × k`, `B` is `k × n` -/
  gemm : (m n k : Nat) → (alpha : K) → (a : List K) → (lda : Nat) → (b : List K) → (ldb : Nat) → (beta : K) →
    (c : List K) → (ldc : Nat) → Option (List K)
  /-- solves `A X = alpha B`, `A` is `m × m` and lower (`uplo = 'L'`) or upper (`'U'`) triangular, `B` is `m × n` -/
  trsm : (uplo : Char) → (m n : Nat) → (alpha : K) → (a : List K) → (lda : Nat) → (b : List K) → (ldb : Nat) →
    Option (List K)
  axpy_doc : ∀ n alpha x y, n ≤ x.length → n ≤ y.length → ∃ z, axpy n alpha x y = some z ∧ z.length = y.length ∧
    ∀ i < n, z.getD i 0 = alpha * x.getD i 0 + y.getD i 0
  scal_doc : ∀ n alpha x, n ≤ x.length → ∃ z, scal n alpha x = some z ∧ z.length = x.length ∧
    ∀ i < n, z.getD i 0 = alpha * x.getD i 0
  gemm_doc : ∀ m n k alpha a lda b ldb beta c ldc, max 1 m ≤ lda → max 1 k ≤ ldb → max 1 m ≤ ldc →
    lda * k ≤ a.length → ldb * n ≤ b.length → ldc * n ≤ c.length →
    ∃ z, gemm m n k alpha a lda b ldb beta c ldc = some z ∧ z.length = c.length ∧ ∀ i < m, ∀ j < n,
      el z ldc i j = alpha * (∑ l ∈ Finset.range k, el a lda i l * el b ldb l j) + beta * el c ldc i j
  gemm_arg : ∀ m n k alpha a lda b ldb beta c ldc, (lda < max 1 m ∨ ldb < max 1 k ∨ ldc < max 1 m) →
    gemm m n k alpha a lda b ldb beta c ldc = none
  trsm_lower : ∀ m n alpha a lda b ldb, max 1 m ≤ lda → max 1 m ≤ ldb → lda * m ≤ a.length → ldb * n ≤ b.length →
    (∀ i < m, el a lda i i ≠ 0) → ∃ z, trsm 'L' m n alpha a lda b ldb = some z ∧ z.length = b.length ∧
      ∀ i < m, ∀ j < n, (∑ l ∈ Finset.range (i + 1), el a lda i l * el z ldb l j) = alpha * el b ldb i j
  trsm_upper : ∀ m n alpha a lda b ldb, max 1 m ≤ lda → max 1 m ≤ ldb → lda * m ≤ a.length → ldb * n ≤ b.length →
    (∀ i < m, el a lda i i ≠ 0) → ∃ z, trsm 'U' m n alpha a lda b ldb = some z ∧ z.length = b.length ∧
      ∀ i < m, ∀ j < n, (∑ l ∈ Finset.Ico i m, el a lda i l * el z ldb l j) = alpha * el b ldb i j
  trsm_arg : ∀ u m n alpha a lda b ldb, (lda < max 1 m ∨ ldb < max 1 m) → trsm u m n alpha a lda b ldb = none

/-- the lower factor stored by `getrf`: unit diagonal, the rest below it -/
def lowOf [Zero K] [One K] (a : List K) (lda i k : Nat) : K := if k < i then el a lda i k else if k = i then 1 else 0

/-- the upper factor stored by `getrf` -/
def uppOf [Zero K] (a : List K) (lda k j : Nat) : K := if k ≤ j then el a lda k j else 0

/-- the row interchanges `i ↔ ipiv(i)`, `i = 1 … k` in this order: afterwards row `i` is the old row `pivPerm ipiv k i` -/
def pivPerm (ipiv : List ℤ) (k : Nat) : Equiv.Perm Nat :=
  ((List.range k).map fun i => Equiv.swap i ((ipiv.getD i 0).toNat - 1)).prod

/-- the routines of the LU factorisation as documented; `info` is the last component -/
structure LapackLU (K : Type) [Field K] where
  /-- factorises `a`: the factors, the interchanges and `info` -/
  getrf : (m n : Nat) → (a : List K) → (lda : Nat) → List K × List ℤ × ℤ
  /-- solves with the factors `a`, `ipiv`; a result with infinite or undefined numbers is `none` -/
  getrs : (n nrhs : Nat) → (a : List K) → (lda : Nat) → (ipiv : List ℤ) → (b : List K) → (ldb : Nat) →
    Option (List K) × ℤ
  /-- inverts with the factors `a`, `ipiv` -/
  getri : (n : Nat) → (a : List K) → (lda : Nat) → (ipiv : List ℤ) → List K × ℤ
  getrf_arg : ∀ (m n : Nat) (a : List K) (lda : Nat), lda < max 1 m → (getrf m n a lda).2.2 = -4
  getrf_doc : ∀ (m n : Nat) (a : List K) (lda : Nat), max 1 m ≤ lda → lda * n ≤ a.length → ∃ f p info, getrf m n a lda = (f, p, info) ∧
    f.length = a.length ∧ p.length = min m n ∧ (∀ i < min m n, (i : ℤ) + 1 ≤ p.getD i 0 ∧ p.getD i 0 ≤ m) ∧
    (∀ i < m, ∀ j < n, el a lda (pivPerm p (min m n) i) j =
      ∑ k ∈ Finset.range (min m n), lowOf f lda i k * uppOf f lda k j) ∧
    0 ≤ info ∧ (info = 0 ↔ ∀ k < min m n, el f lda k k ≠ 0) ∧
    (∀ k : ℕ, info = k + 1 → k < min m n ∧ el f lda k k = 0)
  getrs_lda : ∀ (n nrhs : Nat) (a : List K) (lda : Nat) (p : List ℤ) (b : List K) (ldb : Nat),
    lda < max 1 n → (getrs n nrhs a lda p b ldb).2 = -5
  getrs_ldb : ∀ (n nrhs : Nat) (a : List K) (lda : Nat) (p : List ℤ) (b : List K) (ldb : Nat),
    max 1 n ≤ lda → ldb < max 1 n → (getrs n nrhs a lda p b ldb).2 = -8
  getrs_doc : ∀ (n nrhs : Nat) (a : List K) (lda : Nat) (p : List ℤ) (b : List K) (ldb : Nat),
    max 1 n ≤ lda → max 1 n ≤ ldb → lda * n ≤ a.length → ldb * nrhs ≤ b.length →
    p.length = n → (∀ i < n, (i : ℤ) + 1 ≤ p.getD i 0 ∧ p.getD i 0 ≤ n) →
    (getrs n nrhs a lda p b ldb).2 = 0 ∧ ((∀ k < n, el a lda k k ≠ 0) →
      ∃ x, (getrs n nrhs a lda p b ldb).1 = some x ∧ x.length = b.length ∧ ∀ i < n, ∀ j < nrhs,
        (∑ k ∈ Finset.range n, (∑ l ∈ Finset.range n, lowOf a lda i l * uppOf a lda l k) * el x ldb k j) =
          el b ldb (pivPerm p n i) j)
  getri_arg : ∀ (n : Nat) (a : List K) (lda : Nat) (p : List ℤ), lda < max 1 n → (getri n a lda p).2 = -3
  getri_doc : ∀ (n : Nat) (a : List K) (lda : Nat) (p : List ℤ), max 1 n ≤ lda → lda * n ≤ a.length →
    p.length = n → (∀ i < n, (i : ℤ) + 1 ≤ p.getD i 0 ∧ p.getD i 0 ≤ n) → (∀ k < n, el a lda k k ≠ 0) →
    ∃ x, getri n a lda p = (x, 0) ∧ x.length = a.length ∧ ∀ i < n, ∀ j < n,
      (∑ k ∈ Finset.range n, (∑ l ∈ Finset.range n, lowOf a lda i l * uppOf a lda l k) * el x lda k j) =
        if pivPerm p n i = j then 1 else 0

/-- the elementary reflector `1 - tau v vᵀ` of order `m` stored in column `i`: `v = 0` above row `i + s`, `1` there, and the
    entries of `a` below (`s = 0` for `geqrf`, `s = 1` for `gehrd`) -/
def reflOf (m s : Nat) (a : List ℝ) (lda : Nat) (tau : List ℝ) (i : Nat) : Matrix (Fin m) (Fin m) ℝ :=
  let v : Fin m → ℝ := fun r => if (r : ℕ) < i + s then 0 else if (r : ℕ) = i + s then 1 else el a lda r i
  1 - tau.getD i 0 • Matrix.vecMulVec v v

/-- the product `H(1) H(2) … H(k)` of the stored reflectors -/
def prodOf (m s k : Nat) (a : List ℝ) (lda : Nat) (tau : List ℝ) : Matrix (Fin m) (Fin m) ℝ :=
  ((List.range k).map (reflOf m s a lda tau)).prod

/-- the matrix in a Fortran array -/
def matOf (m n : Nat) (a : List ℝ) (lda : Nat) : Matrix (Fin m) (Fin n) ℝ := fun i j => el a lda i j

/-- the part of a Fortran array on and above the `s`-th subdiagonal -/
def upOf (m n s : Nat) (a : List ℝ) (lda : Nat) : Matrix (Fin m) (Fin n) ℝ :=
  fun i j => if (i : ℕ) ≤ j + s then el a lda i j else 0

/-- the remaining LAPACK routines as documented, for real numbers -/
structure LapackR where
  /-- Cholesky factorisation of the symmetric matrix given by its lower triangle (`uplo = 'L'`) -/
  potrf : (n : Nat) → (a : List ℝ) → (lda : Nat) → List ℝ × ℤ
  /-- QR factorisation: the reflectors below the diagonal, `tau`, `info` -/
  geqrf : (m n : Nat) → (a : List ℝ) → (lda : Nat) → List ℝ × List ℝ × ℤ
  /-- the first `n` columns of the product of the first `k` reflectors -/
  orgqr : (m n k : Nat) → (a : List ℝ) → (lda : Nat) → (tau : List ℝ) → List ℝ × ℤ
  /-- Hessenberg reduction (`ilo = 1`, `ihi = n`) -/
  gehrd : (n : Nat) → (a : List ℝ) → (lda : Nat) → List ℝ × List ℝ × ℤ
  /-- the product of the reflectors of `gehrd` -/
  orghr : (n : Nat) → (a : List ℝ) → (lda : Nat) → (tau : List ℝ) → List ℝ × ℤ
  /-- eigenvalues `wr + i wi` and right eigenvectors `vr` (`jobvl = 'N'`, `jobvr = 'V'`) -/
  geev : (n : Nat) → (a : List ℝ) → (lda ldvl ldvr : Nat) → List ℝ × List ℝ × List ℝ × ℤ
  potrf_arg : ∀ n a lda, lda < max 1 n → (potrf n a lda).2 = -4
  potrf_doc : ∀ n a lda, max 1 n ≤ lda → lda * n ≤ a.length → ∃ l info, potrf n a lda = (l, info) ∧
    l.length = a.length ∧ 0 ≤ info ∧
    (info = 0 ↔ ∀ x : Fin n → ℝ, x ≠ 0 → 0 < ∑ i : Fin n, ∑ j : Fin n, x i * el a lda (max i j) (min i j) * x j) ∧
    (info = 0 → (∀ i < n, 0 < el l lda i i) ∧ ∀ i < n, ∀ j ≤ i,
      ∑ k ∈ Finset.range (j + 1), el l lda i k * el l lda j k = el a lda i j)
  geqrf_doc : ∀ m n a lda, max 1 m ≤ lda → lda * n ≤ a.length → ∃ f tau, geqrf m n a lda = (f, tau, 0) ∧
    f.length = a.length ∧ tau.length = min m n ∧
    prodOf m 0 (min m n) f lda tau * (prodOf m 0 (min m n) f lda tau).transpose = 1 ∧
    matOf m n a lda = prodOf m 0 (min m n) f lda tau * upOf m n 0 f lda
  orgqr_doc : ∀ m n k a lda tau, n ≤ m → k ≤ n → max 1 m ≤ lda → lda * n ≤ a.length → tau.length = k →
    ∃ q, orgqr m n k a lda tau = (q, 0) ∧ q.length = a.length ∧
      ∀ (i : Fin m) (j : Fin m), (j : ℕ) < n → el q lda i j = prodOf m 0 k a lda tau i j
  gehrd_doc : ∀ n a lda, max 1 n ≤ lda → lda * n ≤ a.length → ∃ f tau, gehrd n a lda = (f, tau, 0) ∧
    f.length = a.length ∧ tau.length = n - 1 ∧
    prodOf n 1 (n - 1) f lda tau * (prodOf n 1 (n - 1) f lda tau).transpose = 1 ∧
    matOf n n a lda = prodOf n 1 (n - 1) f lda tau * upOf n n 1 f lda *
      (prodOf n 1 (n - 1) f lda tau).transpose
  orghr_doc : ∀ n a lda tau, max 1 n ≤ lda → lda * n ≤ a.length → tau.length = n - 1 →
    ∃ q, orghr n a lda tau = (q, 0) ∧ q.length = a.length ∧
      ∀ (i j : Fin n), el q lda i j = prodOf n 1 (n - 1) a lda tau i j
  geev_doc : ∀ n a lda ldvl ldvr, max 1 n ≤ lda → 1 ≤ ldvl → n ≤ ldvr → lda * n ≤ a.length →
    ∃ wr wi vr info, geev n a lda ldvl ldvr = (wr, wi, vr, info) ∧
      wr.length = n ∧ wi.length = n ∧ vr.length = ldvr * n ∧ 0 ≤ info ∧ (info = 0 →
      ((matOf n n a lda).map ((↑) : ℝ → ℂ)).charpoly =
        ∏ j : Fin n, (Polynomial.X - Polynomial.C (⟨wr.getD j 0, wi.getD j 0⟩ : ℂ)) ∧
      ∀ j : Fin n, wi.getD j 0 = 0 → (∃ i : Fin n, el vr ldvr i j ≠ 0) ∧
        (matOf n n a lda).mulVec (fun i : Fin n => el vr ldvr i j) =
          fun i : Fin n => wr.getD j 0 * el vr ldvr i j)

/-! ### the code -/

section Arith
variable [Field K] (B : Blas K)

/-- `add/lapack.rs:21-32,51-62`, `Matrix + Matrix` -/
def add (A C : Mat K) : Option (Mat K) :=
  if A.m = C.m ∧ A.n = C.n then do
    let c ← B.axpy (C.m * C.n) 1 A.data C.data
    some ⟨C.m, C.n, c⟩
  else none

/-- `sub/lapack.rs:31-42,49-60`, `Matrix - Matrix` -/
def sub (A C : Mat K) : Option (Mat K) :=
  if A.m = C.m ∧ A.n = C.n then do
    let c ← B.axpy (C.m * C.n) (-1) C.data A.data
    some ⟨A.m, A.n, c⟩
  else none

/-- `mul/lapack.rs:56-82,166-175`, `mul_scalar` -/
def mulScalar (A : Mat K) (s : K) : Option (Mat K) := do
  let c ← B.scal (A.m * A.n) s A.data
  some ⟨A.m, A.n, c⟩

/-- `mul/lapack.rs:112-161`, `Matrix * Matrix` -/
def mul (A C : Mat K) : Option (Mat K) :=
  if A.n = C.m then do
    let c ← B.gemm A.m C.n A.n 1 A.data A.m C.data A.n 0 (Mat.zero (K := K) A.m C.n).data A.m
    some ⟨A.m, C.n, c⟩
  else none

/-- `substitute/lapack.rs:7-23,25-42`, `Substitute<Vector<T>>`, forward for `'L'`, backward for `'U'` -/
def substV (uplo : Char) (A b : Mat K) : Option (Mat K) := do
  let x ← B.trsm uplo b.m b.n 1 A.data A.m b.data b.m
  Mat.newColumn b.m x

/-- `substitute/lapack.rs:46-79`, `Substitute<Matrix<T>>`, forward for `'L'`, backward for `'U'` -/
def substM (uplo : Char) (A b : Mat K) : Option (Mat K) := do
  let x ← B.trsm uplo b.m b.n 1 A.data A.m b.data b.m
  some ⟨b.m, b.n, x⟩

end Arith

section LU
variable [Field K] (P : LapackLU K)

/-- `lu/lapack.rs:62-82`, `l`: zero on and above the diagonal, then one on the diagonal -/
def luL (A : Mat K) : Option (Mat K) := do
  let B ← forRange 0 A.m (fun A' i => forRange i A.n (fun (A' : Mat K) k => A'.set i k 0) A') A
  forRange 0 A.m (fun (A' : Mat K) i => A'.set i i 1) B

/-- `lu/lapack.rs:84-98`, `u`: zero below the diagonal -/
def luU (A : Mat K) : Option (Mat K) :=
  forRange 0 A.m (fun A' i => forRange 0 i (fun (A' : Mat K) k => A'.set i k 0) A') A

/-- `lu/lapack.rs:101-128`, `p`: the permutation matrix of a sequence of interchanges; `length - 1` underflows for an
    empty sequence, an index below 1 panics -/
def luP (per : List ℤ) : Option (Mat K) :=
  if per.length = 0 then none else do
    let perm ← forRange 0 (per.length - 1) (fun (perm : List Nat) i => do
      let q ← per[i]?
      if q < 1 then none else do
        let temp ← perm[(q - 1).toNat]?
        let x ← perm[i]?
        some ((perm.set (q - 1).toNat x).set i temp)) (List.range per.length)
    forRange 0 per.length (fun (p : Mat K) i => do
      let k ← perm[i]?
      p.set i k 1) (Mat.zero per.length per.length)

/-- `lu/lapack.rs:26-60`, `dec_lu` -/
def decLU (A : Mat K) : Option (Except Unit (Mat K × Mat K × Mat K)) :=
  if A.m = A.n then
    let r := P.getrf A.m A.n A.data A.m
    if r.2.2 ≠ 0 then some (.error ()) else do
      let mat ← Mat.new A.m A.n r.1
      let l ← luL mat
      let u ← luU mat
      let p ← luP r.2.1
      some (.ok (l, u, p))
  else none

/-- `matrix.rs:171-218`, `det`, with the decomposition of this backend -/
def det [LinearOrder K] (A : Mat K) : Option K :=
  if A.m = A.n then
    if A.m = 1 then A.get 0 0
    else if A.m = 2 then do
      let a11 ← A.get 0 0
      let a12 ← A.get 0 1
      let a21 ← A.get 1 0
      let a22 ← A.get 1 1
      some (a11 * a22 - a12 * a21)
    else do
      let r ← decLU P A
      match r with
      | .error _ => some 0
      | .ok lup => do
        let d ← forRange 0 A.m (fun (d : K) i => do
          let x ← lup.2.1.get i i
          some (d * x)) 1
        let counter ← forRange 0 A.m (fun (c : Nat) i => do
          let x ← lup.2.2.get i i
          some (if x ≠ 1 then c + 1 else c)) 0
        some ((if counter ≠ 0 then (-1) ^ (counter - 1) else 1) * d)
  else none

/-- `inverse/lapack.rs:27-78`, `inv_r` -/
def inv (A : Mat K) : Option (Except Unit (Mat K)) := do
  let at' ← A.transpose
  let r := P.getrf A.m A.n at'.data A.m
  if r.2.2 ≠ 0 then some (.error ()) else do
    let s := P.getri A.n r.1 A.n r.2.1
    if s.2 ≠ 0 then some (.error ()) else do
      let x ← Mat.new A.n A.m s.1
      let y ← x.transpose
      some (.ok y)

/-- `solve/lapack.rs:29-73`, `solve_vector_r`: only a negative `info` of `xgetrf` is an error -/
def solveV (A y : Mat K) : Option (Except Unit (Mat K)) :=
  let r := P.getrf A.m A.n A.data A.m
  if r.2.2 < 0 then some (.error ()) else
    let s := P.getrs A.m 1 r.1 A.n r.2.1 y.data y.m
    if s.2 ≠ 0 then some (.error ()) else do
      let x ← s.1
      let v ← Mat.newColumn y.m x
      some (.ok v)

/-- `solve/lapack.rs:78-122`, `solve_matrix_r`: the leading dimension of the right-hand side is its number of columns -/
def solveM (A y : Mat K) : Option (Except Unit (Mat K)) :=
  let r := P.getrf A.m A.n A.data A.m
  if r.2.2 < 0 then some (.error ()) else
    let s := P.getrs A.n y.n r.1 A.m r.2.1 y.data y.n
    if s.2 ≠ 0 then some (.error ()) else do
      let x ← s.1
      let v ← Mat.new y.m y.n x
      some (.ok v)

end LU

section Real
variable (P : LapackR)

/-- `cholesky/lapack.rs:38-69`, `dec_cholesky`: only a negative `info` is an error -/
def decChol (A : Mat ℝ) : Option (Except Unit (Mat ℝ)) :=
  if A.m = A.n then
    let r := P.potrf A.n A.data A.n
    if r.2 < 0 then some (.error ()) else do
      let l ← Mat.new A.n A.n r.1
      let l ← forRange 0 A.n (fun l i => forRange (i + 1) A.n (fun (l : Mat ℝ) j => l.set i j 0) l) l
      some (.ok l)
  else none

/-- `qr/lapack.rs:100-111`, `r`: zero below the diagonal -/
def qrR (A : Mat ℝ) : Option (Mat ℝ) :=
  forRange 1 A.m (fun A' i => forRange 0 (min i A.n) (fun (A' : Mat ℝ) k => A'.set i k 0) A') A

/-- `qr/lapack.rs:30-98`, `dec_qr` -/
def decQR (A : Mat ℝ) : Option (Mat ℝ × Mat ℝ) :=
  if A.n ≤ A.m then
    let r := P.geqrf A.m A.n A.data A.m
    if r.2.2 ≠ 0 then none else do
      let a ← Mat.new A.m A.n r.1
      let rr ← qrR a
      let s := P.orgqr A.m (min A.m A.n) r.2.1.length r.1 A.m r.2.1
      if s.2 ≠ 0 then none else do
        let q ← Mat.new A.m A.n s.1
        some (q, rr)
  else none

/-- `hessenberg/lapack.rs:98-109`, `h`: zero below the first subdiagonal -/
def hesH (A : Mat ℝ) : Option (Mat ℝ) :=
  forRange 2 A.m (fun A' i => forRange 0 (i - 1) (fun (A' : Mat ℝ) k => A'.set i k 0) A') A

/-- `hessenberg/lapack.rs:33-96`, `dec_hessenberg` -/
def decHessenberg (A : Mat ℝ) : Option (Mat ℝ × Mat ℝ) :=
  if A.m = A.n ∧ A.m ≠ 0 then
    let r := P.gehrd A.n A.data A.n
    if r.2.2 ≠ 0 then none else do
      let a ← Mat.new A.n A.n r.1
      let h ← hesH a
      let s := P.orghr A.n r.1 A.n r.2.1
      if s.2 ≠ 0 then none else do
        let q ← Mat.new A.m A.n s.1
        some (q, h)
  else none

/-- `eigen/lapack.rs:27-79`, `dec_eigen`: values and vectors; the matrix is transposed before the call, the imaginary
    parts are dropped -/
def decEigen (A : Mat ℝ) : Option (Mat ℝ × Mat ℝ) :=
  if A.m = A.n ∧ A.m ≠ 0 then do
    let at' ← A.transpose
    let r := P.geev A.n at'.data A.n 1 A.n
    if r.2.2.2 ≠ 0 then none else do
      let w ← Mat.newColumn A.m r.1
      let v ← Mat.new A.n A.n r.2.2.1
      some (w, v)
  else none

end Real

end Lapack
end Verif
