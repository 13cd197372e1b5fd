import Verif.MatModel

/-!
# Model of the in-place matrix transpose (`/repo/src/algebra/linear/matrix/transpose/native.rs`)
-/

namespace Verif
namespace Mat
variable {K : Type}

/-- `transpose/native.rs:11-20`, `gcd`: `while m != 0 { (m, n) = (n % m, m) }; n`. -/
def gcd (m n : Nat) : Nat :=
  if _h : m = 0 then n else gcd (n % m) m
termination_by m
decreasing_by exact Nat.mod_lt _ (Nat.pos_of_ne_zero _h)

/-- `transpose/native.rs:22-25`, `gather`.  `self.m`, `b` are nonzero whenever it is called. -/
def gather (m i j b : Nat) : Nat := (i + j / b) % m

/-- `transpose/native.rs:27-30`, `gather_sa`; `none` is the underflow panic of the subtraction. -/
def gatherSa (m n i j a : Nat) : Option Nat :=
  if i / a ≤ j + i * n then some ((j + i * n - i / a) % m) else none

/-- `transpose/native.rs:32-35`, `scatter_da`. -/
def scatterDa (m n i j b : Nat) : Nat := (((i + j / b) % m) + j * m) % n

/-- `temp[i] = v` with its bounds check -/
def tset (t : List K) (i : Nat) (v : K) : Option (List K) :=
  if i < t.length then some (t.set i v) else none

/-- `for i in 0..m { temp[i] = *self.get(rho(i), j) }` (`native.rs:81-84,108-111`) -/
def gatherLoop (A : Mat K) (rho : Nat → Option Nat) (j : Nat) (temp : List K) : Option (List K) :=
  forRange 0 A.m (fun t i => do
    let r ← rho i
    let v ← A.get r j
    tset t i v) temp

/-- `for i in 0..m { *self.get_mut(i, j) = temp[i] }` (`native.rs:86-89,113-116`) -/
def writeCol (A : Mat K) (j : Nat) (temp : List K) : Option (Mat K) :=
  forRange 0 A.m (fun A i => do
    let v ← temp[i]?
    A.set i j v) A

/-- `for j in 0..n { temp[scatter_da(i, j, b)] = *self.get(i, j) }` (`native.rs:95-98`) -/
def scatterLoop (A : Mat K) (b i : Nat) (temp : List K) : Option (List K) :=
  forRange 0 A.n (fun t j => do
    let v ← A.get i j
    tset t (scatterDa A.m A.n i j b) v) temp

/-- `for j in 0..n { *self.get_mut(i, j) = temp[j] }` (`native.rs:100-103`) -/
def writeRow (A : Mat K) (i : Nat) (temp : List K) : Option (Mat K) :=
  forRange 0 A.n (fun A j => do
    let v ← temp[j]?
    A.set i j v) A

/-- `transpose/native.rs:77-91`, the first pass (only if `gcdiv > 1`); state: matrix and `temp`. -/
def pass1 (gcdiv b : Nat) (s : Mat K × List K) : Option (Mat K × List K) :=
  if gcdiv > 1 then
    forRange 0 s.1.n (fun (s : Mat K × List K) j => do
      let t ← gatherLoop s.1 (fun i => some (gather s.1.m i j b)) j s.2
      let A ← writeCol s.1 j t
      some (A, t)) s
  else some s

/-- `transpose/native.rs:93-104`, the second pass. -/
def pass2 (b : Nat) (s : Mat K × List K) : Option (Mat K × List K) :=
  forRange 0 s.1.m (fun (s : Mat K × List K) i => do
    let t ← scatterLoop s.1 b i s.2
    let A ← writeRow s.1 i t
    some (A, t)) s

/-- `transpose/native.rs:106-117`, the third pass. -/
def pass3 (a : Nat) (s : Mat K × List K) : Option (Mat K × List K) :=
  forRange 0 s.1.n (fun (s : Mat K × List K) j => do
    let t ← gatherLoop s.1 (fun i => gatherSa s.1.m s.1.n i j a) j s.2
    let A ← writeCol s.1 j t
    some (A, t)) s

/-- `transpose/native.rs:64-124`, `Matrix::transpose`.  `temp` is created with `set_len` and therefore has
    unspecified contents, here the parameter `junk`.  `self.m / gcdiv` panics for a 0×0 matrix. -/
def transposeWith (junk : Nat → K) (A : Mat K) : Option (Mat K) :=
  let gcdiv := gcd A.m A.n
  if gcdiv = 0 then none else do
    let s ← pass1 gcdiv (A.n / gcdiv) (A, (List.range (max A.m A.n)).map junk)
    let s ← pass2 (A.n / gcdiv) s
    let s ← pass3 (A.m / gcdiv) s
    some ⟨s.1.n, s.1.m, s.1.data⟩

/-- `Matrix::transpose` with a zeroed scratch buffer; `TransposeLemmas.transposeWith_junk` proves that the
    contents of the scratch buffer do not matter.  Used by the models of the callers. -/
def transpose [Zero K] (A : Mat K) : Option (Mat K) := transposeWith (fun _ => 0) A

end Mat
end Verif
