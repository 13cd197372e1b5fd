import Verif.PolyModel

/-!
# Model of the division, derivative and primitive of polynomials for any type of numbers

The functions of `PolyModel.lean` once more, for any type of numbers with the operations of the code in their order.  `small v` is
`abs_diff_eq!(v, T::zero())`, that is `|v - 0| <= T::default_epsilon()` (`/repo/src/algebra/abstr/abs_diff_eq.rs:131-134`).
-/

namespace Verif
namespace Poly
variable {K : Type}

/-- `/repo/src/algebra/abstr/polynomial.rs:582-598`, the loop of `reduce_coef` -/
def reduceLoopG (small : K → Bool) : Nat → List K → Option (List K)
  | 0, coef => some coef
  | i + 1, coef => do
    let v ← coef[i + 1]?
    if small v then reduceLoopG small i coef.dropLast else some coef

/-- `/repo/src/algebra/abstr/polynomial.rs:582-603`, `reduce` -/
def reduceG (small : K → Bool) (coef : List K) : Option (List K) := do
  let c ← reduceLoopG small (coef.length - 1) coef
  fromCoef c

section
variable [Zero K] [Sub K] [Mul K] [Div K] [DecidableEq K]

/-- `/repo/src/algebra/abstr/polynomial.rs:552-576`, `&p / &q`, returning (quotient, remainder); a zero leading coefficient of `q`
gives inf/NaN in the code and `none` here -/
def divG (small : K → Bool) (p q : List K) : Option (List K × List K) := do
  let dq ← degree q
  let dp ← degree p
  if dq > dp then some (zero, p)
  else do
    let qd := dp - dq
    let s ← forRange 0 (qd + 1) (fun (s : List K × List K) t => do
      let i := qd - t
      let r ← s.2[dq + i]?
      let l ← q[dq]?
      if l = 0 then none
      else do
        let c := r / l
        let quotient ← lset s.1 i c
        let remainder ← forRange 0 q.length (fun (rem : List K) k => do
          let v ← q[k]?
          let x ← rem[k + i]?
          lset rem (k + i) (x - v * c)) s.2
        some (quotient, remainder)) (List.replicate (qd + 1) (0 : K), p)
    let quotient ← fromCoef s.1
    let remainder ← reduceG small s.2
    some (quotient, remainder)

variable [NatCast K]

/-- `/repo/src/algebra/abstr/polynomial.rs:629-643`, `differentiate` -/
def differentiateG (small : K → Bool) (p : List K) : Option (List K) := do
  let d ← degree p
  if d = 0 then fromCoef [0]
  else do
    let coefDiff ← forRange 0 (p.length - 1) (fun (c : List K) i => do
      let a ← p[i + 1]?
      some (c ++ [((i + 1 : Nat) : K) * a])) []
    reduceG small coefDiff

/-- `/repo/src/algebra/abstr/polynomial.rs:665-676`, `integrate` -/
def integrateG (small : K → Bool) (p : List K) : Option (List K) := do
  let coefInt ← forRange 0 p.length (fun (c : List K) i => do
    let a ← p[i]?
    some (c ++ [a / ((i + 1 : Nat) : K)])) [0]
  reduceG small coefInt

end

section
variable [Field K] [LinearOrder K]

theorem reduceLoopG_exact (eps : K) (n : ℕ) (c : List K) : reduceLoopG (fun v => |v - 0| ≤ eps) n c = reduceLoop eps n c := by
  induction n generalizing c with
  | zero => rfl
  | succ n ih =>
    simp only [reduceLoopG, reduceLoop, ih, decide_eq_true_eq]

theorem reduceG_exact (eps : K) (c : List K) : reduceG (fun v => |v - 0| ≤ eps) c = reduce eps c := by
  simp only [reduceG, reduce, reduceCoef, reduceLoopG_exact]

/-- on an ordered field these are the functions of `PolyModel.lean` -/
theorem divG_exact (eps : K) (p q : List K) : divG (fun v => |v - 0| ≤ eps) p q = div eps p q := by
  simp only [divG, div, reduceG_exact]

theorem differentiateG_exact (eps : K) (p : List K) : differentiateG (fun v => |v - 0| ≤ eps) p = differentiate eps p := by
  simp only [differentiateG, differentiate, reduceG_exact]

theorem integrateG_exact (eps : K) (p : List K) : integrateG (fun v => |v - 0| ≤ eps) p = integrate eps p := by
  simp only [integrateG, integrate, reduceG_exact]

end
end Poly
end Verif
