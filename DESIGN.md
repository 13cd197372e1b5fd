# Design: a Lean model of mathru 0.9.1

## What is modelled, and how

The source is `/repo` (crate `mathru`): the `native` backend of the default feature set, and the code around the external
routines of the `lapack` feature (C93 to C96, for every BLAS/LAPACK with the documented behaviour).  Each model definition carries a comment citing the file and lines it models.

Conventions used throughout:

* **Numbers.**  The crate is generic over `T: Field + Scalar` / `T: Real`, instantiated with `f32`/`f64`.
  The model replaces `T` by an exact field (`[Field K]`, with a linear order where the code compares) or by
  `ℝ`/`ℂ` where the code needs roots or transcendental functions.  Theorems over these types are
  about the algorithm in exact arithmetic.
* **Rounding.**  For C88 and later "rounding" properties the same definitions are run on the number type `Fl R`, whose
  operations are the exact ones followed by a rounding function `R` with relative error at most `u` (the standard model of
  floating-point arithmetic).  `f64` and `f32` are instances (53 and 24 bits, round to nearest, ties to even) that the
  kernel can evaluate, so concrete wrong results are shown bit by bit.  **Overflow to infinity, underflow and NaN
  are not modelled.**
* **Panics.**  A panic (assert, index out of range, explicit `panic!`, `unimplemented!`) is the value `none`
  of an `Option` result.  Division by an exact zero does not panic in Rust floating point, it produces
  inf/NaN; where a modelled algorithm divides, the model either also returns `none` ("leaves the finite
  reals") or the theorem carries the nonzero hypothesis; each definition says which.
* **`&mut self`** methods return the new value.  **Loops** are folds over the index range (`Verif.forRange`)
  in the `Option` monad, so a panic in the body panics the loop; unbounded `loop`/`while` take a fuel argument and
  the theorems quantify over all fuels.
* **Matrices** are `Mat K := {m, n, data : List K}` with the crate's column-major layout; the specification side
  is Mathlib's `Matrix (Fin m) (Fin n) K`, related by `Repr A M` ("A has dimensions m×n and stores M").
  Polynomials are specified by Mathlib's `Polynomial K`, complex numbers by Mathlib's `ℂ`, distributions by
  integrals, sums and derivatives from Mathlib.

Layout of `lean/Verif`: `*Model.lean` holds the model, `*Lemmas.lean` helper lemmas and `*Props.lean` the
property theorems (named `C<nn>_...`).  A theorem with suffix `_partial` proves only part of the property and its
comment says what is missing; a theorem named `..._violated` proves that the code (as modelled) breaks
the property, with a concrete witness.


## Properties

| id | property | status | model and proof |
|---|---|---|---|
| C01 | Matrix construction and element access are column-major and exact | proved | `Mat.new/get/set` over a flat list; proved by index arithmetic `j*m+i` (injective on i<m). |
| C02 | Matrix addition and subtraction are entrywise | proved | zip of the buffers as in the code; proved equal to Mathlib `+`/`-` via `Repr`. |
| C03 | Matrix multiplication is the linear-algebra product | proved | triple loop of the code as nested `forRange`; proved equal to Mathlib `*`. |
| C04 | Scalar operations act on every entry | proved | map over buffer; proved equal to scalar action. |
| C05 | In-place transpose really transposes every matrix | partial | the three Catanzaro passes literally. The code transposes all m×n matrices iff the shape is square or a vector (`C05_shape_iff`); witnesses: a 2×3 matrix is scrambled, 0×0 panics. |
| C06 | Rows and columns round-trip | partial | loops over a row/column as in the code. |
| C07 | Slices round-trip | proved | loops over block; subtraction underflow modelled as panic. |
| C08 | swap_rows exchanges two rows and nothing else | proved | loop swapping entries through a temporary. |
| C09 | trace is the sum of the diagonal | proved | loop over the diagonal; Mathlib `Matrix.trace`. |
| C10 | det is the determinant | partial | model of the 1×1, 2×2 and LU branch and of the sign computation; refuted by witness, partial theorem where it holds. |
| C11 | LU decomposition reconstructs the matrix | partial | elimination loops with pivot choice as in code; loop invariant P*A = L*U. |
| C12 | solve returns a solution | partial | model of permutation + forward + backward substitution; correctness when pivots are nonzero, witness for singular input. |
| C13 | inv returns the inverse | partial | as C12 with identity right-hand side. |
| C14 | Triangular substitution solves triangular systems | proved | loops of substitute/native.rs; invariants row by row. |
| C15 | QR decomposition reconstructs the matrix | partial | Givens loops over ℝ; invariants Q orthogonal, Q*R = A; upper-triangularity refuted by witness and proved under nonzero-pivot condition. |
| C16 | Cholesky decomposition reconstructs the matrix | partial | loops of cholesky/native.rs over ℝ; L Lᵀ = A for positive definite A, and a witness that indefinite input is accepted. |
| C17 | Householder transformation is an orthogonal reflector that annihilates | partial | model of householder over ℝ; reflector algebra with Mathlib matrices; dimension bug refuted by witness. |
| C18 | Hessenberg decomposition reconstructs the matrix | partial | loop over householder; invariant Q H Qᵀ = A when no step meets a zero column; otherwise a panic (witness: every upper triangular matrix). |
| C19 | Matrix equality and approximate equality compare every entry | partial | model of the early-returning loops; refuted by witness; partial: first entry only. |
| C20 | Matrix iterators enumerate every element once | proved | iterator state machines; `next` until `none` yields all rows/columns. |
| C21 | Vector inner and outer products | partial | loops for dotp/dyadp; Mathlib dotProduct / vecMulVec. |
| C22 | Vector norms | partial | real model of p_norm/eucl_norm; odd p with negative entries is a witness. |
| C23 | argmax/argmin return an extremal index | proved | loops; invariant over the prefix. |
| C24 | Vector slices round-trip | partial | loops; as C07. |
| C25 | Matrix-vector products | proved | loops; Mathlib mulVec/vecMul. |
| C26 | Polynomial evaluation | proved | Horner loop; Mathlib `Polynomial.eval`. |
| C27 | Polynomial addition and negation | proved | zip loops plus trailing-zero reduction; equality of the denoted Mathlib polynomials. |
| C28 | Polynomial subtraction | partial | both branches as in code; refuted for deg q > deg p, proved otherwise. |
| C29 | Polynomial multiplication | proved | double loop; Mathlib `*`. |
| C30 | Polynomial division with remainder | partial | loop with fuel; division identity and degree bound for exact tolerance 0; for every positive tolerance exactness is refuted. |
| C31 | Polynomial calculus | partial | loops; Mathlib `derivative`; round trip refuted for every positive tolerance (reduction drops small coefficients). |
| C32 | from_root builds the monic polynomial with the given roots | proved | the recursive product construction; Mathlib `∏ (X - C r)`. |
| C33 | Complex arithmetic forms a field | proved | pairs over ℝ with the code's formulas; equality with Mathlib ℂ operations. |
| C34 | Complex exponential, logarithm and power | partial | code's formulas; Mathlib `Complex.exp/log/cpow`; powers of zero refuted. |
| C35 | Complex trigonometric functions | proved | code's formulas; Mathlib `Complex.sin/cos`. |
| C36 | Complex hyperbolic functions | partial | code's formulas; csch refuted by witness. |
| C37 | Complex inverse functions are right inverses | partial | code's formulas; right-inverse identities on the stated domains; NaN points as witnesses. |
| C38 | Real elementary functions and their domain guards | partial | code's formulas and guards over ℝ. |
| C39 | Scalar approximate equality is a tolerance relation | partial | machine integers as `BitVec`/bounded `Int` with overflow panics; exact reals for floats. |
| C40 | Fixed-step solver produces a correct time grid | proved | solve loop with the code's number of steps; grid invariants by induction. |
| C41 | Explicit Runge-Kutta methods have their documented order | partial | `do_step` with the code's packed tableaux; B-series: order conditions for all rooted trees up to the order and a real Taylor-type theorem (`RKOrder.lean`: local error O(h^(p+1)) for smooth f); Ralston4 refuted. |
| C42 | Embedded Runge-Kutta pairs have their documented orders | partial | as C41 for both results of the pair; CashKarp45 refuted. |
| C43 | Adaptive step control | partial | solve loop with fuel; accepted-step invariants; the error of all but the first component is ignored (witness). |
| C44 | Adams-Bashforth multistep method | proved | step formulas and driver loop; exactness for polynomials up to degree k. |
| C45 | BDF is a backward differentiation formula of order k | partial | step formulas (code uses Adams-Bashforth formulas; k = 6 repeats k = 5): refuted by witness. |
| C46 | Implicit Euler solves its step equation | proved | the functions handed to the root finder are followed; an answer Ok excludes a zero pivot, because solve then returns a vector with a component 1. |
| C47 | Newton-Raphson root finder | partial | loop; affine systems solved exactly, returned iterate refuted by witness. |
| C48 | Gamma and beta functional relations | partial | `SpecialModel.lean`, Lanczos sums with their coefficients; reflection; error bounds against Mathlib's `Real.Gamma` from a defect estimate (`LanczosLemmas`, `LanczosPoly`, `LanczosProps`); free `ln_gamma` refuted. |
| C49 | Incomplete gamma complement relations | partial | series and continued fraction loops with fuel, termination, error bounds against the incomplete gamma integrals (`IncGammaInt`, `IncGammaFrac`, `IncGammaAcc`); gamma_lr_inv refuted. gamma_ur_inv: the loop is unfolded into its sequence of corrections (`UrInvProps`). Two rounds of the correction are followed with bounds for ln_gamma to refute gamma_ur_inv for large a. |
| C50 | Error function symmetries | proved | branches of erf/erfc/erfinv; symmetries; erf within 4.7e-12 of the error function (`ErfAcc`). |
| C51 | Regularized incomplete beta reflection | partial | Soper's loop with fuel and bounded counter; termination, error bound against the beta integral (`BetaIncProps`, `BetaAcc`); reflection partial at the mean; counter underflow as witness. |
| C52 | Digamma recurrence | partial | recurrence loop and asymptotic series; error bound 7e-16 against the digamma function; exact recurrence refuted above 8.5. |
| C53 | Factorial and binomial coefficients | partial | checked u64/u32 arithmetic; overflow panics from 21 on; wrap-around in release builds. |
| C54 | Bernoulli and binomial distributions | partial | finite sums; cdf refuted at 0 / negative x. |
| C55 | Poisson distribution | partial | tsum over ℕ; panic above 20. |
| C56 | Uniform distribution | proved | interval integrals and order. |
| C57 | Exponential distribution | proved | integrals, derivatives. |
| C58 | Normal distribution | partial | pdf refuted for variance ≠ 1; entropy refuted; cdf within 2.4e-12 of the Gaussian integral with the implemented erf (`CdfProps`). The quantile is bounded by comparing derivatives: the rational approximations are checked interval by interval with integer polynomials in the kernel (`PolyCheck`, `QuantCore`, `QuantTabN1`-`QuantTabN3`, `QuantNormal`). |
| C59 | Sample mean and variance | proved | folds over data lists. |
| C60 | Raised cosine distribution | partial | derivative and monotonicity over ℝ; s = 0 as witness. |
| C61 | Chi-square test statistic | proved | sums; algebra. |
| C62 | G-test statistic | proved | log inequality. |
| C63 | Student t-test statistics | partial | formulas; p-value refuted (constant 0). |
| C64 | Gradient descent with Armijo line search is monotone | proved | loop with fuel; sufficient decrease in every iteration; sigma = 1 does not end. |
| C65 | Newton minimiser is monotone | proved | loop with fuel; singular Hessian does not end. |
| C66 | Conjugate gradient solves linear systems | partial | loop; residual invariant, conjugacy, finite termination; 0/0 at the exact solution. |
| C67 | Tsitouras pair has its documented orders | partial | as C42; the second result is refuted. The module is commented out in `ordinary/mod.rs`, so this is about source that is not compiled. |
| C68 | Levenberg-Marquardt never increases the sum of squares | partial | inner and outer loop; the damping uses the wrong sign/update: refuted by a witness with exact rational numbers. |
| C69 | Log-normal distribution | partial | density, moments, entropy by integrals over the exponential of a Gaussian; cdf within 2.4e-12; pdf(0) refuted. |
| C70 | Inverse error function | partial | rational approximations with the tables of both float widths; f32 refuted. erf after erfinv is bounded with the same kernel-checked polynomial intervals (`QuantTabE1`-`QuantTabE3`, `QuantErf`). |
| C71 | Gamma distribution | partial | density, moments, entropy (with the digamma function) by gamma integrals; cdf tied to the incomplete gamma function; cdf outside of its domain refuted. |
| C72 | Chi-square distribution | partial | pdf, moments, cdf for even and odd k against the integral of the density; median and entropy formulas refuted. |
| C73 | Beta distribution | partial | pdf, moments, cdf by beta integrals; p = 0 accepted and pdf outside of [0,1] refuted. |
| C74 | t distribution | partial | moments by Tonelli; cdf within 3e-11 through the remainder of the binomial series (x^2 <= n) and a continued integration by parts (x^2 > n); n = 0, entropy and the even degrees of freedom refuted. |
| C75 | Hypergeometric function | partial | Mathlib's ₂F₁; the loop returns a partial sum with a small last term; accuracy by a geometric tail bound; Euler integral and Gauss's theorem by integrating the binomial series; the connection formula by a Wronskian argument for a small c-a-b and contiguous relations for the rest; poles refuted. |
| C76 | Eigenvalue decomposition | partial | the Francis sweep is a similarity, so the trace survives; the 2x2 case and every returned eigenvector equation are computed; a 2x2 matrix is never diagonalised (the result is its diagonal), which refutes the property. |
| C77 | Singular value decomposition | partial | invariant of the reflections U B V^T = A with orthogonal factors; the rotations of the sweeps keep it; shapes where the code panics or returns a wrong factorisation are exhibited. |
| C78 | Pseudo-inverse | partial | QR (C15), transposition (C05) and the two triangular solves (C14) are composed; more rows than columns (and at least two columns) refuted, because the in-place transpose is wrong there. |
| C79 | Gauss-Newton minimiser | partial | normal equations from C78; the minimum property of solutions of the normal equations. |
| C80 | Householder reflector of a vector | partial | the result is computed for every vector and compared with the unit reflector. |
| C81 | compare_neighbourhood compares every entry | partial | loop invariant; row vectors refuted. |
| C82 | Conversions between number types | partial | wrapping is characterised by range and congruence; truncation and rounding by error bounds. |
| C83 | Signs, extrema and orderings of numbers | partial | case analysis on the order. |
| C84 | Example differential equations | partial | unfolding and partial derivatives. |
| C85 | Random variates | partial | change to polar coordinates and a substitution show that the polar method maps the uniform distribution on the disc to the normal distribution; the rejection loop is a geometric series over the infinite product measure. |
| C86 | The fixed-step solver converges with the order of its method | partial | the pointwise order (C41) becomes uniform by a Taylor expansion with parameters whose coefficients vanish; a Lipschitz constant near the solution and an exponential factor turn local into global errors. |
| C87 | The Adams-Bashforth solver converges with order k | partial | stability of the recursion with an exponential factor; Taylor expansion of order two of the local errors, with the first and the last (shorter) step counted once. |
| C88 | Rounding errors of products, sums and polynomial values | partial | the models are run on a number type whose operations round (`Fl R`); induction over the accumulation with the factors (1+u)^n; `f64` itself is evaluated by the kernel to show that the mean can leave the range of the data. |
| C89 | Triangular substitution is backward stable | proved | each row of the substitution is an accumulated difference and a division; its rounding errors are moved to the coefficients of that row. |
| C90 | LU decomposition, solve and inv with rounding | partial | invariant of the elimination with the accumulated errors of every entry; composition with C89; `f64` witnesses refute backward stability (the pivot is the largest entry, not the largest absolute value) and the recognition of singular matrices. |
| C91 | Times of the fixed-step solver with rounding | partial | the loop is run on `Fl R`; one step changes the deviation of the time by a bounded amount, and the last steps contract towards t_1; `f64` witnesses (h = 0.1) refute that the last time is t_1 and that times increase. |
| C92 | Accuracy of the fixed-step solver with rounding | partial | global error of a perturbed one-step method (`RKPert`), rounding errors of the stages and of the linear combination (`FloatRK`), times from C91 (`FloatConv`). |
| C93 | Arithmetic and substitution of the BLAS backend | partial | the Fortran routines are arbitrary functions with their documentation as hypotheses (`Blas`); column-major storage makes the buffers the matrices; a model of the hypotheses is constructed (`blas`). |
| C94 | LU decomposition, determinant, solve and inverse of the LAPACK backend | partial | the interchanges of `xgetrf` compose to a permutation (`pivPerm`), the loops that unpack L, U and P are followed, and the solutions of `xgetrs` and `xgetri` are those of the permuted system; the wrong sign of `det` is shown for every permutation matrix, because a permutation matrix with an LU decomposition is the identity; `lapackLU` shows that the hypotheses can be met. |
| C95 | Cholesky, QR and Hessenberg decompositions of the LAPACK backend | partial | the reflectors of the documentation give an orthogonal factor, the loops cut out the triangular part; `[[-1]]` and every matrix with more rows than columns refute the property; `lapackR` (Householder reflections, Cholesky of C16, roots of the characteristic polynomial) shows that the hypotheses can be met. |
| C96 | Eigenvalues and eigenvectors of the LAPACK backend | partial | what is returned is described for all matrices (real parts, eigenvectors of the transposed matrix); eigenvalues of symmetric matrices are real; two 2x2 matrices refute the rest. |
| C97 | Newton-Raphson converges quadratically to a root | partial | Taylor remainder with a Lipschitz derivative bounds one Newton step; induction over the iterations; the first column of -1 has the largest entry 0 in two or more dimensions, which refutes the general claim. |
| C98 | The implicit Euler solver converges with order one | partial | C97 for the equation of every step with the previous state as start; local error by Taylor, discrete Gronwall; the extra step of length 0 of the stepper and a too small step refute the general claim. |
| C99 | Gradient descent converges with the known rates | proved | the descent lemma bounds the accepted step length from below; the Polyak-Lojasiewicz inequality (strongly convex) or a potential with the distance to the minimum (convex) turns the decrease into a rate. |
| C100 | Newton's method for minimisation converges | partial | Taylor expansions along the step show that the full step passes both tests and squares the error; away from the minimum the argument of C99 is used with the direction of the code; a positive definite 3x3 matrix with a zero pivot refutes the general claim. |
| C101 | The p-values of the tests are tail probabilities | partial | the statistics of the tests are composed with the bounds of the distribution functions (C72, C74), Welch's degrees of freedom are computed; one category and samples of equal size and variance refute the general claim. |
| C102 | Cholesky decomposition with rounding | partial | `cholEntry` is run on `Fl R` with a correctly rounded square root; every entry is an accumulated difference, as in C90; success follows by induction over the pivots with the quadratic form of the remaining matrix; a 2x2 matrix in `f64` refutes success without a margin. |
| C103 | Complex arithmetic and polynomial products with rounding | partial | two rounded products and a rounded sum; the product of polynomials by an invariant for every row of the two loops; an arithmetic with gradual underflow, evaluated by the kernel, refutes that division only panics for 0. |
| C104 | The text of a matrix, polynomial or complex number determines it | partial | a text that ends at the first separator is determined by what it is a part of; induction over rows and terms; a matrix without rows and the zero polynomial refute the general claim. |
| C105 | The solvers are stable on decaying and oscillating equations | partial | the stages are expanded for a linear right-hand side; polynomial inequalities for the factor; the implicit step by C46, two steps are compared with the inner product of their difference; long steps and oscillations refute the general claim. |
| C106 | The adaptive solver returns, and how accurate it is | partial | a short step is accepted because the two results agree up to a continuous function that vanishes at h = 0, and a rejected step is shortened by a fixed factor; accuracy by the recursion of C67 on the grid of accepted steps; a polynomial in the time that vanishes at all nodes refutes a bound by the tolerances. |
| C107 | QR decomposition with rounding | partial | the product with a computed rotation changes two rows; each of their entries has the relative error gam 5 of its two summands, so a column is a rotated column up to sqrt(2) gam 5 of its length; the errors are carried through the loops as an invariant together with the exact product of the rotations and the length of the annihilated entries; f64 arithmetic on a 2x2 matrix, evaluated by the kernel, refutes that R is upper triangular. |
| C108 | Adams-Bashforth and BDF with rounding: times and termination | partial | the loop invariant is an existential over the sequence of states; for the time either |t - t1| <= 4 u S, which is kept, or t advanced by at least h/2 in each step; the loop condition is evaluated with its rounded threshold; the witness against termination is the time span [2^53, 2^53 + 2] with the step size 1 in f64. |
| C109 | Overflow, underflow, infinities and NaN | partial | rounding with the bounded exponent agrees with the unbounded one in the normal range and on multiples of the smallest number, and sums of such multiples stay multiples, so additions never underflow; the bounds of C88 and C103 then carry over by induction over the sum; overflow and underflow of the squares give the counterexamples. |
| C110 | NaN and the loops that wait for a comparison | partial | invariants of the loops that contain a NaN: one variable that stays NaN makes each further comparison false; for an infinite argument of gamma_lr the numerators and denominators of the continued fraction stay infinite or NaN, so that each quotient is NaN. The step size of the line search is an exact power of two until it underflows to zero, where the condition reads f(x) <= f(x) - 0. |
| C111 | Argument checks with NaN and infinities | partial | case distinction over NaN, infinities and finite numbers for the negation of each comparison; the solvers are evaluated with min(NaN, x) = x and the conversion of NaN to 0. |
| C112 | Accuracy of Adams-Bashforth and BDF with rounding | partial | the step functions with rounding differ from the formulas with the exact weights by a multiple of u; the times drift from the exact grid by a multiple of u/h, which changes only the last few steps; both are perturbations of the exact recursion, whose growth is bounded by a discrete Gronwall argument (the stability theorem behind C87, generalised to perturbed steps). |
| C113 | Sample variance and chi-square statistic with rounding | partial | a relation 'equal up to n relative errors' between numbers that are not negative, closed under sums, products, quotients and rounding; the loops are sums of such numbers, so no cancellation occurs except in the differences inside the squares, which are exact up to one rounding. |
| C114 | Accuracy of the gamma function with rounding, and its overflow | partial | errors are measured as differences of logarithms, which add up over products and quotients; the cancellation in the Lanczos sum is bounded by a polynomial with positive coefficients (the sum of the absolute values is at most 70 times the sum); the reflection uses that log sin and log Gamma are Lipschitz in the logarithm of the argument. The overflow: t^(z-1/2) exceeds 2^1024 from z = 143 on. |
| C115 | Accuracy of beta and of the densities built on gamma with rounding, and their overflow | partial | the error of gamma at a perturbed argument from the convexity of log Gamma; then the calculus of C114. The overflow: infinity divided by infinity is NaN, a number divided by infinity is 0. |
| C116 | Householder reflectors and the Hessenberg decomposition with rounding | partial | backward error analysis in the Frobenius norm: each computed reflector is compared with the exact reflection of the same (computed) column, each multiplication by it with the exact orthogonal similarity; an invariant of the loop carries the exactly orthogonal accumulated matrix. The entries below the subdiagonal are rounding errors, and a concrete matrix shows that they are not zero. |
| C117 | Bidiagonalization and singular value decomposition with rounding | partial | as C116, with reflectors from both sides; every rotation of the 500 n^2 sweeps is compared with an exact rotation of the same plane (its two entries are accurate to 7 u), and touches two rows or columns only, so that its error does not depend on n. Loop invariants carry exactly orthogonal matrices. The residual is expressed by the sum of the squares of the computed singular values, which the caller can check. A panic in step i leaves i + 1 columns in i rows, hence a singular matrix nearby. |
| C118 | Elementary distributions with rounding | partial | the calculus of relative errors of C114 for products, quotients, powers and sums of positive terms; an absolute error of the argument of exp becomes a relative error of the result. For 1 - exp(-t) the error of the argument is bounded by u t exp(-t) <= u. Monotonicity of rounding to nearest gives the range of the uniform distribution function. The quantile outside of the interval was found by evaluating the model. |
| C119 | Newton-Raphson with rounding | partial | backward error of the LU solver (C95) turns the computed increment into the exact solution of a perturbed system; a perturbed Newton step contracts the error by one half near a regular root. The alternating iterates of the violation were found by evaluating the model. |
| C120 | Minimisers with rounding | partial | rounding to nearest is odd and monotone, so sums of products of equal signs keep their sign; the acceptance test of the line search then bounds the computed objective. The step of Levenberg-Marquardt that increases the sum of squares was found by a search. |
| C121 | Incomplete gamma function and error function with rounding | proved | all terms of the series are positive, so errors of logarithms add up (as for C114); the sum of ln_gamma has terms of both signs, and its cancellation factor is bounded by a polynomial inequality with positive coefficients; the truncation error is that of C49. |
| C122 | Test statistics with rounding | proved | running error analysis of the mean and of the variance (C101), then products, quotients and square roots of quantities with relative error; differences of means are bounded absolutely. |
| C123 | Raised cosine, normal and log-normal distributions with rounding | partial | each value is carried as a pair of majorants: a bound of the exact value and a bound of the exact value plus error; both are pushed through sums, products and Lipschitz functions. |
| C124 | Normal and log-normal quantiles with rounding | proved | Horner with positive coefficients: a majorant at the moved argument, growth exp(L delta); accuracy of the rational functions from C58; arguments moved to the end of the interval where rounding changes the branch. |
| C125 | Adaptive ODE solver with rounding | partial | invariant of the loop as in C43, with a monotone rounding for the order of the times; one rounded step from C92; the perturbed global error bound with steps of different length. The last time of a run in double precision is beyond t_stop, proved by evaluation in the kernel. |
| C126 | Digamma function and entropy of the gamma distribution with rounding | proved | invariant of the loop: the argument stays near x + k and the sum near the finite sum, as errors of logarithms; Horner with small arguments; the remainder of the Stirling series from the digamma property; the entropy from C71, C114 and the sum of the terms. |
| C127 | Polynomial division, roots, derivative and primitive with rounding | partial | invariant of the elimination with the computed quotient as given; one rounded subtraction of a product per coefficient and row. The degree of the remainder is refuted by a division evaluated in the kernel. |
| C128 | Functions of complex numbers with rounding | partial | errors in the norm of the complex plane for one product, one quotient and one sum; sin and cos from the two exponentials, with cosh y in place of the result. That cosh y cannot be replaced by the result is refuted at y i with e^y and e^-y rounded to 1. |
| C129 | Implicit Euler with rounding | partial | the equation of one step has a root near the solution by the intermediate value theorem; C119 for its root finder; induction over the steps with the times of C91. That f32 works as well is refuted by an iteration evaluated in the kernel, which alternates between two neighbours. |
| C130 | Conjugate gradients with rounding | partial | one iteration changes x by alpha d and r by alpha A d up to roundings, whatever alpha and beta are; alpha d is bounded by two iterates; induction over the loop. That the method returns the solution when it starts there is refuted: it divides 0 by 0. |
| C131 | Gradient descent with rounding makes progress and ends | partial | the computed dot product has only nonnegative terms, so its relative error is small; the test of the line search then gives the decrease; sum over the iterations. For the end of the search: the step lengths fall at least like (3/4)^k, and rounding to nearest with p bits does not change x when at most 2^-p/4 of it is added. That the method finds the minimum is refuted by 2^60 + x^2 in f64. |
| C132 | Newton's method for minimisation with NaN, infinities, overflow and underflow | partial | the step sizes are powers of two until they underflow to zero, and with the step size zero the comparison is false; NaN makes every comparison false, so the direction is replaced. That the result is finite is refuted: an infinite direction stays infinite or becomes NaN for every step size. |

## Trusted base

* The Lean 4.33.0 kernel and Mathlib at the installed version. No axiom is added, no `sorry`, no compiled evaluation.
* The faithfulness of the model: definitions were transcribed by hand from the cited lines; the code was not run.
* Exact arithmetic in place of `f32`/`f64`, except in the rounding properties (C88 and later): there the arithmetic
  rounds, but overflow to infinity, underflow and NaN propagation are outside of the theorems. Bounds of the other
  properties, such as "within 4.7e-12" are about the algorithm evaluated exactly, with the constants as
  written in the source (decimal literals are taken as exact rationals).
* The specifications are stated with Mathlib's matrices, polynomials, complex numbers, integrals, sums, `Real.Gamma`,
  `deriv` and measures, or with short definitions next to the theorems.

### Axioms

* no axioms: `C01_new`, `C110_min_max`, `C82_complex_signed_violated`.
* only `propext`: `C24_set_panic`, `C104_complex`, `C104_matrix_violated`, `C82_wraps_violated`, `C83_assoc_violated`, `C83_operate`.
* only `Quot.sound`, `propext`: `C01_get`, `C01_set`, `C02_add`, `C02_panic`, `C02_sub`, `C04_mul_div`, `C04_scalar`, `C06_set_panic_partial`, `C06_violated`, `C09_panic`, `C103_mul_comm`, `C10_det_nonsquare`, `C111_constructors_violated`, `C11_lu_nonsquare`, `C19_approx_violated`, `C21_dotp_panic`, `C23_empty`, `C24_row_violated`, `C25_panic`, `C26_from_coef`, `C32_from_root_empty`, `C39_absdiff`, `C39_infinite`, `C39_signed_panic_iff`, `C39_signed_partial`, `C39_signed_violated`, `C47_err_iff`, `C104_complex_parts`, `C104_matrix`, `C104_matrix_inj`, `C81_shape`, `C82_toFloat_inexact`, `C40_fixed_total`, `C40_panics`, `C43_err`, `C43_factor`, `C54_bernoulli_new`, `C61_panics`, `C72_new`.
* `propext`, `Classical.choice` and `Quot.sound`: all the other 637 theorems named in `MANIFEST.json`.

### Modelled

| source | model |
|---|---|
| `algebra/linear/matrix/{matrix,add,sub,mul,div,transpose,lu,qr,cholesky,hessenberg,substitute,solve,inverse}` (native), row and column iterators | `MatModel`, `RowColModel`, `TransposeModel`, `LUModel`, `OrthModel` |
| `algebra/linear/vector` | `MatModel`, `VecModel`, `OrthModel` |
| `algebra/abstr/{polynomial,abs_diff_eq,relative_eq,sign}.rs` | `PolyModel`, `ApproxModel`, `SpecialModel` |
| `num/complex.rs`, `num/primitives/mod.rs` | `ComplexModel`, `RealFnModel` |
| `analysis/differential_equation/ordinary/*`, `analysis/newton_raphson.rs` | `OdeModel`, `AdaptiveModel`, `MultistepModel`, `NewtonModel` |
| `optimization/{gradient,newton,conjugategradient,levenbergmarquardt}.rs` | `OptimModel` |
| `special/{gamma,beta,error}.rs` | `SpecialModel` |
| `statistics/combins.rs`, `statistics/distrib/*`, `statistics/test/*` | `DiscreteModel`, `ContModel`, `DistModel`, `TestModel` |
| `special/hypergeometric.rs` | `DistModel` |
| `algebra/linear/matrix/eigen` (native), `dec_sv`, `pinv`, `householder_bidiag`, `reflector`, `compare_neighbourhood`, `optimization/gaussnewton.rs` | `SpectralModel` |
| `analysis/differential_equation/ordinary/problem.rs` | `ProblemModel` |
| `random` of `statistics/distrib/{normal,exponential}.rs`, `random_sequence` | `RandomModel` |
| `algebra/abstr/{cast,magma,real}.rs`, `num/bound.rs`, conversions of `num/complex.rs` | `CastModel` |
| `algebra/linear/matrix/*/lapack.rs` (feature `lapack`) | `LapackModel` |
| the arithmetic of `f32` and `f64` | `FloatModel` |

### Not modelled

* Floating-point overflow, underflow and NaN (see above); the BLAS/LAPACK routines themselves (only what their documentation promises); serde; `Display`; the
  external random number generator (its numbers are arguments, taken as independent and uniform in C85).
* Files not compiled into the crate: `num/real.rs`, `optimization/nonlinearcg.rs`, `distrib/multinomial.rs`.

## Disagreements between code and properties

Each entry is a theorem about the model, with its witness in the statement or proof.

**C05 — In-place transpose really transposes every matrix** (`matrix/transpose/native.rs:22-126`)

* The property fails: the 2×3 matrix `[1 2 3; 4 5 6]` is not transposed, and a 0×0 matrix panics. — `C05_transpose_violated` in `MatProps.lean`

**C06 — Rows and columns round-trip** (`matrix/matrix.rs:308-341`)

* The panic part fails: `set_row` accepts a 3-element column vector as the row of a 2×1 matrix, and an out-of-range row index on a matrix without columns does not panic. — `C06_violated` in `MatProps.lean`

**C10 — det is the determinant** (`matrix/matrix.rs:171-218`)

* A zero pivot: the code returns 0 for an invertible matrix of determinant 1. — `C10_det_violated_pivot` in `LUProps.lean`
* Two disjoint row swaps: the code returns -1 for a matrix of determinant 1. — `C10_det_violated_sign` in `LUProps.lean`
* The determinant of a symmetric, positive definite matrix with determinant `1` is computed as `0`. — `C10_det_violated_spd` in `NewtonMinConv.lean`

**C100 — Newton's method for minimisation converges** (`optimization/newton.rs:77-127, solve/native.rs, lu/native.rs`)

* Newton's method does not return when it is started at the minimum of the strictly convex quadratic function `½ xᵀ A x` with the positive definite matrix `A = [[1,2,0],[2,5,0],[0,0,1]]`: the elimination meets the column `(-1/2, 0)`, takes `0` as the largest entry, and `solve` returns a direction other than `0`, along which the function increases; the line search halves its step for ever. — `C100_spd_violated` in `NewtonMinConv.lean`

**C101 — The p-values of the tests are tail probabilities** (`statistics/test/chisquare.rs, g.rs, t.rs`)

* **C101** is violated for a single category: both tests accept it (with zero degrees of freedom and the statistic 0), but `p_value` panics in `ChiSquare::new(0)`. — `C101_single_violated` in `TestPValue.lean`
* **C101** is violated by Welch's test for every pair of samples of the same size `n` and with the same variance `v` whose means are far apart, `(a - b)² > 4 v (n-1)/n`: there are `2(n-1)` degrees of freedom, `t² > 2(n-1)`, and the distribution function of the t distribution has no value (`C74_cdf_violated`). For `[0, 2]` and `[10, 12]` the Rust code panics in `gamma(0)`, although the p-value is `0.0194…`. — `C101_welch_violated` in `TestPValue.lean`

**C102 — Cholesky decomposition with rounding** (`cholesky/native.rs:38-66`)

* **C102** is violated without the margin: in `f64` the matrix `[[25, 1], [1, 0.04]]` (with `0.04` the nearest `f64`, slightly more than `1/25`) is positive definite, but `dec_cholesky` takes the square root of `0.04 - 0.2·0.2 < 0` and the Rust result contains a NaN. — `C102_pd_violated` in `FloatChol.lean`

**C103 — Complex arithmetic and polynomial products with rounding** (`num/complex.rs:451-591, abstr/polynomial.rs:498-516`)

* **C103** is violated by underflow: `div` squares the components of the divisor. With the divisor `2⁻⁵⁴⁰` (about `2.8e-163`), a normal number of `f64`, the sum of squares underflows to 0 and the division panics, although the quotient `2⁵⁴⁰` of 1 by it is a `f64`. — `C103_div_violated` in `FloatCx.lean`

**C104 — The text of a matrix, polynomial or complex number determines it** (`matrix.rs:796-811, polynomial.rs:116-157, complex.rs:430-438, vector.rs:704-710`)

* **C104** is violated by matrices without rows: their texts do not depend on the number of columns. — `C104_matrix_violated` in `DisplayProps.lean`
* **C104** is violated by the zero polynomial, the text of which is empty, and by every polynomial with a coefficient of absolute value at most `eps` other than 0, which is not printed. — `C104_poly_violated` in `DisplayProps.lean`

**C105 — The solvers are stable on decaying and oscillating equations** (`ordinary/*.rs tableaus, implicit_euler.rs, fixed_stepper.rs`)

* **C105** is violated by every explicit method: with steps of length `h ≥ 3 / μ` the states grow by a factor of at least `4/3` in every step, although the solutions of `x' = -μ x` decay. — `C105_explicit_violated` in `StabilityProps.lean`
* **C105** is violated by the methods of order one and two on oscillations: the energy grows in every step, however short. — `C105_oscillator_violated` in `StabilityProps.lean`

**C106 — The adaptive solver returns, and how accurate it is** (`ordinary/adaptive_stepper.rs`)

* **C106** needs a factor below one: with `fac_min = fac_max = 1` a first step that is rejected is repeated for ever. — `C106_returns_violated` in `AdaptConv.lean`
* **C106** is violated by every method in that the tolerances do not bound the error: whatever the tolerances are, there is a right-hand side (a polynomial in the time) for which the solver returns `Ok` with a value that is off by more than `B`, because all stages of the first step are evaluated at zeros of the polynomial. — `C106_accuracy_violated` in `AdaptConv.lean`

**C107 — QR decomposition with rounding** (`qr/native.rs:30-59, matrix.rs:347-360`)

* **C107** is violated in that `R` is not upper triangular: the annihilated entry is computed by the matrix product instead of being set to zero. In `f64`, for the matrix with the rows `(3, 1)` and `(4, 2)`, the entry below the diagonal is `-2^-51`. — `C107_upper_violated` in `FloatQR.lean`

**C108 — Adams-Bashforth and BDF with rounding: times and termination** (`adamsbashforth.rs:110-302, bdf.rs:110-336`)

* **C108** (what does not hold): `solve` need not return. With `f64`, the time span `[2^53, 2^53 + 2]` and the step size 1, `2^53 + 1` is rounded to `2^53` and the loop runs forever, for each right-hand side and each `k`. — `C108_returns_violated` in `FloatMs.lean`

**C109 — Overflow, underflow, infinities and NaN** (`qr/native.rs:30-59, complex.rs:495-591, normal.rs:74-85, mul/native.rs`)

* **C109** (what does not hold): the mean of finite numbers need not be finite, the sum may overflow. For each `f64` of at least `2^1023` the mean of two copies is infinite. — `C109_mean_violated` in `IeeeProps.lean`
* **C109** (what does not hold): the quotient of two equal complex numbers need not be 1. If both components of a finite `f64` number are at least `2^512` in absolute value, `re² + im²` overflows and both components of the quotient are NaN. — `C109_complex_div_violated` in `IeeeProps.lean`
* **C109** (what does not hold): the division by a nonzero complex number may panic. If both components of an `f64` number are below `2^-538` in absolute value, `re² + im²` underflows to zero, and each division by it panics. — `C109_complex_div_panic_violated` in `IeeeProps.lean`
* **C109** (what does not hold): `dec_qr` need not return factors of the matrix, the squares may overflow. For each 2x2 matrix of finite `f64` numbers whose first column has entries of at least `2^512` in absolute value, the two factors `Q` and `R` are zero. — `C109_qr_overflow_violated` in `IeeeProps.lean`
* **C109** (what does not hold): the factor `R` of `dec_qr` need not be upper triangular, the squares may underflow. For each 2x2 matrix of `f64` numbers whose first column has nonzero entries below `2^-538` in absolute value nothing is done: `Q` is the identity and `R` the matrix. — `C109_qr_underflow_violated` in `IeeeProps.lean`

**C11 — LU decomposition reconstructs the matrix** (`matrix/lu/native.rs:39-76`)

* `[[0,1],[-1,0]]` is decomposed wrongly: `P A ≠ L U`. — `C11_lu_violated` in `LUProps.lean`

**C110 — NaN and the loops that wait for a comparison** (`gamma.rs:386-485, beta.rs:121-224, adaptive_stepper.rs:136-226, gradient.rs:72-104`)

* **C110** (what does not hold): `gamma_lr` (and `gamma_ur`, `gamma_l`, `gamma_u`, the distribution functions built on it) should return NaN for NaN. For every format the loops never end if `x` is NaN (`a ≠ 0`), and if `a` is NaN (`x > 0`), whatever the logarithm, the exponential and `ln_gamma` return. — `C110_gamma_nan_violated` in `IeeeLoops.lean`
* **C110** (what does not hold): the limit of the regularised lower incomplete gamma function at infinity is 1. In `f64` and in `f32` `gamma_lr(a, ∞)` never ends, for any `a > 0`: both sequences of the continued fraction are infinite or NaN from the start, and their quotient is NaN. — `C110_gamma_inf_violated` in `IeeeLoops.lean`
* **C110** (what does not hold): `beta_inc_reg` should return NaN for NaN. The checks of the arguments let NaN pass, and the loop never ends (or ends with an overflow of `ns` after `2^31` rounds): if one of `x`, `a` and `b` is NaN, the other two within the documented range, there is no result, whatever the logarithm, the exponential and the beta function return. — `C110_beta_nan_violated` in `IeeeLoops.lean`
* **C110** (what does not hold): the adaptive solver counts only the accepted steps in `n_max`, and it should return `Err` or a solution. If the first component of the right side is NaN at the starting point (say, because of an overflow), the error is NaN, `err <= 1` is false, and every step is rejected: the solver never returns. This holds for each format, tableau, tolerance, step size and right side. — `C110_adaptive_nan_violated` in `IeeeLoops.lean`
* **C110** (what does not hold): `set_abs_tol` documents `abs_tol >= 0`. With `abs_tol = 0` the solver never returns for the solution that is constantly zero: the error is `0 / 0`. This holds for each format, step size, relative tolerance, and tableau (finite numbers). — `C110_adaptive_tol_violated` in `IeeeLoops.lean`
* **C110** (what does not hold): if the objective is NaN at `x`, or a component of the gradient is NaN, the line search of gradient descent never ends. — `C110_gradient_nan_violated` in `IeeeLoops.lean`

**C111 — Argument checks with NaN and infinities** (`distrib/*.rs new, fixed_stepper.rs:29-77, adamsbashforth.rs:96-216, gradient.rs:62-67, vector.rs:334-393`)

* **C111** (what does not hold): the constructors should panic for parameters outside of the documented range, but all of these accept NaN — `C111_constructors_violated` in `IeeeArgs.lean`
* **C111** (what does not hold): with a step size that is NaN (`FixedStepper::new` accepts it), or with NaN as a bound of the time interval, `solve` should not return a solution. It returns `Ok` with two empty lists, not even the starting value: the number of steps is NaN, and its conversion to an integer is 0. — `C111_fixed_nan_violated` in `IeeeArgs.lean`
* **C111** (what does not hold): the solution should reach the end of the time interval. With an infinite step size (accepted by `FixedStepper::new`) `solve` returns `Ok` with the starting point only. — `C111_fixed_inf_violated` in `IeeeArgs.lean`
* **C111** (what does not hold): the step size given should be an upper bound of the steps. With a step size that is NaN, `AdamsBashforth` and `BDF` with `k = 1` make one step from the start to the end of the time interval. — `C111_multistep_nan_violated` in `IeeeArgs.lean`
* **C111** (what does not hold): `argmax` and `argmin` return 0 if the first entry is NaN, whatever the other entries are: no comparison with NaN is true. — `C111_argmax_violated` in `IeeeArgs.lean`

**C113 — Sample variance and chi-square statistic with rounding** (`normal.rs:60-98, test/chisquare.rs:30-86`)

* A constant sample: the exact variance is `0` and `from_data` panics, but with rounding the mean of three times `0.1` is not `0.1`, and a normal distribution with a tiny variance is returned — `C113_constant_violated` in `FloatStat.lean`

**C114 — Accuracy of the gamma function with rounding, and its overflow** (`gamma.rs:256-282`)

* **C114 is violated** by overflow: for every `f64` number between 143 and 171, `gamma` does not return a finite number, although `Γ` is below `2¹⁰²³` there: the factor `t.pow(z - 0.5)` alone exceeds the range before it is multiplied by the small `exp(-t)`. (The largest factorial that fits into an `f64` is `170! = Γ(171)`, but `gamma` gives up at `Γ(143)`.) The only assumption is that `pow` returns infinity if the exact power is at least `2¹⁰²⁴`. — `C114_overflow_violated` in `FloatGamma.lean`
* **C114 is violated** at the mirrored arguments: if the exact `1 - q` is an `f64` number between 143 and 171, then `gamma(q)`, which is `pi / (sin(pi q) gamma(1 - q))`, returns 0 or no finite number, although `|Γ(q)|` is above the smallest normal number `2⁻¹⁰²²` for every `q` that is not an integer. — `C114_negative_violated` in `FloatGamma.lean`
* **C114 is violated** at the integers: if moreover `sqrt(2)` and `sqrt(pi)` lie between 1 and 2 and the exponential function returns positive finite numbers, `gamma(n)` is `+∞` for `n = 143, …, 171`, although `Γ(n) = (n - 1)!` is at most `170!`, less than `2¹⁰²³`. — `C114_factorial_violated` in `FloatGamma.lean`

**C115 — Accuracy of beta and of the densities built on gamma with rounding, and their overflow** (`special/beta.rs:109-112, t.rs:74-79, chisquare.rs:70-83, distrib/gamma.rs:71-80, distrib/beta.rs:65-77`)

* **C115 is violated** by the t distribution: with 287 to 1600 degrees of freedom `pdf` is NaN at every point, because both gamma functions in the quotient overflow, although the density is close to that of the normal distribution. The only assumption is that `pow` returns infinity if the exact power is at least `2¹⁰²⁴`. — `C115_t_violated` in `FloatBeta.lean`
* **C115 is violated** by the chi-square distribution: with 287 to 1700 degrees of freedom `pdf` is 0 or NaN at every point `x ≥ 0` (the density near its maximum at `k - 2` is about `1 / sqrt(4 π k)`). — `C115_chi_violated` in `FloatBeta.lean`
* **C115 is violated** by the gamma distribution: with a shape parameter from 143 to 900 `pdf` is 0 or NaN at every point `x > 0`. — `C115_gamma_pdf_violated` in `FloatBeta.lean`
* **C115 is violated** by `beta`: if the (rounded) sum of the arguments is from 143 to 900, the result is 0 or NaN, although `B(x, y)` is positive, for example `B(71.5, 71.5) > 10⁻⁴⁴`. — `C115_beta_violated` in `FloatBeta.lean`
* **C115 is violated** by the beta distribution: if the (rounded) sum of the parameters is from 143 to 900, the value of `pdf` at every `x` in `[0, 1]` is not a finite number. — `C115_beta_pdf_violated` in `FloatBeta.lean`

**C116 — Householder reflectors and the Hessenberg decomposition with rounding** (`matrix.rs:412-478, hessenberg/native.rs:33-54, vector.rs:131-144`)

* **C116** is violated in that `h` is not a Hessenberg matrix: the annihilated entries are computed by the matrix product instead of being set to zero. In `f64`, for the matrix with the rows `(1, 2, 3)`, `(7, 1, 0)` and `(24, 0, 1)` and the correctly rounded roots, the entry in the last row and first column is `-2^-50`. — `C116_hessenberg_violated` in `FloatHess.lean`

**C118 — Elementary distributions with rounding** (`exponential.rs:85-124, uniform.rs:76-145, normal.rs:119-125, poisson.rs:72-76, binomial.rs:66-104`)

* **C118** is violated: the distribution function of the exponential distribution has no relative accuracy. With correctly rounded functions and `p` bits (`53` for `f64`) it is zero for all `0 < λ x ≤ 2^-(p+2)`, although the probability is positive there. — `C118_expo_cdf_violated` in `FloatDist.lean`
* **C118** is violated: a quantile of the uniform distribution can lie outside of the interval. In `f64` the quantile `q = 1` for `a = -1` and `b = 3 / 2^53` is `4 / 2^53 > b`. — `C118_uniform_quantile_violated` in `FloatDist.lean`

**C119 — Newton-Raphson with rounding** (`newton_raphson.rs:47-70`)

* **C119** is violated when the tolerance is below the spacing of the numbers: for `x² - 2` in `f64` the iterates alternate between the two neighbours of the root, and `find_root` returns `Err` for every number of iterations, although no better approximation exists. (Of the square root only the value at `2⁻¹⁰⁴` is used.) — `C119_tolerance_violated` in `FloatNewton.lean`

**C12 — solve returns a solution** (`matrix/solve/native.rs:12-31, matrix/lu/ludec.rs:55-104`)

* An invertible system gets a wrong answer. — `C12_solve_violated_regular` in `LUProps.lean`
* A singular system without solution gets an answer instead of an error. — `C12_solve_violated_singular` in `LUProps.lean`
* `solve` returns a wrong vector for a symmetric, positive definite matrix. — `C12_solve_violated_spd` in `NewtonMinConv.lean`

**C120 — Minimisers with rounding** (`gradient.rs:72-104, newton.rs:77-127, levenbergmarquardt.rs:61-107`)

* **C120** is violated by `LevenbergMarquardt`: near a minimum the two differences of sums of squares are both rounded to a negative number, their quotient is `1`, and the step is accepted although the sum of squares of the residuals grows, in the computed as well as in the exact values. The residuals are `2x + 9` and `5x - 1`, `beta_0 = 0.3` and `beta_1 = 0.9`. — `C120_lm_violated` in `FloatOptim.lean`

**C123 — Raised cosine, normal and log-normal distributions with rounding** (`raisedcosine.rs:73-117, normal.rs:142-147, log_normal.rs:77-112`)

* **C123** is violated: the distribution function of the raised cosine distribution is negative at the lower end. With 53 bits, for `μ = 0`, every `s` and every sine with a relative error less than one, the value at `x = -s` is less than zero: `π` is rounded down, so that `sin(-π)` is about `-1.2e-16`. — `C123_rcos_cdf_violated` in `FloatDist2.lean`

**C125 — Adaptive ODE solver with rounding** (`adaptive_stepper.rs:136-226, butcher.rs:98-125`)

* **C125, the last time** differs from `t_stop`: in double precision, the solver started at `-1` to run to `1 + 3 · 2⁻⁵²` with a constant solution returns `Ok` with the last time `1 + 4 · 2⁻⁵²`, beyond `t_stop` (with exact arithmetic it is `t_stop`, C43). — `C125_last_time_violated` in `FloatAdapt.lean`

**C127 — Polynomial division, roots, derivative and primitive with rounding** (`polynomial.rs:89-114, 552-603, 629-676, abs_diff_eq.rs:131-134`)

* **C127 is violated** (`/repo/src/algebra/abstr/polynomial.rs:552-576`): the remainder of a division in `f64` need not have a smaller degree than the divisor. Dividing `3 x` by `47 x + 1` leaves the remainder `2⁻⁵¹ x - 3/47`: the leading coefficient `3 - 47 fl(3/47)` is computed and not set to zero, and it is larger than the `2⁻⁵²` that `reduce_coef` discards. — `C127_degree_violated` in `FloatPoly.lean`

**C128 — Functions of complex numbers with rounding** (`complex.rs:106-110, 389-394, 665-688, 718-752, 1099-1108`)

* **C128 is violated** (`/repo/src/num/complex.rs:718-725`): the error of `sin` near 0 on the imaginary axis is not small relative to the value. With correctly rounded library functions `sin(y i)` is 0 as soon as `e^y` and `e^-y` are rounded to 1, although `sin(y i) = i sinh y` is not 0; with 53 bits this is the case for `y = 2⁻⁶⁰`. — `C128_sin_small_violated` in `FloatCxFn.lean`

**C129 — Implicit Euler with rounding** (`implicit_euler.rs:106-141, 184-203, newton_raphson.rs:47-70, fixed_stepper.rs:124-163`)

* **C129 is violated** in `f32` (`/repo/src/analysis/differential_equation/ordinary/implicit_euler.rs:106-112`): the tolerance `10⁻⁸` of the root finder is below the spacing of the numbers. For `x' = -x`, `x(0) = 1` and the step size `1/2` Newton's method alternates between the two neighbours of the root `2/3`, `find_root` returns `Err`, and `solve` panics in the first step. (Of the square root it is only used that it is at least `2⁻²⁴` from `2⁻⁴⁸` on.) — `C129_f32_violated` in `FloatImplicit.lean`

**C13 — inv returns the inverse** (`matrix/inverse/native.rs:20-32`)

* An invertible matrix without a (finite) inverse. — `C13_inv_violated` in `LUProps.lean`
* `inv` does not invert a symmetric, positive definite matrix (a pivot is zero, so infinite or NaN entries appear). — `C13_inv_violated_spd` in `NewtonMinConv.lean`

**C130 — Conjugate gradients with rounding** (`conjugategradient.rs:128-161`)

* **C130 violated**: started where the computed residual is zero, at the solution, `minimize` divides `0` by `0` in every precision and whatever the tolerance (`conjugategradient.rs:147`: the test for a small residual comes after the division by `r·r`) — `C130_start_violated` in `FloatCg.lean`

**C131 — Gradient descent with rounding makes progress and ends** (`gradient.rs:70-104`)

* **C131 violated**: gradient descent finds the minimum. In `f64` for `2⁶⁰ + x²`, whose minimum is at `0`, from `1`: exactly, one step of length `1/2` leads to the minimum, but `2⁶⁰ + 1` is rounded to `2⁶⁰` and so the first trial, `1 - 2 = -1`, is accepted; the method alternates between `1` and `-1` for any number of iterations (`gradient.rs:82-98` compares only values of the objective). — `C131_stagnation_violated` in `FloatGrad.lean`

**C132 — Newton's method for minimisation with NaN, infinities, overflow and underflow** (`newton.rs:77-127`)

* **C132 violated**: the returned point is finite if the start, the gradient and the Hessian matrix are. If the solution of the linear system overflows in one component and its product with the gradient is small enough (for example `-∞`), it is taken as the direction, and the line search cannot shorten it: half of infinity is infinity and zero times infinity is NaN. Whatever the objective is, that component of the returned vector is infinite or NaN (`newton.rs:93-101` replaces directions that are NaN, but not infinite ones). — `C132_overflow_violated` in `NewtonIe.lean`

**C15 — QR decomposition reconstructs the matrix** (`matrix/qr/native.rs:41-54`)

* The exchange matrix is returned as its own `R`, which is not upper triangular: a rotation is skipped when the diagonal entry is zero. — `C15_qr_violated` in `QRProps.lean`

**C16 — Cholesky decomposition reconstructs the matrix** (`matrix/cholesky/native.rs:38-68`)

* The matrix `[[1, 1], [1, 1]]` is not positive definite, yet a factor is returned — `C16_cholesky_violated` in `CholProps.lean`

**C17 — Householder transformation is an orthogonal reflector that annihilates** (`matrix/matrix.rs:412-478`)

* Whenever the entries from `k` on are zero the result is the `1 x 1` identity instead of an `n x n` matrix. — `C17_householder_violated` in `HouseholderProps.lean`

**C18 — Hessenberg decomposition reconstructs the matrix** (`matrix/hessenberg/native.rs:33-54`)

* `dec_hessenberg` panics on every matrix of size at least two whose first column is zero below the diagonal; so on every upper triangular matrix, the identity included. — `C18_hessenberg_violated` in `HouseholderProps.lean`

**C19 — Matrix equality and approximate equality compare every entry** (`matrix/matrix.rs:1132-1179`)

* The property fails: only the first entry is compared, and dimensions are not compared at all. — `C19_approx_violated` in `MatProps.lean`

**C21 — Vector inner and outer products** (`vector/vector.rs:411-425`)

* The "panics on shape misuse" part fails for `dyadp`: two row vectors of length 3 are accepted and yield a 1×1 matrix. — `C21_dyadp_violated` in `VecProps.lean`

**C22 — Vector norms** (`vector/vector.rs:131-144`)

* With `p = 1` the nonzero vector `(1, -1)` gets norm zero: the absolute value is not taken — `C22_violated` in `NormProps.lean`
* With `p = 3` the vector `(-1)` has no norm (NaN) — `C22_violated_odd` in `NormProps.lean`

**C24 — Vector slices round-trip** (`vector/vector.rs:667-677`)

* The property fails for row vectors: `set_slice` on a row vector of length 3 rejects a valid position and copies only one entry of a two-entry slice. — `C24_row_violated` in `VecProps.lean`

**C28 — Polynomial subtraction** (`algebra/abstr/polynomial.rs:325-341`)

* `1 - (x + 1)` evaluates to `x` instead of `-x`. — `C28_sub_violated` in `PolyProps.lean`

**C30 — Polynomial division with remainder** (`algebra/abstr/polynomial.rs:552-598`)

* For every positive tolerance exactness fails: `x² + eps·x` divided by `x²` gives remainder 0. — `C30_violated` in `PolyProps.lean`

**C31 — Polynomial calculus** (`algebra/abstr/polynomial.rs:582-676`)

* For every positive tolerance the round trip fails on the constant polynomial `eps`. — `C31_violated` in `PolyProps.lean`

**C34 — Complex exponential, logarithm and power** (`num/complex.rs:1074-1083`)

* Every power of zero is a NaN in the code, also `0 ^ 1` — `C34_pow_violated` in `ComplexProps.lean`

**C36 — Complex hyperbolic functions** (`num/complex.rs:1129-1132`)

* `csch` has the wrong sign at every point of its domain — `C36_csch_violated` in `ComplexProps.lean`

**C37 — Complex inverse functions are right inverses** (`num/complex.rs:861-1189`)

* At `±1` the code computes a NaN for `arcsin` and `arccos`, although `sin (π/2) = 1` and `cos 0 = 1` — `C37_arcsin_violated` in `ComplexInvProps.lean`
* At `±i` the code computes a NaN for `arsinh`, at `±1` for `arcosh`, although `sinh (iπ/2) = i`, `cosh 0 = 1` — `C37_arsinh_violated` in `ComplexInvProps.lean`
* The documented domain of the inverse cotangent is everything but `±i`, but `arccot 0` has no value — `C37_arccot_violated` in `ComplexInvProps.lean`

**C38 — Real elementary functions and their domain guards** (`num/primitives/mod.rs:357-372`)

* `arccot 0` is `0`, where the cotangent has no value; the cotangent vanishes at `π/2` — `C38_arccot_violated` in `RealFnProps.lean`

**C39 — Scalar approximate equality is a tolerance relation** (`algebra/abstr/abs_diff_eq.rs:131-134`)

* `100_i8` and `-100_i8` cannot be compared. — `C39_signed_violated` in `ApproxProps.lean`

**C41 — Explicit Runge-Kutta methods have their documented order** (`ordinary/ralston4.rs`)

* The third weight of `Ralston4` is wrong (`3356` in place of `3346`), so that the weights do not sum to one. The method does not even have order 1: it is wrong for `x' = 1`. — `C41_ralston4_violated` in `RKProps.lean`

**C42 — Embedded Runge-Kutta pairs have their documented orders** (`ordinary/cashkarp45.rs`)

* `order()` of `CashKarp45` is `(5, 4)`, but the first result of `do_step` does not have order 5. — `C42_cashKarp_violated` in `RKEmbProps.lean`

**C43 — Adaptive step control** (`ordinary/adaptive_stepper.rs:206-226`)

* The error of the second component is ignored. The two results differ by 1 in the second component, the tolerances are `1/10`, and the scaled error is 0. — `C43_violated` in `AdaptiveProps.lean`

**C45 — BDF is a backward differentiation formula of order k** (`ordinary/bdf.rs:231-336`)

* The step for `k = 6` is the formula for `k = 5`, and it is not exact for the polynomial solution `x = t⁶` of `x' = 6 t⁵` (from the exact values at `0, 1, …, 5`). — `C45_bdf6_violated` in `MultistepProps.lean`
* The steps are explicit Adams-Bashforth formulas. For no `k` do they satisfy the backward differentiation formula of order `k` (witness `x' = x`, history `1, 1, …`, `h = 1`, new value 2). — `C45_formula_violated` in `MultistepProps.lean`

**C47 — Newton-Raphson root finder** (`analysis/newton_raphson.rs:47-70`)

* For the affine function `f(x) = x - 1/10⁹` from `0` the root finder (with the default tolerance) returns the start point although it has computed the exact root. — `C47_affine_violated` in `NewtonProps.lean`

**C48 — Gamma and beta functional relations** (`special/gamma.rs:721-725`)

* The free function `ln_gamma` is not the method `ln_gamma`: it returns the value of `gamma`. At `0.5` it gives more than 1 (`√π`), the method less than 1 (`ln √π`). — `C48_ln_gamma_violated` in `GammaProps.lean`

**C49 — Incomplete gamma complement relations** (`special/gamma.rs:657-660`)

* `gamma_lr_inv` is not the inverse of the lower function: it is `1 - gamma_ur_inv`, so for `a = 1`, where `P(1, x) = 1 - exp (-x)`, the call with `p = P(1, ln 2) = 1/2` gives `1 - ln 2` and not `ln 2`, and the call with `p = exp (-3)` gives the negative number `-2`. — `C49_lr_inv_violated` in `IncGammaProps.lean`
* **C49** is violated for large `a`: for every `a` from 64 to `10⁹` and every probability from 0.01 to 0.99 `gamma_ur_inv` gives no result. The first Newton step jumps beyond `2.5 a`, the second one to a negative number, for which the Rust code panics (in `r` or `gamma_lr`). — `C49_ur_inv_violated` in `UrInvFail.lean`

**C51 — Regularized incomplete beta reflection** (`special/beta.rs:188-221`)

* With the smallest `i32` as the bound of the counter there are arguments in the domain for which `beta_inc_reg` has no value: the terms of the second sum decrease so slowly that `ns -= 1` underflows (a panic, or without overflow checks a wrong factor in the following rounds). — `C51_underflow_violated` in `BetaIncProps.lean`

**C52 — Digamma recurrence** (`special/gamma.rs:334-369`)

* From 8.5 on there is no loop, and the recurrence fails: `digamma (x + 1) - digamma x - 1 / x` is positive (though smaller than `8 / x^17`). — `C52_violated` in `DigammaProps.lean`

**C53 — Factorial and binomial coefficients** (`statistics/combins.rs:4-22`)

* `binom n k` panics for every `n ≥ 21`, although e.g. `binom 21 0 = 1` and `binom 30 15 = 155117520` fit into `u32`. — `C53_binom_violated` in `DiscreteProps.lean`
* C53 is violated in release builds (no overflow checks): `factorial n` silently returns `n! mod 2^64`, which is wrong for every `n ≥ 21` and is `0` for every `n ≥ 66`. — `C53_release_violated` in `DiscreteProps.lean`

**C54 — Bernoulli and binomial distributions** (`distrib/bernoulli.rs:105-120, distrib/binomial.rs:43-104`)

* The Bernoulli `cdf` returns `0` at `x = 0`, where it should be `1 - p`. — `C54_bernoulli_cdf_violated` in `DiscreteProps.lean`
* At negative `x` the binomial `cdf` returns the mass of `0` instead of `0`; with more than 20 trials `pmf` panics for every value of the support; and `new` accepts every `p`, e.g. `p = 2`, where the "mass" of 1 in one trial is 2, although the documentation announces a panic. — `C54_binomial_violated` in `DiscreteProps.lean`

**C55 — Poisson distribution** (`distrib/poisson.rs:72-76`)

* `pmf` panics for every value above 20 (in a build without overflow checks it divides by `x! mod 2^64`, which is zero from 66 on, see `C53_release_violated`). — `C55_violated` in `ContProps.lean`

**C58 — Normal distribution** (`distrib/normal.rs:119-125, 302-305`)

* The exponent divides by the variance instead of the standard deviation. `pdf` integrates to the standard deviation, it is the Gaussian density only for variance 1, and it is a density only then. — `C58_pdf_violated` in `NormalProps.lean`
* `entropy` returns `2 π e σ²` instead of the differential entropy `½ ln(2 π e σ²)` of the Gaussian density; the two differ for every variance. — `C58_entropy_violated` in `NormalProps.lean`

**C60 — Raised cosine distribution** (`distrib/raisedcosine.rs:42-49, 99-117`)

* C60 is violated at the boundary of the documented parameter range: `new` accepts `s = 0` (documented is `s > 0`), the density is then zero everywhere, and `cdf` at the mean is `0 / 0`. — `C60_zero_violated` in `RcosProps.lean`

**C62 — G-test statistic** (`statistics/test/g.rs:35-67`)

* A zero among the observed counts makes the test return a NaN (`0 · ln 0`), although the summand should be 0. — `C62_zero_count` in `TestProps.lean`

**C63 — Student t-test statistics** (`statistics/test/t.rs:80-142`)

* The p-value of the one-sample test and of the test for equal variances is always 0, and `df` is always 0. A two-sided p-value would be `2 F(-|t|)`, with `F` the distribution function of a t distribution, so 1 if `t = 0`: e.g. for the sample `1, 3` and the hypothetical mean 2. — `C63_violated` in `TestProps.lean`

**C64 — Gradient descent with Armijo line search is monotone** (`optimization/gradient.rs:62-98`)

* `new` accepts `σ = 1`, but then the line search of `φ(x) = x²` never ends (in exact arithmetic), whatever the start `x ≠ 0` is. — `C64_sigma_one_diverges` in `OptimProps.lean`

**C65 — Newton minimiser is monotone** (`optimization/newton.rs:84-119`)

* The line search does not end at the minimum of `φ(x) = x⁴` (in exact arithmetic): the Hessian is `0`, for which the solver returns the direction `1` instead of reporting a singular matrix. — `C65_singular_diverges` in `OptimProps.lean`

**C66 — Conjugate gradient solves linear systems** (`optimization/conjugategradient.rs:137-149`)

* Starting at the exact solution the code divides `0 / 0` (result NaN), for every system. — `C66_violated` in `CGProps.lean`

**C67 — Tsitouras pair has its documented orders** (`ordinary/tsitouras.rs:24-40`)

* The second result of `Tsitouras` is not an approximation of the solution at all. Its weights are the differences between two rows of weights, and it is already wrong for `x' = 1`; `order()` says 4. — `C67_tsitouras_violated` in `RKEmbProps.lean`

**C68 — Levenberg-Marquardt never increases the sum of squares** (`optimization/levenbergmarquardt.rs:70-103`)

* On the linear least squares problem `f(x, y) = (1 - x, 2 y + 2, x + 2 y - 2)` one iteration from the origin (with the parameters of the tests) moves to `(-132/7, 36/7)` and increases the sum of squares from `9` to `657`. — `C68_violated` in `LMProps.lean`
* C68 is violated for a square regular Jacobian as well: `f(x, y, z) = (x + 2 y, y, z)` started at its root `0` moves to `(-21/8, 1, 0)` and increases the sum of squares from `0` to `89/64`. The damped normal equations have the positive definite matrix `[[5/4, 2, 0], [2, 21/4, 0], [0, 0, 5/4]]`, on which `solve` meets a zero pivot; the wrong step is accepted because the predicted and the actual decrease are equal (both are negative). — `C68_square_violated` in `LMProps.lean`

**C69 — Log-normal distribution** (`distrib/log_normal.rs:77-87`)

* C69 is violated at the boundary of the support: `pdf 0` is `∞ · 0`, a NaN, for all parameters. — `C69_violated` in `LogNormalProps.lean`

**C70 — Inverse error function** (`special/error.rs:210-274`)

* `erfinv` of `f32` is wrong: at `0.9375` the value is smaller than `-1.3` (the inverse error function is about `1.317` there), so the sign is wrong, and the denominator of the second range has a zero in it, where the function has no finite value although `|x| < 1`. — `C70_f32_violated` in `ErrorProps.lean`

**C71 — Gamma distribution** (`distrib/gamma.rs`)

* C71 is violated for negative arguments: the distribution function is 0 there and no panic is documented, but `cdf` panics for every `x < 0`. — `C71_cdf_violated` in `DistGamma.lean`

**C72 — Chi-square distribution** (`distrib/chisquare.rs`)

* C72 is violated for negative arguments: the distribution function is 0 there, but for two degrees of freedom `cdf(-2)` is below -1, and for odd degrees of freedom the result is not a number. — `C72_cdf_violated` in `DistChi.lean`
* C72 is violated by `median`: for two degrees of freedom the value returned has more than 50.4 % of the probability below it (the formula is only an approximation). — `C72_median_violated` in `DistChi.lean`
* C72 is violated by `entropy`, which uses `2/k` in place of `k/2`: for four degrees of freedom it is below the differential entropy of the density by more than 0.4. — `C72_entropy_violated` in `DistChi.lean`
* **C72** is violated by `quantile` for every number of degrees of freedom from 128 to two thousand millions and every probability from 0.01 to 0.99: the Rust code panics (`C49_ur_inv_violated`). — `C72_quantile_violated` in `UrInvFail.lean`

**C73 — Beta distribution** (`distrib/beta.rs`)

* The documentation says that `new` panics for `p ≤ 0`, but `p = 0` is accepted, for which there is no beta distribution; `pdf` has no finite value on `[0, 1]` then. — `C73_new_violated` in `DistBeta.lean`
* C73 is violated by `pdf` above 1: the density is 0 there, but the value is 1 everywhere. — `C73_pdf_violated` in `DistBeta.lean`

**C74 — t distribution** (`distrib/t.rs:44-190`)

* The documentation says that `new` panics for `n ≤ 0`. It accepts `n = 0`, and the density of the value it returns is a division by zero. — `C74_new_violated` in `DistT.lean`
* The entropy of one degree of freedom is at least `log π`, but `entropy` returns a negative number: the code uses the gamma function in place of the digamma function and `B((n+1)/2, 1/2)` in place of `B(n/2, 1/2)`. — `C74_entropy_violated` in `DistT.lean`
* For an even number `n` of degrees of freedom and `x² > n` the code evaluates the gamma function at the poles `-n/2` and `1 - n/2`, and divides zero by zero in the series: `cdf` has no value, although the probability is a positive number. For `n = 2` the Rust code panics in `gamma(0)` for every `x² > 2`. — `C74_cdf_violated` in `DistTCdf.lean`

**C75 — Hypergeometric function** (`special/hypergeometric.rs:18-143`)

* `f21` is defined for positive parameters and `z < 1`, but for `1/2 < z < 1` it panics whenever `c - a - b` is an integer, because the gamma function is evaluated at a pole; the Gauss series converges. For example `f21(1, 1, 2, 0.75)`, which should be `ln 4 / 0.75`. — `C75_pole_violated` in `HyperAcc.lean`
* For `z < -1`, `f21` panics whenever `b - a` is an integer, although Euler's integral is finite there. For example `f21(1, 1, 2, -2)`, which should be `ln 3 / 2`. — `C75_difference_violated` in `HyperAcc.lean`
* The documentation demands `z < 1` and promises a panic otherwise. `f21(1, 1, 1, 1)` returns a finite number, `1` up to rounding, although the Gauss series `1 + 1 + 1 + …` diverges. — `C75_one_violated` in `HyperSpec.lean`
* The stopping rule looks at one term only. For `a = 1e-20`, `b = 1000`, `c = 1`, `z = 1/2` the first term is below the tolerance, and the loop returns `1 + 5e-18`; the sum of the series is larger than a million. — `C75_stop_violated` in `HyperSpec.lean`

**C76 — Eigenvalue decomposition** (`eigen/native.rs:1-190`)

* No `2×2` matrix with two non-zero off-diagonal entries gets a correct eigenvalue: the result is the diagonal, and `det (A - λ 1) ≠ 0` for both values. — `C76_two_violated` in `EigenProps.lean`
* `[[0,1],[1,0]]` has the eigenvalues `1` and `-1`; `dec_eigen` returns `0` twice, with zero vectors. — `C76_eigen_violated` in `EigenProps.lean`
* A `3×3` matrix with the eigenvalues `14`, `-12` and `0`; `dec_eigen` returns `0`, `2` and `0` (every size `≥ 3` gets one sweep per row, whether or not it has converged). — `C76_three_violated` in `EigenProps.lean`
* Given the exact eigenvalues `0, 0` of `[[0,1],[0,0]]`, `eigenvector_r` returns `[1,1]`, which is no eigenvector. — `C76_eigenvector_violated` in `EigenProps.lean`

**C77 — Singular value decomposition** (`matrix/matrix.rs, dec_sv, msweep, householder_bidiag`)

* A matrix with one column `[3, 4]`: `U B Vᵀ = [3, 0]`. — `C77_bidiag_tall_violated` in `SvdProps.lean`
* Every matrix with at least two columns whose first column is zero makes `householder_bidiag` and `dec_sv` panic. — `C77_bidiag_panic_violated` in `SvdProps.lean`
* `dec_sv` panics on every matrix with more rows than columns. — `C77_sv_tall_violated` in `SvdProps.lean`

**C78 — Pseudo-inverse** (`matrix/matrix.rs, pinv`)

* The column `[0, 1]` has the pseudo-inverse `[0, 1]`; the code divides by zero. — `C78_column_violated` in `PinvProps.lean`
* Matrices with more rows than columns: for the `5×2` matrix with the columns `[3,4,0,0,0]` and `[1,2,0,0,0]` the result is far from a left inverse (the factor `R` and `A` are transposed wrongly); for the `3×2` matrix with the columns `[1,0,0]` and `[1,1,0]` nothing finite is returned. Both have full rank. — `C78_tall_violated` in `PinvProps.lean`

**C79 — Gauss-Newton minimiser** (`optimization/gaussnewton.rs:43-57`)

* Three residuals `a + b - 3, b - 2, 0` of two parameters, with the exact solution `a = 1, b = 2`: no finite result, because `pinv` of the `3×2` Jacobian fails. — `C79_tall_violated` in `PinvProps.lean`

**C80 — Householder reflector of a vector** (`vector/vector.rs:509-521`)

* The reflector of `[-7, 24]` is `[-4/5, 24]`, which is not a unit vector (the second component would have to be `3/5`). The reflection in `[0, 1]`, the result for `[0, 1]`, maps that vector to its negative and not to a multiple of `[1, 0]`. — `C80_violated` in `CastProps.lean`

**C81 — compare_neighbourhood compares every entry** (`vector/vector.rs:739-760`)

* The row vectors `[1, 2]` and `[1, 100]` count as neighbours for every tolerance, however small. — `C81_row_violated` in `CastProps.lean`

**C82 — Conversions between number types** (`abstr/cast.rs, num/primitives/mod.rs:12-256, num/complex.rs:601-643, 1193-1244`)

* The documentation of `from_i64` says that a value that cannot be represented gives `None`; it is wrapped instead: `u8::from_i64(300) = 44`, `u8::from_i64(-1) = 255`, `i8::from_i64(200) = -56`. — `C82_wraps_violated` in `CastProps.lean`
* A number with an imaginary part is converted to a real one by dropping that part (the comment at the implementation says that `None` is returned), also when it is cast to a complex number: `cast(1 + 2i) = 1`. — `C82_complex_violated` in `CastProps.lean`
* Conversions from signed integers to complex numbers always panic. — `C82_complex_signed_violated` in `CastProps.lean`

**C83 — Signs, extrema and orderings of numbers** (`abstr/sign.rs, abstr/magma.rs, abstr/real.rs:58-80, num/complex.rs:87-93`)

* In a fixed-width type one side of the associative law can panic and the other not: `(100 + 100) + (-100)` in `i8`. — `C83_assoc_violated` in `CastProps.lean`
* The order and the equality of complex numbers disagree: `1 + 2i` and `1 + 3i` compare as equal without being equal. — `C83_order_violated` in `CastProps.lean`

**C84 — Example differential equations** (`ordinary/problem.rs`)

* The documentation of the oscillator has `x₂' = ε((1 - x₁²) x₂ - x₁)`, a different system: at its own initial condition `(1, 0)` with `ε = 1/10` that is `-1/10`, the code has `-1`. — `C84_vdp_doc_violated` in `ProblemProps.lean`

**C85 — Random variates** (`distrib/normal.rs:312-331, distrib/exponential.rs:177-183, distrib/distrib.rs:9-15`)

* The generator can return a pair for which the result is a NaN: both numbers `1/2` — `C85_nan_violated` in `RandomProps.lean`

**C86 — The fixed-step solver converges with the order of its method** (`ordinary/fixed_stepper.rs:39-77, ordinary/butcher.rs:43-63`)

* The third weight of `Ralston4` is wrong: for `x' = 1`, `x 0 = 0` the value at the time `1` stays away from `1`, for every step size (the difference is about `0.0017`) — `C86_ralston4_violated` in `ConvProps.lean`

**C87 — The Adams-Bashforth solver converges with order k** (`ordinary/adamsbashforth.rs:129-302`)

* The first step is an Euler step, which limits the order to `2`: for `x' = 2 t`, `x 0 = 0` on `[0, 1]` with the solution `t²` every state after the first is off by exactly `h²`, for all `k ≥ 2` and all step sizes `h = 1 / m`. — `C87_order_violated` in `MsConvProps.lean`

**C88 — Rounding errors of products, sums and polynomial values** (`mul/native.rs, vector/vector.rs:306-321, abstr/polynomial.rs:184-196, distrib/normal.rs (mean)`)

* **C88** (what does not hold): the error of a dot product is not small relative to the exact value. In `f64` the product of `(2^53, 1, -2^53)` with `(1, 1, 1)` is `0`, its exact value is `1`. — `C88_relative_violated` in `FloatProps.lean`
* **C88** (what does not hold): the mean need not lie between the smallest and the largest observation. The mean of three equal observations `0.1` is computed in `f64` as a larger number. — `C88_mean_violated` in `FloatProps.lean`

**C90 — LU decomposition, solve and inv with rounding** (`lu/native.rs, solve/native.rs, inverse/native.rs`)

* **C90** (what does not hold): `solve` is not backward stable, because the pivot is the largest entry by value and not by absolute value. In `f64` the system `2^-60 x + y = 1`, `-x + y = 2` has a matrix with entries of at most 1 and an inverse with entries of at most 1, so it is as well conditioned as a matrix can be; its solution is close to `(-1, 1)`. The code takes `2^-60` as pivot and returns `(0, 1)`. No matrix solved by this vector has entries within distance 1 of the given ones. — `C90_solve_violated` in `FloatSolve.lean`
* **C90** (what does not hold): a singular matrix need not be recognised. The rows of `[49 49; 1 1]` are multiples of each other, yet in `f64` the second pivot is computed as `2^-53` and `inv` returns a matrix. — `C90_singular_violated` in `FloatSolve.lean`

**C91 — Times of the fixed-step solver with rounding** (`ordinary/fixed_stepper.rs:39-77`)

* **C91** (what does not hold): the last time need not be the end of the time span. With `f64`, the step size `0.1` and the time span `[0, 1]` the last of the 11 times is `1 - 2^-53`, for every method. — `C91_last_violated` in `FloatOdeProps.lean`
* **C91** (what does not hold): the times need not be strictly increasing. With `f64`, the step size `0.1` and the time span `[1, 1.3]` the quotient `0.30000000000000004 / 0.1` is rounded up to 4 steps, and the last two times are both `1.3`, for every method. — `C91_increasing_violated` in `FloatOdeProps.lean`

**C93 — Arithmetic and substitution of the BLAS backend** (`add/lapack.rs, sub/lapack.rs, mul/lapack.rs, substitute/lapack.rs`)

* C93 is false for empty matrices: a product whose left operand has no rows or no columns is refused by `xgemm`, because the leading dimension 0 is not allowed; the native backend returns the empty (or zero) product. — `C93_empty_violated` in `LapackProps.lean`

**C94 — LU decomposition, determinant, solve and inverse of the LAPACK backend** (`lu/lapack.rs, inverse/lapack.rs, solve/lapack.rs, matrix.rs:171-218`)

* C94 is false for singular matrices: `solve` does not report an error for a singular system (only a negative `info` of `xgetrf` is checked), whatever the right-hand side. — `C94_singular_violated` in `LapackProps.lean`
* C94 is false for right-hand sides with fewer columns than rows: every system, regular or not, is refused with an error, because the number of columns is passed as leading dimension. (With more columns than rows the routine is told to access memory beyond the buffer.) — `C94_solve_matrix_violated` in `LapackProps.lean`
* C94 is false from size 4 on: for two disjoint row swaps, determinant 1, `det` returns -1 with every LAPACK. — `C94_det_violated` in `LapackProps.lean`

**C95 — Cholesky, QR and Hessenberg decompositions of the LAPACK backend** (`cholesky/lapack.rs, qr/lapack.rs, hessenberg/lapack.rs`)

* C95 is false for matrices that are not positive definite: `Ok` is returned for every square matrix, for instance for `[[-1]]`, which has no Cholesky decomposition. — `C95_cholesky_violated` in `LapackReal.lean`
* C95 is false for more rows than columns: `q` and `r` both have the shape of `A`, so that they cannot be multiplied. — `C95_qr_violated` in `LapackReal.lean`

**C96 — Eigenvalues and eigenvectors of the LAPACK backend** (`eigen/lapack.rs:27-79`)

* C96 is false for the eigenvectors of matrices that are not symmetric: for `[[1, 1], [0, 2]]` no returned column is an eigenvector to its value, whatever the LAPACK (the matrix is transposed before the call). — `C96_vectors_violated` in `LapackReal.lean`
* C96 is false for complex eigenvalues: for the rotation `[[0, -1], [1, 0]]` the values returned are 0 and 0, and 0 is not an eigenvalue. — `C96_complex_violated` in `LapackReal.lean`

**C97 — Newton-Raphson converges quadratically to a root** (`analysis/newton_raphson.rs:47-70, solve/native.rs, lu/native.rs`)

* The function `b - x` in two or more dimensions has the derivative `-1` everywhere, but `find_root` answers `Err` from every start, from the root `b` itself too, with every number of iterations and every tolerance up to `1`: `dec_lu` looks for the largest entry instead of the entry of largest absolute value, and meets the pivot `0`. — `C97_minus_identity_violated` in `NewtonConv.lean`

**C98 — The implicit Euler solver converges with order one** (`ordinary/implicit_euler.rs, ordinary/fixed_stepper.rs`)

* In two and more dimensions `solve` always panics, for every right-hand side, time span, start and step size: after the last time has been recorded the stepper does one more step, of length `0`. The matrix `0 J - 1` of that step makes `dec_lu` meet a zero pivot, the root finder does not converge, and its `Err` is unwrapped. (With floats the extra step may have a tiny length instead, when rounding errors have accumulated in the times.) — `C98_dimension_violated` in `ImplicitConv.lean`
* Smaller step sizes do not help in the end: for `x' = 1` and step sizes below `10⁻⁸` every increment is below the tolerance of the root finder, which returns its start, and the computed solution stays at `0` instead of reaching `1`. — `C98_stalls_violated` in `ImplicitConv.lean`
