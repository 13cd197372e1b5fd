{"id": "C01", "title": "Matrix construction and element access are column-major and exact", "statement": "Matrix::new(m,n,data) accepts exactly the data vectors of length m*n; afterwards get(i,j) returns data[j*m+i] for every i<m, j<n and panics for every other index pair; writing through get_mut(i,j) makes get(i,j) return the written value and leaves every other entry and the dimensions unchanged.", "quantifier": "for all dimensions m,n, all data vectors, all index pairs inside and outside the matrix, all written values", "why_tests_cant": "Tests sample a handful of shapes; the aliasing claim (no other entry changes) quantifies over every pair of index pairs of every shape.", "anchors": ["src/algebra/linear/matrix/matrix.rs: Matrix::new, Matrix::get, Matrix::get_mut, Matrix::zero, Matrix::one, Matrix::ones"]}
{"id": "C02", "title": "Matrix addition and subtraction are entrywise", "statement": "A + B and A - B have the dimensions of A and hold a_ij + b_ij (a_ij - b_ij) at every position, and they panic exactly when the dimensions of A and B differ; hence addition is commutative and associative, zero is neutral and A - B + B = A.", "quantifier": "for all matrices over an exact field, all shapes", "why_tests_cant": "Algebraic laws quantify over infinitely many matrices and shapes.", "anchors": ["src/algebra/linear/matrix/add/native.rs", "src/algebra/linear/matrix/sub/native.rs"]}
{"id": "C03", "title": "Matrix multiplication is the linear-algebra product", "statement": "A * B panics exactly when ncols(A) != nrows(B); otherwise it is the nrows(A) x ncols(B) matrix whose (i,j) entry is the sum over k of a_ik * b_kj; hence the product is associative, distributes over + and one(n) is neutral.", "quantifier": "for all matrices over an exact field, all shapes", "why_tests_cant": "Laws over all shapes and entries cannot be sampled.", "anchors": ["src/algebra/linear/matrix/mul/native.rs"]}
{"id": "C04", "title": "Scalar operations act on every entry", "statement": "A + s, A - s, A * s and A / s act on every entry; A * s / s returns A for every nonzero s.", "quantifier": "for all matrices, all scalars of an exact field", "why_tests_cant": "Quantifies over all shapes and scalars.", "anchors": ["src/algebra/linear/matrix/add/native.rs", "src/algebra/linear/matrix/sub/native.rs", "src/algebra/linear/matrix/mul/native.rs", "src/algebra/linear/matrix/div.rs"]}
{"id": "C05", "title": "In-place transpose really transposes every matrix", "statement": "A.transpose() has dimensions n x m and its (j,i) entry is a_ij, for every shape (square, wide, tall, coprime or not); transposing twice gives back A; no shape panics.", "quantifier": "for all dimensions m,n and all entry values", "why_tests_cant": "The in-place algorithm permutes the buffer with modular index arithmetic depending on gcd(m,n); a test covers a few (m,n) pairs only.", "anchors": ["src/algebra/linear/matrix/transpose/native.rs: gcd, gather, gather_sa, scatter_da, inplace_transpose"]}
{"id": "C06", "title": "Rows and columns round-trip", "statement": "get_row(i)/get_column(j) return exactly row i/column j; after set_row(v,i)/set_column(v,j) reading that row/column gives v and all other entries are unchanged; out-of-range indices or a vector of the wrong size panic.", "quantifier": "for all matrices, indices and vectors", "why_tests_cant": "Aliasing claim over all positions and shapes.", "anchors": ["src/algebra/linear/matrix/matrix.rs: get_row, get_column, set_row, set_column"]}
{"id": "C07", "title": "Slices round-trip", "statement": "get_slice(r1,r2,c1,c2) returns the inclusive block; set_slice(S,r,c) overwrites exactly the block starting at (r,c); get_slice after set_slice returns S; set_slice with the matching get_slice leaves the matrix unchanged.", "quantifier": "for all matrices, all in-range bounds, and all out-of-range bounds (panic)", "why_tests_cant": "Boundary arithmetic on four independent indices.", "anchors": ["src/algebra/linear/matrix/matrix.rs: get_slice, set_slice"]}
{"id": "C08", "title": "swap_rows exchanges two rows and nothing else", "statement": "After swap_rows(i,j) row i holds the old row j and vice versa, all other rows are unchanged; doing it twice restores the matrix; i = j is a no-op.", "quantifier": "for all matrices and row index pairs", "why_tests_cant": "Aliasing claim over all shapes and index pairs.", "anchors": ["src/algebra/linear/matrix/matrix.rs: swap_rows"]}
{"id": "C09", "title": "trace is the sum of the diagonal", "statement": "trace(A) of a square matrix is the sum of its diagonal entries, is additive, and trace(A*B) = trace(B*A); non-square input panics.", "quantifier": "for all square matrices over an exact field", "why_tests_cant": "Cyclicity quantifies over all pairs.", "anchors": ["src/algebra/linear/matrix/matrix.rs: trace"]}
{"id": "C10", "title": "det is the determinant", "statement": "det(A) equals the determinant of A for every square matrix, so it is multiplicative and zero exactly on singular matrices; a non-square matrix panics.", "quantifier": "for all square matrices over an exact ordered field", "why_tests_cant": "The determinant is computed from an LU factorisation with pivoting and a permutation sign; wrong signs show up only for specific pivot patterns.", "anchors": ["src/algebra/linear/matrix/matrix.rs: det", "src/algebra/linear/matrix/lu/native.rs: dec_lu"]}
{"id": "C11", "title": "LU decomposition reconstructs the matrix", "statement": "For every square A, dec_lu returns L, U, P with P*A = L*U, L unit lower triangular, U upper triangular and P a permutation matrix; for non-square A it panics or reports an error.", "quantifier": "for all square matrices over an exact ordered field", "why_tests_cant": "Correctness depends on the pivot pattern met at every elimination step.", "anchors": ["src/algebra/linear/matrix/lu/native.rs: dec_lu", "src/algebra/linear/matrix/lu/ludec.rs: LUDec"]}
{"id": "C12", "title": "solve returns a solution", "statement": "If A.solve(b) returns Ok(x) then A*x = b (vector and matrix right-hand sides), and singular systems are reported as Err rather than as a wrong solution.", "quantifier": "for all square matrices and right-hand sides over an exact ordered field", "why_tests_cant": "All singular/non-singular patterns and sizes.", "anchors": ["src/algebra/linear/matrix/solve/native.rs", "src/algebra/linear/matrix/lu/ludec.rs: solve", "src/algebra/linear/matrix/substitute/native.rs"]}
{"id": "C13", "title": "inv returns the inverse", "statement": "If A.inv() returns Ok(B) then A*B = B*A = 1; a singular A yields Err.", "quantifier": "for all square matrices over an exact ordered field", "why_tests_cant": "All sizes and pivot patterns.", "anchors": ["src/algebra/linear/matrix/inverse/native.rs", "src/algebra/linear/matrix/lu/ludec.rs: inv"]}
{"id": "C14", "title": "Triangular substitution solves triangular systems", "statement": "substitute_forward on a unit-lower/lower triangular matrix and substitute_backward on an upper triangular matrix return x with T*x = b for vector and matrix right-hand sides.", "quantifier": "for all triangular matrices with nonzero diagonal and all right-hand sides", "why_tests_cant": "All sizes; the zero-diagonal branch is special-cased in code.", "anchors": ["src/algebra/linear/matrix/substitute/native.rs"]}
{"id": "C15", "title": "QR decomposition reconstructs the matrix", "statement": "For every matrix with at least as many rows as columns dec_qr returns Q, R with Q*R = A, Q orthogonal and R upper triangular.", "quantifier": "for all real matrices with m >= n", "why_tests_cant": "Givens rotations are skipped depending on data; R's shape depends on which branch each element takes.", "anchors": ["src/algebra/linear/matrix/qr/native.rs: dec_qr", "src/algebra/linear/matrix/matrix.rs: givens, givens_cosine_sine_pair"]}
{"id": "C16", "title": "Cholesky decomposition reconstructs the matrix", "statement": "For every symmetric positive definite A dec_cholesky returns lower triangular L with positive diagonal and L*L^T = A; on symmetric input that is not positive definite it does not return a factor.", "quantifier": "for all real symmetric matrices", "why_tests_cant": "Positive definiteness quantifies over all vectors; all sizes.", "anchors": ["src/algebra/linear/matrix/cholesky/native.rs: dec_cholesky"]}
{"id": "C17", "title": "Householder transformation is an orthogonal reflector that annihilates", "statement": "householder(v,k) returns an n x n matrix H (n = length of v) that is symmetric and orthogonal, H*v agrees with v above k and is zero below index k.", "quantifier": "for all real vectors v and all k < length v", "why_tests_cant": "Special cases (already zero tail, k = 0, last index) and all sizes.", "anchors": ["src/algebra/linear/matrix/matrix.rs: householder"]}
{"id": "C18", "title": "Hessenberg decomposition reconstructs the matrix", "statement": "For every square A dec_hessenberg returns Q, H with Q*H*Q^T = A, Q orthogonal and H zero below the first subdiagonal.", "quantifier": "for all real square matrices", "why_tests_cant": "All sizes and zero patterns.", "anchors": ["src/algebra/linear/matrix/hessenberg/native.rs: dec_hessenberg"]}
{"id": "C19", "title": "Matrix equality and approximate equality compare every entry", "statement": "A == B holds exactly when dimensions and all entries agree; abs_diff_eq(A,B,eps) / relative_eq hold exactly when the dimensions agree and every pair of entries is within tolerance.", "quantifier": "for all pairs of matrices/vectors and all tolerances", "why_tests_cant": "Tests built on the comparison itself cannot notice that entries are ignored.", "anchors": ["src/algebra/linear/matrix/matrix.rs: PartialEq, AbsDiffEq, RelativeEq", "src/algebra/linear/vector/vector.rs: AbsDiffEq, RelativeEq"]}
{"id": "C20", "title": "Matrix iterators enumerate every element once", "statement": "row_into_iter yields exactly the rows in order, column_into_iter yields exactly the columns in order, and both stop after the last one.", "quantifier": "for all matrices", "why_tests_cant": "Termination and coverage for all shapes.", "anchors": ["src/algebra/linear/matrix/matrixrowintoiterator.rs", "src/algebra/linear/matrix/matrixcolumnintoiterator.rs", "src/algebra/linear/matrix/matrix.rs: apply"]}
{"id": "C21", "title": "Vector inner and outer products", "statement": "dotp(x,y) is the sum of x_i*y_i, is symmetric and bilinear; dyadp(x,y) is the matrix x_i*y_j; both panic on shape misuse.", "quantifier": "for all vectors over an exact field", "why_tests_cant": "Bilinearity over all vectors.", "anchors": ["src/algebra/linear/vector/vector.rs: dotp, dyadp"]}
{"id": "C22", "title": "Vector norms", "statement": "p_norm(x,p) is the p-norm of x (nonnegative, zero only at zero, absolutely homogeneous) and eucl_norm is the 2-norm; p < 1 panics.", "quantifier": "for all real vectors and p >= 1", "why_tests_cant": "Sign patterns of all entries.", "anchors": ["src/algebra/linear/vector/vector.rs: p_norm, eucl_norm"]}
{"id": "C23", "title": "argmax/argmin return an extremal index", "statement": "argmax(x) (argmin(x)) is an index of x whose entry is >= (<=) every entry, and it is the first such index.", "quantifier": "for all nonempty vectors", "why_tests_cant": "Ties and positions over all vectors.", "anchors": ["src/algebra/linear/vector/vector.rs: argmax, argmin"]}
{"id": "C24", "title": "Vector slices round-trip", "statement": "get_slice(s,e) returns entries s..=e in order; set_slice(v,s) overwrites exactly entries s..s+len-1; reading back returns v.", "quantifier": "for all vectors and ranges", "why_tests_cant": "Boundary arithmetic.", "anchors": ["src/algebra/linear/vector/vector.rs: get_slice, set_slice, get, get_mut"]}
{"id": "C25", "title": "Matrix-vector products", "statement": "A*x is the vector of sums a_ij*x_j, x^T*A the vector of sums x_i*a_ij, and (A*B)*x = A*(B*x).", "quantifier": "for all matrices and vectors of matching sizes; mismatches panic", "why_tests_cant": "All shapes.", "anchors": ["src/algebra/linear/vector/mul/native.rs", "src/algebra/linear/matrix/mul/native.rs"]}
{"id": "C26", "title": "Polynomial evaluation", "statement": "eval(p,x) equals the sum of coefficient_i * x^i.", "quantifier": "for all coefficient lists and points of a field", "why_tests_cant": "All degrees.", "anchors": ["src/algebra/abstr/polynomial.rs: eval, from_coef"]}
{"id": "C27", "title": "Polynomial addition and negation", "statement": "(p+q).eval(x) = p.eval(x)+q.eval(x) and (-p).eval(x) = -p.eval(x); zero is neutral; the result's coefficients are the sums.", "quantifier": "for all pairs of polynomials of any degrees, any point", "why_tests_cant": "All degree combinations incl. cancellation of the leading term.", "anchors": ["src/algebra/abstr/polynomial.rs: Add, Neg, reduce_coef"]}
{"id": "C28", "title": "Polynomial subtraction", "statement": "(p-q).eval(x) = p.eval(x)-q.eval(x), in particular p - q + q = p and p - p = 0.", "quantifier": "for all pairs of polynomials of any degrees", "why_tests_cant": "The two degree orders take different branches.", "anchors": ["src/algebra/abstr/polynomial.rs: Sub"]}
{"id": "C29", "title": "Polynomial multiplication", "statement": "(p*q).eval(x) = p.eval(x)*q.eval(x), multiplication is commutative/associative and distributes over addition.", "quantifier": "for all pairs of polynomials", "why_tests_cant": "All degrees.", "anchors": ["src/algebra/abstr/polynomial.rs: Mul"]}
{"id": "C30", "title": "Polynomial division with remainder", "statement": "For q with nonzero leading coefficient, (quot,rem) = p / q satisfies p = q*quot + rem with deg rem < deg q (or rem = 0).", "quantifier": "for all p and all nonzero q over an exact field", "why_tests_cant": "Loop termination and invariants for all degree pairs.", "anchors": ["src/algebra/abstr/polynomial.rs: Div, reduce"]}
{"id": "C31", "title": "Polynomial calculus", "statement": "differentiate(p) is the formal derivative, integrate(p) has zero constant term and differentiate(integrate(p)) = p.", "quantifier": "for all polynomials", "why_tests_cant": "All degrees, including constants.", "anchors": ["src/algebra/abstr/polynomial.rs: differentiate, integrate"]}
{"id": "C32", "title": "from_root builds the monic polynomial with the given roots", "statement": "from_root(r_1..r_n) is the product of (x - r_i): it is monic of degree n and vanishes exactly at the given roots.", "quantifier": "for all root lists", "why_tests_cant": "All lengths and multiplicities.", "anchors": ["src/algebra/abstr/polynomial.rs: from_root"]}
{"id": "C33", "title": "Complex arithmetic forms a field", "statement": "+, -, *, / on Complex<T> are the field operations of the complex numbers: (a/b)*b = a for b != 0, division by zero panics, conj is multiplicative, |z|^2 = z*conj(z).", "quantifier": "for all complex numbers over exact reals", "why_tests_cant": "Infinite domain.", "anchors": ["src/num/complex.rs: Add, Sub, Mul, Div, Neg, conj, abs"]}
{"id": "C34", "title": "Complex exponential, logarithm and power", "statement": "exp, ln and pow of Complex are the principal complex functions: exp(ln z) = z for z != 0, exp(a+b) = exp(a)exp(b), pow(z,w) = exp(w ln z).", "quantifier": "for all complex numbers (nonzero where required)", "why_tests_cant": "Infinite domain, branch cut.", "anchors": ["src/num/complex.rs: exp, ln, pow, arg, abs"]}
{"id": "C35", "title": "Complex trigonometric functions", "statement": "sin, cos, tan, cot, sec, csc of Complex are the entire/meromorphic extensions: sin^2+cos^2 = 1, tan = sin/cos, sec = 1/cos, csc = 1/sin, and restricted to real arguments they are the real functions.", "quantifier": "for all complex numbers", "why_tests_cant": "Infinite domain.", "anchors": ["src/num/complex.rs: sin, cos, tan, cot, sec, csc"]}
{"id": "C36", "title": "Complex hyperbolic functions", "statement": "sinh, cosh, tanh, coth, sech, csch are the complex hyperbolic functions: cosh^2 - sinh^2 = 1, sech = 1/cosh, csch = 1/sinh.", "quantifier": "for all complex numbers", "why_tests_cant": "Infinite domain; a sign error is invisible to tests that never call the function.", "anchors": ["src/num/complex.rs: sinh, cosh, tanh, coth, sech, csch"]}
{"id": "C37", "title": "Complex inverse functions are right inverses", "statement": "sin(arcsin z) = z, cos(arccos z) = z, tan(arctan z) = z (z != +-i), sinh(arsinh z) = z, cosh(arcosh z) = z, tanh(artanh z) = z.", "quantifier": "for all complex numbers in the domain", "why_tests_cant": "Infinite domain with branch cuts.", "anchors": ["src/num/complex.rs: arcsin, arccos, arctan, arsinh, arcosh, artanh"]}
{"id": "C38", "title": "Real elementary functions and their domain guards", "statement": "cot, sec, csc are the reciprocals they claim to be; arcsin/arccos panic exactly outside [-1,1]; arccot, arcsec, arccsc, arcoth, arsech, arcsch, artanh, arcosh are right inverses on their documented domain and panic outside it.", "quantifier": "for all real arguments", "why_tests_cant": "Infinite domain and boundary points.", "anchors": ["src/num/primitives/mod.rs: Trigonometry, Hyperbolic"]}
{"id": "C39", "title": "Scalar approximate equality is a tolerance relation", "statement": "abs_diff_eq(a,b,eps) holds exactly when |a-b| <= eps, so it is reflexive (eps >= 0), symmetric and monotone in eps; relative_eq is reflexive and symmetric; for unsigned integers no underflow occurs.", "quantifier": "for all machine integers / exact reals", "why_tests_cant": "Overflow corner cases of every bit width.", "anchors": ["src/algebra/abstr/abs_diff_eq.rs", "src/algebra/abstr/relative_eq.rs"]}
{"id": "C40", "title": "Fixed-step solver produces a correct time grid", "statement": "FixedStepper.solve returns time points that start at t_start, increase strictly, never exceed t_stop, are step_size apart except the last, and end at t_stop; the first state is the initial condition, each state is one do_step of its predecessor; number of times equals number of states.", "quantifier": "for all start/stop times, step sizes > 0, problems and methods", "why_tests_cant": "Rounding-up of step count and the clamped last step for every ratio of span to step size.", "anchors": ["src/analysis/differential_equation/ordinary/fixed_stepper.rs: FixedStepper::solve"]}
{"id": "C41", "title": "Explicit Runge-Kutta methods have their documented order", "statement": "For each provided fixed-step method (Euler, Heun2/3, Kutta3, Kutta38, Midpoint, Ralston2/3/4, RungeKutta4, SSPRK3) a do_step satisfies all order conditions up to order(): in particular it integrates x' = g(t) exactly for polynomials g of degree < order and reproduces the Taylor polynomial of exp for x' = lambda*x.", "quantifier": "for all step sizes, start points, polynomials and lambda", "why_tests_cant": "A wrong coefficient in the 10th digit passes tolerance-based tests.", "anchors": ["src/analysis/differential_equation/ordinary/butcher.rs: ButcherFixedStepSize::do_step", "src/analysis/differential_equation/ordinary/{explicit_euler,heun2,heun3,kutta3,kutta38,midpoint,ralston2,ralston3,ralston4,rungekutta4,ssprk3}.rs"]}
{"id": "C42", "title": "Embedded Runge-Kutta pairs have their documented orders", "statement": "For BogackiShampine23, Fehlberg12, Fehlberg45, CashKarp45, DormandPrince, with order() = (p, q): the first result of do_step has order p and the second has order q.", "quantifier": "for all step sizes and problems", "why_tests_cant": "Swapped weight rows converge anyway; tests with tolerances do not notice.", "anchors": ["src/analysis/differential_equation/ordinary/butcher.rs: ButcherAdaptiveStepSize::do_step", "src/analysis/differential_equation/ordinary/{bogackishampine23,fehlberg12,fehlberg45,cashkarp45,dormandprince}.rs"]}
{"id": "C43", "title": "Adaptive step control", "statement": "ProportionalControl.solve, when it returns Ok, returns strictly increasing times from t_start to exactly t_stop with at most n_max steps, each accepted step has scaled error <= 1 taken over all components, and each step-size change factor lies within [fac_min, fac_max].", "quantifier": "for all problems, embedded methods and controller settings", "why_tests_cant": "Depends on accept/reject history of arbitrary length; systems with several components.", "anchors": ["src/analysis/differential_equation/ordinary/adaptive_stepper.rs: ProportionalControl::solve, calc_error"]}
{"id": "C44", "title": "Adams-Bashforth multistep method", "statement": "AdamsBashforth(k) for 1 <= k <= 5: the step formula is exact for x' = g(t) with g polynomial of degree < k on an equidistant grid; solve's times start at t_start and end within 1e-10 of t_stop; new panics outside the valid range.", "quantifier": "for all k, step sizes, polynomials", "why_tests_cant": "Coefficients correct for all polynomials.", "anchors": ["src/analysis/differential_equation/ordinary/adamsbashforth.rs"]}
{"id": "C45", "title": "BDF is a backward differentiation formula of order k", "statement": "BDF(k) for 1 <= k <= 6: new accepts exactly k in 1..=6 and step > 0; the step formula is exact for polynomial solutions of degree <= k.", "quantifier": "for all k, step sizes, polynomials", "why_tests_cant": "Formula coefficients over all polynomials.", "anchors": ["src/analysis/differential_equation/ordinary/bdf.rs"]}
{"id": "C46", "title": "Implicit Euler solves its step equation", "statement": "The helper handed to the root finder has root z exactly when z = x + h*f(t+h,z), and its Jacobian is the derivative of that residual; a returned step satisfies the backward Euler equation up to the Newton tolerance.", "quantifier": "for all problems, steps", "why_tests_cant": "All right-hand sides.", "anchors": ["src/analysis/differential_equation/ordinary/implicit_euler.rs"]}
{"id": "C47", "title": "Newton-Raphson root finder", "statement": "find_root returns Ok(x) only when the iteration has converged within tolerance, performs at most iters iterations, returns Err otherwise; for affine functions it finds the exact root.", "quantifier": "for all functions, start points, tolerances", "why_tests_cant": "Arbitrary functions and iteration histories.", "anchors": ["src/analysis/newton_raphson.rs: find_root"]}
{"id": "C48", "title": "Gamma and beta functional relations", "statement": "gamma satisfies the reflection formula gamma(x)*gamma(1-x) = pi/sin(pi x) for x < 0.5 and panics at 0; beta(x,y) = gamma(x)gamma(y)/gamma(x+y) is symmetric; the free function ln_gamma agrees with the method ln_gamma. gamma, ln_gamma and beta are the gamma function, its logarithm and the beta function up to a small error.", "quantifier": "for all real arguments in the domain", "why_tests_cant": "Infinite domain.", "anchors": ["src/special/gamma.rs: gamma, ln_gamma", "src/special/beta.rs: beta"]}
{"id": "C49", "title": "Incomplete gamma complement relations", "statement": "gamma_lr(a,x)+gamma_ur(a,x) = 1, gamma_l(a,x)+gamma_u(a,x) = gamma(a); gamma_lr_inv inverts gamma_lr in the sense gamma_lr_inv(a,p) = gamma_ur_inv(a,1-p). gamma_lr is the regularised incomplete gamma integral up to a small error.", "quantifier": "for all a, x in the domain", "why_tests_cant": "Infinite domain.", "anchors": ["src/special/gamma.rs: gamma_l, gamma_lr, gamma_u, gamma_ur, gamma_lr_inv, gamma_ur_inv"]}
{"id": "C50", "title": "Error function symmetries", "statement": "erf is odd, erf(0) = 0, erf+erfc = 1, erfc(-x) = 2 - erfc(x); erfinv is odd, panics exactly outside [-1,1]; erfcinv(x) = erfinv(1-x) and panics outside [0,2]. erf is the error function 2/sqrt(pi) * integral of exp(-t^2) up to a small error.", "quantifier": "for all real arguments", "why_tests_cant": "Infinite domain, three branches.", "anchors": ["src/special/error.rs: erf, erfc, erfinv, erfcinv"]}
{"id": "C51", "title": "Regularized incomplete beta reflection", "statement": "beta_inc_reg(x,a,b) + beta_inc_reg(1-x,b,a) = 1, with value 0 at x=0 and 1 at x=1; it panics exactly for a <= 0, b <= 0 or x outside [0,1]; in between it is the incomplete beta integral over the beta function up to a small error.", "quantifier": "for all a,b > 0 and x in [0,1]", "why_tests_cant": "Tail-swap branch for all parameter values.", "anchors": ["src/special/beta.rs: beta_inc_reg"]}
{"id": "C52", "title": "Digamma recurrence", "statement": "digamma(x+1) = digamma(x) + 1/x.", "quantifier": "for all x > 0", "why_tests_cant": "Loop count depends on x.", "anchors": ["src/special/gamma.rs: digamma"]}
{"id": "C53", "title": "Factorial and binomial coefficients", "statement": "factorial(n) = n! whenever n! fits in u64 and binom(n,k) is the binomial coefficient whenever k <= n and the result fits in u32; otherwise the call panics rather than returning a wrong number.", "quantifier": "for all u32 arguments", "why_tests_cant": "Overflow threshold.", "anchors": ["src/statistics/combins.rs"]}
{"id": "C54", "title": "Bernoulli and binomial distributions", "statement": "pmf is nonnegative and sums to 1, mean and variance are the moments of the pmf, cdf(x) is the sum of the pmf over values <= x.", "quantifier": "for all p in [0,1], n and real x", "why_tests_cant": "Sums over all n and p.", "anchors": ["src/statistics/distrib/bernoulli.rs", "src/statistics/distrib/binomial.rs"]}
{"id": "C55", "title": "Poisson distribution", "statement": "pmf is nonnegative, sums to 1, mean and variance equal the parameter and are the moments of the pmf.", "quantifier": "for all parameters > 0", "why_tests_cant": "Infinite series.", "anchors": ["src/statistics/distrib/poisson.rs"]}
{"id": "C56", "title": "Uniform distribution", "statement": "pdf integrates to 1, cdf is its integral, quantile inverts cdf, mean/variance/median are those of the density; new panics iff a >= b.", "quantifier": "for all a < b", "why_tests_cant": "Integrals over a continuum.", "anchors": ["src/statistics/distrib/uniform.rs"]}
{"id": "C57", "title": "Exponential distribution", "statement": "cdf is the integral of pdf, tends to 1, quantile inverts cdf, median = quantile(1/2), mean and variance are the moments; new panics iff lambda <= 0.", "quantifier": "for all lambda > 0", "why_tests_cant": "Integrals over a continuum.", "anchors": ["src/statistics/distrib/exponential.rs"]}
{"id": "C58", "title": "Normal distribution", "statement": "pdf is the Gaussian density of the given mean and variance (integrates to 1, derivative of cdf), quantile is symmetric around the mean, entropy is the differential entropy 0.5*ln(2*pi*e*variance).", "quantifier": "for all means and variances > 0", "why_tests_cant": "Integrals over a continuum; tests often use variance 1 only.", "anchors": ["src/statistics/distrib/normal.rs"]}
{"id": "C59", "title": "Sample mean and variance", "statement": "Normal::from_data computes the arithmetic mean and the unbiased sample variance; fewer than two samples panic; constant data panics (variance 0).", "quantifier": "for all data vectors", "why_tests_cant": "All lengths.", "anchors": ["src/statistics/distrib/normal.rs: from_data, calc_mean, calc_variance", "src/statistics/distrib/exponential.rs: from_data"]}
{"id": "C60", "title": "Raised cosine distribution", "statement": "pdf is nonnegative, cdf is its integral, continuous, monotone from 0 to 1, and cdf(mean) = 1/2.", "quantifier": "for all mu and s > 0", "why_tests_cant": "Continuum.", "anchors": ["src/statistics/distrib/raisedcosine.rs"]}
{"id": "C61", "title": "Chi-square test statistic", "statement": "test_vector panics iff lengths differ, the statistic is nonnegative, symmetric in the samples, invariant under common scaling by its scale factor, zero exactly for proportional samples; df = len - 1.", "quantifier": "for all positive count vectors", "why_tests_cant": "All lengths and counts.", "anchors": ["src/statistics/test/chisquare.rs"]}
{"id": "C62", "title": "G-test statistic", "statement": "g is nonnegative for positive data and zero exactly when the observed counts are proportional to the expected ones; df = len - 1.", "quantifier": "for all positive vectors", "why_tests_cant": "Gibbs inequality over all vectors.", "anchors": ["src/statistics/test/g.rs"]}
{"id": "C63", "title": "Student t-test statistics", "statement": "one_sample's t is sqrt(n)*(mean-mu0)/s; both two-sample tests are antisymmetric in the samples; p_value is the two-sided p-value.", "quantifier": "for all samples", "why_tests_cant": "All samples.", "anchors": ["src/statistics/test/t.rs"]}
{"id": "C64", "title": "Gradient descent with Armijo line search is monotone", "statement": "Gradient.minimize returns a point whose objective value is no larger than at the start; each iteration decreases the objective by at least sigma*alpha*|grad|^2; new panics iff sigma is outside (0,1] or iters = 0.", "quantifier": "for all objectives, start points and settings (when the line search terminates)", "why_tests_cant": "Arbitrary objective functions and histories.", "anchors": ["src/optimization/gradient.rs"]}
{"id": "C65", "title": "Newton minimiser is monotone", "statement": "Newton.minimize with rho, sigma >= 0 never increases the objective; every search direction is a descent direction.", "quantifier": "for all objectives, Hessians and start points", "why_tests_cant": "Arbitrary functions.", "anchors": ["src/optimization/newton.rs"]}
{"id": "C66", "title": "Conjugate gradient solves linear systems", "statement": "For eval(x) = b - A*x style residuals with symmetric positive definite A, ConjugateGradient.minimize with iters >= dim returns the exact solution; residual invariants hold in each step.", "quantifier": "for all SPD systems", "why_tests_cant": "All sizes.", "anchors": ["src/optimization/conjugategradient.rs"]}
{"id": "C67", "title": "Tsitouras pair has its documented orders", "statement": "With order() = (5, 4), the first result of Tsitouras.do_step satisfies the order conditions up to order 5 up to the rounding of its coefficients, and the second result is an approximation of order 4.", "quantifier": "for all trees with at most 5 nodes", "why_tests_cant": "Tolerance-based tests do not see a wrong second row of weights, which only changes the step sizes.", "anchors": ["src/analysis/differential_equation/ordinary/tsitouras.rs"]}
{"id": "C68", "title": "Levenberg-Marquardt never increases the sum of squares", "statement": "LevenbergMarquardt.minimize with rho_minus >= 0 returns a point whose sum of squares is no larger than at the start; every accepted step d solves (J^T J + mu^2 I) d = -J^T f.", "quantifier": "for all residual functions, Jacobians of any shape and start points", "why_tests_cant": "Arbitrary functions; the tests only look at the final point of one or two problems.", "anchors": ["src/optimization/levenbergmarquardt.rs"]}
{"id": "C69", "title": "Log-normal distribution", "statement": "pdf is the density of the exponential of a Gaussian variable (integrates to 1); mean, variance, skewness and entropy are those of the density, cdf is its integral; quantile(1/2) is the median and quantile panics exactly outside (0,1); new panics iff sigma^2 <= 0.", "quantifier": "for all mu, sigma^2 > 0 and real x", "why_tests_cant": "Integrals over a continuum.", "anchors": ["src/statistics/distrib/log_normal.rs"]}
{"id": "C70", "title": "Inverse error function", "statement": "erfinv panics exactly outside [-1, 1], is infinite exactly at -1 and 1, has the sign of its argument and is odd on (-1, 1); erf(erfinv(x)) is x up to rounding; horner evaluates the polynomial with the given coefficients.", "quantifier": "for all x in [-1, 1], both float widths", "why_tests_cant": "The tests compare a handful of points, all for f64.", "anchors": ["src/special/error.rs"]}
{"id": "C71", "title": "Gamma distribution", "statement": "new panics iff a parameter is <= 0; pdf is beta^alpha/Gamma(alpha) x^(alpha-1) e^(-beta x) for x > 0 up to rounding of gamma and integrates to 1; mean, variance and skewness are the moments of that density, cdf its integral, entropy its differential entropy.", "quantifier": "for all alpha, beta > 0 and all x", "why_tests_cant": "Integrals over a continuum; tests use a few points.", "anchors": ["src/statistics/distrib/gamma.rs"]}
{"id": "C72", "title": "Chi-square distribution", "statement": "new panics iff k = 0; pdf is the density x^(k/2-1) e^(-x/2) / (2^(k/2) Gamma(k/2)); mean, variance, skewness are its moments; cdf is its integral; quantile inverts cdf; median halves the mass; entropy is the differential entropy.", "quantifier": "for all k >= 1 and all x", "why_tests_cant": "Integrals over a continuum and all degrees of freedom, even and odd.", "anchors": ["src/statistics/distrib/chisquare.rs"]}
{"id": "C73", "title": "Beta distribution", "statement": "new panics iff p <= 0 or q <= 0; pdf is x^(p-1) (1-x)^(q-1) / B(p,q) on [0,1] and zero elsewhere; mean, variance, skewness are its moments; cdf is its integral.", "quantifier": "for all p, q > 0 and all x", "why_tests_cant": "Integrals over a continuum.", "anchors": ["src/statistics/distrib/beta.rs"]}
{"id": "C74", "title": "t distribution", "statement": "new panics iff n <= 0; pdf is the density Gamma((n+1)/2)/(sqrt(n pi) Gamma(n/2)) (1+x^2/n)^(-(n+1)/2) and integrates to 1; cdf is its integral; mean, variance, skewness and median are those of the density where they exist (panic or infinity otherwise); entropy is the differential entropy.", "quantifier": "for all n > 0 and all x", "why_tests_cant": "Improper integrals; the hypergeometric series behind cdf has several branches the tests do not reach.", "anchors": ["src/statistics/distrib/t.rs"]}
{"id": "C75", "title": "Hypergeometric function", "statement": "f21 panics iff a <= 0, b <= 0, c <= 0 or z >= 1, terminates otherwise, and its value is the sum of the Gauss series (its continuation for z <= -1) up to the series tolerance.", "quantifier": "for all a, b, c > 0 and z < 1", "why_tests_cant": "Four real parameters and a data-dependent stopping rule.", "anchors": ["src/special/hypergeometric.rs"]}
{"id": "C76", "title": "Eigenvalue decomposition", "statement": "dec_eigen returns values whose multiset is the spectrum of the matrix and, column by column, corresponding non-zero eigenvectors: A V = V diag(values).", "quantifier": "for all square matrices with real eigenvalues", "why_tests_cant": "Francis iteration with data-dependent deflation; tests use a few matrices.", "anchors": ["src/algebra/linear/matrix/eigen/native.rs", "src/algebra/linear/matrix/eigen/eigendec.rs"]}
{"id": "C77", "title": "Singular value decomposition", "statement": "householder_bidiag returns orthogonal U, V and upper bidiagonal B with U B V^T = A; dec_sv returns orthogonal U, V and diagonal non-negative S with U S V^T = A.", "quantifier": "for all m x n matrices", "why_tests_cant": "Accumulated reflections and rotations; the sweep has an unbounded loop.", "anchors": ["src/algebra/linear/matrix/matrix.rs"]}
{"id": "C78", "title": "Pseudo-inverse", "statement": "pinv returns the Moore-Penrose inverse of a matrix of full column rank, (A^T A)^-1 A^T.", "quantifier": "for all m x n matrices with m >= n of full rank", "why_tests_cant": "Depends on QR, transposition and two substitutions for every shape.", "anchors": ["src/algebra/linear/matrix/matrix.rs"]}
{"id": "C79", "title": "Gauss-Newton minimiser", "statement": "Each iteration subtracts the solution of the normal equations J^T J d = J^T f(x), i.e. minimises the linearised residual; for a linear least-squares problem one iteration reaches the global minimum from any start.", "quantifier": "for all residual functions with Jacobian of full column rank, all starts", "why_tests_cant": "A continuum of functions and starts.", "anchors": ["src/optimization/gaussnewton.rs"]}
{"id": "C80", "title": "Householder reflector of a vector", "statement": "reflector returns a unit vector v such that I - 2 v v^T maps the vector to a multiple of the first unit vector.", "quantifier": "for all non-zero vectors", "why_tests_cant": "The normalisation and the sign of zero.", "anchors": ["src/algebra/linear/vector/vector.rs"]}
{"id": "C81", "title": "compare_neighbourhood compares every entry", "statement": "compare_neighbourhood(a, b, eps) is true iff the shapes agree and |a_i - b_i| <= eps for every entry.", "quantifier": "for all row and column vectors", "why_tests_cant": "Row vectors take a different branch.", "anchors": ["src/algebra/linear/vector/vector.rs"]}
{"id": "C82", "title": "Conversions between number types", "statement": "cast preserves every value the target can represent; integers wrap modulo 2^bits, floats are truncated and saturated, integers of more than p bits are rounded to the nearest float; complex conversions keep reals and reject (or keep) imaginary parts.", "quantifier": "for all pairs of types and values", "why_tests_cant": "All values of all widths.", "anchors": ["src/algebra/abstr/cast.rs", "src/num/primitives/mod.rs", "src/num/complex.rs", "src/num/bound.rs"]}
{"id": "C83", "title": "Signs, extrema and orderings of numbers", "statement": "sign(x) |x| = x, abs panics only on overflow, operate is associative and commutative, min and max are the order's, and partial_cmp agrees with equality.", "quantifier": "for all machine integers, reals and complex numbers", "why_tests_cant": "Boundary values such as the least integer.", "anchors": ["src/algebra/abstr/sign.rs", "src/algebra/abstr/magma.rs", "src/algebra/abstr/real.rs", "src/num/complex.rs"]}
{"id": "C84", "title": "Example differential equations", "statement": "The Euler (rigid body) and Van der Pol problems compute the documented vector fields, both forms of the Euler problem agree, and jacobian is the derivative of func; the force-free rigid body conserves energy and angular momentum.", "quantifier": "for all states, times and moments of inertia", "why_tests_cant": "Derivatives at every point.", "anchors": ["src/analysis/differential_equation/ordinary/problem.rs"]}
{"id": "C85", "title": "Random variates", "statement": "Fed with independent uniform numbers, random of the normal and exponential distributions terminates almost surely and its value has exactly the given distribution; random_sequence returns the requested number of values.", "quantifier": "for all parameters and all measurable sets of values", "why_tests_cant": "A statement about an infinite product measure; tests can only sample.", "anchors": ["src/statistics/distrib/normal.rs", "src/statistics/distrib/exponential.rs", "src/statistics/distrib/distrib.rs"]}
{"id": "C86", "title": "The fixed-step solver converges with the order of its method", "statement": "With a fixed-step Runge-Kutta method whose order() is p, a right-hand side that is p times continuously differentiable along the exact solution and a small step size h, every state returned by solve is within C h^p of the exact solution at its time, with one constant C for all step sizes and times.", "quantifier": "for all methods, smooth right-hand sides, compact time spans and small step sizes", "why_tests_cant": "A limit statement over all step sizes and right-hand sides.", "anchors": ["src/analysis/differential_equation/ordinary/fixed_stepper.rs: solve", "src/analysis/differential_equation/ordinary/butcher.rs: do_step"]}
{"id": "C87", "title": "The Adams-Bashforth solver converges with order k", "statement": "With AdamsBashforth(k), a smooth right-hand side and a small step size h, solve terminates and every returned state is within C h^k of the exact solution at its time, with one constant C for all step sizes and times.", "quantifier": "for all k, smooth right-hand sides, compact time spans and small step sizes", "why_tests_cant": "A limit statement; the starting values limit the order.", "anchors": ["src/analysis/differential_equation/ordinary/adamsbashforth.rs: solve"]}
{"id": "C88", "title": "Rounding errors of products, sums and polynomial values", "statement": "In floating-point arithmetic with unit roundoff u, every entry of a matrix product, a matrix-vector product and a dot product of inner length n differs from the exact value by at most ((1+u)^n - 1) times the sum of the absolute products; Horner evaluation, sums and means have the corresponding bounds; products of integer matrices below 2^53 are exact; the mean lies between the smallest and the largest observation.", "quantifier": "for all rounding rules with relative error u (in particular f32 and f64), all sizes and all inputs", "why_tests_cant": "Cancellation can only be found with special inputs; a bound must hold for all of them.", "anchors": ["src/algebra/linear/matrix/mul/native.rs", "src/algebra/linear/vector/vector.rs: dotp", "src/algebra/abstr/polynomial.rs: eval", "src/statistics/distrib/normal.rs"]}
{"id": "C89", "title": "Triangular substitution is backward stable", "statement": "In floating-point arithmetic the computed solution of a triangular system solves exactly a triangular system whose coefficients differ from the given ones by a relative error of at most (1+u)^n - 1 (two more roundings for matrix right-hand sides, where rows are multiplied by a reciprocal).", "quantifier": "for all rounding rules, sizes, triangular matrices with nonzero diagonal and right-hand sides", "why_tests_cant": "Backward errors are not visible in the result.", "anchors": ["src/algebra/linear/matrix/substitute/native.rs"]}
{"id": "C90", "title": "LU decomposition, solve and inv with rounding", "statement": "In floating-point arithmetic L U differs from the row-permuted matrix by at most ((1+u)^n - 1) |L| |U| entry by entry, and the result of solve (or a column of inv) solves exactly a system perturbed by a multiple of u |L| |U|; solve is backward stable (|L| <= 1) and a singular matrix is recognised.", "quantifier": "for all rounding rules, sizes and matrices", "why_tests_cant": "Ill-conditioned and badly scaled inputs are needed, and the backward error is not visible.", "anchors": ["src/algebra/linear/matrix/lu/native.rs", "src/algebra/linear/matrix/solve/native.rs", "src/algebra/linear/matrix/inverse/native.rs"]}
{"id": "C91", "title": "Times of the fixed-step solver with rounding", "statement": "In floating-point arithmetic with unit roundoff u, solve takes the number of steps the rounded quotient says, the k-th time is min(t_0 + k h, t_1) up to 8 k u (|t_0| + |t_1|), the first time is t_0, the last is t_1 and the times increase strictly.", "quantifier": "for all rounding rules (in particular f64), time spans, step sizes and methods", "why_tests_cant": "Which step sizes lose or repeat the last point depends on single bits.", "anchors": ["src/analysis/differential_equation/ordinary/fixed_stepper.rs: solve"]}
{"id": "C92", "title": "Accuracy of the fixed-step solver with rounding", "statement": "In floating-point arithmetic with unit roundoff u, with a method of order p, coefficients stored with rounding and a right-hand side evaluated with errors of at most eps, every state returned by solve is within C (h^p + u/h + eps) of the exact solution, with one constant for all step sizes and all arithmetics.", "quantifier": "for all rounding rules, methods, smooth right-hand sides, compact time spans and small step sizes", "why_tests_cant": "Rounding and truncation errors cannot be separated by a test, and smaller steps make rounding worse.", "anchors": ["src/analysis/differential_equation/ordinary/fixed_stepper.rs: solve", "src/analysis/differential_equation/ordinary/butcher.rs: do_step"]}
{"id": "C93", "title": "Arithmetic and substitution of the BLAS backend", "statement": "With the feature lapack, +, -, scalar * and * of matrices are those of linear algebra (for all shapes that match, including empty ones), other shapes panic, and forward and backward substitution solve the triangular systems, for vectors and matrices.", "quantifier": "for all BLAS implementations that do what is documented, all fields, sizes and entries", "why_tests_cant": "The feature is never built by default, and leading dimensions only matter for unusual shapes.", "anchors": ["src/algebra/linear/matrix/add/lapack.rs", "src/algebra/linear/matrix/sub/lapack.rs", "src/algebra/linear/matrix/mul/lapack.rs", "src/algebra/linear/matrix/substitute/lapack.rs"]}
{"id": "C94", "title": "LU decomposition, determinant, solve and inverse of the LAPACK backend", "statement": "With the feature lapack, dec_lu returns a permutation matrix, a unit lower and an upper triangular matrix with P A = L U for regular matrices and Err for singular ones; det is the determinant; inv returns the inverse or Err for singular matrices; solve returns the solution for vectors and matrices of every width, or Err for singular matrices.", "quantifier": "for all LAPACK implementations that do what is documented, all fields, sizes and matrices", "why_tests_cant": "Wrong leading dimensions, unchecked info values and permutation conventions only show for special shapes and matrices.", "anchors": ["src/algebra/linear/matrix/lu/lapack.rs", "src/algebra/linear/matrix/inverse/lapack.rs", "src/algebra/linear/matrix/solve/lapack.rs", "src/algebra/linear/matrix/matrix.rs: det"]}
{"id": "C95", "title": "Cholesky, QR and Hessenberg decompositions of the LAPACK backend", "statement": "With the feature lapack, dec_cholesky returns a lower triangular L with positive diagonal and L L^T = A for symmetric positive definite matrices and Err for the others; dec_qr returns Q with orthonormal columns and upper triangular R with Q R = A whenever there are at least as many rows as columns; dec_hessenberg returns orthogonal Q and upper Hessenberg H with Q H Q^T = A.", "quantifier": "for all LAPACK implementations that do what is documented, all sizes and matrices", "why_tests_cant": "All matrices of all shapes; the stored reflectors must be unpacked correctly.", "anchors": ["src/algebra/linear/matrix/cholesky/lapack.rs", "src/algebra/linear/matrix/qr/lapack.rs", "src/algebra/linear/matrix/hessenberg/lapack.rs"]}
{"id": "C96", "title": "Eigenvalues and eigenvectors of the LAPACK backend", "statement": "With the feature lapack, dec_eigen of a square matrix returns its eigenvalues with multiplicities, and the columns of the second component are eigenvectors to them.", "quantifier": "for all LAPACK implementations that do what is documented, all sizes and matrices", "why_tests_cant": "Symmetric test matrices do not show a transposition, and real spectra do not show dropped imaginary parts.", "anchors": ["src/algebra/linear/matrix/eigen/lapack.rs"]}
{"id": "C97", "title": "Newton-Raphson converges quadratically to a root", "statement": "If the Jacobian at every point near a root is invertible and Lipschitz continuous, NewtonRaphson.find_root started close enough to the root returns Ok with a point that differs from the root by less than a fixed multiple of the tolerance, provided iters allows the error r/2^(2^k - 1) to fall below the tolerance.", "quantifier": "for all dimensions, smooth systems, tolerances and start points near a root", "why_tests_cant": "Convergence has to hold for every function; a handful of systems does not show a pivot that is picked by value.", "anchors": ["src/analysis/newton_raphson.rs", "src/algebra/linear/matrix/lu/native.rs"]}
{"id": "C98", "title": "The implicit Euler solver converges with order one", "statement": "For a right-hand side with Lipschitz continuous Jacobian and a twice differentiable solution, ImplicitEuler.solve returns and all computed states differ from the solution by at most a constant times h (plus the tolerance of the root finder per step).", "quantifier": "for all dimensions, initial value problems and small enough step sizes", "why_tests_cant": "An order statement quantifies over all step sizes and problems.", "anchors": ["src/analysis/differential_equation/ordinary/implicit_euler.rs", "src/analysis/differential_equation/ordinary/fixed_stepper.rs"]}
{"id": "C99", "title": "Gradient descent converges with the known rates", "statement": "If the gradient of the objective is Lipschitz continuous with constant L, Gradient.minimize with 0 < sigma < 1 returns once the line search may halve the step below 2(1-sigma)/L; for a mu-strongly convex objective the distance to the minimum value is multiplied by at most 1 - 2 mu sigma min(1,(1-sigma)/L) per iteration, for a convex objective it is at most of order 1/k.", "quantifier": "for all dimensions, objectives, start points, sigma in (0,1) and iteration counts", "why_tests_cant": "A rate of convergence quantifies over all functions and iteration counts.", "anchors": ["src/optimization/gradient.rs"]}
{"id": "C100", "title": "Newton's method for minimisation converges", "statement": "For a strongly convex objective with Lipschitz continuous gradient Newton.minimize converges linearly from every start point; near the minimum, with Lipschitz continuous Hessian and sigma < 1/2, the full step is accepted and the error after k iterations is at most r/2^(2^k - 1).", "quantifier": "for all dimensions, strongly convex objectives and start points", "why_tests_cant": "A rate of convergence quantifies over all functions; the tests use Hessians on which the pivoting happens to work.", "anchors": ["src/optimization/newton.rs", "src/algebra/linear/matrix/lu/native.rs"]}
{"id": "C101", "title": "The p-values of the tests are tail probabilities", "statement": "For samples of counts in m categories the p-value of the chi-square test and of the G-test is the probability that a chi-square variable with m-1 degrees of freedom exceeds the statistic, up to 1e-11, and p_value always returns; the p-value of Welch's test is twice the tail of the t distribution with Welch's degrees of freedom beyond |t|.", "quantifier": "for all samples of positive counts (chi-square, G) and all samples with positive variance (Welch)", "why_tests_cant": "Tests compare single p-values with printed tables; the tail has to be right for every statistic and every number of degrees of freedom.", "anchors": ["src/statistics/test/chisquare.rs", "src/statistics/test/g.rs", "src/statistics/test/t.rs"]}
{"id": "C102", "title": "Cholesky decomposition with rounding", "statement": "In floating-point arithmetic with unit roundoff u the computed L satisfies L L^T = A + E with |E| <= ((1+u)^(n+2) - 1) |L| |L|^T entry by entry, hence |E_ij| is at most of order u sqrt(a_ii a_jj); every positive definite matrix is decomposed.", "quantifier": "for all rounding rules, sizes and symmetric matrices", "why_tests_cant": "The backward error is not visible in the result, and matrices near the border of definiteness are needed.", "anchors": ["src/algebra/linear/matrix/cholesky/native.rs"]}
{"id": "C103", "title": "Complex arithmetic and polynomial products with rounding", "statement": "In floating-point arithmetic with unit roundoff u, sums, products and quotients of complex numbers have a relative error (in absolute value) of at most u, sqrt(2) ((1+u)^2 - 1) and sqrt(2) ((1+u)^5 - 1); division panics exactly for the divisor 0; every coefficient of a product of polynomials is accurate up to ((1+u)^n - 1) times the sum of the absolute values of its terms.", "quantifier": "for all rounding rules, complex numbers and polynomials", "why_tests_cant": "Cancellation and underflow only show for special operands.", "anchors": ["src/num/complex.rs", "src/algebra/abstr/polynomial.rs"]}
{"id": "C104", "title": "The text of a matrix, polynomial or complex number determines it", "statement": "Display prints the rows of a matrix, the terms of a polynomial in ascending order and the two parts of a complex number so that different values have different texts, provided that the texts of the numbers are different, not empty and free of separators.", "quantifier": "for all matrices, vectors, polynomials and complex numbers", "why_tests_cant": "Injectivity compares the texts of all pairs of values; a printed sample shows none of the values that collide.", "anchors": ["src/algebra/linear/matrix/matrix.rs", "src/algebra/abstr/polynomial.rs", "src/num/complex.rs", "src/algebra/linear/vector/vector.rs"]}
{"id": "C105", "title": "The solvers are stable on decaying and oscillating equations", "statement": "On x' = L x a step of an explicit method of order p multiplies the state by the Taylor polynomial of degree p of exp(h L); the computed solutions of x' = -mu x do not grow; implicit Euler does not increase the distance of two solutions of a dissipative equation; the energy of an oscillation does not grow.", "quantifier": "for all methods, step sizes, linear maps and start values", "why_tests_cant": "Stability is a statement about all step sizes and all numbers of steps; the tests use short time spans and small steps.", "anchors": ["src/analysis/differential_equation/ordinary/implicit_euler.rs", "src/analysis/differential_equation/ordinary/fixed_stepper.rs", "src/analysis/differential_equation/ordinary/rungekutta4.rs"]}
{"id": "C106", "title": "The adaptive solver returns, and how accurate it is", "statement": "The adaptive solver returns Ok or Err after finitely many accepted and rejected steps for every continuous right-hand side; its result is accurate up to C h^p for a method of order p, where h bounds the accepted steps, and the tolerances bound the error.", "quantifier": "for all embedded methods, dimensions, continuous right-hand sides and settings of the controller", "why_tests_cant": "A rejected step is not counted by n_max, so a missing bound shows as a test that hangs only for some right-hand side; accuracy for all right-hand sides needs a proof.", "anchors": ["src/analysis/differential_equation/ordinary/adaptive_stepper.rs"]}
{"id": "C107", "title": "QR decomposition with rounding", "statement": "In floating-point arithmetic with unit roundoff u, dec_qr returns for every m x n matrix with m >= n; with eps = (1 + sqrt(2) ((1+u)^5 - 1))^(n m) - 1 (at most 16 n m u) there is an exactly orthogonal W with R = W^T A up to eps times the length of each column and Q = W up to eps in each row; Q R reproduces A up to eps + sqrt(m) eps (1 + eps) columnwise, and R is upper triangular.", "quantifier": "for all rounding rules with u < 1, sizes and matrices", "why_tests_cant": "Loss of orthogonality and the growth of errors over many rotations do not show in small examples compared with a tolerance.", "anchors": ["src/algebra/linear/matrix/qr/native.rs"]}
{"id": "C108", "title": "Adams-Bashforth and BDF with rounding: times and termination", "statement": "In floating-point arithmetic with unit roundoff u <= 1/8 and S = |t0| + |t1|, AdamsBashforth::solve and BDF::solve return whenever the step size is at least 4 u S and 8 u S <= 1e-10, after less than 2 (t1 - t0) / h + 1 steps (or k - 1); the times are computed as t + min(h, t1 - t), differ from the exact grid by at most 8 j u S, and the last one from t1 by at most 1.5e-10; each state is the result of the step function on the returned history. Without a condition on the step size the solvers should return, too.", "quantifier": "for all rounding rules with u <= 1/8, step functions, orders, step sizes and time spans", "why_tests_cant": "A loop that ends when |t - t_end| <= 1e-10 can run forever for large times; tests use the time span [0, 2] and small numbers of steps.", "anchors": ["src/analysis/differential_equation/ordinary/adamsbashforth.rs", "src/analysis/differential_equation/ordinary/bdf.rs"]}
{"id": "C109", "title": "Overflow, underflow, infinities and NaN", "statement": "With the bounded exponents of f32 and f64: matrix products, sums and complex products are finite and have the error bounds of the unbounded format as long as no product underflows and the sums of the absolute values stay below the largest number; NaN, and an infinity times zero, propagate to the entries of a matrix product and to the mean. z / z = 1 for nonzero finite complex z, the mean of finite numbers is finite, and dec_qr returns an orthogonal Q and an upper triangular R with Q R = A for finite matrices.", "quantifier": "for all formats with p >= 1 bits, sizes and entries in range; for all entries above 2^512 or below 2^-538 in the counterexamples", "why_tests_cant": "The tests only use numbers of moderate size.", "anchors": ["src/algebra/linear/matrix/qr/native.rs", "src/num/complex.rs", "src/algebra/linear/matrix/mul/native.rs", "src/statistics/distrib/normal.rs"]}
{"id": "C110", "title": "NaN and the loops that wait for a comparison", "statement": "On f32 and f64 with NaN and infinities every loop ends: gamma_lr and beta_inc_reg return NaN for NaN arguments and gamma_lr(a, infinity) = 1; the adaptive solver returns (a solution or an error) when the right-hand side is NaN, and for all tolerances that its setters accept; the line search of gradient descent ends after at most e + p - 2 halvings (1075 for f64) for every objective that is not NaN and has a finite gradient at the current point, and stops on NaN.", "quantifier": "for all formats with p >= 1 and e >= 2, all arguments, tableaus, right-hand sides, objectives and numbers of rounds", "why_tests_cant": "A test for a loop that never ends does not end either; the tests use no NaN and no infinities.", "anchors": ["src/special/gamma.rs", "src/special/beta.rs", "src/analysis/differential_equation/ordinary/adaptive_stepper.rs", "src/optimization/gradient.rs"]}
{"id": "C111", "title": "Argument checks with NaN and infinities", "statement": "The constructors of the distributions, of the solvers and of Gradient accept exactly the documented range of their parameters in the order of IEEE 754, and no NaN. A fixed step size solver returns a solution from the start to the end of the time interval for each step size its constructor accepts; the multistep solvers make no step larger than the step size; argmax and argmin return the index of a largest and smallest entry among the entries that are not NaN.", "quantifier": "for all formats and all values including infinities and NaN", "why_tests_cant": "The tests call the constructors with one or two invalid numbers, never with NaN.", "anchors": ["src/statistics/distrib/normal.rs", "src/statistics/distrib/bernoulli.rs", "src/statistics/distrib/uniform.rs", "src/analysis/differential_equation/ordinary/fixed_stepper.rs", "src/optimization/gradient.rs", "src/algebra/linear/vector/vector.rs"]}
{"id": "C112", "title": "Accuracy of Adams-Bashforth and BDF with rounding", "statement": "With rounded arithmetic, a right-hand side and an initial value known up to eps, the multistep solvers return, their last time is the end of the interval up to 1.5e-10, and every returned state agrees with the solution at the returned time up to C (h^k + u/h + eps), where u is the unit roundoff.", "quantifier": "for all step counts (1 to 5, or 1 to 6), roundings, step sizes h below a bound, right-hand sides that are smooth near the solution, dimensions and numbers of steps", "why_tests_cant": "The tests compare one equation and one step size with a loose tolerance.", "anchors": ["src/analysis/differential_equation/ordinary/adamsbashforth.rs", "src/analysis/differential_equation/ordinary/bdf.rs"]}
{"id": "C113", "title": "Sample variance and chi-square statistic with rounding", "statement": "calc_variance returns the sum of the squared distances to the given mean divided by n - 1 with a relative error of at most (1+u)^(n+6) - 1; Normal::from_data returns for all samples of at least two numbers that are not all equal, with a variance that exceeds the exact one only by the square of the error of the mean, and rejects constant samples. The chi-square test returns the exact statistic up to relative errors of its expectations and of the result of about 4m units of roundoff.", "quantifier": "for all roundings with u < 1, all samples and all counts without an empty class", "why_tests_cant": "The tests use a few samples whose values are all exactly representable.", "anchors": ["src/statistics/distrib/normal.rs", "src/statistics/test/chisquare.rs"]}
{"id": "C114", "title": "Accuracy of the gamma function with rounding, and its overflow", "statement": "For positive arguments gamma returns a positive number whose logarithm differs from log Gamma(z) by at most 2.6e-12 + 5 phi + (1200 + 7 z + 2 z log(z + 6.5)) u, where u is the unit roundoff and phi the relative error of the library functions; in f64 the relative error is at most 3.1e-12 up to z = 142. As long as Gamma(z) fits into the format, gamma returns a finite number.", "quantifier": "for all roundings with u <= 1e-4 and all positive arguments; for the overflow, all f64 arguments from 143 to 171 and all mirrored negative ones", "why_tests_cant": "The tests check a few arguments below 10 and never one near the overflow.", "anchors": ["src/special/gamma.rs"]}
{"id": "C115", "title": "Accuracy of beta and of the densities built on gamma with rounding, and their overflow", "statement": "beta and the densities of the t, chi-square, gamma and beta distribution return the true value with a relative error of about 1e-11 plus a multiple of u that grows with the parameters like s log s. They return finite numbers whenever the true value fits into the format.", "quantifier": "for all roundings with u <= 1e-4, all positive parameters and arguments; for the overflow, all f64 parameters in the stated ranges and all arguments", "why_tests_cant": "The tests use parameters below 10, where neither cancellation nor overflow occurs.", "anchors": ["src/special/beta.rs", "src/statistics/distrib/t.rs", "src/statistics/distrib/chisquare.rs", "src/statistics/distrib/gamma.rs", "src/statistics/distrib/beta.rs"]}
{"id": "C116", "title": "Householder reflectors and the Hessenberg decomposition with rounding", "statement": "Matrix::householder returns a matrix whose distance from an exact reflection is at most a multiple of the unit roundoff u that is linear in the dimension. dec_hessenberg returns q and h for which exactly orthogonal Q near q and Q^T A Q near h exist, with a distance of at most 100 n^3 u relative to the norm of A; the product q h q^T differs from A accordingly. h is an upper Hessenberg matrix.", "quantifier": "for all roundings, all square roots accurate to u, all dimensions with the products n u small, and all matrices", "why_tests_cant": "The tests use one 3 x 3 matrix of integers.", "anchors": ["src/algebra/linear/matrix/matrix.rs", "src/algebra/linear/matrix/hessenberg/native.rs"]}
{"id": "C117", "title": "Bidiagonalization and singular value decomposition with rounding", "statement": "householder_bidiag and dec_sv return for every square matrix that is not within 100 n^3 u (relative to its norm) of a singular one. householder_bidiag returns an exactly bidiagonal b within that distance of U^T A V for exactly orthogonal U and V near the computed ones. dec_sv returns a diagonal, non-negative s whose diagonal is within 30000 n^3 u of the diagonal of U^T A V, with U and V near the computed ones, and U s V^T is close to A.", "quantifier": "for all roundings with unit roundoff u, all square roots accurate to u, all dimensions with 30000 n^4 u <= 1, and all matrices", "why_tests_cant": "The tests compare the product of the factors of one or two small matrices with a tolerance.", "anchors": ["src/algebra/linear/matrix/matrix.rs"]}
{"id": "C118", "title": "Elementary distributions with rounding", "statement": "The densities of the exponential, uniform and normal distribution, the probabilities and the distribution function of the binomial and the probabilities of the Poisson distribution have a small relative error that grows with the size of the exponent only. The distribution function and the quantile of the exponential distribution have a small error relative to 1 and 1/lambda. The distribution function of the uniform distribution is a probability and its quantiles lie in the interval.", "quantifier": "for all roundings with unit roundoff u, all elementary functions with relative error phi, all parameters and arguments (n, x <= 20 for the discrete ones)", "why_tests_cant": "The tests compare a handful of values with a tolerance of 1e-6 or so.", "anchors": ["src/statistics/distrib/exponential.rs", "src/statistics/distrib/uniform.rs", "src/statistics/distrib/normal.rs", "src/statistics/distrib/poisson.rs", "src/statistics/distrib/binomial.rs"]}
{"id": "C119", "title": "Newton-Raphson with rounding", "statement": "With rounding, a step of the Newton-Raphson iteration is a step of an exact Newton iteration with a relative error of the increment. Near a regular root the error is at least halved in every step down to a level given by the accuracy of the function values. find_root returns Ok within the given number of iterations when the tolerance is above this level, and the returned point is within the tolerance and this level of the root.", "quantifier": "for all roundings with unit roundoff u, all systems with a regular root and all starts near the root", "why_tests_cant": "The tests solve two small systems with a generous tolerance.", "anchors": ["src/analysis/newton_raphson.rs"]}
{"id": "C120", "title": "Minimisers with rounding", "statement": "With rounding, the point that the minimiser returns has a computed objective that is not larger than the computed objective at the start.", "quantifier": "for all monotone roundings (in particular f32 and f64), all objectives and derivatives in whatever way they are computed, all parameters and numbers of iterations", "why_tests_cant": "The tests check that the minimum of a few simple functions is found.", "anchors": ["src/optimization/gradient.rs", "src/optimization/newton.rs", "src/optimization/levenbergmarquardt.rs"]}
{"id": "C121", "title": "Incomplete gamma function and error function with rounding", "statement": "With rounding, ln_gamma of a positive argument differs from the logarithm of the gamma function by an explicit multiple of the unit roundoff, which grows like x log x. gamma_lr(a, x) with x <= 1 or x <= a agrees with the regularized lower incomplete gamma function up to a relative error given by the number of terms and the error of the exponent a ln x - x - ln Gamma(a), and for x <= 1 it returns after at most 18 terms. With 53 bits, erf(x) and erfc(x) have an absolute error of at most 6e-12 for 1e-150 <= |x| <= 1.", "quantifier": "for all roundings with unit roundoff u (no overflow or underflow), all library functions with a stated relative error, all arguments in the stated ranges", "why_tests_cant": "The tests compare a few values with a table, with a tolerance.", "anchors": ["src/special/gamma.rs", "src/special/error.rs"]}
{"id": "C122", "title": "Test statistics with rounding", "statement": "With rounding, the one-sample t statistic, the pooled two-sample t statistic, Welch's t statistic with its degrees of freedom, and the G statistic differ from the exact statistics of the same data by explicit multiples of the unit roundoff, where the error of a difference of means is measured against the means of the absolute values.", "quantifier": "for all roundings with unit roundoff u (no overflow or underflow), all samples for which the exact statistic is defined and the computed variances are not zero, all library functions with a stated relative error", "why_tests_cant": "The tests compare the statistics of a few samples with a table.", "anchors": ["src/statistics/test/t.rs", "src/statistics/test/g.rs", "src/statistics/distrib/normal.rs"]}
{"id": "C123", "title": "Raised cosine, normal and log-normal distributions with rounding", "statement": "With rounding, pdf and cdf of the raised cosine distribution, cdf of the normal distribution, and pdf and cdf of the log-normal distribution differ from the exact functions by explicit multiples of the unit roundoff plus the error of erf; with 53 bits the error of the normal cdf is at most 4e-12 for arguments within sqrt 2 standard deviations. All values of a cdf are at least 0.", "quantifier": "for all roundings with unit roundoff u (no overflow or underflow), all parameters and arguments in the stated ranges, all library functions with a stated error", "why_tests_cant": "The tests compare a few values with a table, with a tolerance.", "anchors": ["src/statistics/distrib/raisedcosine.rs", "src/statistics/distrib/normal.rs", "src/statistics/distrib/log_normal.rs"]}
{"id": "C124", "title": "Normal and log-normal quantiles with rounding", "statement": "With rounding, quantile of the normal distribution returns m + sqrt(v) z up to rounding, where the mass of the standard normal density below z is p up to 7e-13 + 150 (u + phi), with unit roundoff u and error phi of logarithm and root; in double precision up to 1e-12. The logarithm of the quantile of the log-normal distribution is mu + sigma z up to rounding, with such a z.", "quantifier": "for all roundings with unit roundoff u at most 1e-5 (no overflow or underflow), all parameters, all probabilities p with p and 1-p at least 2^-1022, all library functions with relative error at most 1e-5", "why_tests_cant": "The tests compare a few quantiles with a table, with a tolerance.", "anchors": ["src/statistics/distrib/normal.rs", "src/statistics/distrib/log_normal.rs"]}
{"id": "C125", "title": "Adaptive ODE solver with rounding", "statement": "With rounding, a result Ok of the adaptive solver consists of at most n_max accepted steps with computed error at most 1; the times start at t_start, never decrease, and the last one is t_stop; the states are those of the exact solution up to C (h^p + u/h + eps), where h bounds the distances of the times.", "quantifier": "for all monotone roundings with unit roundoff u (no overflow or underflow), all embedded tableaus stored with relative error 2u, all right-hand sides evaluated with error eps, all parameters of the step size control, all runs with at most S/h times", "why_tests_cant": "The tests compare a few solutions with the exact one, with a tolerance.", "anchors": ["src/analysis/differential_equation/ordinary/adaptive_stepper.rs", "src/analysis/differential_equation/ordinary/butcher.rs"]}
{"id": "C126", "title": "Digamma function and entropy of the gamma distribution with rounding", "statement": "With rounding, digamma(x) returns after at most nine rounds of its loop, and the result is the derivative of ln Gamma at x up to 9e-16 + (23/x + 80 + 4 ln(x+9)) u + (1 + 2 ln(x+9)) phi, with unit roundoff u and relative error phi of the logarithm. The entropy of the gamma distribution is minus the integral of f ln f for its density f, up to the errors of gamma and digamma and a relative error of a few u and phi in the terms of the sum.", "quantifier": "for all roundings with unit roundoff u at most 1e-3 (entropy: 1e-4; no overflow or underflow), all positive arguments, all positive parameters, all library functions with relative error phi at most 1/10", "why_tests_cant": "The tests compare one or two values with a table, with a tolerance.", "anchors": ["src/special/gamma.rs", "src/statistics/distrib/gamma.rs"]}
{"id": "C127", "title": "Polynomial division, roots, derivative and primitive with rounding", "statement": "With rounding, quotient c and remainder r of a polynomial division satisfy p = q c + r in every coefficient up to a multiple of u of the absolute values of the terms and the threshold of reduce_coef, and the remainder has a smaller degree than the divisor. The coefficients of from_root are those of the product of (x - r_m) up to ((1+u)^(3n) - 1) times those of the product of (x + |r_m|). The coefficients of derivative and primitive have a relative error of (1+u)^2 - 1.", "quantifier": "for all roundings (no overflow or underflow), all polynomials, all divisors with leading coefficient not zero, all lists of roots", "why_tests_cant": "The tests use small integers, for which the arithmetic is exact.", "anchors": ["src/algebra/abstr/polynomial.rs"]}
{"id": "C128", "title": "Functions of complex numbers with rounding", "statement": "With rounding, exp and abs of a complex number have a relative error of a few u and phi, with unit roundoff u and relative error phi of the library functions of the real parts. The real part of ln z is ln |z| up to phi |ln |z|| + (1+phi)(phi + u + u^2/2) and the imaginary part is the argument. The errors of sin, cos, sinh and cosh are at most a few u and phi times the absolute value of the result.", "quantifier": "for all roundings (no overflow or underflow), all complex numbers (ln: not 0), all library functions with relative error phi", "why_tests_cant": "The tests compare a few values with a table, with a tolerance, and none is near a zero of the function.", "anchors": ["src/num/complex.rs"]}
{"id": "C129", "title": "Implicit Euler with rounding", "statement": "With rounding, one step of the implicit Euler method solves its equation up to three times the tolerance of the root finder, also in f32. For one equation, solve returns, its last time is the end of the interval up to 8 (N+1) u S, and every state is off by at most exp(2 L h N) (e0 + N (Q (h + 4 u S)^2 + 4 G u S + 3 tol)), with the number N of steps, S = |t0| + |t1|, the bounds G of the right-hand side, L of its derivative and Q of the second derivative of the solution.", "quantifier": "for all roundings with unit roundoff u at most 1e-3 (no overflow or underflow), all scalar equations with a derivative that is Lipschitz in a tube around the solution, all right-hand sides computed up to an error eps, all step sizes small against L and G", "why_tests_cant": "The tests run two f64 examples with one step size and compare the last value with a tolerance.", "anchors": ["src/analysis/differential_equation/ordinary/implicit_euler.rs", "src/analysis/newton_raphson.rs", "src/analysis/differential_equation/ordinary/fixed_stepper.rs"]}
{"id": "C130", "title": "Conjugate gradients with rounding", "statement": "With rounding, the vector r that the conjugate gradient method updates as its residual differs from the true residual b - A x of the returned x by at most the error of the first residual plus 6 ((1+u)^(n+1) - 1) |A| X + u rho per iteration, where X and rho bound the iterates and the computed residuals. If the method stops because r is small, the true residual is at most twice the tolerance plus that drift, and the result is off by at most the norm of the inverse times that.", "quantifier": "for all roundings with unit roundoff u at most 1/8 (no overflow or underflow), all matrices A, all right-hand sides, all starting points, tolerances and numbers of iterations", "why_tests_cant": "The tests solve one 2 by 2 system in f64 and compare with a tolerance; they neither look at the true residual nor start at the solution.", "anchors": ["src/optimization/conjugategradient.rs"]}
{"id": "C131", "title": "Gradient descent with rounding makes progress and ends", "statement": "With rounding, in every iteration of Gradient.minimize sigma alpha |g|^2, up to the factor (1-u)^3 (2-(1+u)^n), is at most the decrease of the computed objective plus u |f|; hence some iterate among N has sigma alpha |g|^2 at most (f0 - B)/N + u F up to that factor, if the computed objective is at least B and at most F in absolute value. The line search ends, after a number of halvings that depends only on the sizes of x, g and f, since a step too short to change x and f is accepted; so does the line search of Newton.minimize.", "quantifier": "for all objectives and gradients, computed with whatever error, all roundings that are monotone (the search: absorbing, as binary rounding to nearest is proved to be; no overflow or underflow), all dimensions n with (1+u)^n <= 2, all sigma >= 0", "why_tests_cant": "The tests run one quadratic function in f64 and look only at the returned point; the loop has no bound, so that it ends for all functions cannot be tested.", "anchors": ["src/optimization/gradient.rs", "src/optimization/newton.rs"]}
{"id": "C132", "title": "Newton's method for minimisation with NaN, infinities, overflow and underflow", "statement": "In IEEE arithmetic the line search of Newton.minimize ends after at most e + p - 2 halvings (f64: 1075) for every finite direction, also if the objective, the slope or sigma are NaN or infinite; if the objective is NaN at x the full step is made at once. A solution of the linear system with a NaN is replaced by the negative gradient. One iteration returns, and if start, gradient and Hessian matrix are finite, so is the result.", "quantifier": "for all binary formats with p >= 1 bits and largest exponent e >= 2, all objectives, gradients, Hessian matrices and solvers, all values of sigma and rho", "why_tests_cant": "The tests minimise one smooth function in f64; no NaN, infinity or overflow occurs.", "anchors": ["src/optimization/newton.rs"]}
