{
 "claims": [
  {
   "property": "C01",
   "status": "proved",
   "theorems": [
    "Verif.C01_new",
    "Verif.C01_get",
    "Verif.C01_set"
   ],
   "note": "usize overflow of m*n not modelled"
  },
  {
   "property": "C02",
   "status": "proved",
   "theorems": [
    "Verif.C02_add",
    "Verif.C02_sub",
    "Verif.C02_panic",
    "Verif.C02_laws"
   ],
   "note": ""
  },
  {
   "property": "C03",
   "status": "proved",
   "theorems": [
    "Verif.C03_mul",
    "Verif.C03_panic",
    "Verif.C03_laws"
   ],
   "note": ""
  },
  {
   "property": "C04",
   "status": "proved",
   "theorems": [
    "Verif.C04_scalar",
    "Verif.C04_mul_div"
   ],
   "note": ""
  },
  {
   "property": "C05",
   "status": "partial",
   "theorems": [
    "Verif.C05_transpose_partial",
    "Verif.C05_twice_partial",
    "Verif.C05_shape_iff",
    "Verif.C05_transpose_violated"
   ],
   "note": "The in-place algorithm is wrong for every rectangular non-vector shape: C05_shape_iff characterises the shapes for which it is right; 0x0 panics."
  },
  {
   "property": "C06",
   "status": "partial",
   "theorems": [
    "Verif.C06_get",
    "Verif.C06_set",
    "Verif.C06_set_panic_partial",
    "Verif.C06_violated"
   ],
   "note": "Getters and setters proved; the setters check only one dimension of the vector (C06_violated)."
  },
  {
   "property": "C07",
   "status": "proved",
   "theorems": [
    "Verif.C07_get",
    "Verif.C07_get_panic",
    "Verif.C07_set",
    "Verif.C07_set_get"
   ],
   "note": ""
  },
  {
   "property": "C08",
   "status": "proved",
   "theorems": [
    "Verif.C08_swap",
    "Verif.C08_same"
   ],
   "note": ""
  },
  {
   "property": "C09",
   "status": "proved",
   "theorems": [
    "Verif.C09_trace",
    "Verif.C09_panic",
    "Verif.C09_laws"
   ],
   "note": ""
  },
  {
   "property": "C10",
   "status": "partial",
   "theorems": [
    "Verif.C10_det_dominant",
    "Verif.C10_det_formula",
    "Verif.C10_det_small",
    "Verif.C10_det_abs",
    "Verif.C10_det_partial",
    "Verif.C10_det_three_partial",
    "Verif.C10_det_nonsquare",
    "Verif.C10_det_violated_pivot",
    "Verif.C10_det_violated_sign",
    "Verif.C10_det_violated_spd"
   ],
   "note": "Exact for n<=2; for n>=3 right when no pivot is zero and the row permutation is a single cycle (always for n=3), in particular for column diagonally dominant matrices with positive diagonal and for M-matrices (C10_det_dominant); wrong otherwise (violation witnesses, one of them symmetric positive definite)."
  },
  {
   "property": "C11",
   "status": "partial",
   "theorems": [
    "Verif.C11_lu_dominant",
    "Verif.C11_lu_exact",
    "Verif.C11_lu_iff",
    "Verif.C11_lu_partial",
    "Verif.C11_lu_nonsquare",
    "Verif.C11_lu_violated"
   ],
   "note": "PA = LU + E with E given exactly by zero-pivot columns (C11_lu_exact), iff characterisation C11_lu_iff; right with P = 1 for column diagonally dominant matrices with positive diagonal and M-matrices (C11_lu_dominant); wrong on [[0,1],[-1,0]]."
  },
  {
   "property": "C12",
   "status": "partial",
   "theorems": [
    "Verif.C12_solve_dominant",
    "Verif.C12_solve_vector_partial",
    "Verif.C12_solve_matrix",
    "Verif.C12_solve_violated_regular",
    "Verif.C12_solve_violated_singular",
    "Verif.C12_solve_violated_spd"
   ],
   "note": "Matrix right-hand sides: any finite result is a solution. Vector right-hand sides: right when no pivot is zero, in particular for dominant matrices with positive diagonal and M-matrices (C12_solve_dominant), wrong results otherwise (witnesses: regular, singular, symmetric positive definite). No Err is ever produced."
  },
  {
   "property": "C13",
   "status": "partial",
   "theorems": [
    "Verif.C13_inv_dominant",
    "Verif.C13_inv_partial",
    "Verif.C13_inv_singular",
    "Verif.C13_inv_violated",
    "Verif.C13_inv_violated_spd"
   ],
   "note": "Any finite result is the two-sided inverse; it is found for dominant matrices with positive diagonal and M-matrices (C13_inv_dominant); an invertible matrix with zero pivot, even a positive definite one, gets none; Err is never produced."
  },
  {
   "property": "C14",
   "status": "proved",
   "theorems": [
    "Verif.C14_forward_vector",
    "Verif.C14_forward_matrix",
    "Verif.C14_backward_vector",
    "Verif.C14_backward_vector_zero_diag",
    "Verif.C14_backward_matrix"
   ],
   "note": ""
  },
  {
   "property": "C15",
   "status": "partial",
   "theorems": [
    "Verif.C15_qr_partial",
    "Verif.C15_qr_upper_partial",
    "Verif.C15_qr_wide",
    "Verif.C15_qr_violated",
    "Verif.C15_givens_pair",
    "Verif.C15_rot"
   ],
   "note": "Q R = A and Q orthogonal always; R upper triangular in every column with nonzero diagonal entry; fails when a diagonal entry is zero (rotation skipped)."
  },
  {
   "property": "C16",
   "status": "partial",
   "theorems": [
    "Verif.C16_cholesky_pd",
    "Verif.C16_cholesky_partial",
    "Verif.C16_cholesky_lower",
    "Verif.C16_cholesky_indefinite",
    "Verif.C16_cholesky_violated"
   ],
   "note": "SPD case complete; symmetric non-PSD gives no factor; singular PSD with only the last pivot zero returns a factor (violation). Err is never produced: NaN results are none."
  },
  {
   "property": "C17",
   "status": "partial",
   "theorems": [
    "Verif.C17_householder_partial",
    "Verif.C17_householder_one",
    "Verif.C17_householder_range",
    "Verif.C17_householder_violated"
   ],
   "note": "Complete for nonzero tails; a zero tail returns the 1x1 identity (violation)."
  },
  {
   "property": "C18",
   "status": "partial",
   "theorems": [
    "Verif.C18_hessenberg_partial",
    "Verif.C18_hessenberg_violated",
    "Verif.C18_hessenberg_shape"
   ],
   "note": "Every returned decomposition is right; panics whenever a reflected column tail is zero (violation)."
  },
  {
   "property": "C19",
   "status": "partial",
   "theorems": [
    "Verif.C19_eq",
    "Verif.C19_approx_partial",
    "Verif.C19_approx_violated"
   ],
   "note": "== proved; abs_diff_eq/relative_eq compare only the first entry (C19_approx_violated)."
  },
  {
   "property": "C20",
   "status": "proved",
   "theorems": [
    "Verif.C20_rows",
    "Verif.C20_columns"
   ],
   "note": ""
  },
  {
   "property": "C21",
   "status": "partial",
   "theorems": [
    "Verif.C21_dotp",
    "Verif.C21_dotp_laws",
    "Verif.C21_dotp_panic",
    "Verif.C21_dyadp",
    "Verif.C21_dyadp_violated"
   ],
   "note": "dotp and dyadp values proved; dyadp does not reject row vectors (C21_dyadp_violated)."
  },
  {
   "property": "C22",
   "status": "partial",
   "theorems": [
    "Verif.C22_nonneg_partial",
    "Verif.C22_even_partial",
    "Verif.C22_eucl",
    "Verif.C22_eucl_norm",
    "Verif.C22_norm2",
    "Verif.C22_small",
    "Verif.C22_violated",
    "Verif.C22_violated_odd"
   ],
   "note": "2-norm complete; even p complete; nonnegative entries complete; no absolute value is taken otherwise (violations)."
  },
  {
   "property": "C23",
   "status": "proved",
   "theorems": [
    "Verif.C23_arg",
    "Verif.C23_empty"
   ],
   "note": ""
  },
  {
   "property": "C24",
   "status": "partial",
   "theorems": [
    "Verif.C24_get",
    "Verif.C24_get_panic",
    "Verif.C24_set_partial",
    "Verif.C24_set_panic",
    "Verif.C24_row_violated"
   ],
   "note": "get_slice proved for rows and columns; set_slice proved for columns, wrong for row vectors (C24_row_violated)."
  },
  {
   "property": "C25",
   "status": "proved",
   "theorems": [
    "Verif.C25_mulVec",
    "Verif.C25_vecMul",
    "Verif.C25_panic",
    "Verif.C25_assoc"
   ],
   "note": ""
  },
  {
   "property": "C26",
   "status": "proved",
   "theorems": [
    "Verif.C26_eval",
    "Verif.C26_eval_toPoly",
    "Verif.C26_from_coef"
   ],
   "note": ""
  },
  {
   "property": "C27",
   "status": "proved",
   "theorems": [
    "Verif.C27_add_coeff",
    "Verif.C27_add_eval",
    "Verif.C27_neg",
    "Verif.C27_add_laws",
    "Verif.C27_add_assoc"
   ],
   "note": ""
  },
  {
   "property": "C28",
   "status": "partial",
   "theorems": [
    "Verif.C28_sub_partial",
    "Verif.C28_sub_self",
    "Verif.C28_sub_iff",
    "Verif.C28_sub_violated"
   ],
   "note": "Right exactly when the subtrahend has no nonzero coefficient beyond the minuend's (C28_sub_iff); wrong otherwise (C28_sub_violated)."
  },
  {
   "property": "C29",
   "status": "proved",
   "theorems": [
    "Verif.C29_mul",
    "Verif.C29_mul_laws"
   ],
   "note": ""
  },
  {
   "property": "C30",
   "status": "partial",
   "theorems": [
    "Verif.C30_division_partial",
    "Verif.C30_division_exact",
    "Verif.C30_division_unique",
    "Verif.C30_violated"
   ],
   "note": "Exact for eps=0; for the code's eps>0 the identity holds up to remainder coefficients of size <= eps, and fails exactly (C30_violated)."
  },
  {
   "property": "C31",
   "status": "partial",
   "theorems": [
    "Verif.C31_differentiate_partial",
    "Verif.C31_differentiate_exact",
    "Verif.C31_integrate_partial",
    "Verif.C31_integrate_exact",
    "Verif.C31_violated"
   ],
   "note": "Exact for eps=0; for eps>0 up to dropped coefficients of size <= eps (C31_violated is the witness)."
  },
  {
   "property": "C32",
   "status": "proved",
   "theorems": [
    "Verif.C32_from_root",
    "Verif.C32_from_root_roots",
    "Verif.C32_from_root_empty"
   ],
   "note": ""
  },
  {
   "property": "C33",
   "status": "proved",
   "theorems": [
    "Verif.C33_arith",
    "Verif.C33_field",
    "Verif.C33_div",
    "Verif.C33_conj_abs"
   ],
   "note": ""
  },
  {
   "property": "C34",
   "status": "partial",
   "theorems": [
    "Verif.C34_exp",
    "Verif.C34_arg",
    "Verif.C34_ln",
    "Verif.C34_pow_partial",
    "Verif.C34_pow_violated"
   ],
   "note": "exp, ln and arg proved to be the complex functions; pow proved for every nonzero base; 0^w is a NaN for every w (C34_pow_violated)."
  },
  {
   "property": "C35",
   "status": "proved",
   "theorems": [
    "Verif.C35_sin_cos",
    "Verif.C35_real",
    "Verif.C35_tan",
    "Verif.C35_sec",
    "Verif.C35_csc",
    "Verif.C35_cot"
   ],
   "note": ""
  },
  {
   "property": "C36",
   "status": "partial",
   "theorems": [
    "Verif.C36_sinh_cosh",
    "Verif.C36_tanh_coth_sech",
    "Verif.C36_csch_violated"
   ],
   "note": "All but csch proved; csch has the wrong sign everywhere (C36_csch_violated)."
  },
  {
   "property": "C37",
   "status": "partial",
   "theorems": [
    "Verif.C37_arcsin_arccos_partial",
    "Verif.C37_arcsin_violated",
    "Verif.C37_arctan",
    "Verif.C37_arctan_range",
    "Verif.C37_arsinh_arcosh_partial",
    "Verif.C37_arsinh_violated",
    "Verif.C37_artanh_arcoth",
    "Verif.C37_arccot_arcsec_arccsc_partial",
    "Verif.C37_arccot_violated",
    "Verif.C37_arsech_arcsch_partial"
   ],
   "note": "Right inverses proved for every argument except isolated points: arcsin/arccos/arcosh at +-1, arsinh at +-i give NaN (violations), arccot(0) has no value."
  },
  {
   "property": "C38",
   "status": "partial",
   "theorems": [
    "Verif.C38_sec_csc",
    "Verif.C38_cot",
    "Verif.C38_arcsin_arccos",
    "Verif.C38_arctan",
    "Verif.C38_arctan2",
    "Verif.C38_arccot_partial",
    "Verif.C38_arccot_violated",
    "Verif.C38_arcsec_arccsc",
    "Verif.C38_hyperbolic",
    "Verif.C38_arsinh_arcosh",
    "Verif.C38_artanh_arcoth",
    "Verif.C38_arsech_arcsch"
   ],
   "note": "All functions proved except arccot at 0, which returns 0 (C38_arccot_violated). arcsec/arccsc/arcosh outside their domain give NaN, not a panic; both are none in the model."
  },
  {
   "property": "C39",
   "status": "partial",
   "theorems": [
    "Verif.C39_unsigned",
    "Verif.C39_signed_partial",
    "Verif.C39_signed_panic_iff",
    "Verif.C39_signed_violated",
    "Verif.C39_absdiff",
    "Verif.C39_absdiff_laws",
    "Verif.C39_relative",
    "Verif.C39_relative_laws",
    "Verif.C39_infinite"
   ],
   "note": "Unsigned and float cases proved; for signed integers it panics exactly when the difference is not representable (C39_signed_violated)."
  },
  {
   "property": "C40",
   "status": "proved",
   "theorems": [
    "Verif.Ode.C40_grid",
    "Verif.Ode.C40_fixed_solve",
    "Verif.Ode.C40_fixed_total",
    "Verif.Ode.C40_panics"
   ],
   "note": "Model stepper over an ordered field with exact floor; both FixedStepper and ImplicitFixedStepper. One extra do_step with h = 0 is computed and dropped."
  },
  {
   "property": "C41",
   "status": "partial",
   "theorems": [
    "Verif.Ode.C41_order_partial",
    "Verif.Ode.C41_ralston4_corrected",
    "Verif.Ode.C41_ralston4_violated",
    "Verif.Ode.C41_quadrature_partial",
    "Verif.Ode.C41_linear_partial"
   ],
   "note": "Order for all C^p right-hand sides via the tree order conditions (RKOrder). Ralston4 has a wrong third weight (3356 for 3346) and is not even consistent: C41_ralston4_violated; the corrected tableau has order 4."
  },
  {
   "property": "C42",
   "status": "partial",
   "theorems": [
    "Verif.Ode.C42_order_partial",
    "Verif.Ode.C42_cashKarp_swapped",
    "Verif.Ode.C42_cashKarp_violated"
   ],
   "note": "CashKarp45 has its weight rows exchanged: first result order 4, second order 5 (C42_cashKarp_swapped, C42_cashKarp_violated); the other four pairs are proved."
  },
  {
   "property": "C43",
   "status": "partial",
   "theorems": [
    "Verif.Ode.C43_factor",
    "Verif.Ode.C43_error_first",
    "Verif.Ode.C43_solve_partial",
    "Verif.Ode.C43_err",
    "Verif.Ode.C43_violated"
   ],
   "note": "The model uses fuel; that the loop terminates is C106. calc_error loops over the columns, so only the first component of a column vector is checked (C43_violated)."
  },
  {
   "property": "C44",
   "status": "proved",
   "theorems": [
    "Verif.Ode.C44_formula",
    "Verif.Ode.C44_exact",
    "Verif.Ode.C44_solve",
    "Verif.Ode.C44_total",
    "Verif.Ode.C44_new"
   ],
   "note": "Formulas, exactness for polynomials, times, termination. In the starting phase h may be 0 for short spans, which repeats t_stop."
  },
  {
   "property": "C45",
   "status": "partial",
   "theorems": [
    "Verif.Ode.C45_converges_partial",
    "Verif.Ode.C45_new",
    "Verif.Ode.C45_exact_partial",
    "Verif.Ode.C45_solve",
    "Verif.Ode.C45_bdf6_violated",
    "Verif.Ode.C45_formula_violated"
   ],
   "note": "The step formulas are those of Adams-Bashforth: exact for polynomial right-hand sides up to k = 5, but explicit (C45_formula_violated); step_s6 repeats step_s5 (C45_bdf6_violated)."
  },
  {
   "property": "C46",
   "status": "proved",
   "theorems": [
    "Verif.Ode.C46_root_iff",
    "Verif.Ode.C46_jacobian",
    "Verif.Ode.C46_step",
    "Verif.Ode.C46_linear"
   ],
   "note": "C46_step holds for every right-hand side (an Ok of the root finder excludes zero pivots). C46_linear, one step on x' = Mx, needs the linear solver to meet no zero pivot (see C12)."
  },
  {
   "property": "C47",
   "status": "partial",
   "theorems": [
    "Verif.C47_ok_iff",
    "Verif.C47_err_iff",
    "Verif.C47_residual",
    "Verif.C47_singular",
    "Verif.C47_affine_partial",
    "Verif.C47_affine_violated"
   ],
   "note": "Exact characterisation of Ok and Err; with tol <= 1 an Ok means that the Newton correction was really computed and is small (C47_residual), and Err is returned if no Jacobian can be solved (C47_singular). The returned point is the previous iterate, so an affine root within the tolerance of the start is not found (C47_affine_violated)."
  },
  {
   "property": "C48",
   "status": "partial",
   "theorems": [
    "Verif.Special.C48_gamma_domain",
    "Verif.Special.C48_gamma_reflection",
    "Verif.Special.C48_gamma_pos",
    "Verif.Special.C48_beta",
    "Verif.Special.C48_ln_gamma_reflection",
    "Verif.Special.C48_ln_gamma_violated",
    "Verif.Special.C48_gamma_accuracy",
    "Verif.Special.C48_ln_gamma_accuracy",
    "Verif.Special.C48_beta_accuracy"
   ],
   "note": "Model SpecialModel.lean. Functional relations are exact over the reals. C48_gamma_accuracy: the Lanczos value is the gamma function up to 4e-12 (relative) at every non-pole; C48_ln_gamma_accuracy: the method ln_gamma up to 2e-17; C48_beta_accuracy: beta up to 2e-11. The free function ln_gamma returns gamma, not its logarithm (C48_ln_gamma_violated)."
  },
  {
   "property": "C49",
   "status": "partial",
   "theorems": [
    "Verif.Special.C49_rounds",
    "Verif.Special.C49_accuracy",
    "Verif.Special.C49_terminates",
    "Verif.Special.C49_complement",
    "Verif.Special.C49_total",
    "Verif.Special.C49_ur_inv_one",
    "Verif.Special.C49_ur_inv_fixed",
    "Verif.Special.C49_lr_inv_violated",
    "Verif.Special.C49_rounds_all",
    "Verif.Special.C49_accuracy_frac",
    "Verif.Special.C49_accuracy_abs",
    "Verif.Special.C49_ur_inv_violated",
    "Verif.Special.C49_ur_inv_steps"
   ],
   "note": "Loops need fuel; C49_terminates shows that both the series and the continued fraction end for every a > 0, x > 0, C49_rounds_all that 2*ceil(a)+500 rounds are enough. C49_accuracy_abs bounds the distance of gamma_lr to the regularised incomplete gamma integral by 1.2e-12 + 7e-15 a for a up to 1e9. gamma_lr_inv passes 1 - p in the wrong way (C49_lr_inv_violated). C49_ur_inv_steps: for a other than 1, gamma_ur_inv returns the last of at most 20 Newton or second-order corrections; for a >= 64 the second one is negative and the code panics (C49_ur_inv_violated)."
  },
  {
   "property": "C50",
   "status": "proved",
   "theorems": [
    "Verif.Special.C50_accuracy",
    "Verif.Special.C50_erf",
    "Verif.Special.C50_total",
    "Verif.Special.C50_erfinv"
   ],
   "note": "Exact symmetries over the reals, totality of erf and erfc, both float widths for erfinv. C50_accuracy: erf and erfc are within 4.7e-12 of the true functions for every real argument."
  },
  {
   "property": "C51",
   "status": "partial",
   "theorems": [
    "Verif.Special.C51_accuracy_true",
    "Verif.Special.C51_terminates",
    "Verif.Special.C51_accuracy",
    "Verif.Special.C51_underflow_violated",
    "Verif.Special.C51_domain",
    "Verif.Special.C51_reflection_partial",
    "Verif.Special.C51_beta_inc"
   ],
   "note": "C51_terminates, C51_accuracy and C51_accuracy_true tie the loop to the beta integral and the true beta function. The reflection is exact except at a = (a+b)x, where the two calls compute different tails (C51_reflection_partial). The i32 counter underflows for extreme arguments (C51_underflow_violated)."
  },
  {
   "property": "C52",
   "status": "partial",
   "theorems": [
    "Verif.Special.C52_recurrence",
    "Verif.Special.C52_total",
    "Verif.Special.C52_violated",
    "Verif.Special.C52_accuracy"
   ],
   "note": "Exact recurrence below 8.5; above, the asymptotic series is used for both sides and the recurrence only holds up to the next term (C52_violated). C52_accuracy bounds the distance to the true digamma function by 7e-16."
  },
  {
   "property": "C53",
   "status": "partial",
   "theorems": [
    "Verif.Stat.C53_factorial",
    "Verif.Stat.C53_threshold",
    "Verif.Stat.C53_binom",
    "Verif.Stat.C53_binom_violated",
    "Verif.Stat.C53_release_violated"
   ],
   "note": "Model DiscreteModel.lean; overflow is none (checked build) or wraps (factorialWrap, release build). The code panics for every binom(n,k) with n>=21 and in release builds returns n! mod 2^64."
  },
  {
   "property": "C54",
   "status": "partial",
   "theorems": [
    "Verif.Stat.C54_bernoulli_new",
    "Verif.Stat.C54_bernoulli",
    "Verif.Stat.C54_bernoulli_cdf_partial",
    "Verif.Stat.C54_bernoulli_cdf_violated",
    "Verif.Stat.C54_binomial_pmf",
    "Verif.Stat.C54_binomial",
    "Verif.Stat.C54_binomial_cdf_partial",
    "Verif.Stat.C54_binomial_violated"
   ],
   "note": "Exact field arithmetic. Bernoulli cdf(0) is wrong, binomial cdf of negative numbers is wrong, more than 20 trials panic, Binomial::new does not check p."
  },
  {
   "property": "C55",
   "status": "partial",
   "theorems": [
    "Verif.Stat.C55_new",
    "Verif.Stat.C55_partial",
    "Verif.Stat.C55_violated",
    "Verif.Stat.C55_cdf"
   ],
   "note": "Real arithmetic. pmf is right on 0..20 and panics above. C55_cdf: cdf with the implemented gamma_ur is within 1.3e-12 + 7e-15 x of the sum of the probabilities, for x below 1e9."
  },
  {
   "property": "C56",
   "status": "proved",
   "theorems": [
    "Verif.Stat.C56_new",
    "Verif.Stat.C56_uniform",
    "Verif.Stat.C56_quantile"
   ],
   "note": "Real arithmetic, integrals are Lebesgue integrals of Mathlib."
  },
  {
   "property": "C57",
   "status": "proved",
   "theorems": [
    "Verif.Stat.C57_new",
    "Verif.Stat.C57_exponential",
    "Verif.Stat.C57_quantile"
   ],
   "note": "Real arithmetic, integrals are Lebesgue integrals of Mathlib."
  },
  {
   "property": "C58",
   "status": "partial",
   "theorems": [
    "Verif.Stat.C58_cdf",
    "Verif.Stat.C58_new",
    "Verif.Stat.C58_pdf_partial",
    "Verif.Stat.C58_pdf_violated",
    "Verif.Stat.C58_cdf_partial",
    "Verif.Stat.C58_cdf_symm",
    "Verif.Stat.C58_quantile",
    "Verif.Stat.C58_entropy_violated",
    "Verif.Stat.C58_moments",
    "Verif.Stat.C58_quantile_accuracy"
   ],
   "note": "pdf divides by the variance instead of the standard deviation; entropy is 2*pi*e*v instead of its half logarithm. C58_cdf: cdf with the implemented erf is within 2.4e-12 of the Gaussian integral. C58_quantile_accuracy: quantile inverts the distribution function to 1e-11 of the smaller of p and 1-p, for all p down to 2^-1022."
  },
  {
   "property": "C59",
   "status": "proved",
   "theorems": [
    "Verif.Stat.C59_normal_from_data",
    "Verif.Stat.C59_exponential_from_data"
   ],
   "note": "Proved over every ordered field. A NaN or infinite rate of Exponential::from_data (empty data, mean 0) is none in the model."
  },
  {
   "property": "C60",
   "status": "partial",
   "theorems": [
    "Verif.Stat.C60_raised_cosine",
    "Verif.Stat.C60_cdf",
    "Verif.Stat.C60_zero_violated"
   ],
   "note": "s = 0 is accepted by new; cdf is then 0/0 at mu."
  },
  {
   "property": "C61",
   "status": "proved",
   "theorems": [
    "Verif.Stat.C61_panics",
    "Verif.Stat.C61_statistic",
    "Verif.Stat.C61_chi_square"
   ],
   "note": "Proved over every ordered field; the p-value is 1 - cdf of the chi-square distribution and is not covered here."
  },
  {
   "property": "C62",
   "status": "proved",
   "theorems": [
    "Verif.Stat.C62_panics",
    "Verif.Stat.C62_statistic",
    "Verif.Stat.C62_g_test",
    "Verif.Stat.C62_zero_count"
   ],
   "note": "Gibbs inequality; a zero observed count gives NaN (C62_zero_count)."
  },
  {
   "property": "C63",
   "status": "partial",
   "theorems": [
    "Verif.Stat.C63_one_sample",
    "Verif.Stat.C63_one_sample_panics",
    "Verif.Stat.C63_antisymm",
    "Verif.Stat.C63_two_sample",
    "Verif.Stat.C63_violated"
   ],
   "note": "p_value of one_sample and of the equal-variance test is constantly 0, df() is constantly 0."
  },
  {
   "property": "C64",
   "status": "proved",
   "theorems": [
    "Verif.Opt.C64_new_panics",
    "Verif.Opt.C64_trajectory",
    "Verif.Opt.C64_monotone",
    "Verif.Opt.C64_small_gradient",
    "Verif.Opt.C64_terminates",
    "Verif.Opt.C64_sigma_one_diverges"
   ],
   "note": "Exact characterisation of the iterates, monotone and sufficient decrease, termination over the reals for sigma < 1. With sigma = 1 (accepted by new) the search for x^2 never ends (C64_sigma_one_diverges)."
  },
  {
   "property": "C65",
   "status": "proved",
   "theorems": [
    "Verif.Opt.C65_descent_direction",
    "Verif.Opt.C65_monotone",
    "Verif.Opt.C65_terminates",
    "Verif.Opt.C65_quadratic",
    "Verif.Opt.C65_singular_diverges"
   ],
   "note": "Monotone for any Hessian; termination for regular Hessians; exact minimiser of quadratics in one step. At the minimum of x^4 the line search never ends because solve returns 1 for the singular system (C65_singular_diverges)."
  },
  {
   "property": "C66",
   "status": "partial",
   "theorems": [
    "Verif.Opt.C66_cg",
    "Verif.Opt.C66_solution_partial",
    "Verif.Opt.C66_energy",
    "Verif.Opt.C66_violated"
   ],
   "note": "Proved for every SPD system started away from the solution; started at the solution the result is NaN (C66_violated)."
  },
  {
   "property": "C67",
   "status": "partial",
   "theorems": [
    "Verif.Ode.C67_tsitouras_conditions_partial",
    "Verif.Ode.C67_tsitouras_violated"
   ],
   "note": "Coefficients of Tsitouras satisfy the conditions to 1e-13; the second row of weights is a difference row, so the second result is not consistent (C67_tsitouras_violated)."
  },
  {
   "property": "C68",
   "status": "partial",
   "theorems": [
    "Verif.Opt.C68_monotone_partial",
    "Verif.Opt.C68_violated",
    "Verif.Opt.C68_square_violated"
   ],
   "note": "Proved for square Jacobians and vectors on which LU works; for a 3x2 Jacobian the sum of squares increases (C68_violated) because transpose is wrong, and for a square regular Jacobian because solve meets a zero pivot (C68_square_violated)."
  },
  {
   "property": "C69",
   "status": "partial",
   "theorems": [
    "Verif.Stat.C69_cdf",
    "Verif.Stat.C69_new",
    "Verif.Stat.C69_partial",
    "Verif.Stat.C69_quantile",
    "Verif.Stat.C69_violated",
    "Verif.Stat.C69_quantile_accuracy"
   ],
   "note": "C69_cdf: cdf with the implemented erf is within 2.4e-12 of the integral of the density; C69_quantile_accuracy: quantile inverts it to 1e-11; pdf(0) is NaN."
  },
  {
   "property": "C70",
   "status": "partial",
   "theorems": [
    "Verif.Special.C70_horner",
    "Verif.Special.C70_f64",
    "Verif.Special.C70_f32_violated",
    "Verif.Special.C70_accuracy",
    "Verif.Special.C70_erfcinv_accuracy"
   ],
   "note": "C70_accuracy: erf(erfinv x) = x to 2e-11 of min(|x|, 1-|x|) for |x| <= 1 - 1e-20 with the f64 tables; the f32 tables are wrong (C70_f32_violated)."
  },
  {
   "property": "C71",
   "status": "partial",
   "theorems": [
    "Verif.Stat.C71_new",
    "Verif.Stat.C71_pdf",
    "Verif.Stat.C71_moments",
    "Verif.Stat.C71_cdf",
    "Verif.Stat.C71_entropy",
    "Verif.Stat.C71_cdf_violated"
   ],
   "note": "Accuracy 5e-12 (pdf), 1e-11 (cdf, for alpha up to 1e9) of the exact algorithm. cdf of x <= 0 refuted."
  },
  {
   "property": "C72",
   "status": "partial",
   "theorems": [
    "Verif.Stat.C72_new",
    "Verif.Stat.C72_pdf",
    "Verif.Stat.C72_moments",
    "Verif.Stat.C72_cdf",
    "Verif.Stat.C72_quantile_partial",
    "Verif.Stat.C72_cdf_violated",
    "Verif.Stat.C72_median_violated",
    "Verif.Stat.C72_entropy_violated",
    "Verif.Stat.C72_quantile_violated"
   ],
   "note": "Proved for all k >= 1: density, moments, cdf within 1e-11. quantile: exact for k = 2; refuted for every k from 128 on, where gamma_ur_inv panics (C72_quantile_violated). median, entropy and cdf at x < 0 refuted."
  },
  {
   "property": "C73",
   "status": "partial",
   "theorems": [
    "Verif.Stat.C73_new_partial",
    "Verif.Stat.C73_new_violated",
    "Verif.Stat.C73_pdf",
    "Verif.Stat.C73_pdf_violated",
    "Verif.Stat.C73_moments",
    "Verif.Stat.C73_cdf"
   ],
   "note": "Density, moments, cdf; p = 0 accepted by new and pdf outside [0,1] refuted."
  },
  {
   "property": "C74",
   "status": "partial",
   "theorems": [
    "Verif.Stat.C74_new_partial",
    "Verif.Stat.C74_new_violated",
    "Verif.Stat.C74_pdf",
    "Verif.Stat.C74_moments",
    "Verif.Stat.C74_entropy_violated",
    "Verif.Stat.C74_cdf",
    "Verif.Stat.C74_cdf_violated"
   ],
   "note": "pdf within 1e-11, moments, median, cdf within 3e-11 for all n > 0 except even n with x^2 > n, which is refuted; n = 0 and entropy refuted."
  },
  {
   "property": "C75",
   "status": "partial",
   "theorems": [
    "Verif.Special.C75_one_partial",
    "Verif.Special.C75_pfaff_partial",
    "Verif.Special.C75_near_one_partial",
    "Verif.Special.C75_negative_partial",
    "Verif.Special.C75_pole_violated",
    "Verif.Special.C75_difference_violated",
    "Verif.Special.C75_domain_partial",
    "Verif.Special.C75_one_violated",
    "Verif.Special.C75_stop_violated",
    "Verif.Special.C75_series_partial"
   ],
   "note": "Loop: for all a, b, c, z. All branches, for a, b > 0: z = 1 (a + b < c) within 1e-11 of the Gauss value; 0 <= z <= 1/2 the series; -1 <= z < 0 and z < -1 against the Euler integral (b < c); 1/2 < z < 1 against the series through the connection formula, proved here for all a, b, c > 0 with c - a - b not an integer. Panics at the poles are refutations. Missing: accuracy when the term quotient is not bounded by some r < 1, negative z with c <= b, a or b not positive."
  },
  {
   "property": "C76",
   "status": "partial",
   "theorems": [
    "Verif.C76_deflate",
    "Verif.C76_trace_partial",
    "Verif.C76_two_violated",
    "Verif.C76_eigenvector_partial",
    "Verif.C76_one",
    "Verif.C76_eigen_violated",
    "Verif.C76_shift",
    "Verif.C76_three_violated",
    "Verif.C76_eigenvector_violated"
   ],
   "note": "Proved: the returned values add up to the trace; the convergence check only drops entries below the threshold; eigenvector_r puts an eigenvector into a column under stated conditions; 1x1 matrices. Refuted: 2x2 matrices with off-diagonal entries get their diagonal; a 3x3 matrix with eigenvalues 14, -12, 0 gets 0, 2, 0; zero vectors and wrong vectors as eigenvectors."
  },
  {
   "property": "C77",
   "status": "partial",
   "theorems": [
    "Verif.C77_sv_converges",
    "Verif.C77_sv_regular",
    "Verif.C77_bidiag_partial",
    "Verif.C77_bidiag_tall_partial",
    "Verif.C77_bidiag_tall_violated",
    "Verif.C77_bidiag_panic_violated",
    "Verif.C77_sv_tall_violated",
    "Verif.C77_sv_partial",
    "Verif.C77_sv_iff",
    "Verif.C77_sv_returns",
    "Verif.C77_sv_one"
   ],
   "note": "Proved for square matrices: U B V^T = A with orthogonal U, V; dec_sv returns orthogonal factors and a non-negative diagonal, exact iff the sum of squares agrees; it returns for every regular matrix, and with the number of sweeps the result converges to the singular value decomposition (C77_sv_converges). Missing: how close the fixed number of 500 n^2 sweeps comes. Refuted: more rows than columns (panic or wrong product), zero first column (panic)."
  },
  {
   "property": "C78",
   "status": "partial",
   "theorems": [
    "Verif.C78_pinv_partial",
    "Verif.C78_square",
    "Verif.C78_column",
    "Verif.C78_wide",
    "Verif.C78_column_violated",
    "Verif.C78_tall_violated"
   ],
   "note": "Proved for square matrices and single columns: (A^T A)^-1 A^T; wide matrices. Refuted for more rows than columns with at least two columns."
  },
  {
   "property": "C79",
   "status": "partial",
   "theorems": [
    "Verif.C79_step_partial",
    "Verif.C79_linearised_partial",
    "Verif.C79_linear_partial",
    "Verif.C79_tall_violated"
   ],
   "note": "Proved for a square Jacobian or a single parameter. Refuted for more residuals than parameters (at least two), where pinv fails."
  },
  {
   "property": "C80",
   "status": "partial",
   "theorems": [
    "Verif.Mat.C80_value_partial",
    "Verif.Mat.C80_one",
    "Verif.Mat.C80_violated"
   ],
   "note": "The result is determined for every column vector; refuted: it is not a unit vector, and the sign of 0 is 0."
  },
  {
   "property": "C81",
   "status": "partial",
   "theorems": [
    "Verif.Mat.C81_column",
    "Verif.Mat.C81_shape",
    "Verif.Mat.C81_row_partial",
    "Verif.Mat.C81_row_violated"
   ],
   "note": "Proved for column vectors and shapes; refuted for row vectors, where only the first entry is compared."
  },
  {
   "property": "C82",
   "status": "partial",
   "theorems": [
    "Verif.Num.C82_int",
    "Verif.Num.C82_int_exact",
    "Verif.Num.C82_wraps_violated",
    "Verif.Num.C82_float",
    "Verif.Num.C82_float_trunc",
    "Verif.Num.C82_toFloat",
    "Verif.Num.C82_toFloat_inexact",
    "Verif.Num.C82_complex_violated",
    "Verif.Num.C82_complex_signed_violated",
    "Verif.Num.C82_complex_real"
   ],
   "note": "Proved for all widths. Refuted: the documented None for values out of range; imaginary parts are dropped; signed integers to complex panic."
  },
  {
   "property": "C83",
   "status": "partial",
   "theorems": [
    "Verif.Num.C83_int",
    "Verif.Num.C83_operate",
    "Verif.Num.C83_assoc_violated",
    "Verif.Num.C83_minmax",
    "Verif.Num.C83_complex",
    "Verif.Num.C83_order_violated"
   ],
   "note": "Proved for integers and reals. Refuted: associativity across overflow; the order of complex numbers disagrees with equality."
  },
  {
   "property": "C84",
   "status": "partial",
   "theorems": [
    "Verif.Ode.C84_euler_func",
    "Verif.Ode.C84_euler_jacobian",
    "Verif.Ode.C84_euler_conserved",
    "Verif.Ode.C84_force",
    "Verif.Ode.C84_vdp",
    "Verif.Ode.C84_vdp_doc_violated"
   ],
   "note": "Proved for all states. The documented formula of the Van der Pol oscillator differs from the code (C84_vdp_doc_violated)."
  },
  {
   "property": "C85",
   "status": "partial",
   "theorems": [
    "Verif.Stat.C85_normal_value",
    "Verif.Stat.C85_normal",
    "Verif.Stat.C85_nan_violated",
    "Verif.Stat.C85_exponential",
    "Verif.Stat.C85_sequence"
   ],
   "note": "The law is exactly normal/exponential; one pair of numbers (probability zero over the reals, positive with floats) gives a NaN (C85_nan_violated). Uniform::random is a call of the external generator."
  },
  {
   "property": "C86",
   "status": "partial",
   "theorems": [
    "Verif.Ode.C86_converges_partial",
    "Verif.Ode.C86_ralston4_violated"
   ],
   "note": "Proved for every method but Ralston4: solve returns and all states are within C h^p. Ralston4 (wrong weight) is refuted: for x' = 1 the value at time 1 stays off by about 0.0017 for every step size."
  },
  {
   "property": "C87",
   "status": "partial",
   "theorems": [
    "Verif.Ode.C87_converges_partial",
    "Verif.Ode.C87_order_violated"
   ],
   "note": "Proved: solve terminates and converges with order min(k, 2). Refuted for k >= 3: the Euler start makes every later state off by exactly h^2 for x' = 2t."
  },
  {
   "property": "C88",
   "status": "partial",
   "theorems": [
    "Verif.C88_dotp",
    "Verif.C88_mul",
    "Verif.C88_mulVec",
    "Verif.C88_eval",
    "Verif.C88_sum",
    "Verif.C88_mean",
    "Verif.C88_mul_exact",
    "Verif.C88_relative_violated",
    "Verif.C88_mean_violated"
   ],
   "note": "Standard model of rounding: relative error u for every operation, no overflow or underflow. The mean of equal observations can exceed them (0.1, 0.1, 0.1)."
  },
  {
   "property": "C89",
   "status": "proved",
   "theorems": [
    "Verif.C89_forward_vector",
    "Verif.C89_backward_vector",
    "Verif.C89_forward_matrix",
    "Verif.C89_backward_matrix"
   ],
   "note": "Right-hand side unperturbed; only the coefficients are."
  },
  {
   "property": "C90",
   "status": "partial",
   "theorems": [
    "Verif.C90_lu",
    "Verif.C90_solve_vector",
    "Verif.C90_solve_matrix",
    "Verif.C90_inv",
    "Verif.C90_solve_violated",
    "Verif.C90_singular_violated"
   ],
   "note": "Bounds are proved in terms of the computed |L| |U|. Backward stability is refuted: the pivot search compares values instead of absolute values, so L can be huge; a singular matrix can be inverted without an error."
  },
  {
   "property": "C91",
   "status": "partial",
   "theorems": [
    "Verif.Ode.C91_times",
    "Verif.Ode.C91_last_violated",
    "Verif.Ode.C91_increasing_violated"
   ],
   "note": "Times are right up to 8 k u (|t_0|+|t_1|); exact equality of the last time with t_1 and strict growth are refuted for f64 and h = 0.1."
  },
  {
   "property": "C92",
   "status": "partial",
   "theorems": [
    "Verif.Ode.C92_converges_partial"
   ],
   "note": "Ralston4 is missing, its tableau is wrong (C86)."
  },
  {
   "property": "C93",
   "status": "partial",
   "theorems": [
    "Verif.Lapack.C93_entrywise",
    "Verif.Lapack.C93_mul_partial",
    "Verif.Lapack.C93_empty_violated",
    "Verif.Lapack.C93_panic",
    "Verif.Lapack.C93_forward",
    "Verif.Lapack.C93_backward"
   ],
   "note": "Refuted: with the lapack feature a product whose left operand is empty is rejected by xgemm (C93_empty_violated); everything else is proved for every BLAS with the documented behaviour."
  },
  {
   "property": "C94",
   "status": "partial",
   "theorems": [
    "Verif.Lapack.C94_lu",
    "Verif.Lapack.C94_shape",
    "Verif.Lapack.C94_inv",
    "Verif.Lapack.C94_solve_vector",
    "Verif.Lapack.C94_singular_violated",
    "Verif.Lapack.C94_solve_matrix_partial",
    "Verif.Lapack.C94_solve_matrix_violated",
    "Verif.Lapack.C94_det_partial",
    "Verif.Lapack.C94_det_permutation",
    "Verif.Lapack.C94_det_violated"
   ],
   "note": "Refuted: det has the wrong sign for products of disjoint cycles (C94_det_violated), solve of a singular system is no Err (C94_singular_violated), solve with a matrix of fewer columns than rows is always Err (C94_solve_matrix_violated). LU and inv are proved for all matrices, solve for vectors and square right-hand sides, det up to the sign and exactly up to size 3."
  },
  {
   "property": "C95",
   "status": "partial",
   "theorems": [
    "Verif.Lapack.C95_cholesky_partial",
    "Verif.Lapack.C95_cholesky_violated",
    "Verif.Lapack.C95_qr_thin",
    "Verif.Lapack.C95_qr_partial",
    "Verif.Lapack.C95_qr_violated",
    "Verif.Lapack.C95_qr_panic",
    "Verif.Lapack.C95_hessenberg"
   ],
   "note": "Refuted: dec_cholesky returns Ok for every matrix (C95_cholesky_violated) and the factors of dec_qr cannot be multiplied for more rows than columns (C95_qr_violated). Proved: positive definite matrices, square QR, thin QR, Hessenberg."
  },
  {
   "property": "C96",
   "status": "partial",
   "theorems": [
    "Verif.Lapack.C96_exact",
    "Verif.Lapack.C96_values_partial",
    "Verif.Lapack.C96_symmetric_partial",
    "Verif.Lapack.C96_vectors_violated",
    "Verif.Lapack.C96_complex_violated"
   ],
   "note": "Refuted: eigenvectors are those of the transposed matrix (C96_vectors_violated), imaginary parts are dropped (C96_complex_violated). Proved: symmetric matrices, values of matrices with real eigenvalues. Convergence of xgeev is not promised by its documentation."
  },
  {
   "property": "C97",
   "status": "partial",
   "theorems": [
    "Verif.C97_converges_partial",
    "Verif.C97_minus_identity_violated"
   ],
   "note": "Quadratic convergence proved under the additional assumption that dec_lu meets no zero pivot near the root. Without it the claim is false: for g(x) = b - x in two or more dimensions the result is Err from every start (C97_minus_identity_violated)."
  },
  {
   "property": "C98",
   "status": "partial",
   "theorems": [
    "Verif.Ode.C98_steps_partial",
    "Verif.Ode.C98_solve_partial",
    "Verif.Ode.C98_dimension_violated",
    "Verif.Ode.C98_stalls_violated"
   ],
   "note": "The steps are computed and converge with order one in every dimension (C98_steps_partial, with no-zero-pivot assumption); solve converges for scalar problems (C98_solve_partial). In two or more dimensions solve panics in exact arithmetic in the extra step of length 0 (C98_dimension_violated), and with h < 1e-8 the state of x' = 1 never moves (C98_stalls_violated)."
  },
  {
   "property": "C99",
   "status": "proved",
   "theorems": [
    "Verif.Opt.C99_linear_rate",
    "Verif.Opt.C99_sublinear_rate"
   ],
   "note": "Linear rate for strongly convex and O(1/k) for convex objectives, with explicit constants and an explicit bound on the number of halvings. sigma = 1 is allowed by new but does not terminate (C64_sigma_one_diverges)."
  },
  {
   "property": "C100",
   "status": "partial",
   "theorems": [
    "Verif.Opt.C100_quadratic_partial",
    "Verif.Opt.C100_linear_partial",
    "Verif.Opt.C100_spd_violated"
   ],
   "note": "Quadratic local and linear global convergence proved when dec_lu meets no zero pivot on the Hessians. Started at the minimum of a strictly convex quadratic function with the Hessian [[1,2,0],[2,5,0],[0,0,1]] the line search never ends (C100_spd_violated)."
  },
  {
   "property": "C101",
   "status": "partial",
   "theorems": [
    "Verif.Stat.C101_chi_square",
    "Verif.Stat.C101_g",
    "Verif.Stat.C101_agreement",
    "Verif.Stat.C101_single_violated",
    "Verif.Stat.C101_welch_partial",
    "Verif.Stat.C101_welch_violated"
   ],
   "note": "Chi-square and G tests: complete for two or more categories; a single category panics (C101_single_violated). Welch: where the t distribution function has a value (C101_welch_partial); no result for samples of equal size and variance with t^2 above the degrees of freedom (C101_welch_violated)."
  },
  {
   "property": "C102",
   "status": "partial",
   "theorems": [
    "Verif.C102_backward",
    "Verif.C102_backward_diagonal",
    "Verif.C102_success",
    "Verif.C102_pd_violated"
   ],
   "note": "Backward error for all matrices on which dec_cholesky returns; success with a margin of 2(n+1)((1+u)^(n+2)-1) relative to the diagonal; C102_pd_violated shows that some margin is needed. Overflow and underflow are not part of the arithmetic."
  },
  {
   "property": "C103",
   "status": "partial",
   "theorems": [
    "Verif.C103_add_sub",
    "Verif.C103_mul",
    "Verif.C103_mul_comm",
    "Verif.C103_div",
    "Verif.C103_poly_mul",
    "Verif.C103_component_limit",
    "Verif.C103_assoc_limit",
    "Verif.C103_div_violated"
   ],
   "note": "Complete without overflow and underflow; with gradual underflow C103_div_violated shows a panic for a divisor other than 0. C103_component_limit and C103_assoc_limit show that the bounds cannot be strengthened to single components and that the rounded product is not associative."
  },
  {
   "property": "C104",
   "status": "partial",
   "theorems": [
    "Verif.Display.C104_matrix",
    "Verif.Display.C104_matrix_inj",
    "Verif.Display.C104_matrix_violated",
    "Verif.Display.C104_complex",
    "Verif.Display.C104_complex_parts",
    "Verif.Display.C104_poly",
    "Verif.Display.C104_poly_inj",
    "Verif.Display.C104_poly_empty",
    "Verif.Display.C104_poly_violated"
   ],
   "note": "Texts of numbers are a parameter with the stated properties (finite floats satisfy them). Refuted: matrices without rows print the same for every number of columns, the zero polynomial prints nothing and coefficients up to eps are dropped (C104_matrix_violated, C104_poly_violated); C104_poly_inj says exactly what can be read back."
  },
  {
   "property": "C105",
   "status": "partial",
   "theorems": [
    "Verif.Ode.C105_linear_partial",
    "Verif.Ode.C105_explicit_partial",
    "Verif.Ode.C105_explicit_violated",
    "Verif.Ode.C105_implicit",
    "Verif.Ode.C105_contractive",
    "Verif.Ode.C105_oscillator_partial",
    "Verif.Ode.C105_oscillator_violated",
    "Verif.Ode.C105_oscillator_iff"
   ],
   "note": "Exact step factors for every explicit method but Ralston4 on linear maps, and for Ralston4 on decay. Refuted: steps longer than 3/mu make every explicit method grow (C105_explicit_violated); methods of order 1 and 2 increase the energy of every oscillation (C105_oscillator_violated). Implicit Euler: scalar decay complete, dissipative systems for every returned step up to 2e-8 (1 + h B)."
  },
  {
   "property": "C106",
   "status": "partial",
   "theorems": [
    "Verif.Ode.C106_returns",
    "Verif.Ode.C106_returns_violated",
    "Verif.Ode.C106_accuracy_partial",
    "Verif.Ode.C106_accuracy_violated"
   ],
   "note": "Termination proved for continuous right-hand sides when rejected steps are shortened (fac < 1, fac_min < 1, abs_tol > 0); with fac_min = fac_max = 1 the loop can run for ever (C106_returns_violated). Accuracy C h^p for every method but Tsitouras (order 4 for CashKarp45). The tolerances bound nothing (C106_accuracy_violated)."
  },
  {
   "property": "C107",
   "status": "partial",
   "theorems": [
    "Verif.C107_qr",
    "Verif.C107_product",
    "Verif.C107_size",
    "Verif.C107_upper_violated"
   ],
   "note": "Backward error and orthogonality proved without overflow and underflow, entries below a nonzero diagonal entry are at most eps times the length of the column; they are not zero (C107_upper_violated), because the rotation is applied as a matrix product."
  },
  {
   "property": "C108",
   "status": "partial",
   "theorems": [
    "Verif.Ode.C108_returns",
    "Verif.Ode.C108_ab",
    "Verif.Ode.C108_bdf",
    "Verif.Ode.C108_stuck",
    "Verif.Ode.C108_returns_violated"
   ],
   "note": "solve returns under a lower bound on the step size and an upper bound on the times (C108_returns, C108_ab, C108_bdf); without them it need not return (C108_stuck, C108_returns_violated)."
  },
  {
   "property": "C109",
   "status": "partial",
   "theorems": [
    "Verif.C109_mul",
    "Verif.C109_mul_nan",
    "Verif.C109_sum",
    "Verif.C109_mean_nan",
    "Verif.C109_mean_violated",
    "Verif.C109_complex_div_violated",
    "Verif.C109_complex_div_panic_violated",
    "Verif.C109_complex_mul",
    "Verif.C109_qr_overflow_violated",
    "Verif.C109_qr_underflow_violated"
   ],
   "note": "The range theorems hold (C109_mul, C109_sum, C109_complex_mul, C109_mul_nan, C109_mean_nan); overflow and underflow of intermediate squares and sums refute the rest (the four _violated theorems and C109_complex_div_panic_violated)."
  },
  {
   "property": "C110",
   "status": "partial",
   "theorems": [
    "Verif.Ie.C110_min_max",
    "Verif.Special.C110_gamma_nan_violated",
    "Verif.Special.C110_gamma_inf_violated",
    "Verif.Special.C110_beta_nan_violated",
    "Verif.Ode.C110_adaptive_nan_violated",
    "Verif.Ode.C110_adaptive_tol_violated",
    "Verif.Opt.C110_gradient_returns",
    "Verif.Opt.C110_gradient_nan_violated"
   ],
   "note": "The statement does not hold: with NaN (or gamma_lr at infinity, or abs_tol = 0) the loops never end, shown by the _violated theorems; the termination of the line search without NaN is proved."
  },
  {
   "property": "C111",
   "status": "partial",
   "theorems": [
    "Verif.C111_constructors",
    "Verif.C111_constructors_violated",
    "Verif.C111_fixed_nan_violated",
    "Verif.C111_fixed_inf_violated",
    "Verif.C111_multistep_nan_violated",
    "Verif.C111_argmax_violated"
   ],
   "note": "The statement does not hold: the constructors accept NaN as well (C111_constructors is the exact characterisation), and the solvers then return empty or one-point solutions."
  },
  {
   "property": "C112",
   "status": "partial",
   "theorems": [
    "Verif.Ode.C112_adamsBashforth_partial",
    "Verif.Ode.C112_bdf_partial"
   ],
   "note": "Accuracy with rounding proved for all step counts; the order is min(k, 2) instead of k because the first step is an Euler step (C87_order_violated), and the roundoff has to be small against h^2."
  },
  {
   "property": "C113",
   "status": "partial",
   "theorems": [
    "Verif.Stat.C113_variance",
    "Verif.Stat.C113_from_data",
    "Verif.Stat.C113_chi_square",
    "Verif.Stat.C113_constant_violated"
   ],
   "note": "Error bounds proved for every rounding with u < 1; the claim that constant samples are rejected fails with rounding (C113_constant_violated). The error of powf is a hypothesis."
  },
  {
   "property": "C114",
   "status": "partial",
   "theorems": [
    "Verif.Special.C114_gamma",
    "Verif.Special.C114_relative",
    "Verif.Special.C114_f64",
    "Verif.Special.C114_overflow_violated",
    "Verif.Special.C114_negative_violated",
    "Verif.Special.C114_factorial_violated"
   ],
   "note": "Accuracy proved for all positive arguments with rounding; finiteness is violated: the factor t^(z-1/2) overflows from z = 143 on, although Gamma fits up to 171, and the reflection returns 0 at the mirrored arguments."
  },
  {
   "property": "C115",
   "status": "partial",
   "theorems": [
    "Verif.Special.C115_beta",
    "Verif.Special.C115_beta_relative",
    "Verif.Special.C115_t",
    "Verif.Special.C115_chi",
    "Verif.Special.C115_gamma_pdf",
    "Verif.Special.C115_beta_pdf",
    "Verif.Special.C115_t_violated",
    "Verif.Special.C115_chi_violated",
    "Verif.Special.C115_gamma_pdf_violated",
    "Verif.Special.C115_beta_violated",
    "Verif.Special.C115_beta_pdf_violated"
   ],
   "note": "Accuracy proved with rounding (without overflow); finiteness is violated by beta and all four densities, because gamma overflows."
  },
  {
   "property": "C116",
   "status": "partial",
   "theorems": [
    "Verif.C116_hessenberg",
    "Verif.C116_product",
    "Verif.C116_orthogonal",
    "Verif.C116_householder",
    "Verif.C116_size",
    "Verif.C116_hessenberg_violated"
   ],
   "note": "The reflectors, the backward error of h, the distance of q from an orthogonal matrix, the product and the size 100 n^3 u of the bounds are proved for every rounding. Violated: h is not upper Hessenberg, because the annihilated entries are left as rounding errors (witness 3 x 3 in f64)."
  },
  {
   "property": "C117",
   "status": "partial",
   "theorems": [
    "Verif.C117_bidiag",
    "Verif.C117_sv_partial",
    "Verif.C117_sv_returns",
    "Verif.C117_size"
   ],
   "note": "Missing: that U^T A V is nearly diagonal after the fixed number of sweeps (the sweeps have no test of convergence); the theorem bounds the residual by the computed singular values instead. Square matrices."
  },
  {
   "property": "C118",
   "status": "partial",
   "theorems": [
    "Verif.Stat.C118_expo_pdf",
    "Verif.Stat.C118_expo_cdf",
    "Verif.Stat.C118_expo_cdf_violated",
    "Verif.Stat.C118_expo_quantile",
    "Verif.Stat.C118_uniform_pdf",
    "Verif.Stat.C118_uniform_cdf",
    "Verif.Stat.C118_uniform_range",
    "Verif.Stat.C118_uniform_quantile",
    "Verif.Stat.C118_uniform_quantile_violated",
    "Verif.Stat.C118_normal_pdf",
    "Verif.Stat.C118_poisson",
    "Verif.Stat.C118_binomial",
    "Verif.Stat.C118_binomial_cdf"
   ],
   "note": "The accuracy is proved. Violated: the distribution function of the exponential distribution has no relative accuracy for small arguments (it is zero), and a quantile of the uniform distribution can lie outside of the interval. Assumption: no overflow or underflow."
  },
  {
   "property": "C119",
   "status": "partial",
   "theorems": [
    "Verif.C119_step",
    "Verif.C119_accuracy",
    "Verif.C119_returns",
    "Verif.C119_tolerance_violated"
   ],
   "note": "Accuracy and success proved under the assumption that no pivot is zero and nothing overflows; find_root returns Err although it has converged when the tolerance is below the spacing of the numbers."
  },
  {
   "property": "C120",
   "status": "partial",
   "theorems": [
    "Verif.Opt.C120_gradient",
    "Verif.Opt.C120_newton",
    "Verif.Opt.C120_lm_violated"
   ],
   "note": "Proved for Gradient and Newton; Levenberg-Marquardt can increase the sum of squares by rounding."
  },
  {
   "property": "C121",
   "status": "proved",
   "theorems": [
    "Verif.Special.C121_erf",
    "Verif.Special.C121_series",
    "Verif.Special.C121_returns",
    "Verif.Special.C121_small",
    "Verif.Special.C121_ln_gamma",
    "Verif.Special.C121_ln_gamma_reflection"
   ],
   "note": "ln_gamma for all positive arguments, gamma_lr in the series branch (x <= 1 or x <= a), erf and erfc for 1e-150 <= |x| <= 1; the continued fraction branch is not part of the claim."
  },
  {
   "property": "C122",
   "status": "proved",
   "theorems": [
    "Verif.Stat.C122_one_sample",
    "Verif.Stat.C122_equal_variance",
    "Verif.Stat.C122_unequal_variance",
    "Verif.Stat.C122_g_test"
   ],
   "note": ""
  },
  {
   "property": "C123",
   "status": "partial",
   "theorems": [
    "Verif.Stat.C123_rcos_pdf",
    "Verif.Stat.C123_rcos_cdf",
    "Verif.Stat.C123_rcos_cdf_violated",
    "Verif.Stat.C123_normal_cdf",
    "Verif.Stat.C123_log_normal_cdf",
    "Verif.Stat.C123_log_normal_pdf",
    "Verif.Stat.C123_normal_cdf_f64"
   ],
   "note": "violated at the lower end of the raised cosine distribution, where the computed cdf is negative because pi is rounded down; everything else is proved"
  },
  {
   "property": "C124",
   "status": "proved",
   "theorems": [
    "Verif.Stat.C124_quantile",
    "Verif.Stat.C124_quantile_f64",
    "Verif.Stat.C124_log_normal_quantile"
   ],
   "note": "proved with rounding for p and 1-p at least 2^-1022; the library functions sqrt, exp, ln are taken with a relative error"
  },
  {
   "property": "C125",
   "status": "partial",
   "theorems": [
    "Verif.Ode.C125_times",
    "Verif.Ode.C125_last_time_violated",
    "Verif.Ode.C125_accuracy_partial"
   ],
   "note": "violated: the last time can be beyond t_stop by rounding; accuracy for runs with at most S/h times, not bounded by the tolerances; Tsitouras missing (C67)"
  },
  {
   "property": "C126",
   "status": "proved",
   "theorems": [
    "Verif.Special.C126_digamma",
    "Verif.Stat.C126_gamma_entropy"
   ],
   "note": ""
  },
  {
   "property": "C127",
   "status": "partial",
   "theorems": [
    "Verif.Poly.C127_div",
    "Verif.Poly.C127_from_root",
    "Verif.Poly.C127_differentiate",
    "Verif.Poly.C127_integrate",
    "Verif.Poly.C127_degree_violated"
   ],
   "note": "proved: the residual of the division, from_root, derivative and primitive with rounding; the degree of the remainder is violated in f64 (3x / (47x+1))"
  },
  {
   "property": "C128",
   "status": "partial",
   "theorems": [
    "Verif.Cx.C128_exp",
    "Verif.Cx.C128_sin_cos",
    "Verif.Cx.C128_sinh_cosh",
    "Verif.Cx.C128_abs",
    "Verif.Cx.C128_ln",
    "Verif.Cx.C128_sin_small_violated"
   ],
   "note": "exp, abs and ln are proved for all roundings. sin, cos, sinh and cosh are proved with an error relative to cosh of the imaginary (real) part; relative to the result this is false, because sin(y i) is 0 for small y (C128_sin_small_violated)."
  },
  {
   "property": "C129",
   "status": "partial",
   "theorems": [
    "Verif.Ode.C129_step",
    "Verif.Ode.C129_solve",
    "Verif.Ode.C129_f32_violated"
   ],
   "note": "Proved for one equation and a tolerance above the rounding errors of one step (f64). In f32 the fixed tolerance 1e-8 is below the spacing of the numbers and solve panics, for example for x' = -x with step size 1/2 (C129_f32_violated). Two and more equations always panic, see C98_dimension_violated."
  },
  {
   "property": "C130",
   "status": "partial",
   "theorems": [
    "Verif.Opt.C130_drift_partial",
    "Verif.Opt.C130_accuracy_partial",
    "Verif.Opt.C130_start_violated"
   ],
   "note": "Partial: for the iterates and the number of iterations no bounds are proved; started at the solution the method returns NaN (C130_start_violated)."
  },
  {
   "property": "C131",
   "status": "partial",
   "theorems": [
    "Verif.Opt.C131_descent",
    "Verif.Opt.C131_gradient",
    "Verif.Opt.C131_search_partial",
    "Verif.Opt.C131_newton_search_partial",
    "Verif.Opt.C131_absorb",
    "Verif.Opt.C131_stagnation_violated"
   ],
   "note": "Partial: the line search is proved to end only where no changed coordinate and no computed value of the objective is zero; where the objective is large against its changes the method does not find the minimum (C131_stagnation_violated)."
  },
  {
   "property": "C132",
   "status": "partial",
   "theorems": [
    "Verif.Opt.C132_search",
    "Verif.Opt.C132_nan",
    "Verif.Opt.C132_fallback",
    "Verif.Opt.C132_step_partial",
    "Verif.Opt.C132_overflow_violated"
   ],
   "note": "Partial: an infinite solution of the linear system is kept as direction and makes the result infinite or NaN (C132_overflow_violated)."
  }
 ]
}