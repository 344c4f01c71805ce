{
 "claims": [
  {
   "property": "C01",
   "status": "proved",
   "theorems": [
    "GaussQuad.Props.C01_all_patterns",
    "GaussQuad.Props.C01_get",
    "GaussQuad.Props.C01_new"
   ],
   "note": "all 2^64 bit patterns"
  },
  {
   "property": "C02",
   "status": "proved",
   "theorems": [
    "GaussQuad.Props.C02_exact",
    "GaussQuad.Props.C02_reachable_valid"
   ],
   "note": "every reachable value of the parameter type is finite and above -1 (constructors and checked arithmetic; serde is C07)"
  },
  {
   "property": "C03",
   "status": "proved",
   "theorems": [
    "GaussQuad.Props.C03_add_exact",
    "GaussQuad.Props.C03_checked_add",
    "GaussQuad.Props.C03_checked_div",
    "GaussQuad.Props.C03_checked_mul",
    "GaussQuad.Props.C03_checked_sub",
    "GaussQuad.Props.C03_result_unique"
   ],
   "note": "result is the correctly rounded real operation (independent IEEE specification), None exactly when that is not valid"
  },
  {
   "property": "C04",
   "status": "proved",
   "theorems": [
    "GaussQuad.Props.C04_from_str",
    "GaussQuad.Props.C04_try_from"
   ],
   "note": "TryFrom and FromStr (decimal parser as a parameter)"
  },
  {
   "property": "C05",
   "status": "proved",
   "theorems": [
    "GaussQuad.Props.C05_comparison",
    "GaussQuad.Props.C05_equivalence"
   ],
   "note": "comparison agrees with the order of the real values"
  },
  {
   "property": "C06",
   "status": "proved",
   "theorems": [
    "GaussQuad.Props.C06_round_trip"
   ],
   "note": "round trip through f64"
  },
  {
   "property": "C07",
   "status": "proved",
   "theorems": [
    "GaussQuad.Props.C07_bad_payloads",
    "GaussQuad.Props.C07_exactly_partial",
    "GaussQuad.Props.C07_refuted"
   ],
   "note": "REFUTED, not confirmed: \"proved\" refers to the refutation and the exact description of the failing cases. the claim is false: C07_refuted gives the payload; C07_exactly_partial and C07_bad_payloads say exactly which payloads break it"
  },
  {
   "property": "C08",
   "status": "proved",
   "theorems": [
    "GaussQuad.Props.C08_chebyshev_first",
    "GaussQuad.Props.C08_chebyshev_second",
    "GaussQuad.Props.C08_hermite",
    "GaussQuad.Props.C08_jacobi",
    "GaussQuad.Props.C08_laguerre",
    "GaussQuad.Props.C08_legendre"
   ],
   "note": "all arithmetic instances, every degree, arbitrary eigen-solver of the right shape"
  },
  {
   "property": "C09",
   "status": "proved",
   "theorems": [
    "GaussQuad.Props.C09_views_agree",
    "GaussQuad.Props.C09_views_exist"
   ],
   "note": "every rule value, any contents"
  },
  {
   "property": "C10",
   "status": "proved",
   "theorems": [
    "GaussQuad.Props.C10_conservation",
    "GaussQuad.Props.C10_fused",
    "GaussQuad.Props.C10_rule_iterators",
    "GaussQuad.Props.C10_slice_iterator"
   ],
   "note": "simulation against an abstract deque, all operation sequences"
  },
  {
   "property": "C11",
   "status": "proved",
   "theorems": [
    "GaussQuad.Props.C11_exact",
    "GaussQuad.Props.C11_operations",
    "GaussQuad.Props.C11_yields"
   ],
   "note": "simulation against an abstract deque, all operation sequences, exact integer values for n < 2^32"
  },
  {
   "property": "C12",
   "status": "proved",
   "theorems": [
    "GaussQuad.Props.C12_chebyshev",
    "GaussQuad.Props.C12_hermite",
    "GaussQuad.Props.C12_jacobi_even",
    "GaussQuad.Props.C12_jacobi_odd_partial",
    "GaussQuad.Props.C12_jacobi_odd_refuted",
    "GaussQuad.Props.C12_laguerre",
    "GaussQuad.Props.C12_legendre"
   ],
   "note": "REFUTED IN PART (odd Jacobi degrees): \"proved\" refers to the remaining cases and to the refutation. sorted for Hermite, Laguerre and even Jacobi whatever the eigen-solver returns, strictly for both Chebyshev rules and Legendre (all degrees, exact arithmetic); the claim is false for odd Jacobi, as the statement expects (C12_jacobi_odd_refuted)"
  },
  {
   "property": "C13",
   "status": "proved",
   "theorems": [
    "GaussQuad.Props.C13_pairs_kept"
   ],
   "note": "pairs are a permutation of (eigenvalue, scale * component^2)"
  },
  {
   "property": "C14",
   "status": "proved",
   "theorems": [
    "GaussQuad.Props.C14_companion_matrix",
    "GaussQuad.Props.C14_only_indices"
   ],
   "note": "entries of the companion matrix and the indices passed to diag/off_diag"
  },
  {
   "property": "C15",
   "status": "proved",
   "theorems": [
    "GaussQuad.Props.C15_number_of_calls",
    "GaussQuad.Props.C15_panic_stops",
    "GaussQuad.Props.C15_protocol",
    "GaussQuad.Props.C15_state_threading",
    "GaussQuad.Props.C15_value"
   ],
   "note": "every rule, arbitrary lawful monad, state threading, panics"
  },
  {
   "property": "C16",
   "status": "proved",
   "theorems": [
    "GaussQuad.Props.C16_calls_logged",
    "GaussQuad.Props.C16_points_and_coefficients",
    "GaussQuad.Props.C16_simpson_points_distinct"
   ],
   "note": "evaluation points as a permutation of the documented grid, and coefficients"
  },
  {
   "property": "C17",
   "status": "proved",
   "theorems": [
    "GaussQuad.Props.C17_fubini",
    "GaussQuad.Props.C17_nested",
    "GaussQuad.Props.C17_number_of_calls"
   ],
   "note": "nested integration is the double weighted sum, call count, order of nesting"
  },
  {
   "property": "C18",
   "status": "proved",
   "theorems": [
    "GaussQuad.Props.C18_linear"
   ],
   "note": "all nine rule structs"
  },
  {
   "property": "C19",
   "status": "proved",
   "theorems": [
    "GaussQuad.Props.C19_chebyshev",
    "GaussQuad.Props.C19_golub_welsch",
    "GaussQuad.Props.C19_legendre",
    "GaussQuad.Props.C19_newton_cotes"
   ],
   "note": "all rules"
  },
  {
   "property": "C20",
   "status": "proved",
   "theorems": [
    "GaussQuad.Props.C20_chebyshev",
    "GaussQuad.Props.C20_jacobi",
    "GaussQuad.Props.C20_legendre",
    "GaussQuad.Props.C20_legendre_odd",
    "GaussQuad.Props.C20_legendre_odd_refuted",
    "GaussQuad.Props.C20_newton_cotes"
   ],
   "note": "REFUTED IN PART (Legendre of odd degree above 100): \"proved\" refers to the remaining cases and to the refutation. Newton-Cotes, Chebyshev, symmetric Jacobi, Legendre of degree <= 100 or even; the claim is FALSE for Legendre of odd degree > 100 in exact arithmetic (C20_legendre_odd_refuted): the asymptotic middle node is not 0; Legendre of odd degree above 100: exact defect formula with the two middle function values (exact negation is refuted at 101)"
  },
  {
   "property": "C21",
   "status": "proved",
   "theorems": [
    "GaussQuad.Props.C21_empty_interval"
   ],
   "note": "IEEE, all bounded rules, finite coefficients"
  },
  {
   "property": "C22",
   "status": "proved",
   "theorems": [
    "GaussQuad.Props.C22_affine",
    "GaussQuad.Props.C22_reference_interval"
   ],
   "note": "reduction to [-1,1] and affine equivariance"
  },
  {
   "property": "C23",
   "status": "proved",
   "theorems": [
    "GaussQuad.Props.C23_chebyshev",
    "GaussQuad.Props.C23_golub_welsch",
    "GaussQuad.Props.C23_legendre",
    "GaussQuad.Props.C23_midpoint_ieee",
    "GaussQuad.Props.C23_midpoint_ieee_overflow_refuted",
    "GaussQuad.Props.C23_midpoint_ieee_strict_refuted",
    "GaussQuad.Props.C23_midpoint_ieee_subnormal_refuted",
    "GaussQuad.Props.C23_newton_cotes",
    "GaussQuad.Props.C23_simpson_ieee",
    "GaussQuad.Props.C23_simpson_ieee_overflow_refuted",
    "GaussQuad.Props.C23_trapezoid_ieee"
   ],
   "note": "REFUTED IN PART (strict inclusion in binary64, and inclusion with overflow or subnormal panels): \"proved\" refers to the remaining cases and to the refutation. exact arithmetic: all rules; binary64: midpoint, trapezoid and Simpson points are finite and in [a,b] for every interval without overflow or subnormal panels; counterexamples outside those hypotheses"
  },
  {
   "property": "C24",
   "status": "proved",
   "theorems": [
    "GaussQuad.Props.C24_par_new"
   ],
   "note": "every schedule, every arithmetic"
  },
  {
   "property": "C25",
   "status": "proved",
   "theorems": [
    "GaussQuad.Props.C25_exact",
    "GaussQuad.Props.C25_gauss_difference",
    "GaussQuad.Props.C25_hermite_difference",
    "GaussQuad.Props.C25_infinite_difference",
    "GaussQuad.Props.C25_items_once",
    "GaussQuad.Props.C25_midpoint_difference",
    "GaussQuad.Props.C25_not_bitwise",
    "GaussQuad.Props.C25_parallel_error",
    "GaussQuad.Props.C25_sequential_error",
    "GaussQuad.Props.C25_simpson_difference",
    "GaussQuad.Props.C25_trapezoid_difference"
   ],
   "note": "exact arithmetic: equality for every rule and schedule; IEEE: error bound for every schedule and list of terms, difference bound, and a witness that bitwise equality fails"
  },
  {
   "property": "C26",
   "status": "proved",
   "theorems": [
    "GaussQuad.Props.C26_change_degree",
    "GaussQuad.Props.C26_degree"
   ],
   "note": "every sequence of change_degree calls"
  },
  {
   "property": "C27",
   "status": "proved",
   "theorems": [
    "GaussQuad.Props.C27_error",
    "GaussQuad.Props.C27_exact",
    "GaussQuad.Props.C27_sharp"
   ],
   "note": "exact-arithmetic model; any interval orientation, any C^2 integrand; sharpness on x^2"
  },
  {
   "property": "C28",
   "status": "proved",
   "theorems": [
    "GaussQuad.Props.C28_error",
    "GaussQuad.Props.C28_exact",
    "GaussQuad.Props.C28_not_exact_four",
    "GaussQuad.Props.C28_sharp"
   ],
   "note": "exact-arithmetic model; any interval orientation, any C^4 integrand; sharpness on x^4"
  },
  {
   "property": "C29",
   "status": "proved",
   "theorems": [
    "GaussQuad.Props.C29_convergence",
    "GaussQuad.Props.C29_formula",
    "GaussQuad.Props.C29_modulus"
   ],
   "note": "the crate's loops compute the composite sums (C29_formula); explicit modulus-of-continuity bound; the composite sums converge for every continuous integrand (stated for all n, because a rule has fewer than 2^32 panels)"
  },
  {
   "property": "C30",
   "status": "proved",
   "theorems": [
    "GaussQuad.Props.C30_exact"
   ],
   "note": "exact-arithmetic model; interval [-1,1] and every [a,b]"
  },
  {
   "property": "C31",
   "status": "proved",
   "theorems": [
    "GaussQuad.Props.C31_exact"
   ],
   "note": "exact-arithmetic model; interval [-1,1] and every [a,b]"
  },
  {
   "property": "C32",
   "status": "proved",
   "theorems": [
    "GaussQuad.Props.C32_exact"
   ],
   "note": "every exact eigen-decomposition, every n, every polynomial of degree at most 2n-1"
  },
  {
   "property": "C33",
   "status": "proved",
   "theorems": [
    "GaussQuad.Props.C33_exact",
    "GaussQuad.Props.C33_true_integral"
   ],
   "note": "up to the explicit factor gamma(alpha+1)/Gamma(alpha+1) of the crate's gamma approximation; C33_true_integral: relative error at most 2e-12 against the true integral"
  },
  {
   "property": "C34",
   "status": "proved",
   "theorems": [
    "GaussQuad.Props.C34_chebyshev",
    "GaussQuad.Props.C34_even",
    "GaussQuad.Props.C34_odd_refuted",
    "GaussQuad.Props.C34_odd_symmetric",
    "GaussQuad.Props.C34_one",
    "GaussQuad.Props.C34_true_integral"
   ],
   "note": "REFUTED IN PART (odd n >= 3 with alpha != beta): \"proved\" refers to the remaining cases and to the refutation. proved for even n, n=1, alpha=beta and the Chebyshev delegations; refuted for every odd n>=3 with alpha != beta (off the line alpha+beta=-1, see C35); C34_true_integral: relative error at most 6e-12 against the true integral at even degrees"
  },
  {
   "property": "C35",
   "status": "proved",
   "theorems": [
    "GaussQuad.Props.C35_nan_weights",
    "GaussQuad.Props.C35_refuted"
   ],
   "note": "REFUTED, not confirmed: \"proved\" refers to the refutation and the exact description of the failing cases. the claim is false: on the line alpha+beta=-1 all weights are NaN in IEEE arithmetic whatever the eigen-solver returns"
  },
  {
   "property": "C36",
   "status": "proved",
   "theorems": [
    "GaussQuad.Props.C36_legendre_no_panic"
   ],
   "note": "all n, k; table shapes by kernel evaluation lifted by a lemma"
  },
  {
   "property": "C37",
   "status": "proved",
   "theorems": [
    "GaussQuad.Props.C37_legendre",
    "GaussQuad.Props.C37_middle_close",
    "GaussQuad.Props.C37_middle_refuted"
   ],
   "note": "REFUTED IN PART (the middle node of odd degrees above 100): \"proved\" refers to the remaining cases and to the refutation. all degrees; the one false instance of the claim is the middle node of odd degrees > 100, which is within 0.052/(n+1/2) of 0 but not 0 (C37_middle_refuted); for odd n > 100 the Legendre middle node is within 7.5e-17 of 0 (exactly 0 is refuted at 101)"
  },
  {
   "property": "C38",
   "status": "proved",
   "theorems": [
    "GaussQuad.Props.C38_near_exact",
    "GaussQuad.Props.C38_tables"
   ],
   "note": "all degrees 1..100, every table entry: the true Gauss-Legendre rule (roots of P_n, Christoffel numbers) exists and the stored nodes are within 2e-16, the weights within 5e-17 of it; near-exactness for all polynomials of degree <= 2n-1 on every interval with an explicit bound. The tables are checked by kernel evaluation of exact integer arithmetic (Legendre recurrence, cosine series) whose soundness is proved."
  },
  {
   "property": "C39",
   "status": "proved",
   "theorems": [
    "GaussQuad.Props.C39_delegated_values",
    "GaussQuad.Props.C39_delegation",
    "GaussQuad.Props.C39_delegation_f64",
    "GaussQuad.Props.C39_from_conversions",
    "GaussQuad.Props.C39_no_delegation",
    "GaussQuad.Props.C39_parameters"
   ],
   "note": "delegation exactly at the three pairs; same bits from the methods; conversions keep the pairs"
  },
  {
   "property": "C40",
   "status": "proved",
   "theorems": [
    "GaussQuad.Props.C40_denominators",
    "GaussQuad.Props.C40_pole",
    "GaussQuad.Props.C40_pole_binary64",
    "GaussQuad.Props.C40_reflection",
    "GaussQuad.Props.C40_sign"
   ],
   "note": "sign, reflection and pole of the Lanczos gamma in exact arithmetic"
  },
  {
   "property": "C41",
   "status": "proved",
   "theorems": [
    "GaussQuad.Props.C41_chebyshev",
    "GaussQuad.Props.C41_chebyshev_error",
    "GaussQuad.Props.C41_jacobi",
    "GaussQuad.Props.C41_legendre_error"
   ],
   "note": "both Chebyshev rules with explicit error bound; Gauss-Jacobi along all degrees, even with the overwritten middle node; Gauss-Legendre of degree n > 100 with an explicit bound: best polynomial approximation error of degree 2n-1 plus the data accuracy"
  },
  {
   "property": "C42",
   "status": "proved",
   "theorems": [
    "GaussQuad.Props.C42_chebyshev",
    "GaussQuad.Props.C42_golub_welsch",
    "GaussQuad.Props.C42_legendre"
   ],
   "note": "all Gauss rules"
  },
  {
   "property": "C43",
   "status": "proved",
   "theorems": [
    "GaussQuad.Props.C43_chebyshev",
    "GaussQuad.Props.C43_golub_welsch",
    "GaussQuad.Props.C43_legendre",
    "GaussQuad.Props.C43_legendre_tables",
    "GaussQuad.Props.C43_newton_cotes",
    "GaussQuad.Props.C43_true_mass"
   ],
   "note": "all rules exactly; Legendre, whose stored and asymptotic weights are rounded, up to 5e-15 at every degree"
  },
  {
   "property": "C44",
   "status": "proved",
   "theorems": [
    "GaussQuad.Props.C44_nodes_weights"
   ],
   "note": "every exact eigen-decomposition"
  },
  {
   "property": "C45",
   "status": "proved",
   "theorems": [
    "GaussQuad.Props.C45_all_other_degrees",
    "GaussQuad.Props.C45_usize_max"
   ],
   "note": "REFUTED IN PART (degree usize::MAX): \"proved\" refers to the remaining cases and to the refutation. the claim is false at usize::MAX (refuted with witness); proved for all other degrees"
  },
  {
   "property": "C46",
   "status": "proved",
   "theorems": [
    "GaussQuad.Props.C46_composite",
    "GaussQuad.Props.C46_simpson_blend"
   ],
   "note": "m*n refinement and the Simpson blend"
  },
  {
   "property": "C47",
   "status": "proved",
   "theorems": [
    "GaussQuad.Props.C47_general_vs_chebyshev",
    "GaussQuad.Props.C47_solver_independent"
   ],
   "note": "result independent of the eigen-solver; general branch agrees with the Chebyshev delegation up to the gamma factor"
  },
  {
   "property": "C48",
   "status": "proved",
   "theorems": [
    "GaussQuad.Props.C48_hermite_symmetric",
    "GaussQuad.Props.C48_monotone",
    "GaussQuad.Props.C48_reflect"
   ],
   "note": "reflection under exchange of the parameters, Hermite symmetry, Markov monotonicity of the nodes at even degrees"
  },
  {
   "property": "C49",
   "status": "proved",
   "theorems": [
    "GaussQuad.Props.C49_gamma_accurate",
    "GaussQuad.Props.C49_gamma_accurate_abs",
    "GaussQuad.Props.C49_jacobi_factor",
    "GaussQuad.Props.C49_sixteen_digits_refuted"
   ],
   "note": "REFUTED IN PART (the documented 16 digits): \"proved\" refers to the remaining cases and to the refutation. relative error at most 2e-12 at every real number that is not a pole; the documented 16 digits are refuted at x = 50 (error above 1e-13)"
  },
  {
   "property": "C50",
   "status": "proved",
   "theorems": [
    "GaussQuad.Props.C50_asymptotic",
    "GaussQuad.Props.C50_near_exact"
   ],
   "note": "all n > 100 in exact arithmetic on the decimal constants of the source: nodes within 7.5e-17 of the roots of P_n, weights within relative 1e-15. Method: Legendre's equation is transformed to a perturbed Bessel equation, the truncated phase series and the tabulated and asymptotic Bessel zeros are bounded against it by ODE comparison and Taylor models."
  },
  {
   "property": "C51",
   "status": "proved",
   "theorems": [
    "GaussQuad.Props.C51_bessel"
   ],
   "note": "exact arithmetic on the decimal constants of the source; J0 and J1 are specified by their power series, the numbering by the number of zeros in (0, z]"
  },
  {
   "property": "C52",
   "status": "proved",
   "theorems": [
    "GaussQuad.Props.C52_binary64"
   ],
   "note": "contract on the backend is Spec.AccurateTrig (satisfiable: accurateTrig_exists); the model's binary64 operations are correctly rounded. Method: forward error analysis of compute_pair with checked constants, composed with C38 and C50."
  },
  {
   "property": "C53",
   "status": "proved",
   "theorems": [
    "GaussQuad.Props.C53_eq",
    "GaussQuad.Props.C53_lt",
    "GaussQuad.Props.C53_total_cmp",
    "GaussQuad.Props.C53_total_order"
   ],
   "note": "against the decoded IEEE interchange format and the documented bit manipulation of f64::total_cmp on BitVec 64"
  },
  {
   "property": "C54",
   "status": "proved",
   "theorems": [
    "GaussQuad.Props.C54_ordered"
   ],
   "note": "from C52's error bounds and lower bounds on the spacing of the exact nodes (LegendreAngles.gap, .edge). Beyond about 3*10^7 neighbouring nodes near the ends are closer than the error bound, hence the range."
  },
  {
   "property": "C55",
   "status": "proved",
   "theorems": [
    "GaussQuad.Props.C55_integrate"
   ],
   "note": "C52 for the rule, forward error analysis for the transformation, the products, both ways of summing and the scaling; finiteness is part of the conclusion. Spec.Computes states what the integrand has to satisfy."
  },
  {
   "property": "C56",
   "status": "proved",
   "theorems": [
    "GaussQuad.Props.C56_first_kind",
    "GaussQuad.Props.C56_second_kind"
   ],
   "note": "error analysis of the closed formulas and lower bounds on the spacing of cosines. The weights of the second kind are accurate relative to pi/(n+1), not to themselves: near theta = pi the rounding of the angle is amplified."
  },
  {
   "property": "C57",
   "status": "proved",
   "theorems": [
    "GaussQuad.Props.C57_first_kind",
    "GaussQuad.Props.C57_second_kind"
   ],
   "note": "same error analysis as C55 (Proofs/F64Gauss), applied to the explicit Chebyshev sums; exactness for polynomials from C30/C31's lemmas."
  },
  {
   "property": "C58",
   "status": "proved",
   "theorems": [
    "GaussQuad.Props.C58_midpoint",
    "GaussQuad.Props.C58_simpson",
    "GaussQuad.Props.C58_trapezoid"
   ],
   "note": "forward error analysis of panel width, points, sums and combination in Proofs/F64NewtonCotes; the truncation part is C27/C28."
  },
  {
   "property": "C59",
   "status": "proved",
   "theorems": [
    "GaussQuad.Props.C59_gamma",
    "GaussQuad.Props.C59_gamma_neg",
    "GaussQuad.Props.C59_gamma_pos"
   ],
   "note": "forward error analysis (Proofs/F64Gamma) with the condition number of the Lanczos series bounded by 5000, added to the truncation error of C49. Beyond 151 the power approaches the overflow threshold and nothing is claimed. Negative arguments are covered on (-1, 0) away from the poles, the only negative ones the crate itself uses (scale factor of Gauss-Jacobi)."
  },
  {
   "property": "C60",
   "status": "proved",
   "theorems": [
    "GaussQuad.Props.C60_hermite",
    "GaussQuad.Props.C60_single_weight",
    "GaussQuad.Props.C60_total_weight"
   ],
   "note": "relative to the contract Spec.StableSolver on the external eigen-solver (satisfiable: SolverExists) and AccurateSqrt. The perturbation bounds (Proofs/Perturb) need no gap between eigenvalues: Weyl's inequality and a coupling argument for the weights."
  },
  {
   "property": "C61",
   "status": "proved",
   "theorems": [
    "GaussQuad.Props.C61_hermite"
   ],
   "note": "C60 plus the summation analysis of F64Sum; nodes of the exact rule are bounded by sqrt(2n) via row sums."
  },
  {
   "property": "C62",
   "status": "proved",
   "theorems": [
    "GaussQuad.Props.C62_laguerre"
   ],
   "note": "assumes a backward stable eigen-solver (Spec.StableSolver, met by the rounded exact solver) and the backend contracts AccurateTrig, AccuratePow, AccurateSqrt; parameter at most 150"
  },
  {
   "property": "C63",
   "status": "proved",
   "theorems": [
    "GaussQuad.Props.C63_laguerre"
   ],
   "note": "same assumptions as C62; the integrand is needed slightly below 0 because a computed node may be negative by up to eta"
  },
  {
   "property": "C64",
   "status": "proved",
   "theorems": [
    "GaussQuad.Props.C64_ascending",
    "GaussQuad.Props.C64_jacobi",
    "GaussQuad.Props.C64_range"
   ],
   "note": "assumes a backward stable eigen-solver (Spec.StableSolver, met by the rounded exact solver) and the backend contracts AccurateTrig, AccuratePow, AccurateSqrt; parameters at most 70 and |alpha + beta + 1|, alpha + beta + 2 >= 1/1000 (AccurateSinNeg when alpha + beta < -1); odd degrees with alpha != beta excluded because the code is wrong there (C34)"
  },
  {
   "property": "C65",
   "status": "proved",
   "theorems": [
    "GaussQuad.Props.C65_jacobi"
   ],
   "note": "same assumptions as C64; the integrand is needed slightly outside [a, b] because a computed node may exceed 1 by up to eta"
  },
  {
   "property": "C66",
   "status": "proved",
   "theorems": [
    "GaussQuad.Props.C66_chebyshev",
    "GaussQuad.Props.C66_hermite",
    "GaussQuad.Props.C66_jacobi",
    "GaussQuad.Props.C66_laguerre",
    "GaussQuad.Props.C66_legendre",
    "GaussQuad.Props.C66_sharp"
   ],
   "note": "real-number model with an exact eigen-solver (Spec.ExactSolver, met by exactSolver_exists); Legendre needs no solver; odd-degree Jacobi with alpha != beta excluded because the code is wrong there (C34)"
  },
  {
   "property": "C67",
   "status": "proved",
   "theorems": [
    "GaussQuad.Props.C67_chebyshev_first",
    "GaussQuad.Props.C67_chebyshev_second",
    "GaussQuad.Props.C67_hermite",
    "GaussQuad.Props.C67_jacobi",
    "GaussQuad.Props.C67_jacobi_half",
    "GaussQuad.Props.C67_jacobi_neg_half",
    "GaussQuad.Props.C67_jacobi_zero",
    "GaussQuad.Props.C67_laguerre",
    "GaussQuad.Props.C67_legendre"
   ],
   "note": "combines C55, C57, C61, C63, C65 with the remainder bounds behind C66; same backend and solver assumptions as those; the delegated Jacobi pairs by C39"
  },
  {
   "property": "C68",
   "status": "proved",
   "theorems": [
    "GaussQuad.Props.C68_hermite",
    "GaussQuad.Props.C68_laguerre"
   ],
   "note": "real-number model with an exact eigen-solver (Spec.ExactSolver, met by exactSolver_exists); extends C41 to the unbounded domains"
  },
  {
   "property": "C69",
   "status": "proved",
   "theorems": [
    "GaussQuad.Props.C69_chebyshev",
    "GaussQuad.Props.C69_hermite",
    "GaussQuad.Props.C69_jacobi",
    "GaussQuad.Props.C69_laguerre"
   ],
   "note": "real-number model with an exact eigen-solver; Gauss-Legendre is left out because the crate's nodes and weights are not exact"
  },
  {
   "property": "C70",
   "status": "proved",
   "theorems": [
    "GaussQuad.Props.C70_all_called",
    "GaussQuad.Props.C70_calls",
    "GaussQuad.Props.C70_counter",
    "GaussQuad.Props.C70_deterministic",
    "GaussQuad.Props.C70_exact",
    "GaussQuad.Props.C70_panic",
    "GaussQuad.Props.C70_panics_like_sequential",
    "GaussQuad.Props.C70_state",
    "GaussQuad.Props.C70_terminates"
   ],
   "note": "every FloatOps backend (C70_exact: reals); rayon::join executes both closures and re-raises a panic afterwards, as its documentation states; one call of the integrand is atomic; the panic payload is not represented"
  },
  {
   "property": "C71",
   "status": "proved",
   "theorems": [
    "GaussQuad.Props.C71_chebyshev",
    "GaussQuad.Props.C71_hermite",
    "GaussQuad.Props.C71_jacobi",
    "GaussQuad.Props.C71_laguerre"
   ],
   "note": "exact arithmetic with an exact eigen-solver; Gauss-Jacobi only where the stored rule is a Gauss rule (C34)"
  },
  {
   "property": "C72",
   "status": "proved",
   "theorems": [
    "GaussQuad.Props.C72_chebyshev",
    "GaussQuad.Props.C72_hermite",
    "GaussQuad.Props.C72_jacobi",
    "GaussQuad.Props.C72_laguerre"
   ],
   "note": "exact arithmetic with an exact eigen-solver; gamma factors |c-1| <= 2e-12 (Laguerre), 6e-12 (Jacobi)"
  },
  {
   "property": "C73",
   "status": "proved",
   "theorems": [
    "GaussQuad.Props.C73_chebyshev",
    "GaussQuad.Props.C73_hermite",
    "GaussQuad.Props.C73_jacobi",
    "GaussQuad.Props.C73_jacobi_overwritten",
    "GaussQuad.Props.C73_laguerre",
    "GaussQuad.Props.C73_newton_cotes"
   ],
   "note": "exact arithmetic; the bounds for Hermite, Laguerre and Jacobi are in terms of any bound W on the weights"
  },
  {
   "property": "C74",
   "status": "proved",
   "theorems": [
    "GaussQuad.Props.C74_chebyshev",
    "GaussQuad.Props.C74_hermite",
    "GaussQuad.Props.C74_jacobi",
    "GaussQuad.Props.C74_laguerre",
    "GaussQuad.Props.C74_newton_cotes"
   ],
   "note": "exact arithmetic with an exact eigen-solver; the limits of Laguerre and Jacobi carry the constant gamma factor of their weights (C33, C34)"
  },
  {
   "property": "C75",
   "status": "proved",
   "theorems": [
    "GaussQuad.Props.C75_chebyshev",
    "GaussQuad.Props.C75_hermite",
    "GaussQuad.Props.C75_jacobi",
    "GaussQuad.Props.C75_laguerre",
    "GaussQuad.Props.C75_legendre",
    "GaussQuad.Props.C75_newton_cotes"
   ],
   "note": "exact arithmetic with an exact eigen-solver; Laguerre and Jacobi carry the constant gamma factor of their weights (C33, C34)"
  },
  {
   "property": "C76",
   "status": "proved",
   "theorems": [
    "GaussQuad.Props.C76_options_ignored",
    "GaussQuad.Props.C76_report",
    "GaussQuad.Props.C76_round_trip",
    "GaussQuad.Props.C76_try_from"
   ],
   "note": "the library's formatting of f64 and of ParseFloatError is a parameter; the round trip assumes that plain library formatting of finite numbers parses back"
  },
  {
   "property": "C77",
   "status": "proved",
   "theorems": [
    "GaussQuad.Props.C77_finite_par",
    "GaussQuad.Props.C77_finite_result",
    "GaussQuad.Props.C77_nan",
    "GaussQuad.Props.C77_nan_par"
   ],
   "note": "the converse is not claimed: finite inputs may overflow"
  },
  {
   "property": "C78",
   "status": "proved",
   "theorems": [
    "GaussQuad.Props.C78_monotone",
    "GaussQuad.Props.C78_monotone_par",
    "GaussQuad.Props.C78_nonnegative",
    "GaussQuad.Props.C78_weights"
   ],
   "note": "results that are NaN (overflow to infinities of both signs, infinity times zero) are excluded by hypothesis; par_integrate under two different schedules is not monotone"
  },
  {
   "property": "C79",
   "status": "proved",
   "theorems": [
    "GaussQuad.Props.C79_negate",
    "GaussQuad.Props.C79_negate_par"
   ],
   "note": "the sign of a zero result is not compared (a sum starts from -0.0)"
  },
  {
   "property": "C80",
   "status": "proved",
   "theorems": [
    "GaussQuad.Props.C80_conversions",
    "GaussQuad.Props.C80_equality",
    "GaussQuad.Props.C80_equivalence",
    "GaussQuad.Props.C80_jacobi_clone",
    "GaussQuad.Props.C80_legendre_chebyshev",
    "GaussQuad.Props.C80_newton_cotes",
    "GaussQuad.Props.C80_parameters",
    "GaussQuad.Props.C80_results"
   ],
   "note": "the derive macros' expansion (field-wise comparison, slice comparison) is part of the transcription; the finite-degree limits of the accurate-backend part are those of C52 and C56"
  },
  {
   "property": "C81",
   "status": "proved",
   "theorems": [
    "GaussQuad.Props.C81_chebyshev_linear",
    "GaussQuad.Props.C81_integrate_linear",
    "GaussQuad.Props.C81_legendre_linear",
    "GaussQuad.Props.C81_nested_calls"
   ],
   "note": "operations are counted by running the model's functions on an arithmetic that carries a counter (Model/Counted); shared intermediate results are counted at every use, so the constants are upper bounds; comparisons, table look-ups, integer arithmetic and allocation are not counted"
  },
  {
   "property": "C82",
   "status": "proved",
   "theorems": [
    "GaussQuad.Props.C82_chebyshev",
    "GaussQuad.Props.C82_chebyshev_first_binary64",
    "GaussQuad.Props.C82_chebyshev_second_binary64",
    "GaussQuad.Props.C82_jacobi",
    "GaussQuad.Props.C82_legendre",
    "GaussQuad.Props.C82_legendre_binary64"
   ],
   "note": "Bernstein's approximation theorem is proved in Proofs/Bernstein from Cauchy's theorem on circles under the Joukowski map; Gauss-Jacobi under the same solver and gamma hypotheses as C28/C74"
  },
  {
   "property": "C83",
   "status": "proved",
   "theorems": [
    "GaussQuad.Props.C83_strip",
    "GaussQuad.Props.C83_strip_binary64",
    "GaussQuad.Props.C83_trigonometric",
    "GaussQuad.Props.C83_trigonometric_sharp"
   ],
   "note": "proved by aliasing of Fourier coefficients (Proofs/Periodic); the binary64 form needs representable ends of the period"
  },
  {
   "property": "C84",
   "status": "proved",
   "theorems": [
    "GaussQuad.Props.C84_concave",
    "GaussQuad.Props.C84_convex",
    "GaussQuad.Props.C84_refine"
   ],
   "note": "exact arithmetic; integrability is proved, not assumed; continuity at the ends is not needed"
  },
  {
   "property": "C85",
   "status": "proved",
   "theorems": [
    "GaussQuad.Props.C85_chebyshev",
    "GaussQuad.Props.C85_legendre",
    "GaussQuad.Props.C85_returned"
   ],
   "note": "that collect reserves the whole slice before computing items, panics beyond isize::MAX bytes and aborts on refusal is assumed about the standard library and rayon; the matrices of the Golub-Welsch rules are allocated by nalgebra and not covered"
  },
  {
   "property": "C86",
   "status": "proved",
   "theorems": [
    "GaussQuad.Props.C86_degree",
    "GaussQuad.Props.C86_field_order",
    "GaussQuad.Props.C86_integers",
    "GaussQuad.Props.C86_json",
    "GaussQuad.Props.C86_json_jacobi_refused",
    "GaussQuad.Props.C86_missing_or_repeated",
    "GaussQuad.Props.C86_round_trip",
    "GaussQuad.Props.C86_shape",
    "GaussQuad.Props.C86_unchecked",
    "GaussQuad.Props.C86_written",
    "GaussQuad.Props.C86_wrong_pair"
   ],
   "note": "the code generated by serde's derive macros and the visitors of f64, tuples, Box<[T]> and NonZeroU32 are modelled from serde's documentation (Model/Serde), not from /repo; byte-level serde formats are not modelled; for rkyv and zerocopy see C98"
  },
  {
   "property": "C87",
   "status": "proved",
   "theorems": [
    "GaussQuad.Props.C87_chebyshev",
    "GaussQuad.Props.C87_chebyshev_first_binary64",
    "GaussQuad.Props.C87_chebyshev_second_binary64",
    "GaussQuad.Props.C87_jacobi",
    "GaussQuad.Props.C87_legendre",
    "GaussQuad.Props.C87_legendre_binary64"
   ],
   "note": "Jackson's theorem is proved with the Fejer-Korovkin kernel; Gauss-Jacobi up to the gamma factor and under the exact-solver hypothesis of C07, no binary64 version for it"
  },
  {
   "property": "C88",
   "status": "proved",
   "theorems": [
    "GaussQuad.Props.C88_estimate",
    "GaussQuad.Props.C88_expansion",
    "GaussQuad.Props.C88_flat",
    "GaussQuad.Props.C88_flat_binary64",
    "GaussQuad.Props.C88_leading"
   ],
   "note": "exact arithmetic except for C88_flat_binary64; Bernoulli numbers and polynomials are Mathlib's"
  },
  {
   "property": "C89",
   "status": "proved",
   "theorems": [
    "GaussQuad.Props.C89_inner_hermite",
    "GaussQuad.Props.C89_inner_legendre",
    "GaussQuad.Props.C89_nested",
    "GaussQuad.Props.C89_outer_legendre",
    "GaussQuad.Props.C89_triangle"
   ],
   "note": "binary64: the inner integrand must be near a polynomial on its interval (C87 and the Bernstein bounds provide this); Hermite inner calls: polynomial in the inner variable; the accuracy of the math functions and of the eigenvalue solver are hypotheses as in C55 and C61"
  },
  {
   "property": "C90",
   "status": "proved",
   "theorems": [
    "GaussQuad.Props.C90_error",
    "GaussQuad.Props.C90_polynomial",
    "GaussQuad.Props.C90_simpson"
   ],
   "note": "exact arithmetic; the binary64 theorems of C89 compose level by level"
  },
  {
   "property": "C91",
   "status": "proved",
   "theorems": [
    "GaussQuad.Props.C91_chebyshev",
    "GaussQuad.Props.C91_closed_rules",
    "GaussQuad.Props.C91_gauss_chebyshev",
    "GaussQuad.Props.C91_gauss_jacobi",
    "GaussQuad.Props.C91_gauss_legendre",
    "GaussQuad.Props.C91_midpoint",
    "GaussQuad.Props.C91_midpoint_power"
   ],
   "note": "error bounds in exact arithmetic; the statement about the trapezoid and Simpson rules is about binary64"
  },
  {
   "property": "C92",
   "status": "proved",
   "theorems": [
    "GaussQuad.Props.C92_compact",
    "GaussQuad.Props.C92_determines",
    "GaussQuad.Props.C92_errors",
    "GaussQuad.Props.C92_iterators",
    "GaussQuad.Props.C92_node_iterators",
    "GaussQuad.Props.C92_parameter",
    "GaussQuad.Props.C92_pretty",
    "GaussQuad.Props.C92_texts",
    "GaussQuad.Props.C92_words"
   ],
   "note": "the text of a single number, and of ParseFloatError, is a parameter (standard library); the word statements assume numbers are printed without blanks, i.e. no width padding"
  },
  {
   "property": "C93",
   "status": "proved",
   "theorems": [
    "GaussQuad.Props.C93_checked_safe",
    "GaussQuad.Props.C93_jacobi",
    "GaussQuad.Props.C93_out_of_bounds",
    "GaussQuad.Props.C93_outcome",
    "GaussQuad.Props.C93_returned",
    "GaussQuad.Props.C93_write"
   ],
   "note": "the behaviour of nalgebra's matrix (plain usize product for the size, index assertion on the shape only, column-major positions) is assumed from knowledge of nalgebra 0.34, whose source is not available here; the out-of-bounds part is only as good as that assumption. Memory used inside symmetric_eigen and by the final collect() is a parameter"
  },
  {
   "property": "C94",
   "status": "proved",
   "theorems": [
    "GaussQuad.Props.C94_convergence",
    "GaussQuad.Props.C94_dense",
    "GaussQuad.Props.C94_error",
    "GaussQuad.Props.C94_gap",
    "GaussQuad.Props.C94_weight"
   ],
   "note": "for an exact eigen-solver (ExactSolver), over the reals"
  },
  {
   "property": "C95",
   "status": "proved",
   "theorems": [
    "GaussQuad.Props.C95_dense",
    "GaussQuad.Props.C95_error",
    "GaussQuad.Props.C95_gap",
    "GaussQuad.Props.C95_rate"
   ],
   "note": "for an exact eigen-solver (ExactSolver), over the reals; for |alpha| > 1/2 the constant K(alpha) is not explicit"
  },
  {
   "property": "C96",
   "status": "proved",
   "theorems": [
    "GaussQuad.Props.C96_dense",
    "GaussQuad.Props.C96_gap",
    "GaussQuad.Props.C96_rate"
   ],
   "note": "for an exact eigen-solver (ExactSolver), over the reals; the constant K(alpha, beta) is not explicit; odd degrees with alpha != beta are left out of the two spacing theorems because the constructor overwrites their middle node with 0 (DESIGN.md, section 3)"
  },
  {
   "property": "C97",
   "status": "proved",
   "theorems": [
    "GaussQuad.Props.C97_log",
    "GaussQuad.Props.C97_power"
   ],
   "note": "over the reals; the bound includes the error of the crate's tables and asymptotic nodes; the documentation example's tolerance 1e-12 is proved in exact arithmetic only (the rounding bound for a million binary64 terms is larger)"
  },
  {
   "property": "C98",
   "status": "proved",
   "theorems": [
    "GaussQuad.Props.C98_float_bytes",
    "GaussQuad.Props.C98_layout",
    "GaussQuad.Props.C98_rkyv_roundtrip",
    "GaussQuad.Props.C98_rkyv_unchecked",
    "GaussQuad.Props.C98_zerocopy"
   ],
   "note": "the sources of zerocopy and rkyv are not in the sandbox: their layout (little endian, 32-bit relative pointers, root last) is modelled from their documentation and is an assumption"
  },
  {
   "property": "C99",
   "status": "proved",
   "theorems": [
    "GaussQuad.Props.C99_gamma",
    "GaussQuad.Props.C99_jacobi_huge",
    "GaussQuad.Props.C99_jacobi_nan",
    "GaussQuad.Props.C99_jacobi_nonfinite",
    "GaussQuad.Props.C99_jacobi_parameters",
    "GaussQuad.Props.C99_jacobi_zero",
    "GaussQuad.Props.C99_laguerre"
   ],
   "note": "a finding: the crate documents every finite parameter above -1 as valid. Needs pow to overflow to +inf (PowOverflow: at 2^1025) and, for Gauss-Jacobi, the accuracy contracts on sin, cos and pow; a backend that meets all of them is shown to exist"
  },
  {
   "property": "C100",
   "status": "proved",
   "theorems": [
    "GaussQuad.Props.C100_chebyshev_first",
    "GaussQuad.Props.C100_chebyshev_second",
    "GaussQuad.Props.C100_ends_called",
    "GaussQuad.Props.C100_legendre",
    "GaussQuad.Props.C100_not_distinct",
    "GaussQuad.Props.C100_pole_at_end"
   ],
   "note": "a finding: contrast C23, C37 (exact arithmetic, every degree) and C54, C56 (binary64, up to 10^7). The exact end nodes need CosEnds, what correct rounding gives next to the extrema of cos; C100_not_distinct needs only the usual accuracy"
  },
  {
   "property": "C101",
   "status": "proved",
   "theorems": [
    "GaussQuad.Props.C101_accepts",
    "GaussQuad.Props.C101_length",
    "GaussQuad.Props.C101_parse",
    "GaussQuad.Props.C101_rejects",
    "GaussQuad.Props.C101_round_trip",
    "GaussQuad.Props.C101_text"
   ],
   "note": "the parser and the formatters of the standard library are modelled from their documentation (the sources of core are not in the sandbox): Model/FloatText; the grammar is in Spec/FloatGrammar. The digits are any shortest ones (ShortestDigits, shown to exist). C04, C06 and C76 hold for arbitrary parsers and formatters"
  },
  {
   "property": "C102",
   "status": "proved",
   "theorems": [
    "GaussQuad.Props.C102_log",
    "GaussQuad.Props.C102_log_end",
    "GaussQuad.Props.C102_log_outside",
    "GaussQuad.Props.C102_pole_first",
    "GaussQuad.Props.C102_pole_second"
   ],
   "note": "real arithmetic; T_n and U_n are Mathlib's Chebyshev polynomials"
  },
  {
   "property": "C103",
   "status": "proved",
   "theorems": [
    "GaussQuad.Props.C103_binary64",
    "GaussQuad.Props.C103_binary64_value",
    "GaussQuad.Props.C103_linear",
    "GaussQuad.Props.C103_rate",
    "GaussQuad.Props.C103_sorted",
    "GaussQuad.Props.C103_unsorted",
    "GaussQuad.Props.C103_value"
   ],
   "note": "real arithmetic, and binary64 with a backward stable solver; the overwriting of the middle node is the behaviour of the code at the pinned commit, also seen in C12 and C34"
  },
  {
   "property": "C104",
   "status": "proved",
   "theorems": [
    "GaussQuad.Props.C104_hermite",
    "GaussQuad.Props.C104_jacobi",
    "GaussQuad.Props.C104_laguerre"
   ],
   "note": "real arithmetic with the exact eigen-solver"
  },
  {
   "property": "C105",
   "status": "proved",
   "theorems": [
    "GaussQuad.Props.C105_chebyshev",
    "GaussQuad.Props.C105_hermite_even",
    "GaussQuad.Props.C105_hermite_odd",
    "GaussQuad.Props.C105_jacobi_even",
    "GaussQuad.Props.C105_jacobi_odd"
   ],
   "note": "real arithmetic with the exact eigen-solver; c is the ratio of the gamma values computed by the code to the true ones"
  },
  {
   "property": "C106",
   "status": "proved",
   "theorems": [
    "GaussQuad.Props.C106_hermite",
    "GaussQuad.Props.C106_hermite_poly",
    "GaussQuad.Props.C106_hermite_unique",
    "GaussQuad.Props.C106_jacobi",
    "GaussQuad.Props.C106_jacobi_poly",
    "GaussQuad.Props.C106_jacobi_unique",
    "GaussQuad.Props.C106_laguerre",
    "GaussQuad.Props.C106_laguerre_poly",
    "GaussQuad.Props.C106_laguerre_unique"
   ],
   "note": "real arithmetic with the exact eigen-solver; the polynomials are Mathlib's hermite and the explicit sums of Spec/Classical"
  },
  {
   "property": "C107",
   "status": "proved",
   "theorems": [
    "GaussQuad.Props.C107_jacobi_alpha",
    "GaussQuad.Props.C107_jacobi_beta",
    "GaussQuad.Props.C107_jacobi_half",
    "GaussQuad.Props.C107_jacobi_value",
    "GaussQuad.Props.C107_laguerre",
    "GaussQuad.Props.C107_laguerre_value"
   ],
   "note": "real arithmetic with the exact eigen-solver; continuity at the delegated pairs (0, 0), (-1/2, -1/2) and next to alpha + beta = -1 is C109"
  },
  {
   "property": "C108",
   "status": "proved",
   "theorems": [
    "GaussQuad.Props.C108_chebyshev",
    "GaussQuad.Props.C108_hermite",
    "GaussQuad.Props.C108_hermite_cos",
    "GaussQuad.Props.C108_laguerre",
    "GaussQuad.Props.C108_legendre"
   ],
   "note": "real arithmetic; Golub-Welsch rules with the exact eigen-solver"
  },
  {
   "property": "C109",
   "status": "proved",
   "theorems": [
    "GaussQuad.Props.C109_line",
    "GaussQuad.Props.C109_minus_half",
    "GaussQuad.Props.C109_zero"
   ],
   "note": "real arithmetic with the exact eigen-solver; (1/2, 1/2) is C107_jacobi_half"
  },
  {
   "property": "C110",
   "status": "proved",
   "theorems": [
    "GaussQuad.Props.C110_inside",
    "GaussQuad.Props.C110_outside",
    "GaussQuad.Props.C110_overflow"
   ],
   "note": "binary64; assumes sine and cosine accurate to 2^-52, as in C52 and C56; degrees from 2^29 on are C100"
  },
  {
   "property": "C111",
   "status": "proved",
   "theorems": [
    "GaussQuad.Props.C111_finite_interval",
    "GaussQuad.Props.C111_hermite",
    "GaussQuad.Props.C111_jacobi",
    "GaussQuad.Props.C111_laguerre"
   ],
   "note": "real arithmetic; for the Golub-Welsch rules with the exact eigen-solver"
  },
  {
   "property": "C112",
   "status": "proved",
   "theorems": [
    "GaussQuad.Props.C112_jacobi",
    "GaussQuad.Props.C112_jacobi_binary64",
    "GaussQuad.Props.C112_laguerre",
    "GaussQuad.Props.C112_laguerre_binary64"
   ],
   "note": "binary64 parts assume a backward stable eigen-solver and accurate library functions, and parameters as in C62 and C64"
  },
  {
   "property": "C113",
   "status": "proved",
   "theorems": [
    "GaussQuad.Props.C113_chebyshev",
    "GaussQuad.Props.C113_jacobi",
    "GaussQuad.Props.C113_legendre"
   ],
   "note": "real arithmetic; Gauss-Jacobi with the exact eigen-solver; the Newton-Cotes analogue is C29_modulus"
  },
  {
   "property": "C114",
   "status": "proved",
   "theorems": [
    "GaussQuad.Props.C114_first",
    "GaussQuad.Props.C114_first_bound",
    "GaussQuad.Props.C114_second"
   ],
   "note": "real arithmetic"
  },
  {
   "property": "C115",
   "status": "proved",
   "theorems": [
    "GaussQuad.Props.C115_chebyshev_first",
    "GaussQuad.Props.C115_chebyshev_second",
    "GaussQuad.Props.C115_jacobi",
    "GaussQuad.Props.C115_legendre",
    "GaussQuad.Props.C115_newton_cotes"
   ],
   "note": "binary64 with the backend contracts of C55, C57, C58 and C65"
  },
  {
   "property": "C116",
   "status": "proved",
   "theorems": [
    "GaussQuad.Props.C116_chebyshev_second",
    "GaussQuad.Props.C116_jacobi",
    "GaussQuad.Props.C116_legendre"
   ],
   "note": "real arithmetic; Gauss-Jacobi with an exact eigensolver"
  },
  {
   "property": "C117",
   "status": "proved",
   "theorems": [
    "GaussQuad.Props.C117_hermite",
    "GaussQuad.Props.C117_hermite_lipschitz",
    "GaussQuad.Props.C117_laguerre"
   ],
   "note": "real arithmetic with an exact eigensolver"
  },
  {
   "property": "C118",
   "status": "proved",
   "theorems": [
    "GaussQuad.Props.C118_grid",
    "GaussQuad.Props.C118_scale",
    "GaussQuad.Props.C118_scale_par"
   ],
   "note": "binary64"
  },
  {
   "property": "C119",
   "status": "proved",
   "theorems": [
    "GaussQuad.Props.C119_gauss",
    "GaussQuad.Props.C119_infinite",
    "GaussQuad.Props.C119_midpoint",
    "GaussQuad.Props.C119_schedule",
    "GaussQuad.Props.C119_sum"
   ],
   "note": "binary64; C25_not_bitwise shows that some condition is needed"
  },
  {
   "property": "C120",
   "status": "proved",
   "theorems": [
    "GaussQuad.Props.C120_change",
    "GaussQuad.Props.C120_change_par",
    "GaussQuad.Props.C120_points"
   ],
   "note": "binary64; integrate, and par_integrate with the same schedule over both intervals"
  },
  {
   "property": "C121",
   "status": "proved",
   "theorems": [
    "GaussQuad.Props.C121_any",
    "GaussQuad.Props.C121_depth",
    "GaussQuad.Props.C121_gauss",
    "GaussQuad.Props.C121_halve",
    "GaussQuad.Props.C121_pieces",
    "GaussQuad.Props.C121_rayon",
    "GaussQuad.Props.C121_sum"
   ],
   "note": "binary64; that rayon splits only at half the length is taken from rayon's documentation of bridge_producer_consumer, not from /repo; C121_any does not need it"
  },
  {
   "property": "C122",
   "status": "proved",
   "theorems": [
    "GaussQuad.Props.C122_forward",
    "GaussQuad.Props.C122_integrate",
    "GaussQuad.Props.C122_par",
    "GaussQuad.Props.C122_positive",
    "GaussQuad.Props.C122_rayon"
   ],
   "note": "the points are those computed in binary64; underflow is excluded by hypotheses on the exact intermediate quantities (StepNormal, TermsNormal)"
  },
  {
   "property": "C123",
   "status": "proved",
   "theorems": [
    "GaussQuad.Props.C123_add",
    "GaussQuad.Props.C123_add_par",
    "GaussQuad.Props.C123_scale",
    "GaussQuad.Props.C123_scale_par"
   ],
   "note": "underflow is excluded by the hypotheses of C122"
  },
  {
   "property": "C124",
   "status": "proved",
   "theorems": [
    "GaussQuad.Props.C124_composite",
    "GaussQuad.Props.C124_composite_par",
    "GaussQuad.Props.C124_constant",
    "GaussQuad.Props.C124_range",
    "GaussQuad.Props.C124_range_par"
   ],
   "note": "underflow is excluded by the hypotheses of C122"
  },
  {
   "property": "C125",
   "status": "proved",
   "theorems": [
    "GaussQuad.Props.C125_concave",
    "GaussQuad.Props.C125_convex",
    "GaussQuad.Props.C125_simpson"
   ],
   "note": "the integrand is a program computing a real function up to eta, as in C58"
  },
  {
   "property": "C126",
   "status": "proved",
   "theorems": [
    "GaussQuad.Props.C126_monotone"
   ],
   "note": "the integrand is a program computing a real function up to eta, as in C58"
  },
  {
   "property": "C127",
   "status": "proved",
   "theorems": [
    "GaussQuad.Props.C127_e",
    "GaussQuad.Props.C127_pi",
    "GaussQuad.Props.C127_pi_below"
   ],
   "note": "the values of core::f64::consts are part of the binary64 instance of the model, not of /repo"
  },
  {
   "property": "C128",
   "status": "proved",
   "theorems": [
    "GaussQuad.Props.C128_add",
    "GaussQuad.Props.C128_conversions",
    "GaussQuad.Props.C128_div",
    "GaussQuad.Props.C128_mul",
    "GaussQuad.Props.C128_sub"
   ],
   "note": "the standard is stated in Spec/IEEE and Spec/Arithmetic on decoded bit patterns; payload and sign of a NaN are left open"
  }
 ]
}