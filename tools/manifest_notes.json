{
 "C01": {
  "note": "all 2^64 bit patterns",
  "status": "proved"
 },
 "C02": {
  "note": "every reachable value of the parameter type is finite and above -1 (constructors and checked arithmetic; serde is C07)",
  "status": "proved"
 },
 "C03": {
  "note": "result is the correctly rounded real operation (independent IEEE specification), None exactly when that is not valid",
  "status": "proved"
 },
 "C04": {
  "note": "TryFrom and FromStr (decimal parser as a parameter)",
  "status": "proved"
 },
 "C05": {
  "note": "comparison agrees with the order of the real values",
  "status": "proved"
 },
 "C06": {
  "note": "round trip through f64",
  "status": "proved"
 },
 "C07": {
  "note": "REFUTED, not confirmed: \"proved\" refers to the refutation and the exact description of the failing cases. the claim is false: C07_refuted gives the payload; C07_exactly_partial and C07_bad_payloads say exactly which payloads break it",
  "status": "proved"
 },
 "C08": {
  "note": "all arithmetic instances, every degree, arbitrary eigen-solver of the right shape",
  "status": "proved"
 },
 "C09": {
  "note": "every rule value, any contents",
  "status": "proved"
 },
 "C10": {
  "note": "simulation against an abstract deque, all operation sequences",
  "status": "proved"
 },
 "C11": {
  "note": "simulation against an abstract deque, all operation sequences, exact integer values for n < 2^32",
  "status": "proved"
 },
 "C12": {
  "status": "proved",
  "note": "REFUTED IN PART (odd Jacobi degrees): \"proved\" refers to the remaining cases and to the refutation. sorted for Hermite, Laguerre and even Jacobi whatever the eigen-solver returns, strictly for both Chebyshev rules and Legendre (all degrees, exact arithmetic); the claim is false for odd Jacobi, as the statement expects (C12_jacobi_odd_refuted)"
 },
 "C13": {
  "note": "pairs are a permutation of (eigenvalue, scale * component^2)",
  "status": "proved"
 },
 "C14": {
  "note": "entries of the companion matrix and the indices passed to diag/off_diag",
  "status": "proved"
 },
 "C15": {
  "note": "every rule, arbitrary lawful monad, state threading, panics",
  "status": "proved"
 },
 "C16": {
  "note": "evaluation points as a permutation of the documented grid, and coefficients",
  "status": "proved"
 },
 "C17": {
  "note": "nested integration is the double weighted sum, call count, order of nesting",
  "status": "proved"
 },
 "C18": {
  "note": "all nine rule structs",
  "status": "proved"
 },
 "C19": {
  "status": "proved",
  "note": "all rules"
 },
 "C20": {
  "status": "proved",
  "note": "REFUTED IN PART (Legendre of odd degree above 100): \"proved\" refers to the remaining cases and to the refutation. Newton-Cotes, Chebyshev, symmetric Jacobi, Legendre of degree <= 100 or even; the claim is FALSE for Legendre of odd degree > 100 in exact arithmetic (C20_legendre_odd_refuted): the asymptotic middle node is not 0; Legendre of odd degree above 100: exact defect formula with the two middle function values (exact negation is refuted at 101)"
 },
 "C21": {
  "note": "IEEE, all bounded rules, finite coefficients",
  "status": "proved"
 },
 "C22": {
  "note": "reduction to [-1,1] and affine equivariance",
  "status": "proved"
 },
 "C24": {
  "note": "every schedule, every arithmetic",
  "status": "proved"
 },
 "C25": {
  "note": "exact arithmetic: equality for every rule and schedule; IEEE: error bound for every schedule and list of terms, difference bound, and a witness that bitwise equality fails",
  "status": "proved"
 },
 "C26": {
  "note": "every sequence of change_degree calls",
  "status": "proved"
 },
 "C35": {
  "note": "REFUTED, not confirmed: \"proved\" refers to the refutation and the exact description of the failing cases. the claim is false: on the line alpha+beta=-1 all weights are NaN in IEEE arithmetic whatever the eigen-solver returns",
  "status": "proved"
 },
 "C36": {
  "note": "all n, k; table shapes by kernel evaluation lifted by a lemma",
  "status": "proved"
 },
 "C39": {
  "status": "proved",
  "note": "delegation exactly at the three pairs; same bits from the methods; conversions keep the pairs"
 },
 "C43": {
  "status": "proved",
  "note": "all rules exactly; Legendre, whose stored and asymptotic weights are rounded, up to 5e-15 at every degree"
 },
 "C45": {
  "note": "REFUTED IN PART (degree usize::MAX): \"proved\" refers to the remaining cases and to the refutation. the claim is false at usize::MAX (refuted with witness); proved for all other degrees",
  "status": "proved"
 },
 "C46": {
  "note": "m*n refinement and the Simpson blend",
  "status": "proved"
 },
 "C30": {
  "status": "proved",
  "note": "exact-arithmetic model; interval [-1,1] and every [a,b]"
 },
 "C31": {
  "status": "proved",
  "note": "exact-arithmetic model; interval [-1,1] and every [a,b]"
 },
 "C23": {
  "status": "proved",
  "note": "REFUTED IN PART (strict inclusion in binary64, and inclusion with overflow or subnormal panels): \"proved\" refers to the remaining cases and to the refutation. exact arithmetic: all rules; binary64: midpoint, trapezoid and Simpson points are finite and in [a,b] for every interval without overflow or subnormal panels; counterexamples outside those hypotheses"
 },
 "C41": {
  "status": "proved",
  "note": "both Chebyshev rules with explicit error bound; Gauss-Jacobi along all degrees, even with the overwritten middle node; Gauss-Legendre of degree n > 100 with an explicit bound: best polynomial approximation error of degree 2n-1 plus the data accuracy"
 },
 "C42": {
  "status": "proved",
  "note": "all Gauss rules"
 },
 "C32": {
  "status": "proved",
  "note": "every exact eigen-decomposition, every n, every polynomial of degree at most 2n-1"
 },
 "C33": {
  "status": "proved",
  "note": "up to the explicit factor gamma(alpha+1)/Gamma(alpha+1) of the crate's gamma approximation; C33_true_integral: relative error at most 2e-12 against the true integral"
 },
 "C34": {
  "status": "proved",
  "note": "REFUTED IN PART (odd n >= 3 with alpha != beta): \"proved\" refers to the remaining cases and to the refutation. proved for even n, n=1, alpha=beta and the Chebyshev delegations; refuted for every odd n>=3 with alpha != beta (off the line alpha+beta=-1, see C35); C34_true_integral: relative error at most 6e-12 against the true integral at even degrees"
 },
 "C40": {
  "status": "proved",
  "note": "sign, reflection and pole of the Lanczos gamma in exact arithmetic"
 },
 "C44": {
  "status": "proved",
  "note": "every exact eigen-decomposition"
 },
 "C47": {
  "status": "proved",
  "note": "result independent of the eigen-solver; general branch agrees with the Chebyshev delegation up to the gamma factor"
 },
 "C48": {
  "status": "proved",
  "note": "reflection under exchange of the parameters, Hermite symmetry, Markov monotonicity of the nodes at even degrees"
 },
 "C27": {
  "status": "proved",
  "note": "exact-arithmetic model; any interval orientation, any C^2 integrand; sharpness on x^2"
 },
 "C28": {
  "status": "proved",
  "note": "exact-arithmetic model; any interval orientation, any C^4 integrand; sharpness on x^4"
 },
 "C29": {
  "status": "proved",
  "note": "the crate's loops compute the composite sums (C29_formula); explicit modulus-of-continuity bound; the composite sums converge for every continuous integrand (stated for all n, because a rule has fewer than 2^32 panels)"
 },
 "C37": {
  "status": "proved",
  "note": "REFUTED IN PART (the middle node of odd degrees above 100): \"proved\" refers to the remaining cases and to the refutation. all degrees; the one false instance of the claim is the middle node of odd degrees > 100, which is within 0.052/(n+1/2) of 0 but not 0 (C37_middle_refuted); for odd n > 100 the Legendre middle node is within 7.5e-17 of 0 (exactly 0 is refuted at 101)"
 },
 "C38": {
  "status": "proved",
  "note": "all degrees 1..100, every table entry: the true Gauss-Legendre rule (roots of P_n, Christoffel numbers) exists and the stored nodes are within 2e-16, the weights within 5e-17 of it; near-exactness for all polynomials of degree <= 2n-1 on every interval with an explicit bound. The tables are checked by kernel evaluation of exact integer arithmetic (Legendre recurrence, cosine series) whose soundness is proved."
 },
 "C49": {
  "status": "proved",
  "note": "REFUTED IN PART (the documented 16 digits): \"proved\" refers to the remaining cases and to the refutation. relative error at most 2e-12 at every real number that is not a pole; the documented 16 digits are refuted at x = 50 (error above 1e-13)"
 },
 "C50": {
  "status": "proved",
  "note": "all n > 100 in exact arithmetic on the decimal constants of the source: nodes within 7.5e-17 of the roots of P_n, weights within relative 1e-15. Method: Legendre's equation is transformed to a perturbed Bessel equation, the truncated phase series and the tabulated and asymptotic Bessel zeros are bounded against it by ODE comparison and Taylor models."
 },
 "C51": {
  "status": "proved",
  "note": "exact arithmetic on the decimal constants of the source; J0 and J1 are specified by their power series, the numbering by the number of zeros in (0, z]"
 },
 "C52": {
  "status": "proved",
  "note": "contract on the backend is Spec.AccurateTrig (satisfiable: accurateTrig_exists); the model's binary64 operations are correctly rounded. Method: forward error analysis of compute_pair with checked constants, composed with C38 and C50."
 },
 "C53": {
  "status": "proved",
  "note": "against the decoded IEEE interchange format and the documented bit manipulation of f64::total_cmp on BitVec 64"
 },
 "C54": {
  "status": "proved",
  "note": "from C52's error bounds and lower bounds on the spacing of the exact nodes (LegendreAngles.gap, .edge). Beyond about 3*10^7 neighbouring nodes near the ends are closer than the error bound, hence the range."
 },
 "C55": {
  "status": "proved",
  "note": "C52 for the rule, forward error analysis for the transformation, the products, both ways of summing and the scaling; finiteness is part of the conclusion. Spec.Computes states what the integrand has to satisfy."
 },
 "C56": {
  "status": "proved",
  "note": "error analysis of the closed formulas and lower bounds on the spacing of cosines. The weights of the second kind are accurate relative to pi/(n+1), not to themselves: near theta = pi the rounding of the angle is amplified."
 },
 "C57": {
  "status": "proved",
  "note": "same error analysis as C55 (Proofs/F64Gauss), applied to the explicit Chebyshev sums; exactness for polynomials from C30/C31's lemmas."
 },
 "C58": {
  "status": "proved",
  "note": "forward error analysis of panel width, points, sums and combination in Proofs/F64NewtonCotes; the truncation part is C27/C28."
 },
 "C59": {
  "status": "proved",
  "note": "forward error analysis (Proofs/F64Gamma) with the condition number of the Lanczos series bounded by 5000, added to the truncation error of C49. Beyond 151 the power approaches the overflow threshold and nothing is claimed. Negative arguments are covered on (-1, 0) away from the poles, the only negative ones the crate itself uses (scale factor of Gauss-Jacobi)."
 },
 "C60": {
  "status": "proved",
  "note": "relative to the contract Spec.StableSolver on the external eigen-solver (satisfiable: SolverExists) and AccurateSqrt. The perturbation bounds (Proofs/Perturb) need no gap between eigenvalues: Weyl's inequality and a coupling argument for the weights."
 },
 "C61": {
  "status": "proved",
  "note": "C60 plus the summation analysis of F64Sum; nodes of the exact rule are bounded by sqrt(2n) via row sums."
 },
 "C62": {
  "status": "proved",
  "note": "assumes a backward stable eigen-solver (Spec.StableSolver, met by the rounded exact solver) and the backend contracts AccurateTrig, AccuratePow, AccurateSqrt; parameter at most 150"
 },
 "C63": {
  "status": "proved",
  "note": "same assumptions as C62; the integrand is needed slightly below 0 because a computed node may be negative by up to eta"
 },
 "C64": {
  "status": "proved",
  "note": "assumes a backward stable eigen-solver (Spec.StableSolver, met by the rounded exact solver) and the backend contracts AccurateTrig, AccuratePow, AccurateSqrt; parameters at most 70 and |alpha + beta + 1|, alpha + beta + 2 >= 1/1000 (AccurateSinNeg when alpha + beta < -1); odd degrees with alpha != beta excluded because the code is wrong there (C34)"
 },
 "C65": {
  "status": "proved",
  "note": "same assumptions as C64; the integrand is needed slightly outside [a, b] because a computed node may exceed 1 by up to eta"
 },
 "C66": {
  "status": "proved",
  "note": "real-number model with an exact eigen-solver (Spec.ExactSolver, met by exactSolver_exists); Legendre needs no solver; odd-degree Jacobi with alpha != beta excluded because the code is wrong there (C34)"
 },
 "C67": {
  "status": "proved",
  "note": "combines C55, C57, C61, C63, C65 with the remainder bounds behind C66; same backend and solver assumptions as those; the delegated Jacobi pairs by C39"
 },
 "C68": {
  "status": "proved",
  "note": "real-number model with an exact eigen-solver (Spec.ExactSolver, met by exactSolver_exists); extends C41 to the unbounded domains"
 },
 "C69": {
  "status": "proved",
  "note": "real-number model with an exact eigen-solver; Gauss-Legendre is left out because the crate's nodes and weights are not exact"
 },
 "C70": {
  "status": "proved",
  "note": "every FloatOps backend (C70_exact: reals); rayon::join executes both closures and re-raises a panic afterwards, as its documentation states; one call of the integrand is atomic; the panic payload is not represented"
 },
 "C71": {
  "status": "proved",
  "note": "exact arithmetic with an exact eigen-solver; Gauss-Jacobi only where the stored rule is a Gauss rule (C34)"
 },
 "C72": {
  "status": "proved",
  "note": "exact arithmetic with an exact eigen-solver; gamma factors |c-1| <= 2e-12 (Laguerre), 6e-12 (Jacobi)"
 },
 "C73": {
  "status": "proved",
  "note": "exact arithmetic; the bounds for Hermite, Laguerre and Jacobi are in terms of any bound W on the weights"
 },
 "C74": {
  "status": "proved",
  "note": "exact arithmetic with an exact eigen-solver; the limits of Laguerre and Jacobi carry the constant gamma factor of their weights (C33, C34)"
 },
 "C75": {
  "status": "proved",
  "note": "exact arithmetic with an exact eigen-solver; Laguerre and Jacobi carry the constant gamma factor of their weights (C33, C34)"
 },
 "C76": {
  "status": "proved",
  "note": "the library's formatting of f64 and of ParseFloatError is a parameter; the round trip assumes that plain library formatting of finite numbers parses back"
 },
 "C77": {
  "status": "proved",
  "note": "the converse is not claimed: finite inputs may overflow"
 },
 "C78": {
  "status": "proved",
  "note": "results that are NaN (overflow to infinities of both signs, infinity times zero) are excluded by hypothesis; par_integrate under two different schedules is not monotone"
 },
 "C79": {
  "status": "proved",
  "note": "the sign of a zero result is not compared (a sum starts from -0.0)"
 },
 "C80": {
  "status": "proved",
  "note": "the derive macros' expansion (field-wise comparison, slice comparison) is part of the transcription; the finite-degree limits of the accurate-backend part are those of C52 and C56"
 },
 "C81": {
  "status": "proved",
  "note": "operations are counted by running the model's functions on an arithmetic that carries a counter (Model/Counted); shared intermediate results are counted at every use, so the constants are upper bounds; comparisons, table look-ups, integer arithmetic and allocation are not counted"
 },
 "C82": {
  "status": "proved",
  "note": "Bernstein's approximation theorem is proved in Proofs/Bernstein from Cauchy's theorem on circles under the Joukowski map; Gauss-Jacobi under the same solver and gamma hypotheses as C28/C74"
 },
 "C83": {
  "status": "proved",
  "note": "proved by aliasing of Fourier coefficients (Proofs/Periodic); the binary64 form needs representable ends of the period"
 },
 "C84": {
  "status": "proved",
  "note": "exact arithmetic; integrability is proved, not assumed; continuity at the ends is not needed"
 },
 "C85": {
  "status": "proved",
  "note": "that collect reserves the whole slice before computing items, panics beyond isize::MAX bytes and aborts on refusal is assumed about the standard library and rayon; the matrices of the Golub-Welsch rules are allocated by nalgebra and not covered"
 },
 "C86": {
  "status": "proved",
  "note": "the code generated by serde's derive macros and the visitors of f64, tuples, Box<[T]> and NonZeroU32 are modelled from serde's documentation (Model/Serde), not from /repo; byte-level serde formats are not modelled; for rkyv and zerocopy see C98"
 },
 "C87": {
  "status": "proved",
  "note": "Jackson's theorem is proved with the Fejer-Korovkin kernel; Gauss-Jacobi up to the gamma factor and under the exact-solver hypothesis of C07, no binary64 version for it"
 },
 "C88": {
  "status": "proved",
  "note": "exact arithmetic except for C88_flat_binary64; Bernoulli numbers and polynomials are Mathlib's"
 },
 "C89": {
  "status": "proved",
  "note": "binary64: the inner integrand must be near a polynomial on its interval (C87 and the Bernstein bounds provide this); Hermite inner calls: polynomial in the inner variable; the accuracy of the math functions and of the eigenvalue solver are hypotheses as in C55 and C61"
 },
 "C90": {
  "status": "proved",
  "note": "exact arithmetic; the binary64 theorems of C89 compose level by level"
 },
 "C91": {
  "status": "proved",
  "note": "error bounds in exact arithmetic; the statement about the trapezoid and Simpson rules is about binary64"
 },
 "C92": {
  "status": "proved",
  "note": "the text of a single number, and of ParseFloatError, is a parameter (standard library); the word statements assume numbers are printed without blanks, i.e. no width padding"
 },
 "C93": {
  "status": "proved",
  "note": "the behaviour of nalgebra's matrix (plain usize product for the size, index assertion on the shape only, column-major positions) is assumed from knowledge of nalgebra 0.34, whose source is not available here; the out-of-bounds part is only as good as that assumption. Memory used inside symmetric_eigen and by the final collect() is a parameter"
 },
 "C94": {
  "status": "proved",
  "note": "for an exact eigen-solver (ExactSolver), over the reals"
 },
 "C95": {
  "status": "proved",
  "note": "for an exact eigen-solver (ExactSolver), over the reals; for |alpha| > 1/2 the constant K(alpha) is not explicit"
 },
 "C96": {
  "status": "proved",
  "note": "for an exact eigen-solver (ExactSolver), over the reals; the constant K(alpha, beta) is not explicit; odd degrees with alpha != beta are left out of the two spacing theorems because the constructor overwrites their middle node with 0 (DESIGN.md, section 3)"
 },
 "C97": {
  "status": "proved",
  "note": "over the reals; the bound includes the error of the crate's tables and asymptotic nodes; the documentation example's tolerance 1e-12 is proved in exact arithmetic only (the rounding bound for a million binary64 terms is larger)"
 },
 "C98": {
  "status": "proved",
  "note": "the sources of zerocopy and rkyv are not in the sandbox: their layout (little endian, 32-bit relative pointers, root last) is modelled from their documentation and is an assumption"
 },
 "C99": {
  "status": "proved",
  "note": "a finding: the crate documents every finite parameter above -1 as valid. Needs pow to overflow to +inf (PowOverflow: at 2^1025) and, for Gauss-Jacobi, the accuracy contracts on sin, cos and pow; a backend that meets all of them is shown to exist"
 },
 "C100": {
  "status": "proved",
  "note": "a finding: contrast C23, C37 (exact arithmetic, every degree) and C54, C56 (binary64, up to 10^7). The exact end nodes need CosEnds, what correct rounding gives next to the extrema of cos; C100_not_distinct needs only the usual accuracy"
 },
 "C101": {
  "status": "proved",
  "note": "the parser and the formatters of the standard library are modelled from their documentation (the sources of core are not in the sandbox): Model/FloatText; the grammar is in Spec/FloatGrammar. The digits are any shortest ones (ShortestDigits, shown to exist). C04, C06 and C76 hold for arbitrary parsers and formatters"
 },
 "C102": {
  "status": "proved",
  "note": "real arithmetic; T_n and U_n are Mathlib's Chebyshev polynomials"
 },
 "C103": {
  "status": "proved",
  "note": "real arithmetic, and binary64 with a backward stable solver; the overwriting of the middle node is the behaviour of the code at the pinned commit, also seen in C12 and C34"
 },
 "C104": {
  "status": "proved",
  "note": "real arithmetic with the exact eigen-solver"
 },
 "C105": {
  "status": "proved",
  "note": "real arithmetic with the exact eigen-solver; c is the ratio of the gamma values computed by the code to the true ones"
 },
 "C106": {
  "status": "proved",
  "note": "real arithmetic with the exact eigen-solver; the polynomials are Mathlib's hermite and the explicit sums of Spec/Classical"
 },
 "C107": {
  "status": "proved",
  "note": "real arithmetic with the exact eigen-solver; continuity at the delegated pairs (0, 0), (-1/2, -1/2) and next to alpha + beta = -1 is C109"
 },
 "C108": {
  "status": "proved",
  "note": "real arithmetic; Golub-Welsch rules with the exact eigen-solver"
 },
 "C109": {
  "status": "proved",
  "note": "real arithmetic with the exact eigen-solver; (1/2, 1/2) is C107_jacobi_half"
 },
 "C110": {
  "status": "proved",
  "note": "binary64; assumes sine and cosine accurate to 2^-52, as in C52 and C56; degrees from 2^29 on are C100"
 },
 "C111": {
  "status": "proved",
  "note": "real arithmetic; for the Golub-Welsch rules with the exact eigen-solver"
 },
 "C112": {
  "status": "proved",
  "note": "binary64 parts assume a backward stable eigen-solver and accurate library functions, and parameters as in C62 and C64"
 },
 "C113": {
  "status": "proved",
  "note": "real arithmetic; Gauss-Jacobi with the exact eigen-solver; the Newton-Cotes analogue is C29_modulus"
 },
 "C114": {
  "status": "proved",
  "note": "real arithmetic"
 },
 "C115": {
  "status": "proved",
  "note": "binary64 with the backend contracts of C55, C57, C58 and C65"
 },
 "C116": {
  "status": "proved",
  "note": "real arithmetic; Gauss-Jacobi with an exact eigensolver"
 },
 "C117": {
  "status": "proved",
  "note": "real arithmetic with an exact eigensolver"
 },
 "C118": {
  "status": "proved",
  "note": "binary64"
 },
 "C119": {
  "status": "proved",
  "note": "binary64; C25_not_bitwise shows that some condition is needed"
 },
 "C120": {
  "status": "proved",
  "note": "binary64; integrate, and par_integrate with the same schedule over both intervals"
 },
 "C121": {
  "status": "proved",
  "note": "binary64; that rayon splits only at half the length is taken from rayon's documentation of bridge_producer_consumer, not from /repo; C121_any does not need it"
 },
 "C122": {
  "status": "proved",
  "note": "the points are those computed in binary64; underflow is excluded by hypotheses on the exact intermediate quantities (StepNormal, TermsNormal)"
 },
 "C123": {
  "status": "proved",
  "note": "underflow is excluded by the hypotheses of C122"
 },
 "C124": {
  "status": "proved",
  "note": "underflow is excluded by the hypotheses of C122"
 },
 "C125": {
  "status": "proved",
  "note": "the integrand is a program computing a real function up to eta, as in C58"
 },
 "C126": {
  "status": "proved",
  "note": "the integrand is a program computing a real function up to eta, as in C58"
 },
 "C127": {
  "status": "proved",
  "note": "the values of core::f64::consts are part of the binary64 instance of the model, not of /repo"
 },
 "C128": {
  "status": "proved",
  "note": "the standard is stated in Spec/IEEE and Spec/Arithmetic on decoded bit patterns; payload and sign of a NaN are left open"
 }
}