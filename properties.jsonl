{"id": "C01", "title": "FiniteAboveNegOneF64::new accepts exactly the finite values above -1", "statement": "FiniteAboveNegOneF64::new(v) is Some if and only if v is not NaN, not infinite and v > -1.0; when it is Some(x), x.get() is bit-for-bit v (including -0.0 and subnormals).", "quantifier": "every one of the 2^64 f64 bit patterns", "why_tests_cant": "a unit test checks six literals; there are 2^64 inputs including NaN payloads, subnormals, signed zeros and the neighbours of -1.0", "anchors": ["src/data_api.rs: FiniteAboveNegOneF64::new, get"]}
{"id": "C02", "title": "No history of safe calls can produce an invalid parameter", "statement": "Every FiniteAboveNegOneF64 that a program can obtain through new, default, try_from, from_str and any finite chain of checked_add/sub/mul/div/pow holds a finite value strictly above -1.0, whatever the arguments and whatever pow returns.", "quantifier": "every finite sequence of constructor and checked_* calls with every argument, for every behaviour of the pow backend", "why_tests_cant": "the number of call chains is unbounded and the pow backend varies (libm or std)", "anchors": ["src/data_api.rs: FiniteAboveNegOneF64::{new,checked_add,checked_sub,checked_mul,checked_div,checked_pow,default}", "src/math.rs: pow"]}
{"id": "C03", "title": "checked_* return exactly the in-range IEEE result", "statement": "x.checked_op(y) is Some(r) exactly when the correctly rounded IEEE-754 result of get(x) op y is finite and above -1.0, and then r.get() is that result; in particular a NaN operand and any overflowing result give None, and dividing by zero gives None.", "quantifier": "every valid x and every f64 y, for op in add, sub, mul, div", "why_tests_cant": "2^128 operand pairs; overflow, signed zero, NaN and halfway rounding cases are measure-zero in sampling", "anchors": ["src/data_api.rs: checked_add, checked_sub, checked_mul, checked_div"]}
{"id": "C04", "title": "TryFrom and FromStr classify every input correctly", "statement": "try_from(v) is Ok(x) with f64::from(x) = v exactly when new(v) is Some, else Err(InfNanNegOneOrLessError). from_str(s) is Err(ParseError(e)) exactly when s does not parse as f64 with error e, Err(InvalidValue) exactly when it parses to NaN, an infinity or a value <= -1.0, and otherwise Ok of the parsed value.", "quantifier": "every f64 and every string, for every behaviour of the f64 parser", "why_tests_cant": "unbounded set of strings; three-way classification must be exhaustive and exclusive", "anchors": ["src/data_api.rs: TryFrom<f64>, FromStr, From<FiniteAboveNegOneF64> for f64, ParseFiniteAboveNegOneF64Error"]}
{"id": "C05", "title": "Comparison of parameters is total", "statement": "On values obtainable through the safe API == is reflexive, symmetric and transitive, partial_cmp never returns None, and both agree with the order of the represented real numbers (so -0.0 == 0.0), although f64 itself has neither property.", "quantifier": "every pair and triple of valid FiniteAboveNegOneF64 values", "why_tests_cant": "the claim fails for f64 in general (NaN), so it holds only because of the type's invariant, for all pairs", "anchors": ["src/data_api.rs: derive(PartialEq, PartialOrd) on FiniteAboveNegOneF64"]}
{"id": "C06", "title": "Printing and parsing a parameter round-trips", "statement": "For every valid x, parsing the Display / LowerExp / UpperExp output of x with FromStr succeeds and yields a value whose get() is bitwise equal to x.get(), provided the standard library's f64 formatting and parsing round-trip for finite values.", "quantifier": "every valid FiniteAboveNegOneF64", "why_tests_cant": "2^63 values; the range check in from_str must never reject what Display prints", "anchors": ["src/data_api.rs: Display, LowerExp, UpperExp, FromStr"]}
{"id": "C07", "title": "Deserialisation preserves the parameter invariant", "statement": "Whatever bytes are deserialised with the serde/rkyv/zerocopy derives, a FiniteAboveNegOneF64 always holds a finite value above -1.0 (this is what 'can only be created from finite non-NAN values above -1.0' promises). EXPECTED FALSE: the derives are structural and bypass new().", "quantifier": "every serialised f64 payload", "why_tests_cant": "requires looking at all payloads; also a negative result needs a proof that the checked route would have rejected the payload", "anchors": ["src/data_api.rs: cfg_attr(feature = serde / rkyv / zerocopy) derives on FiniteAboveNegOneF64", "src/lib.rs: module docs"]}
{"id": "C08", "title": "degree() is the requested degree and all views have that length", "statement": "For every rule built by new(n, ..) (and par_new), degree() = n and nodes(), weights(), iter(), into_iter(), as_node_weight_pairs() and into_node_weight_pairs() all yield exactly n items.", "quantifier": "every degree n >= 1 that fits in memory, every parameter value, every behaviour of the eigen-solver", "why_tests_cant": "unbounded n; odd/even, tabulated/asymptotic and special-case branches", "anchors": ["src/data_api.rs: __impl_node_weight_rule", "src/*/mod.rs: new", "src/golub_welsch.rs"]}
{"id": "C09", "title": "All views of a rule show the same pairs in the same order", "statement": "For every rule, zipping nodes() with weights() gives exactly iter(), into_iter(), as_node_weight_pairs() and into_node_weight_pairs(), element by element and in the same order.", "quantifier": "every rule value, any contents", "why_tests_cant": "must hold for every length and contents, and for each of six macro-generated types", "anchors": ["src/data_api.rs: __impl_node_weight_rule"]}
{"id": "C10", "title": "The iterators are correct double-ended, exact-size, fused iterators", "statement": "Under any interleaving of next, next_back, nth, nth_back, len, size_hint, and finally count or last, the iterators return what a deque holding the remaining items would return: nothing is lost, duplicated or reordered, len is always the exact remaining count, as_slice is the remaining items, and after exhaustion only None is returned.", "quantifier": "every finite sequence of iterator operations with every index argument, on every rule", "why_tests_cant": "unbounded operation sequences mixing both ends; skipping past the end from either side", "anchors": ["src/data_api.rs: __impl_slice_iterator_newtype_traits, as_slice, AsRef"]}
{"id": "C11", "title": "Node iterators of midpoint, trapezoid and Simpson yield 0,1,..,n-1", "statement": "iter() and into_iter() of Midpoint, Trapezoid and Simpson with degree n yield exactly the floats 0.0, 1.0, .., n-1 (each u32 converted exactly, no two equal), with the same double-ended behaviour as C10.", "quantifier": "every degree 1 <= n < 2^32 and every operation sequence", "why_tests_cant": "4 billion degrees; exactness of the u32 to f64 conversion for all values", "anchors": ["src/data_api.rs: __impl_node_rule"]}
{"id": "C12", "title": "Nodes are stored in ascending order", "statement": "Every rule stores its node-weight pairs sorted ascending by node according to f64::total_cmp (CHANGELOG 0.3.0). For Golub-Welsch rules this holds for whatever floats (even NaN) the eigen-solver returns. EXPECTED FALSE for GaussJacobi with odd degree: the middle node is overwritten with 0.0 after sorting.", "quantifier": "every degree, every parameter, every eigen-solver output", "why_tests_cant": "tests sample a few degrees and parameters for which the overwritten node happens to stay in order", "anchors": ["src/golub_welsch.rs: golub_welsch", "src/chebyshev/mod.rs: new", "src/legendre/mod.rs: new", "src/jacobi/mod.rs: new (lines 132-137)", "CHANGELOG.md 0.3.0"]}
{"id": "C13", "title": "Golub-Welsch keeps each node paired with its own weight", "statement": "The pairs produced from the eigen-solver output are exactly the pairs (eigenvalue i, scale * (first component of eigenvector i)^2), each appearing exactly once; sorting never separates a node from its weight.", "quantifier": "every degree, diag/off_diag functions, scale factor and eigen-solver output", "why_tests_cant": "pairing errors show up only for non-symmetric weights and large degrees", "anchors": ["src/golub_welsch.rs: golub_welsch"]}
{"id": "C14", "title": "The companion matrix is the symmetric tridiagonal Jacobi matrix", "statement": "The matrix handed to the eigen-solver has diag(i) at (i,i) for all i < n, off_diag(i) at (i,i+1) and (i+1,i) for all i < n-1 and zero elsewhere; diag is called on 0..n and off_diag on 0..n-1 only, and no index is out of bounds for any n >= 1.", "quantifier": "every degree n >= 1 and all coefficient functions", "why_tests_cant": "loop-boundary claim over all n", "anchors": ["src/golub_welsch.rs lines 32-41"]}
{"id": "C15", "title": "Gauss rules call the integrand once per node, in order, with its state threaded", "statement": "integrate of every node-weight rule calls the integrand exactly degree() times, on the (affinely transformed) nodes in stored order, threading the FnMut state; if a call panics no further call is made. The result is a fixed fold of value*weight products.", "quantifier": "every rule, interval, stateful or failing integrand", "why_tests_cant": "quantifies over all stateful closures", "anchors": ["src/legendre/mod.rs: integrate", "src/jacobi/mod.rs: integrate", "src/laguerre/mod.rs: integrate", "src/hermite/mod.rs: integrate", "src/chebyshev/mod.rs: integrate", "src/lib.rs docs 'Passing functions'"]}
{"id": "C16", "title": "Newton-Cotes rules call the integrand at exactly the documented points", "statement": "Midpoint(n) makes exactly n calls at a+(i+1/2)h; Trapezoid(n) makes exactly n+1 calls at a, b and a+ih for 0<i<n; Simpson(n) makes exactly 2n+1 calls at the n+1 subinterval ends and n midpoints; every point is used exactly once and with the documented coefficient (1,2,4 pattern for Simpson).", "quantifier": "every degree, interval, and stateful integrand", "why_tests_cant": "all degrees and all closures; off-by-one at the last midpoint is easy to miss", "anchors": ["src/midpoint/mod.rs: integrate", "src/trapezoid/mod.rs: integrate", "src/simpson/mod.rs: integrate and module docs"]}
{"id": "C17", "title": "Nested integration is the product rule", "statement": "rule1.integrate(a,b,|x| rule2.integrate(c(x),d(x),|y| f(x,y))) equals the double weighted sum over both rules' nodes, makes degree1*degree2 innermost calls, and for constant c,d the two orders of nesting agree (exact arithmetic).", "quantifier": "all rules, bounds, and integrands", "why_tests_cant": "unbounded", "anchors": ["src/lib.rs docs 'Double integrals'"]}
{"id": "C18", "title": "integrate is linear in the integrand", "statement": "In exact arithmetic integrate(s*f + t*g) = s*integrate(f) + t*integrate(g) for all eight rule types.", "quantifier": "all rules, degrees, intervals, scalars and integrands", "why_tests_cant": "quantifies over functions", "anchors": ["src/*/mod.rs: integrate"]}
{"id": "C19", "title": "integrate is positive and bounded by the integrand's range", "statement": "In exact arithmetic, if m <= f <= M at the evaluation points and a <= b then the result lies between m*(total weight) and M*(total weight); in particular f >= 0 gives a non-negative result.", "quantifier": "all rules, degrees, intervals a <= b and integrands", "why_tests_cant": "quantifies over functions; relies on every weight being non-negative for every degree", "anchors": ["src/*/mod.rs: integrate, new"]}
{"id": "C20", "title": "Swapping the bounds negates the result", "statement": "In exact arithmetic integrate(b, a, f) = -integrate(a, b, f) for Midpoint, Trapezoid, Simpson, GaussLegendre, both GaussChebyshev rules and GaussJacobi with alpha = beta. FOUND FALSE for GaussLegendre of odd degree above 100: the middle node computed from the asymptotic formula is not exactly 0 there, so the two results differ by a term in the two middle function values.", "quantifier": "all degrees, bounds and integrands", "why_tests_cant": "needs the node sets to be symmetric for every degree, incl. tabulated and asymptotic branches", "anchors": ["src/*/mod.rs: integrate", "src/legendre/bogaert/mod.rs"]}
{"id": "C21", "title": "An empty interval integrates to zero in floating point", "statement": "For every finite a, integrate(a, a, f) returns a (signed) zero in IEEE arithmetic for Midpoint, Trapezoid, Simpson and the Gauss rules with bounds, whenever the accumulated sum of (weighted) integrand values is finite; it returns NaN when that sum is infinite or NaN.", "quantifier": "every finite a, degree, integrand", "why_tests_cant": "all bit patterns of a and all integrand values, including overflow of b+a", "anchors": ["src/midpoint/mod.rs", "src/trapezoid/mod.rs", "src/simpson/mod.rs", "src/legendre/mod.rs"]}
{"id": "C22", "title": "Affine change of variables", "statement": "In exact arithmetic integrate(a,b,f) = (b-a)/2 * integrate(-1,1, x -> f((b-a)/2 x + (a+b)/2)) for Gauss rules with bounds, and for all bounded rules integrate(a,b,f) is unchanged under translating and scales linearly under dilating the interval and integrand together.", "quantifier": "all rules, bounds, integrands", "why_tests_cant": "quantifies over functions", "anchors": ["src/*/mod.rs: argument_transformation, scale_factor, integrate"]}
{"id": "C23", "title": "The integrand is only evaluated inside the integration interval", "statement": "Legendre and Chebyshev rules (and Midpoint) evaluate strictly inside (a,b) for a < b, Trapezoid and Simpson inside [a,b] with endpoints, Laguerre at positive points only. In IEEE arithmetic the points of Midpoint, Trapezoid and Simpson are finite and inside [a,b] for all degrees when no over/underflow occurs; strict inclusion is FOUND FALSE there, and so is inclusion without those conditions.", "quantifier": "all degrees, all a < b", "why_tests_cant": "users pass integrands singular or undefined outside the interval (e.g. ln x on [0,1]); one bad degree is enough", "anchors": ["src/*/mod.rs: integrate", "src/legendre/mod.rs par_integrate docs (ln x)"]}
{"id": "C24", "title": "par_new equals new under every schedule", "statement": "GaussLegendre::par_new, GaussChebyshevFirstKind::par_new and GaussChebyshevSecondKind::par_new produce exactly the same pairs in the same order as new, for every way the work is split over threads (bit-identical, no arithmetic laws needed).", "quantifier": "every degree and every split schedule", "why_tests_cant": "nondeterministic scheduling", "anchors": ["src/legendre/mod.rs: par_new", "src/chebyshev/mod.rs: par_new"]}
{"id": "C25", "title": "par_integrate equals integrate under every schedule", "statement": "In exact arithmetic par_integrate(f) = integrate(f) for every rule and every split schedule, the integrand is called at exactly the same multiset of points; in IEEE arithmetic the two differ only by summation rounding: both are within ((1+u)^k - 1)*sum|terms| of the exact sum, and for every rule, including the operations after the sum, |par_integrate - integrate| is at most the final factor times (((1+u)^k - 1) + ((1+u)^k' - 1))*sum|terms| plus 2^-1074. Bitwise equality is NOT guaranteed.", "quantifier": "every rule, integrand and reduction tree", "why_tests_cant": "nondeterministic scheduling; rounding", "anchors": ["src/*/mod.rs: par_integrate"]}
{"id": "C26", "title": "change_degree gives the rule new() would give", "statement": "After any sequence of change_degree calls, Midpoint, Trapezoid and Simpson behave exactly like a fresh rule of the last degree; From<NonZeroU32> equals new, and the iterator of each yields exactly as many nodes as the degree asked for.", "quantifier": "every sequence of change_degree calls", "why_tests_cant": "unbounded histories", "anchors": ["src/midpoint/mod.rs", "src/trapezoid/mod.rs", "src/simpson/mod.rs: change_degree, From"]}
{"id": "C27", "title": "Midpoint and trapezoid: exactness and error bound", "statement": "In exact arithmetic Midpoint and Trapezoid of every degree n integrate every polynomial of degree <= 1 exactly, and for twice continuously differentiable f with |f''| <= K the error is at most K|b-a|^3/(24 n^2) resp. K|b-a|^3/(12 n^2).", "quantifier": "all n, a, b, polynomials, C^2 integrands", "why_tests_cant": "quantifies over functions and degrees", "anchors": ["src/midpoint/mod.rs: integrate", "src/trapezoid/mod.rs: integrate"]}
{"id": "C28", "title": "Simpson: exactness and error bound", "statement": "In exact arithmetic Simpson of every degree n integrates every polynomial of degree <= 3 exactly, not every one of degree 4, and for four times continuously differentiable f with |f''''| <= K the error is at most K|b-a|^5/(2880 n^4).", "quantifier": "all n, a, b, polynomials, C^4 integrands", "why_tests_cant": "quantifies over functions and degrees", "anchors": ["src/simpson/mod.rs: integrate"]}
{"id": "C29", "title": "Newton-Cotes rules converge for continuous integrands", "statement": "For every continuous f on [a,b], in exact arithmetic the results of Midpoint(n), Trapezoid(n), Simpson(n) tend to the integral of f as n grows.", "quantifier": "all continuous f, all intervals", "why_tests_cant": "limit statement over all functions", "anchors": ["src/midpoint/mod.rs", "src/trapezoid/mod.rs", "src/simpson/mod.rs"]}
{"id": "C30", "title": "Gauss-Chebyshev (first kind) integrates degree 2n-1 exactly", "statement": "In exact arithmetic GaussChebyshevFirstKind::new(n).integrate(-1,1,p) equals the integral of p(x)/sqrt(1-x^2) over [-1,1] for every polynomial p of degree <= 2n-1, and on [a,b] the correspondingly transformed integral.", "quantifier": "all n >= 1, all polynomials of degree <= 2n-1, all a,b", "why_tests_cant": "quantifies over all polynomials and degrees", "anchors": ["src/chebyshev/mod.rs: GaussChebyshevFirstKind"]}
{"id": "C31", "title": "Gauss-Chebyshev (second kind) integrates degree 2n-1 exactly", "statement": "In exact arithmetic GaussChebyshevSecondKind::new(n).integrate(-1,1,p) equals the integral of p(x)*sqrt(1-x^2) over [-1,1] for every polynomial p of degree <= 2n-1, and on [a,b] the correspondingly transformed integral.", "quantifier": "all n >= 1, all polynomials of degree <= 2n-1, all a,b", "why_tests_cant": "quantifies over all polynomials and degrees", "anchors": ["src/chebyshev/mod.rs: GaussChebyshevSecondKind"]}
{"id": "C32", "title": "Gauss-Hermite integrates degree 2n-1 exactly", "statement": "In exact arithmetic with an exact symmetric eigen-solver GaussHermite::new(n).integrate(p) equals the integral of p(x)*exp(-x^2) over the real line for every polynomial p of degree <= 2n-1.", "quantifier": "all n >= 1, all polynomials of degree <= 2n-1, every exact eigen-decomposition", "why_tests_cant": "quantifies over all polynomials and degrees", "anchors": ["src/hermite/mod.rs", "src/golub_welsch.rs"]}
{"id": "C33", "title": "Gauss-Laguerre integrates degree 2n-1 exactly", "statement": "In exact arithmetic with an exact symmetric eigen-solver GaussLaguerre::new(n, alpha).integrate(p) equals gamma(alpha+1)/Gamma(alpha+1) times the integral of p(x)*x^alpha*exp(-x) over [0,inf) for every polynomial p of degree <= 2n-1 (the only deviation from exactness is the relative error of the crate's gamma approximation).", "quantifier": "all n >= 1, all alpha > -1, all polynomials of degree <= 2n-1, every exact eigen-decomposition", "why_tests_cant": "quantifies over all polynomials, degrees and parameters", "anchors": ["src/laguerre/mod.rs", "src/golub_welsch.rs", "src/math.rs: gamma"]}
{"id": "C34", "title": "Gauss-Jacobi integrates degree 2n-1 exactly", "statement": "In exact arithmetic with an exact eigen-solver GaussJacobi::new(n, alpha, beta).integrate(-1,1,p) equals (up to the gamma approximation's relative error) the integral of p(x)(1-x)^alpha(1+x)^beta for every polynomial of degree <= 2n-1 and all alpha, beta > -1. EXPECTED FALSE for odd n >= 3 with alpha != beta (the middle node is overwritten by 0).", "quantifier": "all n >= 1, alpha, beta > -1, polynomials of degree <= 2n-1", "why_tests_cant": "quantifies over all polynomials, degrees and parameters; the repo's own tests enshrine the wrong middle node", "anchors": ["src/jacobi/mod.rs: new, integrate", "src/golub_welsch.rs"]}
{"id": "C35", "title": "Gauss-Jacobi produces finite weights for every valid parameter pair", "statement": "For all degrees and all valid alpha, beta (with moderate size) the weights of GaussJacobi are finite. EXPECTED FALSE: for every pair with alpha + beta = -1 other than (-0.5,-0.5) and degree >= 2 the scale factor is NaN in IEEE arithmetic (x/gamma(0)/0), so all weights are NaN.", "quantifier": "all degrees, all valid parameter pairs, every behaviour of the eigen-solver", "why_tests_cant": "a measure-zero line in parameter space that no existing test touches", "anchors": ["src/jacobi/mod.rs lines 112-130", "src/math.rs: gamma"]}
{"id": "C36", "title": "GaussLegendre::new never panics", "statement": "For every degree n >= 1 building the rule performs no out-of-bounds table access and no integer underflow, in both the tabulated (n <= 100) and asymptotic (n > 100) branches, for every node index.", "quantifier": "all n >= 1, all 1 <= k <= n", "why_tests_cant": "all degrees and indices; table shapes", "anchors": ["src/legendre/bogaert/mod.rs", "src/legendre/bogaert/data.rs"]}
{"id": "C37", "title": "GaussLegendre nodes are interior, strictly increasing, symmetric, with positive symmetric weights", "statement": "In exact arithmetic, for every degree n >= 1 the nodes lie strictly between -1 and 1, are strictly increasing, node i = -node (n+1-i), the weights are positive and weight i = weight (n+1-i). FOUND FALSE in one place: at odd degrees above 100 the middle node is tiny but not 0, so it is not its own mirror image.", "quantifier": "all n >= 1 (tabulated and asymptotic branches)", "why_tests_cant": "infinitely many degrees; monotonicity across the k=20/21, n=100/101 and middle-of-range branch boundaries", "anchors": ["src/legendre/mod.rs: new", "src/legendre/bogaert/mod.rs: ThetaWeightPair::new, compute_pair, tabulated_pair"]}
{"id": "C38", "title": "Tabulated Gauss-Legendre values are correct", "statement": "For every n <= 100 every tabulated node is within 1e-15 of the corresponding true root of the Legendre polynomial P_n and every tabulated weight within 1e-15 of the true Gauss weight; hence integrate is exact for polynomials of degree <= 2n-1 up to an explicit tiny bound.", "quantifier": "all n <= 100, all nodes, all polynomials of degree <= 2n-1", "why_tests_cant": "5050 table entries would have to be compared with an independent exact computation", "anchors": ["src/legendre/bogaert/data.rs", "src/legendre/bogaert/mod.rs: tabulated_pair"]}
{"id": "C39", "title": "Jacobi delegation and conversions", "statement": "GaussJacobi::new delegates exactly when (alpha,beta) is (0,0), (-0.5,-0.5) or (0.5,0.5) (IEEE ==, so -0.0 counts as 0.0) and then has exactly the pairs of GaussLegendre / GaussChebyshevFirstKind / SecondKind; in binary64 its integrate and par_integrate then return the same bits as the methods of those rules; From conversions keep the pairs; alpha() and beta() always == the arguments (but need not be bit-identical for -0.0).", "quantifier": "all degrees, all parameter pairs", "why_tests_cant": "all bit patterns of the parameters", "anchors": ["src/jacobi/mod.rs: new, From impls, alpha, beta"]}
{"id": "C40", "title": "gamma takes the right branch and is well-defined on the whole parameter range", "statement": "In exact arithmetic the crate's gamma is positive on x > 0, continuous-branch consistent (reflection formula links the two branches exactly: gamma(x)*gamma(1-x)*sin(pi x) = pi for x < 1/2), and its denominators never vanish for arguments the constructors use (except x = 0). In binary64 gamma(0.0) is not finite if sin(0.0) is a zero.", "quantifier": "all real x > -1, x != 0", "why_tests_cant": "uncountable domain", "anchors": ["src/math.rs: gamma"]}
{"id": "C41", "title": "Gauss rules on finite intervals converge for every continuous integrand", "statement": "In exact arithmetic, for every continuous f on [a,b], GaussChebyshevFirstKind(n) and SecondKind(n) and Gauss-Jacobi converge to the weighted integral as n grows; GaussLegendre(n) comes within the accuracy of its stored data of the integral.", "quantifier": "all continuous f", "why_tests_cant": "limit over degrees, all functions", "anchors": ["src/chebyshev/mod.rs", "src/jacobi/mod.rs"]}
{"id": "C42", "title": "Degree 2n-1 is sharp", "statement": "For each Gauss rule and each n there is a polynomial of degree 2n that the rule integrates incorrectly (so users must pick n with 2n-1 >= degree, as the docs say, and cannot do better).", "quantifier": "all n, all parameters", "why_tests_cant": "existential for each of infinitely many rules", "anchors": ["src/lib.rs docs: 'Select the degree, n, such that 2n-1 is the largest degree'"]}
{"id": "C43", "title": "Weights sum to the total mass", "statement": "In exact arithmetic the weights of each Gauss rule sum to the integral of its weight function: pi, pi/2, sqrt(pi), gamma(alpha+1) and the Jacobi mass; Newton-Cotes rules integrate constants to c*(b-a).", "quantifier": "all degrees and parameters", "why_tests_cant": "all degrees", "anchors": ["src/*/mod.rs"]}
{"id": "C44", "title": "Golub-Welsch nodes are distinct, in the open support, with positive weights", "statement": "In exact arithmetic with an exact eigen-solver, for Hermite, Laguerre and Jacobi (before the odd-degree overwrite) all weights are strictly positive, the nodes are pairwise distinct, Laguerre nodes are positive and Jacobi nodes lie strictly in (-1,1).", "quantifier": "all degrees, parameters and exact eigen-decompositions", "why_tests_cant": "infinitely many rules", "anchors": ["src/golub_welsch.rs", "src/hermite/mod.rs", "src/laguerre/mod.rs", "src/jacobi/mod.rs"]}
{"id": "C45", "title": "Degree arithmetic at the usize limit", "statement": "For every degree that fits in usize new() yields a rule of that degree. EXPECTED FALSE at usize::MAX for Legendre/Chebyshev: degree.get()+1 overflows (panic with overflow checks, an empty rule with degree() = 0 in release builds).", "quantifier": "all usize values", "why_tests_cant": "cannot allocate such a rule in a test", "anchors": ["src/legendre/mod.rs: new", "src/chebyshev/mod.rs: new"]}
{"id": "C46", "title": "Refining a composite rule is consistent", "statement": "In exact arithmetic a Newton-Cotes rule of degree m*n on [a,b] equals the sum of degree-n rules on m equal subintervals (Midpoint, Trapezoid, Simpson), and Simpson(n) = (2*Midpoint(n) + Trapezoid(n))/3.", "quantifier": "all m, n, a, b, f", "why_tests_cant": "quantifies over functions and degrees", "anchors": ["src/midpoint/mod.rs", "src/trapezoid/mod.rs", "src/simpson/mod.rs"]}
{"id": "C47", "title": "The Golub-Welsch rules do not depend on the eigen-solver's freedom", "statement": "In exact arithmetic any two exact symmetric eigen-solvers (different order, signs, normalisation) give identical GaussHermite, GaussLaguerre and GaussJacobi rules; and the general branch of GaussJacobi at (0.5,0.5) would give the nodes of the Chebyshev rule it delegates to.", "quantifier": "all degrees, parameters and pairs of exact eigen-solvers", "why_tests_cant": "quantifies over solver implementations (nalgebra versions)", "anchors": ["src/golub_welsch.rs", "src/jacobi/mod.rs: new"]}
{"id": "C48", "title": "Symmetry and parameter monotonicity of Gauss-Jacobi and Gauss-Hermite", "statement": "In exact arithmetic exchanging alpha and beta mirrors the Jacobi rule: jacobi(beta,alpha).integrate(a,b,f) = jacobi(alpha,beta).integrate(a,b,x -> f(a+b-x)); Hermite rules are symmetric and integrate odd functions to 0; at even degrees every Jacobi node moves strictly left as alpha grows and right as beta grows.", "quantifier": "all degrees, parameters, functions, bounds", "why_tests_cant": "quantifies over functions and a continuum of parameters", "anchors": ["src/jacobi/mod.rs", "src/hermite/mod.rs"]}
{"id": "C49", "title": "Accuracy of the gamma function", "statement": "In exact arithmetic gamma(x) equals the true gamma function up to a relative error of 2e-12 at every real x that is not a pole; hence the Laguerre and Jacobi weights are those of the true Gauss rules up to 2e-12 and 6e-12. EXPECTED FALSE: the documented accuracy of 16 digits (the error of the formula itself is above 1e-13 at x = 50).", "quantifier": "all real x except the poles, all alpha, beta > -1", "why_tests_cant": "a test compares finitely many arguments; the existing ones have tolerances up to 1e-12 relative", "anchors": ["src/math.rs: gamma", "src/laguerre/mod.rs: new", "src/jacobi/mod.rs: new"]}
{"id": "C50", "title": "Gauss-Legendre rules above degree 100 are the true ones", "statement": "For every degree n > 100 each node computed from the asymptotic formulas is within 7.5e-17 of the corresponding root of the Legendre polynomial P_n, and each weight is within the relative error 1e-15 of the weight of the exact Gauss rule; hence integrate is nearly exact for polynomials up to degree 2n-1.", "quantifier": "all n > 100 with n + 1 < 2^64, all polynomials of degree at most 2n-1, all intervals", "why_tests_cant": "tests look at a handful of degrees and at a few integrands; there are unboundedly many degrees", "anchors": ["src/legendre/bogaert/mod.rs", "src/legendre/mod.rs: new"]}
{"id": "C51", "title": "The Bessel helpers return the k-th zero of J0 and J1 squared there", "statement": "For every k >= 1 bessel_j0_zero(k) is the k-th positive zero z of the Bessel function J0 up to a relative error of 1.05e-16 and an absolute error of 4.3e-15, and bessel_j1_squared(k) is J1(z)^2 up to a relative error of 5e-16; no zero is skipped or counted twice, in particular not at the switch from the table to the asymptotic formula.", "quantifier": "all k >= 1", "why_tests_cant": "the unit tests compare a few k with stored values; the asymptotic branch has infinitely many k and nothing tests the numbering", "anchors": ["src/legendre/bogaert/mod.rs: bessel_j0_zero, bessel_j1_squared", "src/legendre/bogaert/data.rs"]}
{"id": "C52", "title": "The binary64 Gauss-Legendre rule is close to the true one", "statement": "With every literal and every + - * / rounded to binary64, sin accurate to a relative 2^-52 and cos to an absolute 2^-52, GaussLegendre::new(n) returns n finite pairs; each node is within 3e-15 of the corresponding root of P_n and each weight w within 6e-15 w (up to degree 100: 6e-15 w + 6e-17) of the weight of the exact Gauss rule.", "quantifier": "all n >= 1 with n + 1 < 2^64, every math backend with the stated accuracy of sin and cos", "why_tests_cant": "a test can only look at some degrees; that rounding errors do not accumulate for any degree or any backend is not testable", "anchors": ["src/legendre/bogaert/mod.rs", "src/legendre/mod.rs: new", "src/math.rs"]}
{"id": "C53", "title": "Comparisons of f64 values follow the standard", "statement": "The order used by the parameter check is the order of IEEE 754 on decoded values with NaN unordered, equality identifies the two zeros only, and total_cmp, by which the Golub-Welsch nodes are sorted, is the order of the standard library's bit manipulation: a total order in which only identical bit patterns tie.", "quantifier": "all pairs of 64-bit patterns", "why_tests_cant": "2^128 pairs of bit patterns", "anchors": ["src/golub_welsch.rs: golub_welsch", "src/data_api.rs"]}
{"id": "C54", "title": "Order, range and signs of the binary64 Gauss-Legendre rule", "statement": "In binary64 with the backend accuracy of C52, GaussLegendre::new(n) returns n pairs with finite, strictly positive weights for every n; for n up to ten million the returned nodes are strictly increasing under f64's < and lie strictly between -1 and 1, so no two nodes collapse and no argument leaves the open interval.", "quantifier": "all n >= 1 with n + 1 < 2^64 for the weights, all n <= 10^7 for the nodes, every math backend with the stated accuracy", "why_tests_cant": "ten million degrees with up to ten million nodes each, on every platform's sin and cos", "anchors": ["src/legendre/bogaert/mod.rs", "src/legendre/mod.rs: new"]}
{"id": "C55", "title": "Gauss-Legendre integration in binary64 returns the integral up to an explicit rounding bound", "statement": "If g is bounded by M and Lipschitz with constant L near [a, b], |a|, |b| <= B, and the integrand program computes g there with absolute error e, then integrate of the n-point rule returns a finite f64 within |b-a| (1.01 k + (1e-14 + 1.2e-16 n)(M + k)) + 2^-500 of the exact Gauss sum, k = e + L (4e-15 B + 2^-1000), and par_integrate satisfies the same bound with n replaced by the number of roundings on the longest path of its reduction tree. For polynomials of degree up to 2n-1 the Gauss sum is the integral.", "quantifier": "all 1 <= n <= 10^12, all finite bounds up to 2^400 in either order, all integrands with such constants, all schedules, every math backend with the accuracy of C52", "why_tests_cant": "the bound quantifies over all integrands, bounds, degrees, thread schedules and math backends", "anchors": ["src/legendre/mod.rs: integrate, par_integrate, argument_transformation, scale_factor", "src/legendre/bogaert/mod.rs"]}
{"id": "C56", "title": "The binary64 Gauss-Chebyshev rules", "statement": "In binary64, with cos and sin accurate to an absolute 2^-52 on the angles used, GaussChebyshevFirstKind::new(n) returns n finite pairs whose i-th node is within 1.2e-15 of cos(pi (2(n-i)-1)/(2n)) and whose weights are positive and within a relative 1.6e-16 of pi/n; GaussChebyshevSecondKind::new(n) returns n finite pairs with nodes within 1.5e-15 of cos(pi (n-i)/(n+1)) and weights within 3.5e-15 pi/(n+1) of pi/(n+1) sin^2. For n up to ten million the nodes of both are strictly increasing under f64's < and strictly inside (-1, 1), and all weights are positive.", "quantifier": "all 1 <= n < 2^52 (order, range and the signs of the second kind: n <= 10^7), every math backend with the stated accuracy", "why_tests_cant": "the degrees and the backends cannot be enumerated; a collapsed pair of neighbouring nodes would only show at some large degree", "anchors": ["src/chebyshev/mod.rs: new, par_new"]}
{"id": "C57", "title": "Gauss-Chebyshev integration in binary64 returns the weighted integral up to an explicit rounding bound", "statement": "Under the hypotheses of C55 on the integrand, integrate of the n-point Gauss-Chebyshev rule of the first kind returns a finite f64 within |b-a| (1.6 k + (1e-15 + 1.8e-16 n)(M + k)) + 2^-500 of (b-a)/2 sum pi/n g(x_i), that of the second kind within |b-a| (0.8 k + (6e-15 + 9e-17 n)(M + k)) + 2^-500 of (b-a)/2 sum pi/(n+1) sin^2 g(x_i); par_integrate satisfies the same bounds with n replaced by the number of roundings on the longest path. For polynomials of degree up to 2n-1 these sums are the integrals against the transported weights.", "quantifier": "all 1 <= n <= 10^12, all finite bounds up to 2^400 in either order, all integrands with such constants, all schedules, every math backend with the stated accuracy", "why_tests_cant": "the bound quantifies over all integrands, bounds, degrees, thread schedules and math backends", "anchors": ["src/chebyshev/mod.rs: integrate, par_integrate, argument_transformation, scale_factor"]}
{"id": "C58", "title": "Newton-Cotes integration in binary64 returns the composite sum up to an explicit rounding bound", "statement": "Under the hypotheses of C55 on the integrand, integrate of Midpoint, Trapezoid and Simpson with N panels returns a finite f64 within |b-a| (1.01 k + (c + 1.2e-16 d)(M + k)) + 2^-500 of the composite sum at the exact points, c = 5e-16, 9e-16, 1.2e-15 and d = N, N-1, N-1; par_integrate satisfies the same bounds with d the number of roundings on the longest path (for Simpson the larger of the two sums). The composite sum is within K |b-a|^3/(24 N^2), K |b-a|^3/(12 N^2), K |b-a|^5/(2880 N^4) of the integral, K bounding the second, second and fourth derivative.", "quantifier": "all rules (1 <= N < 2^32), all finite bounds up to 2^400 in either order, all integrands with such constants, all schedules; no assumption on a math library", "why_tests_cant": "the bound quantifies over all integrands, bounds, panel counts and thread schedules", "anchors": ["src/midpoint/mod.rs: integrate, par_integrate", "src/trapezoid/mod.rs: integrate, par_integrate", "src/simpson/mod.rs: integrate, par_integrate"]}
{"id": "C59", "title": "The crate's gamma function in binary64 is accurate to 1.2e-11", "statement": "Run in binary64, rounding of every literal, of the alternating Lanczos series and of base and exponent of powf included, gamma(x) is finite and within 1.2e-11 |Gamma(x)| of Gamma(x), and positive for positive x, given sin and powf accurate to a relative 2^-52 (for negative x: sin accurate to an absolute 2^-52 on [-4, 0]).", "quantifier": "all finite f64 x with 2^-100 <= x <= 169 or -1 + 1/1100 <= x <= -1/1100, every math backend with the stated accuracy", "why_tests_cant": "about 2^59 arguments; the cancellation in the series could spoil any of them", "anchors": ["src/math.rs: gamma"]}
{"id": "C60", "title": "The binary64 Gauss-Hermite rule is close to the exact one", "statement": "If the eigen-solver is backward stable with constant e (its output is within e, in the Frobenius norm, of the exact decomposition of a matrix within a relative e of its input), GaussHermite::new(n) returns n finite pairs in ascending order with non-negative weights, the i-th node is within 1.23 n (e + 4u) of the i-th exact Gauss-Hermite node, and the quadrature sum of any function bounded by M with Lipschitz constant L is within sqrt(pi) (1.23 n (e + 4u) L + (2.01 e + 5u) M) of the exact rule's, u = 2^-53. Hence the weights add up to sqrt(pi) within a relative 2.01 e + 5u, and a single weight is accurate to sqrt(pi) (2 eta/gap + 2.01 e + 5u).", "quantifier": "all 1 <= n <= 10^12, all e <= 0.01, every solver with that property, every sqrt accurate to a relative 2^-52", "why_tests_cant": "the solver is external and platform dependent; the degrees are unbounded", "anchors": ["src/hermite/mod.rs: new", "src/golub_welsch.rs: golub_welsch"]}
{"id": "C61", "title": "Gauss-Hermite integration in binary64 returns the integral up to an explicit bound", "statement": "Under the hypotheses of C60, for an integrand computed with absolute error k whose exact counterpart is bounded by M and L-Lipschitz on [-B, B], B >= sqrt(2n) + eta, eta = 1.23 n (e + 4u), integrate returns a finite f64 within sqrt(pi) (L eta + (2.01 e + 5u) M + 1.05 k + 1.1 (n+1) u (M + k)) + 2^-1000 of the exact Gauss sum, which for polynomials of degree up to 2n-1 is the integral against exp(-x^2); par_integrate satisfies the same bound with n replaced by the number of roundings on the longest path.", "quantifier": "all 1 <= n <= 10^12, all integrands with such constants, all schedules, every solver and backend as in C60", "why_tests_cant": "quantifies over all integrands, degrees, schedules, solvers and backends", "anchors": ["src/hermite/mod.rs: integrate, par_integrate"]}
{"id": "C62", "title": "the binary64 Gauss-Laguerre rule is close to the exact rule for every parameter up to 168", "statement": "GaussLaguerre::new in binary64, for 1 <= n <= 10^12, every parameter alpha accepted by FiniteAboveNegOneF64::new with alpha <= 168, and a backward stable eigen-solver with constant e <= 0.01: the rule is finite, ascending, with non-negative weights; node i is within 1.74 sqrt(n) (2n + |alpha|) (e + 2^-51) of the i-th node of the exact Gauss rule for x^alpha exp(-x); for g bounded by M and L-Lipschitz the computed and exact quadrature sums differ by at most Gamma(alpha+1) times (L times the node error + (2.01 e + 1.3e-11) M).", "quantifier": "all 1 <= n <= 10^12, all binary64 parameters in (-1, 168], every backward stable solver, every backend with accurate sin (at negative arguments too when alpha + beta < -1), pow and sqrt", "why_tests_cant": "the parameter range is a continuum, the solver is external, and the conditioning of gamma near 0 and of the matrix for alpha near -1 is invisible to sampling", "anchors": ["src/laguerre/mod.rs: new", "src/golub_welsch.rs: golub_welsch", "src/math.rs: gamma"]}
{"id": "C63", "title": "Gauss-Laguerre integration in binary64 returns the integral up to an explicit bound", "statement": "Under the hypotheses of C62, for an integrand computed with absolute error k whose exact counterpart is bounded by M and L-Lipschitz on an interval containing [-eta, 4n + 2|alpha| + eta], eta the node error of C62, integrate returns a finite f64 within Gamma(alpha+1) (L eta + (2.01 e + 1.3e-11) M + 1.05 k + 1.1 (n+1) u (M + k)) + 2^-1000 of the exact Gauss sum, which for polynomials of degree up to 2n-1 is the integral against x^alpha exp(-x); par_integrate satisfies the same bound with n replaced by the number of roundings on the longest path.", "quantifier": "all 1 <= n <= 10^12, all binary64 parameters in (-1, 168], all integrands with such constants and Gamma(alpha+1) (M + k) <= 2^1012, all schedules, every solver and backend as in C62", "why_tests_cant": "quantifies over all integrands, degrees, parameters, schedules, solvers and backends", "anchors": ["src/laguerre/mod.rs: integrate, par_integrate"]}
{"id": "C64", "title": "the binary64 Gauss-Jacobi rule is close to the exact rule", "statement": "GaussJacobi::new in binary64, for 1 <= n <= 10^12, parameters alpha and beta accepted by FiniteAboveNegOneF64::new with alpha + beta <= 164 and 2^(alpha+beta+1) Gamma(alpha+1) Gamma(beta+1) <= 2^1000 (in particular all parameters up to 82), with |alpha + beta + 1| >= mu, alpha + beta + 2 >= mu and mu >= 1/1000, not a pair delegated to another rule, and n even or n = 1 or alpha = beta (at other odd degrees the rule is wrong, see C34), and a backward stable eigen-solver with constant e <= 0.01: construction succeeds, the rule is finite with non-negative weights; node i is within 3.6 sqrt(n) (e + 21 u / mu) of the i-th node of the exact Gauss rule; for g bounded by M and L-Lipschitz the computed and exact quadrature sums differ by at most the total weight times (L times the node error + (2.01 e + 4.2e-11) M); at even n the nodes are ascending, and at odd n they are ascending whenever the exact nodes are at least twice the node error apart.", "quantifier": "all 1 <= n <= 10^12, all binary64 parameter pairs in that range, every backward stable solver, every backend with accurate sin (at negative arguments too when alpha + beta < -1), pow and sqrt", "why_tests_cant": "the parameter range is a two-dimensional continuum, the solver is external, and cancellation in alpha + beta + 1 only shows near the boundary", "anchors": ["src/jacobi/mod.rs: new", "src/golub_welsch.rs: golub_welsch", "src/math.rs: gamma"]}
{"id": "C65", "title": "Gauss-Jacobi integration in binary64 returns the integral up to an explicit bound", "statement": "Under the hypotheses of C64 with node error eta <= 0.001, for finite bounds a, b of magnitude at most B <= 2^400 and an integrand computed with absolute error k whose exact counterpart is bounded by M and L-Lipschitz on an interval containing [a, b] with margin |b-a| eta/2 + t, t = 6 u B + 2^-1000, integrate returns a finite f64 within |b-a| m (0.26 L |b-a| eta + 0.501 (2.01 e + 4.2e-11) M + 0.53 k' + (0.56 n + 2.2) u (M + k')) + 2^-490 of (b-a)/2 times the exact Gauss sum, with k' = k + L t and m the total weight; for polynomials of degree up to 2n-1 the Gauss sum is the integral of g((b-a)/2 t + (a+b)/2) against the weight; par_integrate satisfies the same bound with n replaced by the number of roundings on the longest path.", "quantifier": "all degrees and parameters of C64, all finite bounds up to 2^400 in either order, all integrands with such constants and m (M + k' + L |b-a|) <= 2^500, all schedules, every solver and backend as in C64", "why_tests_cant": "quantifies over all integrands, bounds, degrees, parameters, schedules, solvers and backends", "anchors": ["src/jacobi/mod.rs: integrate, par_integrate, argument_transformation, scale_factor"]}
{"id": "C66", "title": "Gauss rules integrate smooth functions up to the classical remainder", "statement": "Over the reals with an exact eigen-solver: for an integrand with 2n continuous derivatives on the open domain and |g^(2n)| <= K there, g times the weight is integrable and the value returned by integrate differs from the integral by at most K/(2n)! times the integral of the squared monic orthogonal polynomial: sqrt(pi) n!/2^n (Hermite), n! Gamma(n+alpha+1) (Laguerre), the Jacobi constant (n even, n = 1 or alpha = beta), pi/2^(2n-1) and pi/2^(2n+1) (Chebyshev), with the factor (|b-a|/2)^(2n+1) on [a, b]; Laguerre and Jacobi up to the relative error of the gamma constants (2e-12, 6e-12). For Gauss-Legendre the bound is K (b-a)^(2n+1) (n!)^4/((2n+1) ((2n)!)^3) plus (b-a)(2.5e-15 M + 1e-16 L (b-a)) for the tables and the asymptotic formula. For a monic polynomial of degree 2n the remainder is attained exactly.", "quantifier": "all n >= 1 (n + 1 < 2^64 for Legendre and Chebyshev), all intervals, all parameters above -1 (Jacobi: alpha + beta != -1, pair not delegated to another rule), all integrands with 2n derivatives", "why_tests_cant": "quantifies over all smooth integrands and all degrees; a test can only check particular functions and cannot separate truncation error from rounding", "anchors": ["src/*/mod.rs: integrate", "src/golub_welsch.rs: golub_welsch"]}
{"id": "C67", "title": "total error of Gauss integration of a smooth function in binary64", "statement": "For each of the six Gauss rules, in binary64 with accurate sin, cos, pow, sqrt and a backward stable eigen-solver (as in C55, C57, C61, C63, C65): for an integrand computed with a given absolute error, bounded, Lipschitz, and with 2n continuous derivatives, integrate returns a finite number whose distance to the true weighted integral over [a, b] (or the line, or the half-line) is at most the rounding bound of those theorems plus the classical remainder of C66; par_integrate satisfies the same bound with n replaced by the number of roundings on the longest path. For the three delegated Gauss-Jacobi parameter pairs the Legendre and Chebyshev bounds hold.", "quantifier": "all degrees up to 10^12, all finite bounds up to 2^400 (a != b except for Legendre), all parameters of C63 and C65 and the three delegated pairs, all such integrands, all schedules, every such solver and backend", "why_tests_cant": "compares the program's output with a real integral for every integrand, degree, interval and schedule", "anchors": ["src/*/mod.rs: new, integrate, par_integrate"]}
{"id": "C68", "title": "Gauss-Hermite and Gauss-Laguerre converge for every continuous integrand of admissible growth", "statement": "Over the reals with an exact eigen-solver: for every continuous f with |f(x)| <= C exp(s x^2), s < 1, f(x) exp(-x^2) is integrable and the values returned by Gauss-Hermite integrate with 1, 2, 3, ... nodes tend to the integral of f(x) exp(-x^2) over the line. For every f continuous on [0, inf) with |f(x)| <= K exp(s x), s < 1, the values returned by Gauss-Laguerre integrate tend to c times the integral of f(x) x^alpha exp(-x) over the half-line, where c does not depend on f or the degree and |c - 1| <= 2e-12 (the error of the crate's gamma function).", "quantifier": "all continuous integrands in these growth classes, all alpha > -1, every exact eigen-solver; no bound on the degree", "why_tests_cant": "a limit over all degrees for all continuous integrands, including non-smooth and exponentially growing ones", "anchors": ["src/hermite/mod.rs: new, integrate", "src/laguerre/mod.rs: new, integrate", "src/golub_welsch.rs: golub_welsch"]}
{"id": "C69", "title": "Gauss rules never overestimate an integrand whose derivative of order 2n is nonnegative", "statement": "Over the reals with an exact eigen-solver: if g has 2n continuous derivatives on the open domain, the derivative of order 2n is nonnegative there and g times the weight is integrable, then the value returned by integrate with n nodes is at most the weighted integral (for Laguerre and Jacobi: at most c times it, |c - 1| <= 2e-12 and 6e-12). For Hermite, Laguerre, Chebyshev of both kinds on [a, b], a < b, and Jacobi with n even, n = 1 or alpha = beta.", "quantifier": "all n >= 1 (n + 1 < 2^64 for Chebyshev), all intervals a < b, all parameters above -1 (Jacobi: alpha + beta != -1, pair not delegated), all such integrands", "why_tests_cant": "a one-sided bound for a whole class of integrands at every degree", "anchors": ["src/*/mod.rs: new, integrate", "src/golub_welsch.rs: golub_welsch"]}
{"id": "C70", "title": "par_integrate under arbitrary concurrency: shared state and panics", "statement": "par_integrate of all nine structs, with an integrand that reads and writes state shared between threads and may panic, under every splitting of the work and every interleaving of the calls: it always comes to an end (no infinite execution, no deadlock); an execution that returns has called the integrand at each documented point exactly once; an execution that panics contains a call that panicked and no call beyond the documented points; a panic stops no other task, so that the midpoint and the Gauss rules still call every point if every item is a task of its own; if the answers depend on the argument only, the outcome is the same in every interleaving, and it is a panic exactly when the sequential integrate panics; if the effects on the shared state commute, the final state is that of the sequential calls.", "quantifier": "all rules of all nine structs, all degrees, all schedules, all interleavings, all closures with atomic calls, every floating-point backend", "why_tests_cant": "interleavings and splittings cannot be enumerated, and a test cannot force a particular one", "anchors": ["src/*/mod.rs: par_integrate"]}
{"id": "C71", "title": "nodes of consecutive degrees interlace", "statement": "In exact arithmetic, between any two neighbouring nodes of the rule of degree n+1 lies exactly one node of the rule of degree n, and the extreme nodes of degree n+1 lie outside those of degree n: Gauss-Hermite, Gauss-Laguerre (every alpha), Gauss-Chebyshev of both kinds, Gauss-Jacobi with alpha = beta or between degrees 1 and 2 (non-delegated pairs).", "quantifier": "all degrees, all parameters", "why_tests_cant": "relates the outputs of different calls for unbounded degrees", "anchors": ["src/hermite/mod.rs", "src/laguerre/mod.rs", "src/chebyshev/mod.rs", "src/jacobi/mod.rs"]}
{"id": "C72", "title": "Chebyshev-Markov-Stieltjes inequalities", "statement": "In exact arithmetic, at every node of a Gauss rule the sum of the weights of the nodes before it is at most the mass of the weight function strictly to the left of the node, and the sum including it is at least the mass up to the node (times the gamma factor of Laguerre and Jacobi weights): each weight belongs to its own node and position. Gauss-Hermite, Gauss-Laguerre, both Gauss-Chebyshev kinds, Gauss-Jacobi where the stored rule is a Gauss rule.", "quantifier": "all degrees, all nodes, all parameters", "why_tests_cant": "an inequality with integrals for every degree", "anchors": ["src/hermite/mod.rs", "src/laguerre/mod.rs", "src/chebyshev/mod.rs", "src/jacobi/mod.rs"]}
{"id": "C73", "title": "error for monotone, possibly discontinuous integrands", "statement": "In exact arithmetic, for a monotone integrand (continuity is not assumed): Gauss-Hermite and Gauss-Laguerre with bounded f have an error of at most (sup f - inf f) times the largest weight; on [a,b] both Gauss-Chebyshev rules have an error of at most pi/(2n) resp. pi/(2(n+1)) times |b-a||f(b)-f(a)|, Gauss-Jacobi at most W|b-a||f(b)-f(a)|/2 with W the largest weight (twice that at the odd degrees whose middle node is overwritten), midpoint and trapezoid at most |b-a||f(b)-f(a)|/(2n), Simpson at most |b-a||f(b)-f(a)|/(3n).", "quantifier": "all monotone f, all degrees, all intervals in either orientation", "why_tests_cant": "a universally quantified error bound over a function space", "anchors": ["src/hermite/mod.rs", "src/laguerre/mod.rs", "src/chebyshev/mod.rs", "src/jacobi/mod.rs", "src/midpoint/mod.rs", "src/trapezoid/mod.rs", "src/simpson/mod.rs"]}
{"id": "C74", "title": "convergence for Riemann-integrable integrands", "statement": "In exact arithmetic the values converge to the (weighted) integral, as the degree grows, for every integrand that is continuous at almost every point and bounded on [a,b] (both Gauss-Chebyshev kinds, Gauss-Jacobi general branch at every degree, midpoint, trapezoid, Simpson), or bounded by C exp(s x^2) with s < 1 (Gauss-Hermite), or by K exp(s x) with s < 1 (Gauss-Laguerre); the weighted integrand is integrable. Jumps are allowed.", "quantifier": "all integrands continuous almost everywhere with the bound, all intervals in either orientation, all alpha, beta > -1 with alpha + beta != -1", "why_tests_cant": "a limit over all degrees and a function space", "anchors": ["src/hermite/mod.rs", "src/laguerre/mod.rs", "src/chebyshev/mod.rs", "src/jacobi/mod.rs", "src/midpoint/mod.rs", "src/trapezoid/mod.rs", "src/simpson/mod.rs"]}
{"id": "C75", "title": "error for integrands of bounded variation, and size of the weights", "statement": "For every integrand of bounded variation (jumps allowed) the weighted integrand is integrable and the error of integrate is at most the total variation times: pi |b-a|/(2n) and pi |b-a|/(2(n+1)) (Gauss-Chebyshev), |b-a|/(2n) (midpoint, trapezoid), |b-a|/(3n) (Simpson), the largest weight (Gauss-Hermite, Gauss-Laguerre), |b-a| times the largest weight (Gauss-Jacobi general branch, every degree), |b-a|/2 (4 pi/(2n-1) + 2e-16) (Gauss-Legendre, plus 5e-15 |b-a|/2 times a bound of the integrand). For alpha, beta >= -1/2 every Gauss-Jacobi weight is at most c 2^(alpha+beta+1) 4 pi/(2n-1), so the error decreases like 1/n.", "quantifier": "all degrees, all integrands of bounded variation, all intervals in either orientation, all alpha, beta > -1 with alpha + beta != -1", "why_tests_cant": "quantifies over a function space that contains discontinuous functions; the bound of the weights is over all degrees and parameters", "anchors": ["src/*/mod.rs: integrate"]}
{"id": "C76", "title": "formatting ignores placeholder options; error reports", "statement": "Display, LowerExp and UpperExp of FiniteAboveNegOneF64 print, under every combination of fill, alignment, sign, alternate flag, width and precision, exactly what the plain f64 prints with default options; so a parameter printed with any options (such as {:.1}) parses back to the same bits. If from_str fails, the error prints the float parser's text exactly when the text is no number and the fixed out-of-domain text otherwise, source() is Some, and following the source chain shows this one text twice; the error of try_from prints the fixed text and has no source.", "quantifier": "every parameter, every formatting options, every string and every float parser", "why_tests_cant": "unbounded strings and options; tests compare a few printed values and never set options", "anchors": ["src/data_api.rs: Display, LowerExp, UpperExp, InfNanNegOneOrLessError, ParseFiniteAboveNegOneF64Error, Error::source"]}
{"id": "C77", "title": "a NaN or infinity is never hidden", "statement": "In binary64, if integrate or par_integrate returns a finite number then every value the integrand returned was finite, every stored weight is finite, and for the rules with bounds a, b and the computed b - a are finite. If a value, a stored weight or a bound is NaN the result is NaN.", "quantifier": "every rule struct whatever numbers it stores, all bounds including infinities and NaN, every stateful integrand (sequential) or pure integrand under every schedule (parallel), every math backend", "why_tests_cant": "unbounded number of points, positions of the bad value and schedules; tests use smooth integrands on finite intervals", "anchors": ["all integrate and par_integrate"]}
{"id": "C78", "title": "binary64 integration is monotone", "statement": "In binary64 with all roundings, for a rule without negative weights and a <= b: if one integrand's values are <= the other's at every point then the result is <= too, unless one of the results is NaN; if no value is negative the result is not negative. The rules returned by new have no negative weight: Newton-Cotes always, both Chebyshev rules for every math backend, Hermite, Laguerre and general Jacobi for every eigensolver as soon as the computed total mass is not negative, Legendre with an accurate cosine.", "quantifier": "every such rule and degree, all a <= b including infinities, all integrands, the same schedule for both calls of par_integrate", "why_tests_cant": "for all integrands and degrees and for every rounding pattern; not observable by sampling", "anchors": ["all integrate and par_integrate", "all new"]}
{"id": "C79", "title": "negating the integrand negates the result exactly", "statement": "In binary64 with all roundings: if an integrand returns the negation of another's values, the result is the negation of the other's result (IEEE equal), and NaN exactly when the other is NaN.", "quantifier": "every rule struct whatever numbers it stores, all bounds, all integrands, integrate and par_integrate with the same schedule", "why_tests_cant": "for all integrands, bounds and rounding patterns; not observable by sampling", "anchors": ["all integrate and par_integrate"]}
{"id": "C80", "title": "equality of rules", "statement": "The derived == on a rule struct holds exactly if degrees agree and all stored nodes, weights and parameters are IEEE equal in order (so none is NaN). It is symmetric and transitive; a rule equals its clone exactly if it stores no NaN, and a rule that stores a NaN equals nothing. Newton-Cotes rules are equal exactly if their degrees are; with an accurate backend the Legendre and Chebyshev rules of degree n and m are equal exactly if n = m; equal Laguerre and Jacobi rules have equal degree and parameters; conversions into GaussJacobi preserve and reflect equality. A Jacobi rule with alpha + beta = -1 (not -1/2, -1/2) and degree >= 2 is not equal to its own clone. Equal rules give the same results for integrands that do not tell 0.0 from -0.0.", "quantifier": "all rules of all nine structs, all stored numbers, degrees, parameters, bounds, integrands and eigensolvers", "why_tests_cant": "unbounded rules and all bit patterns; the crate's tests compare one rule with its clone and with one other rule", "anchors": ["#[derive(PartialEq, Clone)] on the nine structs", "From conversions of GaussJacobi"]}
{"id": "C81", "title": "number of operations and of calls", "statement": "GaussLegendre::new(n) needs at most 11901 arithmetic operations per pair, a constant independent of n, so it is linear in n as documented; the Chebyshev constructors need at most 11 and 27 per pair. One integration with any of the nine rules needs, beyond the integrand, at most 12 operations per call of it plus 12. A nested integral of any depth, with bounds that may depend on the outer variables, calls the innermost integrand exactly at the points of the product rule in lexicographic order, and their number is the product of the numbers of calls of the rules: the documented n^d.", "quantifier": "all degrees, all depths of nesting, rules, bounds, stateful integrands, both overflow modes", "why_tests_cant": "unbounded degree and depth; the crate's tests and benchmarks time single calls", "anchors": ["GaussLegendre::new", "ThetaWeightPair::new", "lib.rs documentation of double integrals", "integrate methods"]}
{"id": "C82", "title": "geometric convergence for analytic integrands", "statement": "If the integrand extends to an analytic function bounded by M in the ellipse with foci a and b whose semi-axes add up to rho times half the interval (rho > 1), the n-point Gauss-Chebyshev, Gauss-Jacobi and Gauss-Legendre rules are off by at most 2 |b-a| M rho^(-(2n-1)) / (rho-1) times the mass of the weight (for Gauss-Jacobi up to the crate's gamma factor c; for Gauss-Legendre, whose Bogaert formulas are themselves approximations, |b-a| M (2.5e-15 + 4e-16 rho/(rho-1)^2) is added). The Chebyshev and Legendre bounds are also proved for the computed binary64 result.", "quantifier": "all degrees, intervals, ellipses and analytic integrands", "why_tests_cant": "a rate for all degrees and all analytic integrands; the crate's tests compare a few integrals", "anchors": ["GaussLegendre::integrate", "GaussChebyshevFirstKind::integrate", "GaussChebyshevSecondKind::integrate", "GaussJacobi::integrate"]}
{"id": "C83", "title": "periodic integrands and the equidistant rules", "statement": "Over a full period the midpoint, trapezoid and Simpson rules with n panels integrate every trigonometric polynomial of degree less than n exactly, and a cosine of degree n wrongly with known results -(b-a), b-a and -(b-a)/3. A periodic integrand analytic and bounded by M in the strip |Im z| < sigma is integrated with error at most 2 (b-a) M / (exp(2 pi sigma n / (b-a)) - 1); in binary64 the rounding term of C58 is added.", "quantifier": "all degrees, periods, trigonometric polynomials, strips and analytic periodic integrands", "why_tests_cant": "a rate for all degrees and integrands; the crate's tests use non-periodic samples", "anchors": ["Midpoint::integrate", "Trapezoid::integrate", "Simpson::integrate"]}
{"id": "C84", "title": "enclosure of the integral of a convex integrand", "statement": "For a convex integrand, differentiable or not, midpoint result <= integral <= mean of midpoint and trapezoid result <= trapezoid result, and Simpson's result lies between the two; so the difference of the two results is a rigorous error bound and the midpoint rule is at least as accurate as the trapezoid rule. Doubling the number of panels moves both towards the integral. For concave integrands the inequalities reverse.", "quantifier": "all degrees, intervals a <= b and convex integrands", "why_tests_cant": "inequalities for all convex functions", "anchors": ["Midpoint::integrate", "Trapezoid::integrate", "Simpson::integrate"]}
{"id": "C85", "title": "machine integers and memory in the constructors", "statement": "With 64-bit arithmetic and a memory allocator in the model, new and par_new of the Gauss-Legendre and Gauss-Chebyshev rules end for every degree in one of four ways: panic or empty rule at usize::MAX, panic when 16 n bytes exceed isize::MAX, abort when the allocator refuses 16 n bytes, and otherwise the rule. In particular a returned rule of degree below usize::MAX is always the one of the mathematical model: no multiplication, addition or subtraction has wrapped.", "quantifier": "all degrees below 2^64, allocators, overflow modes, schedules", "why_tests_cant": "degrees near 2^59 and above cannot be tested", "anchors": ["GaussLegendre::new", "GaussLegendre::par_new", "ThetaWeightPair::new", "GaussChebyshevFirstKind::new", "GaussChebyshevSecondKind::new"]}
{"id": "C86", "title": "serialisation of the rule structs", "statement": "With the feature serde, deserialising what was serialised restores every rule of every struct bit by bit, in formats with named fields and without; a format that writes null for NaN and infinities (JSON) restores exactly the rules with finite numbers and refuses the others, in particular every Gauss-Jacobi rule with alpha + beta = -1 and degree at least 2. The order of the fields and unknown fields do not matter, missing and repeated fields are refused, Newton-Cotes degrees 0 and beyond 32 bits are refused. Nothing else is checked: any list of pairs is accepted. The fields are written under the names degree, node_weight_pairs, alpha and beta, in this order.", "quantifier": "all rules, formats, payloads", "why_tests_cant": "the crate has no serialisation tests; all payloads", "anchors": ["derive(serde::Serialize, serde::Deserialize) on the rule structs", "FiniteAboveNegOneF64"]}
{"id": "C87", "title": "algebraic convergence for integrands of finite smoothness", "statement": "If the integrand has k continuous derivatives between a and b and the last one is Lipschitz with constant K, the n-point Gauss-Legendre, Gauss-Chebyshev (both kinds) and Gauss-Jacobi results differ from the weighted integral by at most |b-a| (pi^2 |b-a| / 4)^(k+1) K / ((2n+1) (2n) ... (2n+1-k)) times the integral of the weight (Gauss-Legendre: plus the distance of the computed rule from the true one; binary64: plus the rounding terms of the total error theorems), for every n with k < 2n.", "quantifier": "all n, k < 2n, a, b, integrands", "why_tests_cant": "a bound for all integrands of a smoothness class and all n, including |x|; the tests use fixed polynomials and a few smooth functions", "anchors": ["GaussLegendre::new", "GaussLegendre::integrate", "GaussChebyshevFirstKind::integrate", "GaussChebyshevSecondKind::integrate", "GaussJacobi::integrate"]}
{"id": "C88", "title": "Euler-Maclaurin expansion of the equidistant rules", "statement": "For an integrand with 2(m+1) continuous derivatives, the last bounded by K, the trapezoid result is the integral plus the sum over k < m of B_(2k+2) h^(2k+2)/(2k+2)! times the jump of the derivative of order 2k+1 between the ends, up to |B_(2m+2)| h^(2m+2)/(2m+2)! |b-a| K; the midpoint and Simpson results have the same terms with the factors 2/4^(k+1)-1 and (4/4^(k+1)-1)/3. So the order is exactly 2 (trapezoid, midpoint) unless the derivative agrees at the ends; it is 2(m+1) if the odd derivatives below agree (smooth periodic integrands), also in binary64 up to the rounding bound; and the differences of results with n and 2n panels, divided by 3 or 15, estimate the errors.", "quantifier": "all m, n, a, b, integrands with 2(m+1) continuous derivatives", "why_tests_cant": "asymptotic expansions to all orders; the tests compare single values with loose tolerances", "anchors": ["Trapezoid::integrate", "Midpoint::integrate", "Simpson::integrate"]}
{"id": "C89", "title": "Error of nested (double) integrals", "statement": "If every inner result is within tau of the inner integral, the nested result is within tau times the sum of the absolute outer coefficients of the result for the exact inner integrals (tau |b-a| for the equidistant rules). In binary64 an inner Gauss-Legendre or Gauss-Hermite call, sequential or parallel, with bounds and integrand depending on the outer variable, is an integrand computed with an explicit error, and an outer Gauss-Legendre call on such an integrand is finite with an explicit error. The documented double integral of x^2 y over a triangle is within 5e-14 of 1/10.", "quantifier": "all rules, bounds, integrands, numbers of points up to 10^12, schedules", "why_tests_cant": "the documentation has one doctest with one rule size; inner bounds and schedules are unbounded families", "anchors": ["GaussLegendre::integrate", "GaussLegendre::par_integrate", "GaussHermite::integrate"]}
{"id": "C90", "title": "Nested integrals of any depth", "statement": "For nested integrate calls of any depth, with any rules and bounds depending on the outer variables, the error is at most t1 + W1 (t2 + W2 (t3 + ...)), where t_i bounds the error of level i for the exact inner integrals and W_i its sum of absolute coefficients. Over a box, polynomials of the degrees the rules integrate exactly in the single variables are integrated exactly, for example degree 3 in each variable with Simpson's rule.", "quantifier": "all depths, rules, bounds, integrands of several variables (exact arithmetic)", "why_tests_cant": "induction over the depth; tests nest two calls once", "anchors": ["GaussLegendre::integrate", "Simpson::integrate", "GaussHermite::integrate"]}
{"id": "C91", "title": "Singularities at the ends of the interval", "statement": "The midpoint rule and the Gauss-Chebyshev rule of the first kind integrate functions that are unbounded at an end of the interval. If the integrand is monotone up to that end and integrable (against the weight), the error is at most the integral, between that end and the node nearest to it, of the distance of the integrand from its value at the other end. For a singularity like a power -s of the distance, s < 1, the midpoint error is at most C/(1-s) ((b-a)/(2n))^(1-s), for example sqrt(2/n) for 1/sqrt(x) on [0,1]. For Gauss-Legendre, Gauss-Chebyshev of both kinds and the general branch of Gauss-Jacobi, and any integrand of bounded variation on an interval [c,d] that contains the evaluation points, the error is at most the bound of C75 for the variation on [c,d] alone, plus the integrals of |f - f(c)| and |f - f(d)| times the weight over the two remaining pieces. The trapezoid and Simpson rules call the integrand at both ends: in binary64 a value there that is not finite makes integrate and par_integrate not finite.", "quantifier": "all monotone integrable integrands, intervals, numbers of points, schedules", "why_tests_cant": "unbounded families of unbounded integrands; the tests only use smooth ones", "anchors": ["Midpoint::integrate", "GaussChebyshevFirstKind::integrate", "GaussChebyshevSecondKind::integrate", "GaussLegendre::integrate", "GaussJacobi::integrate", "Trapezoid::integrate", "Simpson::integrate"]}
{"id": "C92", "title": "Debug output", "statement": "The derived Debug output of a rule consists of the name of the struct, the names of its fields and all stored numbers in order, in the exact compact ({:?}) and pretty ({:#?}) layouts of the standard builders. Every number is printed with the options of the placeholder (unlike Display of the parameter type, C76). Two rules of whatever types with the same output, compact or pretty, are equal if no other number is printed like a stored one. The iterators print the pairs they have not yet yielded, after any history of operations; the iterators over nodes and over weights print complete pairs. The error types print their names, in the layouts of the standard builders.", "quantifier": "all rules, stored numbers, placeholder options, iterator histories, ways the library prints a number as a single word", "why_tests_cant": "unbounded sizes and options; no test looks at Debug output", "anchors": ["derive(Debug)", "FiniteAboveNegOneF64", "__impl_node_weight_rule"]}
{"id": "C93", "title": "Machine integers and memory in the Golub-Welsch constructors", "statement": "With 64-bit arithmetic and the n by n matrix as a block of memory (behaviour of the matrix type assumed, see the note), GaussHermite::new, GaussLaguerre::new and the general branch of GaussJacobi::new end as follows. For n < 2^30 they return exactly the rule of the model without memory, or abort when the 8n^2 bytes are refused, or end as the rest of the eigen-solver's memory use does. For 2^30 <= n < 2^32, and for every larger n with overflow checks, they panic. Without overflow checks and n >= 2^32 the size n^2 wraps, the block is too small, and the call panics, aborts or writes outside the block; for every multiple of 2^32 it writes outside the block whatever the allocator does. No rule is ever returned for n >= 2^30. What GaussJacobi::new returns, with its special cases, is always the rule of the model without memory. A single write panics outside of the shape, otherwise changes the named entry and no other.", "quantifier": "all degrees below 2^64, allocators, build modes, parameters, eigen-solvers, arithmetics", "why_tests_cant": "needs matrices of terabytes and wrapped sizes", "anchors": ["golub_welsch", "GaussHermite::new", "GaussLaguerre::new", "GaussJacobi::new"]}
{"id": "C94", "title": "Spacing of the Gauss-Hermite nodes, size of the weights, rate for bounded variation", "statement": "In exact arithmetic, for every degree n: different nodes of GaussHermite are at least pi/sqrt(2n+1) apart. For R^2 < 2n+1, every subinterval of [-R, R] of length pi/sqrt(2n+1-R^2) contains a node. Every weight is at most 2 pi/sqrt(n+1), and at most the integral of exp(-x^2) over the pi/sqrt(2n+1-R^2)-neighbourhood of its node when that lies in [-R, R]. For every integrand of bounded variation V on the line, integrate differs from the integral of f(x) exp(-x^2) by at most 2 pi V/sqrt(n+1), so the rules converge.", "quantifier": "all degrees, radii, intervals, integrands of bounded variation", "why_tests_cant": "all degrees and all discontinuous integrands", "anchors": ["GaussHermite::new", "GaussHermite::integrate"]}
{"id": "C95", "title": "Spacing of the Gauss-Laguerre nodes, size of the weights, rate for bounded variation", "statement": "In exact arithmetic, for every degree n and alpha > -1, in the variable t = sqrt(x): different nodes x < y satisfy sqrt(y) - sqrt(x) >= pi/sqrt(4n+2 alpha+2+max(0,1/4-alpha^2)/x). If 0 < w and w^2 <= 4n+2 alpha+2-R^2-max(0,alpha^2-1/4)/s^2, every subinterval of [s, R] of length pi/w contains the root of a node. For |alpha| <= 1/2 every weight is at most 4 pi c/sqrt(2n+1), where c is the gamma factor of the weights (|c-1| <= 2e-12), and integrate differs from c times the integral of f(x) x^alpha exp(-x) by at most that times the variation of f. For every alpha > -1 the same holds with K(alpha)/n^min(1/2, alpha+1) in place of 4 pi c/sqrt(2n+1).", "quantifier": "all degrees, parameters, radii, intervals, integrands of bounded variation", "why_tests_cant": "all degrees and all discontinuous integrands", "anchors": ["GaussLaguerre::new", "GaussLaguerre::integrate"]}
{"id": "C96", "title": "Spacing of the Gauss-Jacobi nodes, size of the weights, rate for bounded variation", "statement": "In exact arithmetic, for alpha, beta > -1 with alpha+beta != -1, N = n+(alpha+beta+1)/2: in the general branch, for even n, n = 1 or alpha = beta, the angles arccos of different nodes x < y are at least pi/sqrt(N^2+max(0,1/4-alpha^2)/(2(1-y))+max(0,1/4-beta^2)/(2(1+x))) apart; if 0 < w and w^2 <= N^2-max(0,alpha^2-1/4)/(2(1-y))-max(0,beta^2-1/4)/(2(1+x)), then every [x, y) inside (-1, 1) whose angles differ by pi/w contains a node. For every degree, odd ones included, every weight is at most K/n^k with k = min(1, 2alpha+2, 2beta+2) and K depending on alpha, beta only, and integrate differs from c times the weighted integral, |c-1| <= 6e-12, by at most |b-a| K/n^k times the variation of f.", "quantifier": "all degrees, parameters, intervals, integrands of bounded variation", "why_tests_cant": "all degrees and all discontinuous integrands", "anchors": ["GaussJacobi::new", "GaussJacobi::integrate"]}
{"id": "C97", "title": "Gauss-Legendre for a logarithm or a power at an end of the interval", "statement": "In exact arithmetic, for 2 <= n <= 10^6, a < b, c one of a, b and h = (b-a)/2: integrate(a, b, ln|x-c|) of the Gauss-Legendre rule of degree n differs from the integral by at most h(4/(3(n-1)^2)+2e-13+5e-15|ln h|); for -1 < q < 2 integrate(a, b, |x-c|^q) differs from (b-a)^(q+1)/(q+1) by at most h^(q+1)(2*4^(q+1)/((q+1)^2(3-q)(n-1)^(2q+2))+6e-14 max(4,(n+1)^(-2q))). In particular the documentation's ln over [0, 1] with a million nodes is within 1e-12 of -1.", "quantifier": "all degrees from 2 to 10^6, all intervals, all exponents in (-1, 2)", "why_tests_cant": "all exponents and intervals; the integrand is unbounded, so no general error bound applies", "anchors": ["GaussLegendre::new", "GaussLegendre::integrate", "GaussLegendre::par_integrate"]}
{"id": "C98", "title": "Byte-level features: zerocopy and rkyv", "statement": "A float's eight little-endian bytes give the same float back bit for bit, and every eight bytes are a float's. With the zerocopy derives of FiniteAboveNegOneF64 the zeroed value is the default and every value a program can reach is still finite and above -1. An rkyv archive of a rule with at most 2^27 nodes (five structs have the derive) takes 16n+8+8k bytes (the pairs from the start, node before weight; then minus the distance to the start in 32 bits, n in 32 bits, and alpha before beta) and is read back, from wherever it was moved, as the same rule bit for bit; a larger rule and a rule of the other four structs is refused; nothing is checked on reading, so for all pairs and parameters, valid or not, there are bytes that are read as that rule.", "quantifier": "all floats, all histories, all rules with any contents, all prefixes of the buffer", "why_tests_cant": "2^64 bit patterns, buffers of any size; a rule at the limit takes 2 GiB", "anchors": ["FiniteAboveNegOneF64", "GaussLegendre", "GaussJacobi", "GaussLaguerre", "GaussHermite", "GaussChebyshevFirstKind"]}
{"id": "C99", "title": "Large parameters overflow: gamma, Gauss-Laguerre and Gauss-Jacobi in binary64", "statement": "The crate's gamma returns +inf for every float from 169.99 to 2^800, although the gamma function is below 2^1023 up to 171. Hence GaussLaguerre with alpha from 169 to 2^799 has, for every degree and every eigen-solver, no finite weight and never returns a finite integral. GaussJacobi with a parameter from 169 to 2^799 likewise. GaussJacobi with parameters up to 168: if 2^(a+b+1) G(a+1) G(b+1) is at least 2^1025, no weight is finite and no integral; if in addition a+b >= 169 everything is NaN; if that product is at most 2^1022 and a+b >= 169, every weight is zero (or NaN) and so is every integral, although the integral of the weight function is an ordinary number (above 0.1 for (84, 85) and (90, 90)).", "quantifier": "all floats in the ranges, all degrees, all eigen-solvers, all integrands and intervals, all backends that meet the contracts", "why_tests_cant": "The failing region is two-dimensional and far from the parameters the tests use; the eigen-solver does not matter", "anchors": ["gamma", "GaussLaguerre::new", "GaussJacobi::new"]}
{"id": "C100", "title": "Very large degrees: the outer nodes coincide with the ends of the interval in binary64", "statement": "In binary64 the first n/2^29 (rounded down) nodes of GaussLegendre and of both GaussChebyshev rules of degree n are exactly -1.0 and as many at the other end exactly 1.0, if cos returns 1 and -1 where it is within 2^-54 of them. So from degree 2^29 on the integrand is called at both ends of every interval with integer ends, and an integrand that is not finite at an end never gets a finite result, sequentially or in parallel. From degree 5*2^29 on no backend with cos accurate to 2^-52 gives strictly increasing nodes.", "quantifier": "all degrees (below 2^52 for Chebyshev), all integer intervals, all integrands, all schedules, all backends that meet the contracts", "why_tests_cant": "Rules of 2^29 points take 8 GB; in exact arithmetic, and in binary64 up to degree ten million, the nodes are strictly inside (C37, C54)", "anchors": ["GaussLegendre::new", "GaussChebyshevFirstKind::new", "GaussChebyshevSecondKind::new"]}
{"id": "C101", "title": "Which texts are parameters, and what is printed for one", "statement": "FromStr of FiniteAboveNegOneF64: a text of the grammar in the documentation of f64::from_str that stands for the number x is accepted exactly if -1 + 2^-54 < x < 2^1024 - 2^970, and the parameter is then x rounded to nearest; other numbers, inf, infinity and nan in any case and with any sign give InvalidValue; every other text gives ParseError. Printed by {}, {:e} or {:E} with the shortest digits that are read as the same f64, every parameter is read back with the same bits, at most 17 digits are needed, {:e} takes at most 24 characters and {} at most 343. {:e} prints one digit before the point and the letter e, {:E} the letter E, {} no exponent; a minus sign is printed exactly if the sign bit is set; zero is 0, 0e0 and 0E0, the infinities are inf and -inf.", "quantifier": "all texts of any length, all parameters, all choices among shortest digits", "why_tests_cant": "There are infinitely many texts; the ones that are numbers above -1 but are rounded to -1 are rejected, which no list of sample strings shows", "anchors": ["FiniteAboveNegOneF64::from_str", "impl Display for FiniteAboveNegOneF64", "impl LowerExp for FiniteAboveNegOneF64", "impl UpperExp for FiniteAboveNegOneF64"]}
{"id": "C102", "title": "Gauss-Chebyshev in closed form for a logarithm or a pole", "statement": "Real arithmetic, any interval [a,b], h = (b-a)/2, any degree n. First kind applied to log|x-c|: with c inside the interval (coordinate z, not a node) the value minus the weighted integral is exactly h (pi/n) log(2|T_n(z)|), at an end exactly h pi log 2 / n, and with c outside at distance h cosh(eta) from the centre exactly h (pi/n) log(1+e^(-2 n eta)). Applied to 1/(c-x) with c outside, the first kind returns the integral times tanh(n eta) and the second kind the integral times (1-e^(-2 n eta))/(1-e^(-2(n+1) eta)); the integrals are pi/sinh(eta) and pi e^(-eta) up to the sign of the side.", "quantifier": "all degrees n >= 1 with n+1 < 2^64, all intervals a < b, all positions of the singularity", "why_tests_cant": "Tests compare with a tolerance for a few degrees; the exact error for every degree and every position of the singularity is out of their reach", "anchors": ["GaussChebyshevFirstKind::new", "GaussChebyshevFirstKind::integrate", "GaussChebyshevSecondKind::new", "GaussChebyshevSecondKind::integrate"]}
{"id": "C103", "title": "What overwriting the middle Jacobi node costs", "statement": "Real arithmetic, exact eigen-solver, Gauss-Jacobi of odd degree n > 1 with alpha != beta (alpha + beta != -1): the result for a polynomial of degree at most 2n-1 is the weighted integral times the gamma factor plus the middle weight times the difference of the integrand at the centre and at the true middle node x. x has the sign of beta - alpha and |x| <= pi(|alpha|+|beta|+4)/(4n-2). So constants are integrated exactly and every other linear function wrongly, with a known sign of the error. For analytic integrands with Lipschitz constant L the error is a geometric term plus L (b-a)^2 K / n^(1+min(1,2alpha+2,2beta+2)). The pairs stay in ascending order if both parameters are at most 3/2, and not if alpha >= 2n(n+beta-1)-beta. In binary64 with a backward stable solver the computed rule is close to the exact rule with the middle node replaced by 0, with the error bounds of C64 and C65 times 1+|x|/gap and 3, so the same extra term appears in the result of integrate and par_integrate.", "quantifier": "all odd degrees n >= 3, all pairs of different parameters above -1 whose sum is not -1, all intervals", "why_tests_cant": "The effect shrinks like 1/n^2 and depends on the parameters; tests with a tolerance at a few degrees cannot tell a slow rule from a wrong one", "anchors": ["GaussJacobi::new", "GaussJacobi::integrate"]}
{"id": "C104", "title": "Sums and products of the nodes", "statement": "Real arithmetic, exact eigen-solver. Gauss-Hermite: the nodes add up to 0, their squares to n(n-1)/2, no square exceeds n(n-1)/4. Gauss-Laguerre: the nodes add up to n(n+alpha), their squares to n(n+alpha)(2n+alpha-1), their product is (alpha+1)...(alpha+n), and they lie in (0, n(n+alpha)]. Gauss-Jacobi outside the delegated pairs and the odd-degree case of C103: the nodes add up to n(beta-alpha)/(2n+alpha+beta), and for alpha = beta their squares to n(n-1)/(2n+2alpha-1).", "quantifier": "all degrees, all admissible parameters", "why_tests_cant": "Node tables in tests cover a few degrees; these identities fix the matrix entries at every degree and for every real parameter", "anchors": ["GaussHermite::new", "GaussLaguerre::new", "GaussJacobi::new"]}
{"id": "C105", "title": "Rules related by the square of the variable", "statement": "Real arithmetic, exact eigen-solver. The Gauss-Hermite pairs of degree 2n are the pairs (+-sqrt(x), w/(2c)) of the Gauss-Laguerre pairs (x, w) of degree n with alpha = -1/2, those of degree 2n+1 are (+-sqrt(x), w/(2cx)) with alpha = 1/2 and the node 0; |c-1| <= 2e-12. The Gauss-Jacobi pairs with (alpha, alpha) of degree 2n come from those of degree n with (alpha, -1/2) by x -> +-sqrt((1+x)/2), those of degree 2n+1 from (alpha, 1/2) with the node 0; |c-1| <= 1.3e-11. The Gauss-Jacobi pairs with (1/2, -1/2) are cos(2j pi/(2n+1)) with weights c 4pi/(2n+1) sin^2(j pi/(2n+1)).", "quantifier": "Hermite/Laguerre: all degrees. Jacobi: n even or 1 (other n meet the overwriting of C103), all alpha > -1 other than 0 and +-1/2, which are delegated", "why_tests_cant": "Connects the outputs of different constructors at every degree; the tests look at each family alone and at a few degrees", "anchors": ["GaussHermite::new", "GaussLaguerre::new", "GaussJacobi::new"]}
{"id": "C106", "title": "Gauss-Hermite, Gauss-Laguerre and Gauss-Jacobi are the classical rules", "statement": "Real arithmetic, exact eigen-solver. The nodes are exactly the zeros of the Hermite, generalised Laguerre and Jacobi polynomials, given by their explicit formulas, and the weights are those of the textbooks: 2^(n-1) n! sqrt(pi)/(n^2 H_{n-1}(x)^2), Gamma(n+alpha+1) x/(n! (n+1)^2 L_{n+1}(x)^2), 2^(alpha+beta+1) Gamma(n+alpha+1) Gamma(n+beta+1)/(n! Gamma(n+alpha+beta+1) (1-x^2) P_n'(x)^2), the last two up to the relative error of the crate's gamma function. The nodes satisfy Stieltjes' equations (sum of 1/(x-y) over the other nodes y equals x, 1/2-(alpha+1)/(2x), (alpha+1)/(2(1-x))-(beta+1)/(2(1+x))), no other points do, and each weight is a constant divided by the squared product of the x-y (times x, times 1-x^2).", "quantifier": "all degrees, all admissible parameters (Jacobi: outside the delegated pairs, alpha+beta != -1 and the odd-degree case of C103)", "why_tests_cant": "The documentation of the crate promises these rules; tests compare with tables at a few degrees and parameters", "anchors": ["GaussHermite::new", "GaussLaguerre::new", "GaussJacobi::new"]}
{"id": "C107", "title": "Dependence of Gauss-Laguerre and Gauss-Jacobi on their parameters", "statement": "Real arithmetic, exact eigen-solver. When alpha grows by d, every Gauss-Laguerre node grows, by at most n d. When alpha grows by d, every Gauss-Jacobi node decreases, by at most 2n(n+beta) d/((2n+alpha+beta)(2n+alpha'+beta)); when beta grows the nodes grow, with the corresponding bound. The result of integrate for a fixed integrand that is continuous inside the range is continuous in the parameters, apart from a relative change of at most 5e-12 (Laguerre) or 1.3e-11 (Jacobi) due to the crate's gamma function. There is no jump at (1/2, 1/2), where the Jacobi constructor switches to the Chebyshev rule of the second kind.", "quantifier": "all degrees, all admissible parameters (Jacobi: outside the delegated pairs except (1/2, 1/2), alpha+beta != -1, and even degree or one node, for the results also odd degree with alpha = beta)", "why_tests_cant": "Tests use isolated parameter values; a wrong branch or a parameter used in the wrong place shows up as a jump or as movement in the wrong direction between them", "anchors": ["GaussLaguerre::new", "GaussLaguerre::integrate", "GaussJacobi::new", "GaussJacobi::integrate"]}
{"id": "C108", "title": "Rates for exponentials, oscillations and Gaussians", "statement": "Real arithmetic. Gauss-Laguerre for exp(-kx) cos(wx+f) with k > -1/2 has an error of at most 2^(alpha+2) Gamma(alpha+1) t^(2n)/(1-t), t^2 = (k^2+w^2)/((1+k)^2+w^2) < 1, up to the relative error of the crate's gamma function; Gauss-Hermite for exp(-kx^2) cos(wx^2+f) at most 2 sqrt(2 pi) t^n/(1-t). For cos(wx+f): Gauss-Hermite at most sqrt(pi) (w^2/(2(n+1)))^n; Gauss-Legendre over [a,b] at most (b-a) (w(b-a)/4)^(2n)/(2n-1)! plus 2.5e-15 + 1e-16 w(b-a) relative to b-a for the tabulated or asymptotic nodes; Gauss-Chebyshev at most pi (b-a) (w(b-a)/4)^(2n)/(2n)! (first kind) and a quarter of it (second kind).", "quantifier": "all degrees, parameters, decay rates above -1/2, frequencies, phases and intervals", "why_tests_cant": "Tests cannot show a rate; for large decay rates the classical remainder (C66) grows with n, so that convergence of Gauss-Laguerre is not visible from it", "anchors": ["GaussLaguerre::integrate", "GaussHermite::integrate", "GaussLegendre::integrate", "GaussChebyshevFirstKind::integrate", "GaussChebyshevSecondKind::integrate"]}
{"id": "C109", "title": "Gauss-Jacobi has no jump at the delegated pairs", "statement": "Real arithmetic. For n even, n = 1 or equal parameters, the results of GaussJacobi for parameters approaching (-1/2, -1/2) converge, up to the relative error 13e-12 of the crate's gamma function, to the result of the Chebyshev rule the constructor delegates that pair to, for every integrand continuous on the open interval; at (0, 0) they converge to the result of the Legendre rule up to the error of its tabulated or asymptotic nodes, (b-a)(2.6e-15 M + 1.1e-16 L (b-a)) for an integrand bounded by M with Lipschitz constant L. On the line alpha + beta = -1, where the crate's binary64 weights are NaN (C35), the weight function has a Gauss rule as well and the results nearby converge to it: the failure is not inherent.", "quantifier": "all degrees, pairs on the line, intervals, integrands and tolerances", "why_tests_cant": "The rules come from four different algorithms; a test compares them at finitely many points and cannot take the limit", "anchors": ["GaussJacobi::new", "GaussJacobi::integrate", "GaussChebyshevFirstKind::new", "GaussLegendre::new"]}
{"id": "C110", "title": "Gauss rules in binary64: the integrand is called between the bounds unless the interval is short or their sum overflows", "statement": "Binary64 with all roundings, accurate sine and cosine, Gauss-Legendre and both Gauss-Chebyshev rules of degree n up to a million. If the bounds are at most B in absolute value, 2^-900 <= B <= 2^400, and B (n+1)^2 <= 2^48 (b - a), the integrand is evaluated only at finite points strictly between a and b. The condition is needed, up to a constant: for a = 1 and b = 1 + (4k+1) 2^-52 with 20 (4k+1) <= (n+1)^2 it is evaluated at 1 - 2^-53, outside the interval. And if a and b are positive and finite but a + b overflows, every point is +infinity, so that the result is the one for the constant integrand f(+infinity), whatever f does between the bounds.", "quantifier": "all degrees up to 10^6, bounds, integrands, and sine and cosine implementations within the stated accuracy", "why_tests_cant": "The points depend on the roundings of all three operations and on bounds from a 128-bit space; a test sees a few intervals", "anchors": ["GaussLegendre::integrate", "GaussLegendre::argument_transformation", "GaussChebyshevFirstKind::integrate", "GaussChebyshevSecondKind::integrate"]}
{"id": "C111", "title": "How many evaluation points lie in a given part of the domain", "statement": "Real arithmetic. On a finite interval, the number of evaluation points of Gauss-Legendre and of both Gauss-Chebyshev rules between c and d differs by at most 2 from n times (arccos c' - arccos d') / pi, where c' and d' are c and d moved to [-1, 1], for every degree. For Gauss-Jacobi it is (n + (alpha+beta+1)/2) (arccos c' - arccos d') / pi up to a constant that depends on the parameters and on the distance of c and d from the ends, but not on n (n even, n = 1 or equal parameters). Gauss-Hermite has sqrt(2n+1) (d-c) / pi nodes between c and d up to R (d-c) / pi + 1, where |c|, |d| <= R, and Gauss-Laguerre has sqrt(4n+2alpha+2) (sqrt d - sqrt c) / pi of them up to an explicit constant: a fixed part of the axis gets only about the square root of the nodes.", "quantifier": "all degrees, parameters, intervals and windows", "why_tests_cant": "A statement about the distribution of the nodes for all degrees; a test counts them for a few", "anchors": ["GaussLegendre::new", "GaussChebyshevFirstKind::new", "GaussChebyshevSecondKind::new", "GaussHermite::new", "GaussLaguerre::new", "GaussJacobi::new"]}
{"id": "C112", "title": "How far the nodes stay from the ends of the support", "statement": "Real arithmetic: the reciprocals of the n nodes of Gauss-Laguerre add up to n/(alpha+1), so every node is at least (alpha+1)/n; the reciprocals of the distances of the Gauss-Jacobi nodes from 1 and from -1 add up to n(n+alpha+beta+1)/(2(alpha+1)) and n(n+alpha+beta+1)/(2(beta+1)), so every evaluation point on [a, b] keeps at least (alpha+1)/(n(n+alpha+beta+1)) and (beta+1)/(n(n+alpha+beta+1)) of the length of the interval from b and a. Binary64: if the error bound of the nodes (C62) is below (alpha+1)/n, all computed Gauss-Laguerre nodes are finite and strictly positive; if the error bound of the nodes (C64) is below the distance of the exact nodes from the ends, all computed Gauss-Jacobi nodes are finite and strictly between -1 and 1, and all evaluation points are finite and strictly between a and b as soon as the remaining distance exceeds the rounding error of the transformation.", "quantifier": "all degrees, parameters, intervals, backends and eigen-solvers with the stated accuracy", "why_tests_cant": "Integrands with a singularity at an end fail only for the degree and parameters whose outermost node is rounded across it", "anchors": ["GaussLaguerre::new", "GaussJacobi::new", "GaussJacobi::argument_transformation"]}
{"id": "C113", "title": "Error for every continuous integrand, by its modulus of continuity", "statement": "Real arithmetic, for every n and every continuous integrand on [a, b]: if its values at points not further apart than |b-a|/(2n+1) differ by at most eps, the n-point Gauss-Chebyshev rules (both kinds) and Gauss-Jacobi (n even, n = 1 or equal parameters; up to the crate's gamma factor c) differ from the weighted integral by at most 3 |b-a| eps times the mass of the weight, and Gauss-Legendre differs from the integral by at most |b-a| ((7.01 + 2e-16 n) eps + 2.5e-15 M), where M bounds the integrand. For example an integrand like sqrt|t| has error O(n^(-1/2)) without any derivative.", "quantifier": "all degrees, parameters, intervals and continuous integrands", "why_tests_cant": "A bound for every continuous function; a test tries a few, usually smooth ones", "anchors": ["GaussLegendre::integrate", "GaussChebyshevFirstKind::integrate", "GaussChebyshevSecondKind::integrate", "GaussJacobi::integrate"]}
{"id": "C114", "title": "Gauss-Chebyshev on Chebyshev series: the exact error", "statement": "Real arithmetic, every n >= 1 and every integrand that on [a, b] is an absolutely convergent Chebyshev series with coefficients c: the n-point rule of the first kind differs from the weighted integral (b-a)/2 pi c(0) by exactly (b-a)/2 pi (-c(2n) + c(4n) - c(6n) + ...), and the one of the second kind, with N = n+1, from (b-a)/2 pi (c(0)/2 - c(2)/4) by exactly (b-a)/2 (pi/4) times the sum of 2 c(2Nk) - c(2Nk-2) - c(2Nk+2) over k = 1, 2, ... In particular the error of the first kind is at most (b-a)/2 pi times the sum of |c(m)| over m >= 2n.", "quantifier": "all degrees, intervals and absolutely convergent Chebyshev series", "why_tests_cant": "An identity between the computed value and an infinite series, for all n and all coefficient sequences; a test compares finitely many integrands up to a tolerance", "anchors": ["GaussChebyshevFirstKind::integrate", "GaussChebyshevSecondKind::integrate"]}
{"id": "C115", "title": "Every continuous integrand in binary64", "statement": "Binary64, n up to 10^12: if a program computes a continuous function g within eta on the interval widened by the rounding of the nodes, and g changes by at most eps over distances up to (b-a)/(2n+1), then the value returned by Gauss-Legendre, by Gauss-Chebyshev of both kinds and by Gauss-Jacobi (even n, n = 1 or alpha = beta, parameters as in C65, backward-stable eigensolver) is finite and differs from the weighted integral of g by at most a constant times |b-a| eps plus eta and an explicit multiple of the unit roundoff; the composite midpoint, trapezoid and Simpson rules satisfy the same with eps taken over distances up to (b-a)/n. Neither a derivative nor a Lipschitz constant of g is needed, and the parallel versions satisfy the bound for every split of the work.", "quantifier": "all degrees up to 10^12, intervals, continuous integrands with their binary64 programs, and all splits of the parallel sum", "why_tests_cant": "The bound holds for every continuous function, including those with unbounded derivative, and every program computing it; tests use a few smooth integrands", "anchors": ["GaussLegendre::integrate", "GaussChebyshevFirstKind::integrate", "GaussChebyshevSecondKind::integrate", "GaussJacobi::integrate", "Midpoint::integrate", "Trapezoid::integrate", "Simpson::integrate"]}
{"id": "C116", "title": "Error by the Chebyshev coefficients of order 2n and above", "statement": "Real arithmetic, every n >= 1 and every integrand that on [a, b] is an absolutely convergent Chebyshev series with coefficients c: the error of Gauss-Legendre is at most (b-a)/2 times (2.0001 + 2/(4n^2-1)) sum of |c(m)| over m >= 2n, plus (b-a)/2 times the sum of (5e-15 + 4e-16 m^2) |c(m)| over m < 2n for the stored (tabulated or asymptotic) nodes and weights; that of Gauss-Jacobi (even n, n = 1 or alpha = beta; exact eigensolver; up to the factor of at most 1 +- 6e-12 of the gamma approximation) at most (b-a)/2 times twice the total mass times the same sum; that of Gauss-Chebyshev of the second kind at most (b-a)/2 (pi/2) times it.", "quantifier": "all degrees, intervals and absolutely convergent Chebyshev series", "why_tests_cant": "An inequality for all n and all coefficient sequences; a test compares finitely many integrands up to a tolerance", "anchors": ["GaussLegendre::integrate", "GaussJacobi::integrate", "GaussChebyshevSecondKind::integrate"]}
{"id": "C117", "title": "Rates on infinite intervals for unbounded integrands without derivatives", "statement": "Real arithmetic, exact eigensolver: if f is measurable, of bounded variation V on [-R, R] and differs outside from its values at the ends of [-R, R] by at most A x^(2k) with k < n, then f exp(-x^2) is integrable and the error of the n-point Gauss-Hermite rule is at most 2 pi / sqrt(n+1) V + 2 A Gamma(k+1/2); in particular for f with Lipschitz constant L it is at most 24 L sqrt(k) / sqrt(n+1) for every k < n with n + 1 <= 16^k, that is of order sqrt(log n / n). For Gauss-Laguerre with parameter alpha there is K depending only on alpha such that the corresponding error, up to the factor c = 1 +- 2e-12 of the gamma approximation, is at most K / n^min(1/2, alpha+1) V + 2 c A Gamma(k+alpha+1) for V the variation on [0, R] and the bound A x^k, k < 2n, beyond R.", "quantifier": "all degrees, all R and k, all integrands of locally bounded variation and polynomial growth", "why_tests_cant": "A rate for all n and all integrands including unbounded ones with corners and jumps; tests use smooth integrands and small degrees", "anchors": ["GaussHermite::integrate", "GaussLaguerre::integrate"]}
{"id": "C118", "title": "Scaling by a power of two is exact in binary64", "statement": "Binary64 with any math backend, every rule value, bounds, k >= 0 and pair of closures of which the second returns exactly 2^k times what the first returns: if the values of the first are integer multiples of 2^-p, the stored weights of 2^-h and the final factor (half the length, or the step) of 2^-l with p + h + l < 1022, and the result for the second is finite, then the result for the first is finite too and the second result is exactly 2^k times the first, without any rounding difference. The same holds for par_integrate under every schedule. Every binary64 number of magnitude at least 2^-m, and zero, is a multiple of 2^-(m+52).", "quantifier": "all rules, bounds, closures, scalings, schedules", "why_tests_cant": "A bit-exact relation between two runs for all integrands, rules and exponents; a test compares a few pairs of runs", "anchors": ["Midpoint::integrate", "Trapezoid::integrate", "Simpson::integrate", "GaussLegendre::integrate", "GaussJacobi::integrate", "GaussHermite::integrate", "GaussLaguerre::integrate", "GaussChebyshevFirstKind::integrate", "GaussChebyshevSecondKind::integrate"]}
{"id": "C119", "title": "Exact sums in binary64: when par_integrate and integrate agree exactly", "statement": "Binary64 with any math backend: if the numbers a rule adds up (the values of the integrand, multiplied by the stored weights for the Gauss rules) are finite multiples of 2^-g, g <= 1074, and their magnitudes add up to at most 2^53 such units, then every partial sum is exact, sequentially and under every schedule; par_integrate returns the same number as integrate for every rule and every pair of schedules (equal, or both zero); the midpoint rule and the Gauss rules on a finite interval round only once after the products, and Gauss-Hermite and Gauss-Laguerre return the exact sum of the products.", "quantifier": "all rules, bounds, integrands, schedules and grids", "why_tests_cant": "An exact equality for every way rayon may split the work and for all integrands satisfying the condition; a test sees one schedule and a few integrands", "anchors": ["Midpoint::par_integrate", "Trapezoid::par_integrate", "Simpson::par_integrate", "GaussLegendre::par_integrate", "GaussJacobi::par_integrate", "GaussHermite::par_integrate", "GaussLaguerre::par_integrate", "GaussChebyshevFirstKind::par_integrate", "GaussChebyshevSecondKind::par_integrate"]}
{"id": "C120", "title": "Scaling the interval by a power of two is exact in binary64", "statement": "Binary64 with any math backend, every rule that takes bounds and every k >= 0: if the bounds are multiples of 2^-p and the stored nodes of 2^-q with p + q + 85 <= 1022, both bounds are multiplied by 2^k and no evaluation point overflows, then every evaluation point is multiplied by exactly 2^k. If moreover the weights are multiples of 2^-h and the values of the integrand of 2^-v with p + h + v + 169 <= 1022, the new integrand takes at 2^k x the value of the old one at x, and the result does not overflow, the result is multiplied by exactly 2^k.", "quantifier": "all rules with bounds, bounds, integrands and scalings", "why_tests_cant": "A bit-exact relation between two runs for all intervals, rules and exponents; a test compares a few pairs of runs", "anchors": ["Midpoint::integrate", "Trapezoid::integrate", "Simpson::integrate", "GaussLegendre::integrate", "GaussJacobi::integrate", "GaussChebyshevFirstKind::integrate", "GaussChebyshevSecondKind::integrate"]}
{"id": "C121", "title": "Rounding in rayon's reduction trees", "statement": "Number of roundings on the longest path of the reduction tree of par_integrate over n items. Any tree: at most the size of the largest sequential piece plus two per split plus two. Rayon's trees (a piece is split only at half its length and only if both halves are nonempty, which pieces are split being left to the threads): at most n + 4, and at most m + 2*ceil(log2 n) + 2 if the pieces have at most m items. Hence the parallel sum is within ku/(1-ku)*sum|terms| of the exact sum with k = n + 4, or k = 2*ceil(log2 n) + 3 when split to single items, and for the Gauss rules on a finite interval par_integrate differs from integrate by at most twice that relative to the terms (k = n + 5).", "quantifier": "every n, tree and thread behaviour", "why_tests_cant": "which tree occurs depends on the scheduler; the bound holds for all of them", "anchors": ["src/*/mod.rs: par_integrate"]}
{"id": "C122", "title": "Backward stability in binary64", "statement": "If the result is finite and neither the step nor a product of weight and value underflows, the binary64 result of integrate differs by at most 2^-1075 from what the exact rule (stored weights, exact step (b-a)/n or (b-a)/2) gives for values of the integrand each changed by a relative amount of at most (1+2^-53)^k - 1, k = number of terms + 9. The same for par_integrate under every schedule, k the number of roundings in its tree + 9, hence number of terms + 13 for rayon's splits. Consequently integrate is within ((1+2^-53)^k - 1)*sum|c_i f(x_i)| + 2^-1075 of the exact rule on the computed values, and if the exact terms are nonnegative its relative error (plus 2^-1075) is at most ku/(1-ku), u = 2^-53.", "quantifier": "every rule with arbitrary stored pairs, bounds, integrand and schedule with a finite result", "why_tests_cant": "holds for all values, a sample shows only that some error is small", "anchors": ["src/*/mod.rs: integrate, par_integrate"]}
{"id": "C123", "title": "Linearity in binary64 up to rounding", "statement": "In binary64 the result for f + g (added in binary64 at every point) differs from the sum of the results for f and g by at most 2*((1+2^-53)^k - 1)*(sum|c_i f(x_i)| + sum|c_i g(x_i)|) + 3*2^-1075, and the result for c*f from c times the result for f by at most 2*((1+2^-53)^k - 1)*|c|*sum|c_i f(x_i)| + (1+|c|)*2^-1075, with c_i the exact coefficients of the rule, k the number of terms + 10, provided the results are finite and nothing underflows. For par_integrate the calls may be scheduled differently, k being the largest number of roundings in the trees + 10.", "quantifier": "every rule with arbitrary stored pairs, bounds, integrands and factor", "why_tests_cant": "the exact linearity of C18 fails in floating point; the amount by which it may fail is a statement about all values", "anchors": ["src/*/mod.rs: integrate"]}
{"id": "C124", "title": "Results in binary64 and the range of the integrand", "statement": "If the values of the integrand at the evaluation points lie between lo and hi and the coefficients of the rule are nonnegative with sum W, the binary64 result lies between lo*W - E and hi*W + E with E = ku/(1-ku)*max(|lo|,|hi|)*W + 2^-1075, u = 2^-53, k = number of terms + 9, provided it is finite and nothing underflows. For the midpoint, trapezoid and Simpson rules on a <= b the coefficients are nonnegative with W = b - a exactly, for every number of panels; in particular a constant v is integrated to v*(b-a) with relative error ku/(1-ku), up to 2^-1075. The bounds on the range hold for par_integrate under every schedule, k being the largest number of roundings in the trees + 9.", "quantifier": "every rule with arbitrary stored pairs, bounds, integrand and bounds on its values", "why_tests_cant": "holds for all integrands and numbers of panels", "anchors": ["src/midpoint/mod.rs, src/trapezoid/mod.rs, src/simpson/mod.rs: integrate", "src/*/mod.rs: integrate"]}
{"id": "C125", "title": "Enclosure of the integral of a convex integrand in binary64", "statement": "Binary64, a <= b: if a program computes a convex function g with error eta near [a,b], |g| <= M, Lipschitz constant Lambda, the results m of the midpoint and t of the trapezoid rule with the same number of panels are finite and m - E <= integral <= (m+t)/2 + E, integral <= t + E, and |m - integral| <= |t - m|/2 + E, with the explicit rounding bound E = (b-a)(1.01 kappa + (9e-16 + 1.2e-16 d)(M + kappa)) + 2^-500, kappa = eta + Lambda (4e-15 B + 2^-1000), d the number of additions in a row (for par_integrate that of the schedule). For concave functions the inequalities reverse. Simpson's result differs from the integral of a convex or concave function by at most |t - m|/3 + 2E', E' being E with 1.2e-15 for 9e-16.", "quantifier": "every number of panels, every schedule, bounds up to 2^400, convex or concave function and program computing it", "why_tests_cant": "an a posteriori error bound must hold for every integrand and every schedule; the mathematical enclosure C84 ignores the roundings", "anchors": ["src/midpoint/mod.rs, src/trapezoid/mod.rs: integrate, par_integrate"]}
{"id": "C126", "title": "Monotone integrands in binary64: an error bound from two values of the integrand", "statement": "Binary64: if a program f computes with error eta a function that is increasing or decreasing between a and b (in either order), |g| <= M, Lipschitz constant Lambda, then the results of midpoint and trapezoid with n panels are finite and differ from the integral by at most |b-a|/(2n) (|f(b) - f(a)| + 2 eta) + E, and that of Simpson's rule by at most |b-a|/(3n) (|f(b) - f(a)| + 2 eta) + E, with f(a), f(b) the returned binary64 values and the explicit rounding bound E = |b-a|(1.01 kappa + (1.2e-15 + 1.2e-16 d)(M + kappa)) + 2^-500, kappa = eta + Lambda (4e-15 B + 2^-1000), d the number of additions in a row (for par_integrate that of the schedule).", "quantifier": "every number of panels, every schedule, bounds up to 2^400, monotone function and program computing it", "why_tests_cant": "an a posteriori error bound must hold for every integrand and every schedule", "anchors": ["src/midpoint/mod.rs, src/trapezoid/mod.rs, src/simpson/mod.rs: integrate, par_integrate"]}
{"id": "C127", "title": "PI and E are the nearest binary64 numbers", "statement": "The constants PI and E used by the Chebyshev formulas, the Bogaert asymptotics and the gamma function are finite and closer to pi and e than every other finite binary64 number; PI is below pi, by between 1.22e-16 and 1.23e-16.", "quantifier": "every finite binary64 number", "why_tests_cant": "a comparison with a real number and with all other floating point numbers", "anchors": ["src/chebyshev/mod.rs l.15, src/hermite/mod.rs l.32, src/math.rs l.12, src/legendre/bogaert/mod.rs l.20: use core::f64::consts"]}
{"id": "C128", "title": "The arithmetic is that of IEEE 754 for all operands", "statement": "For every two 64-bit patterns the operators + - * / of the binary64 instance give the result of IEEE 754 with rounding to nearest even: the exact result of finite operands rounded once (overflow to the infinity of its sign, the sign of an exact zero as in the standard), NaN for a NaN operand, infinity minus infinity, zero times infinity, 0/0 and infinity by infinity, the infinity of the right sign for the other operations with an infinity and for division by zero, a signed zero for a number divided by an infinity. Literals and integer conversions are rounded once.", "quantifier": "all pairs of 64-bit patterns, all rational literals, all integers", "why_tests_cant": "2^128 pairs of operands", "anchors": ["every f64 expression of /repo/src", "FiniteAboveNegOneF64::checked_add and the like"]}
