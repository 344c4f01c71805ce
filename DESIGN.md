# Formal model of gauss-quad: design

Source modelled: `/repo` (crate `gauss-quad`, read as text, never built).  The Lean project is in
`/verif/lean`.  `properties.jsonl` lists the claims; `MANIFEST.json` maps each claim to theorem names.

## 1. Shape of the model

* **Arithmetic is a parameter.**  Every function of the crate is transcribed once, over a class
  `FloatOps F` (add, sub, mul, div, sqrt, sin, cos, pow, literals, integer conversion, comparisons,
  `total_cmp`).  Two instances give it meaning:
  * `ℝ` – exact real arithmetic (`PI` is π, decimal literals are the exact decimals, `sin/cos/sqrt/pow`
    the real functions).  Accuracy claims ("integrates degree 2n-1 exactly") are theorems about this instance.
  * `F64` – IEEE-754 binary64 (sign + 63 magnitude bits, round-to-nearest-even through exact rationals,
    NaN, infinities, signed zeros, `total_cmp` on the bits).  `+ - * /` and comparisons are defined
    exactly; `sin cos sqrt pow` are an arbitrary parameter (`Libm`), so theorems hold for every backend
    (std or libm).
  Structural claims (lengths, order, call traces, schedules) are proved for *every* instance.
* **Integrands** are `F → m F` for an arbitrary lawful monad `m`: `Id` gives pure functions, `StateM σ`
  gives `FnMut` closures with state and call traces, `ExceptT` gives panicking integrands.
* **Sums** are left folds in the order Rust executes them, starting from the identity `-0.0` that
  `<f64 as Sum>` uses.
* **Panics** (index out of bounds, integer underflow) are `none` results; the overflow of `degree + 1` in
  `usize` is modelled in both build modes (`Overflow.checked`: panic, `Overflow.wrapping`: wrap-around).
* **rayon** is modelled by an arbitrary split tree (`Schedule`): every subrange may be split at any point
  to any depth, leaves are folded sequentially, results are combined pairwise with rayon's own
  `[l, r].sum()` reducer.  This over-approximates rayon's adaptive splitter.
  `Model/Parallel` gives the same methods as concurrent programs with a small-step semantics: the calls of
  different tasks interleave in any order, share a state and may panic (C70).
* **nalgebra's `symmetric_eigen`** is a parameter `eig`: for structural theorems it is an arbitrary
  function; for accuracy theorems it satisfies the contract "returns an orthogonal matrix diagonalising
  its (symmetric) input", which the spectral theorem shows satisfiable for every input.
* **Iterators** are index windows over the boxed slice (as `core::slice::Iter` is a pair of pointers),
  refined against an abstract deque.

## 2. Per-property plan

| id | model / proof |
|----|----------------|
| C01 | `FiniteAboveNegOne.new` over `F64`; compare with `∃ q:ℚ, value = q ∧ -1 < q`; case analysis on bits. |
| C02 | inductive `Reachable` over all API calls (pow an arbitrary function); invariant by induction. |
| C03 | `checked_*` against a separate rounding specification ("nearest representable, ties to even, overflow threshold"). |
| C04 | parser as parameter `String → Except ε F64`; exhaustive/exclusive classification. |
| C05 | IEEE comparison on finite values agrees with ℚ order. |
| C06 | formatter/parser oracles with the std round-trip law as hypothesis. |
| C07 | structural deserialisation; negation with witness and characterisation of which payloads break it. |
| C08, C09 | list-valued model of each constructor and accessor, all arithmetic instances. |
| C10, C11 | simulation between index-window iterators and `List`, induction over operation sequences. |
| C12 | sortedness of merge sort w.r.t. `total_cmp` for arbitrary eigen output; real-number monotonicity for Chebyshev and Legendre; negation for odd Jacobi. |
| C13, C14 | permutation of zipped eigen output; loop invariant of matrix fill. |
| C15, C16 | trace theorems in arbitrary monads; state threading. |
| C17–C20, C22 | finite-sum algebra over ℝ. |
| C21 | IEEE: `a-a=+0`, finite times zero is zero. |
| C23 | from node bounds over ℝ; IEEE midpoint, trapezoid and Simpson points with monotone rounding; counterexamples for strictness, subnormal panels and overflow. |
| C24, C25 | induction over schedules; IEEE error bound by induction over the reduction tree, then through the operations after the sum (a product by 2 or 4 has relative error u even for subnormals, the final product has an extra 2^-1075). |
| C26 | trivial state machine; by induction over call sequences. |
| C27, C28 | exactness by polynomial algebra, error bounds through Taylor/Peano kernel arguments, Mathlib trapezoid theorem. |
| C29 | uniform continuity + convex weights. |
| C30 | Mathlib's Chebyshev–Gauss theorem. |
| C31 | discrete orthogonality of cosines on the Lobatto grid, integral by substitution. |
| C32–C34, C44 | Golub–Welsch: orthogonal polynomials from the three-term recurrence, Pearson equation for the weight, spectral decomposition of the Jacobi matrix. Negations for odd Jacobi. |
| C35 | IEEE evaluation of `x / gamma(0) / 0`: NaN for every libm. |
| C36 | table shapes checked by kernel evaluation, lifted to all n, k. |
| C37 | n ≤ 100 by verified table facts, n > 100 by explicit bounds on the asymptotic correction; the middle node at odd n > 100 by interval arithmetic (n = 101) and by C50. |
| C38 | exact integer arithmetic in the kernel (Legendre recurrence, cosine series, sign changes) with a soundness proof; Christoffel numbers from the spec. |
| C39 | case analysis on float equality. |
| C40 | real analysis of the Lanczos formula (reflection branch identity, positivity). |
| C41 | Weierstrass + positivity + exactness; for Legendre the best-approximation error plus the data accuracy from C38/C50. |
| C42 | test polynomial ∏(x−xᵢ)². |
| C43 | special case of exactness / direct sums. |
| C45 | both overflow modes of usize. |
| C46 | finite-sum reindexing. |
| C47 | uniqueness of the Gauss rule (orthogonality determines nodes and weights), so two exact solvers agree after sorting. |
| C48 | reflection of the Jacobi weight; Markov's theorem by comparing the two Gauss rules against the divided test polynomial. |
| C49 | Lanczos formula against Mathlib's Γ: the logarithmic defect E(t) = log gamma(1/2+t) - log Γ(1/2+t) tends to 0 (Stirling-type limit) and its unit differences are bounded by an explicit rational function, so E telescopes; reflection for x < 1/2; refutation of "16 digits" at x = 50. |
| C50 | Liouville transform of Legendre's equation to a perturbed Bessel equation; the truncated phase and weight series are compared with the true solution by Taylor models (verified polynomial arithmetic with remainder) and an ODE gap estimate; the root count fixes the numbering. |
| C51 | Bessel zeros: ODE comparison (Sturm), interval-checked table for k ≤ 20, McMahon expansion with explicit remainder above; number of zeros in (0, z] fixes the numbering. |
| C52 | forward error analysis in binary64: relative errors (`Rel`, units of 2^-53) through `compute_pair`, Horner schemes by a checked error recurrence, then C38/C50 for the exact-arithmetic rule. The backend enters only through `Spec.AccurateTrig`. |
| C53 | comparison on keys against the decoded values; `total_cmp` against the standard library's bit manipulation. |
| C54 | C52 plus spacing of the exact nodes from the angle enclosures (`Proofs/LegendreSpacing.lean`). |
| C55 | C52, then error analysis of `integrate`/`par_integrate` with finiteness (`Proofs/F64Sum`, `F64Integrate`, `F64Gauss`). |
| C56 | error analysis of the closed formulas (`Proofs/F64Chebyshev`), spacing of cosines for the order. |
| C57 | as C55, with the explicit Chebyshev sums as the reference. |
| C58 | as C55, with the composite sums as the reference; no assumption on the math library. |
| C59 | against `Real.Gamma` of the decoded argument; assumes `AccurateTrig` and `AccuratePow` (`AccurateSinNeg` and `AccuratePow` at negative arguments). |
| C60, C61 | against any list of `n` pairs in ascending order that is exact up to degree `2n-1` for `exp(-x²)` (such a list is unique); assumes `Spec.StableSolver` and `AccurateSqrt`; `CloseRule` is defined in Spec/EigenF64. |
| C62, C63 | as C60, C61 for `x^α exp(-x)` on `(0, ∞)`; parameters come from `FiniteAboveNegOne.new`; assumes additionally `AccurateTrig` and `AccuratePow` (for `gamma`). |
| C64, C65 | as C62, C63 for `(1-t)^α (1+t)^β` on `(-1, 1)`, with the change of variables to `[a, b]` and the scale factor; `NearRule` is `CloseRule` without the order of the nodes, because the overwritten middle node at odd degrees need not fit the order of the computed ones. |
| C66 | Hermite interpolation at the nodes and Rolle's theorem (`Proofs/GaussRemainder`) for any exact rule and any weight; the norms of the monic orthogonal polynomials from their recurrences (`Proofs/GaussNorms`). |
| C67 | triangle inequality between C55, C57, C61, C63, C65 and the remainder of the exact rule they compare with. |
| C68 | the sums are integrals against point masses; their characteristic functions converge (Hermite: remainder of C66 for `cos(tx+φ)`; Laguerre: Taylor polynomials of `cos(t√x)` in `x`, after the substitution `x = y²`), so Lévy's theorem gives weak convergence; the tails are bounded because the rules underestimate `exp(sx²)` and `exp(sx)` (`Proofs/WeakQuad`, `Proofs/GaussUnbounded`). |
| C69 | sign of the Hermite interpolation remainder (`gauss_below` in `Proofs/GaussUnbounded`). |
| C70 | `par_integrate` as a concurrent program (`Model/Parallel`: calls, joins, small steps on a shared state); invariants of the step relation: outstanding calls, panicked tasks, calls that are made in any case, and the denotation for a stateless integrand (`Proofs/Concurrency`). |
| C71 | the node polynomials of degrees n and n+1 change sign between each other's zeros (`Proofs/Interlace`). |
| C72, C73 | Chebyshev-Markov-Stieltjes: a one-sided polynomial approximation of a step, built by Hermite interpolation with a divided-difference cone (`Proofs/Stieltjes`); monotone functions by the layer-cake formula; Newton-Cotes panel by panel. |
| C74 | an almost everywhere continuous integrand lies between its Lipschitz regularisations from below and above, whose integrals converge to its integral by dominated convergence (`Proofs/RiemannConv`); positive sums are squeezed. |
| C75 | Jordan decomposition with ranges (`Proofs/Variation`) and C73; the Chebyshev kernel polynomial as test function bounds the weights (`Proofs/ChristoffelBound`); for Legendre the shifted integrand absorbs the displaced nodes (`Proofs/VariationPerturbed`). |
| C76 | Model of `core::fmt::Formatter` (buffer and options) and of `dyn Error` (`Model/Report`); C04 decides which error is reported. |
| C77 | Non-finiteness is kept by +, * and by / with finite divisor; induction over the sums of each `integrate` (`Proofs/F64Combine`). |
| C78 | +, * by a factor that is not negative and / by a positive number are monotone on binary64 incl. infinities (`Proofs/F64Monotone`); the same induction. |
| C79 | Rounding is odd; the same induction with the relation 'opposite'. |
| C80 | `Model/Derives` spells out the derived comparison; lists compared element by element; C35, C39, C52, C56 for constructed rules; `0.0`/`-0.0` is a congruence for + and *. |
| C81 | The model's generic functions run on counted arithmetic `Model/Counted`; erasing the counts gives back the original rule; nested calls by induction on the depth from C15. |
| C82 | Chebyshev coefficients of an analytic function decay geometrically (contour shift under the Joukowski map), hence best approximation; then the exactness of the Gauss rules. |
| C83 | Sums of roots of unity for exactness; Fourier coefficients by contour shift in the strip and aliasing for the rate; the three rules are averages of equidistant sums. |
| C84 | Hermite-Hadamard on every panel (reflection of the panel), and on half panels for the sharper upper bound. |
| C85 | Machine-integer version of the constructors in `Model/Alloc`; agreement below 2^63 case by case, capacity limit before the first item. |
| C86 | Derived visitors on serde's data model (`Model/Serde`); field lookup by filtering, permutation invariance, case analysis over the nine structs. |
| C87 | Jackson's theorem from the Fejér-Korovkin kernel (eigenvector recurrence, first moment), induction over the derivatives by antiderivatives of approximants; then exactness and positivity of the Gauss rules. |
| C88 | Integration by parts against Bernoulli polynomials on each panel, telescoping; the kernel has constant sign by its Fourier series; midpoint and Simpson from the trapezoid sums with n and 2n panels. |
| C89 | The inner call is shown to satisfy `Computes`, the hypothesis of the error theorems C55, C57, C58, C61, so those compose to any depth; exact arithmetic by the triangle inequality on the weighted sum. |
| C90 | Induction over the levels with the inequality of C89; over a box the inner nested result is a finite combination of values of the integrand, hence a polynomial in the outer variable. |
| C91 | Panels of a monotone function compare the sum with the integral between the nodes; what remains is the half panel at the singular end. The first-kind Chebyshev rule is the midpoint rule in the angle, and the substitution is a change of variables for an injective map. For the other Gauss rules the integrand is replaced by its values on [c,d] (clamping), which changes no evaluated value, and C75 applies to the clamped function. |
| C92 | Texts are lists of characters; the padding adapter only inserts blanks at line starts, so it changes no word. The word list of a rule is injective. |
| C93 | The block of memory refines the matrix: a write at position i + j n is a write of entry (i, j), because positions of entries differ. Without overflow checks the length is n^2 mod 2^64 < 2^60, and some diagonal position lies between that and 2^64. |
| C94 | The node polynomial is the orthogonal polynomial; p exp(-x^2/2) solves u'' = -(2n+1-x^2) u, and Sturm comparison with a sine bounds the distance of zeros from both sides. By the Chebyshev-Markov-Stieltjes inequalities a weight is at most the mass between the neighbours of its node. |
| C95 | As C94 for t^(alpha+1/2) exp(-t^2/2) p(t^2), which solves u'' = -(4n+2alpha+2-t^2+(1/4-alpha^2)/t^2) u; in the variable t the mass of an interval is at most a constant times a power of its length. |
| C96 | As C95 for (sin(t/2))^(alpha+1/2) (cos(t/2))^(beta+1/2) p(cos t), which solves u'' = -(N^2+(1/4-alpha^2)/(4 sin^2(t/2))+(1/4-beta^2)/(4 cos^2(t/2))) u; the Jacobi differential equation is derived from the recurrence. |
| C97 | Error of the true rule for 1/(1+t-x) is J_n(t)/P_n(1+t), J_n(t) = int P_n/(1+t-x); the Casoratian J_n P_(n+1)-J_(n+1) P_n = 2/(n+1) telescopes it to a positive series; ln(1-x) and (1-x)^q are superpositions of such kernels, so the error is a moment of J_n/P_n, bounded by P_n(1+t) >= (1+n^2 t/4)^2; the distance to the crate's rule by the modulus |f'| <= A/(1-x) and sum w/(1-x) <= 58. |
| C98 | Little-endian digits by induction on the number of bytes; the archive is body ++ root, the relative pointer is read back as minus the body's length in 32-bit two's complement (this is where 2^27 nodes comes from); pairs and parameters by induction; a prefix cancels because the pointer is relative. The layout by cutting the buffer at position 16i (or 16n+8+8j), where a float begins. |
| C99 | The Lanczos series is a positive finite float (relative error bound extended to arguments up to 2^800), the base of the power is at least 66.3 and the exponent at least 169.4, so the power is at least 2^1025 (663^847 >= 10^847 2^5125) and the product is +inf. Numerator of the Jacobi scale: error bounds of C59 and one rounding each, on both sides of the overflow threshold. Then IEEE rules for inf, NaN and zero through quotient, square, sum and scale factor. |
| C100 | The angle of the k-th node is at most (pi k)/n up to the relative error bounds of C52 and C56, hence below 2^-27 if k 2^29 <= n, and the mirrored angle is as close to pi. Distinctness: cos of such an angle is one of four floats (keys between two bit patterns), and five are needed. Points: integer arithmetic below 2^53 is exact. Non-finite results by C77. |
| C101 | The parser is shown to accept exactly the texts that split as the grammar says (induction on digit strings). Acceptance: rounding is monotone, -1 + 2^-54 is rounded to -1, and above it the neighbour -1 + 2^-53 is nearer than -1. Round trip: the printed text stands for m 10^e, which rounds to the value. 17 digits: neighbours of v are at least v 2^-53 away, and the nearest 17-digit number is closer than v 5e-17 < v 2^-54. |
| C102 | T_n is 2^(n-1) times the product of the distances to the nodes, so the sum of logarithms is log of \|T_n\| and the sum of 1/(c-x) is T_n'/T_n; second kind: Lagrange interpolation of U_(n-1) at the zeros of U_n. The integral of log\|x-c\| is a circle average (Mathlib); the integrals of 1/(c-x) are the limits of the rules (C41). |
| C103 | The pairs of the code are the exact rule with one node set to 0. Sign of the middle node: C12. Its distance from 0: Markov's theorem (nodes move monotonically with the parameters) compares with a parameter pair for which the angle gaps of C96 pin the middle angle. Rate: C82 plus the weight bound of C96. Order: the same comparison for the neighbours; for large alpha the sum of 1+x over all nodes (C104) is at most 1. Binary64: the error bound of the unmodified rule (C64) is applied to the integrand plus a tent function at the true middle node. |
| C104 | The nodes are the zeros of the monic orthogonal polynomial; its two leading coefficients after the first follow from the three-term recurrence by induction (sum of the diagonal, sum of squares), its value at 0 gives the product. The sums of the recurrence coefficients are evaluated in closed form by induction. |
| C105 | The mirrored list of roots is a rule exact to the doubled degree: odd powers cancel, even powers reduce to the smaller rule by the substitution x = t^2 in the weight integral. The Gauss rule is unique, so the two lists agree. The (1/2,-1/2) rule follows from the closed second-kind Chebyshev rule of degree 2n. |
| C106 | The monic polynomials of the recurrence solve second-order differential equations (C94 to C96). At a simple zero x of p, p''(x)/p'(x) is twice the sum of 1/(x-y), which gives Stieltjes' equations. Conversely points satisfying them are the roots of a polynomial solution, and the eigenvalues of the equation differ between degrees, so there is only one; the explicit sums satisfy the recurrence of the coefficients. The weight is obtained by integrating p_(n-1) p/(X-x) exactly. |
| C107 | Markov's theorem gives the direction; as all nodes move the same way, no node moves by more than the sum of the nodes, which C104 computes. Results: the weights are a constant depending continuously on the parameters divided by the squared derivative of the nodal polynomial (C106), hence continuous functions of nodes and parameters. |
| C108 | exp(-sx) is the value at t = s/(1+s) of exp(-xt/(1-t)), whose Taylor coefficients in t are polynomials in x bounded by exp(x/2) (Cauchy's estimate on circles approaching the unit circle). Cutting the series after 2n terms gives a polynomial the rule integrates exactly; the rule underestimates exp(x/2) (C69). cos(wx+f): the remainder of C66. |
| C109 | The normalised nodes and weights lie in a compact set and their moments converge (dominated convergence), so every ultrafilter limit is a Gauss rule of the limit weight; that rule is unique. No recurrence is used, so the singular line is allowed. |
| C110 | Inside: distance of the nodes from the ends (C54, C56) against the error of the transformation. Outside: the transformation bit by bit, where `b + a` is a tie rounded down. Overflow: `b - a` and its product with a node stay finite, `b + a` does not. |
| C111 | Counting from spacing: points at least g apart, and no gap longer than g' (C94, C95, C96, from Sturm's comparison theorem); for Legendre and Chebyshev the angles are within 0.02 pi/(n+1/2) of an arithmetic progression. |
| C112 | Stieltjes' equations of the nodes (C106) summed over all nodes: the pair sums cancel, leaving the sum of the reciprocals; binary64 from the node errors of C62 and C64. |
| C113 | Jackson's theorem for continuous functions: an infimal convolution with eps/delta |x-y| gives a Lipschitz function within eps/2, to which Jackson's theorem of C87 applies; Legendre through the true rule. |
| C114 | Aliasing: the discrete orthogonality sums of cos at the nodes for every order, then summed term by term over the series (dominated convergence for the integral), and the surviving orders re-indexed. |
| C115 | A program computing a continuous function within η also computes, within η + ε/2, the Lipschitz function of C113's infimal convolution, so the rounding theorems C55, C57, C58, C65 apply; then C113's bound on the distance of the integrals, and C29 for the equidistant rules. |
| C116 | The error functional is applied to the series term by term: below order 2n the rules are exact (C34, C31) or within C38/C50's distance, from 2n on the sum of the weights and the integral of a Chebyshev polynomial bound each term. |
| C117 | The integrand is its composition with the clamp to [-R, R] (or [0, R]), to which C94 or C95 applies, plus a remainder below a monomial which the rule integrates exactly; for Lipschitz integrands R = sqrt(2k) and a bound on Gamma(k+1/2) by induction. |
| C118 | Rounding to nearest even commutes with 2^k outside the subnormal range, and never leaves the grid 2^-g Z; the pair of runs is followed through every operation of integrate with the grid growing at each product. |
| C119 | A multiple of 2^-g of at most 2^53 units is rounded to itself, so every addition is exact (induction over the list and over the schedule); equal numbers up to the sign of zero pass through the remaining operations. |
| C120 | Every operation that computes an evaluation point or the step is homogeneous of degree one in the bounds; the lemmas of C118 follow both runs through it (division by the degree keeps a lower bound on the magnitude, hence a grid). The sums before the final factor are then identical. |
| C121 | Induction over the tree; `⌈log₂ n⌉` satisfies the recursion of the halves; the small cases n ≤ 3 need the sharper invariant. |
| C122 | Every rounding is distributed over the terms it acts on; the terms are divided by the coefficients (a zero coefficient leaves its value unchanged); products by 2 and 4 never underflow. One proof for both orders of summation (`ruleWith`). |
| C123 | C122 for the three integrands; the rounding of f + g or c*f is one more rounding of the values. |
| C124 | C122's forward bound; the exact coefficients of the equidistant rules add up to b - a. |
| C125 | Hermite-Hadamard (C84) for the composite sums, C58 for the roundings. |
| C126 | C73 for the composite sums, C58 for the roundings. |
| C127 | The two neighbours of each constant evaluated by the kernel, Mathlib's decimal bounds for pi and e, monotonicity of the encoding. |
| C128 | Cases on the decoded operands; correct rounding of the rounding function as an extremal property (`Proofs/F64Arith`). |

## 3. Findings

Behaviour of the crate that the proofs turned up.  Each item is a theorem.

How to read the statuses: nine of the claims are false as a promise about the code, and MANIFEST.json lists them as `proved` because a refutation is proved.  C07 and C35 are
refuted outright.  C12 (odd Jacobi degrees), C20 and C37 (Legendre, odd degrees above 100), C23 (strict inclusion in binary64), C34 (odd Jacobi degrees), C45 (`usize::MAX`) and C49
(16 digits) are refuted in the named cases and proved in the others.  The statements of these claims carry `EXPECTED FALSE` (written before the proofs) or `FOUND FALSE` (added when
the proof attempt failed: C20, C23, C37), and the notes in MANIFEST.json begin with `REFUTED`.

* `GaussJacobi` of odd degree >= 3 with alpha != beta: the middle node is overwritten by 0.0 after sorting.  The
  pairs need not be sorted (`C12_jacobi_odd_refuted`) and the rule is not exact (`C34_odd_refuted`).  C103 says how large the error is.
* `GaussJacobi` with alpha + beta = -1 (except (-1/2, -1/2)) and degree >= 2: every weight is NaN (`C35_nan_weights`).
  Such a rule is not equal to its own clone (`C80_jacobi_clone`) and cannot be restored from JSON (`C86_json_jacobi_refused`).
* Large parameters: `gamma(x)` is infinite from x = 169.99 on, `GaussLaguerre` has no finite weight for alpha >= 169 (`C99_laguerre`), and `GaussJacobi` has only zero weights for
  (84, 85) and only NaN weights for (90, 90), where the integral of the weight function is about 0.19 (`C99_jacobi_parameters`, `C99_jacobi_zero`, `C99_jacobi_nan`).
* From degree 2^29 on Gauss-Legendre and the Chebyshev rules call the integrand at the ends of the interval, so that an end-point singularity makes the result infinite or NaN
  (`C100_ends_called`, `C100_pole_at_end`).
* Gauss-Legendre and the Chebyshev rules can call the integrand outside the interval when it is only a few ulps long, for instance ten nodes between 1 and 1 + 2^-52 (`C110_outside`;
  `C110_inside` says when this cannot happen), and at +infinity only when a + b overflows although b - a does not, for instance between 1e308 and 1.7e308 (`C110_overflow`).
* `FiniteAboveNegOneF64::from_str` rejects some texts of numbers above -1, those that are rounded to -1.0 (`C101_accepts`), for instance `-0.99999999999999995`.
* `FiniteAboveNegOneF64` can be deserialised from NaN, infinities and values <= -1 (`C07_refuted`, `C07_bad_payloads`).
* Every list of pairs, also an empty or unsorted one, can be deserialised as a rule (`C86_unchecked`).
* `GaussLegendre` and `GaussChebyshev*` at degree `usize::MAX`: panic with overflow checks, an empty rule without (`C45_usize_max`).
* `GaussLegendre` of odd degree above 100: the middle node is not 0 (`C37_middle_refuted`), so exchanging the
  bounds does not negate the result (`C20_legendre_odd_refuted`).  The defect is below 1e-16 (`C37_middle_close`).
* `gamma` is documented with 16 digits; the exact-arithmetic value at 50 is off by more than 1e-13 (`C49_sixteen_digits_refuted`).
* `Midpoint` in binary64 can evaluate at the end point a (`C23_midpoint_ieee_strict_refuted`), outside [a, b] when the
  panels are subnormal (`C23_midpoint_ieee_subnormal_refuted`), and at infinity when b - a overflows
  (`C23_midpoint_ieee_overflow_refuted`); `Simpson` evaluates at infinity already when 2(b - a) overflows
  (`C23_simpson_ieee_overflow_refuted`).
* `par_integrate` and `integrate` can differ in more than the last bits when terms cancel (`C25_not_bitwise`).
* Formatting a `FiniteAboveNegOneF64` ignores width, precision and all other options of the placeholder
  (`C76_options_ignored`), and the error of `from_str` repeats the text of its own `source()`, so a report of the
  error chain shows it twice (`C76_report`).
* If nalgebra 0.34 allocates `zeros(n, n)` with a plain `usize` product and checks an index only against the shape (assumed, its source is not available here), the
  Golub-Welsch constructors write outside the allocated block in builds without overflow checks for degrees that are multiples of 2^32 (`C93_out_of_bounds`).
* Not a theorem, seen while transcribing the derives: with the feature `rkyv` the crate documentation promises the traits for the rule structs, but
  `GaussChebyshevSecondKind`, `Midpoint`, `Trapezoid` and `Simpson` do not derive them (chebyshev/mod.rs l.139-144).
* Not a theorem, seen in README.md l.75-78: the example passes the integers `0` and `1` for `f64` bounds, which does not type check, and asserts the integral of sin over [0, 1] to be
  0.459697694131860 within the default tolerance 2.2e-16, but 1 - cos 1 = 0.45969769413186028..., which is further away than that.

## 4. What is modelled and what is not

| file in /repo/src | modelled | not modelled |
|---|---|---|
| `data_api.rs` | `FiniteAboveNegOneF64` with all constructors, conversions, checked operations, comparison and formatting (with placeholder options); the error types' texts and `source()`; the iterator structs generated by the macros; accessors of node-weight rules and node rules; derived `Debug` output (`Model/Debug`) | - |
| `golub_welsch.rs` | all | nalgebra's `symmetric_eigen` itself (a parameter with contract) |
| `legendre/mod.rs`, `legendre/bogaert/*` | all functions, all tables | - |
| `chebyshev`, `hermite`, `laguerre`, `jacobi`, `midpoint`, `trapezoid`, `simpson` | constructors, `par_new`, `integrate`, `par_integrate`, `change_degree`, conversions | - |
| `math.rs` | `gamma` and the dispatch to the math backend (the backend is the parameter `Libm`) | the backend's own algorithms |
| `lib.rs` | re-exports only, nothing to model | doc tests |

Simplifications: one NaN (no payloads); allocation never fails outside `Model/Alloc` and `Model/MatrixMemory` (C85 covers the Legendre and Chebyshev constructors, C93 those using Golub-Welsch); a call of the integrand inside rayon is atomic; serde is modelled on its data model (`Model/Serde`, bytes of a format are not); rkyv and zerocopy are modelled on bytes (`Model/Bytes`) from the documentation of the two crates, whose sources are not available.

`Props/Conformance` evaluates the assertions of the crate's own unit and documentation tests that need no math backend in the binary64 model (examples only). They are tests of the model against the values the authors recorded, not proofs of a property.

## 5. Trusted base

* Lean 4.33 kernel.  Axioms: every manifest theorem depends on at most `propext`, `Quot.sound` and
  `Classical.choice`.  All but eleven of the theorems named in MANIFEST.json use all three (mostly through Mathlib's reals); `C11_operations`, `C11_yields`,
  `C26_change_degree`, `C26_degree`, `C86_missing_or_repeated`, `C86_written`, `C93_write` and `C121_any` use `propext` and `Quot.sound`; `C25_items_once`, `C76_options_ignored` and `C86_shape` use `propext`.  No theorem uses compiled code:
  `decide +kernel` is evaluated by the kernel itself.
* The transcription of the Rust source into Lean (each definition cites file and lines).
* Semantics assumed for things outside `/repo`: IEEE-754 semantics of Rust `f64` operators,
  `f64::total_cmp`, `Iterator::{map,sum,zip,rev,skip}`, slice iterators, `sort_unstable_by` (returns a sorted
  permutation), rayon's reducer, `rayon::join` (both closures are always executed, a panic is re-raised afterwards), derive macros,
  the builders and the padding adapter of `core::fmt` (`Model/Debug`); size, positions and index check of nalgebra's matrices (`Model/MatrixMemory`, only for C93).
* External functions that are parameters: `sin cos sqrt pow` (F64 instance), `symmetric_eigen`,
  float parsing and printing (parameters everywhere except in C101, which uses `Model/FloatText`, a model of `core::num::dec2flt` and of the formatters of
  `core::num::flt2dec`).  Where a theorem needs more than "arbitrary", the contract is a hypothesis of the
  theorem, and an `example` or a theorem (`exactSolver_exists`, `accurateTrigSin_exists`) shows that it can be met.
  The binary64 theorems C52, C54, C55, C56 and C57 assume `Spec.AccurateTrig`: sin to a relative 2^-52 on [2^-500, 2], cos to an absolute
  2^-52 on [0, 4]; the second-kind Chebyshev parts of C56 and C57 also assume `Spec.AccurateSin`: sin to an absolute 2^-52 on [0, 4].  C59 assumes `Spec.AccuratePow`: powf to a relative 2^-52 for bases in [1, 128], exponents in [-2, 400] and results up to 2^1022.  C60 and C61 assume `Spec.AccurateSqrt` (sqrt to a relative 2^-52; Rust documents it as correctly rounded) and, about nalgebra's `symmetric_eigen`, `Spec.StableSolver`: backward stability in the Frobenius norm with a constant ε that appears in the bounds.  The contract is only asked on matrices with finite entries up to 2^400 that are zero or have an entry of at least 2^-400 (`Spec.Moderate`).  C62 to C65 assume all of these (no AccurateSin).  C59 at negative arguments, and C64, C65 and the Jacobi part of C67 when `α + β < -1`, also assume `Spec.AccurateSinNeg`: sin to an absolute 2^-52 on [-4, 0].  Each part of C67 assumes what the theorem for its rule (C55, C57, C61, C63, C65) assumes.  C99 assumes `Spec.PowOverflow`: powers of at least 2^1025 are +inf (and for Gauss-Jacobi `AccurateTrig` and `AccuratePow`).  C100 assumes `AccurateTrig` and, except in `C100_not_distinct`, `Spec.CosEnds`: cos is 1 or -1 where it is within 2^-54 of it.  Rust leaves the precision of these functions unspecified, so this is an assumption about the platform.

## 6. Seeded faults: what the log shows

`seeded/LOG.jsonl` records edits of the model made in a scratch copy.  Each run builds the edited copy and stops at the modules that fail, so
modules importing a failed one are not tried.  The field `result` says how far a run got:

* `claim theorem failed`: the proof of a theorem of a claim named in the entry failed.
* `theorem of another claim failed`: the proof of a theorem of some other claim failed, the named ones did not build for that reason or were not tried.
* `helper lemma failed`: only supporting lemmas failed.  The theorems in `claim_theorems_not_proved` were not tried, because they import the failed
  module.  About two thirds of the entries are of this kind.  Such a run does not show that the statement of the claim is false for the edited model.
* `still builds`: nothing failed; the note says why, or what was added.
* `statement refuted`: an instance of the statement of the claim was proved false for the edited model.

A failing proof is weaker evidence than a refuted statement in every case.

The refutations of lines 374 to 470 (all but line 415) were first run in a scratch copy that still contained the edit of `parSumMap` of line 373.  They
were all repeated in a copy equal to the committed model except for the edit named, with the same outcomes.  As a control the refuting
theorems were also tried on the unedited model, where each of them fails (not repeated for lines 381 to 383, which name the edited constant).
