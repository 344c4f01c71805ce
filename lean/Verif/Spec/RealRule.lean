import Verif.Model.AnyRule
import Verif.Model.RealOps

/-!
# Rules as weighted sums over the reals

The textbook form of every rule: a list of points with coefficients.
-/

namespace GaussQuad.Spec

/-- the quadrature sum `Σ c_i f(x_i)` of a list of points with coefficients -/
noncomputable def quad (L : List (ℝ × ℝ)) (f : ℝ → ℝ) : ℝ := (L.map fun p => p.2 * f p.1).sum

/-- coefficient of the composite Simpson rule with `n` subintervals at the `j`-th of the `2n+1` points:
1 at the ends, 4 at odd `j`, 2 at the other even `j` -/
noncomputable def simpsonCoeff (n j : ℕ) : ℝ := if j = 0 ∨ j = 2 * n then 1 else if j % 2 = 1 then 4 else 2

/-- The points and coefficients of a rule on `[a, b]`, as in the documentation and textbooks. -/
noncomputable def rulePairs (a b : ℝ) : AnyRule ℝ → List (ℝ × ℝ)
  | .midpoint r =>
      (List.range r.degree).map fun (i : ℕ) => (a + (i + 1 / 2) * ((b - a) / r.degree), (b - a) / r.degree)
  | .trapezoid r =>
      (List.range (r.degree + 1)).map fun (i : ℕ) =>
        (a + i * ((b - a) / r.degree), (if i = 0 ∨ i = r.degree then 1 / 2 else 1) * ((b - a) / r.degree))
  | .simpson r =>
      (List.range (2 * r.degree + 1)).map fun (j : ℕ) =>
        (a + j * ((b - a) / r.degree / 2), simpsonCoeff r.degree j * ((b - a) / r.degree / 6))
  | .legendre r => r.nodeWeightPairs.map fun p => ((b - a) / 2 * p.1 + (a + b) / 2, (b - a) / 2 * p.2)
  | .chebyshevFirst r => r.nodeWeightPairs.map fun p => ((b - a) / 2 * p.1 + (a + b) / 2, (b - a) / 2 * p.2)
  | .chebyshevSecond r => r.nodeWeightPairs.map fun p => ((b - a) / 2 * p.1 + (a + b) / 2, (b - a) / 2 * p.2)
  | .jacobi r => r.nodeWeightPairs.map fun p => ((b - a) / 2 * p.1 + (a + b) / 2, (b - a) / 2 * p.2)
  | .hermite r => r.nodeWeightPairs
  | .laguerre r => r.nodeWeightPairs

end GaussQuad.Spec
