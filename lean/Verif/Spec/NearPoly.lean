import Mathlib.Algebra.Polynomial.Eval.Defs
import Mathlib.Algebra.Polynomial.Degree.Defs
import Mathlib.Order.Interval.Set.UnorderedInterval
import Mathlib.Data.Real.Basic

/-!
Functions close to polynomials: the hypothesis on the integrands of nested integrals (C89).
-/

namespace GaussQuad.Spec

/-- On the interval between `a` and `b` the function `g` is within `ε` of a polynomial of degree at most `N`. -/
def NearPoly (g : ℝ → ℝ) (a b : ℝ) (N : ℕ) (ε : ℝ) : Prop :=
  ∃ p : Polynomial ℝ, p.natDegree ≤ N ∧ ∀ t ∈ Set.uIcc a b, |g t - p.eval t| ≤ ε

end GaussQuad.Spec
