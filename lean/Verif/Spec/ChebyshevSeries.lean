import Mathlib.Analysis.SpecialFunctions.Trigonometric.Inverse
import Mathlib.Topology.Algebra.InfiniteSum.Defs

/-!
# Absolutely convergent Chebyshev series
-/

namespace GaussQuad.Spec

/-- on `[a, b]` the function is the sum of `c m cos(m arccos x)`, where `x` in [-1, 1] corresponds to `t` in `[a, b]` -/
def IsChebyshevSeries (f : ℝ → ℝ) (a b : ℝ) (c : ℕ → ℝ) : Prop :=
  Summable (fun m => |c m|) ∧ ∀ t ∈ Set.Icc a b, f t = ∑' m : ℕ, c m * Real.cos (m * Real.arccos ((2 * t - a - b) / (b - a)))

end GaussQuad.Spec
