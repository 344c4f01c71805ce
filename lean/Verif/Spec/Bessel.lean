import Mathlib.Analysis.SpecialFunctions.Exp
import Mathlib.Topology.Algebra.InfiniteSum.Real

/-!
# Specification: Bessel functions of the first kind

Independent of the model: the power series of `J_j` for a natural order `j`.
-/

namespace GaussQuad.Spec

/-- `J_j(x) = Σ (-1)^m / (m! (m+j)!) (x/2)^(2m+j)` -/
noncomputable def besselJ (j : ℕ) (x : ℝ) : ℝ := ∑' m : ℕ, (-1) ^ m / (m.factorial * (m + j).factorial) * (x / 2) ^ (2 * m + j)

end GaussQuad.Spec
