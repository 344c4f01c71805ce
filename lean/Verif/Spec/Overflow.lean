import Verif.Model.F64
import Mathlib.Analysis.SpecialFunctions.Pow.Real

/-!
# What is asked of `pow` where the result is too large for binary64
-/

namespace GaussQuad.Spec

/-- A power that is at least `2^1025`, twice the end of the range of binary64, is returned as `+inf`: what IEEE 754 asks of
`pow`, with a factor of 2 left for the error of an implementation. -/
def PowOverflow (L : Libm) : Prop := ∀ x y : F64, x.isFinite = true → y.isFinite = true → 1 ≤ (x.val : ℝ) → 0 ≤ (y.val : ℝ) →
  2 ^ 1025 ≤ (x.val : ℝ) ^ (y.val : ℝ) → (L.pow x y).isInf = true ∧ (L.pow x y).sign = false

end GaussQuad.Spec
