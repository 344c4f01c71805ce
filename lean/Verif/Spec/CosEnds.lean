import Verif.Model.F64
import Mathlib.Analysis.SpecialFunctions.Trigonometric.Basic

/-!
# What is asked of `cos` next to its extrema
-/

namespace GaussQuad.Spec

/-- Where `cos` differs from `1` or `-1` by less than `2^-54`, a quarter of the distance between the numbers of binary64 below `1`, the
backend returns `1` or `-1`.  Correct rounding asks for this, and the usual implementations have a branch for it. -/
def CosEnds (L : Libm) : Prop := ∀ x : F64, x.isFinite = true →
  (|(x.val : ℝ)| ≤ 1 / 2 ^ 27 → (L.cos x).isFinite = true ∧ (L.cos x).val = 1) ∧
  (|(x.val : ℝ) - Real.pi| ≤ 1 / 2 ^ 27 → (L.cos x).isFinite = true ∧ (L.cos x).val = -1)

end GaussQuad.Spec
