import Mathlib.Data.Real.Basic

/-!
# Number of points in a window
-/

namespace GaussQuad.Spec

/-- how many members of the list lie in the closed interval `[c, d]` -/
noncomputable def inWindow (L : List ℝ) (c d : ℝ) : ℕ := (L.filter fun x => c ≤ x ∧ x ≤ d).length

end GaussQuad.Spec
