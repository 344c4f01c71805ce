import Mathlib.Data.Real.Basic
import Mathlib.Order.Interval.Set.UnorderedInterval
import Mathlib.Algebra.Order.Group.Abs

/-!
# How much a function changes over a short distance
-/

namespace GaussQuad.Spec

/-- between `a` and `b`, the values of `f` at points not further apart than `δ` differ by at most `ε` -/
def OscillationBetween (f : ℝ → ℝ) (a b δ ε : ℝ) : Prop := ∀ x ∈ Set.uIcc a b, ∀ y ∈ Set.uIcc a b, |x - y| ≤ δ → |f x - f y| ≤ ε

end GaussQuad.Spec
