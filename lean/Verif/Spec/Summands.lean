import Verif.Spec.PowerScale
import Verif.Spec.Protocol
import Mathlib.Algebra.Order.Ring.Abs
import Mathlib.Algebra.Order.Ring.Rat

/-!
# The numbers a rule adds up

What the theorem on exact sums (C119) is stated with.
-/

namespace GaussQuad.Spec
open FloatOps

/-- the same number: equal, or two zeros (of either sign) -/
def SameNumber (x y : F64) : Prop := x = y ∨ (x.isZero = true ∧ y.isZero = true)

variable [Libm]

/-- The numbers that `integrate` adds up one after the other: the values of the integrand that belong to its sums, multiplied by
the stored weights for the Gauss rules.  (The two end points of the trapezoid rule and the last three points of Simpson's rule are
added separately and are not part of a sum.) -/
def summands (a b : F64) (f : F64 → F64) : AnyRule F64 → List F64
  | .midpoint r => (points a b (.midpoint r)).map f
  | .trapezoid r => ((points a b (.trapezoid r)).drop 2).map f
  | .simpson r => ((points a b (.simpson r)).take (2 * (r.degree - 1))).map f
  | .legendre r => List.zipWith (fun x p => f x *ᶠ p.2) (points a b (.legendre r)) r.nodeWeightPairs
  | .chebyshevFirst r => List.zipWith (fun x p => f x *ᶠ p.2) (points a b (.chebyshevFirst r)) r.nodeWeightPairs
  | .chebyshevSecond r => List.zipWith (fun x p => f x *ᶠ p.2) (points a b (.chebyshevSecond r)) r.nodeWeightPairs
  | .jacobi r => List.zipWith (fun x p => f x *ᶠ p.2) (points a b (.jacobi r)) r.nodeWeightPairs
  | .hermite r => List.zipWith (fun x p => f x *ᶠ p.2) (points a b (.hermite r)) r.nodeWeightPairs
  | .laguerre r => List.zipWith (fun x p => f x *ᶠ p.2) (points a b (.laguerre r)) r.nodeWeightPairs

/-- The numbers are finite multiples of `2^-g` and their magnitudes add up to at most `2^53` units of that size. -/
def FitsGrid (g : ℕ) (ys : List F64) : Prop :=
  (∀ y ∈ ys, y.isFinite = true ∧ OnGrid g y.val) ∧ (ys.map fun y => |y.val|).sum ≤ 2 ^ 53 / 2 ^ g

end GaussQuad.Spec
