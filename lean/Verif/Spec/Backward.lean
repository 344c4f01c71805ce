import Verif.Spec.Protocol
import Verif.Spec.RayonTree
import Verif.Model.F64
import Verif.Spec.PowerScale
import Mathlib.Algebra.Order.Ring.Abs
import Mathlib.Algebra.Order.Ring.Rat

/-!
# Backward stability

What C122 is stated with: the result is what exact arithmetic gives for slightly different values of the integrand.
-/

namespace GaussQuad.Spec
open FloatOps

/-- `y` differs from `x` by at most the relative amount `ε` -/
def Nearby (ε x y : ℚ) : Prop := |y - x| ≤ ε * |x|

variable [Libm]

/-- The coefficients with which the values of the integrand at `points` enter the rule in exact arithmetic, for the stored weights. -/
def coefficients (a b : F64) : AnyRule F64 → List ℚ
  | .midpoint r => List.replicate r.degree ((b.val - a.val) / r.degree)
  | .trapezoid r =>
      let h := (b.val - a.val) / r.degree
      [h / 2, h / 2] ++ List.replicate (r.degree - 1) h
  | .simpson r =>
      let h := (b.val - a.val) / r.degree
      List.replicate (r.degree - 1) (h / 3) ++ List.replicate r.degree (2 * h / 3) ++ [h / 6, h / 6]
  | .legendre r => r.nodeWeightPairs.map fun p => (b.val - a.val) / 2 * p.2.val
  | .chebyshevFirst r => r.nodeWeightPairs.map fun p => (b.val - a.val) / 2 * p.2.val
  | .chebyshevSecond r => r.nodeWeightPairs.map fun p => (b.val - a.val) / 2 * p.2.val
  | .jacobi r => r.nodeWeightPairs.map fun p => (b.val - a.val) / 2 * p.2.val
  | .hermite r => r.nodeWeightPairs.map fun p => p.2.val
  | .laguerre r => r.nodeWeightPairs.map fun p => p.2.val

/-- zero, or not below the smallest normal number -/
def NotTiny (q : ℚ) : Prop := q = 0 ∨ 1 / 2 ^ 1022 ≤ |q|

/-- the step, or half the length of the interval, does not underflow -/
def StepNormal (a b : F64) : AnyRule F64 → Prop
  | .midpoint r => NotTiny ((b -ᶠ a : F64).val / r.degree)
  | .trapezoid r => NotTiny ((b -ᶠ a : F64).val / r.degree)
  | .simpson r => NotTiny ((b -ᶠ a : F64).val / r.degree) ∧ NotTiny (((b -ᶠ a) /ᶠ ofNat r.degree : F64).val / 6)
  | .hermite _ => True
  | .laguerre _ => True
  | _ => NotTiny ((b -ᶠ a : F64).val / 2)

/-- No product of a weight and a value of the integrand underflows (Gauss rules); half the sum of the values at the bounds does
not underflow (trapezoid rule). -/
def TermsNormal (a b : F64) (f : F64 → F64) : AnyRule F64 → Prop
  | .midpoint _ => True
  | .trapezoid _ => NotTiny ((f a +ᶠ f b : F64).val / 2)
  | .simpson _ => True
  | .legendre r => ∀ q ∈ (points a b (.legendre r)).zip r.nodeWeightPairs, NotTiny ((f q.1).val * q.2.2.val)
  | .chebyshevFirst r => ∀ q ∈ (points a b (.chebyshevFirst r)).zip r.nodeWeightPairs, NotTiny ((f q.1).val * q.2.2.val)
  | .chebyshevSecond r => ∀ q ∈ (points a b (.chebyshevSecond r)).zip r.nodeWeightPairs, NotTiny ((f q.1).val * q.2.2.val)
  | .jacobi r => ∀ q ∈ (points a b (.jacobi r)).zip r.nodeWeightPairs, NotTiny ((f q.1).val * q.2.2.val)
  | .hermite r => ∀ q ∈ (points a b (.hermite r)).zip r.nodeWeightPairs, NotTiny ((f q.1).val * q.2.2.val)
  | .laguerre r => ∀ q ∈ (points a b (.laguerre r)).zip r.nodeWeightPairs, NotTiny ((f q.1).val * q.2.2.val)

/-- the number of terms of the sum (of each of the two sums, for Simpson's rule) -/
def sumLength : AnyRule F64 → Nat
  | .midpoint r => r.degree
  | .trapezoid r => r.degree - 1
  | .simpson r => r.degree - 1
  | .legendre r => r.nodeWeightPairs.length
  | .chebyshevFirst r => r.nodeWeightPairs.length
  | .chebyshevSecond r => r.nodeWeightPairs.length
  | .jacobi r => r.nodeWeightPairs.length
  | .hermite r => r.nodeWeightPairs.length
  | .laguerre r => r.nodeWeightPairs.length

end GaussQuad.Spec
