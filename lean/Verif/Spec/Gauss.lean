import Verif.Spec.RealRule
import Mathlib.Algebra.Polynomial.Eval.Degree
import Mathlib.MeasureTheory.Integral.Bochner.Set
import Mathlib.MeasureTheory.Measure.Lebesgue.Basic

/-!
# What a Gauss rule should do

`weightIntegral S w p` is the integral of the polynomial `p` against the weight function `w` over the support `S`;
a list of node-weight pairs is exact to degree `d` if it reproduces these integrals for all polynomials up to that
degree, up to a constant factor `c` (1 for a perfect rule; the factor of the Golub-Welsch rules is the relative error of the
crate's gamma function).
-/

namespace GaussQuad.Spec
open Polynomial MeasureTheory

/-- `∫_S p(x) w(x) dx` -/
noncomputable def weightIntegral (S : Set ℝ) (w : ℝ → ℝ) (p : ℝ[X]) : ℝ := ∫ x in S, p.eval x * w x

/-- the quadrature sum of `L` equals `c · ∫_S p w` for every polynomial of degree at most `d` -/
def ExactUpTo (L : List (ℝ × ℝ)) (d : ℕ) (S : Set ℝ) (w : ℝ → ℝ) (c : ℝ) : Prop :=
  ∀ p : ℝ[X], p.natDegree ≤ d → quad L (fun x => p.eval x) = c * weightIntegral S w p

end GaussQuad.Spec
