import Mathlib.Analysis.Calculus.IteratedDeriv.Lemmas
import Mathlib.Analysis.SpecialFunctions.Gamma.Basic

/-!
# Smooth integrands

The class of integrands for which the remainder of a Gauss rule is stated, and the constant in the Gauss-Jacobi remainder.
-/

namespace GaussQuad.Spec

/-- `g` has `N` continuous derivatives on `S` and `|g^(N)| ≤ K` there -/
structure SmoothOn (g : ℝ → ℝ) (N : ℕ) (K : ℝ) (S : Set ℝ) : Prop where
  cont : ContDiffOn ℝ N g S
  bound : ∀ x ∈ S, |iteratedDeriv N g x| ≤ K

/-- the integral of the squared monic Jacobi polynomial of degree `n` against `(1-t)^α (1+t)^β` over `(-1, 1)` -/
noncomputable def jacNorm (n : ℕ) (α β : ℝ) : ℝ := 2 ^ (2 * n + α + β + 1) * n.factorial * Real.Gamma (n + α + 1) * Real.Gamma (n + β + 1) *
  Real.Gamma (n + α + β + 1) / ((2 * n + α + β + 1) * Real.Gamma (2 * n + α + β + 1) ^ 2)

end GaussQuad.Spec
