import Mathlib.Analysis.SpecialFunctions.Gamma.Basic

/-!
# Classical polynomials and equations

Independent of the model.  The formulas are those of the literature (for instance NIST DLMF 18.5.7, 18.5.12, 18.16).
-/

namespace GaussQuad.Spec

/-- the sum of `1 / (x - y)` over the other points `y` -/
noncomputable def repulsion (l : List ℝ) (x : ℝ) : ℝ := ((l.erase x).map fun y => 1 / (x - y)).sum

/-- the product of `x - y` over the other points `y` -/
noncomputable def gapProduct (l : List ℝ) (x : ℝ) : ℝ := ((l.erase x).map fun y => x - y).prod

/-- the generalised Laguerre polynomial of degree `n` -/
noncomputable def laguerrePoly (n : ℕ) (α x : ℝ) : ℝ :=
  ∑ k ∈ Finset.range (n + 1), (-1) ^ k * (Real.Gamma (n + α + 1) / (Real.Gamma (k + α + 1) * (n - k).factorial)) * (x ^ k / k.factorial)

/-- the Jacobi polynomial of degree `n` -/
noncomputable def jacobiPoly (n : ℕ) (α β x : ℝ) : ℝ :=
  Real.Gamma (n + α + 1) / (n.factorial * Real.Gamma (n + α + β + 1)) *
    ∑ k ∈ Finset.range (n + 1), n.choose k * (Real.Gamma (n + k + α + β + 1) / Real.Gamma (k + α + 1)) * ((x - 1) / 2) ^ k

end GaussQuad.Spec
