import Mathlib.Algebra.Polynomial.Basic
import Mathlib.Data.Real.Basic

/-!
# Legendre polynomials

Bonnet's recurrence `(k+2) P_{k+2} = (2k+3) x P_{k+1} - (k+1) P_k`, `P_0 = 1`, `P_1 = x`.
-/

namespace GaussQuad.Spec
open Polynomial

/-- the Legendre polynomial `P_n` -/
noncomputable def legendreP : ℕ → ℝ[X]
  | 0 => 1
  | 1 => X
  | k + 2 => C ((2 * k + 3) / (k + 2) : ℝ) * X * legendreP (k + 1) - C ((k + 1) / (k + 2) : ℝ) * legendreP k

end GaussQuad.Spec
