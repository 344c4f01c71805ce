import Verif.Model.Ext
import Verif.Model.RealOps
import Mathlib.Algebra.BigOperators.Group.Finset.Basic

/-!
# Contract of an exact symmetric eigen-solver

`nalgebra::symmetric_eigen` documents that it returns the eigenvalues and an orthogonal matrix whose columns are the
eigenvectors.  In exact arithmetic that is the following statement (satisfiable by the spectral theorem, see
`Verif.Proofs.GolubWelschTheory`).
-/

namespace GaussQuad.Spec

/-- the columns of `E.eigenvectors` are orthonormal eigenvectors of `M` -/
structure IsEigenDecomposition {n : ℕ} (M : Fin n → Fin n → ℝ) (E : SymEigen ℝ n) : Prop where
  eigen : ∀ i j, ∑ k, M i k * E.eigenvectors k j = E.eigenvalues j * E.eigenvectors i j
  orthonormal : ∀ j j', ∑ i, E.eigenvectors i j * E.eigenvectors i j' = if j = j' then 1 else 0

/-- the solver decomposes every symmetric matrix exactly -/
def ExactSolver (ext : Externals ℝ) : Prop :=
  ∀ (n : ℕ) (M : Fin n → Fin n → ℝ), (∀ i j, M i j = M j i) → IsEigenDecomposition M (ext.eig n M)

end GaussQuad.Spec
