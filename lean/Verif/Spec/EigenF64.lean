import Verif.Spec.Eigen
import Verif.Spec.RealRule
import Verif.Model.F64

/-!
# What is asked of a binary64 eigen-solver, and what a computed rule should satisfy

`StableSolver` is the textbook guarantee of the symmetric QR algorithm (`nalgebra::symmetric_eigen` implements one): the computed decomposition is
close to the exact one of a nearby matrix.  No accuracy of the individual eigenvectors with respect to the input matrix is assumed.
-/

namespace GaussQuad.Spec

set_option exponentiation.threshold 3000

/-- finite entries far from overflow, and a matrix that is zero or has an entry far from underflow (the implementation divides by the largest entry) -/
def Moderate {n : ℕ} (M : Fin n → Fin n → F64) : Prop :=
  (∀ i j, (M i j).isFinite = true ∧ |((M i j).val : ℝ)| ≤ 2 ^ 400) ∧ ((∀ i j, ((M i j).val : ℝ) = 0) ∨ ∃ i j, 1 / 2 ^ 400 ≤ |((M i j).val : ℝ)|)

/-- The solver is backward stable with constant `ε` on moderate symmetric `n × n` matrices: everything returned is finite, the returned
eigenvalues are the exact eigenvalues of a matrix `M'` with `‖M' - M‖ ≤ ε ‖M‖`, and the returned vectors are within `ε` of an orthonormal
eigenvector basis `Q` of `M'`, in the Frobenius norm. -/
def StableSolver [Libm] (ext : Externals F64) (n : ℕ) (ε : ℝ) : Prop :=
  ∀ M : Fin n → Fin n → F64, (∀ i j, M i j = M j i) → Moderate M →
    (∀ j, ((ext.eig n M).eigenvalues j).isFinite = true) ∧ (∀ i j, ((ext.eig n M).eigenvectors i j).isFinite = true) ∧
    ∃ M' Q : Fin n → Fin n → ℝ, IsEigenDecomposition M' ⟨fun j => ((ext.eig n M).eigenvalues j).val, Q⟩ ∧
      ∑ i, ∑ j, (M' i j - (M i j).val) ^ 2 ≤ ε ^ 2 * ∑ i, ∑ j, ((M i j).val : ℝ) ^ 2 ∧
      ∑ i, ∑ j, (((ext.eig n M).eigenvectors i j).val - Q i j) ^ 2 ≤ ε ^ 2

/-- The binary64 pairs `L` are close to the rule `G` with total weight `m`: finite, with non-negative weights; each node is within
`η` of the corresponding node of `G`; and for every function bounded by `M` and `Λ`-Lipschitz on an interval that contains the nodes of `G` with
margin `η`, the quadrature sums differ by at most `m(Λη + ωM)`. -/
structure NearRule (L : List (F64 × F64)) (G : List (ℝ × ℝ)) (m η ω : ℝ) : Prop where
  length : L.length = G.length
  finite : ∀ p ∈ L, p.1.isFinite = true ∧ p.2.isFinite = true
  nonneg : ∀ p ∈ L, 0 ≤ p.2.val
  nodes : ∀ i (h : i < L.length) (h' : i < G.length), |((L[i]).1.val : ℝ) - (G[i]).1| ≤ η
  sums : ∀ (g : ℝ → ℝ) (lo hi Λ M : ℝ), 0 ≤ Λ → 0 ≤ M → (∀ q ∈ G, lo + η ≤ q.1 ∧ q.1 + η ≤ hi) → (∀ x ∈ Set.Icc lo hi, |g x| ≤ M) →
    (∀ x ∈ Set.Icc lo hi, ∀ y ∈ Set.Icc lo hi, |g x - g y| ≤ Λ * |x - y|) →
    |(L.map fun p => (p.2.val : ℝ) * g p.1.val).sum - quad G g| ≤ m * (Λ * η + ω * M)

/-- moreover the nodes are in ascending order -/
structure CloseRule (L : List (F64 × F64)) (G : List (ℝ × ℝ)) (m η ω : ℝ) : Prop extends NearRule L G m η ω where
  ascending : L.Pairwise fun p q => p.1.val ≤ q.1.val

end GaussQuad.Spec
