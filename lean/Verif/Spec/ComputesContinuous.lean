import Verif.Spec.Approx

/-!
# A program computing a continuous function

Like `Computes`, without a Lipschitz constant.
-/

namespace GaussQuad.Spec

/-- On `I` the real function `g` is bounded by `M` and changes by at most `ε` over distances up to `δ`, and the program `f` returns, for every finite binary64 argument
in `I`, a finite value within `η` of `g`. -/
structure ComputesContinuous (f : F64 → F64) (g : ℝ → ℝ) (I : Set ℝ) (M δ ε η : ℝ) : Prop where
  bound : ∀ t ∈ I, |g t| ≤ M
  oscillation : ∀ s ∈ I, ∀ t ∈ I, |s - t| ≤ δ → |g s - g t| ≤ ε
  accurate : ∀ y : F64, y.isFinite = true → (y.val : ℝ) ∈ I → (f y).isFinite = true ∧ |((f y).val : ℝ) - g y.val| ≤ η

end GaussQuad.Spec
