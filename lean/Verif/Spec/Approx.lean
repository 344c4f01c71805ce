import Verif.Model.F64
import Mathlib.Data.Real.Basic
import Mathlib.Order.Interval.Set.Defs

/-!
# Integrands in binary64

What it means for a program `f` to compute a real function `g` on a set, with bounds used by error estimates.
-/

namespace GaussQuad.Spec

/-- the interval between `a` and `b` (in either order) widened by `ρ` on both sides -/
def around (a b ρ : ℝ) : Set ℝ := Set.Icc (min a b - ρ) (max a b + ρ)

/-- On `I` the real function `g` is bounded by `M` and `Λ`-Lipschitz, and the program `f` returns, for every finite binary64 argument in `I`, a
finite value within `η` of `g`. -/
structure Computes (f : F64 → F64) (g : ℝ → ℝ) (I : Set ℝ) (M Λ η : ℝ) : Prop where
  bound : ∀ t ∈ I, |g t| ≤ M
  lipschitz : ∀ s ∈ I, ∀ t ∈ I, |g s - g t| ≤ Λ * |s - t|
  accurate : ∀ y : F64, y.isFinite = true → (y.val : ℝ) ∈ I → (f y).isFinite = true ∧ |((f y).val : ℝ) - g y.val| ≤ η

end GaussQuad.Spec
