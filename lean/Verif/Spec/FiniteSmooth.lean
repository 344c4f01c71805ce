import Mathlib.Analysis.Calculus.ContDiff.Basic
import Mathlib.Analysis.Calculus.IteratedDeriv.Defs
import Mathlib.Analysis.Real.Pi.Bounds

/-!
Integrands of finite smoothness: the hypothesis of the algebraic convergence theorem (C87).
-/

namespace GaussQuad.Spec

/-- `g` has `k` continuous derivatives on the interval between `a` and `b`, and the last one is Lipschitz with constant `K`. -/
def SmoothBetween (g : ℝ → ℝ) (a b : ℝ) (k : ℕ) (K : ℝ) : Prop :=
  ContDiffOn ℝ k g (Set.uIcc a b) ∧
    ∀ x ∈ Set.uIcc a b, ∀ y ∈ Set.uIcc a b, |iteratedDerivWithin k g (Set.uIcc a b) x - iteratedDerivWithin k g (Set.uIcc a b) y| ≤ K * |x - y|

end GaussQuad.Spec
