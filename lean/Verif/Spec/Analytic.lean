import Mathlib.Analysis.Complex.CauchyIntegral

/-!
Analytic integrands: the hypothesis of the geometric convergence theorems (C82, C83).
-/

namespace GaussQuad.Spec

/-- the open ellipse with foci `a` and `b` whose semi-axes add up to `ρ |b - a| / 2` -/
def ellipseAround (a b ρ : ℝ) : Set ℂ := {z | ‖z - a‖ + ‖z - b‖ < |b - a| / 2 * (ρ + ρ⁻¹)}

/-- `g` extends from the interval between `a` and `b` to a function that is complex differentiable and bounded by `M` on the ellipse. -/
def AnalyticAround (g : ℝ → ℝ) (a b ρ M : ℝ) : Prop :=
  ∃ f : ℂ → ℂ, DifferentiableOn ℂ f (ellipseAround a b ρ) ∧ (∀ z ∈ ellipseAround a b ρ, ‖f z‖ ≤ M) ∧ ∀ x ∈ Set.uIcc a b, f x = (g x : ℝ)

/-- `g` extends from the real line to a function that is complex differentiable and bounded by `M` on the strip `|Im z| < σ`. -/
def AnalyticStrip (g : ℝ → ℝ) (σ M : ℝ) : Prop :=
  ∃ f : ℂ → ℂ, DifferentiableOn ℂ f {z | |z.im| < σ} ∧ (∀ z : ℂ, |z.im| < σ → ‖f z‖ ≤ M) ∧ ∀ x : ℝ, f x = (g x : ℝ)

end GaussQuad.Spec
