import Verif.Proofs.GaussConvergence
import Verif.Proofs.RealRuleLemmas
import Mathlib.Algebra.Order.BigOperators.Group.List

/-! Generic statements about weighted sums used for the Gauss rules: range, symmetry, points in the interval. -/

namespace GaussQuad
open Polynomial Spec MeasureTheory Filter

theorem value_gauss_quad {R : AnyRule ℝ} {ps : List (ℝ × ℝ)} (h : R.gaussPairs = some ps) (a b : ℝ) (f : ℝ → ℝ) :
    R.value a b f = (b - a) / 2 * quad ps (fun x => f ((b - a) / 2 * x + (a + b) / 2)) := value_gauss h a b f

/-- symmetric pairs: the value changes sign when the bounds are swapped -/
theorem quad_swap {L : List (ℝ × ℝ)} (h : (L.map fun p => (-p.1, p.2)).Perm L) (a b : ℝ) (f : ℝ → ℝ) :
    (a - b) / 2 * quad L (fun x => f ((a - b) / 2 * x + (b + a) / 2)) =
      -((b - a) / 2 * quad L (fun x => f ((b - a) / 2 * x + (a + b) / 2))) := by
  rw [← quad_perm h (fun x => f ((a - b) / 2 * x + (b + a) / 2))]
  have : quad (L.map fun p => (-p.1, p.2)) (fun x => f ((a - b) / 2 * x + (b + a) / 2)) =
      quad L (fun x => f ((b - a) / 2 * x + (a + b) / 2)) := by
    unfold quad
    rw [List.map_map]
    congr 1
    apply List.map_congr_left
    intro p _
    simp only [Function.comp_apply]
    congr 2; ring
  rw [this]; ring

/-- nodes in `(-1, 1)` are mapped into `(a, b)` -/
theorem transport_mem {a b x : ℝ} (hab : a < b) (hx : -1 < x ∧ x < 1) :
    a < (b - a) / 2 * x + (a + b) / 2 ∧ (b - a) / 2 * x + (a + b) / 2 < b := by
  constructor <;> nlinarith [hx.1, hx.2]

/-- what the range of the integrand says about the value of a rule with positive weights -/
theorem value_range {R : AnyRule ℝ} {L : List (ℝ × ℝ)} (h : R.gaussPairs = some L) (hw : ∀ p ∈ L, 0 ≤ p.2)
    {a b lo hi : ℝ} (hab : a ≤ b) {f : ℝ → ℝ} (hf : ∀ x ∈ points a b R, lo ≤ f x ∧ f x ≤ hi) :
    lo * ((b - a) / 2 * (L.map (·.2)).sum) ≤ R.value a b f ∧ R.value a b f ≤ hi * ((b - a) / 2 * (L.map (·.2)).sum) := by
  rw [value_gauss_quad h]
  have hpts : ∀ p ∈ L, (b - a) / 2 * p.1 + (a + b) / 2 ∈ points a b R := by
    intro p hp
    cases R <;> simp only [AnyRule.gaussPairs, Option.some.injEq, reduceCtorEq] at h <;> subst h <;>
      simp only [points, List.mem_map] <;> exact ⟨p, hp, transform_eq _ _ _⟩
  have h1 := quad_bounds (f := fun x => f ((b - a) / 2 * x + (a + b) / 2)) hw (fun p hp => hf _ (hpts p hp))
  have hba : 0 ≤ (b - a) / 2 := by linarith
  have a1 := mul_le_mul_of_nonneg_left h1.1 hba
  have a2 := mul_le_mul_of_nonneg_left h1.2 hba
  constructor <;> linarith

/-- all evaluation points are strictly inside the interval when the nodes are inside `(-1, 1)` -/
theorem points_inside {R : AnyRule ℝ} {L : List (ℝ × ℝ)} (h : R.gaussPairs = some L) (hL : ∀ p ∈ L, -1 < p.1 ∧ p.1 < 1)
    {a b : ℝ} (hab : a < b) : ∀ x ∈ points a b R, a < x ∧ x < b := by
  intro x hx
  cases R <;> simp only [AnyRule.gaussPairs, Option.some.injEq, reduceCtorEq] at h <;> subst h <;>
    simp only [points, List.mem_map] at hx <;> obtain ⟨p, hp, rfl⟩ := hx <;> rw [transform_eq] <;>
    exact transport_mem hab (hL p hp)

end GaussQuad
