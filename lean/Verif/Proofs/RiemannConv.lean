import Verif.Proofs.GaussUnbounded
import Mathlib.MeasureTheory.Integral.DominatedConvergence
import Mathlib.MeasureTheory.Function.StronglyMeasurable.AEStronglyMeasurable

/-!
# Convergence of positive sums for integrands that are continuous almost everywhere

If positive sums converge for every continuous integrand below a bound `C φ`, they converge for every integrand below that bound that is continuous at almost every point: such an
integrand lies between two continuous ones whose integrals are as close as desired (its Lipschitz regularisations).
-/

namespace GaussQuad
open MeasureTheory Filter Topology

/-- the largest `k`-Lipschitz function below `u` -/
noncomputable def lipLower (u : ℝ → ℝ) (k : ℕ) (x : ℝ) : ℝ := ⨅ y, (u y + k * |x - y|)

section
variable {u : ℝ → ℝ} {C : ℝ}

theorem lipLower_bdd (hu : ∀ x, |u x| ≤ C) (k : ℕ) (x : ℝ) : BddBelow (Set.range fun y => u y + k * |x - y|) :=
  ⟨-C, by rintro _ ⟨y, rfl⟩; have := (abs_le.1 (hu y)).1; have : 0 ≤ (k : ℝ) * |x - y| := by positivity
          simp only; linarith⟩

theorem lipLower_le (hu : ∀ x, |u x| ≤ C) (k : ℕ) (x : ℝ) : lipLower u k x ≤ u x := by
  have : lipLower u k x ≤ u x + k * |x - x| := ciInf_le (lipLower_bdd hu k x) x
  simpa using this

theorem le_lipLower {u : ℝ → ℝ} {k : ℕ} {x b : ℝ} (h : ∀ y, b ≤ u y + k * |x - y|) : b ≤ lipLower u k x := le_ciInf h

theorem lipLower_abs (hu : ∀ x, |u x| ≤ C) (k : ℕ) (x : ℝ) : |lipLower u k x| ≤ C := by
  rw [abs_le]
  refine ⟨le_lipLower fun y => ?_, (lipLower_le hu k x).trans (abs_le.1 (hu x)).2⟩
  have := (abs_le.1 (hu y)).1
  have : 0 ≤ (k : ℝ) * |x - y| := by positivity
  linarith

theorem lipLower_lip (hu : ∀ x, |u x| ≤ C) (k : ℕ) (x x' : ℝ) : lipLower u k x ≤ lipLower u k x' + k * |x - x'| := by
  rw [← sub_le_iff_le_add]
  refine le_lipLower fun y => ?_
  have h := ciInf_le (lipLower_bdd hu k x) y
  have h2 : |x - y| ≤ |x - x'| + |x' - y| := abs_sub_le x x' y
  have h3 : (k : ℝ) * |x - y| ≤ k * |x - x'| + k * |x' - y| := by
    rw [← mul_add]; exact mul_le_mul_of_nonneg_left h2 (Nat.cast_nonneg k)
  have : lipLower u k x ≤ u y + k * |x - y| := h
  linarith

theorem lipLower_continuous (hu : ∀ x, |u x| ≤ C) (k : ℕ) : Continuous (lipLower u k) := by
  have : LipschitzWith k (lipLower u k) := LipschitzWith.of_dist_le_mul fun x y => by
    rw [Real.dist_eq, Real.dist_eq, abs_le]
    have h1 := lipLower_lip hu k x y
    have h2 := lipLower_lip hu k y x
    rw [abs_sub_comm] at h2
    constructor
    · push_cast; linarith
    · push_cast; linarith
  exact this.continuous

theorem lipLower_tendsto (hu : ∀ x, |u x| ≤ C) {x : ℝ} (hx : ContinuousAt u x) : Tendsto (fun k => lipLower u k x) atTop (𝓝 (u x)) := by
  rw [Metric.tendsto_atTop]
  intro ε hε
  obtain ⟨δ, hδ, h⟩ := Metric.continuousAt_iff.1 hx (ε / 2) (by linarith)
  obtain ⟨N, hN⟩ := exists_nat_gt (2 * C / δ)
  refine ⟨N, fun k hk => ?_⟩
  have hk' : 2 * C ≤ k * δ := by
    rw [div_lt_iff₀ hδ] at hN
    have : (N : ℝ) ≤ k := by exact_mod_cast hk
    nlinarith
  have h1 := lipLower_le hu k x
  have h2 : u x - ε / 2 ≤ lipLower u k x := by
    refine le_lipLower fun y => ?_
    by_cases hy : |x - y| < δ
    · have := h (x := y) (by rw [Real.dist_eq, abs_sub_comm]; exact hy)
      rw [Real.dist_eq] at this
      have := (abs_lt.1 this).1
      have : 0 ≤ (k : ℝ) * |x - y| := by positivity
      linarith
    · push Not at hy
      have e1 := (abs_le.1 (hu y)).1
      have e2 := (abs_le.1 (hu x)).2
      have : (k : ℝ) * δ ≤ k * |x - y| := mul_le_mul_of_nonneg_left hy (Nat.cast_nonneg k)
      linarith
  rw [Real.dist_eq, abs_lt]
  constructor <;> linarith

end

/-- the squeeze -/
theorem tendsto_ae_continuous {ν : Measure ℝ} {Q : ℕ → (ℝ → ℝ) → ℝ} (hmono : ∀ m f g, (∀ x, f x ≤ g x) → Q m f ≤ Q m g) {φ : ℝ → ℝ} (hφc : Continuous φ)
    (hφ : ∀ x, 0 < φ x) (hφi : Integrable φ ν) {C : ℝ}
    (hQ : ∀ g, Continuous g → (∀ x, |g x| ≤ C * φ x) → Tendsto (fun m => Q m g) atTop (𝓝 (∫ x, g x ∂ν)))
    {f : ℝ → ℝ} (hf : ∀ x, |f x| ≤ C * φ x) (hcont : ∀ᵐ x ∂ν, ContinuousAt f x) :
    Integrable f ν ∧ Tendsto (fun m => Q m f) atTop (𝓝 (∫ x, f x ∂ν)) := by
  -- lower approximations of a function below the bound
  have key : ∀ f : ℝ → ℝ, (∀ x, |f x| ≤ C * φ x) → (∀ᵐ x ∂ν, ContinuousAt f x) → ∃ g : ℕ → ℝ → ℝ, (∀ k, Continuous (g k)) ∧ (∀ k x, |g k x| ≤ C * φ x) ∧
      (∀ k x, g k x ≤ f x) ∧ ∀ᵐ x ∂ν, Tendsto (fun k => g k x) atTop (𝓝 (f x)) := by
    intro f hf hcont
    have hu : ∀ x, |f x / φ x| ≤ C := fun x => by rw [abs_div, abs_of_pos (hφ x), div_le_iff₀ (hφ x)]; exact hf x
    refine ⟨fun k x => lipLower (fun x => f x / φ x) k x * φ x, fun k => (lipLower_continuous hu k).mul hφc, fun k x => ?_, fun k x => ?_, ?_⟩
    · rw [abs_mul, abs_of_pos (hφ x)]
      exact mul_le_mul_of_nonneg_right (lipLower_abs hu k x) (hφ x).le
    · have := lipLower_le hu k x
      rwa [le_div_iff₀ (hφ x)] at this
    · filter_upwards [hcont] with x hx
      have := (lipLower_tendsto hu (hx.div hφc.continuousAt (hφ x).ne')).mul_const (φ x)
      rwa [div_mul_cancel₀ _ (hφ x).ne'] at this
  obtain ⟨g, g1, g2, g3, g4⟩ := key f hf hcont
  obtain ⟨h, h1, h2, h3, h4⟩ := key (fun x => -f x) (fun x => by rw [abs_neg]; exact hf x) (by filter_upwards [hcont] with x hx using hx.neg)
  have hCφ : Integrable (fun x => C * φ x) ν := hφi.const_mul C
  have hfm : AEStronglyMeasurable f ν := aestronglyMeasurable_of_tendsto_ae atTop (fun k => (g1 k).aestronglyMeasurable) g4
  have hfi : Integrable f ν := hCφ.mono' hfm (Eventually.of_forall fun x => by rw [Real.norm_eq_abs]; exact hf x)
  have hg : Tendsto (fun k => ∫ x, g k x ∂ν) atTop (𝓝 (∫ x, f x ∂ν)) :=
    tendsto_integral_of_dominated_convergence _ (fun k => (g1 k).aestronglyMeasurable) hCφ (fun k => Eventually.of_forall fun x => by rw [Real.norm_eq_abs]; exact g2 k x) g4
  have hh : Tendsto (fun k => ∫ x, -h k x ∂ν) atTop (𝓝 (∫ x, f x ∂ν)) := by
    refine tendsto_integral_of_dominated_convergence _ (fun k => (h1 k).neg.aestronglyMeasurable) hCφ
      (fun k => Eventually.of_forall fun x => by rw [Real.norm_eq_abs, abs_neg]; exact h2 k x) ?_
    filter_upwards [h4] with x hx
    simpa using hx.neg
  refine ⟨hfi, tendsto_order.2 ⟨fun a ha => ?_, fun a ha => ?_⟩⟩
  · obtain ⟨k, hk⟩ := ((tendsto_order.1 hg).1 a ha).exists
    filter_upwards [(tendsto_order.1 (hQ (g k) (g1 k) (g2 k))).1 a hk] with m hm
    exact hm.trans_le (hmono m _ _ (g3 k))
  · obtain ⟨k, hk⟩ := ((tendsto_order.1 hh).2 a ha).exists
    filter_upwards [(tendsto_order.1 (hQ (fun x => -h k x) (h1 k).neg (fun x => by rw [abs_neg]; exact h2 k x))).2 a hk] with m hm
    exact (hmono m _ _ fun x => by have := h3 k x; linarith).trans_lt hm

end GaussQuad
