import Verif.Proofs.Stieltjes
import Mathlib.Topology.EMetricSpace.VariationOnFromTo

/-!
Integrands of bounded variation: a function of bounded variation is the difference of two monotone functions whose ranges add up to its variation, so an error bound for
monotone integrands gives one for integrands of bounded variation.
-/

namespace GaussQuad
open Polynomial Spec MeasureTheory

/-- the Jordan decomposition with ranges -/
theorem bv_split {S : Set ℝ} {f : ℝ → ℝ} (hf : BoundedVariationOn f S) (hne : S.Nonempty) :
    ∃ (p q : ℝ → ℝ) (m₁ M₁ m₂ M₂ : ℝ), MonotoneOn p S ∧ MonotoneOn q S ∧ (∀ x, f x = p x - q x) ∧ (∀ x ∈ S, m₁ ≤ p x ∧ p x ≤ M₁) ∧
      (∀ x ∈ S, m₂ ≤ q x ∧ q x ≤ M₂) ∧ m₁ ≤ M₁ ∧ m₂ ≤ M₂ ∧ (M₁ - m₁) + (M₂ - m₂) ≤ (eVariationOn f S).toReal := by
  obtain ⟨x₀, h₀⟩ := hne
  have hl := hf.locallyBoundedVariationOn
  set v : ℝ → ℝ := variationOnFromTo f S x₀ with hv
  set V := (eVariationOn f S).toReal with hV
  set p : ℝ → ℝ := fun x => (v x + f x) / 2 with hp
  set q : ℝ → ℝ := fun x => (v x - f x) / 2 with hq
  have mp : MonotoneOn p S := fun x hx y hy hxy => by
    have := variationOnFromTo.add_self_monotoneOn hl h₀ hx hy hxy
    simp only [Pi.add_apply] at this
    simp only [hp]; linarith
  have mq : MonotoneOn q S := fun x hx y hy hxy => by
    have := variationOnFromTo.sub_self_monotoneOn hl h₀ hx hy hxy
    simp only [Pi.sub_apply] at this
    simp only [hq]; linarith
  have hdiff : ∀ z ∈ S, ∀ t ∈ S, v z - v t ≤ V := fun z hz t ht => by
    have h1 := variationOnFromTo.add hl h₀ ht hz
    have h2 := variationOnFromTo.abs_le_eVariationOn hf (a := t) (b := z)
    have := (abs_le.1 h2).2
    simp only [hv]; linarith
  have key : ∀ x ∈ S, ∀ y ∈ S, ∀ x' ∈ S, ∀ y' ∈ S, p x - p y + (q x' - q y') ≤ V := by
    intro x hx y hy x' hx' y' hy'
    have hz : max x x' ∈ S := by rcases max_choice x x' with h | h <;> rw [h] <;> assumption
    have ht : min y y' ∈ S := by rcases min_choice y y' with h | h <;> rw [h] <;> assumption
    have a1 := mp hx hz (le_max_left _ _)
    have a2 := mp ht hy (min_le_left _ _)
    have a3 := mq hx' hz (le_max_right _ _)
    have a4 := mq ht hy' (min_le_right _ _)
    have a5 := hdiff _ hz _ ht
    have e : ∀ t, p t + q t = v t := fun t => by simp only [hp, hq]; ring
    linarith [e (max x x'), e (min y y')]
  have bd : ∀ x ∈ S, (p x₀ - V ≤ p x ∧ p x ≤ p x₀ + V) ∧ (q x₀ - V ≤ q x ∧ q x ≤ q x₀ + V) := fun x hx =>
    ⟨⟨by linarith [key _ h₀ _ hx _ h₀ _ h₀], by linarith [key _ hx _ h₀ _ h₀ _ h₀]⟩, ⟨by linarith [key _ h₀ _ h₀ _ h₀ _ hx], by linarith [key _ h₀ _ h₀ _ hx _ h₀]⟩⟩
  have ne1 : (p '' S).Nonempty := ⟨_, x₀, h₀, rfl⟩
  have ne2 : (q '' S).Nonempty := ⟨_, x₀, h₀, rfl⟩
  have ba1 : BddAbove (p '' S) := ⟨p x₀ + V, by rintro _ ⟨x, hx, rfl⟩; exact (bd x hx).1.2⟩
  have bb1 : BddBelow (p '' S) := ⟨p x₀ - V, by rintro _ ⟨x, hx, rfl⟩; exact (bd x hx).1.1⟩
  have ba2 : BddAbove (q '' S) := ⟨q x₀ + V, by rintro _ ⟨x, hx, rfl⟩; exact (bd x hx).2.2⟩
  have bb2 : BddBelow (q '' S) := ⟨q x₀ - V, by rintro _ ⟨x, hx, rfl⟩; exact (bd x hx).2.1⟩
  refine ⟨p, q, sInf (p '' S), sSup (p '' S), sInf (q '' S), sSup (q '' S), mp, mq, fun x => by simp only [hp, hq]; ring,
    fun x hx => ⟨csInf_le bb1 ⟨x, hx, rfl⟩, le_csSup ba1 ⟨x, hx, rfl⟩⟩, fun x hx => ⟨csInf_le bb2 ⟨x, hx, rfl⟩, le_csSup ba2 ⟨x, hx, rfl⟩⟩,
    csInf_le_csSup ne1 bb1 ba1, csInf_le_csSup ne2 bb2 ba2, ?_⟩
  have s1 : ∀ y ∈ S, ∀ x' ∈ S, ∀ y' ∈ S, sSup (p '' S) ≤ V + p y - (q x' - q y') := fun y hy x' hx' y' hy' =>
    csSup_le ne1 (by rintro _ ⟨x, hx, rfl⟩; linarith [key x hx y hy x' hx' y' hy'])
  have s2 : ∀ x' ∈ S, ∀ y' ∈ S, sSup (p '' S) - V + (q x' - q y') ≤ sInf (p '' S) := fun x' hx' y' hy' =>
    le_csInf ne1 (by rintro _ ⟨y, hy, rfl⟩; linarith [s1 y hy x' hx' y' hy'])
  have s3 : ∀ y' ∈ S, sSup (q '' S) ≤ sInf (p '' S) - sSup (p '' S) + V + q y' := fun y' hy' =>
    csSup_le ne2 (by rintro _ ⟨x', hx', rfl⟩; linarith [s2 x' hx' y' hy'])
  have s4 : sSup (q '' S) - sInf (p '' S) + sSup (p '' S) - V ≤ sInf (q '' S) :=
    le_csInf ne2 (by rintro _ ⟨y', hy', rfl⟩; linarith [s3 y' hy'])
  linarith

/-- an increment is at most the variation -/
theorem bv_abs_sub_le {S : Set ℝ} {f : ℝ → ℝ} (hf : BoundedVariationOn f S) {x y : ℝ} (hx : x ∈ S) (hy : y ∈ S) : |f x - f y| ≤ (eVariationOn f S).toReal := by
  have h := hf.dist_le hx hy
  rwa [Real.dist_eq] at h

variable {S : Set ℝ} {w : ℝ → ℝ} {c : ℝ} {L : List (ℝ × ℝ)}

/-- integrands of bounded variation: integrability and error -/
theorem gauss_bv (hS : MeasurableSet S) (hwm : Measurable w) (hw : ∀ x ∈ S, 0 ≤ w x) (hint : ∀ p : ℝ[X], IntegrableOn (fun x => p.eval x * w x) S)
    (hc : 0 < c) (hpos : PosDef S w) (hex : ExactUpTo L (2 * L.length - 1) S w c) (hnode : ∀ q ∈ L, q.1 ∈ S) {W : ℝ} (hW0 : 0 ≤ W) (hW : ∀ q ∈ L, q.2 ≤ W)
    (hne : S.Nonempty) {f : ℝ → ℝ} (hf : BoundedVariationOn f S) :
    IntegrableOn (fun x => f x * w x) S ∧ |quad L f - c * ∫ x in S, f x * w x| ≤ (eVariationOn f S).toReal * W := by
  obtain ⟨p, q, m₁, M₁, m₂, M₂, hp, hq, e, b1, b2, hm1, hm2, hV⟩ := bv_split hf hne
  have h1 := gauss_monotone hS hwm hw hint hc hpos hex hnode hW0 hW hp (fun x hx => (b1 x hx).1) (fun x hx => (b1 x hx).2) hm1
  have h2 := gauss_monotone hS hwm hw hint hc hpos hex hnode hW0 hW hq (fun x hx => (b2 x hx).1) (fun x hx => (b2 x hx).2) hm2
  have ef : f = fun x => p x - q x := funext e
  have ew : (fun x => f x * w x) = fun x => p x * w x - q x * w x := by ext x; rw [e]; ring
  refine ⟨ew ▸ h1.1.sub h2.1, ?_⟩
  rw [ew, integral_sub h1.1 h2.1, ef, ← quad_sub]
  have hb := abs_sub (quad L p - c * ∫ x in S, p x * w x) (quad L q - c * ∫ x in S, q x * w x)
  rw [← ef]
  calc _ = |(quad L p - c * ∫ x in S, p x * w x) - (quad L q - c * ∫ x in S, q x * w x)| := by congr 1; ring
    _ ≤ (M₁ - m₁) * W + (M₂ - m₂) * W := hb.trans (add_le_add h1.2 h2.2)
    _ = ((M₁ - m₁) + (M₂ - m₂)) * W := by ring
    _ ≤ _ := mul_le_mul_of_nonneg_right hV hW0

end GaussQuad
