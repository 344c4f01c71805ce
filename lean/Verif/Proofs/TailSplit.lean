import Verif.Proofs.LaguerreRate
import Verif.Proofs.Quadratic
import Verif.Proofs.Variation
import Verif.Proofs.GaussConvergence

/-!
# Splitting an integrand into a bounded part and a tail below a polynomial (for C117)
-/

namespace GaussQuad
open Polynomial Spec MeasureTheory

/-- changing the integrand by at most `A p`, `p` a polynomial the rule integrates exactly, changes the error by at most `2 c A ∫ p w` -/
theorem tail_error {L : List (ℝ × ℝ)} {S : Set ℝ} {w : ℝ → ℝ} {c A : ℝ} {d : ℕ} (hS : MeasurableSet S) (hwm : Measurable w) (hw : ∀ x ∈ S, 0 ≤ w x)
    (hint : ∀ p : ℝ[X], IntegrableOn (fun x => p.eval x * w x) S) (hc : 0 < c) (hex : ExactUpTo L d S w c) (hnode : ∀ q ∈ L, q.1 ∈ S) (hweight : ∀ q ∈ L, 0 ≤ q.2)
    {f g : ℝ → ℝ} {p : ℝ[X]} (hp : p.natDegree ≤ d) (hf : AEStronglyMeasurable f (volume.restrict S)) (hg : IntegrableOn (fun x => g x * w x) S)
    (hgm : AEStronglyMeasurable g (volume.restrict S)) (h : ∀ x ∈ S, |f x - g x| ≤ A * p.eval x) :
    IntegrableOn (fun x => f x * w x) S ∧ |quad L f - c * ∫ x in S, f x * w x| ≤ |quad L g - c * ∫ x in S, g x * w x| + 2 * c * A * weightIntegral S w p := by
  have hb : IntegrableOn (fun x => A * (p.eval x * w x)) S := (hint p).const_mul A
  have hle : ∀ x ∈ S, ‖(f x - g x) * w x‖ ≤ A * (p.eval x * w x) := fun x hx => by
    rw [Real.norm_eq_abs, abs_mul, abs_of_nonneg (hw x hx), ← mul_assoc]
    exact mul_le_mul_of_nonneg_right (h x hx) (hw x hx)
  have hae := (ae_restrict_iff' (μ := volume) hS).2 (.of_forall hle)
  have hd : IntegrableOn (fun x => (f x - g x) * w x) S := Integrable.mono' hb ((hf.sub hgm).mul hwm.aestronglyMeasurable) hae
  have e : (fun x => f x * w x) = fun x => (f x - g x) * w x + g x * w x := by ext x; ring
  refine ⟨e ▸ hd.add hg, ?_⟩
  have h1 : |∫ x in S, (f x - g x) * w x| ≤ A * weightIntegral S w p := by
    rw [← Real.norm_eq_abs, weightIntegral, ← integral_const_mul]
    exact norm_integral_le_of_norm_le hb hae
  have h2 : |quad L f - quad L g| ≤ A * (c * weightIntegral S w p) := by
    rw [quad_sub, ← hex p hp, ← quad_smul]
    unfold quad
    clear hex
    induction L with
    | nil => simp
    | cons q L ih =>
      simp only [List.map_cons, List.sum_cons]
      have ih := ih (fun q hq => hnode q (List.mem_cons_of_mem _ hq)) fun q hq => hweight q (List.mem_cons_of_mem _ hq)
      refine (abs_add_le _ _).trans (add_le_add ?_ ih)
      rw [abs_mul, abs_of_nonneg (hweight q List.mem_cons_self)]
      exact mul_le_mul_of_nonneg_left (h _ (hnode q List.mem_cons_self)) (hweight q List.mem_cons_self)
  have h3 : ∫ x in S, f x * w x = (∫ x in S, (f x - g x) * w x) + ∫ x in S, g x * w x := by
    rw [e]; exact integral_add hd hg
  rw [h3]
  have h4 := mul_le_mul_of_nonneg_left h1 hc.le
  rw [← abs_of_pos hc, ← abs_mul, abs_of_pos hc] at h4
  have e2 : quad L f - c * ((∫ x in S, (f x - g x) * w x) + ∫ x in S, g x * w x) =
      (quad L f - quad L g) + (quad L g - c * ∫ x in S, g x * w x) + -(c * ∫ x in S, (f x - g x) * w x) := by ring
  rw [e2]
  refine (abs_add_three _ _ _).trans ?_
  rw [abs_neg]
  linarith

theorem hermite_even_moment (k : ℕ) : weightIntegral Set.univ hermW (X ^ (2 * k)) = Real.Gamma (k + 1 / 2) := by
  rw [hermite_laguerre_moment]
  have h := (lag_monomial (α := -1 / 2) (by norm_num) k).2
  unfold weightIntegral
  simp only [eval_pow, eval_X]
  rw [h]; congr 1; ring

theorem laguerre_power_moment {α : ℝ} (hα : -1 < α) (k : ℕ) : weightIntegral (Set.Ioi 0) (lagW α) (X ^ k) = Real.Gamma (k + α + 1) := by
  unfold weightIntegral
  simp only [eval_pow, eval_X]
  exact (lag_monomial hα k).2

theorem gamma_half_le : ∀ k : ℕ, 0 < k → Real.Gamma (k + 1 / 2) * 2 ^ k ≤ 2 * (k : ℝ) ^ k
  | 0, h => absurd h (lt_irrefl _)
  | 1, _ => by
    have h1 : Real.Gamma ((1 : ℕ) + 1 / 2 : ℝ) = 1 / 2 * Real.sqrt Real.pi := by
      rw [← Real.Gamma_one_half_eq, ← Real.Gamma_add_one (by norm_num)]
      norm_num
    have h2 : Real.sqrt Real.pi ≤ 2 := Real.sqrt_le_iff.2 ⟨by norm_num, by linarith [Real.pi_le_four]⟩
    rw [h1]; norm_num; linarith
  | k + 2, _ => by
    have ih := gamma_half_le (k + 1) (by omega)
    have e : ((k + 2 : ℕ) : ℝ) + 1 / 2 = ((k + 1 : ℕ) + 1 / 2 : ℝ) + 1 := by push_cast; ring
    have hpos : 0 < ((k + 1 : ℕ) : ℝ) := by positivity
    rw [e, Real.Gamma_add_one (by positivity)]
    set m : ℝ := ((k + 1 : ℕ) : ℝ) with hm
    have hb : (2 : ℝ) * m ^ (k + 1) ≤ (m + 1) ^ (k + 1) := by
      have h1 := one_add_mul_le_pow (a := 1 / m) (by have : 0 < 1 / m := by positivity
                                                     linarith) (k + 1)
      have h2 : 1 + ((k + 1 : ℕ) : ℝ) * (1 / m) = 2 := by rw [← hm]; field_simp; norm_num
      rw [h2] at h1
      have h3 : (m + 1) ^ (k + 1) = (1 + 1 / m) ^ (k + 1) * m ^ (k + 1) := by rw [← mul_pow]; congr 1; field_simp
      rw [h3]
      exact mul_le_mul_of_nonneg_right h1 (by positivity)
    have e2 : ((k + 2 : ℕ) : ℝ) = m + 1 := by rw [hm]; push_cast; ring
    rw [e2]
    have h4 : (m + 1 / 2) * Real.Gamma (m + 1 / 2) * 2 ^ (k + 2) ≤ (m + 1 / 2) * (2 * (2 * m ^ (k + 1))) := by
      rw [pow_succ, mul_assoc]
      have := mul_le_mul_of_nonneg_left ih (by positivity : (0 : ℝ) ≤ (m + 1 / 2) * 2)
      nlinarith
    refine h4.trans ?_
    rw [pow_succ (m + 1)]
    nlinarith [pow_pos hpos (k + 1)]

/-- the variation of a Lipschitz function -/
theorem lipschitz_variation {f : ℝ → ℝ} {Λ a b : ℝ} (hΛ : 0 ≤ Λ) (hab : a ≤ b) (h : ∀ x ∈ Set.Icc a b, ∀ y ∈ Set.Icc a b, |f x - f y| ≤ Λ * |x - y|) :
    BoundedVariationOn f (Set.Icc a b) ∧ (eVariationOn f (Set.Icc a b)).toReal ≤ Λ * (b - a) := by
  have hl : LipschitzOnWith Λ.toNNReal f (Set.Icc a b) := LipschitzOnWith.of_dist_le_mul fun x hx y hy => by
    rw [Real.dist_eq, Real.dist_eq, Real.coe_toNNReal _ hΛ]; exact h x hx y hy
  have h1 : eVariationOn f (Set.Icc a b) ≤ Λ.toNNReal * eVariationOn (fun x : ℝ => x) (Set.Icc a b) := hl.comp_eVariationOn_le (g := fun x => x) fun _ hx => hx
  have h2 : eVariationOn (fun x : ℝ => x) (Set.Icc a b) ≤ ENNReal.ofReal (b - a) := by
    have := (monotone_id.monotoneOn (Set.Icc a b)).eVariationOn_eq (Set.left_mem_Icc.2 hab) (Set.right_mem_Icc.2 hab)
    rw [Set.inter_self] at this
    exact this.le
  have h3 : eVariationOn f (Set.Icc a b) ≤ ENNReal.ofReal (Λ * (b - a)) := by
    rw [ENNReal.ofReal_mul hΛ]
    exact h1.trans (mul_le_mul_right h2 _)
  exact ⟨ne_top_of_le_ne_top ENNReal.ofReal_ne_top h3, ENNReal.toReal_le_of_le_ofReal (mul_nonneg hΛ (by linarith)) h3⟩

end GaussQuad
