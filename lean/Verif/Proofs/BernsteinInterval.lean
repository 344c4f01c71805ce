import Verif.Proofs.Bernstein
import Verif.Proofs.GaussConvergence
import Verif.Proofs.GaussNorms
import Verif.Spec.Analytic
import Mathlib.Analysis.Complex.Liouville

/-!
The geometric rate of a Gauss rule with positive weights for an integrand analytic in an ellipse around the interval.
-/

namespace GaussQuad.Bernstein
open Complex Polynomial MeasureTheory Metric Set Filter Topology Spec

variable {a b ρ M : ℝ} {g : ℝ → ℝ}

theorem mem_of_ellipse {z : ℂ} (hab : a ≠ b) (hz : z ∈ ellipse ρ) : ((b : ℂ) - a) / 2 * z + (a + b) / 2 ∈ ellipseAround a b ρ := by
  rw [ellipse, mem_setOf_eq] at hz
  rw [ellipseAround, mem_setOf_eq]
  have hn : ‖((b : ℂ) - a) / 2‖ = |b - a| / 2 := by
    rw [norm_div, Complex.norm_ofNat, ← Complex.ofReal_sub, Complex.norm_real, Real.norm_eq_abs]
  have h1 : ((b : ℂ) - a) / 2 * z + (a + b) / 2 - a = ((b : ℂ) - a) / 2 * (z + 1) := by ring
  have h2 : ((b : ℂ) - a) / 2 * z + (a + b) / 2 - b = ((b : ℂ) - a) / 2 * (z - 1) := by ring
  rw [h1, h2, norm_mul, norm_mul, hn, ← mul_add, add_comm]
  have : 0 < |b - a| / 2 := by have := abs_pos.2 (sub_ne_zero.2 hab.symm); linarith
  exact mul_lt_mul_of_pos_left hz this

theorem mem_uIcc_of_Icc {x : ℝ} (hx : x ∈ Icc (-1 : ℝ) 1) : (b - a) / 2 * x + (a + b) / 2 ∈ uIcc a b := by
  rw [Set.mem_uIcc]
  rcases le_total a b with h | h
  · left; constructor <;> nlinarith [hx.1, hx.2]
  · right; constructor <;> nlinarith [hx.1, hx.2]

/-- transport to [-1, 1] -/
theorem transport (hab : a ≠ b) (hg : AnalyticAround g a b ρ M) : ∃ F : ℂ → ℂ, DifferentiableOn ℂ F (ellipse ρ) ∧ (∀ z ∈ ellipse ρ, ‖F z‖ ≤ M) ∧
    ∀ x ∈ Icc (-1 : ℝ) 1, F x = (g ((b - a) / 2 * x + (a + b) / 2) : ℝ) := by
  obtain ⟨f, h1, h2, h3⟩ := hg
  refine ⟨fun z => f (((b : ℂ) - a) / 2 * z + (a + b) / 2), ?_, fun z hz => h2 _ (mem_of_ellipse hab hz), fun x hx => ?_⟩
  · exact h1.comp (by fun_prop) fun z hz => mem_of_ellipse hab hz
  · rw [← h3 _ (mem_uIcc_of_Icc hx)]
    push_cast
    rfl

theorem bound_of_analytic (hρ : 1 < ρ) {F : ℂ → ℂ} (hM : ∀ z ∈ ellipse ρ, ‖F z‖ ≤ M) {G : ℝ → ℝ} (hG : ∀ x ∈ Icc (-1 : ℝ) 1, F x = G x) :
    ∀ x ∈ Icc (-1 : ℝ) 1, |G x| ≤ M := by
  intro x hx
  have := hM x (real_mem hρ hx)
  rwa [hG x hx, Complex.norm_real, Real.norm_eq_abs] at this

/-- Cauchy's estimate: the integrand is Lipschitz on the interval -/
theorem lipschitz_of_analytic (hρ : 1 < ρ) {F : ℂ → ℂ} (hF : DifferentiableOn ℂ F (ellipse ρ)) (hM : ∀ z ∈ ellipse ρ, ‖F z‖ ≤ M) {G : ℝ → ℝ}
    (hG : ∀ x ∈ Icc (-1 : ℝ) 1, F x = G x) : ∀ x ∈ Icc (-1 : ℝ) 1, ∀ y ∈ Icc (-1 : ℝ) 1, |G x - G y| ≤ M * (2 * ρ / (ρ - 1) ^ 2) * |x - y| := by
  have hρ0 : 0 < ρ := by linarith
  have hδ : 0 < (ρ - 1) ^ 2 / (2 * ρ) := by have := sub_pos.2 hρ; positivity
  have hin : ∀ x ∈ Icc (-1 : ℝ) 1, ∀ z : ℂ, ‖z - x‖ < (ρ - 1) ^ 2 / (2 * ρ) → z ∈ ellipse ρ := by
    intro x hx z hz
    rw [ellipse, mem_setOf_eq]
    have h1 : ‖(x : ℂ) - 1‖ = 1 - x := by
      rw [← Complex.ofReal_one, ← Complex.ofReal_sub, Complex.norm_real, Real.norm_eq_abs, abs_of_nonpos (by linarith [hx.2])]; ring
    have h2 : ‖(x : ℂ) + 1‖ = 1 + x := by
      rw [← Complex.ofReal_one, ← Complex.ofReal_add, Complex.norm_real, Real.norm_eq_abs, abs_of_nonneg (by linarith [hx.1])]; ring
    have h3 : ‖z - 1‖ ≤ ‖z - x‖ + ‖(x : ℂ) - 1‖ := by
      have := norm_add_le (z - x) ((x : ℂ) - 1); rwa [sub_add_sub_cancel] at this
    have h4 : ‖z + 1‖ ≤ ‖z - x‖ + ‖(x : ℂ) + 1‖ := by
      have := norm_add_le (z - x) ((x : ℂ) + 1); rwa [show z - x + ((x : ℂ) + 1) = z + 1 by ring] at this
    have h5 : 2 + 2 * ((ρ - 1) ^ 2 / (2 * ρ)) = ρ + ρ⁻¹ := by field_simp; ring
    linarith
  have hderiv : ∀ x ∈ Icc (-1 : ℝ) 1, ‖deriv F x‖ ≤ M * (2 * ρ / (ρ - 1) ^ 2) := by
    intro x hx
    have h1 : ∀ r ∈ Ioo 0 ((ρ - 1) ^ 2 / (2 * ρ)), ‖deriv F x‖ ≤ M / r := by
      intro r hr
      refine Complex.norm_deriv_le_of_forall_mem_sphere_norm_le hr.1 ?_ ?_
      · refine ⟨hF.mono fun z hz => hin x hx z ?_, ?_⟩
        · rw [mem_ball, dist_eq_norm] at hz; exact hz.trans hr.2
        · refine hF.continuousOn.mono fun z hz => hin x hx z ?_
          have := closure_ball_subset_closedBall hz
          rw [mem_closedBall, dist_eq_norm] at this; exact this.trans_lt hr.2
      · intro z hz
        rw [mem_sphere, dist_eq_norm] at hz
        exact hM z (hin x hx z (by rw [hz]; exact hr.2))
    have hc : Tendsto (fun r : ℝ => M / r) (𝓝[<] ((ρ - 1) ^ 2 / (2 * ρ))) (𝓝 (M / ((ρ - 1) ^ 2 / (2 * ρ)))) :=
      (tendsto_const_nhds.div tendsto_id hδ.ne').mono_left nhdsWithin_le_nhds
    have := ge_of_tendsto hc (by filter_upwards [Ioo_mem_nhdsLT hδ] with r hr using h1 r hr)
    refine this.trans (le_of_eq ?_)
    have := sub_pos.2 hρ
    field_simp
  intro x hx y hy
  have hconv : Convex ℝ ((fun t : ℝ => (t : ℂ)) '' Icc (-1 : ℝ) 1) :=
    (convex_Icc (-1 : ℝ) 1).is_linear_image (f := fun t : ℝ => (t : ℂ)) ⟨fun _ _ => by simp, fun _ _ => by simp⟩
  have h := hconv.norm_image_sub_le_of_norm_deriv_le (f := F) (C := M * (2 * ρ / (ρ - 1) ^ 2))
    (by rintro _ ⟨t, ht, rfl⟩; exact hF.differentiableAt ((isOpen_ellipse ρ).mem_nhds (real_mem hρ ht)))
    (by rintro _ ⟨t, ht, rfl⟩; exact hderiv t ht) ⟨y, hy, rfl⟩ ⟨x, hx, rfl⟩
  simp only [hG x hx, hG y hy, ← Complex.ofReal_sub, Complex.norm_real, Real.norm_eq_abs] at h
  exact h

theorem continuousOn_of_analytic (hab : a ≠ b) (hρ : 1 < ρ) (hg : AnalyticAround g a b ρ M) :
    ContinuousOn (fun x => g ((b - a) / 2 * x + (a + b) / 2)) (Icc (-1) 1) := by
  obtain ⟨F, h1, -, h3⟩ := transport hab hg
  have h4 : ContinuousOn (fun x : ℝ => (F x).re) (Icc (-1 : ℝ) 1) :=
    Complex.continuous_re.comp_continuousOn (h1.continuousOn.comp Complex.continuous_ofReal.continuousOn fun x hx => real_mem hρ hx)
  exact h4.congr fun x hx => by simp only [h3 x hx, Complex.ofReal_re]

theorem quad_scale (L : List (ℝ × ℝ)) (c : ℝ) (G : ℝ → ℝ) : quad (L.map fun q => (q.1, q.2 / c)) G = quad L G / c := by
  unfold quad
  induction L with
  | nil => simp
  | cons q L ih =>
    simp only [List.map_cons, List.sum_cons, add_div] at ih ⊢
    rw [ih]; ring

/-- The error of a Gauss rule for an integrand analytic in the ellipse. -/
theorem interval_analytic {L : List (ℝ × ℝ)} {w : ℝ → ℝ} (hL : 0 < L.length) {c : ℝ} (hc : 0 < c)
    (hex : ExactUpTo L (2 * L.length - 1) (Ioo (-1) 1) w c) (hpos : PosDef (Ioo (-1) 1) w) (hw : ∀ x ∈ Ioo (-1 : ℝ) 1, 0 ≤ w x)
    (hint : ∀ p : ℝ[X], IntegrableOn (fun x => p.eval x * w x) (Ioo (-1) 1)) (hab : a ≠ b) (hρ : 1 < ρ) (hg : AnalyticAround g a b ρ M) :
    IntervalIntegrable (fun t => g t * w ((2 * t - a - b) / (b - a))) volume a b ∧
    |(b - a) / 2 * quad L (fun x => g ((b - a) / 2 * x + (a + b) / 2)) - c * ∫ t in a..b, g t * w ((2 * t - a - b) / (b - a))| ≤
      c * (2 * |b - a| * M * ρ⁻¹ ^ (2 * L.length - 1) / (ρ - 1) * ∫ x in Ioo (-1 : ℝ) 1, w x) := by
  obtain ⟨F, h1, h2, h3⟩ := transport hab hg
  obtain ⟨p, hp1, hp2⟩ := approx hρ h1 h2 (g := fun x => g ((b - a) / 2 * x + (a + b) / 2)) h3 (2 * L.length - 1)
  have hcont := continuousOn_of_analytic hab hρ hg
  have hwi : IntegrableOn w (Ioo (-1) 1) := by simpa using hint 1
  set G : ℝ → ℝ := fun x => g ((b - a) / 2 * x + (a + b) / 2) with hG
  set ε := 2 * M * ρ⁻¹ ^ (2 * L.length - 1) / (ρ - 1) with hε
  have hGi : IntegrableOn (fun x => G x * w x) (Ioo (-1 : ℝ) 1) := by
    have h1 : IntegrableOn w (Icc (-1) 1) := by rwa [integrableOn_Icc_iff_integrableOn_Ioo]
    exact (h1.continuousOn_mul hcont isCompact_Icc).mono_set Ioo_subset_Icc_self
  refine ⟨interval_integrable hab hGi, ?_⟩
  rw [← integral_transport w g hab]
  have hnode : ∀ q ∈ L, q.1 ∈ Icc (-1 : ℝ) 1 := fun q hq =>
    ⟨(gauss_nodes_gt hc hex hpos (fun x hx => hx.1.le) q hq).le, (gauss_nodes_lt hc hex hpos (fun x hx => hx.2.le) q hq).le⟩
  have hwq : ∀ q ∈ L, 0 ≤ q.2 := fun q hq => (gauss_weights_pos hc hex hpos q hq).le
  have hLs : ExactUpTo (L.map fun q => (q.1, q.2 / c)) (2 * L.length - 1) (Ioo (-1) 1) w 1 := by
    intro q hq
    have := hex q hq
    rw [one_mul]
    have e : quad (L.map fun q => (q.1, q.2 / c)) (fun x => q.eval x) = quad L (fun x => q.eval x) / c := quad_scale L c _
    rw [e, this]
    field_simp
  have h5 := gauss_error (L := L.map fun q => (q.1, q.2 / c)) hLs
    (by intro q hq; obtain ⟨q', hq', rfl⟩ := List.mem_map.1 hq; exact div_nonneg (hwq q' hq') hc.le)
    (by intro q hq; obtain ⟨q', hq', rfl⟩ := List.mem_map.1 hq; exact hnode q' hq') hw hwi hcont hp1 hp2
  have e : quad (L.map fun q => (q.1, q.2 / c)) G = quad L G / c := quad_scale L c G
  rw [e] at h5
  have h6 : (b - a) / 2 * quad L G - c * ((b - a) / 2 * ∫ x in Ioo (-1 : ℝ) 1, G x * w x) =
      (b - a) / 2 * c * (quad L G / c - ∫ x in Ioo (-1 : ℝ) 1, G x * w x) := by field_simp
  rw [h6, abs_mul, abs_mul, abs_of_pos hc, abs_div, abs_two]
  refine (mul_le_mul_of_nonneg_left h5 (by positivity)).trans (le_of_eq ?_)
  rw [hε]
  ring

end GaussQuad.Bernstein
