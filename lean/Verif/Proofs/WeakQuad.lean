import Verif.Proofs.GaussConvergence
import Mathlib.MeasureTheory.Measure.LevyConvergence
import Mathlib.MeasureTheory.Measure.CharacteristicFunction.Basic
import Mathlib.MeasureTheory.Integral.DominatedConvergence

/-! Quadrature sums as integrals against a sum of point masses, and convergence of such sums for continuous integrands of less than Gaussian growth on the whole line. -/

namespace GaussQuad
open Spec MeasureTheory Filter Topology

/-- the point masses of a rule -/
noncomputable def atoms : List (ℝ × ℝ) → Measure ℝ
  | [] => 0
  | p :: L => ENNReal.ofReal p.2 • Measure.dirac p.1 + atoms L

instance atoms_finite : ∀ L, IsFiniteMeasure (atoms L)
  | [] => by unfold atoms; infer_instance
  | p :: L => by
    have := atoms_finite L
    unfold atoms
    have h : IsFiniteMeasure (ENNReal.ofReal p.2 • Measure.dirac p.1) := by
      exact Measure.smul_finite _ ENNReal.ofReal_ne_top
    infer_instance

theorem atoms_integrable {E : Type*} [NormedAddCommGroup E] (f : ℝ → E) : ∀ L, Integrable f (atoms L)
  | [] => by unfold atoms; exact integrable_zero_measure
  | p :: L => by
    unfold atoms
    refine Integrable.add_measure (Integrable.smul_measure ?_ ENNReal.ofReal_ne_top) (atoms_integrable f L)
    exact integrable_dirac (by simp)

theorem atoms_integral {E : Type*} [NormedAddCommGroup E] [NormedSpace ℝ E] [CompleteSpace E] (f : ℝ → E) : ∀ {L : List (ℝ × ℝ)}, (∀ q ∈ L, 0 ≤ q.2) →
    ∫ x, f x ∂(atoms L) = (L.map fun p => p.2 • f p.1).sum
  | [], _ => by unfold atoms; simp
  | p :: L, h => by
    simp only [List.forall_mem_cons] at h
    have hd : Integrable f (Measure.dirac p.1) := integrable_dirac (by simp)
    rw [atoms, integral_add_measure (hd.smul_measure ENNReal.ofReal_ne_top) (atoms_integrable f L), integral_smul_measure, integral_dirac,
      atoms_integral f h.2, ENNReal.toReal_ofReal h.1, List.map_cons, List.sum_cons]

theorem atoms_quad (f : ℝ → ℝ) {L : List (ℝ × ℝ)} (h : ∀ q ∈ L, 0 ≤ q.2) : ∫ x, f x ∂(atoms L) = quad L f := by
  rw [atoms_integral f h]; rfl

theorem atoms_cexp (t : ℝ) {L : List (ℝ × ℝ)} (h : ∀ q ∈ L, 0 ≤ q.2) : ∫ x : ℝ, Complex.exp (t * x * Complex.I) ∂(atoms L) =
    (quad L (fun x => Real.cos (t * x)) : ℂ) + (quad L (fun x => Real.sin (t * x)) : ℂ) * Complex.I := by
  rw [atoms_integral _ h]
  clear h
  induction L with
  | nil => simp [quad]
  | cons p L ih =>
    rw [List.map_cons, List.sum_cons, ih]
    simp only [quad, List.map_cons, List.sum_cons]
    rw [show (t : ℂ) * p.1 * Complex.I = ((t * p.1 : ℝ) : ℂ) * Complex.I by push_cast; ring, Complex.exp_mul_I, ← Complex.ofReal_cos, ← Complex.ofReal_sin,
      Complex.real_smul]
    push_cast
    ring

theorem atoms_univ {L : List (ℝ × ℝ)} (h : ∀ q ∈ L, 0 ≤ q.2) : (atoms L).real Set.univ = quad L (fun _ => 1) := by
  have := atoms_quad (fun _ => 1) h
  rw [← this]; simp

theorem integral_cexp (μ : Measure ℝ) [IsFiniteMeasure μ] (t : ℝ) : ∫ x : ℝ, Complex.exp (t * x * Complex.I) ∂μ =
    ((∫ x, Real.cos (t * x) ∂μ : ℝ) : ℂ) + ((∫ x, Real.sin (t * x) ∂μ : ℝ) : ℂ) * Complex.I := by
  have hc : Integrable (fun x => Real.cos (t * x)) μ := Integrable.of_bound (C := 1) (by fun_prop) (Eventually.of_forall fun x => Real.abs_cos_le_one _)
  have hs : Integrable (fun x => Real.sin (t * x)) μ := Integrable.of_bound (C := 1) (by fun_prop) (Eventually.of_forall fun x => Real.abs_sin_le_one _)
  rw [← integral_complex_ofReal, ← integral_complex_ofReal, ← integral_mul_const, ← integral_add hc.ofReal (hs.ofReal.mul_const _)]
  congr 1
  ext x
  rw [show (t : ℂ) * x * Complex.I = ((t * x : ℝ) : ℂ) * Complex.I by push_cast; ring, Complex.exp_mul_I, ← Complex.ofReal_cos, ← Complex.ofReal_sin]

/-- bounded continuous integrands -/
theorem quad_tendsto_bounded {L : ℕ → List (ℝ × ℝ)} {μ : Measure ℝ} [IsFiniteMeasure μ] (hμ : 0 < μ.real Set.univ) (hw : ∀ n, ∀ q ∈ L n, 0 ≤ q.2)
    (hmass : ∀ n, quad (L n) (fun _ => 1) = μ.real Set.univ)
    (hcos : ∀ t, Tendsto (fun n => quad (L n) (fun x => Real.cos (t * x))) atTop (𝓝 (∫ x, Real.cos (t * x) ∂μ)))
    (hsin : ∀ t, Tendsto (fun n => quad (L n) (fun x => Real.sin (t * x))) atTop (𝓝 (∫ x, Real.sin (t * x) ∂μ)))
    {f : ℝ → ℝ} (hf : Continuous f) {C : ℝ} (hC : ∀ x, |f x| ≤ C) :
    Tendsto (fun n => quad (L n) f) atTop (𝓝 (∫ x, f x ∂μ)) := by
  set m := μ.real Set.univ with hm
  have hmu : ∀ n, (atoms (L n)) Set.univ = μ Set.univ := fun n => by
    rw [← ENNReal.toReal_eq_toReal_iff' (measure_ne_top _ _) (measure_ne_top _ _)]
    exact (atoms_univ (hw n)).trans (hmass n)
  have h0 : μ Set.univ ≠ 0 := fun h => by
    rw [hm, Measure.real, h] at hμ; simp at hμ
  have hprob : ∀ ν : Measure ℝ, ν Set.univ = μ Set.univ → IsProbabilityMeasure ((μ Set.univ)⁻¹ • ν) := fun ν h => ⟨by
    rw [Measure.smul_apply, h, smul_eq_mul, ENNReal.inv_mul_cancel h0 (measure_ne_top _ _)]⟩
  let P : ℕ → ProbabilityMeasure ℝ := fun n => ⟨(μ Set.univ)⁻¹ • atoms (L n), hprob _ (hmu n)⟩
  let P0 : ProbabilityMeasure ℝ := ⟨(μ Set.univ)⁻¹ • μ, hprob _ rfl⟩
  have hreal : ((μ Set.univ)⁻¹).toReal = m⁻¹ := by rw [ENNReal.toReal_inv]; rfl
  have hweak : Tendsto P atTop (𝓝 P0) := by
    refine ProbabilityMeasure.tendsto_of_tendsto_charFun fun t => ?_
    have e1 : ∀ n, charFun (P n : Measure ℝ) t = (m⁻¹ : ℝ) • ((quad (L n) (fun x => Real.cos (t * x)) : ℂ) + (quad (L n) (fun x => Real.sin (t * x)) : ℂ) * Complex.I) := fun n => by
      rw [charFun_apply_real, ← atoms_cexp t (hw n)]
      change ∫ x : ℝ, _ ∂((μ Set.univ)⁻¹ • atoms (L n)) = _
      rw [integral_smul_measure, hreal]
    have e2 : charFun (P0 : Measure ℝ) t = (m⁻¹ : ℝ) • (((∫ x, Real.cos (t * x) ∂μ : ℝ) : ℂ) + ((∫ x, Real.sin (t * x) ∂μ : ℝ) : ℂ) * Complex.I) := by
      rw [charFun_apply_real, ← integral_cexp]
      change ∫ x : ℝ, _ ∂((μ Set.univ)⁻¹ • μ) = _
      rw [integral_smul_measure, hreal]
    simp only [e1, e2]
    refine Tendsto.const_smul ?_ _
    exact ((Complex.continuous_ofReal.tendsto _).comp (hcos t)).add (((Complex.continuous_ofReal.tendsto _).comp (hsin t)).mul_const _)
  have h := ProbabilityMeasure.tendsto_iff_forall_integral_tendsto.1 hweak (BoundedContinuousFunction.ofNormedAddCommGroup f hf C hC)
  have e1 : ∀ n, ∫ x, (BoundedContinuousFunction.ofNormedAddCommGroup f hf C hC) x ∂(P n : Measure ℝ) = m⁻¹ * quad (L n) f := fun n => by
    change ∫ x, f x ∂((μ Set.univ)⁻¹ • atoms (L n)) = _
    rw [integral_smul_measure, hreal, atoms_quad f (hw n), smul_eq_mul]
  have e2 : ∫ x, (BoundedContinuousFunction.ofNormedAddCommGroup f hf C hC) x ∂(P0 : Measure ℝ) = m⁻¹ * ∫ x, f x ∂μ := by
    change ∫ x, f x ∂((μ Set.univ)⁻¹ • μ) = _
    rw [integral_smul_measure, hreal, smul_eq_mul]
  simp only [e1, e2] at h
  have h' := h.const_mul m
  simp only [← mul_assoc, mul_inv_cancel₀ hμ.ne', one_mul] at h'
  exact h'

/-- cut-off function -/
noncomputable def bump (R x : ℝ) : ℝ := max 0 (min 1 (R + 1 - |x|))

theorem bump_cont (R : ℝ) : Continuous (bump R) := by unfold bump; fun_prop

theorem bump_nonneg (R x : ℝ) : 0 ≤ bump R x := le_max_left _ _

theorem bump_le_one (R x : ℝ) : bump R x ≤ 1 := max_le zero_le_one (min_le_left _ _)

theorem bump_eq_one {R x : ℝ} (h : |x| ≤ R) : bump R x = 1 := by
  unfold bump; rw [min_eq_left (by linarith), max_eq_right zero_le_one]

theorem bump_eq_zero {R x : ℝ} (h : R + 1 ≤ |x|) : bump R x = 0 := by
  unfold bump; rw [max_eq_left]; exact (min_le_right _ _).trans (by linarith)

/-- continuous integrands of growth below `exp (x²)` -/
theorem quad_tendsto_growth {L : ℕ → List (ℝ × ℝ)} {μ : Measure ℝ} [IsFiniteMeasure μ] (hμ : 0 < μ.real Set.univ) (hw : ∀ n, ∀ q ∈ L n, 0 ≤ q.2)
    (hmass : ∀ n, quad (L n) (fun _ => 1) = μ.real Set.univ)
    (hcos : ∀ t, Tendsto (fun n => quad (L n) (fun x => Real.cos (t * x))) atTop (𝓝 (∫ x, Real.cos (t * x) ∂μ)))
    (hsin : ∀ t, Tendsto (fun n => quad (L n) (fun x => Real.sin (t * x))) atTop (𝓝 (∫ x, Real.sin (t * x) ∂μ)))
    {s s' : ℝ} (hss : s < s') {B : ℝ} (hB : ∀ n, quad (L n) (fun x => Real.exp (s' * x ^ 2)) ≤ B) (hI : Integrable (fun x => Real.exp (s' * x ^ 2)) μ)
    {f : ℝ → ℝ} (hf : Continuous f) {C : ℝ} (hC : ∀ x, |f x| ≤ C * Real.exp (s * x ^ 2)) :
    Integrable f μ ∧ Tendsto (fun n => quad (L n) f) atTop (𝓝 (∫ x, f x ∂μ)) := by
  have hC0 : 0 ≤ C := by
    have := (abs_nonneg _).trans (hC 0)
    simpa using this
  have hfi : Integrable f μ := by
    refine Integrable.mono' (hI.const_mul C) hf.aestronglyMeasurable (Eventually.of_forall fun x => ?_)
    rw [Real.norm_eq_abs]
    refine (hC x).trans (mul_le_mul_of_nonneg_left (Real.exp_le_exp.2 ?_) hC0)
    exact mul_le_mul_of_nonneg_right hss.le (sq_nonneg x)
  refine ⟨hfi, ?_⟩
  set J := ∫ x, Real.exp (s' * x ^ 2) ∂μ with hJ
  have hJ0 : 0 ≤ J := integral_nonneg fun x => (Real.exp_pos _).le
  have htail : ∀ R, 0 ≤ R → ∀ x, |f x - f x * bump R x| ≤ C * Real.exp (-(s' - s) * R ^ 2) * Real.exp (s' * x ^ 2) := by
    intro R hR x
    rcases le_total |x| R with h | h
    · rw [bump_eq_one h, mul_one, sub_self, abs_zero]; positivity
    · have h1 : |f x - f x * bump R x| ≤ |f x| := by
        rw [show f x - f x * bump R x = f x * (1 - bump R x) by ring, abs_mul, abs_of_nonneg (sub_nonneg.2 (bump_le_one R x))]
        exact mul_le_of_le_one_right (abs_nonneg _) (by linarith [bump_nonneg R x])
      refine h1.trans ((hC x).trans ?_)
      rw [mul_assoc, ← Real.exp_add]
      refine mul_le_mul_of_nonneg_left (Real.exp_le_exp.2 ?_) hC0
      have : R ^ 2 ≤ x ^ 2 := by rw [← sq_abs x]; exact pow_le_pow_left₀ hR h 2
      nlinarith
  have hquadtail : ∀ R, 0 ≤ R → ∀ n, |quad (L n) f - quad (L n) (fun x => f x * bump R x)| ≤ C * Real.exp (-(s' - s) * R ^ 2) * B := by
    intro R hR n
    rw [← atoms_quad _ (hw n), ← atoms_quad _ (hw n), ← integral_sub (atoms_integrable _ _) (atoms_integrable _ _)]
    refine (abs_integral_le_integral_abs).trans ?_
    refine (integral_mono (atoms_integrable _ _) (atoms_integrable _ _) (htail R hR)).trans ?_
    rw [integral_const_mul]
    refine mul_le_mul_of_nonneg_left ?_ (by positivity)
    rw [atoms_quad _ (hw n)]; exact hB n
  have hbc : ∀ R, Continuous fun x => f x * bump R x := fun R => hf.mul (bump_cont R)
  have hbb : ∀ R, ∃ D, ∀ x, |f x * bump R x| ≤ D := by
    intro R
    obtain ⟨D, hD⟩ := (isCompact_Icc (a := -(R + 1)) (b := R + 1)).exists_bound_of_continuousOn hf.continuousOn
    refine ⟨max D 0, fun x => ?_⟩
    rcases le_total (R + 1) |x| with h | h
    · rw [bump_eq_zero h, mul_zero, abs_zero]; exact le_max_right _ _
    · have := hD x (Set.mem_Icc.2 (abs_le.1 h))
      rw [Real.norm_eq_abs] at this
      rw [abs_mul, abs_of_nonneg (bump_nonneg R x)]
      exact (mul_le_of_le_one_right (abs_nonneg _) (bump_le_one R x)).trans (this.trans (le_max_left _ _))
  have hinttail : ∀ R, 0 ≤ R → |(∫ x, f x ∂μ) - ∫ x, f x * bump R x ∂μ| ≤ C * Real.exp (-(s' - s) * R ^ 2) * J := by
    intro R hR
    obtain ⟨D, hD⟩ := hbb R
    have hbi : Integrable (fun x => f x * bump R x) μ := Integrable.of_bound (C := D) (hbc R).aestronglyMeasurable (Eventually.of_forall hD)
    rw [← integral_sub hfi hbi]
    refine (abs_integral_le_integral_abs).trans ?_
    rw [hJ, ← integral_const_mul]
    exact integral_mono (hfi.sub hbi).abs (hI.const_mul _) (htail R hR)
  rw [Metric.tendsto_atTop]
  intro ε hε
  have hB0 : 0 ≤ B := by
    refine le_trans ?_ (hB 0)
    rw [← atoms_quad _ (hw 0)]
    exact integral_nonneg fun x => (Real.exp_pos _).le
  have hlim : Tendsto (fun R : ℝ => C * Real.exp (-(s' - s) * R ^ 2) * (B + J)) atTop (𝓝 0) := by
    have h1 : Tendsto (fun R : ℝ => (s' - s) * R ^ 2) atTop atTop := (tendsto_pow_atTop (by norm_num)).const_mul_atTop (by linarith)
    have h2 : Tendsto (fun R : ℝ => Real.exp (-(s' - s) * R ^ 2)) atTop (𝓝 0) := by
      have := Real.tendsto_exp_neg_atTop_nhds_zero.comp h1
      refine this.congr fun R => ?_
      change Real.exp (-((s' - s) * R ^ 2)) = _
      rw [neg_mul]
    simpa using (h2.const_mul C).mul_const (B + J)
  obtain ⟨R, hR0, hR⟩ := ((eventually_ge_atTop (0 : ℝ)).and (hlim.eventually (gt_mem_nhds (show (0 : ℝ) < ε / 2 by linarith)))).exists
  obtain ⟨D, hD⟩ := hbb R
  have hb := quad_tendsto_bounded hμ hw hmass hcos hsin (hbc R) hD
  rw [Metric.tendsto_atTop] at hb
  obtain ⟨N, hN⟩ := hb (ε / 2) (by linarith)
  refine ⟨N, fun n hn => ?_⟩
  have a1 := hquadtail R hR0 n
  have a2 := hinttail R hR0
  have a3 := hN n hn
  rw [Real.dist_eq] at a3 ⊢
  rw [mul_add] at hR
  rw [abs_lt] at a3 ⊢
  rw [abs_le] at a1 a2
  constructor <;> linarith [a1.1, a1.2, a2.1, a2.2, a3.1, a3.2]

end GaussQuad
