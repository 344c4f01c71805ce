import Verif.Proofs.Chebyshev
import Mathlib.Topology.ContinuousMap.Weierstrass
import Mathlib.MeasureTheory.Integral.IntegrableOn

/-! Error of a positive exact rule through polynomial approximation, and convergence. -/

namespace GaussQuad
open Polynomial Spec MeasureTheory Filter

theorem quad_sub (L : List (ℝ × ℝ)) (f g : ℝ → ℝ) : quad L f - quad L g = quad L (fun x => f x - g x) := by
  induction L with
  | nil => simp [quad]
  | cons p L ih => simp only [quad, List.map_cons, List.sum_cons] at *; linarith

theorem abs_quad_le {L : List (ℝ × ℝ)} {f : ℝ → ℝ} {ε : ℝ} (hw : ∀ p ∈ L, 0 ≤ p.2) (hf : ∀ p ∈ L, |f p.1| ≤ ε) :
    |quad L f| ≤ ε * (L.map Prod.snd).sum := by
  induction L with
  | nil => simp [quad]
  | cons p L ih =>
    simp only [List.forall_mem_cons] at hw hf
    have h := ih hw.2 hf.2
    simp only [quad, List.map_cons, List.sum_cons] at *
    refine (abs_add_le _ _).trans ?_
    rw [abs_mul, abs_of_nonneg hw.1]
    have := mul_le_mul_of_nonneg_left hf.1 hw.1
    linarith

/-- Error of a positive rule exact to degree `d`: twice the distance to the best polynomial approximation times the mass. -/
theorem gauss_error {L : List (ℝ × ℝ)} {d : ℕ} {w f : ℝ → ℝ} {ε : ℝ} {p : ℝ[X]}
    (hex : ExactUpTo L d (Set.Ioo (-1) 1) w 1) (hw : ∀ q ∈ L, 0 ≤ q.2) (hnode : ∀ q ∈ L, q.1 ∈ Set.Icc (-1 : ℝ) 1)
    (hwpos : ∀ x ∈ Set.Ioo (-1 : ℝ) 1, 0 ≤ w x) (hwi : IntegrableOn w (Set.Ioo (-1) 1))
    (hf : ContinuousOn f (Set.Icc (-1) 1)) (hp : p.natDegree ≤ d) (hε : ∀ x ∈ Set.Icc (-1 : ℝ) 1, |f x - p.eval x| ≤ ε) :
    |quad L f - ∫ x in Set.Ioo (-1 : ℝ) 1, f x * w x| ≤ 2 * ε * ∫ x in Set.Ioo (-1 : ℝ) 1, w x := by
  have hmass : (L.map Prod.snd).sum = ∫ x in Set.Ioo (-1 : ℝ) 1, w x := by
    have := hex 1 (by simp)
    simpa [quad, weightIntegral] using this
  have hint : ∀ g : ℝ → ℝ, ContinuousOn g (Set.Icc (-1) 1) → IntegrableOn (fun x => g x * w x) (Set.Ioo (-1 : ℝ) 1) := by
    intro g hg
    have h1 : IntegrableOn w (Set.Icc (-1) 1) := by rwa [integrableOn_Icc_iff_integrableOn_Ioo]
    exact (h1.continuousOn_mul hg isCompact_Icc).mono_set Set.Ioo_subset_Icc_self
  have h1 : |quad L f - quad L (fun x => p.eval x)| ≤ ε * ∫ x in Set.Ioo (-1 : ℝ) 1, w x := by
    rw [quad_sub, ← hmass]
    exact abs_quad_le hw fun q hq => hε _ (hnode q hq)
  have h2 : |(∫ x in Set.Ioo (-1 : ℝ) 1, p.eval x * w x) - ∫ x in Set.Ioo (-1 : ℝ) 1, f x * w x| ≤
      ε * ∫ x in Set.Ioo (-1 : ℝ) 1, w x := by
    rw [← integral_sub (hint _ p.continuous.continuousOn) (hint f hf), ← integral_const_mul]
    refine (abs_integral_le_integral_abs).trans ?_
    apply setIntegral_mono_on _ _ measurableSet_Ioo
    · intro x hx
      rw [← sub_mul, abs_mul, abs_of_nonneg (hwpos x hx), abs_sub_comm]
      exact mul_le_mul_of_nonneg_right (hε x (Set.Ioo_subset_Icc_self hx)) (hwpos x hx)
    · exact ((hint _ p.continuous.continuousOn).sub (hint f hf)).abs
    · exact hwi.const_mul ε
  have h3 : quad L (fun x => p.eval x) = ∫ x in Set.Ioo (-1 : ℝ) 1, p.eval x * w x := by
    rw [hex p hp, one_mul]; rfl
  rw [h3] at h1
  have : quad L f - ∫ x in Set.Ioo (-1 : ℝ) 1, f x * w x = (quad L f - ∫ x in Set.Ioo (-1 : ℝ) 1, p.eval x * w x) +
      ((∫ x in Set.Ioo (-1 : ℝ) 1, p.eval x * w x) - ∫ x in Set.Ioo (-1 : ℝ) 1, f x * w x) := by ring
  rw [this]
  refine (abs_add_le _ _).trans ?_
  linarith

/-- positive rules of growing exactness converge for every continuous integrand -/
theorem gauss_tendsto {L : ℕ → List (ℝ × ℝ)} {w f : ℝ → ℝ} (d : ℕ → ℕ) (hd : Tendsto d atTop atTop)
    (hex : ∀ᶠ n in atTop, ExactUpTo (L n) (d n) (Set.Ioo (-1) 1) w 1)
    (hw : ∀ᶠ n in atTop, ∀ q ∈ L n, 0 ≤ q.2) (hnode : ∀ᶠ n in atTop, ∀ q ∈ L n, q.1 ∈ Set.Icc (-1 : ℝ) 1)
    (hwpos : ∀ x ∈ Set.Ioo (-1 : ℝ) 1, 0 ≤ w x) (hwi : IntegrableOn w (Set.Ioo (-1) 1))
    (hf : ContinuousOn f (Set.Icc (-1) 1)) :
    Tendsto (fun n => quad (L n) f) atTop (nhds (∫ x in Set.Ioo (-1 : ℝ) 1, f x * w x)) := by
  rw [Metric.tendsto_nhds]
  intro δ hδ
  set M := ∫ x in Set.Ioo (-1 : ℝ) 1, w x with hM
  have hM0 : 0 ≤ M := setIntegral_nonneg measurableSet_Ioo hwpos
  obtain ⟨p, hp⟩ := exists_polynomial_near_of_continuousOn (-1) 1 f hf (δ / (2 * M + 1)) (by positivity)
  filter_upwards [hex, hw, hnode, hd.eventually_ge_atTop p.natDegree] with n h1 h2 h3 h4
  rw [Real.dist_eq]
  refine lt_of_le_of_lt (gauss_error h1 h2 h3 hwpos hwi hf h4 (ε := δ / (2 * M + 1)) fun x hx => ?_) ?_
  · rw [abs_sub_comm]; exact (hp x hx).le
  · rw [← hM]
    rw [show 2 * (δ / (2 * M + 1)) * M = δ * (2 * M) / (2 * M + 1) by ring, div_lt_iff₀ (by positivity)]
    nlinarith

/-- change of variables for the weighted integral -/
theorem integral_transport (w f : ℝ → ℝ) {a b : ℝ} (hab : a ≠ b) :
    (b - a) / 2 * ∫ x in Set.Ioo (-1 : ℝ) 1, f ((b - a) / 2 * x + (a + b) / 2) * w x =
      ∫ t in a..b, f t * w ((2 * t - a - b) / (b - a)) := by
  rw [setIntegral_Ioo_eq_interval (by norm_num)]
  have h3 := intervalIntegral.smul_integral_comp_mul_add (a := -1) (b := 1)
    (fun t => f t * w ((2 * t - a - b) / (b - a))) ((b - a) / 2) ((a + b) / 2)
  have e1 : (b - a) / 2 * -1 + (a + b) / 2 = a := by ring
  have e2 : (b - a) / 2 * 1 + (a + b) / 2 = b := by ring
  rw [e1, e2, smul_eq_mul] at h3
  rw [← h3]
  have h4 : ∀ x : ℝ, (2 * ((b - a) / 2 * x + (a + b) / 2) - a - b) / (b - a) = x := by
    intro x
    have : b - a ≠ 0 := sub_ne_zero.2 (Ne.symm hab)
    field_simp; ring
  simp only [h4]

theorem quad_transport (L : List (ℝ × ℝ)) (a b : ℝ) (f : ℝ → ℝ) :
    quad (L.map fun q => ((b - a) / 2 * q.1 + (a + b) / 2, (b - a) / 2 * q.2)) f =
      (b - a) / 2 * quad L (fun x => f ((b - a) / 2 * x + (a + b) / 2)) := by
  rw [quad_gauss, quad]
  congr 2
  apply List.map_congr_left
  intro q _
  rw [mul_comm]

theorem continuousOn_transport {f : ℝ → ℝ} {a b : ℝ} (hf : ContinuousOn f (Set.uIcc a b)) :
    ContinuousOn (fun x => f ((b - a) / 2 * x + (a + b) / 2)) (Set.Icc (-1) 1) := by
  apply hf.comp (by fun_prop)
  intro x hx
  rw [Set.mem_uIcc]
  rcases le_total a b with h | h
  · left
    constructor <;> nlinarith [hx.1, hx.2]
  · right
    constructor <;> nlinarith [hx.1, hx.2]

end GaussQuad
