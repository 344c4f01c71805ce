import Mathlib.Analysis.Fourier.AddCircle
import Mathlib.Analysis.Complex.CauchyIntegral
import Mathlib.Analysis.SpecialFunctions.Trigonometric.Angle
import Mathlib.Analysis.SpecialFunctions.Trigonometric.Chebyshev.Basic
import Mathlib.RingTheory.Polynomial.Chebyshev
import Mathlib.Analysis.SpecificLimits.Basic
import Mathlib.Tactic

/-!
Functions analytic in an ellipse with foci -1 and 1 are approximated by polynomials of degree `m` on [-1, 1] at a geometric
rate (Bernstein): the Chebyshev coefficients are Laurent coefficients of `w ↦ f((w + 1/w)/2)` on an annulus.
-/

namespace GaussQuad.Bernstein
open Complex Polynomial MeasureTheory Metric Set Filter Topology

/-- the open ellipse with foci -1 and 1 and sum of semi-axes `ρ` -/
def ellipse (ρ : ℝ) : Set ℂ := {z | ‖z - 1‖ + ‖z + 1‖ < ρ + ρ⁻¹}

theorem isOpen_ellipse (ρ : ℝ) : IsOpen (ellipse ρ) :=
  isOpen_lt (by fun_prop) continuous_const

/-- Joukowski's map -/
noncomputable def jouk (w : ℂ) : ℂ := (w + w⁻¹) / 2

theorem jouk_norm {w : ℂ} (hw : w ≠ 0) : ‖jouk w - 1‖ + ‖jouk w + 1‖ = ‖w‖ + ‖w‖⁻¹ := by
  have h1 : jouk w - 1 = (w - 1) ^ 2 / (2 * w) := by unfold jouk; field_simp; ring
  have h2 : jouk w + 1 = (w + 1) ^ 2 / (2 * w) := by unfold jouk; field_simp; ring
  have hn : 0 < ‖w‖ := norm_pos_iff.2 hw
  have h3 : ‖w - 1‖ ^ 2 + ‖w + 1‖ ^ 2 = 2 * (‖w‖ ^ 2 + 1) := by
    simp only [← Complex.normSq_eq_norm_sq, Complex.normSq_apply]
    simp; ring
  rw [h1, h2, norm_div, norm_div, norm_pow, norm_pow, norm_mul, Complex.norm_ofNat, ← add_div, h3]
  field_simp

theorem jouk_mem {ρ : ℝ} (hρ : 1 < ρ) {w : ℂ} (h1 : ρ⁻¹ < ‖w‖) (h2 : ‖w‖ < ρ) : jouk w ∈ ellipse ρ := by
  have hρ0 : 0 < ρ := by linarith
  have hw : 0 < ‖w‖ := lt_trans (by positivity) h1
  have hne : w ≠ 0 := norm_pos_iff.1 hw
  rw [ellipse, mem_setOf_eq, jouk_norm hne]
  generalize ‖w‖ = t at h1 h2 hw
  have h3 : 1 < ρ * t := by rwa [inv_lt_iff_one_lt_mul₀ hρ0, mul_comm] at h1
  have : ρ + ρ⁻¹ - (t + t⁻¹) = (ρ - t) * (ρ * t - 1) / (ρ * t) := by field_simp; ring
  have h4 : 0 < (ρ - t) * (ρ * t - 1) / (ρ * t) := by
    apply div_pos (mul_pos (by linarith) (by linarith)) (by positivity)
  linarith

theorem real_mem {ρ : ℝ} (hρ : 1 < ρ) {x : ℝ} (hx : x ∈ Icc (-1 : ℝ) 1) : (x : ℂ) ∈ ellipse ρ := by
  rw [ellipse, mem_setOf_eq]
  have h1 : ‖(x : ℂ) - 1‖ = 1 - x := by
    rw [← Complex.ofReal_one, ← Complex.ofReal_sub, Complex.norm_real, Real.norm_eq_abs, abs_of_nonpos (by linarith [hx.2])]; ring
  have h2 : ‖(x : ℂ) + 1‖ = 1 + x := by
    rw [← Complex.ofReal_one, ← Complex.ofReal_add, Complex.norm_real, Real.norm_eq_abs, abs_of_nonneg (by linarith [hx.1])]; ring
  rw [h1, h2]
  have : ρ + ρ⁻¹ - 2 = (ρ - 1) ^ 2 / ρ := by field_simp; ring
  have : 0 < (ρ - 1) ^ 2 / ρ := by apply div_pos _ (by linarith); nlinarith
  linarith

section
variable {ρ M : ℝ} {f : ℂ → ℂ} (hρ : 1 < ρ) (hf : DifferentiableOn ℂ f (ellipse ρ)) (hM : ∀ z ∈ ellipse ρ, ‖f z‖ ≤ M)

instance : Fact ((0 : ℝ) < 2 * Real.pi) := ⟨Real.two_pi_pos⟩

/-- `θ ↦ f(cos θ)` on the circle -/
noncomputable def circ (hρ : 1 < ρ) (hf : DifferentiableOn ℂ f (ellipse ρ)) : C(AddCircle (2 * Real.pi), ℂ) where
  toFun t := f (Real.Angle.cos t : ℝ)
  continuous_toFun := by
    have h1 : Continuous fun t : AddCircle (2 * Real.pi) => ((Real.Angle.cos t : ℝ) : ℂ) :=
      Complex.continuous_ofReal.comp Real.Angle.continuous_cos
    refine hf.continuousOn.comp_continuous h1 fun t => real_mem hρ ?_
    induction t using QuotientAddGroup.induction_on with
    | H t => exact ⟨Real.neg_one_le_cos t, Real.cos_le_one t⟩

theorem circ_apply (t : ℝ) : circ hρ hf (t : AddCircle (2 * Real.pi)) = f (Real.cos t : ℝ) := rfl

/-- the integrand of the Laurent coefficient -/
noncomputable def H (f : ℂ → ℂ) (k : ℤ) (w : ℂ) : ℂ := f (jouk w) * w ^ (-k)

include hρ hf in
theorem H_diff (k : ℤ) {w : ℂ} (h1 : ρ⁻¹ < ‖w‖) (h2 : ‖w‖ < ρ) : DifferentiableAt ℂ (H f k) w := by
  have hw : w ≠ 0 := norm_pos_iff.1 (lt_trans (by positivity) h1)
  have hj : DifferentiableAt ℂ jouk w := by unfold jouk; fun_prop (disch := assumption)
  have := (hf.differentiableAt ((isOpen_ellipse ρ).mem_nhds (jouk_mem hρ h1 h2))).comp w hj
  exact this.mul (differentiableAt_zpow.2 (Or.inl hw))

include hρ hf in
theorem circle_eq (k : ℤ) {r R : ℝ} (h1 : ρ⁻¹ < r) (h2 : r ≤ R) (h3 : R < ρ) :
    (∮ z in C(0, R), (z - 0)⁻¹ • H f k z) = ∮ z in C(0, r), (z - 0)⁻¹ • H f k z := by
  have h0 : 0 < r := lt_trans (by positivity) h1
  refine circleIntegral_sub_center_inv_smul_eq_of_differentiable_on_annulus_off_countable h0 h2 countable_empty ?_ ?_
  · intro z hz
    simp only [Set.mem_sdiff, mem_closedBall, mem_ball, dist_zero_right, not_lt] at hz
    exact (H_diff hρ hf k (by linarith [hz.2]) (by linarith [hz.1])).continuousAt.continuousWithinAt
  · intro z hz
    simp only [Set.mem_sdiff, mem_closedBall, mem_ball, dist_zero_right, not_le, mem_empty_iff_false, not_false_eq_true, and_true] at hz
    exact H_diff hρ hf k (by linarith [hz.2]) (by linarith [hz.1])

theorem coeff_eq (k : ℤ) : fourierCoeff (circ hρ hf) k = (2 * Real.pi * I : ℂ)⁻¹ • ∮ z in C(0, 1), (z - 0)⁻¹ • H f k z := by
  rw [fourierCoeff_eq_intervalIntegral _ _ 0, circleIntegral, zero_add]
  have : ∀ t : ℝ, deriv (circleMap 0 1) t • ((circleMap 0 1 t - 0)⁻¹ • H f k (circleMap 0 1 t)) =
      I * (fourier (-k) (t : AddCircle (2 * Real.pi)) • circ hρ hf (t : AddCircle (2 * Real.pi))) := by
    intro t
    have hne : circleMap 0 1 t ≠ 0 := by simp [circleMap]
    have he : circleMap 0 1 t = cexp (t * I) := by simp [circleMap]
    have hj : jouk (circleMap 0 1 t) = (Real.cos t : ℝ) := by
      rw [he, jouk, ← Complex.exp_neg, Complex.ofReal_cos, Complex.cos, neg_mul]
    rw [deriv_circleMap, sub_zero, circ_apply, H, hj, fourier_coe_apply, smul_eq_mul, smul_eq_mul, smul_eq_mul]
    have hz : circleMap 0 1 t ^ (-k) = cexp (2 * Real.pi * I * ((-k : ℤ) : ℂ) * t / (2 * Real.pi : ℝ)) := by
      rw [he, ← Complex.exp_int_mul]
      congr 1
      have := Real.pi_ne_zero
      push_cast
      field_simp
    rw [hz]
    field_simp
  simp_rw [this]
  rw [intervalIntegral.integral_const_mul, smul_eq_mul, Complex.real_smul]
  push_cast
  field_simp

include hM in
theorem coeff_le (k : ℤ) {r : ℝ} (h1 : ρ⁻¹ < r) (h2 : r < ρ) : ‖fourierCoeff (circ hρ hf) k‖ ≤ M * r ^ (-k) := by
  have h0 : 0 < r := lt_trans (by positivity) h1
  have hi : ρ⁻¹ < 1 := inv_lt_one_of_one_lt₀ hρ
  have heq : (∮ z in C(0, 1), (z - 0)⁻¹ • H f k z) = ∮ z in C(0, r), (z - 0)⁻¹ • H f k z := by
    rcases le_total r 1 with h | h
    · exact circle_eq hρ hf k h1 h hρ
    · exact (circle_eq hρ hf k hi h h2).symm
  rw [coeff_eq, heq]
  have := circleIntegral.norm_two_pi_i_inv_smul_integral_le_of_norm_le_const (f := fun z => (z - 0)⁻¹ • H f k z) (c := 0) h0.le
    (C := r⁻¹ * (M * r ^ (-k))) ?_
  · refine this.trans (le_of_eq ?_)
    field_simp
  · intro z hz
    have hz' : ‖z‖ = r := by simpa using hz
    rw [sub_zero, norm_smul, norm_inv, hz', H, norm_mul, norm_zpow, hz']
    have := hM _ (jouk_mem hρ (by rw [hz']; exact h1) (by rw [hz']; exact h2))
    gcongr

include hM in
theorem coeff_bound (k : ℤ) : ‖fourierCoeff (circ hρ hf) k‖ ≤ M * ρ⁻¹ ^ k.natAbs := by
  have hi : ρ⁻¹ < 1 := inv_lt_one_of_one_lt₀ hρ
  have hρ0 : 0 < ρ := by linarith
  rcases le_total 0 k with hk | hk
  · obtain ⟨n, rfl⟩ := Int.eq_ofNat_of_zero_le hk
    have hc : Tendsto (fun r : ℝ => M * r ^ (-(n : ℤ))) (𝓝[<] ρ) (𝓝 (M * ρ ^ (-(n : ℤ)))) :=
      ((continuousAt_zpow₀ ρ _ (Or.inl hρ0.ne')).tendsto.const_mul M).mono_left nhdsWithin_le_nhds
    have h := ge_of_tendsto hc (b := ‖fourierCoeff (circ hρ hf) n‖) (by
      filter_upwards [Ioo_mem_nhdsLT (hi.trans hρ)] with r hr using coeff_le hρ hf hM n hr.1 hr.2)
    simpa using h
  · obtain ⟨n, hn⟩ := Int.eq_ofNat_of_zero_le (neg_nonneg.2 hk)
    obtain rfl : k = -(n : ℤ) := by omega
    have hc : Tendsto (fun r : ℝ => M * r ^ (-(-(n : ℤ)))) (𝓝[>] ρ⁻¹) (𝓝 (M * ρ⁻¹ ^ (-(-(n : ℤ))))) :=
      ((continuousAt_zpow₀ ρ⁻¹ _ (Or.inl (inv_ne_zero hρ0.ne'))).tendsto.const_mul M).mono_left nhdsWithin_le_nhds
    have h := ge_of_tendsto hc (b := ‖fourierCoeff (circ hρ hf) (-(n : ℤ))‖) (by
      filter_upwards [Ioo_mem_nhdsGT (hi.trans hρ)] with r hr using coeff_le hρ hf hM _ hr.1 hr.2)
    simpa using h

include hρ hf hM in
/-- Bernstein's theorem -/
theorem approx {g : ℝ → ℝ} (hg : ∀ x ∈ Icc (-1 : ℝ) 1, f x = g x) (m : ℕ) :
    ∃ p : ℝ[X], p.natDegree ≤ m ∧ ∀ x ∈ Icc (-1 : ℝ) 1, |g x - p.eval x| ≤ 2 * M * ρ⁻¹ ^ m / (ρ - 1) := by
  have hρ0 : 0 < ρ := by linarith
  have hi0 : 0 ≤ ρ⁻¹ := by positivity
  have hi : ρ⁻¹ < 1 := inv_lt_one_of_one_lt₀ hρ
  set c := fourierCoeff (circ hρ hf) with hc
  have hb : ∀ k, ‖c k‖ ≤ M * ρ⁻¹ ^ k.natAbs := coeff_bound hρ hf hM
  have hgeo := (summable_geometric_of_lt_one hi0 hi).mul_left M
  have hsum : Summable c := by
    refine Summable.of_norm_bounded (g := fun k : ℤ => M * ρ⁻¹ ^ k.natAbs) ?_ hb
    apply Summable.of_nat_of_neg <;> simpa using hgeo
  set d : ℕ → ℝ := fun n => (c n).re + (c (-n)).re with hd
  have hdb : ∀ n, |d n| ≤ 2 * M * ρ⁻¹ ^ n := by
    intro n
    have h1 := (Complex.abs_re_le_norm (c n)).trans (hb n)
    have h2 := (Complex.abs_re_le_norm (c (-n))).trans (hb (-n))
    simp only [Int.natAbs_neg, Int.natAbs_natCast] at h1 h2
    have := abs_add_le (c n).re (c (-n)).re
    simp only [hd]
    linarith
  have key : ∀ t : ℝ, HasSum (fun n : ℕ => d n * Real.cos (n * t)) (g (Real.cos t) + (c 0).re) := by
    intro t
    have e1 := has_pointwise_sum_fourier_series_of_summable (f := circ hρ hf) hsum (t : AddCircle (2 * Real.pi))
    have e2 := has_pointwise_sum_fourier_series_of_summable (f := circ hρ hf) hsum ((-t : ℝ) : AddCircle (2 * Real.pi))
    have e3 := (e1.add e2).mul_left (1 / 2)
    have hcos : ∀ k : ℤ, (1 / 2 : ℂ) * (c k • fourier k (t : AddCircle (2 * Real.pi)) + c k • fourier k ((-t : ℝ) : AddCircle (2 * Real.pi))) = c k * (Real.cos (k * t) : ℝ) := by
      intro k
      rw [fourier_coe_apply, fourier_coe_apply, smul_eq_mul, smul_eq_mul, Complex.ofReal_cos, Complex.cos]
      have hpi := Real.pi_ne_zero
      have a1 : 2 * (Real.pi : ℂ) * I * k * t / (2 * Real.pi : ℝ) = ((k * t : ℝ) : ℂ) * I := by push_cast; field_simp
      have a2 : 2 * (Real.pi : ℂ) * I * k * (-t : ℝ) / (2 * Real.pi : ℝ) = -((k * t : ℝ) : ℂ) * I := by push_cast; field_simp
      rw [a1, a2]
      ring
    simp_rw [← hc] at e3
    simp only [hcos] at e3
    rw [circ_apply, circ_apply, Real.cos_neg, hg _ ⟨Real.neg_one_le_cos t, Real.cos_le_one t⟩] at e3
    have e4 := (Complex.hasSum_re e3).nat_add_neg
    convert! e4 using 1
    · funext n
      simp only [hd, Complex.re_mul_ofReal, Int.cast_neg, Int.cast_natCast, neg_mul, Real.cos_neg]
      ring
    · simp
      norm_num [Complex.add_re]
      ring
  refine ⟨(∑ n ∈ Finset.range (m + 1), C (d n) * Chebyshev.T ℝ n) - C (c 0).re, ?_, ?_⟩
  · refine (natDegree_sub_le _ _).trans (max_le ?_ (by simp))
    refine natDegree_sum_le_of_forall_le _ _ fun n hn => (natDegree_C_mul_le _ _).trans ?_
    have := Finset.mem_range.1 hn
    refine (Chebyshev.natDegree_T ℝ n).le.trans ?_
    simp; omega
  · intro x hx
    set t := Real.arccos x with ht
    have hx' : Real.cos t = x := Real.cos_arccos hx.1 hx.2
    have h1 := key t
    have h2 := (hasSum_nat_add_iff' (m + 1)).2 h1
    have hT : ∀ n : ℕ, (Chebyshev.T ℝ n).eval x = Real.cos (n * t) := by
      intro n
      have := Chebyshev.T_real_cos t n
      rw [hx'] at this
      simpa using this
    rw [eval_sub, eval_finsetSum, eval_C]
    simp only [eval_mul, eval_C, hT]
    rw [← hx', show g (Real.cos t) - (∑ n ∈ Finset.range (m + 1), d n * Real.cos (n * t) - (c 0).re) =
      g (Real.cos t) + (c 0).re - ∑ n ∈ Finset.range (m + 1), d n * Real.cos (n * t) by ring, ← h2.tsum_eq]
    have hg2 : HasSum (fun n : ℕ => 2 * M * ρ⁻¹ ^ (n + (m + 1))) (2 * M * ρ⁻¹ ^ m / (ρ - 1)) := by
      have := (hasSum_geometric_of_lt_one hi0 hi).mul_left (2 * M * ρ⁻¹ ^ (m + 1))
      convert! this using 1
      · funext n; rw [pow_add]; ring
      · have : ρ - 1 ≠ 0 := by linarith
        have h1 : (1 - ρ⁻¹)⁻¹ = ρ / (ρ - 1) := by rw [show 1 - ρ⁻¹ = (ρ - 1) / ρ by field_simp, inv_div]
        rw [pow_succ, h1]
        field_simp
    rw [← Real.norm_eq_abs]
    refine tsum_of_norm_bounded hg2 fun n => ?_
    rw [Real.norm_eq_abs, abs_mul]
    calc |d (n + (m + 1))| * |Real.cos _| ≤ |d (n + (m + 1))| * 1 := by gcongr; exact Real.abs_cos_le_one _
      _ ≤ _ := by rw [mul_one]; exact hdb _
end

end GaussQuad.Bernstein
