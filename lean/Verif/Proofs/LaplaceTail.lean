import Verif.Proofs.GaussUnbounded
import Mathlib.Analysis.Complex.TaylorSeries
import Mathlib.Analysis.Complex.Liouville
import Mathlib.Analysis.SpecialFunctions.ExpDeriv

/-! Approximation of `exp (-s x)` on `[0, ∞)` by polynomials, relative to `exp (x/2)`: the Taylor series in `t` of `exp (-x t/(1-t))` at `t = s/(1+s)`. -/

namespace GaussQuad
open Polynomial Spec MeasureTheory Filter Topology

/-- `exp (-x t/(1-t))` -/
noncomputable def lapF (x : ℝ) (t : ℂ) : ℂ := Complex.exp (-(x * (t / (1 - t))))

theorem ball_ne {t : ℂ} (ht : t ∈ Metric.ball (0 : ℂ) 1) : 1 - t ≠ 0 := by
  intro h
  rw [mem_ball_zero_iff, ← sub_eq_zero.1 h] at ht
  simp at ht

theorem lapF_hasDeriv (x : ℝ) {t : ℂ} (ht : t ∈ Metric.ball (0 : ℂ) 1) : HasDerivAt (lapF x) (-(x / (1 - t) ^ 2) * lapF x t) t := by
  have h1 : HasDerivAt (fun t : ℂ => t / (1 - t)) (1 / (1 - t) ^ 2) t := by
    refine ((hasDerivAt_id t).div ((hasDerivAt_id t).const_sub 1) (ball_ne ht)).congr_deriv ?_
    simp
  have h2 := (h1.const_mul (x : ℂ)).neg.cexp
  refine h2.congr_deriv ?_
  rw [lapF]
  simp only [Pi.neg_apply]
  ring

theorem lapF_diff (x : ℝ) : DifferentiableOn ℂ (lapF x) (Metric.ball 0 1) := fun _ ht => (lapF_hasDeriv x ht).differentiableAt.differentiableWithinAt

theorem lapF_iter (k : ℕ) : ∃ a : ℕ → ℂ → ℂ, (∀ j, DifferentiableOn ℂ (a j) (Metric.ball 0 1)) ∧
    ∀ (x : ℝ), ∀ t ∈ Metric.ball (0 : ℂ) 1, iteratedDeriv k (lapF x) t = (∑ j ∈ Finset.range (k + 1), a j t * x ^ j) * lapF x t := by
  induction k with
  | zero => exact ⟨fun _ _ => 1, fun _ => differentiableOn_const _, fun x t _ => by simp⟩
  | succ k ih =>
    obtain ⟨a, ha, h⟩ := ih
    have hd : ∀ j, DifferentiableOn ℂ (deriv (a j)) (Metric.ball 0 1) := fun j => (ha j).deriv Metric.isOpen_ball
    refine ⟨fun j t => (if j ≤ k then deriv (a j) t else 0) - (if j = 0 then 0 else a (j - 1) t / (1 - t) ^ 2), fun j => ?_, fun x t ht => ?_⟩
    · refine DifferentiableOn.sub ?_ ?_
      · split_ifs
        · exact hd j
        · exact differentiableOn_const _
      · split_ifs
        · exact differentiableOn_const _
        · exact (ha _).div (by fun_prop) fun t ht => pow_ne_zero 2 (ball_ne ht)
    · rw [iteratedDeriv_succ]
      have hev : iteratedDeriv k (lapF x) =ᶠ[𝓝 t] fun t => (∑ j ∈ Finset.range (k + 1), a j t * x ^ j) * lapF x t :=
        Filter.eventuallyEq_of_mem (Metric.isOpen_ball.mem_nhds ht) fun u hu => h x u hu
      rw [hev.deriv_eq]
      have h1 : HasDerivAt (fun t => ∑ j ∈ Finset.range (k + 1), a j t * (x : ℂ) ^ j) (∑ j ∈ Finset.range (k + 1), deriv (a j) t * (x : ℂ) ^ j) t := by
        refine HasDerivAt.fun_sum fun j _ => ?_
        exact (((ha j).differentiableAt (Metric.isOpen_ball.mem_nhds ht)).hasDerivAt).mul_const _
      rw [(h1.fun_mul (lapF_hasDeriv x ht)).deriv]
      have e1 : ∑ j ∈ Finset.range (k + 1 + 1), (if j ≤ k then deriv (a j) t else 0) * (x : ℂ) ^ j = ∑ j ∈ Finset.range (k + 1), deriv (a j) t * (x : ℂ) ^ j := by
        rw [Finset.sum_range_succ, if_neg (by omega), zero_mul, add_zero]
        exact Finset.sum_congr rfl fun j hj => by rw [if_pos (by have := Finset.mem_range.1 hj; omega)]
      have e2 : ∑ j ∈ Finset.range (k + 1 + 1), (if j = 0 then 0 else a (j - 1) t / (1 - t) ^ 2) * (x : ℂ) ^ j = x / (1 - t) ^ 2 * ∑ j ∈ Finset.range (k + 1), a j t * (x : ℂ) ^ j := by
        rw [Finset.sum_range_succ', if_pos rfl, zero_mul, add_zero, Finset.mul_sum]
        refine Finset.sum_congr rfl fun j _ => ?_
        rw [if_neg (by omega), Nat.add_sub_cancel]
        ring
      simp only [sub_mul, Finset.sum_sub_distrib, e1, e2]
      ring

theorem lapF_norm {x : ℝ} (hx : 0 ≤ x) {t : ℂ} (ht : t ∈ Metric.ball (0 : ℂ) 1) : ‖lapF x t‖ ≤ Real.exp (1 / 2 * x) := by
  rw [lapF, Complex.norm_exp]
  refine Real.exp_le_exp.2 ?_
  have hne := ball_ne ht
  have hn : 0 < Complex.normSq (1 - t) := Complex.normSq_pos.2 hne
  have ht1 : Complex.normSq t < 1 := by
    rw [Complex.normSq_eq_norm_sq]
    have : ‖t‖ < 1 := by simpa using ht
    nlinarith [norm_nonneg t]
  have e : (t / (1 - t)).re = -(1 / 2) + (1 - Complex.normSq t) / (2 * Complex.normSq (1 - t)) := by
    rw [Complex.div_re]
    rw [Complex.normSq_apply] at hn
    simp only [Complex.normSq_apply, Complex.sub_re, Complex.sub_im, Complex.one_re, Complex.one_im] at hn ⊢
    have hn' := hn.ne'
    generalize hD : (1 - t.re) * (1 - t.re) + (0 - t.im) * (0 - t.im) = D at *
    field_simp
    rw [← hD]
    ring
  have h1 : -(1 / 2) ≤ (t / (1 - t)).re := by
    rw [e]
    have : 0 ≤ (1 - Complex.normSq t) / (2 * Complex.normSq (1 - t)) := div_nonneg (by linarith) (by positivity)
    linarith
  rw [Complex.neg_re, Complex.re_ofReal_mul]
  nlinarith

theorem lapF_coeff {x : ℝ} (hx : 0 ≤ x) (k : ℕ) : ‖(k.factorial : ℂ)⁻¹ * iteratedDeriv k (lapF x) 0‖ ≤ Real.exp (1 / 2 * x) := by
  have hb : ∀ R : ℝ, 0 < R → R < 1 → ‖iteratedDeriv k (lapF x) 0‖ * R ^ k ≤ k.factorial * Real.exp (1 / 2 * x) := by
    intro R h0 h1
    have hsub : Metric.closedBall (0 : ℂ) R ⊆ Metric.ball 0 1 := Metric.closedBall_subset_ball h1
    have := Complex.norm_iteratedDeriv_le_of_forall_mem_sphere_norm_le (f := lapF x) (c := 0) (C := Real.exp (1 / 2 * x)) k h0
      ((lapF_diff x).diffContOnCl_ball hsub) (fun z hz => lapF_norm hx (hsub (Metric.sphere_subset_closedBall hz)))
    rwa [le_div_iff₀ (by positivity)] at this
  have hlim : Tendsto (fun R : ℝ => ‖iteratedDeriv k (lapF x) 0‖ * R ^ k) (𝓝[<] 1) (𝓝 (‖iteratedDeriv k (lapF x) 0‖ * 1 ^ k)) := by
    have : Continuous fun R : ℝ => ‖iteratedDeriv k (lapF x) 0‖ * R ^ k := by fun_prop
    exact (this.tendsto 1).mono_left nhdsWithin_le_nhds
  have := le_of_tendsto hlim (by
    filter_upwards [Ioo_mem_nhdsLT (show (0 : ℝ) < 1 by norm_num)] with R hR using hb R hR.1 hR.2)
  rw [one_pow, mul_one] at this
  rw [norm_mul, norm_inv, Complex.norm_natCast, inv_mul_le_iff₀ (by positivity)]
  exact this

/-- the approximation -/
theorem laplace_approx {s : ℂ} (hs : -(1 / 2) < s.re) (z : ℂ) (N : ℕ) : ∃ p : ℝ[X], p.natDegree ≤ N - 1 ∧ ∀ x : ℝ, 0 ≤ x →
    |(z * Complex.exp (-(s * x))).re - p.eval x| ≤ ‖z‖ * (‖s / (1 + s)‖ ^ N / (1 - ‖s / (1 + s)‖)) * Real.exp (1 / 2 * x) := by
  have hne : 1 + s ≠ 0 := by
    intro h
    have := congrArg Complex.re h
    simp at this
    linarith
  set t := s / (1 + s) with htd
  have ht1 : ‖t‖ < 1 := by
    rw [htd, norm_div, div_lt_one (norm_pos_iff.2 hne)]
    rw [← sq_lt_sq₀ (norm_nonneg _) (norm_nonneg _), ← Complex.normSq_eq_norm_sq, ← Complex.normSq_eq_norm_sq, Complex.normSq_apply, Complex.normSq_apply]
    simp
    nlinarith
  have ht : t ∈ Metric.ball (0 : ℂ) 1 := by simpa using ht1
  have hF : ∀ x : ℝ, lapF x t = Complex.exp (-(s * x)) := by
    intro x
    rw [lapF]
    have : t / (1 - t) = s := by
      have h1 : 1 - t = 1 / (1 + s) := by rw [htd]; field_simp; ring
      rw [h1, htd]; field_simp
    rw [this, mul_comm]
  choose a _ h using lapF_iter
  have h0 : ∀ k (x : ℝ), iteratedDeriv k (lapF x) 0 = ∑ j ∈ Finset.range (k + 1), a k j 0 * (x : ℂ) ^ j := by
    intro k x
    rw [h k x 0 (by simp), lapF]
    simp
  let p : ℝ[X] := ∑ k ∈ Finset.range N, ∑ j ∈ Finset.range (k + 1), C ((z * (t ^ k * ((k.factorial : ℂ)⁻¹ * a k j 0))).re) * X ^ j
  have hp : ∀ x : ℝ, p.eval x = (z * ∑ k ∈ Finset.range N, t ^ k * ((k.factorial : ℂ)⁻¹ * iteratedDeriv k (lapF x) 0)).re := by
    intro x
    simp only [p, eval_finsetSum, eval_mul, eval_C, eval_pow, eval_X]
    rw [Finset.mul_sum, Complex.re_sum]
    refine Finset.sum_congr rfl fun k _ => ?_
    rw [h0, Finset.mul_sum, Finset.mul_sum, Finset.mul_sum, Complex.re_sum]
    refine Finset.sum_congr rfl fun j _ => ?_
    rw [show z * (t ^ k * ((k.factorial : ℂ)⁻¹ * (a k j 0 * (x : ℂ) ^ j))) = ((x ^ j : ℝ) : ℂ) * (z * (t ^ k * ((k.factorial : ℂ)⁻¹ * a k j 0))) by push_cast; ring, Complex.re_ofReal_mul, mul_comm]
  refine ⟨p, ?_, fun x hx => ?_⟩
  · refine natDegree_sum_le_of_forall_le _ _ fun k hk => natDegree_sum_le_of_forall_le _ _ fun j hj => (natDegree_C_mul_X_pow_le _ _).trans ?_
    have := Finset.mem_range.1 hk
    have := Finset.mem_range.1 hj
    omega
  · have hsum := Complex.hasSum_taylorSeries_on_ball (c := 0) (r := 1) (f := lapF x) (by simpa using lapF_diff x) (z := t) (by simpa using ht)
    have hb := norm_sub_le_of_geometric_bound_of_hasSum (r := ‖t‖) (C := Real.exp (1 / 2 * x)) ht1 (f := fun k => t ^ k * ((k.factorial : ℂ)⁻¹ * iteratedDeriv k (lapF x) 0)) (fun k => by
        rw [norm_mul, norm_pow, mul_comm]
        exact mul_le_mul_of_nonneg_right (lapF_coeff hx k) (by positivity)) (a := lapF x t) (by
        convert hsum using 2 with k
        rw [sub_zero, smul_eq_mul, smul_eq_mul]
        ring) N
    rw [hp, ← hF, ← Complex.sub_re, ← mul_sub]
    refine (Complex.abs_re_le_norm _).trans ?_
    rw [norm_mul, norm_sub_rev]
    refine (mul_le_mul_of_nonneg_left hb (norm_nonneg z)).trans (le_of_eq ?_)
    ring

end GaussQuad
