import Verif.Proofs.LegendreEndpoint
import Mathlib.MeasureTheory.Integral.Prod
import Mathlib.Analysis.SpecialFunctions.Log.Monotone
import Mathlib.Analysis.SpecialFunctions.Exp
import Mathlib.Analysis.SpecialFunctions.Complex.LogBounds

/-!
# The error of the Gauss-Legendre rule for `log(1-x)` and `(1-x)^q`, `-1 < q < 2`
-/

namespace GaussQuad
open Polynomial Spec MeasureTheory LegendrePoly Set Filter Topology

section
variable {G : List (ℝ × ℝ)} {n : ℕ} (hn : 2 ≤ n) (hlen : G.length = n) (hex : ExactUpTo G (2 * n - 1) (Ioo (-1) 1) (fun _ => 1) 1)
include hn hlen hex

theorem gauss_log_error : quad G (fun x => Real.log (1 - x)) - (∫ x in (-1 : ℝ)..1, Real.log (1 - x)) = legM 0 n := by
  have hlt := gauss_nodes_lt one_pos (by rw [hlen]; exact hex) posDef_one' (b := 1) fun x hx => hx.2.le
  have hsum : ∑ i : Fin G.length, (G.get i).2 = 2 := by
    have h := hex 1 (by simp)
    rw [one_mul, ← legInt_apply, legInt_one, quad_fin] at h
    simpa using h
  have hpos : ∀ i : Fin G.length, 0 < 1 - (G.get i).1 := fun i => sub_pos.2 (hlt _ (List.get_mem _ _))
  set e : ℝ → ℝ := fun t => -((2 + t) * Real.log (2 + t) - t * Real.log t - 2) + quad G (fun x => Real.log (1 + t - x)) with he
  have hcont : ContinuousWithinAt e (Ici 0) 0 := by
    refine ContinuousAt.continuousWithinAt ?_
    simp only [he, quad_fin]
    refine ContinuousAt.add ?_ ?_
    · refine ContinuousAt.neg ((ContinuousAt.sub ?_ Real.continuous_mul_log.continuousAt).sub continuousAt_const)
      exact (by fun_prop : ContinuousAt (fun t : ℝ => 2 + t) 0).mul (ContinuousAt.log (by fun_prop) (by norm_num))
    · refine tendsto_finsetSum _ fun i _ => ?_
      refine Tendsto.const_mul _ ?_
      have h0 := hpos i
      exact ContinuousAt.log (f := fun t : ℝ => 1 + t - (G.get i).1) (by fun_prop) (by linarith)
  have hderiv : ∀ t ∈ Ioi (0 : ℝ), HasDerivAt e (-(t ^ (0 : ℝ) * legR n t)) t := fun t ht => by
    have ht' : 0 < t := ht
    have d1 : HasDerivAt (fun t : ℝ => (2 + t) * Real.log (2 + t)) (Real.log (2 + t) + 1) t := by
      have := HasDerivAt.comp (h₂ := fun x : ℝ => x * Real.log x) (h := fun t : ℝ => 2 + t) t (Real.hasDerivAt_mul_log (x := 2 + t) (by linarith)) ((hasDerivAt_id t).const_add 2)
      exact this.congr_deriv (mul_one _)
    have d2 := Real.hasDerivAt_mul_log ht'.ne'
    have d3 : HasDerivAt (fun t : ℝ => quad G (fun x => Real.log (1 + t - x))) (quad G fun x => 1 / (1 + t - x)) t := by
      simp only [quad_fin]
      refine HasDerivAt.fun_sum fun i _ => ?_
      refine HasDerivAt.const_mul _ ?_
      have h0 := hpos i
      have := ((hasDerivAt_id t).const_add 1).sub_const (G.get i).1
      exact this.log (by simp only [id]; linarith)
    refine (((d1.sub d2).sub_const 2).neg.add d3).congr_deriv ?_
    rw [Real.rpow_zero, one_mul, ← gauss_kernel_error (by omega) hlen hex ht', integral_kernel ht']
    ring
  have hlim : Tendsto e atTop (𝓝 0) := by
    have l1 : Tendsto (fun t : ℝ => t * Real.log (1 + 2 / t)) atTop (𝓝 2) := Real.tendsto_mul_log_one_add_div_atTop 2
    have l2 : ∀ y : ℝ, Tendsto (fun t : ℝ => Real.log (t + y) - Real.log t) atTop (𝓝 0) := Real.tendsto_log_comp_add_sub_log
    have l3 : Tendsto (fun t : ℝ => ∑ i : Fin G.length, (G.get i).2 * (Real.log (t + (1 - (G.get i).1)) - Real.log t)) atTop (𝓝 (∑ i : Fin G.length, (G.get i).2 * 0)) :=
      tendsto_finsetSum _ fun i _ => (l2 _).const_mul _
    have := ((l1.sub_const 2).neg.sub ((l2 2).const_mul 2)).add l3
    simp only [mul_zero, Finset.sum_const_zero, sub_self, neg_zero, add_zero] at this
    refine this.congr' ?_
    filter_upwards [eventually_gt_atTop 0] with t ht
    simp only [he, quad_fin]
    have e1 : Real.log (1 + 2 / t) = Real.log (2 + t) - Real.log t := by
      rw [← Real.log_div (by linarith) ht.ne']; congr 1; field_simp; ring
    have e2 : ∑ i : Fin G.length, (G.get i).2 * (Real.log (t + (1 - (G.get i).1)) - Real.log t) =
        (∑ i : Fin G.length, (G.get i).2 * Real.log (1 + t - (G.get i).1)) - 2 * Real.log t := by
      simp only [mul_sub, Finset.sum_sub_distrib, ← Finset.sum_mul, hsum]
      congr 1
      refine Finset.sum_congr rfl fun i _ => ?_
      congr 2; ring
    rw [e1, e2, add_comm t 2]
    ring
  have h := integral_Ioi_of_hasDerivAt_of_tendsto hcont hderiv (moment_integrable (q := 0) (by norm_num) (by norm_num) hn).neg hlim
  rw [integral_neg, ← legM] at h
  have hI : ∫ x in (-1 : ℝ)..1, Real.log (1 - x) = 2 * Real.log 2 - 2 := by
    rw [intervalIntegral.integral_comp_sub_left (fun x => Real.log x) 1, integral_log]
    norm_num
  have h0 : e 0 = -(2 * Real.log 2 - 2) + quad G (fun x => Real.log (1 - x)) := by
    simp only [he]; norm_num
  rw [hI]
  linarith

/-- the error for `(1-x)^m / (1-x+t)` -/
theorem gauss_kernel_error' {m : ℕ} (hm : m ≤ 2) {t : ℝ} (ht : 0 < t) :
    quad G (fun x => (1 - x) ^ m / (1 - x + t)) - (∫ x in (-1 : ℝ)..1, (1 - x) ^ m / (1 - x + t)) = -((-t) ^ m * legR n t) := by
  have hlt := gauss_nodes_lt one_pos (by rw [hlen]; exact hex) posDef_one' (b := 1) fun x hx => hx.2.le
  have hk := gauss_kernel_error (by omega) hlen hex ht
  -- the polynomial part
  obtain ⟨p, hp, hpe⟩ : ∃ p : ℝ[X], p.natDegree ≤ 1 ∧ ∀ x, (1 - x) ^ m = (1 - x + t) * p.eval x + (-t) ^ m := by
    interval_cases m
    · exact ⟨0, by simp, fun x => by simp⟩
    · exact ⟨1, by simp, fun x => by simp⟩
    · refine ⟨C (1 - t) - X, by compute_degree, fun x => by simp; ring⟩
  have h1 := hex p (by omega)
  have hc : IntervalIntegrable (fun x => p.eval x) volume (-1) 1 := p.continuous.intervalIntegrable _ _
  have e1 : quad G (fun x => (1 - x) ^ m / (1 - x + t)) = quad G (fun x => p.eval x) + (-t) ^ m * quad G fun x => 1 / (1 + t - x) := by
    rw [← quad_smul, ← quad_add]
    refine quad_congr fun q hq => ?_
    have := hlt q hq
    have hne : 1 + t - q.1 ≠ 0 := by linarith
    have hne' : 1 - q.1 + t ≠ 0 := by linarith
    rw [hpe, show 1 - q.1 + t = 1 + t - q.1 by ring]
    field_simp
  have e2 : ∫ x in (-1 : ℝ)..1, (1 - x) ^ m / (1 - x + t) = (∫ x in (-1 : ℝ)..1, p.eval x) + (-t) ^ m * ∫ x in (-1 : ℝ)..1, 1 / (1 + t - x) := by
    rw [← intervalIntegral.integral_const_mul, ← intervalIntegral.integral_add hc ((kernel_cont ht continuous_const).const_mul _)]
    refine intervalIntegral.integral_congr fun x hx => ?_
    rw [uIcc_of_le (by norm_num)] at hx
    have hne : 1 + t - x ≠ 0 := by have := hx.2; linarith
    rw [hpe, show 1 - x + t = 1 + t - x by ring]
    field_simp
  have e3 : quad G (fun x => p.eval x) = ∫ x in (-1 : ℝ)..1, p.eval x := by
    rw [h1, one_mul, weightIntegral, setIntegral_Ioo_eq_interval (by norm_num)]; simp
  rw [e1, e2, e3, ← hk]
  ring

end

/-- `∫ t^r / (1+t) dt` -/
noncomputable def powC (r : ℝ) : ℝ := ∫ t in Ioi (0 : ℝ), t ^ r / (1 + t)

theorem powC_integrable {r : ℝ} (h1 : -1 < r) (h2 : r < 0) : IntegrableOn (fun t : ℝ => t ^ r / (1 + t)) (Ioi 0) := by
  have := (pow_bound (s := r) (m := 1) h1 (by norm_num; linarith)).1
  simpa using this

theorem powC_ge {r : ℝ} (h1 : -1 < r) (h2 : r < 0) : 2 ≤ powC r := by
  have hi := powC_integrable h1 h2
  have hU : Ioi (0 : ℝ) = Ioc 0 1 ∪ Ioi 1 := (Ioc_union_Ioi_eq_Ioi zero_le_one).symm
  have i1 : IntegrableOn (fun u : ℝ => u ^ r) (Ioc 0 1) := by
    have := intervalIntegral.intervalIntegrable_rpow' (a := 0) (b := 1) h1
    rwa [intervalIntegrable_iff_integrableOn_Ioc_of_le zero_le_one] at this
  have i2 : IntegrableOn (fun u : ℝ => u ^ (r - 1)) (Ioi 1) := integrableOn_Ioi_rpow_of_lt (by linarith) one_pos
  have j1 := hi.mono_set (fun x (hx : x ∈ Ioc (0 : ℝ) 1) => hx.1)
  have j2 := hi.mono_set (Ioi_subset_Ioi (zero_le_one (α := ℝ)))
  have v1 : 1 / (r + 1) / 2 ≤ ∫ t in Ioc (0 : ℝ) 1, t ^ r / (1 + t) := by
    have : ∫ u in Ioc (0 : ℝ) 1, u ^ r / 2 = 1 / (r + 1) / 2 := by
      rw [integral_div, ← intervalIntegral.integral_of_le zero_le_one, integral_rpow (Or.inl h1), Real.one_rpow, Real.zero_rpow (by linarith)]; ring
    rw [← this]
    refine setIntegral_mono_on (i1.div_const 2) j1 measurableSet_Ioc fun u hu => ?_
    exact div_le_div_of_nonneg_left (Real.rpow_nonneg hu.1.le _) (by linarith [hu.1]) (by linarith [hu.2])
  have v2 : 1 / (-r) / 2 ≤ ∫ t in Ioi (1 : ℝ), t ^ r / (1 + t) := by
    have : ∫ u in Ioi (1 : ℝ), u ^ (r - 1) / 2 = 1 / (-r) / 2 := by
      rw [integral_div, integral_Ioi_rpow_of_lt (by linarith) one_pos, Real.one_rpow, show r - 1 + 1 = r by ring, div_neg, neg_div]
    rw [← this]
    refine setIntegral_mono_on (i2.div_const 2) j2 measurableSet_Ioi fun u hu => ?_
    have hu1 : (1 : ℝ) < u := hu
    have hu0 : 0 < u := by linarith
    rw [Real.rpow_sub hu0, Real.rpow_one, div_div]
    exact div_le_div_of_nonneg_left (Real.rpow_nonneg hu0.le _) (by linarith) (by linarith)
  rw [powC, hU, setIntegral_union (Ioc_disjoint_Ioi le_rfl) measurableSet_Ioi j1 j2]
  refine le_trans ?_ (add_le_add v1 v2)
  have ha : 0 < r + 1 := by linarith
  have hb : 0 < -r := by linarith
  have e : 1 / (r + 1) / 2 + 1 / (-r) / 2 = 1 / (2 * ((r + 1) * -r)) := by
    have hr : r ≠ 0 := h2.ne
    have ha' := ha.ne'
    rw [div_neg, neg_div, mul_neg, mul_neg, div_neg]; field_simp; ring
  rw [e, le_div_iff₀ (by positivity)]
  nlinarith [sq_nonneg (r + 1 / 2)]

theorem powC_scale {r : ℝ} (h1 : -1 < r) (h2 : r < 0) {u : ℝ} (hu : 0 < u) :
    IntegrableOn (fun t : ℝ => t ^ r / (u + t)) (Ioi 0) ∧ ∫ t in Ioi (0 : ℝ), t ^ r / (u + t) = u ^ r * powC r := by
  have hc : 0 < u⁻¹ := inv_pos.2 hu
  have hs := integral_comp_mul_left_Ioi (fun t : ℝ => t ^ r / (1 + t)) 0 hc
  have hi := (integrableOn_Ioi_comp_mul_left_iff (fun t : ℝ => t ^ r / (1 + t)) 0 hc).2 (by rw [mul_zero]; exact powC_integrable h1 h2)
  rw [mul_zero, ← powC, inv_inv, smul_eq_mul] at hs
  have e : ∀ t ∈ Ioi (0 : ℝ), t ^ r / (u + t) = u ^ (r - 1) * ((u⁻¹ * t) ^ r / (1 + u⁻¹ * t)) := fun t ht => by
    have ht' : 0 < t := ht
    rw [Real.mul_rpow hc.le ht'.le, Real.inv_rpow hu.le, Real.rpow_sub hu, Real.rpow_one]
    have : u ^ r ≠ 0 := (Real.rpow_pos_of_pos hu r).ne'
    field_simp
  constructor
  · exact IntegrableOn.congr_fun (hi.const_mul (u ^ (r - 1))) (fun t ht => (e t ht).symm) measurableSet_Ioi
  · rw [setIntegral_congr_fun measurableSet_Ioi e, integral_const_mul, hs, Real.rpow_sub hu, Real.rpow_one]
    field_simp

/-- the two-variable kernel -/
theorem kernel_prod {r : ℝ} (h1 : -1 < r) (h2 : r < 0) (m : ℕ) :
    Integrable (Function.uncurry fun x t : ℝ => t ^ r * ((1 - x) ^ m / (1 - x + t))) ((volume.restrict (Ioc (-1 : ℝ) 1)).prod (volume.restrict (Ioi (0 : ℝ)))) := by
  have hmeas : Measurable (Function.uncurry fun x t : ℝ => t ^ r * ((1 - x) ^ m / (1 - x + t))) := by
    unfold Function.uncurry; fun_prop
  rw [integrable_prod_iff hmeas.aestronglyMeasurable]
  have hae : ∀ᵐ x ∂(volume.restrict (Ioc (-1 : ℝ) 1)), x ∈ Ioo (-1 : ℝ) 1 := by
    rw [← restrict_Ioo_eq_restrict_Ioc]; exact ae_restrict_mem measurableSet_Ioo
  have e : ∀ x ∈ Ioo (-1 : ℝ) 1, ∀ t : ℝ, t ^ r * ((1 - x) ^ m / (1 - x + t)) = (1 - x) ^ m * (t ^ r / (1 - x + t)) := fun x hx t => by ring
  constructor
  · filter_upwards [hae] with x hx
    have hu : 0 < 1 - x := by linarith [hx.2]
    simp only [Function.uncurry, e x hx]
    exact (powC_scale h1 h2 hu).1.const_mul _
  · have : Integrable (fun x : ℝ => powC r * ((1 - x) ^ m * (1 - x) ^ r)) (volume.restrict (Ioc (-1 : ℝ) 1)) := by
      have hr : IntervalIntegrable (fun x : ℝ => (1 - x) ^ r) volume (-1) 1 := by
        have := (intervalIntegral.intervalIntegrable_rpow' (a := 2) (b := 0) h1).comp_sub_left 1
        norm_num at this
        exact this
      have h3 : IntervalIntegrable (fun x : ℝ => powC r * ((1 - x) ^ m * (1 - x) ^ r)) volume (-1) 1 :=
        (hr.continuousOn_mul (by fun_prop : ContinuousOn (fun x : ℝ => (1 - x) ^ m) _)).const_mul _
      rwa [intervalIntegrable_iff_integrableOn_Ioc_of_le (by norm_num)] at h3
    refine this.congr ?_
    filter_upwards [hae] with x hx
    have hu : 0 < 1 - x := by linarith [hx.2]
    have : ∀ t ∈ Ioi (0 : ℝ), ‖Function.uncurry (fun x t : ℝ => t ^ r * ((1 - x) ^ m / (1 - x + t))) (x, t)‖ = (1 - x) ^ m * (t ^ r / (1 - x + t)) := fun t ht => by
      have ht' : 0 < t := ht
      rw [← e x hx, Real.norm_of_nonneg]
      · rfl
      · simp only [Function.uncurry]; positivity
    rw [setIntegral_congr_fun measurableSet_Ioi this, integral_const_mul, (powC_scale h1 h2 hu).2]
    ring

section
variable {G : List (ℝ × ℝ)} {n : ℕ} (hn : 2 ≤ n) (hlen : G.length = n) (hex : ExactUpTo G (2 * n - 1) (Ioo (-1) 1) (fun _ => 1) 1)
include hn hlen hex

theorem gauss_power_error {r : ℝ} (h1 : -1 < r) (h2 : r < 0) {m : ℕ} (hm : m ≤ 2) :
    powC r * (quad G (fun x => (1 - x) ^ (r + m)) - ∫ x in (-1 : ℝ)..1, (1 - x) ^ (r + m)) = -((-1) ^ m * legM (r + m) n) := by
  have hlt := gauss_nodes_lt one_pos (by rw [hlen]; exact hex) posDef_one' (b := 1) fun x hx => hx.2.le
  have hpt : ∀ x : ℝ, x < 1 → powC r * (1 - x) ^ (r + m) = ∫ t in Ioi (0 : ℝ), t ^ r * ((1 - x) ^ m / (1 - x + t)) := fun x hx => by
    have hu : 0 < 1 - x := sub_pos.2 hx
    have e : ∀ t : ℝ, t ^ r * ((1 - x) ^ m / (1 - x + t)) = (1 - x) ^ m * (t ^ r / (1 - x + t)) := fun t => by ring
    simp only [e]
    rw [integral_const_mul, (powC_scale h1 h2 hu).2, Real.rpow_add hu, Real.rpow_natCast]
    ring
  have hint : ∀ x : ℝ, x < 1 → IntegrableOn (fun t : ℝ => t ^ r * ((1 - x) ^ m / (1 - x + t))) (Ioi 0) := fun x hx => by
    have hu : 0 < 1 - x := sub_pos.2 hx
    have e : ∀ t : ℝ, t ^ r * ((1 - x) ^ m / (1 - x + t)) = (1 - x) ^ m * (t ^ r / (1 - x + t)) := fun t => by ring
    simp only [e]
    exact (powC_scale h1 h2 hu).1.const_mul _
  have q1 : powC r * quad G (fun x => (1 - x) ^ (r + m)) = ∫ t in Ioi (0 : ℝ), t ^ r * quad G fun x => (1 - x) ^ m / (1 - x + t) := by
    rw [← quad_smul]
    simp only [quad_fin, Finset.mul_sum]
    rw [integral_finsetSum]
    · refine Finset.sum_congr rfl fun i _ => ?_
      rw [hpt _ (hlt _ (List.get_mem _ _)), ← integral_const_mul]
      refine integral_congr_ae (Eventually.of_forall fun t => ?_)
      simp only; ring
    · intro i _
      have := (hint _ (hlt _ (List.get_mem G i))).const_mul (G.get i).2
      refine this.congr (Eventually.of_forall fun t => ?_)
      simp only; ring
  have hswap := integral_integral_swap (kernel_prod h1 h2 m)
  have q2 : powC r * (∫ x in (-1 : ℝ)..1, (1 - x) ^ (r + m)) = ∫ t in Ioi (0 : ℝ), t ^ r * ∫ x in (-1 : ℝ)..1, (1 - x) ^ m / (1 - x + t) := by
    simp only [intervalIntegral.integral_of_le (show (-1 : ℝ) ≤ 1 by norm_num), ← integral_const_mul]
    rw [← hswap, ← restrict_Ioo_eq_restrict_Ioc]
    exact setIntegral_congr_fun measurableSet_Ioo fun x hx => hpt x hx.2
  have i1 : IntegrableOn (fun t : ℝ => t ^ r * quad G fun x => (1 - x) ^ m / (1 - x + t)) (Ioi 0) := by
    simp only [quad_fin, Finset.mul_sum]
    refine integrable_finsetSum _ fun i _ => ?_
    have := (hint _ (hlt _ (List.get_mem G i))).const_mul (G.get i).2
    refine this.congr (Eventually.of_forall fun t => ?_)
    simp only; ring
  have i2 : IntegrableOn (fun t : ℝ => t ^ r * ∫ x in (-1 : ℝ)..1, (1 - x) ^ m / (1 - x + t)) (Ioi 0) := by
    simp only [intervalIntegral.integral_of_le (show (-1 : ℝ) ≤ 1 by norm_num), ← integral_const_mul]
    exact (kernel_prod h1 h2 m).integral_prod_right
  rw [mul_sub, q1, q2, ← integral_sub i1 i2, legM, ← integral_const_mul, ← integral_neg]
  refine setIntegral_congr_fun measurableSet_Ioi fun t ht => ?_
  have ht' : 0 < t := ht
  rw [← mul_sub, gauss_kernel_error' hn hlen hex hm ht', Real.rpow_add ht', Real.rpow_natCast, neg_pow t m]
  ring

end

theorem betaFour_zero : betaFour 0 = 1 / 3 := by
  have h := integral_Ioi_of_hasDerivAt_of_tendsto (f := fun u : ℝ => -(1 / 3) * ((1 + u) ^ 3)⁻¹) (f' := fun u : ℝ => u ^ (0 : ℝ) / (1 + u) ^ 4) (a := 0) (m := 0) ?_ ?_ ?_ ?_
  · rw [betaFour, h]; norm_num
  · refine ContinuousAt.continuousWithinAt ?_
    exact ContinuousAt.mul continuousAt_const (ContinuousAt.inv₀ (by fun_prop) (by norm_num))
  · intro u hu
    have hu' : (0 : ℝ) < u := hu
    have hne : 1 + u ≠ 0 := by linarith
    have d := ((((hasDerivAt_id u).const_add 1).pow 3).inv (pow_ne_zero 3 hne)).const_mul (-(1 / 3))
    refine d.congr_deriv ?_
    simp only [id, Real.rpow_zero, Pi.pow_apply]
    field_simp
    norm_num
    try ring
  · exact (pow_bound (s := 0) (m := 4) (by norm_num) (by norm_num)).1
  · have : Tendsto (fun u : ℝ => (1 + u) ^ 3) atTop atTop := (tendsto_pow_atTop (by norm_num)).comp (tendsto_atTop_add_const_left _ _ tendsto_id)
    simpa using this.inv_tendsto_atTop.const_mul (-(1 / 3) : ℝ)

/-- the error for the logarithm -/
theorem legM_zero_le {n : ℕ} (hn : 2 ≤ n) : legM 0 n ≤ 4 / 3 / (n - 1 : ℝ) ^ 2 := by
  have hn' : (2 : ℝ) ≤ n := by exact_mod_cast hn
  refine (legM_le (q := 0) (by norm_num) (by norm_num) hn).trans (le_of_eq ?_)
  rw [betaFour_zero, mul_zero, zero_add, zero_add, Real.rpow_one, div_one, Real.rpow_neg (by linarith), show (2 : ℝ) = (2 : ℕ) by norm_num, Real.rpow_natCast]
  ring

/-- the error for powers -/
theorem legM_le' {q : ℝ} (h1 : -1 < q) (h2 : q < 2) {n : ℕ} (hn : 2 ≤ n) : legM q n ≤ 4 * 4 ^ (q + 1) / ((q + 1) ^ 2 * (3 - q)) / (n - 1 : ℝ) ^ (2 * q + 2) := by
  have hn' : (2 : ℝ) ≤ n := by exact_mod_cast hn
  have hb : betaFour q ≤ 4 / ((q + 1) * (3 - q)) := by
    refine (pow_bound (s := q) (m := 4) h1 (by norm_num; linarith)).2.trans (le_of_eq ?_)
    have ha : q + 1 ≠ 0 := by linarith
    have hb : 3 - q ≠ 0 := by linarith
    have e : ((4 : ℕ) : ℝ) - 1 - q = 3 - q := by norm_num
    rw [e]; field_simp; ring
  refine (legM_le h1 h2 hn).trans ?_
  have hq : 0 < q + 1 := by linarith
  have h3 : 0 < 3 - q := by linarith
  rw [Real.rpow_neg (by linarith), ← div_eq_mul_inv]
  have hnp : 0 ≤ ((n : ℝ) - 1) ^ (2 * q + 2) := Real.rpow_nonneg (by linarith) _
  refine div_le_div_of_nonneg_right ?_ hnp
  have h4 : (0 : ℝ) ≤ 4 ^ (q + 1) := Real.rpow_nonneg (by norm_num) _
  refine (div_le_div_of_nonneg_right (mul_le_mul_of_nonneg_right hb h4) hq.le).trans (le_of_eq ?_)
  field_simp

end GaussQuad
