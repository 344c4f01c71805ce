import Verif.Proofs.LaguerreSpacing
import Mathlib.Analysis.MeanInequalitiesPow

/-!
# Size of the Gauss-Laguerre weights for every parameter

The largest weight is `O(n^(-min(1/2, α + 1)))`.
-/

namespace GaussQuad
open Polynomial Spec MeasureTheory

variable {α : ℝ} {L : List (ℝ × ℝ)} {n : ℕ} {c : ℝ}

/-- `x^b exp(-x)` is bounded -/
theorem rpow_exp_bounded {b : ℝ} (hb : 0 ≤ b) : ∃ M, 0 ≤ M ∧ ∀ x, 0 < x → x ^ b * Real.exp (-x) ≤ M := by
  obtain ⟨k, hk⟩ := exists_nat_ge b
  refine ⟨1 + k.factorial, by positivity, fun x hx => ?_⟩
  rw [Real.exp_neg, ← div_eq_mul_inv, div_le_iff₀ (Real.exp_pos x)]
  have h1 : x ^ b ≤ 1 + x ^ k := by
    rcases le_total x 1 with h | h
    · have := Real.rpow_le_one hx.le h hb
      have : 0 ≤ x ^ k := by positivity
      linarith
    · have := Real.rpow_le_rpow_of_exponent_le h hk
      rw [Real.rpow_natCast] at this
      linarith
  have h2 := Real.pow_div_factorial_le_exp x hx.le k
  rw [div_le_iff₀ (by positivity)] at h2
  have h3 := Real.one_le_exp hx.le
  nlinarith

/-- in the variable `t = √x` the mass of an interval is at most a constant times a power of its length -/
theorem laguerre_mass_pow (hα : -1 < α) : ∃ M, 0 ≤ M ∧ ∀ s t, 0 ≤ s → s ≤ t → ∫ x in Set.Ioo (s ^ 2) (t ^ 2), lagW α x ≤ M * (t - s) ^ min 1 (2 * α + 2) := by
  have hmono : ∀ (g : ℝ → ℝ) (s t : ℝ), 0 ≤ s → s ≤ t → IntervalIntegrable g volume (s ^ 2) (t ^ 2) → (∀ x, 0 < x → lagW α x ≤ g x) →
      ∫ x in Set.Ioo (s ^ 2) (t ^ 2), lagW α x ≤ ∫ x in (s ^ 2)..(t ^ 2), g x := fun g s t hs hst hi hg => by
    have hst2 : s ^ 2 ≤ t ^ 2 := by nlinarith
    rw [intervalIntegral.integral_of_le hst2, integral_Ioc_eq_integral_Ioo]
    rw [intervalIntegrable_iff_integrableOn_Ioo_of_le hst2] at hi
    exact setIntegral_mono_on ((lagW_integrable hα).mono_set fun x hx => (sq_nonneg s).trans_lt hx.1) hi measurableSet_Ioo fun x hx => hg x ((sq_nonneg s).trans_lt hx.1)
  rcases le_or_gt (-(1 / 2)) α with h | h
  · obtain ⟨M, hM0, hM⟩ := rpow_exp_bounded (b := α + 1 / 2) (by linarith)
    refine ⟨2 * M, by positivity, fun s t hs hst => ?_⟩
    rw [min_eq_left (by linarith), Real.rpow_one]
    refine (hmono (fun x => M * x ^ (-(1 / 2) : ℝ)) s t hs hst ((intervalIntegral.intervalIntegrable_rpow' (by norm_num)).const_mul M) fun x hx => ?_).trans (le_of_eq ?_)
    · have e : lagW α x = x ^ (α + 1 / 2) * Real.exp (-x) * x ^ (-(1 / 2) : ℝ) := by
        rw [lagW, mul_right_comm, ← Real.rpow_add hx]; congr 2; ring
      rw [e]
      exact mul_le_mul_of_nonneg_right (hM x hx) (Real.rpow_nonneg hx.le _)
    · rw [intervalIntegral.integral_const_mul, integral_rpow (Or.inl (by norm_num)), show (-(1 / 2) + 1 : ℝ) = 1 / 2 by norm_num, ← Real.sqrt_eq_rpow, ← Real.sqrt_eq_rpow,
        Real.sqrt_sq hs, Real.sqrt_sq (hs.trans hst)]
      ring
  · refine ⟨1 / (α + 1), div_nonneg zero_le_one (by linarith), fun s t hs hst => ?_⟩
    rw [min_eq_right (by linarith)]
    refine (hmono (fun x => x ^ α) s t hs hst (intervalIntegral.intervalIntegrable_rpow' hα) fun x hx => ?_).trans ?_
    · rw [lagW]
      exact mul_le_of_le_one_right (Real.rpow_nonneg hx.le _) (Real.exp_le_one_iff.2 (by linarith))
    · rw [integral_rpow (Or.inl hα), div_mul_eq_mul_div, one_mul]
      refine div_le_div_of_nonneg_right ?_ (by linarith)
      have e : ∀ u : ℝ, 0 ≤ u → (u ^ 2) ^ (α + 1) = u ^ (2 * α + 2) := fun u hu => by
        rw [← Real.rpow_natCast u 2, ← Real.rpow_mul hu]; congr 1; push_cast; ring
      rw [e s hs, e t (hs.trans hst)]
      have := Real.rpow_add_le_add_rpow (p := 2 * α + 2) (sub_nonneg.2 hst) hs (by linarith) (by linarith)
      rw [sub_add_cancel] at this
      linarith

/-- tail of the weight function -/
theorem laguerre_tail_pow (hα : -1 < α) {B : ℝ} (hB : 0 < B) : ∫ x in Set.Ioi B, lagW α x ≤ Real.Gamma (α + 2) / B := by
  have hi : IntegrableOn (fun x => x ^ 1 * lagW α x) (Set.Ioi 0) := (lag_monomial hα 1).1
  have he : ∫ x in Set.Ioi 0, x ^ 1 * lagW α x = Real.Gamma (α + 2) := by rw [(lag_monomial hα 1).2]; congr 1; push_cast; ring
  rw [le_div_iff₀ hB, ← he, mul_comm, ← integral_const_mul]
  have hsub : Set.Ioi B ⊆ Set.Ioi 0 := Set.Ioi_subset_Ioi hB.le
  refine (setIntegral_mono_on (((lagW_integrable hα).mono_set hsub).const_mul B) (hi.mono_set hsub) measurableSet_Ioi fun x hx => ?_).trans
    (setIntegral_mono_set hi ((ae_restrict_iff' measurableSet_Ioi).2 (Filter.Eventually.of_forall fun x hx => ?_)) (Filter.Eventually.of_forall hsub))
  · rw [pow_one]
    exact mul_le_mul_of_nonneg_right (le_of_lt hx) (lagW_pos α (hB.trans hx)).le
  · exact mul_nonneg (pow_nonneg (le_of_lt hx) 1) (lagW_pos α hx).le

/-- the largest weight is `O(n^(-min(1/2, α + 1)))` -/
theorem laguerre_weight_rate (hα : -1 < α) (hc : 0 < c) : ∃ K, 0 ≤ K ∧ ∀ (n : ℕ) (L : List (ℝ × ℝ)), 0 < n → IsGauss L n (Set.Ioi 0) (lagW α) c → ∀ q ∈ L,
    q.2 ≤ K / (n : ℝ) ^ min (1 / 2) (α + 1) := by
  obtain ⟨M, hM0, hM⟩ := laguerre_mass_pow hα
  set κ := min (1 / 2) (α + 1) with hκ
  have hκ0 : 0 < κ := lt_min (by norm_num) (by linarith)
  have hκ1 : κ ≤ 1 / 2 := min_le_left _ _
  have hκ2 : min 1 (2 * α + 2) = 2 * κ := by
    rw [hκ, mul_min_of_nonneg _ _ (by norm_num : (0 : ℝ) ≤ 2)]; norm_num; ring_nf
  set A := Real.sqrt (max 0 (α ^ 2 - 1 / 4)) + 1 with hA
  have hA1 : 1 ≤ A := by rw [hA]; linarith [Real.sqrt_nonneg (max 0 (α ^ 2 - 1 / 4))]
  have hA2 : max 0 (α ^ 2 - 1 / 4) ≤ A ^ 2 := by
    have h1 := Real.sq_sqrt (le_max_left 0 (α ^ 2 - 1 / 4))
    have h2 := Real.sqrt_nonneg (max 0 (α ^ 2 - 1 / 4))
    rw [hA]; nlinarith
  have hpi := Real.pi_pos
  have p2 := Real.pi_lt_d2
  obtain ⟨N, hN⟩ := exists_nat_ge (A + 20)
  have hg1 : 0 < Real.Gamma (α + 1) := Real.Gamma_pos_of_pos (by linarith)
  have hg2 : 0 < Real.Gamma (α + 2) := Real.Gamma_pos_of_pos (by linarith)
  have k1 : 0 ≤ Real.Gamma (α + 1) * (N : ℝ) ^ κ := by positivity
  have k3 : 0 ≤ M * (A + 2 * Real.pi) ^ (2 * κ) := mul_nonneg hM0 (Real.rpow_nonneg (by linarith) _)
  refine ⟨c * (Real.Gamma (α + 1) * (N : ℝ) ^ κ + Real.Gamma (α + 2) + M * (A + 2 * Real.pi) ^ (2 * κ)), mul_nonneg hc.le (by linarith), fun n L hn h q hq => ?_⟩
  have hfin := laguerre_finite hα c
  have hr := laguerre_reproduces hα hc h
  have hn1 : (1 : ℝ) ≤ n := by exact_mod_cast hn
  have hnκ : 0 < (n : ℝ) ^ κ := Real.rpow_pos_of_pos (by linarith) _
  rw [mul_div_assoc]
  have fin : ∀ T : Set ℝ, MeasurableSet T → q.2 ≤ (dens (Set.Ioi 0) fun x => c * lagW α x).real T →
      ((∫ x in Set.Ioi 0 ∩ T, lagW α x) * (n : ℝ) ^ κ ≤ Real.Gamma (α + 1) * (N : ℝ) ^ κ + Real.Gamma (α + 2) + M * (A + 2 * Real.pi) ^ (2 * κ)) →
      q.2 ≤ c * ((Real.Gamma (α + 1) * (N : ℝ) ^ κ + Real.Gamma (α + 2) + M * (A + 2 * Real.pi) ^ (2 * κ)) / (n : ℝ) ^ κ) := fun T hT h1 h2 => by
    refine h1.trans ?_
    rw [laguerre_dens hc hT]
    refine mul_le_mul_of_nonneg_left ?_ hc.le
    rwa [le_div_iff₀ hnκ]
  by_cases hsmall : n < N
  · refine fin Set.univ MeasurableSet.univ (hr.weight_le_mass hq) ?_
    rw [Set.inter_univ, laguerre_mass hα]
    have : (n : ℝ) ^ κ ≤ (N : ℝ) ^ κ := Real.rpow_le_rpow (by linarith) (by exact_mod_cast hsmall.le) hκ0.le
    have := mul_le_mul_of_nonneg_left this hg1.le
    linarith
  have hnN : A + 20 ≤ n := hN.trans (by exact_mod_cast not_lt.1 hsmall)
  have hn20 : 21 ≤ (n : ℝ) := by linarith
  have hpos : ∀ x ∈ L.map Prod.fst, 0 < x := fun x hx => by
    obtain ⟨p, hp, rfl⟩ := List.mem_map.1 hx
    exact gauss_nodes_gt hc h.exact' (posDef_laguerre hα) (fun x hx => (show (0 : ℝ) < x from hx).le) p hp
  set m := Real.sqrt n with hm
  have hm2 : m ^ 2 = n := Real.sq_sqrt (by linarith)
  have hm0 : 0 < m := Real.sqrt_pos.2 (by linarith)
  have hm4 : 4.5 ≤ m := Real.le_sqrt_of_sq_le (by norm_num; linarith)
  set R := Real.sqrt (2 * n) with hRdef
  have hR2 : R ^ 2 = 2 * n := Real.sq_sqrt (by linarith)
  set δ := Real.pi / m with hδ
  have hδ0 : 0 < δ := div_pos hpi hm0
  have hδm : δ * m = Real.pi := by rw [hδ]; field_simp
  set s₀ := A / m with hs₀
  have hs0 : 0 < s₀ := div_pos (by linarith) hm0
  have hs0m : s₀ * m = A := by rw [hs₀]; field_simp
  have hRm : 1.41 * m ≤ R := Real.le_sqrt_of_sq_le (by rw [mul_pow, hm2]; norm_num; linarith)
  have hgap : m + 2 * δ ≤ R := by
    have : 2 * δ ≤ 0.4 * m := by
      have h1 : 2 * Real.pi ≤ 0.4 * m * m := by rw [mul_assoc, ← pow_two, hm2]; linarith
      rw [← hδm, ← mul_assoc] at h1
      exact le_of_mul_le_mul_right h1 hm0
    linarith
  have hs0m' : s₀ ≤ m := by
    have : s₀ * m ≤ m * m := by rw [hs0m, ← pow_two, hm2]; linarith
    exact le_of_mul_le_mul_right this hm0
  have hω : ∀ s, s₀ ≤ s → m ^ 2 ≤ 4 * n + 2 * α + 2 - R ^ 2 - max 0 (α ^ 2 - 1 / 4) / s ^ 2 := fun s hs => by
    have : max 0 (α ^ 2 - 1 / 4) / s ^ 2 ≤ n := by
      rw [div_le_iff₀ (by nlinarith [hs0.trans_le hs])]
      refine hA2.trans ?_
      rw [← hs0m, mul_pow, hm2, mul_comm]
      exact mul_le_mul_of_nonneg_left (by nlinarith) (by linarith)
    rw [hm2, hR2]; linarith
  have hq0 : 0 < q.1 := hpos _ (List.mem_map.2 ⟨q, hq, rfl⟩)
  set t := Real.sqrt q.1 with ht
  have ht0 : 0 < t := Real.sqrt_pos.2 hq0
  have hlt_of : ∀ x y : ℝ, Real.sqrt x < Real.sqrt y → x < y := fun x y hxy => by
    by_contra hn
    exact absurd (Real.sqrt_le_sqrt (not_lt.1 hn)) (not_le.2 hxy)
  rcases le_or_gt (t + δ) R with hin | hout
  · -- the length of the interval in the variable `t`
    have hlen : ∀ u v : ℝ, 0 ≤ u → u ≤ v → v - u ≤ s₀ + 2 * δ →
        (∫ x in Set.Ioo (u ^ 2) (v ^ 2), lagW α x) * (n : ℝ) ^ κ ≤ Real.Gamma (α + 1) * (N : ℝ) ^ κ + Real.Gamma (α + 2) + M * (A + 2 * Real.pi) ^ (2 * κ) := fun u v hu huv hl => by
      have h1 := hM u v hu huv
      rw [hκ2] at h1
      have h2 : (v - u) ^ (2 * κ) ≤ (s₀ + 2 * δ) ^ (2 * κ) := Real.rpow_le_rpow (by linarith) hl (by linarith)
      have h3 : (s₀ + 2 * δ) ^ (2 * κ) * (n : ℝ) ^ κ = (A + 2 * Real.pi) ^ (2 * κ) := by
        have : (n : ℝ) ^ κ = m ^ (2 * κ) := by
          rw [← hm2, ← Real.rpow_natCast m 2, ← Real.rpow_mul hm0.le]; norm_num
        rw [this, ← Real.mul_rpow (by linarith) hm0.le]
        congr 1
        linear_combination hs0m + 2 * hδm
      calc _ ≤ M * (s₀ + 2 * δ) ^ (2 * κ) * (n : ℝ) ^ κ := mul_le_mul_of_nonneg_right (h1.trans (mul_le_mul_of_nonneg_left h2 hM0)) hnκ.le
        _ = M * (A + 2 * Real.pi) ^ (2 * κ) := by rw [mul_assoc, h3]
        _ ≤ _ := by linarith
    obtain ⟨z, hz, hzq, hzt⟩ : ∃ z ∈ L.map Prod.fst, q.1 < z ∧ Real.sqrt z ≤ max t s₀ + δ := by
      rcases le_total s₀ t with h1 | h1
      · obtain ⟨⟨z, hz, z1, z2⟩, -⟩ := laguerre_node_in hα hc hn h ht0 hm0 (hω t h1) hin
        exact ⟨z, hz, hlt_of _ _ z1, z2.trans (by linarith [le_max_left t s₀])⟩
      · obtain ⟨⟨z, hz, z1, z2⟩, -⟩ := laguerre_node_in hα hc hn h hs0 hm0 (hω s₀ le_rfl) (R := R) (by linarith)
        exact ⟨z, hz, hlt_of _ _ (lt_of_le_of_lt h1 z1), z2.trans (by linarith [le_max_right t s₀])⟩
    have hz0 := hpos z hz
    have hzs : Real.sqrt z ^ 2 = z := Real.sq_sqrt hz0.le
    rcases le_or_gt s₀ (t - δ) with h1 | h1
    · obtain ⟨-, y, hy, y1, y2⟩ := laguerre_node_in hα hc hn h (s := t - δ) (R := R) (by linarith) hm0 (hω _ h1) (by linarith)
      have hyq : y < q.1 := hlt_of _ _ (by linarith)
      have hy0 := hpos y hy
      have hys : Real.sqrt y ^ 2 = y := Real.sq_sqrt hy0.le
      refine fin (Set.Ioo y z) measurableSet_Ioo (hr.weight_le hq hy hz hyq hzq) ?_
      rw [Set.inter_eq_right.2 (show Set.Ioo y z ⊆ Set.Ioi 0 from fun x hx => hy0.trans hx.1), ← hys, ← hzs]
      refine hlen _ _ (Real.sqrt_nonneg _) (Real.sqrt_le_sqrt (hyq.trans hzq).le) ?_
      have : max t s₀ = t := max_eq_left (by linarith)
      rw [this] at hzt
      linarith
    · refine fin (Set.Iio z) measurableSet_Iio (hr.weight_le_left hq hz hzq) ?_
      rw [Set.Ioi_inter_Iio, ← hzs, show Set.Ioo (0 : ℝ) (Real.sqrt z ^ 2) = Set.Ioo ((0 : ℝ) ^ 2) (Real.sqrt z ^ 2) by norm_num]
      refine hlen _ _ le_rfl (Real.sqrt_nonneg _) ?_
      have : max t s₀ ≤ s₀ + δ := max_le (by linarith) (by linarith)
      linarith
  · obtain ⟨⟨y, hy, y1, y2⟩, -⟩ := laguerre_node_in hα hc hn h (s := R - 2 * δ) (R := R) (by linarith) hm0 (hω _ (by linarith)) (by linarith)
    have hyq : y < q.1 := hlt_of _ _ (by linarith)
    have hy0 := hpos y hy
    have hny : (n : ℝ) ≤ y := by
      have := pow_le_pow_left₀ hm0.le (show m ≤ Real.sqrt y by linarith) 2
      rwa [hm2, Real.sq_sqrt hy0.le] at this
    refine fin (Set.Ioi y) measurableSet_Ioi (hr.weight_le_right hq hy hyq) ?_
    rw [Set.inter_eq_right.2 (Set.Ioi_subset_Ioi hy0.le)]
    have h1 := laguerre_tail_pow hα hy0
    have h2 : Real.Gamma (α + 2) / y ≤ Real.Gamma (α + 2) / n := div_le_div_of_nonneg_left hg2.le (by linarith) hny
    have h3 : (n : ℝ) ^ κ ≤ n := by
      have := Real.rpow_le_rpow_of_exponent_le hn1 (show κ ≤ 1 by linarith)
      rwa [Real.rpow_one] at this
    calc _ ≤ Real.Gamma (α + 2) / n * (n : ℝ) ^ κ := mul_le_mul_of_nonneg_right (h1.trans h2) hnκ.le
      _ ≤ Real.Gamma (α + 2) / n * n := mul_le_mul_of_nonneg_left h3 (by positivity)
      _ = Real.Gamma (α + 2) := by field_simp
      _ ≤ _ := by linarith

end GaussQuad
