import Verif.Proofs.WeakQuad
import Verif.Proofs.GaussNorms
import Verif.Proofs.GolubRules
import Mathlib.MeasureTheory.Measure.WithDensity
import Mathlib.Analysis.SpecialFunctions.Gaussian.GaussianIntegral
import Mathlib.Analysis.SpecialFunctions.ImproperIntegrals
import Mathlib.Analysis.SpecialFunctions.Gamma.Basic
import Mathlib.Analysis.SpecificLimits.Normed
import Mathlib.Analysis.Calculus.Deriv.MeanValue

/-! Gauss rules underestimate integrands with a nonnegative derivative of order `2n`; convergence of Gauss-Hermite and Gauss-Laguerre rules. -/

namespace GaussQuad
open Polynomial Spec MeasureTheory Filter Topology

/-- an integrand whose derivative of order `2n` is nonnegative is underestimated -/
theorem gauss_below {L : List (ℝ × ℝ)} {S : Set ℝ} {w : ℝ → ℝ} (hS : S.OrdConnected) (hSm : MeasurableSet S) (hL : 0 < L.length)
    {c : ℝ} (hc : 0 < c) (hex : ExactUpTo L (2 * L.length - 1) S w c) (hnd : (L.map Prod.fst).Nodup) (hnode : ∀ q ∈ L, q.1 ∈ S)
    (hw : ∀ x ∈ S, 0 ≤ w x) (hint : ∀ p : ℝ[X], IntegrableOn (fun x => p.eval x * w x) S) {F : ℕ → ℝ → ℝ} (hF : Derivs F (2 * L.length) S)
    (h0 : ∀ x ∈ S, 0 ≤ F (2 * L.length) x) (hfi : IntegrableOn (fun x => F 0 x * w x) S) :
    quad L (F 0) ≤ c * ∫ x in S, F 0 x * w x := by
  classical
  have hcard : (nodeSet L).card = L.length := by
    unfold nodeSet
    rw [List.toFinset_card_of_nodup hnd, List.length_map]
  have hmem : ∀ x ∈ nodeSet L, x ∈ S := by
    intro x hx
    unfold nodeSet at hx
    rw [List.mem_toFinset, List.mem_map] at hx
    obtain ⟨q, hq, rfl⟩ := hx
    exact hnode q hq
  obtain ⟨H, hH1, hH2⟩ := hermite_interpolant (nodeSet L) (F 0) (F 1) (by omega)
  have hN' : 2 * (nodeSet L).card = 2 * L.length := by rw [hcard]
  have hrem : ∀ x ∈ S, H.eval x ≤ F 0 x := fun x hx => by
    obtain ⟨ξ, hξ, h⟩ := hermite_remainder hS (by omega) hmem (by rw [hN']; exact hF) hH1 hH2 hx
    have : 0 ≤ F 0 x - H.eval x := by
      rw [h, hN']
      have := h0 ξ hξ
      positivity
    linarith
  have e1 : quad L (F 0) = c * ∫ x in S, H.eval x * w x := by
    rw [quad_congr (g := fun x => H.eval x) (fun q hq => ((hH2 q.1 (by
      unfold nodeSet; rw [List.mem_toFinset]; exact List.mem_map_of_mem hq)).1).symm), hex H (by omega)]
    rfl
  rw [e1]
  refine mul_le_mul_of_nonneg_left ?_ hc.le
  exact setIntegral_mono_on (hint H) hfi hSm fun x hx => mul_le_mul_of_nonneg_right (hrem x hx) (hw x hx)

/-- the measure `w dx` on `S` -/
noncomputable def dens (S : Set ℝ) (w : ℝ → ℝ) : Measure ℝ := (volume.restrict S).withDensity fun x => ((w x).toNNReal : ENNReal)

section dens
variable {S : Set ℝ} {w : ℝ → ℝ}

theorem dens_integral (hS : MeasurableSet S) (hwm : Measurable w) (hw : ∀ x ∈ S, 0 ≤ w x) (g : ℝ → ℝ) : ∫ x, g x ∂(dens S w) = ∫ x in S, g x * w x := by
  unfold dens
  rw [integral_withDensity_eq_integral_smul hwm.real_toNNReal]
  refine setIntegral_congr_fun hS fun x hx => ?_
  simp only [NNReal.smul_def, smul_eq_mul, Real.coe_toNNReal _ (hw x hx)]
  ring

theorem dens_integrable (hS : MeasurableSet S) (hwm : Measurable w) (hw : ∀ x ∈ S, 0 ≤ w x) (g : ℝ → ℝ) :
    Integrable g (dens S w) ↔ IntegrableOn (fun x => g x * w x) S := by
  unfold dens
  rw [integrable_withDensity_iff_integrable_smul hwm.real_toNNReal]
  refine integrableOn_congr_fun (fun x hx => ?_) hS
  simp only [NNReal.smul_def, smul_eq_mul, Real.coe_toNNReal _ (hw x hx)]
  ring

theorem dens_finite (hi : IntegrableOn w S) : IsFiniteMeasure (dens S w) := isFiniteMeasure_withDensity_ofReal hi.2

theorem dens_mass (hS : MeasurableSet S) (hwm : Measurable w) (hw : ∀ x ∈ S, 0 ≤ w x) : (dens S w).real Set.univ = ∫ x in S, w x := by
  have := dens_integral hS hwm hw (fun _ => 1)
  simpa using this

end dens

theorem exp_partial_tendsto (y : ℝ) : Tendsto (fun K : ℕ => ∑ k ∈ Finset.range K, y ^ k / k.factorial) atTop (𝓝 (Real.exp y)) := by
  have := (NormedSpace.expSeries_div_hasSum_exp (𝔸 := ℝ) y).tendsto_sum_nat
  rwa [← Real.exp_eq_exp_ℝ] at this

theorem quad_finset_sum (L : List (ℝ × ℝ)) {ι : Type*} (s : Finset ι) (f : ι → ℝ → ℝ) : quad L (fun x => ∑ i ∈ s, f i x) = ∑ i ∈ s, quad L (f i) := by
  classical
  induction s using Finset.induction_on with
  | empty => simp [quad]
  | insert a s ha ih =>
    simp only [Finset.sum_insert ha]
    rw [quad_add, ih]

theorem quad_tendsto_pointwise (L : List (ℝ × ℝ)) {f : ℕ → ℝ → ℝ} {g : ℝ → ℝ} (h : ∀ x, Tendsto (fun K => f K x) atTop (𝓝 (g x))) :
    Tendsto (fun K => quad L (f K)) atTop (𝓝 (quad L g)) := by
  induction L with
  | nil => simp [quad]
  | cons p L ih =>
    simp only [quad, List.map_cons, List.sum_cons] at *
    exact ((h p.1).const_mul p.2).add ih

/-! ### Hermite -/

section hermite

theorem hermW_meas : Measurable hermW := by unfold hermW; fun_prop

theorem hermW_pos (x : ℝ) : 0 < hermW x := Real.exp_pos _

theorem hermite_exp_integrable {s : ℝ} (hs : s < 1) : Integrable fun x : ℝ => Real.exp (s * x ^ 2) * hermW x := by
  refine (integrable_exp_neg_mul_sq (b := 1 - s) (by linarith)).congr (Eventually.of_forall fun x => ?_)
  change _ = Real.exp (s * x ^ 2) * Real.exp (-x ^ 2)
  rw [← Real.exp_add]
  congr 1; ring

theorem hermite_moment_le {L : List (ℝ × ℝ)} {n : ℕ} (hn : 0 < n) (hL : IsGauss L n Set.univ hermW 1) (k : ℕ) :
    quad L (fun x => x ^ (2 * k)) ≤ ∫ x, x ^ (2 * k) * hermW x := by
  have hlen : 0 < L.length := by rw [hL.length]; exact hn
  have hi := integrable_hermite (X ^ (2 * k))
  simp only [eval_pow, eval_X] at hi
  have h := gauss_below Set.ordConnected_univ MeasurableSet.univ hlen one_pos hL.exact' (gauss_nodes_nodup one_pos hL.exact' posDef_hermite)
    (fun q _ => Set.mem_univ _) (fun x _ => (hermW_pos x).le) integrable_hermite (F := fun j x => (derivative^[j] (X ^ (2 * k))).eval x)
    (fun j _ x _ => by
      have := (derivative^[j] (X ^ (2 * k) : ℝ[X])).hasDerivAt x
      rwa [← Function.iterate_succ_apply' derivative j] at this)
    (fun x _ => by
      rw [iterate_derivative_X_pow_eq_smul, eval_smul, eval_pow, eval_X, smul_eq_mul]
      refine mul_nonneg (Nat.cast_nonneg _) ?_
      rcases le_total k L.length with h | h
      · rw [show 2 * k - 2 * L.length = 0 by omega, pow_zero]; exact zero_le_one
      · exact Even.pow_nonneg (by rw [show 2 * k - 2 * L.length = 2 * (k - L.length) by omega]; exact even_two_mul _) x)
    (by simpa using hi)
  simpa using h

theorem hermite_exp_le {L : List (ℝ × ℝ)} {n : ℕ} (hn : 0 < n) (hL : IsGauss L n Set.univ hermW 1) {s : ℝ} (hs0 : 0 ≤ s) (hs : s < 1) :
    quad L (fun x => Real.exp (s * x ^ 2)) ≤ ∫ x, Real.exp (s * x ^ 2) * hermW x := by
  refine le_of_tendsto (quad_tendsto_pointwise L fun x => exp_partial_tendsto (s * x ^ 2)) (Eventually.of_forall fun K => ?_)
  rw [quad_finset_sum]
  have hik : ∀ k : ℕ, Integrable fun x : ℝ => x ^ (2 * k) * hermW x := fun k => by
    have := integrable_hermite (X ^ (2 * k))
    simpa using this
  have e : ∀ k : ℕ, quad L (fun x => (s * x ^ 2) ^ k / k.factorial) ≤ ∫ x, s ^ k / k.factorial * (x ^ (2 * k) * hermW x) := fun k => by
    rw [integral_const_mul, show (fun x : ℝ => (s * x ^ 2) ^ k / k.factorial) = fun x => s ^ k / k.factorial * x ^ (2 * k) from
      funext fun x => by rw [mul_pow, pow_mul]; ring, quad_smul]
    exact mul_le_mul_of_nonneg_left (hermite_moment_le hn hL k) (by positivity)
  refine (Finset.sum_le_sum fun k _ => e k).trans ?_
  rw [← integral_finsetSum _ fun k _ => (hik k).const_mul _]
  refine integral_mono (integrable_finsetSum _ fun k _ => (hik k).const_mul _) (hermite_exp_integrable hs) fun x => ?_
  have : ∑ k ∈ Finset.range K, s ^ k / k.factorial * (x ^ (2 * k) * hermW x) = (∑ k ∈ Finset.range K, (s * x ^ 2) ^ k / k.factorial) * hermW x := by
    rw [Finset.sum_mul]
    refine Finset.sum_congr rfl fun k _ => ?_
    rw [mul_pow, pow_mul]; ring
  simp only [this]
  exact mul_le_mul_of_nonneg_right (Real.sum_le_exp_of_nonneg (by positivity) K) (hermW_pos x).le

theorem cos_derivs (t φ : ℝ) (N : ℕ) (S : Set ℝ) : Derivs (fun k x => t ^ k * Real.cos (t * x + φ + k * (Real.pi / 2))) N S := fun k _ x _ => by
  have h1 : HasDerivAt (fun x => t * x + φ + k * (Real.pi / 2)) t x := by
    simpa using (((hasDerivAt_id x).const_mul t).add_const φ).add_const (k * (Real.pi / 2))
  have h2 := (h1.cos).const_mul (t ^ k)
  refine h2.congr_deriv ?_
  change _ = t ^ (k + 1) * Real.cos (t * x + φ + ((k + 1 : ℕ) : ℝ) * (Real.pi / 2))
  rw [show t * x + φ + ((k + 1 : ℕ) : ℝ) * (Real.pi / 2) = (t * x + φ + k * (Real.pi / 2)) + Real.pi / 2 by push_cast; ring, Real.cos_add_pi_div_two]
  ring

theorem hermite_cos_tendsto {L : ℕ → List (ℝ × ℝ)} (hL : ∀ m, IsGauss (L m) (m + 1) Set.univ hermW 1) (t φ : ℝ) :
    Tendsto (fun m => quad (L m) (fun x => Real.cos (t * x + φ))) atTop (𝓝 (∫ x, Real.cos (t * x + φ) * hermW x)) := by
  have key : ∀ m, |quad (L m) (fun x => Real.cos (t * x + φ)) - ∫ x, Real.cos (t * x + φ) * hermW x| ≤ Real.sqrt Real.pi * ((t ^ 2) ^ (m + 1) / (m + 1).factorial) := by
    intro m
    have hlen : 0 < (L m).length := by rw [(hL m).length]; omega
    have h := (gauss_remainder Set.ordConnected_univ MeasurableSet.univ hlen one_pos (hL m).exact' (gauss_nodes_nodup one_pos (hL m).exact' posDef_hermite)
      (fun q _ => Set.mem_univ _) (fun x _ => (hermW_pos x).le) integrable_hermite (cos_derivs t φ _ _) (K := (t ^ 2) ^ (L m).length) (fun x _ => by
        rw [abs_mul, abs_pow, pow_mul, sq_abs]
        exact mul_le_of_le_one_right (by positivity) (Real.abs_cos_le_one _))).2
    rw [hermite_norm hlen one_pos (hL m).exact', (hL m).length, setIntegral_univ] at h
    simp only [pow_zero, one_mul, Nat.cast_zero, zero_mul, add_zero] at h
    refine h.trans ?_
    have hf : ((m + 1).factorial : ℝ) * (m + 1).factorial ≤ (2 * (m + 1)).factorial := by
      have := Nat.factorial_mul_factorial_dvd_factorial_add (m + 1) (m + 1)
      rw [← two_mul] at this
      exact_mod_cast Nat.le_of_dvd (Nat.factorial_pos _) this
    have h1 : (0 : ℝ) < (m + 1).factorial := by positivity
    have h2 : (0 : ℝ) < (2 * (m + 1)).factorial := by positivity
    have hq : ((m + 1).factorial : ℝ) / (2 * (m + 1)).factorial ≤ 1 / (m + 1).factorial := by
      rw [div_le_div_iff₀ h2 h1]; linarith
    calc (t ^ 2) ^ (m + 1) / (2 * (m + 1)).factorial * (Real.sqrt Real.pi * (m + 1).factorial / 2 ^ (m + 1)) =
          Real.sqrt Real.pi * (t ^ 2) ^ (m + 1) * ((m + 1).factorial / (2 * (m + 1)).factorial) * (1 / 2 ^ (m + 1)) := by ring
      _ ≤ Real.sqrt Real.pi * (t ^ 2) ^ (m + 1) * (1 / (m + 1).factorial) * 1 := by
          refine mul_le_mul (mul_le_mul_of_nonneg_left hq (by positivity)) ?_ (by positivity) (by positivity)
          rw [div_le_one (by positivity)]
          exact one_le_pow₀ (by norm_num)
      _ = _ := by ring
  rw [tendsto_iff_dist_tendsto_zero]
  refine squeeze_zero (fun m => dist_nonneg) key ?_
  have := ((FloorSemiring.tendsto_pow_div_factorial_atTop (t ^ 2)).comp (tendsto_add_atTop_nat 1)).const_mul (Real.sqrt Real.pi)
  simpa [Function.comp] using this

theorem hermite_tendsto {L : ℕ → List (ℝ × ℝ)} (hL : ∀ m, IsGauss (L m) (m + 1) Set.univ hermW 1) {f : ℝ → ℝ} (hf : Continuous f) {C s : ℝ} (hs : s < 1)
    (hC : ∀ x, |f x| ≤ C * Real.exp (s * x ^ 2)) :
    Integrable (fun x => f x * hermW x) ∧ Tendsto (fun m => quad (L m) f) atTop (𝓝 (∫ x, f x * hermW x)) := by
  have hdi := dens_integral (S := Set.univ) MeasurableSet.univ hermW_meas fun x _ => (hermW_pos x).le
  have hdb := dens_integrable (S := Set.univ) MeasurableSet.univ hermW_meas fun x _ => (hermW_pos x).le
  have hwi : IntegrableOn hermW Set.univ := by simpa using integrable_hermite 1
  have := dens_finite hwi
  have hm := dens_mass (S := Set.univ) MeasurableSet.univ hermW_meas fun x _ => (hermW_pos x).le
  simp only [setIntegral_univ] at hdi hm
  simp only [integrableOn_univ] at hdb
  have hmass : ∀ m, quad (L m) (fun _ => 1) = ∫ x, hermW x := fun m => by
    have := (hL m).exact' 1 (by simp)
    simpa [weightIntegral] using this
  have hmp : 0 < ∫ x, hermW x := by
    rw [← setIntegral_univ, hermite_mass]; positivity
  obtain ⟨s', h1, h2⟩ := exists_between (max_lt hs one_pos)
  have hs' : s < s' := (le_max_left _ _).trans_lt h1
  have h0' : 0 ≤ s' := (le_max_right _ _).trans h1.le
  have h := quad_tendsto_growth (L := L) (μ := dens Set.univ hermW) (by rw [hm]; exact hmp)
    (fun m q hq => (gauss_weights_pos one_pos (hL m).exact' posDef_hermite q hq).le) (fun m => by rw [hm]; exact hmass m)
    (fun t => by
      rw [hdi]
      simpa using hermite_cos_tendsto hL t 0)
    (fun t => by
      rw [hdi]
      have := hermite_cos_tendsto hL t (-(Real.pi / 2))
      simpa only [← sub_eq_add_neg, Real.cos_sub_pi_div_two] using this) hs'
    (fun m => hermite_exp_le (Nat.succ_pos m) (hL m) h0' h2) ((hdb _).2 (hermite_exp_integrable h2)) hf hC
  rw [hdb, hdi] at h
  exact h

end hermite

/-! ### Laguerre -/

theorem integrate_bound {f f' : ℝ → ℝ} (hf : ∀ x, HasDerivAt f (f' x) x) (h0 : f 0 = 0) {k : ℕ} (h : ∀ x, 0 ≤ x → |f' x| ≤ x ^ k / k.factorial) {x : ℝ} (hx : 0 ≤ x) :
    |f x| ≤ x ^ (k + 1) / (k + 1).factorial := by
  have hg : ∀ x : ℝ, HasDerivAt (fun x : ℝ => x ^ (k + 1) / (k + 1).factorial) (x ^ k / k.factorial) x := fun x => by
    refine ((hasDerivAt_pow (k + 1) x).div_const _).congr_deriv ?_
    rw [Nat.factorial_succ]
    push_cast
    have : (k.factorial : ℝ) ≠ 0 := by positivity
    field_simp
  have key : ∀ φ φ' : ℝ → ℝ, (∀ x, HasDerivAt φ (φ' x) x) → φ 0 = 0 → (∀ x, 0 ≤ x → φ' x ≤ x ^ k / k.factorial) → φ x ≤ x ^ (k + 1) / (k + 1).factorial := by
    intro φ φ' h1 h2 h3
    have hm : MonotoneOn (fun x => x ^ (k + 1) / (k + 1).factorial - φ x) (Set.Ici 0) := by
      refine monotoneOn_of_deriv_nonneg (convex_Ici 0) (fun y _ => ((hg y).sub (h1 y)).continuousAt.continuousWithinAt)
        (fun y _ => ((hg y).sub (h1 y)).differentiableAt.differentiableWithinAt) fun y hy => ?_
      rw [interior_Ici] at hy
      rw [show deriv (fun x => x ^ (k + 1) / (k + 1).factorial - φ x) y = _ from ((hg y).sub (h1 y)).deriv]
      have := h3 y (le_of_lt hy)
      linarith
    have := hm (Set.mem_Ici.2 le_rfl) (Set.mem_Ici.2 hx) hx
    simp only [h2] at this
    simp at this
    exact this
  rw [abs_le]
  refine ⟨?_, key f f' hf h0 fun y hy => (abs_le.1 (h y hy)).2⟩
  have := key (fun x => -f x) (fun x => -f' x) (fun x => (hf x).neg) (by simp [h0]) fun y hy => by linarith [(abs_le.1 (h y hy)).1]
  linarith

theorem cos_taylor (m : ℕ) : (∀ u : ℝ, 0 ≤ u → |Real.cos u - ∑ k ∈ Finset.range m, (-1) ^ k * u ^ (2 * k) / (2 * k).factorial| ≤ u ^ (2 * m) / (2 * m).factorial) ∧
    (∀ u : ℝ, 0 ≤ u → |Real.sin u - ∑ k ∈ Finset.range m, (-1) ^ k * u ^ (2 * k + 1) / (2 * k + 1).factorial| ≤ u ^ (2 * m + 1) / (2 * m + 1).factorial) := by
  have hpow : ∀ (j : ℕ) (c u : ℝ), HasDerivAt (fun u : ℝ => c * u ^ (j + 1) / (j + 1).factorial) (c * u ^ j / j.factorial) u := fun j c u => by
    refine (((hasDerivAt_pow (j + 1) u).const_mul c).div_const _).congr_deriv ?_
    rw [Nat.factorial_succ]
    push_cast
    have : (j.factorial : ℝ) ≠ 0 := by positivity
    field_simp
  have hsin : ∀ m : ℕ, (∀ u : ℝ, 0 ≤ u → |Real.cos u - ∑ k ∈ Finset.range m, (-1) ^ k * u ^ (2 * k) / (2 * k).factorial| ≤ u ^ (2 * m) / (2 * m).factorial) →
      (∀ u : ℝ, 0 ≤ u → |Real.sin u - ∑ k ∈ Finset.range m, (-1) ^ k * u ^ (2 * k + 1) / (2 * k + 1).factorial| ≤ u ^ (2 * m + 1) / (2 * m + 1).factorial) := by
    intro m h u hu
    refine integrate_bound (f := fun u => Real.sin u - ∑ k ∈ Finset.range m, (-1) ^ k * u ^ (2 * k + 1) / (2 * k + 1).factorial) (fun x => ?_) ?_ h hu
    · exact (Real.hasDerivAt_sin x).sub (HasDerivAt.fun_sum fun k _ => hpow (2 * k) _ x)
    · simp
  induction m with
  | zero =>
    have h0 : ∀ u : ℝ, 0 ≤ u → |Real.cos u - ∑ k ∈ Finset.range 0, (-1) ^ k * u ^ (2 * k) / (2 * k).factorial| ≤ u ^ (2 * 0) / (2 * 0).factorial := fun u _ => by
      simpa using Real.abs_cos_le_one u
    exact ⟨h0, hsin 0 h0⟩
  | succ m ih =>
    have hc : ∀ u : ℝ, 0 ≤ u → |Real.cos u - ∑ k ∈ Finset.range (m + 1), (-1) ^ k * u ^ (2 * k) / (2 * k).factorial| ≤ u ^ (2 * (m + 1)) / (2 * (m + 1)).factorial := by
      intro u hu
      refine integrate_bound (k := 2 * m + 1) (f := fun u => Real.cos u - ∑ k ∈ Finset.range (m + 1), (-1) ^ k * u ^ (2 * k) / (2 * k).factorial)
        (f' := fun u => -(Real.sin u - ∑ k ∈ Finset.range m, (-1) ^ k * u ^ (2 * k + 1) / (2 * k + 1).factorial)) (fun x => ?_) ?_ ?_ hu
      · have e : (fun u : ℝ => Real.cos u - ∑ k ∈ Finset.range (m + 1), (-1) ^ k * u ^ (2 * k) / (2 * k).factorial) =
            fun u => Real.cos u - ((∑ k ∈ Finset.range m, (-1) ^ (k + 1) * u ^ (2 * k + 1 + 1) / (2 * k + 1 + 1).factorial) + 1) := by
          funext u
          rw [Finset.sum_range_succ']
          simp only [pow_zero, mul_zero, Nat.factorial_zero, Nat.cast_one, mul_one, div_one]
          rfl
        rw [e]
        refine ((Real.hasDerivAt_cos x).sub ((HasDerivAt.fun_sum fun k _ => hpow (2 * k + 1) _ x).add_const 1)).congr_deriv ?_
        rw [neg_sub, sub_eq_add_neg, add_comm, ← Finset.sum_neg_distrib, sub_eq_add_neg]
        congr 1
        refine Finset.sum_congr rfl fun k _ => ?_
        rw [pow_succ]; ring
      · rw [Finset.sum_range_succ']; simp
      · intro y hy
        rw [abs_neg]; exact ih.2 y hy
    exact ⟨hc, hsin (m + 1) hc⟩

section laguerre
variable {α : ℝ}

theorem lagW_meas (α : ℝ) : Measurable (lagW α) := by unfold lagW; fun_prop

theorem lagW_pos (α : ℝ) {x : ℝ} (hx : x ∈ Set.Ioi (0 : ℝ)) : 0 < lagW α x := mul_pos (Real.rpow_pos_of_pos hx _) (Real.exp_pos _)

theorem laguerre_exp_integrable (hα : -1 < α) {s : ℝ} (hs : s < 1) : IntegrableOn (fun x : ℝ => Real.exp (s * x) * lagW α x) (Set.Ioi 0) := by
  refine (integrableOn_rpow_mul_exp_neg_mul_rpow (s := α) (p := 1) (b := 1 - s) hα one_pos (by linarith)).congr_fun (fun x hx => ?_) measurableSet_Ioi
  simp only [lagW, Real.rpow_one]
  rw [mul_left_comm, ← Real.exp_add]
  congr 2; ring

theorem laguerre_exp_le (hα : -1 < α) {L : List (ℝ × ℝ)} {n : ℕ} (hn : 0 < n) {c : ℝ} (hc : 0 < c) (hL : IsGauss L n (Set.Ioi 0) (lagW α) c) {s : ℝ} (hs0 : 0 ≤ s) (hs : s < 1) :
    quad L (fun x => Real.exp (s * x)) ≤ c * ∫ x in Set.Ioi 0, Real.exp (s * x) * lagW α x := by
  have hlen : 0 < L.length := by rw [hL.length]; exact hn
  have h := gauss_below Set.ordConnected_Ioi measurableSet_Ioi hlen hc hL.exact' (gauss_nodes_nodup hc hL.exact' (posDef_laguerre hα))
    (fun q hq => gauss_nodes_gt hc hL.exact' (posDef_laguerre hα) (fun x hx => (show (0 : ℝ) < x from hx).le) q hq) (fun x hx => (lagW_pos α hx).le)
    (integrable_laguerre hα) (F := fun j x => s ^ j * Real.exp (s * x))
    (fun j _ x _ => by
      have h1 : HasDerivAt (fun x => s * x) s x := by simpa using (hasDerivAt_id x).const_mul s
      refine ((h1.exp).const_mul (s ^ j)).congr_deriv ?_
      change _ = s ^ (j + 1) * Real.exp (s * x)
      ring)
    (fun x _ => by positivity) (by simpa using laguerre_exp_integrable hα hs)
  simpa using h

theorem laguerre_cos_tendsto (hα : -1 < α) {c : ℝ} (hc : 0 < c) {L : ℕ → List (ℝ × ℝ)} (hL : ∀ m, IsGauss (L m) (m + 1) (Set.Ioi 0) (lagW α) c) (t : ℝ) :
    Tendsto (fun m => quad (L m) (fun x => Real.cos (t * Real.sqrt x))) atTop (𝓝 (c * ∫ x in Set.Ioi 0, Real.cos (t * Real.sqrt x) * lagW α x)) := by
  set J := ∫ x in Set.Ioi 0, Real.exp (1 / 2 * x) * lagW α x with hJ
  have hJi := laguerre_exp_integrable hα (s := 1 / 2) (by norm_num)
  let P : ℕ → ℝ[X] := fun N => ∑ k ∈ Finset.range N, C ((-1) ^ k * (t ^ 2) ^ k / (2 * k).factorial) * X ^ k
  have hPd : ∀ N, (P (N + 1)).natDegree ≤ N := fun N => by
    refine natDegree_sum_le_of_forall_le _ _ fun k hk => ?_
    exact (natDegree_C_mul_X_pow_le _ _).trans (by have := Finset.mem_range.1 hk; omega)
  have hP : ∀ N x, 0 ≤ x → |Real.cos (t * Real.sqrt x) - (P N).eval x| ≤ (2 * t ^ 2) ^ N / N.factorial * Real.exp (1 / 2 * x) := by
    intro N x hx
    have h1 := (cos_taylor N).1 (|t| * Real.sqrt x) (by positivity)
    have hsq : (|t| * Real.sqrt x) ^ 2 = t ^ 2 * x := by rw [mul_pow, sq_abs, Real.sq_sqrt hx]
    have e1 : Real.cos (|t| * Real.sqrt x) = Real.cos (t * Real.sqrt x) := by
      rw [← Real.cos_abs (t * Real.sqrt x), abs_mul, abs_of_nonneg (Real.sqrt_nonneg x)]
    have e2 : ∑ k ∈ Finset.range N, (-1) ^ k * (|t| * Real.sqrt x) ^ (2 * k) / (2 * k).factorial = (P N).eval x := by
      simp only [P, eval_finsetSum, eval_mul, eval_C, eval_pow, eval_X]
      refine Finset.sum_congr rfl fun k _ => ?_
      rw [pow_mul, hsq, mul_pow]; ring
    rw [e1, e2, pow_mul, hsq] at h1
    refine h1.trans ?_
    have hf : (N.factorial : ℝ) * N.factorial ≤ (2 * N).factorial := by
      have := Nat.factorial_mul_factorial_dvd_factorial_add N N
      rw [← two_mul] at this
      exact_mod_cast Nat.le_of_dvd (Nat.factorial_pos _) this
    have hN : (0 : ℝ) < N.factorial := by positivity
    have hexp : (1 / 2 * x) ^ N / N.factorial ≤ Real.exp (1 / 2 * x) := Real.pow_div_factorial_le_exp _ (by positivity) N
    calc (t ^ 2 * x) ^ N / (2 * N).factorial ≤ (t ^ 2 * x) ^ N / (N.factorial * N.factorial) :=
          div_le_div_of_nonneg_left (by positivity) (by positivity) hf
      _ = (2 * t ^ 2) ^ N / N.factorial * ((1 / 2 * x) ^ N / N.factorial) := by
          rw [div_mul_div_comm, ← mul_pow]; congr 2; ring
      _ ≤ _ := mul_le_mul_of_nonneg_left hexp (by positivity)
  have hci : IntegrableOn (fun x => Real.cos (t * Real.sqrt x) * lagW α x) (Set.Ioi 0) := by
    refine Integrable.mono' hJi ((by fun_prop : Measurable fun x => Real.cos (t * Real.sqrt x)).mul (lagW_meas α)).aestronglyMeasurable ?_
    rw [ae_restrict_iff' measurableSet_Ioi]
    refine Eventually.of_forall fun x hx => ?_
    rw [Real.norm_eq_abs, abs_mul, abs_of_pos (lagW_pos α hx)]
    refine mul_le_mul_of_nonneg_right ((Real.abs_cos_le_one _).trans (Real.one_le_exp ?_)) (lagW_pos α hx).le
    have : (0 : ℝ) < x := hx
    positivity
  have key : ∀ m, |quad (L m) (fun x => Real.cos (t * Real.sqrt x)) - c * ∫ x in Set.Ioi 0, Real.cos (t * Real.sqrt x) * lagW α x| ≤
      (2 * c * J) * ((2 * t ^ 2) ^ (m + 1) / (m + 1).factorial) := by
    intro m
    set N := m + 1 with hN
    have hlen : (L m).length = N := (hL m).length
    set a := (2 * t ^ 2) ^ N / N.factorial with ha
    have ha0 : 0 ≤ a := by positivity
    have hw : ∀ q ∈ L m, 0 ≤ q.2 := fun q hq => (gauss_weights_pos hc (hL m).exact' (posDef_laguerre hα) q hq).le
    have hx : ∀ q ∈ L m, 0 < q.1 := gauss_nodes_gt hc (hL m).exact' (posDef_laguerre hα) (fun x hx => (show (0 : ℝ) < x from hx).le)
    have hq : |quad (L m) (fun x => Real.cos (t * Real.sqrt x)) - quad (L m) (fun x => (P N).eval x)| ≤ a * (c * J) := by
      rw [quad_sub, abs_le]
      have hle := laguerre_exp_le hα (by omega) hc (hL m) (s := 1 / 2) (by norm_num) (by norm_num)
      have h1 : quad (L m) (fun x => Real.cos (t * Real.sqrt x) - (P N).eval x) ≤ a * (c * J) := by
        refine (quad_mono hw (g := fun x => a * Real.exp (1 / 2 * x)) fun q hq => (abs_le.1 (hP N q.1 (hx q hq).le)).2).trans ?_
        rw [quad_smul]
        exact mul_le_mul_of_nonneg_left hle ha0
      have h2 : quad (L m) (fun x => -a * Real.exp (1 / 2 * x)) ≤ quad (L m) (fun x => Real.cos (t * Real.sqrt x) - (P N).eval x) :=
        quad_mono hw fun q hq => by rw [neg_mul]; exact (abs_le.1 (hP N q.1 (hx q hq).le)).1
      rw [quad_smul] at h2
      refine ⟨?_, h1⟩
      have := mul_le_mul_of_nonneg_left hle ha0
      linarith
    have hI : |(∫ x in Set.Ioi 0, (P N).eval x * lagW α x) - ∫ x in Set.Ioi 0, Real.cos (t * Real.sqrt x) * lagW α x| ≤ a * J := by
      rw [← integral_sub (integrable_laguerre hα _) hci, hJ, ← integral_const_mul]
      refine (abs_integral_le_integral_abs).trans ?_
      refine setIntegral_mono_on ((integrable_laguerre hα _).sub hci).abs (hJi.const_mul _) measurableSet_Ioi fun x hx => ?_
      rw [← sub_mul, abs_mul, abs_of_pos (lagW_pos α hx), abs_sub_comm, ← mul_assoc]
      exact mul_le_mul_of_nonneg_right (hP N x (le_of_lt hx)) (lagW_pos α hx).le
    have he : quad (L m) (fun x => (P N).eval x) = c * ∫ x in Set.Ioi 0, (P N).eval x * lagW α x :=
      (hL m).exact' _ (by rw [hlen]; exact (hPd m).trans (by omega))
    rw [he] at hq
    have h3 := mul_le_mul_of_nonneg_left hI hc.le
    rw [← abs_of_pos hc, ← abs_mul, abs_of_pos hc, mul_sub] at h3
    have := (abs_sub_le _ _ _).trans (add_le_add hq h3)
    refine this.trans (le_of_eq ?_)
    ring
  rw [tendsto_iff_dist_tendsto_zero]
  refine squeeze_zero (fun m => dist_nonneg) key ?_
  have := ((FloorSemiring.tendsto_pow_div_factorial_atTop (2 * t ^ 2)).comp (tendsto_add_atTop_nat 1)).const_mul (2 * c * J)
  simpa [Function.comp] using this

/-- the symmetric rule in `y = ±√x` -/
noncomputable def symm (L : List (ℝ × ℝ)) : List (ℝ × ℝ) := L.map (fun q => (Real.sqrt q.1, q.2)) ++ L.map (fun q => (-Real.sqrt q.1, q.2))

theorem quad_symm (L : List (ℝ × ℝ)) (g : ℝ → ℝ) : quad (symm L) g = quad L (fun x => g (Real.sqrt x)) + quad L (fun x => g (-Real.sqrt x)) := by
  simp [quad, symm, Function.comp_def]

/-- the symmetric measure in `y = ±√x` -/
noncomputable def symmM (μ : Measure ℝ) : Measure ℝ := μ.map Real.sqrt + μ.map (fun x => -Real.sqrt x)

theorem symmM_integral {μ : Measure ℝ} {g : ℝ → ℝ} (hg : Continuous g) (h1 : Integrable (fun x => g (Real.sqrt x)) μ) (h2 : Integrable (fun x => g (-Real.sqrt x)) μ) :
    Integrable g (symmM μ) ∧ ∫ y, g y ∂(symmM μ) = (∫ x, g (Real.sqrt x) ∂μ) + ∫ x, g (-Real.sqrt x) ∂μ := by
  have m1 : AEMeasurable Real.sqrt μ := Real.continuous_sqrt.aemeasurable
  have m2 : AEMeasurable (fun x => -Real.sqrt x) μ := Real.continuous_sqrt.neg.aemeasurable
  have i1 : Integrable g (μ.map Real.sqrt) := (integrable_map_measure hg.aestronglyMeasurable m1).2 h1
  have i2 : Integrable g (μ.map (fun x => -Real.sqrt x)) := (integrable_map_measure hg.aestronglyMeasurable m2).2 h2
  refine ⟨i1.add_measure i2, ?_⟩
  unfold symmM
  rw [integral_add_measure i1 i2, integral_map m1 hg.aestronglyMeasurable, integral_map m2 hg.aestronglyMeasurable]

theorem laguerre_tendsto (hα : -1 < α) {c : ℝ} (hc : 0 < c) {L : ℕ → List (ℝ × ℝ)} (hL : ∀ m, IsGauss (L m) (m + 1) (Set.Ioi 0) (lagW α) c) {f : ℝ → ℝ}
    (hf : ContinuousOn f (Set.Ici 0)) {K s : ℝ} (hs : s < 1) (hK : ∀ x, 0 ≤ x → |f x| ≤ K * Real.exp (s * x)) :
    IntegrableOn (fun x => f x * lagW α x) (Set.Ioi 0) ∧ Tendsto (fun m => quad (L m) f) atTop (𝓝 (c * ∫ x in Set.Ioi 0, f x * lagW α x)) := by
  have hS : MeasurableSet (Set.Ioi (0 : ℝ)) := measurableSet_Ioi
  have hw0 : ∀ x ∈ Set.Ioi (0 : ℝ), 0 ≤ lagW α x := fun x hx => (lagW_pos α hx).le
  have hdi := dens_integral hS (lagW_meas α) hw0
  have hdb := dens_integrable hS (lagW_meas α) hw0
  have hwi : IntegrableOn (lagW α) (Set.Ioi 0) := by simpa using integrable_laguerre hα 1
  set ν := dens (Set.Ioi 0) (lagW α) with hν
  have hfin : IsFiniteMeasure ν := dens_finite hwi
  have : IsFiniteMeasure (symmM ν) := by
    unfold symmM; infer_instance
  set M := ∫ x in Set.Ioi 0, lagW α x with hM
  have hMp : 0 < M := by rw [hM, laguerre_mass hα]; exact Real.Gamma_pos_of_pos (by linarith)
  -- even integrands
  have heven : ∀ (g h : ℝ → ℝ), Continuous g → (∀ y, g y = h (y ^ 2)) → IntegrableOn (fun x => h x * lagW α x) (Set.Ioi 0) →
      Integrable g (symmM ν) ∧ ∫ y, g y ∂(symmM ν) = 2 * ∫ x in Set.Ioi 0, h x * lagW α x := by
    intro g h hg hgh hh
    have hi : Integrable (fun x => h (Real.sqrt x ^ 2)) ν := (hdb _).2 (hh.congr_fun (fun x hx => by
      simp only [Real.sq_sqrt (le_of_lt hx)]) hS)
    obtain ⟨a1, a2⟩ := symmM_integral hg (by simpa only [hgh] using hi) (by simpa only [hgh, neg_sq] using hi)
    refine ⟨a1, a2.trans ?_⟩
    simp only [hgh, neg_sq]
    rw [← two_mul, hdi]
    congr 1
    refine setIntegral_congr_fun hS fun x hx => ?_
    simp only [Real.sq_sqrt (le_of_lt hx)]
  let A : ℕ → List (ℝ × ℝ) := fun m => symm ((L m).map fun q => (q.1, c⁻¹ * q.2))
  have hscale : ∀ m (h : ℝ → ℝ), quad ((L m).map fun q => (q.1, c⁻¹ * q.2)) h = c⁻¹ * quad (L m) h := fun m h => by
    simp only [quad, List.map_map, Function.comp_def, ← List.sum_map_mul_left, mul_assoc]
  have hnode : ∀ m, ∀ q ∈ L m, 0 < q.1 := fun m => gauss_nodes_gt hc (hL m).exact' (posDef_laguerre hα) (fun x hx => (show (0 : ℝ) < x from hx).le)
  have hqeven : ∀ m (g h : ℝ → ℝ), (∀ y, g y = h (y ^ 2)) → quad (A m) g = 2 * (c⁻¹ * quad (L m) h) := fun m g h hgh => by
    simp only [A, quad_symm, hscale, hgh, neg_sq]
    rw [quad_congr (g := h) fun q hq => by rw [Real.sq_sqrt (hnode m q hq).le]]
    ring
  have hAw : ∀ m, ∀ q ∈ A m, 0 ≤ q.2 := fun m q hq => by
    have hp : ∀ q ∈ L m, 0 ≤ c⁻¹ * q.2 := fun q hq => mul_nonneg (inv_nonneg.2 hc.le) (gauss_weights_pos hc (hL m).exact' (posDef_laguerre hα) q hq).le
    simp only [A, symm, List.mem_append, List.mem_map] at hq
    rcases hq with ⟨_, ⟨q', hq', rfl⟩, rfl⟩ | ⟨_, ⟨q', hq', rfl⟩, rfl⟩
    · exact hp q' hq'
    · exact hp q' hq'
  have hmassL : ∀ m, quad (L m) (fun _ => 1) = c * M := fun m => by
    have := (hL m).exact' 1 (by simp)
    simpa [weightIntegral] using this
  have hmassS : (symmM ν).real Set.univ = 2 * M := by
    have := (heven (fun _ => 1) (fun _ => 1) continuous_const (fun _ => rfl) (by simpa using hwi)).2
    simpa using this
  obtain ⟨s', h1, h2⟩ := exists_between (max_lt hs one_pos)
  have hs' : s < s' := (le_max_left _ _).trans_lt h1
  have h0' : 0 ≤ s' := (le_max_right _ _).trans h1.le
  have hexp := laguerre_exp_integrable hα h2
  have hF : Continuous fun y => f (y ^ 2) := hf.comp_continuous (by fun_prop) fun y => Set.mem_Ici.2 (sq_nonneg y)
  have hint : IntegrableOn (fun x => f x * lagW α x) (Set.Ioi 0) := by
    refine Integrable.mono' ((laguerre_exp_integrable hα hs).const_mul K) ?_ ?_
    · exact ((hf.mono Set.Ioi_subset_Ici_self).aestronglyMeasurable hS).mul (lagW_meas α).aestronglyMeasurable
    · rw [ae_restrict_iff' hS]
      refine Eventually.of_forall fun x hx => ?_
      rw [Real.norm_eq_abs, abs_mul, abs_of_pos (lagW_pos α hx), ← mul_assoc]
      exact mul_le_mul_of_nonneg_right (hK x (le_of_lt hx)) (lagW_pos α hx).le
  have h := (quad_tendsto_growth (L := A) (μ := symmM ν) (by rw [hmassS]; linarith) hAw
    (fun m => by
      rw [hqeven m (fun _ => 1) (fun _ => 1) (fun _ => rfl), hmassL, hmassS]
      field_simp)
    (fun t => by
      have hgh : ∀ y, Real.cos (t * y) = Real.cos (t * Real.sqrt (y ^ 2)) := fun y => by
        rw [Real.sqrt_sq_eq_abs]
        rcases abs_choice y with h | h <;> rw [h]
        rw [mul_neg, Real.cos_neg]
      have hci : IntegrableOn (fun x => Real.cos (t * Real.sqrt x) * lagW α x) (Set.Ioi 0) := by
        refine Integrable.mono' hwi ((by fun_prop : Measurable fun x => Real.cos (t * Real.sqrt x)).mul (lagW_meas α)).aestronglyMeasurable ?_
        rw [ae_restrict_iff' hS]
        refine Eventually.of_forall fun x hx => ?_
        rw [Real.norm_eq_abs, abs_mul, abs_of_pos (lagW_pos α hx)]
        exact mul_le_of_le_one_left (lagW_pos α hx).le (Real.abs_cos_le_one _)
      rw [(heven _ (fun x => Real.cos (t * Real.sqrt x)) (by fun_prop) hgh hci).2]
      have := ((laguerre_cos_tendsto hα hc hL t).const_mul c⁻¹).const_mul 2
      rw [← mul_assoc c⁻¹, inv_mul_cancel₀ hc.ne', one_mul] at this
      exact this.congr fun m => (hqeven m _ (fun x => Real.cos (t * Real.sqrt x)) hgh).symm)
    (fun t => by
      have hsi : ∀ φ : ℝ → ℝ, Measurable φ → Integrable (fun x => Real.sin (φ x)) ν := fun φ hφ =>
        Integrable.of_bound (C := 1) (by fun_prop) (Eventually.of_forall fun x => Real.abs_sin_le_one _)
      have e := (symmM_integral (μ := ν) (g := fun y => Real.sin (t * y)) (by fun_prop) (hsi _ (by fun_prop)) (hsi _ (by fun_prop))).2
      simp only [mul_neg, Real.sin_neg, integral_neg, add_neg_cancel] at e
      rw [e]
      refine tendsto_const_nhds.congr fun m => ?_
      have e2 : ∀ l : List (ℝ × ℝ), quad l (fun x => -Real.sin (t * Real.sqrt x)) = -quad l (fun x => Real.sin (t * Real.sqrt x)) := fun l => by
        have := quad_smul l (fun x => Real.sin (t * Real.sqrt x)) (-1)
        simpa using this
      simp only [A, quad_symm, mul_neg, Real.sin_neg, e2, add_neg_cancel])
    hs' (B := 2 * ∫ x in Set.Ioi 0, Real.exp (s' * x) * lagW α x)
    (fun m => by
      rw [hqeven m _ (fun x => Real.exp (s' * x)) fun _ => rfl]
      refine mul_le_mul_of_nonneg_left ?_ zero_le_two
      rw [inv_mul_le_iff₀ hc]
      exact laguerre_exp_le hα (Nat.succ_pos m) hc (hL m) h0' h2)
    (heven _ (fun x => Real.exp (s' * x)) (by fun_prop) (fun _ => rfl) hexp).1 hF (C := K) fun y => hK _ (sq_nonneg y)).2
  refine ⟨hint, ?_⟩
  rw [(heven _ f hF (fun _ => rfl) hint).2] at h
  have h' := h.const_mul (c / 2)
  rw [show c / 2 * (2 * ∫ x in Set.Ioi 0, f x * lagW α x) = c * ∫ x in Set.Ioi 0, f x * lagW α x by ring] at h'
  refine h'.congr fun m => ?_
  rw [hqeven m _ f fun _ => rfl]
  field_simp

end laguerre

end GaussQuad
