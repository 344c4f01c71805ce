import Verif.Proofs.GaussConvergence
import Verif.Proofs.GolubRules
import Mathlib.MeasureTheory.Integral.Bochner.Set
import Mathlib.MeasureTheory.Measure.Lebesgue.Basic

/-!
# The weights of a Gauss rule tend to 0 uniformly (Christoffel bound)
-/

namespace GaussQuad
open Polynomial Spec Filter MeasureTheory

/-- a weight times the square at its node is at most the integral of the square -/
theorem christoffel_le {L : List (ℝ × ℝ)} {S : Set ℝ} {w : ℝ → ℝ} {c : ℝ} (hex : ExactUpTo L (2 * L.length - 1) S w c)
    (hw : ∀ q ∈ L, 0 ≤ q.2) {q : ℝ[X]} (hq : 2 * q.natDegree ≤ 2 * L.length - 1) :
    ∀ p ∈ L, p.2 * (q.eval p.1) ^ 2 ≤ c * weightIntegral S w (q ^ 2) := by
  intro p hp
  rw [← hex (q ^ 2) (natDegree_pow_le.trans hq)]
  have h : ∀ x ∈ L.map (fun p => p.2 * (q ^ 2).eval p.1), 0 ≤ x := by
    intro x hx
    obtain ⟨p', hp', rfl⟩ := List.mem_map.1 hx
    rw [Polynomial.eval_pow]
    exact mul_nonneg (hw p' hp') (sq_nonneg _)
  have := List.single_le_sum h (p.2 * (q ^ 2).eval p.1) (List.mem_map_of_mem hp)
  rw [Polynomial.eval_pow] at this
  exact this

/-- the mass of short intervals is uniformly small -/
theorem mass_small {w : ℝ → ℝ} (hwi : IntegrableOn w (Set.Ioo (-1) 1)) (hwpos : ∀ x ∈ Set.Ioo (-1 : ℝ) 1, 0 ≤ w x) {ε : ℝ}
    (hε : 0 < ε) : ∃ δ > 0, ∀ x₀ : ℝ, ∫ x in Set.Ioo (-1 : ℝ) 1 ∩ Set.Ioo (x₀ - δ) (x₀ + δ), w x ≤ ε := by
  obtain ⟨δ, hδ, h⟩ := exists_pos_setLIntegral_lt_of_measure_lt (μ := volume.restrict (Set.Ioo (-1 : ℝ) 1))
    (f := fun x => ENNReal.ofReal (w x)) (by
      have h := (hasFiniteIntegral_iff_ofReal (f := w) (by
        rw [Filter.EventuallyLE, ae_restrict_iff' measurableSet_Ioo]
        exact Eventually.of_forall hwpos)).1 hwi.2
      exact h.ne) (ε := ENNReal.ofReal ε) (by simpa using hε)
  obtain ⟨η, hη0, hη⟩ : ∃ η : ℝ, 0 < η ∧ ENNReal.ofReal (2 * η) < δ := by
    rcases eq_or_ne δ ⊤ with rfl | hne
    · exact ⟨1, one_pos, ENNReal.ofReal_lt_top⟩
    · refine ⟨δ.toReal / 4, by have := ENNReal.toReal_pos hδ.ne' hne; linarith, ?_⟩
      rw [ENNReal.ofReal_lt_iff_lt_toReal (by positivity) hne]
      have := ENNReal.toReal_pos hδ.ne' hne
      linarith
  refine ⟨η, hη0, fun x₀ => ?_⟩
  have h1 := h (Set.Ioo (x₀ - η) (x₀ + η)) (by
    refine lt_of_le_of_lt (Measure.restrict_apply_le _ _) ?_
    rw [Real.volume_Ioo]
    convert hη using 2; ring)
  rw [Measure.restrict_restrict measurableSet_Ioo, Set.inter_comm] at h1
  have hm : MeasurableSet (Set.Ioo (-1 : ℝ) 1 ∩ Set.Ioo (x₀ - η) (x₀ + η)) := measurableSet_Ioo.inter measurableSet_Ioo
  rw [← ENNReal.ofReal_le_ofReal_iff hε.le, ofReal_integral_eq_lintegral_ofReal (hwi.mono_set Set.inter_subset_left)]
  · exact h1.le
  · rw [Filter.EventuallyLE, ae_restrict_iff' hm]
    exact Eventually.of_forall fun x hx => hwpos x hx.1

/-- the weights of the Gauss rules of a weight on `(-1,1)` tend to 0, uniformly over the rule -/
theorem gauss_weights_small {w : ℝ → ℝ} {c : ℝ} (hc : 0 < c) (hwi : IntegrableOn w (Set.Ioo (-1) 1))
    (hwpos : ∀ x ∈ Set.Ioo (-1 : ℝ) 1, 0 ≤ w x) {ε : ℝ} (hε : 0 < ε) :
    ∃ N : ℕ, ∀ L : List (ℝ × ℝ), N ≤ L.length → ExactUpTo L (2 * L.length - 1) (Set.Ioo (-1) 1) w c →
      (∀ q ∈ L, 0 ≤ q.2) → (∀ q ∈ L, q.1 ∈ Set.Icc (-1 : ℝ) 1) → ∀ p ∈ L, p.2 ≤ ε := by
  obtain ⟨δ, hδ, hmass⟩ := mass_small hwi hwpos (show 0 < ε / (2 * c) by positivity)
  set M := ∫ x in Set.Ioo (-1 : ℝ) 1, w x with hM
  have hM0 : 0 ≤ M := setIntegral_nonneg measurableSet_Ioo hwpos
  set η := min δ 1 with hη
  have hη0 : 0 < η := lt_min hδ one_pos
  have hη1 : η ≤ 1 := min_le_right _ _
  -- (1 - η²/4)^(2m) * M ≤ ε / (2c)
  have hlim : Tendsto (fun m : ℕ => (1 - η ^ 2 / 4) ^ m * M) atTop (nhds 0) := by
    have := (tendsto_pow_atTop_nhds_zero_of_lt_one (r := 1 - η ^ 2 / 4) (by nlinarith) (by nlinarith)).mul_const M
    simpa using this
  obtain ⟨m, hm⟩ := (hlim.eventually (gt_mem_nhds (show 0 < ε / (2 * c) by positivity))).exists
  refine ⟨2 * m + 1, fun L hL hex hw hnode p hp => ?_⟩
  set x₀ := p.1 with hx₀
  obtain ⟨hx1, hx2⟩ := hnode p hp
  set q : ℝ[X] := (1 - C (1 / 4) * (X - C x₀) ^ 2) ^ m with hq
  have hqe : ∀ x, q.eval x = (1 - 1 / 4 * (x - x₀) ^ 2) ^ m := by
    intro x; rw [hq, eval_pow, eval_sub, eval_mul, eval_pow, eval_sub, eval_C, eval_X, eval_C, eval_one]
  have hqd : q.natDegree ≤ 2 * m := by
    rw [hq]
    refine natDegree_pow_le.trans ?_
    have : (1 - C (1 / 4) * (X - C x₀) ^ 2 : ℝ[X]).natDegree ≤ 2 := by
      refine (natDegree_sub_le _ _).trans (max_le (by rw [natDegree_one]; exact Nat.zero_le 2) ?_)
      refine natDegree_mul_le.trans ?_
      rw [natDegree_C, zero_add]
      exact natDegree_pow_le.trans (by rw [natDegree_X_sub_C])
    nlinarith
  have h := christoffel_le hex hw (q := q) (by omega) p hp
  rw [hqe, ← hx₀, sub_self] at h
  norm_num at h
  refine h.trans ?_
  -- bound of the integral
  have hbound : weightIntegral (Set.Ioo (-1) 1) w (q ^ 2) ≤ ε / c := by
    rw [weightIntegral]
    have hsplit : ∀ x ∈ Set.Ioo (-1 : ℝ) 1, (q ^ 2).eval x * w x ≤
        (Set.Ioo (x₀ - δ) (x₀ + δ)).indicator w x + (1 - η ^ 2 / 4) ^ m * w x := by
      intro x hx
      have hwx := hwpos x hx
      have hb0 : 0 ≤ 1 - 1 / 4 * (x - x₀) ^ 2 := by
        have : (x - x₀) ^ 2 ≤ 4 := by
          rw [show (4 : ℝ) = 2 ^ 2 by norm_num]
          exact sq_le_sq' (by linarith [hx.1]) (by linarith [hx.2])
        linarith
      have hb1 : 1 - 1 / 4 * (x - x₀) ^ 2 ≤ 1 := by nlinarith [sq_nonneg (x - x₀)]
      rw [eval_pow, hqe, ← pow_mul, mul_comm m 2, pow_mul]
      have hs0 : 0 ≤ (1 - 1 / 4 * (x - x₀) ^ 2) ^ 2 := sq_nonneg _
      have hs1 : (1 - 1 / 4 * (x - x₀) ^ 2) ^ 2 ≤ 1 - 1 / 4 * (x - x₀) ^ 2 := by nlinarith
      by_cases hin : x ∈ Set.Ioo (x₀ - δ) (x₀ + δ)
      · rw [Set.indicator_of_mem hin]
        have h1 : ((1 - 1 / 4 * (x - x₀) ^ 2) ^ 2) ^ m ≤ 1 := pow_le_one₀ hs0 (hs1.trans hb1)
        have h2 : 0 ≤ (1 - η ^ 2 / 4) ^ m * w x := mul_nonneg (pow_nonneg (by nlinarith) _) hwx
        nlinarith
      · rw [Set.indicator_of_notMem hin, zero_add]
        apply mul_le_mul_of_nonneg_right _ hwx
        apply pow_le_pow_left₀ hs0
        refine hs1.trans ?_
        have : η ^ 2 ≤ (x - x₀) ^ 2 := by
          have h3 : δ ≤ |x - x₀| := by
            by_contra hcon
            rw [not_le, abs_lt] at hcon
            exact hin ⟨by linarith [hcon.1], by linarith [hcon.2]⟩
          rw [← sq_abs (x - x₀)]
          exact pow_le_pow_left₀ hη0.le ((min_le_left _ _).trans h3) 2
        linarith
    have hi1 : IntegrableOn ((Set.Ioo (x₀ - δ) (x₀ + δ)).indicator w) (Set.Ioo (-1) 1) := hwi.indicator measurableSet_Ioo
    have hi2 : IntegrableOn (fun x => (1 - η ^ 2 / 4) ^ m * w x) (Set.Ioo (-1) 1) := hwi.const_mul _
    have hle : ∫ x in Set.Ioo (-1 : ℝ) 1, (q ^ 2).eval x * w x ≤
        ∫ x in Set.Ioo (-1 : ℝ) 1, ((Set.Ioo (x₀ - δ) (x₀ + δ)).indicator w x + (1 - η ^ 2 / 4) ^ m * w x) := by
      apply integral_mono_of_nonneg
      · rw [Filter.EventuallyLE, ae_restrict_iff' measurableSet_Ioo]
        exact Eventually.of_forall fun x hx => mul_nonneg (by rw [eval_pow]; exact sq_nonneg _) (hwpos x hx)
      · exact hi1.add hi2
      · rw [Filter.EventuallyLE, ae_restrict_iff' measurableSet_Ioo]
        exact Eventually.of_forall hsplit
    refine hle.trans ?_
    rw [integral_add hi1 hi2, setIntegral_indicator measurableSet_Ioo, integral_const_mul]
    have := hmass x₀
    have e : ε / c = ε / (2 * c) + ε / (2 * c) := by field_simp; ring
    rw [e]
    exact add_le_add this hm.le
  calc c * weightIntegral (Set.Ioo (-1) 1) w (q ^ 2) ≤ c * (ε / c) := mul_le_mul_of_nonneg_left hbound hc.le
    _ = ε := mul_div_cancel₀ _ hc.ne'

end GaussQuad
