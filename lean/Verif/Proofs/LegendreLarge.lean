import Verif.Proofs.LegendrePairs
import Verif.Proofs.LegendreAccurate

/-!
# The whole asymptotic Gauss-Legendre rule against the true one
-/

namespace GaussQuad
open LegendrePoly LegBes Bogaert FloatOps

theorem accurate_large {n : ℕ} (hn : 100 < n) {θ w : ℕ → ℝ} (h : LegendreAngles n θ w) :
    ∃ ξ : ℕ → ℝ, (∀ k, 1 ≤ k → k ≤ n → P n (ξ k) = 0 ∧ |Real.cos (θ k) - ξ k| ≤ 75 / 10 ^ 18 ∧
      |w k - legOmega n (ξ k)| ≤ 1 / 10 ^ 15 * legOmega n (ξ k)) ∧ ∀ k l, 1 ≤ k → k < l → l ≤ n → ξ l < ξ k := by
  have hN := NN_ge (n := n) hn
  have hN0 : 0 < NN n := by linarith
  have hp := Real.pi_gt_three
  have key : ∀ k, 1 ≤ k → k ≤ n → ∃ χ : ℝ, 0 < χ ∧ χ < Real.pi ∧ P n (Real.cos χ) = 0 ∧ |θ k - χ| ≤ 75 / 10 ^ 18 ∧
      |w k - legOmega n (Real.cos χ)| ≤ 1 / 10 ^ 15 * legOmega n (Real.cos χ) ∧ |χ * NN n - Real.pi * (k - 1 / 4)| ≤ 0.07 := by
    have low : ∀ k, 1 ≤ k → 2 * k ≤ n + 1 → ∃ χ : ℝ, 0 < χ ∧ χ < Real.pi ∧ P n (Real.cos χ) = 0 ∧ |θ k - χ| ≤ 75 / 10 ^ 18 ∧
      |w k - legOmega n (Real.cos χ)| ≤ 1 / 10 ^ 15 * legOmega n (Real.cos χ) ∧ |χ * NN n - Real.pi * (k - 1 / 4)| ≤ 0.07 := by
      intro k hk h2k
      obtain ⟨nu, hnu⟩ := besselJ0Zero_some (F := ℝ) hk
      obtain ⟨b, hb⟩ := besselJ1Squared_some (F := ℝ) hk
      have h1 := h.new k hk (by omega)
      unfold ThetaWeightPair.new at h1
      have e1 : csub (2 * k) 1 = some (2 * k - 1) := by simp [csub]; omega
      rw [if_neg (by omega), e1, Option.bind_eq_bind, Option.bind_some, if_neg (by omega)] at h1
      simp only [computePair, hnu, hb, Option.bind_eq_bind, Option.bind_some, Option.pure_def, Option.some.injEq] at h1
      have := pair_accuracy hn hk h2k hnu hb
      rw [h1] at this
      exact this
    intro k hk hkn
    by_cases hc : 2 * k ≤ n + 1
    · exact low k hk hc
    · obtain ⟨χ, a1, a2, a3, a4, a5, a6⟩ := low (n + 1 - k) (by omega) (by omega)
      obtain ⟨f1, f2⟩ := h.mirror (n + 1 - k) (by omega) (by omega)
      rw [show n + 1 - (n + 1 - k) = k by omega] at f1 f2
      refine ⟨Real.pi - χ, by linarith, by linarith, ?_, ?_, ?_, ?_⟩
      · rw [Real.cos_pi_sub]; exact P_neg_root a3
      · rw [f1, show Real.pi - θ (n + 1 - k) - (Real.pi - χ) = -(θ (n + 1 - k) - χ) by ring, abs_neg]; exact a4
      · rw [f2, Real.cos_pi_sub, legOmega_neg]; exact a5
      · rw [Nat.cast_sub (by omega)] at a6
        rw [show (Real.pi - χ) * NN n - Real.pi * (k - 1 / 4) = -(χ * NN n - Real.pi * (((n + 1 : ℕ) : ℝ) - k - 1 / 4)) by
          rw [NN]; push_cast; ring, abs_neg]
        exact a6
  choose! χ c1 c2 c3 c4 c5 c6 using key
  refine ⟨fun k => Real.cos (χ k), fun k hk hkn => ⟨c3 k hk hkn, ?_, c5 k hk hkn⟩, fun k l hk hkl hl => ?_⟩
  · exact (Real.abs_cos_sub_cos_le _ _).trans (c4 k hk hkn)
  · apply Real.cos_lt_cos_of_nonneg_of_le_pi (c1 k hk (by omega)).le (c2 l (by omega) hl).le
    have h1 := abs_le.1 (c6 k hk (by omega))
    have h2 := abs_le.1 (c6 l (by omega) hl)
    have h3 : (k : ℝ) + 1 ≤ l := by exact_mod_cast hkl
    refine lt_of_mul_lt_mul_right ?_ hN0.le
    nlinarith [h1.2, h2.1]

end GaussQuad
