import Verif.Proofs.Chebyshev
import Verif.Proofs.GaussUnique
import Mathlib.Analysis.SpecialFunctions.Trigonometric.Bounds

/-!
An upper bound for the weights of Gauss rules on (-1, 1): if the weight function is at most `C / √(1 - x²)` then every weight of the rule with `n` nodes is at most
`4 π C / (2 n - 1)`.  The kernel polynomial of the Chebyshev polynomials is the test function.
-/

namespace GaussQuad
open Polynomial Spec MeasureTheory

namespace Christoffel
open Polynomial.Chebyshev

noncomputable def coef (y : ℝ) (j : ℕ) : ℝ := (if j = 0 then 1 else 2) * (T ℝ j).eval y

/-- the kernel polynomial of degree `n - 1` -/
noncomputable def kern (n : ℕ) (y : ℝ) : ℝ[X] := ∑ j ∈ Finset.range n, C (coef y j) * T ℝ j

theorem kern_natDegree {n : ℕ} (hn : 0 < n) (y : ℝ) : (kern n y).natDegree ≤ n - 1 := by
  refine natDegree_sum_le_of_forall_le _ _ fun j hj => ?_
  refine (natDegree_C_mul_le _ _).trans ?_
  rw [natDegree_T, Int.natAbs_natCast]
  have := Finset.mem_range.1 hj
  omega

theorem kern_norm (n : ℕ) (y : ℝ) : ∫ x, (kern n y ^ 2).eval x ∂measureT = Real.pi * (kern n y).eval y := by
  have e : ∀ x, (kern n y ^ 2).eval x = ∑ i ∈ Finset.range n, ∑ j ∈ Finset.range n, coef y i * coef y j * ((T ℝ i).eval x * (T ℝ j).eval x) := fun x => by
    rw [kern, eval_pow, eval_finset_sum, sq, Finset.sum_mul_sum]
    refine Finset.sum_congr rfl fun i _ => Finset.sum_congr rfl fun j _ => ?_
    simp only [eval_mul, eval_C]; ring
  have hi : ∀ i j : ℕ, Integrable (fun x => coef y i * coef y j * ((T ℝ i).eval x * (T ℝ j).eval x)) measureT := fun i j =>
    integrable_measureT (by fun_prop)
  simp only [e]
  rw [integral_finset_sum _ fun i _ => integrable_finset_sum _ fun j _ => hi i j, kern, eval_finset_sum, Finset.mul_sum]
  refine Finset.sum_congr rfl fun i hin => ?_
  rw [integral_finset_sum _ fun j _ => hi i j, Finset.sum_eq_single i]
  · rw [integral_const_mul]
    simp only [eval_mul, eval_C, coef]
    rcases Nat.eq_zero_or_pos i with rfl | h
    · have := integral_eval_T_real_mul_self_measureT_zero
      simp only [Nat.cast_zero, this]
      simp
    · rw [integral_T_real_mul_self_measureT_of_ne_zero h.ne', if_neg h.ne']
      ring
  · intro j _ hji
    rw [integral_const_mul, integral_eval_T_real_mul_eval_T_real_measureT_of_ne hji.symm, mul_zero]
  · exact fun h => absurd hin h

theorem kern_cos {n : ℕ} (hn : 0 < n) (θ : ℝ) : 2 * Real.sin θ * (kern n (Real.cos θ)).eval (Real.cos θ) = (2 * n - 1) * Real.sin θ + Real.sin ((2 * n - 1) * θ) := by
  have e : ∀ m, (kern m (Real.cos θ)).eval (Real.cos θ) = ∑ j ∈ Finset.range m, (if j = 0 then 1 else 2) * Real.cos (j * θ) ^ 2 := fun m => by
    rw [kern, eval_finset_sum]
    refine Finset.sum_congr rfl fun j _ => ?_
    have := T_real_cos θ (j : ℤ)
    simp only [Int.cast_natCast] at this
    simp only [eval_mul, eval_C, coef, this]; ring
  rw [e]
  induction n, hn using Nat.le_induction with
  | base => simp; ring_nf
  | succ m hm ih =>
    have hm0 : m ≠ 0 := by omega
    rw [Finset.sum_range_succ, mul_add, ih, if_neg hm0]
    push_cast
    have h1 : (2 * ((m : ℝ) + 1) - 1) * θ = 2 * (m * θ) + θ := by ring
    have h2 : (2 * (m : ℝ) - 1) * θ = 2 * (m * θ) - θ := by ring
    rw [h1, h2, Real.sin_add, Real.sin_sub, Real.cos_two_mul]
    ring

/-- the Dirichlet kernel is not very negative -/
theorem dirichlet_lower {m θ : ℝ} (hm : 1 ≤ m) (h0 : 0 < θ) (h1 : θ ≤ Real.pi / 2) : -(m / 2 * Real.sin θ) ≤ Real.sin (m * θ) := by
  have hp := Real.pi_pos
  have hs : 0 ≤ Real.sin θ := Real.sin_nonneg_of_nonneg_of_le_pi h0.le (by linarith)
  rcases le_or_gt (m * θ) Real.pi with h | h
  · have := Real.sin_nonneg_of_nonneg_of_le_pi (by positivity) h
    nlinarith
  · have h2 := Real.mul_le_sin h0.le h1
    have h3 : 1 ≤ m / 2 * Real.sin θ := by
      calc (1 : ℝ) ≤ m / 2 * (2 / Real.pi * θ) := by
            rw [show m / 2 * (2 / Real.pi * θ) = m * θ / Real.pi by field_simp, le_div_iff₀ hp]; linarith
        _ ≤ _ := mul_le_mul_of_nonneg_left h2 (by linarith)
    linarith [Real.neg_one_le_sin (m * θ)]

theorem kern_lower {n : ℕ} (hn : 0 < n) {y : ℝ} (hy : y ∈ Set.Ioo (-1 : ℝ) 1) : (2 * n - 1) / 4 ≤ (kern n y).eval y := by
  have hn1 : (1 : ℝ) ≤ n := by exact_mod_cast hn
  set θ := Real.arccos y with hθ
  have hc : Real.cos θ = y := Real.cos_arccos hy.1.le hy.2.le
  have h0 : 0 < θ := Real.arccos_pos.2 hy.2
  have hpi : θ < Real.pi := by
    rcases (Real.arccos_le_pi y).lt_or_eq with h | h
    · exact h
    · exact absurd (Real.arccos_eq_pi.1 h) (by linarith [hy.1])
  have hs : 0 < Real.sin θ := Real.sin_pos_of_pos_of_lt_pi h0 hpi
  have key : -((2 * n - 1) / 2 * Real.sin θ) ≤ Real.sin ((2 * n - 1) * θ) := by
    rcases le_total θ (Real.pi / 2) with h | h
    · exact dirichlet_lower (by linarith) h0 h
    · have := dirichlet_lower (m := 2 * n - 1) (θ := Real.pi - θ) (by linarith) (by linarith) (by linarith)
      rw [Real.sin_pi_sub] at this
      have e : Real.sin ((2 * n - 1) * (Real.pi - θ)) = Real.sin ((2 * n - 1) * θ) := by
        rw [show (2 * (n : ℝ) - 1) * (Real.pi - θ) = Real.pi - (2 * n - 1) * θ + ((n : ℤ) - 1 : ℤ) * (2 * Real.pi) by push_cast; ring, Real.sin_add_int_mul_two_pi, Real.sin_pi_sub]
      rwa [e] at this
  have hk := kern_cos hn θ
  rw [hc] at hk
  by_contra hlt
  push Not at hlt
  have := mul_lt_mul_of_pos_left hlt (show 0 < 2 * Real.sin θ by linarith)
  linarith

end Christoffel

variable {L : List (ℝ × ℝ)} {w : ℝ → ℝ} {c : ℝ}

/-- each weight of a Gauss rule for a weight function below `C / √(1 - x²)` is at most `4 π c C / (2 n - 1)` -/
theorem gauss_weight_le (hL : L ≠ []) (hc : 0 < c) (hpos : PosDef (Set.Ioo (-1) 1) w) (hex : ExactUpTo L (2 * L.length - 1) (Set.Ioo (-1) 1) w c)
    (hint : ∀ p : ℝ[X], IntegrableOn (fun x => p.eval x * w x) (Set.Ioo (-1) 1)) {A : ℝ} (hA : ∀ x ∈ Set.Ioo (-1 : ℝ) 1, w x ≤ A * chebW1 x)
    {q : ℝ × ℝ} (hq : q ∈ L) (hq1 : q.1 ∈ Set.Ioo (-1 : ℝ) 1) : q.2 ≤ c * A * (4 * Real.pi / (2 * L.length - 1)) := by
  have hn : 0 < L.length := List.length_pos_iff.2 hL
  have hn1 : (1 : ℝ) ≤ L.length := by exact_mod_cast hn
  set K := Christoffel.kern L.length q.1 with hK
  have hKl := Christoffel.kern_lower hn hq1
  have hK0 : 0 < K.eval q.1 := by rw [hK]; linarith
  have hw := gauss_weights_pos hc hex hpos
  have h1 : q.2 * K.eval q.1 ^ 2 ≤ quad L fun x => (K ^ 2).eval x := by
    unfold quad
    have := List.single_le_sum (l := L.map fun p => p.2 * (K ^ 2).eval p.1) (by
      intro x hx
      obtain ⟨p, hp, rfl⟩ := List.mem_map.1 hx
      rw [eval_pow]
      exact mul_nonneg (hw p hp).le (sq_nonneg _)) _ (List.mem_map.2 ⟨q, hq, rfl⟩)
    simpa [eval_pow] using this
  rw [hex (K ^ 2) (by
    refine natDegree_pow_le.trans ?_
    have := Christoffel.kern_natDegree hn q.1
    rw [← hK] at this
    omega)] at h1
  have h2 : weightIntegral (Set.Ioo (-1) 1) w (K ^ 2) ≤ A * weightIntegral (Set.Ioo (-1) 1) chebW1 (K ^ 2) := by
    unfold weightIntegral
    rw [← integral_const_mul]
    refine setIntegral_mono_on (hint _) ((integrableOn_cheb1 _).const_mul A) measurableSet_Ioo fun x hx => ?_
    have := mul_le_mul_of_nonneg_left (hA x hx) (by rw [eval_pow]; exact sq_nonneg _ : 0 ≤ (K ^ 2).eval x)
    linarith
  rw [weightIntegral_cheb1, Christoffel.kern_norm, ← hK] at h2
  have h3 : q.2 * K.eval q.1 ^ 2 ≤ c * (A * (Real.pi * K.eval q.1)) := h1.trans (mul_le_mul_of_nonneg_left h2 hc.le)
  have h4 : q.2 * K.eval q.1 ≤ c * A * Real.pi := by
    have : (q.2 * K.eval q.1) * K.eval q.1 ≤ (c * A * Real.pi) * K.eval q.1 := by nlinarith
    exact le_of_mul_le_mul_right this hK0
  have h5 : q.2 * ((2 * L.length - 1) / 4) ≤ c * A * Real.pi := (mul_le_mul_of_nonneg_left hKl (hw q hq).le).trans h4
  rw [← mul_div_assoc, le_div_iff₀ (by linarith)]
  linarith

end GaussQuad
