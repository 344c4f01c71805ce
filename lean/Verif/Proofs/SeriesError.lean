import Verif.Proofs.Aliasing
import Mathlib.Analysis.Calculus.MeanValue

/-!
# Errors on Chebyshev series, term by term (for C116)
-/

namespace GaussQuad
open Polynomial Spec MeasureTheory

theorem abs_U_le {x : ℝ} (h1 : -1 ≤ x) (h2 : x ≤ 1) : ∀ k : ℕ, |(Chebyshev.U ℝ k).eval x| ≤ k + 1
  | 0 => by simp
  | k + 1 => by
    have e := Chebyshev.U_eq_X_mul_U_add_T ℝ k
    have ih := abs_U_le h1 h2 k
    have hT := abs_T_le h1 h2 (k + 1)
    push_cast at hT ⊢
    rw [e, eval_add, eval_mul, eval_X]
    refine (abs_add_le _ _).trans ?_
    rw [abs_mul]
    have hx : |x| ≤ 1 := abs_le.2 ⟨h1, h2⟩
    nlinarith [abs_nonneg x, abs_nonneg ((Chebyshev.U ℝ (k : ℤ)).eval x)]

theorem abs_T_sub_le (m : ℕ) {x y : ℝ} (hx : x ∈ Set.Icc (-1 : ℝ) 1) (hy : y ∈ Set.Icc (-1 : ℝ) 1) :
    |(Chebyshev.T ℝ m).eval x - (Chebyshev.T ℝ m).eval y| ≤ (m : ℝ) ^ 2 * |x - y| := by
  rcases m with - | k
  · simp
  have h := Convex.norm_image_sub_le_of_norm_hasDerivWithin_le (f := fun x => (Chebyshev.T ℝ (k + 1 : ℕ)).eval x) (f' := fun x => (derivative (Chebyshev.T ℝ (k + 1 : ℕ))).eval x)
    (s := Set.Icc (-1 : ℝ) 1) (C := ((k + 1 : ℕ) : ℝ) ^ 2) (fun z _ => ((Chebyshev.T ℝ (k + 1 : ℕ)).hasDerivAt z).hasDerivWithinAt) (fun z hz => by
      rw [Chebyshev.T_derivative_eq_U, Real.norm_eq_abs, show ((k + 1 : ℕ) : ℤ) - 1 = (k : ℤ) by push_cast; ring]
      have hU := abs_U_le hz.1 hz.2 k
      simp only [eval_mul, Int.cast_natCast, eval_natCast, abs_mul, Nat.abs_cast]
      push_cast
      nlinarith [abs_nonneg ((Chebyshev.U ℝ (k : ℤ)).eval z)]) (convex_Icc _ _) hy hx
  simpa only [Real.norm_eq_abs] using h

/-- the integral of a Chebyshev polynomial over [-1, 1] -/
theorem abs_integral_T (m : ℕ) (hm : 2 ≤ m) : |weightIntegral (Set.Ioo (-1) 1) (fun _ => 1) (Chebyshev.T ℝ m)| ≤ 2 / ((m : ℝ) ^ 2 - 1) := by
  have hm' : (2 : ℝ) ≤ m := by exact_mod_cast hm
  set P : ℝ[X] := C (1 / (2 * ((m : ℝ) + 1))) * Chebyshev.T ℝ (m + 1 : ℤ) - C (1 / (2 * ((m : ℝ) - 1))) * Chebyshev.T ℝ (m - 1 : ℤ) with hP
  have hd : derivative P = Chebyshev.T ℝ (m : ℤ) := by
    have hU := Chebyshev.T_eq_U_sub_X_mul_U ℝ (m : ℤ)
    have hU2 := Chebyshev.U_sub_two ℝ (m : ℤ)
    rw [hP, derivative_sub, derivative_C_mul, derivative_C_mul, Chebyshev.T_derivative_eq_U, Chebyshev.T_derivative_eq_U,
      show (m : ℤ) + 1 - 1 = m by ring, show (m : ℤ) - 1 - 1 = m - 2 by ring]
    have c1 : C (1 / (2 * ((m : ℝ) + 1))) * ((((m : ℤ) + 1 : ℤ) : ℝ[X]) * Chebyshev.U ℝ (m : ℤ)) = C (1 / 2) * Chebyshev.U ℝ (m : ℤ) := by
      rw [← mul_assoc]; congr 1
      rw [show (((m : ℤ) + 1 : ℤ) : ℝ[X]) = C ((m : ℝ) + 1) by simp, ← C_mul]
      congr 1; field_simp
    have c2 : C (1 / (2 * ((m : ℝ) - 1))) * ((((m : ℤ) - 1 : ℤ) : ℝ[X]) * Chebyshev.U ℝ ((m : ℤ) - 2)) = C (1 / 2) * Chebyshev.U ℝ ((m : ℤ) - 2) := by
      rw [← mul_assoc]; congr 1
      rw [show (((m : ℤ) - 1 : ℤ) : ℝ[X]) = C ((m : ℝ) - 1) by simp, ← C_mul]
      have : (m : ℝ) - 1 ≠ 0 := by linarith
      congr 1; field_simp
    rw [c1, c2, hU, hU2]
    have : (C (1 / 2) : ℝ[X]) * 2 = 1 := by
      rw [show (2 : ℝ[X]) = C 2 from (map_ofNat C 2).symm, ← C_mul]; norm_num
    linear_combination (Chebyshev.U ℝ (m : ℤ) - X * Chebyshev.U ℝ ((m : ℤ) - 1)) * this
  unfold weightIntegral
  simp only [mul_one]
  rw [setIntegral_Ioo_eq_interval (by norm_num), ← hd, intervalIntegral.integral_eq_sub_of_hasDerivAt (fun x _ => P.hasDerivAt x)
    ((derivative P).continuous.intervalIntegrable _ _)]
  have e : ∀ x : ℝ, P.eval x = 1 / (2 * ((m : ℝ) + 1)) * (Chebyshev.T ℝ (m + 1 : ℤ)).eval x - 1 / (2 * ((m : ℝ) - 1)) * (Chebyshev.T ℝ (m - 1 : ℤ)).eval x := fun x => by
    simp [hP]
  have p1 : (Chebyshev.T ℝ (m + 1 : ℤ)).eval (-1 : ℝ) = (Chebyshev.T ℝ (m - 1 : ℤ)).eval (-1 : ℝ) := by
    have h1 := Chebyshev.T_add_two ℝ ((m : ℤ) - 1)
    rw [show (m : ℤ) - 1 + 2 = m + 1 by ring, show (m : ℤ) - 1 + 1 = m by ring] at h1
    have h2 := Chebyshev.T_eval_neg_one (R := ℝ) (m + 1 : ℤ)
    have h3 := Chebyshev.T_eval_neg_one (R := ℝ) (m - 1 : ℤ)
    rw [h2, h3, show (m : ℤ) + 1 = m - 1 + 2 by ring, Int.negOnePow_add]
    simp
  have p2 : |(Chebyshev.T ℝ (m - 1 : ℤ)).eval (-1 : ℝ)| ≤ 1 := by
    have := abs_T_le (x := -1) le_rfl (by norm_num) (m - 1)
    rwa [Nat.cast_sub (by omega), Nat.cast_one] at this
  rw [e, e, p1]
  simp only [Chebyshev.T_eval_one, mul_one]
  set s := (Chebyshev.T ℝ (m - 1 : ℤ)).eval (-1 : ℝ)
  have hpos : 0 < (m : ℝ) ^ 2 - 1 := by nlinarith
  have h1 : (m : ℝ) - 1 ≠ 0 := by linarith
  have h2 : (m : ℝ) + 1 ≠ 0 := by linarith
  have h3 : (m : ℝ) ^ 2 - 1 ≠ 0 := hpos.ne'
  have : 1 / (2 * ((m : ℝ) + 1)) - 1 / (2 * ((m : ℝ) - 1)) - (1 / (2 * ((m : ℝ) + 1)) * s - 1 / (2 * ((m : ℝ) - 1)) * s) = -(1 - s) / ((m : ℝ) ^ 2 - 1) := by
    rw [show (m : ℝ) ^ 2 - 1 = (m - 1) * (m + 1) by ring]
    field_simp; ring
  rw [this, abs_div, abs_of_pos hpos]
  refine div_le_div_of_nonneg_right ?_ hpos.le
  rw [abs_le] at p2 ⊢
  constructor <;> linarith [p2.1, p2.2]

variable {F : ℝ → ℝ} {c : ℕ → ℝ}

/-- the error on a series is at most the sum of the errors on its terms -/
theorem series_error {w : ℝ → ℝ} (hw0 : ∀ x ∈ Set.Ioo (-1 : ℝ) 1, 0 ≤ w x) (hint : ∀ p : ℝ[X], IntegrableOn (fun x => p.eval x * w x) (Set.Ioo (-1) 1))
    (hc : Summable fun m => |c m|) (hF : ∀ x ∈ Set.Icc (-1 : ℝ) 1, F x = ∑' m : ℕ, c m * (Chebyshev.T ℝ m).eval x) {L : List (ℝ × ℝ)} (hL : ∀ p ∈ L, p.1 ∈ Set.Icc (-1 : ℝ) 1)
    {κ K : ℝ} {N : ℕ} {e : ℕ → ℝ} (he : ∀ m < N, |(quad L fun x => (Chebyshev.T ℝ m).eval x) - κ * weightIntegral (Set.Ioo (-1) 1) w (Chebyshev.T ℝ m)| ≤ e m)
    (hK : ∀ m, N ≤ m → |(quad L fun x => (Chebyshev.T ℝ m).eval x) - κ * weightIntegral (Set.Ioo (-1) 1) w (Chebyshev.T ℝ m)| ≤ K) :
    |quad L F - κ * ∫ x in Set.Ioo (-1 : ℝ) 1, F x * w x| ≤ ∑ m ∈ Finset.range N, e m * |c m| + K * ∑' k : ℕ, |c (N + k)| := by
  have h1 := (hasSum_quad hc hF hL).sub ((hasSum_weight hw0 hint hc hF).mul_left κ)
  have h2 := h1.congr_fun' (g := fun m : ℕ => c m * ((quad L fun x => (Chebyshev.T ℝ m).eval x) - κ * weightIntegral (Set.Ioo (-1) 1) w (Chebyshev.T ℝ m))) fun m => by ring
  rw [← hasSum_nat_add_iff' N] at h2
  have hs : Summable fun k : ℕ => |c (N + k)| := by simpa only [add_comm] using (summable_nat_add_iff N).2 hc
  have h3 : |quad L F - (κ * ∫ x in Set.Ioo (-1 : ℝ) 1, F x * w x) - ∑ m ∈ Finset.range N, c m * ((quad L fun x => (Chebyshev.T ℝ m).eval x) - κ * weightIntegral (Set.Ioo (-1) 1) w (Chebyshev.T ℝ m))| ≤
      K * ∑' k : ℕ, |c (N + k)| := by
    rw [← h2.tsum_eq, ← tsum_mul_left, ← Real.norm_eq_abs]
    refine tsum_of_norm_bounded (hs.mul_left K).hasSum fun k => ?_
    rw [Real.norm_eq_abs, abs_mul, add_comm k N, mul_comm]
    exact mul_le_mul_of_nonneg_right (hK _ (by omega)) (abs_nonneg _)
  have h4 : |∑ m ∈ Finset.range N, c m * ((quad L fun x => (Chebyshev.T ℝ m).eval x) - κ * weightIntegral (Set.Ioo (-1) 1) w (Chebyshev.T ℝ m))| ≤
      ∑ m ∈ Finset.range N, e m * |c m| := by
    refine (Finset.abs_sum_le_sum_abs _ _).trans (Finset.sum_le_sum fun m hm => ?_)
    rw [abs_mul, mul_comm]
    exact mul_le_mul_of_nonneg_right (he m (Finset.mem_range.1 hm)) (abs_nonneg _)
  rw [abs_le] at h3 h4 ⊢
  constructor <;> linarith [h3.1, h3.2, h4.1, h4.2]

end GaussQuad
